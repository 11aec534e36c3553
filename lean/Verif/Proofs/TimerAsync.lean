import Verif.Spec.TimerAsync
import Verif.Proofs.RegionPending

/-!
# The asynchronous timers of regions
-/

namespace Apollo

open Spec

variable {M : Type}

/-! ## The timers after a history -/

theorem timersFrom_append (h l : List Ev) (s : ℕ × (ℕ → Option AsyncTimer)) :
    timersFrom (h ++ l) s = timersFrom l (timersFrom h s) := by
  induction h generalizing s with
  | nil => rfl
  | cons e h ih => exact ih _

theorem timersFrom_fst (h : List Ev) (s : ℕ × (ℕ → Option AsyncTimer)) :
    (timersFrom h s).1 = s.1 + h.length := by
  induction h generalizing s with
  | nil => rfl
  | cons e h ih => rw [timersFrom, ih]; simp; omega

theorem timers_snoc (h : List Ev) (e : Ev) :
    timers (h ++ [e]) = nextTimers h.length (timers h) e := by
  unfold timers
  rw [timersFrom_append]
  simp only [timersFrom]
  rw [timersFrom_fst]
  simp

/-- The event is a call on the timer of context `n`. -/
def touches (n : ℕ) : Ev → Bool
  | .began _ c => c == .heap n
  | .ended _ c => c == .heap n
  | .finished _ c _ => c == .heap n
  | _ => false

theorem nextTimers_of_not_touches {k n : ℕ} {T : ℕ → Option AsyncTimer} {e : Ev}
    (h : touches n e = false) : nextTimers k T e n = T n := by
  cases e with
  | began r c =>
    cases c with
    | sync => rfl
    | heap n' =>
      simp only [touches, beq_eq_false_iff_ne, ne_eq, CtxPtr.heap.injEq] at h
      simp [nextTimers, Ne.symm h]
  | ended r c =>
    cases c with
    | sync => rfl
    | heap n' =>
      simp only [touches, beq_eq_false_iff_ne, ne_eq, CtxPtr.heap.injEq] at h
      simp [nextTimers, Ne.symm h]
  | finished r c m =>
    cases c with
    | sync => rfl
    | heap n' =>
      simp only [touches, beq_eq_false_iff_ne, ne_eq, CtxPtr.heap.injEq] at h
      simp [nextTimers, Ne.symm h]
  | _ => rfl

/-- The timer of context `n` agrees with the history. -/
structure Recorded (h : List Ev) (n : ℕ) : Prop where
  timer : ∃ T a, timers h n = some T ∧ T.eventStart = some a ∧ BeganAt h (.heap n) a ∧
    (∀ b, T.eventStop = some b → a < b ∧ EndedLast h (.heap n) b) ∧
    (T.eventStop = none → ∀ r, Ev.ended r (.heap n) ∉ h)

theorem getElem?_snoc_old {h : List Ev} {e x : Ev} {k : ℕ} (hk : h[k]? = some x) :
    (h ++ [e])[k]? = some x := by
  have : k < h.length := by
    by_contra hn
    rw [List.getElem?_eq_none (by omega)] at hk
    cases hk
  rw [List.getElem?_append_left this]; exact hk

theorem getElem?_snoc {h : List Ev} {e x : Ev} {k : ℕ} (hk : (h ++ [e])[k]? = some x) :
    h[k]? = some x ∨ (k = h.length ∧ e = x) := by
  rw [List.getElem?_append] at hk
  split at hk
  · exact .inl hk
  · right
    rw [List.getElem?_singleton] at hk
    split at hk
    · exact ⟨by omega, by simpa using hk⟩
    · cases hk

theorem lt_of_getElem? {h : List Ev} {x : Ev} {k : ℕ} (hk : h[k]? = some x) : k < h.length := by
  by_contra hn
  rw [List.getElem?_eq_none (by omega)] at hk
  cases hk

theorem Spec.BeganAt.snoc {h : List Ev} {c : CtxPtr} {a : ℕ} {e : Ev} (hb : BeganAt h c a)
    (he : ∀ r, e ≠ .began r c) : BeganAt (h ++ [e]) c a := by
  obtain ⟨⟨r, h1⟩, h2⟩ := hb
  refine ⟨⟨r, getElem?_snoc_old h1⟩, fun k r' hk => ?_⟩
  rcases getElem?_snoc hk with hk | ⟨-, hk⟩
  · exact h2 k r' hk
  · exact absurd hk (he r')

theorem Spec.EndedLast.snoc {h : List Ev} {c : CtxPtr} {b : ℕ} {e : Ev} (hb : EndedLast h c b)
    (he : ∀ r, e ≠ .ended r c) : EndedLast (h ++ [e]) c b := by
  obtain ⟨⟨r, h1⟩, h2⟩ := hb
  refine ⟨⟨r, getElem?_snoc_old h1⟩, fun k r' hk => ?_⟩
  rcases getElem?_snoc hk with hk | ⟨-, hk⟩
  · exact h2 k r' hk
  · exact absurd hk (he r')

/-- Other events leave the timer as it is. -/
theorem Recorded.other {h : List Ev} {n : ℕ} {e : Ev} (hr : Recorded h n)
    (he : touches n e = false) : Recorded (h ++ [e]) n := by
  obtain ⟨T, a, hT, ha, hb, h1, h2⟩ := hr
  have nb : ∀ r, e ≠ .began r (.heap n) := by rintro r rfl; simp [touches] at he
  have ne : ∀ r, e ≠ .ended r (.heap n) := by rintro r rfl; simp [touches] at he
  refine ⟨T, a, ?_, ha, hb.snoc nb, fun b hs => ?_, fun hs r hm => ?_⟩
  · rw [timers_snoc, nextTimers_of_not_touches he]; exact hT
  · exact ⟨(h1 b hs).1, (h1 b hs).2.snoc ne⟩
  · rcases List.mem_append.1 hm with hm | hm
    · exact h2 hs r hm
    · exact ne r (List.mem_singleton.1 hm).symm

theorem Recorded.others {h l : List Ev} {n : ℕ} (hr : Recorded h n)
    (he : ∀ e ∈ l, touches n e = false) : Recorded (h ++ l) n := by
  induction l using List.reverseRecOn with
  | nil => simpa using hr
  | append_singleton l e ih =>
    rw [← List.append_assoc]
    exact (ih fun e' h' => he e' (by simp [h'])).other (he e (by simp))

theorem Recorded.ended {h : List Ev} {n r : ℕ} (hr : Recorded h n) :
    Recorded (h ++ [.ended r (.heap n)]) n := by
  obtain ⟨T, a, hT, ha, hb, h1, h2⟩ := hr
  obtain ⟨⟨r', hra⟩, -⟩ := id hb
  have hlt := lt_of_getElem? hra
  refine ⟨T.stop h.length, a, ?_, ha, hb.snoc (by simp), fun b hs => ?_, fun hs => ?_⟩
  · rw [timers_snoc]; simp [nextTimers, hT]
  · simp only [AsyncTimer.stop, Option.some.injEq] at hs
    subst hs
    refine ⟨hlt, ⟨r, by simp⟩, fun k r' hk => ?_⟩
    rcases getElem?_snoc hk with hk | ⟨rfl, -⟩
    · exact (lt_of_getElem? hk).le
    · exact le_refl _
  · simp [AsyncTimer.stop] at hs

theorem Recorded.began {h : List Ev} {n r : ℕ} (hb : ∀ r, Ev.began r (.heap n) ∉ h)
    (he : ∀ r, Ev.ended r (.heap n) ∉ h) : Recorded (h ++ [.began r (.heap n)]) n := by
  refine ⟨({} : AsyncTimer).start h.length, h.length, ?_, rfl, ⟨⟨r, by simp⟩, fun k r' hk => ?_⟩,
    fun b hs => ?_, fun _ r' hm => ?_⟩
  · rw [timers_snoc]; simp [nextTimers]
  · rcases getElem?_snoc hk with hk | ⟨rfl, -⟩
    · exact absurd (List.mem_of_getElem? hk) (hb r')
    · rfl
  · simp [AsyncTimer.start] at hs
  · rcases List.mem_append.1 hm with hm | hm
    · exact he r' hm
    · simp at hm

/-! ## The timers of the contexts that live -/

/-- The timers of the contexts that live agree with the history. -/
def Recording (w : World M) : Prop := ∀ n, (w.ctxs (.heap n)).isSome → Recorded w.log n

theorem touches_trained {l : List Ev} (h : ∀ e ∈ l, ∃ r ds, e = Ev.trained r ds) (n : ℕ) :
    ∀ e ∈ l, touches n e = false := by
  intro e he
  obtain ⟨r, ds, rfl⟩ := h e he
  rfl

/-- Steps without calls on timers. -/
theorem Recording.frame {w w' : World M} {l : List Ev} (hw : Recording w)
    (hl : w'.log = w.log ++ l) (hf : ∀ n, ∀ e ∈ l, touches n e = false)
    (hc : ∀ n, (w'.ctxs (.heap n)).isSome → (w.ctxs (.heap n)).isSome) : Recording w' := by
  intro n hn
  rw [hl]
  exact (hw n (hc n hn)).others (hf n)

theorem isSome_of_update {w : World M} {c : CtxPtr} {C C' : Ctx} (hC : w.ctxs c = some C) (n : ℕ)
    (h : (Function.update w.ctxs c (some C') (.heap n)).isSome) : (w.ctxs (.heap n)).isSome := by
  by_cases hc : CtxPtr.heap n = c
  · subst hc; rw [hC]; rfl
  · rwa [Function.update_of_ne hc] at h

theorem Recording.stable (env : Env M) (F : ℕ → Prop) : Stable env F (Recording (M := M)) := by
  refine Stable.of ?_ ?_ ?_ ?_
  · intro w l w' ht hw
    exact hw.frame ht.log (fun n => touches_trained ht.events n) (by rw [ht.ctxs]; exact fun _ h => h)
  · intro w c hw
    exact hw.frame (l := [.waiting c]) rfl (by simp [touches]) (fun _ h => h)
  · intro w r c m w' hw h n hn
    obtain ⟨R, m', C, l, h1⟩ := collectContext_ok h
    rw [h1.ctxs] at hn
    have hne : c ≠ .heap n := by
      rintro rfl
      simp at hn
    rw [Function.update_of_ne hne.symm] at hn
    rw [h1.log]
    refine ((hw n hn).other (e := .finished r c m) ?_).others (touches_trained h1.events n)
    simpa [touches] using hne
  · intro w r R cs hw _
    exact hw

theorem Recording.invariant (env : Env M) (F : ℕ → Prop) :
    Invariant env F (fun w : World M => LogInv w ∧ Recording w) where
  advance := fun w h =>
    ⟨(LogInv.invariant env F).advance _ h.1, (Recording.stable env F).advance _ h.2⟩
  body := fun w₀ w r s w' h0 h hF ht =>
    ⟨(LogInv.invariant env F).body w₀ w r s w' h0.1 h.1 hF ht,
      (Recording.stable env F).body w₀ w r s w' h0.2 h.2 hF ht⟩
  single := fun w ds rs w' h hs ht =>
    ⟨(LogInv.invariant env F).single w ds rs w' h.1 hs ht,
      (Recording.stable env F).single w ds rs w' h.2 hs ht⟩
  collect := fun w r w' h hc =>
    ⟨(LogInv.invariant env F).collect w r w' h.1 hc,
      (Recording.stable env F).collectPending h.2 hc⟩
  finish := fun w r c m w' h hc =>
    ⟨(LogInv.invariant env F).finish w r c m w' h.1 hc,
      (Recording.stable env F).finish w r c m w' h.2 hc⟩
  created := by
    rintro w nf name n mt info yaml r w' ⟨hI, hw⟩ h
    refine ⟨(LogInv.invariant env F).created _ _ _ _ _ _ _ _ _ hI h, ?_⟩
    obtain ⟨R, m, l, h1⟩ := createRegion_ok h
    refine hw.frame (l := l ++ [.created r R.dataset (env.ops.isTrainable m)])
      (by rw [h1.log, List.append_assoc]) ?_ ?_
    · intro n e he
      rcases List.mem_append.1 he with he | he
      · exact touches_trained h1.events n e he
      · rw [List.mem_singleton.1 he]; rfl
    · intro n hn; rw [h1.ctxs] at hn; simpa using hn
  began := by
    rintro w r c R C w' ⟨hI, hw⟩ h
    refine ⟨hI.began h, fun n hn => ?_⟩
    rw [h.log]
    rw [h.ctxs] at hn
    by_cases hc : c = .heap n
    · subst hc
      have hfresh : ∀ e ∈ w.log, evCtx e ≠ some (.heap n) := by
        intro e he hx
        have := hI.evCtx e he _ hx
        rcases h.ctx with ⟨h0, _⟩ | ⟨h0, _⟩
        · cases h0
        · cases h0; exact absurd this (by simp [Known])
      exact Recorded.began (fun r' hm => hfresh _ hm rfl) (fun r' hm => hfresh _ hm rfl)
    · rw [Function.update_of_ne (Ne.symm hc)] at hn
      exact (hw n hn).other (by simpa [touches] using hc)
  assigned := by
    rintro w c C f ⟨hI, hw⟩ hC
    exact ⟨(LogInv.invariant env F).assigned _ _ _ _ hI hC,
      hw.frame (l := [.assigned c f]) rfl (by simp [touches]) (isSome_of_update hC)⟩
  feature := by
    rintro w c C v ⟨hI, hw⟩ hC
    exact ⟨(LogInv.invariant env F).feature _ _ _ _ hI hC,
      hw.frame (l := [.feature c v]) rfl (by simp [touches]) (isSome_of_update hC)⟩
  chose := by
    rintro w r c R m C p m' ⟨hI, hw⟩ hR hm hC hp
    exact ⟨(LogInv.invariant env F).chose _ _ _ _ _ _ _ _ hI hR hm hC hp,
      hw.frame (l := [.chose r c p]) rfl (by simp [touches]) (isSome_of_update hC)⟩
  stop := by
    rintro w c C t ⟨hI, hw⟩ hC
    exact ⟨(LogInv.invariant env F).stop _ _ _ _ hI hC,
      hw.frame (l := []) (by simp [World.setCtx]) (by simp) (isSome_of_update hC)⟩
  ended := by
    rintro w r c R ⟨hI, hw⟩ hR hC hne
    refine ⟨(LogInv.invariant env F).ended _ _ _ _ hI hR hC hne, fun n hn => ?_⟩
    show Recorded (w.log ++ [.ended r c]) n
    by_cases hc : c = .heap n
    · subst hc; exact (hw n hn).ended
    · exact (hw n hn).other (by simpa [touches] using hc)
  period := by
    rintro w ⟨hI, hw⟩
    exact ⟨(LogInv.invariant env F).period _ hI, hw⟩
  destroyed := by
    rintro w r R ⟨hI, hw⟩ hR hp
    obtain ⟨f1, f2, f3, f4, f5, f6, _⟩ := afterDestroy_frame env w r R
    refine ⟨hI.destroyed hR, hw.frame f4 (by simp [touches]) ?_⟩
    intro n hn
    rw [f3] at hn; simpa using hn

theorem recording_init (cfg : Cfg) (files : Str → Option Str) :
    Recording (initWorld cfg files : World M) := by
  have hc : (initWorld cfg files : World M).ctxs = fun _ => none := rfl
  intro n hn
  rw [hc] at hn
  cases hn

/-- A context that lives and was ended has a timer whose two events were recorded. -/
theorem Recorded.asked {h : List Ev} {n r : ℕ} (hr : Recorded h n)
    (he : Ev.ended r (.heap n) ∈ h) :
    ∃ a b, timers h n = some ⟨some a, some b⟩ ∧ BeganAt h (.heap n) a ∧ EndedLast h (.heap n) b ∧
      a < b := by
  obtain ⟨⟨s, t⟩, a, hT, ha, hb, h1, h2⟩ := hr
  simp only at ha
  subst ha
  cases t with
  | none => exact absurd he (h2 rfl r)
  | some b => exact ⟨a, b, hT, hb, (h1 b rfl).2, (h1 b rfl).1⟩

/-- Its answer. -/
theorem Recorded.answer {h : List Ev} {n r : ℕ} (hr : Recorded h n)
    (he : Ev.ended r (.heap n) ∈ h) (D : Device) :
    D.poll h n = .waiting ∨ ∃ m, D.poll h n = .done m ∧ Measured D h (.heap n) m := by
  obtain ⟨a, b, hT, hb, hl, hab⟩ := hr.asked he
  unfold Device.poll
  rw [hT]
  simp only [AsyncTimer.isDone, Device.elapsed]
  split
  next ms hx =>
    split at hx
    next hp =>
      cases hx
      exact .inr ⟨_, rfl, a, b, hb, hl, hab, hp.2, rfl⟩
    next => cases hx
  next hx => exact .inl rfl
  next hx => split at hx <;> cases hx

/-! ## No timer is asked that would fail -/

/-- The invariant of executions. -/
def Asked (w : World M) : Prop := (LogInv w ∧ Recording w) ∧ LogInv w ∧ Tracked w

theorem Invariant.and {env : Env M} {F : ℕ → Prop} {P Q : World M → Prop} (hP : Invariant env F P)
    (hQ : Invariant env F Q) : Invariant env F (fun w => P w ∧ Q w) where
  advance := fun w h => ⟨hP.advance w h.1, hQ.advance w h.2⟩
  body := fun w₀ w r s w' h0 h hF ht =>
    ⟨hP.body w₀ w r s w' h0.1 h.1 hF ht, hQ.body w₀ w r s w' h0.2 h.2 hF ht⟩
  single := fun w ds rs w' h hs ht =>
    ⟨hP.single w ds rs w' h.1 hs ht, hQ.single w ds rs w' h.2 hs ht⟩
  collect := fun w r w' h hc => ⟨hP.collect w r w' h.1 hc, hQ.collect w r w' h.2 hc⟩
  finish := fun w r c m w' h hc => ⟨hP.finish w r c m w' h.1 hc, hQ.finish w r c m w' h.2 hc⟩
  created := fun w nf name n mt info yaml r w' h hc =>
    ⟨hP.created w nf name n mt info yaml r w' h.1 hc,
      hQ.created w nf name n mt info yaml r w' h.2 hc⟩
  began := fun w r c R C w' h hb => ⟨hP.began w r c R C w' h.1 hb, hQ.began w r c R C w' h.2 hb⟩
  assigned := fun w c C f h hC => ⟨hP.assigned w c C f h.1 hC, hQ.assigned w c C f h.2 hC⟩
  feature := fun w c C v h hC => ⟨hP.feature w c C v h.1 hC, hQ.feature w c C v h.2 hC⟩
  traced := fun w R m f p w' h ht => ⟨hP.traced w R m f p w' h.1 ht, hQ.traced w R m f p w' h.2 ht⟩
  chose := fun w r c R m C p m' h hR hm hC hp =>
    ⟨hP.chose w r c R m C p m' h.1 hR hm hC hp, hQ.chose w r c R m C p m' h.2 hR hm hC hp⟩
  stop := fun w c C t h hC => ⟨hP.stop w c C t h.1 hC, hQ.stop w c C t h.2 hC⟩
  ended := fun w r c R h hR hC hne => ⟨hP.ended w r c R h.1 hR hC hne, hQ.ended w r c R h.2 hR hC hne⟩
  period := fun w h => ⟨hP.period w h.1, hQ.period w h.2⟩
  destroyed := fun w r R h hR hp => ⟨hP.destroyed w r R h.1 hR hp, hQ.destroyed w r R h.2 hR hp⟩

theorem Asked.invariant (env : Env M) (F : ℕ → Prop) : Invariant env F (Asked (M := M)) :=
  (Recording.invariant env F).and (Tracked.invariant env F)

/-- The pending contexts were ended. -/
def Awaited (cs : List CtxPtr) (w : World M) : Prop :=
  Recording w ∧ ∀ c ∈ cs, ∃ r, Ev.ended r c ∈ w.log

theorem Awaited.stable (env : Env M) (F : ℕ → Prop) (cs : List CtxPtr) :
    Stable env F (Awaited (M := M) cs) := by
  have hR := Recording.stable env F
  refine Stable.of ?_ ?_ ?_ ?_
  · rintro w l w' ht ⟨h1, h2⟩
    refine ⟨h1.frame ht.log (fun n => touches_trained ht.events n)
      (by rw [ht.ctxs]; exact fun _ h => h), fun c hc => ?_⟩
    obtain ⟨r, hr⟩ := h2 c hc
    exact ⟨r, by rw [ht.log]; exact List.mem_append_left _ hr⟩
  · rintro w c ⟨h1, h2⟩
    refine ⟨hR.waiting _ _ h1, fun c hc => ?_⟩
    obtain ⟨r, hr⟩ := h2 c hc
    exact ⟨r, List.mem_append_left _ hr⟩
  · rintro w r c m w' ⟨h1, h2⟩ h
    refine ⟨hR.finish _ _ _ _ _ h1 h, fun c hc => ?_⟩
    obtain ⟨r, hr⟩ := h2 c hc
    obtain ⟨R, m', C, l, h3⟩ := collectContext_ok h
    exact ⟨r, by rw [h3.log]; exact List.mem_append_left _ (List.mem_append_left _ hr)⟩
  · rintro w r R cs ⟨h1, h2⟩ hR'
    exact ⟨hR.pending _ _ _ _ h1 hR', h2⟩

theorem bind_congr_ok {α β : Type} {x : Res α} {f g : α → Res β}
    (h : ∀ a, x = .ok a → f a = g a) : x >>= f = x >>= g := by
  cases x with
  | error e => rfl
  | ok a => exact h a rfl

/-! What does not ask timers does not depend on them. -/

section

variable {env : Env M} {p : ℕ → List Ev → ℕ → TimerAns}

theorem trainAllWith_poll (ds : Dataset) (rs : List ℕ) (w : World M) :
    trainAllWith { env with poll := p } ds rs w = trainAllWith env ds rs w := by
  induction rs generalizing w with
  | nil => rfl
  | cons r rs ih =>
    simp only [trainAllWith]
    refine bind_congr fun _ => bind_congr fun _ => bind_congr fun _ => ?_
    exact ih _

theorem apolloTrainNoCollect_poll (w : World M) (s : ℤ) :
    apolloTrainNoCollect { env with poll := p } w s = apolloTrainNoCollect env w s := by
  unfold apolloTrainNoCollect apolloTrainWith
  have : trainNoCollectOf { env with poll := p } s = trainNoCollectOf env s := rfl
  rw [this]
  simp only [trainAllWith_poll]

theorem autoTrain_poll (w : World M) (r : ℕ) :
    autoTrain { env with poll := p } w r = autoTrain env w r := by
  unfold autoTrain
  simp only [apolloTrainNoCollect_poll]
  rfl

theorem collectContext_poll (w : World M) (r : ℕ) (c : CtxPtr) (m : ℚ) :
    collectContext { env with poll := p } w r c m = collectContext env w r c m := by
  unfold collectContext
  simp only [autoTrain_poll]
  rfl

theorem loadDatasetParam_poll {w : World M} {r : ℕ} {R : Region} (hR : w.regions r = some R)
    (hp : R.pending = []) :
    loadDatasetParam { env with poll := p } w r = loadDatasetParam env w r := by
  unfold loadDatasetParam
  refine bind_congr_ok fun R' hR' => ?_
  rw [World.region_ok.2 hR] at hR'
  cases hR'
  split
  · rfl
  · split
    · rfl
    · refine bind_congr fun ds => ?_
      split
      · rfl
      · unfold regionTrain
        have : ∀ e : Env M, collectPending e (w.setRegion r { R with dataset := ds }) r =
            .ok ((w.setRegion r { R with dataset := ds }).setRegion r
              { R with dataset := ds, pending := [] }) := by
          intro e
          have h1 : (w.setRegion r { R with dataset := ds }).region r =
              .ok { R with dataset := ds } := World.region_ok.2 (by simp [World.setRegion])
          generalize w.setRegion r { R with dataset := ds } = W at h1
          have h2 : collectLoop e r R.pending W = .ok ([], W) := by rw [hp]; rfl
          unfold collectPending
          rw [h1]
          show (collectLoop e r R.pending W >>= _) = _
          rw [h2]
          show (W.region r >>= _) = _
          rw [h1]
          rfl
        rw [this, this]
        rfl

theorem createRegion_poll (w : World M) (nf : ℤ) (name : Str) (n mt : ℤ) (info yaml : Str) :
    createRegion { env with poll := p } w nf name n mt info yaml =
      createRegion env w nf name n mt info yaml := by
  unfold createRegion
  have h0 : constructRegion { env with poll := p } w nf name n mt info yaml =
    constructRegion env w nf name n mt info yaml := rfl
  rw [h0]
  refine bind_congr_ok fun y hy => ?_
  obtain ⟨r, w₀⟩ := y
  obtain ⟨R₀, m, hid, -, a1, a2, a3, a4, a5, a6, a7, a8, a9, hw0⟩ := constructRegion_ok hy
  have hR0 : w₀.regions r = some R₀ := by
    rw [hw0]; simp [World.setRegion, World.setModel, World.setCtx, World.advance]
  have h1 : loadPersistent { env with poll := p } w₀ r = loadPersistent env w₀ r := by
    unfold loadPersistent
    simp only [autoTrain_poll]
  dsimp only
  rw [h1]
  refine bind_congr_ok fun w₁ hw1 => ?_
  obtain ⟨l1, b1⟩ := loadPersistent_built hR0 hw1
  obtain ⟨R₁, e1, e2, e3, e4⟩ := b1.regions
  rw [hR0] at e3
  cases e3
  have hR1 : w₁.regions r = some { R₀ with dataset := e1, trace := e2 } := by
    rw [e4, Function.update_self]
  rw [loadDatasetParam_poll hR1 a8]
  rfl

end

section

variable {env : Env M} {D : Device} {x : TimerAns}

theorem collectContext_unfailing (w : World M) (r : ℕ) (c : CtxPtr) (m : ℚ) :
    collectContext ((env.onDevice D).unfailing x) w r c m =
      collectContext (env.onDevice D) w r c m := collectContext_poll w r c m

theorem tryCollect_unfailing {w : World M} {r : ℕ} {c : CtxPtr} (hw : Awaited [c] w) :
    tryCollect ((env.onDevice D).unfailing x) w r c = tryCollect (env.onDevice D) w r c := by
  unfold tryCollect
  refine bind_congr_ok fun C hC => ?_
  cases c with
  | sync r' =>
    dsimp only
    simp only [collectContext_unfailing]
  | heap n =>
    obtain ⟨r', hr⟩ := hw.2 (.heap n) (by simp)
    have hl := hw.1 n (by rw [World.ctx_ok.1 hC]; rfl)
    have hne : (env.onDevice D).poll w.tick w.log n ≠ .failed := by
      show D.poll w.log n ≠ .failed
      rcases hl.answer hr D with h | ⟨m, h, -⟩ <;> rw [h] <;> simp
    have he : ((env.onDevice D).unfailing x).poll w.tick w.log n =
        (env.onDevice D).poll w.tick w.log n := if_neg hne
    dsimp only
    rw [he]
    simp only [collectContext_unfailing]

theorem collectLoop_unfailing {r : ℕ} {cs : List CtxPtr} {w : World M} (hw : Awaited cs w) :
    collectLoop ((env.onDevice D).unfailing x) r cs w = collectLoop (env.onDevice D) r cs w := by
  induction cs generalizing w with
  | nil => rfl
  | cons c cs ih =>
    simp only [collectLoop]
    rw [tryCollect_unfailing ⟨hw.1, fun c' hc => hw.2 c' (by simp at hc; simp [hc])⟩]
    refine bind_congr_ok fun y hy => ?_
    obtain ⟨b, w₁⟩ := y
    have h1 := (Awaited.stable (env.onDevice D) (fun _ => False) (c :: cs)).tryCollect hw hy
    rw [ih ⟨h1.1, fun c' hc => h1.2 c' (by simp [hc])⟩]

theorem collectPending_unfailing {r : ℕ} {w : World M} (hw : Asked w) :
    collectPending ((env.onDevice D).unfailing x) w r = collectPending (env.onDevice D) w r := by
  unfold collectPending
  refine bind_congr_ok fun R hR => ?_
  rw [collectLoop_unfailing]
  refine ⟨hw.1.2, fun c hc => ⟨r, (hw.2.2.pending r c ?_).1⟩⟩
  rw [World.pend_of (World.region_ok.1 hR)]
  exact hc

theorem regionTrain_unfailing {r : ℕ} {s : ℤ} {collect force : Bool} {w : World M} (hw : Asked w) :
    regionTrain ((env.onDevice D).unfailing x) w r s collect force =
      regionTrain (env.onDevice D) w r s collect force := by
  unfold regionTrain
  rw [collectPending_unfailing hw]
  rfl

theorem forRegions_congr {f g : World M → ℕ → Res (World M)} {P : World M → Prop}
    (hfg : ∀ w r, P w → f w r = g w r) (hP : ∀ w r w', P w → g w r = .ok w' → P w') {w : World M}
    {rs : List ℕ} (hw : P w) : forRegions f rs w = forRegions g rs w := by
  induction rs generalizing w with
  | nil => rfl
  | cons r rs ih =>
    simp only [forRegions]
    rw [hfg w r hw]
    exact bind_congr_ok fun w₁ h1 => ih (hP _ _ _ hw h1)

theorem apolloTrain_unfailing {s : ℤ} {collect : Bool} {w : World M} (hw : Asked w) :
    apolloTrain ((env.onDevice D).unfailing x) w s collect =
      apolloTrain (env.onDevice D) w s collect := by
  unfold apolloTrain apolloTrainWith
  split
  · rfl
  · split
    · exact bind_congr fun ds => trainAllWith_poll _ _ _
    · refine forRegions_congr (P := Asked) (fun w r hw => regionTrain_unfailing hw) ?_ hw
      exact fun w r w' hw h => (Asked.invariant (env.onDevice D) (fun _ => False)).toKept.regionTrain
        (by simp) hw h

theorem drain_unfailing {r fuel : ℕ} {w : World M} (hw : Asked w) :
    drain ((env.onDevice D).unfailing x) r fuel w = drain (env.onDevice D) r fuel w := by
  induction fuel generalizing w with
  | zero => rfl
  | succ n ih =>
    simp only [drain]
    refine bind_congr_ok fun R _ => ?_
    split
    · rfl
    · rw [collectPending_unfailing hw]
      exact bind_congr_ok fun w₁ h1 =>
        ih ((Asked.invariant (env.onDevice D) (fun _ => False)).collect _ _ _ hw h1)

theorem destroyRegion_unfailing {r fuel : ℕ} {w : World M} (hw : Asked w) :
    destroyRegion ((env.onDevice D).unfailing x) w r fuel =
      destroyRegion (env.onDevice D) w r fuel := by
  unfold destroyRegion
  refine bind_congr_ok fun R _ => ?_
  dsimp only
  rw [drain_unfailing ((Asked.invariant (env.onDevice D) (fun _ => False)).period _ hw)]
  rfl

theorem endMetric_unfailing {r : ℕ} {c : CtxPtr} {m : ℚ} {w : World M} (hw : Asked w) :
    endMetric ((env.onDevice D).unfailing x) w r c m = endMetric (env.onDevice D) w r c m := by
  unfold endMetric
  rw [collectContext_unfailing]
  refine bind_congr_ok fun w₁ h1 => ?_
  exact collectPending_unfailing
    ((Asked.invariant (env.onDevice D) (fun _ => False)).finish _ _ _ _ _ hw h1)

theorem endCtx_unfailing {r : ℕ} {c : CtxPtr} {w : World M} (hw : Asked w) :
    endCtx ((env.onDevice D).unfailing x) w r c = endCtx (env.onDevice D) w r c := by
  have hI := Asked.invariant (env.onDevice D) (fun _ => False)
  unfold endCtx
  refine bind_congr_ok fun R hR => ?_
  refine bind_congr_ok fun C hC => ?_
  dsimp only
  split
  · simp only [collectContext_unfailing]
    rfl
  next hne =>
    refine collectPending_unfailing (hI.ended _ _ _ _ (hI.advance _ (hI.stop _ _ _ _ hw
      (World.ctx_ok.1 hC))) (World.region_ok.1 hR) ?_ hne)
    simp [World.advance, World.setCtx]

theorem step_unfailing {op : Op} {w : World M} (hw : Asked w) :
    step ((env.onDevice D).unfailing x) w op = step (env.onDevice D) w op := by
  cases op with
  | create nf name n mt info yaml =>
    simp only [step]
    rw [show createRegion ((env.onDevice D).unfailing x) w nf name n mt info yaml = _ from
      createRegion_poll w nf name n mt info yaml]
  | destroy r fuel => simp only [step]; rw [destroyRegion_unfailing hw]
  | endMetric r c m => simp only [step]; rw [endMetric_unfailing hw]
  | endCtx r c => simp only [step]; rw [endCtx_unfailing hw]
  | endMetricCur r m =>
    simp only [step]
    exact bind_congr_ok fun c _ => by rw [endMetric_unfailing hw]
  | endCur r =>
    simp only [step]
    exact bind_congr_ok fun c _ => by rw [endCtx_unfailing hw]
  | collect r => simp only [step]; rw [collectPending_unfailing hw]
  | train r s c f => simp only [step]; rw [regionTrain_unfailing hw]
  | trainAll s c => simp only [step]; rw [apolloTrain_unfailing hw]
  | _ => rfl

theorem exec_unfailing {ops : List Op} {w : World M} (hw : Asked w) :
    exec ((env.onDevice D).unfailing x) ops w = exec (env.onDevice D) ops w := by
  induction ops generalizing w with
  | nil => rfl
  | cons op ops ih =>
    simp only [exec]
    rw [step_unfailing hw]
    exact bind_congr_ok fun y hy =>
      ih ((Asked.invariant (env.onDevice D) (fun _ => True)).step (fun _ _ _ _ => trivial) hw hy)

end

/-! ## What the timers report -/

theorem allMeasured_snoc (D : Device) (h : List Ev) (e : Ev) :
    AllMeasured D (h ++ [e]) ↔
      AllMeasured D h ∧ ∀ r n m, e = .finished r (.heap n) m → Measured D h (.heap n) m := by
  constructor
  · refine fun H => ⟨fun h₁ r n m h₂ heq => H h₁ r n m (h₂ ++ [e]) (by simp [heq]), ?_⟩
    rintro r n m rfl
    exact H h r n m [] rfl
  · rintro ⟨H, He⟩ h₁ r n m h₂ heq
    rcases List.eq_nil_or_concat h₂ with rfl | ⟨h₃, x, rfl⟩
    · obtain ⟨rfl, hx⟩ := List.append_inj' heq rfl
      exact He r n m (by simpa using hx)
    · rw [List.concat_eq_append, ← List.cons_append, ← List.append_assoc] at heq
      obtain ⟨rfl, -⟩ := List.append_inj' heq rfl
      exact H h₁ r n m h₃ rfl

theorem Spec.AllMeasured.append {D : Device} {h l : List Ev} (H : AllMeasured D h)
    (hl : ∀ r n m, Ev.finished r (.heap n) m ∉ l) : AllMeasured D (h ++ l) := by
  induction l using List.reverseRecOn with
  | nil => simpa using H
  | append_singleton l e ih =>
    rw [← List.append_assoc, allMeasured_snoc]
    refine ⟨ih fun r n m hm => hl r n m (by simp [hm]), ?_⟩
    rintro r n m rfl
    exact absurd (by simp) (hl r n m)

theorem trained_no_finished {l : List Ev} (h : ∀ e ∈ l, ∃ r ds, e = Ev.trained r ds) (r n : ℕ)
    (m : ℚ) : Ev.finished r (.heap n) m ∉ l := by
  intro hm
  obtain ⟨_, _, he⟩ := h _ hm
  cases he

section

variable {env : Env M} {D : Device}

theorem collectLoop_measured {r : ℕ} {cs kept : List CtxPtr} {w w' : World M} (hw : Awaited cs w)
    (hm : AllMeasured D w.log) (h : collectLoop (env.onDevice D) r cs w = .ok (kept, w')) :
    AllMeasured D w'.log := by
  induction cs generalizing w kept with
  | nil => simp only [collectLoop] at h; cases h; exact hm
  | cons c cs ih =>
    simp only [collectLoop] at h
    obtain ⟨⟨b, w₁⟩, h1, h⟩ := (Res.bind_eq_ok _ _ _).1 h
    obtain ⟨⟨k, w₂⟩, h2, h⟩ := (Res.bind_eq_ok _ _ _).1 h
    cases h
    have hA := (Awaited.stable (env.onDevice D) (fun _ => False) (c :: cs)).tryCollect hw h1
    refine ih ⟨hA.1, fun c' hc => hA.2 c' (by simp [hc])⟩ ?_ h2
    rcases tryCollect_ok h1 with ⟨n, rfl, -, -, rfl⟩ | ⟨n, m, rfl, hp, -, hc⟩ | ⟨r', m, rfl, -, hc⟩
    · exact (allMeasured_snoc _ _ _).2 ⟨hm, by simp⟩
    · obtain ⟨R, m', C, l, h3⟩ := collectContext_ok hc
      show AllMeasured D w₁.log
      rw [h3.log]
      refine Spec.AllMeasured.append ((allMeasured_snoc _ _ _).2 ⟨hm, ?_⟩)
        (trained_no_finished h3.events)
      rintro r₁ n₁ m₁ he
      cases he
      obtain ⟨r', hr⟩ := hw.2 (.heap n) (by simp)
      have hlive : (w.ctxs (.heap n)).isSome := by
        have : w.ctxs (.heap n) = some C := h3.ctx
        rw [this]; rfl
      rcases (hw.1 n hlive).answer hr D with ha | ⟨m₂, ha, hM⟩
      · exact absurd (ha.symm.trans hp) (by simp)
      · have := ha.symm.trans hp
        cases this
        exact hM
    · obtain ⟨R, m', C, l, h3⟩ := collectContext_ok hc
      show AllMeasured D w₁.log
      rw [h3.log]
      exact Spec.AllMeasured.append ((allMeasured_snoc _ _ _).2 ⟨hm, by simp⟩)
        (trained_no_finished h3.events)

end

/-! ## Executions in which callers pass no metrics -/

/-- A property `L` of histories, which may depend on the invariant `J`, that can change only when the
execution of an asynchronous context finishes, and does not do so when contexts are collected. -/
structure Observed (env : Env M) (J : World M → Prop) (L : List Ev → Prop) : Prop where
  inv : ∀ F, Invariant env F J
  other : ∀ h e, L h → (∀ r n m, e ≠ Ev.finished r (.heap n) m) → L (h ++ [e])
  collect : ∀ w r w', J w → L w.log → collectPending env w r = .ok w' → L w'.log

section

variable {env : Env M} {J : World M → Prop} {L : List Ev → Prop}

theorem Observed.append (hO : Observed env J L) {h l : List Ev} (H : L h)
    (hl : ∀ r n m, Ev.finished r (.heap n) m ∉ l) : L (h ++ l) := by
  induction l using List.reverseRecOn with
  | nil => simpa using H
  | append_singleton l e ih =>
    rw [← List.append_assoc]
    refine hO.other _ _ (ih fun r n m hm => hl r n m (by simp [hm])) ?_
    rintro r n m rfl
    exact absurd (by simp) (hl r n m)

theorem Observed.kept (hO : Observed env J L) (F : ℕ → Prop) :
    Kept env F (fun w : World M => J w ∧ L w.log) := by
  have hI := hO.inv F
  refine ⟨fun w h => ⟨hI.advance w h.1, h.2⟩, ?_, ?_, ?_⟩
  · intro w₀ w r s w' h0 h hF ht
    refine ⟨hI.body w₀ w r s w' h0.1 h.1 hF ht, ?_⟩
    obtain ⟨l, hl, _⟩ := trainBody_trained ht
    rw [hl.log]
    exact hO.append h.2 (trained_no_finished hl.events)
  · intro w ds rs w' h hs ht
    refine ⟨hI.single w ds rs w' h.1 hs ht, ?_⟩
    obtain ⟨l, hl⟩ := trainAllWith_trained hs ht
    rw [hl.log]
    exact hO.append h.2 (trained_no_finished hl.events)
  · intro w r w' h hc
    exact ⟨hI.collect w r w' h.1 hc, hO.collect w r w' h.1 h.2 hc⟩

theorem Observed.endCtx (hO : Observed env J L) {w w' : World M} {r : ℕ} {c : CtxPtr} (hw : J w ∧ L w.log)
    (h : endCtx env w r c = .ok w') : J w' ∧ L w'.log := by
  have hI := hO.inv (fun _ => False)
  refine ⟨hI.toStepwise.endCtx hw.1 h, ?_⟩
  obtain ⟨R, C, hR, hC, ⟨m, rfl, -, h1⟩ | ⟨hne, h1⟩⟩ := endCtx_ok h
  · obtain ⟨R', m', C', l, h3⟩ := collectContext_ok h1
    rw [h3.log]
    exact hO.append (hO.other _ _ hw.2 (by simp))
      (trained_no_finished h3.events)
  · refine ((hO.kept (fun _ => False)).collect _ _ _ ⟨?_, ?_⟩ h1).2
    · refine hI.ended _ _ _ _ (hI.advance _ (hI.stop _ _ _ _ hw.1 hC)) hR ?_ hne
      simp [World.advance, World.setCtx]
    · exact hO.other _ _ hw.2 (by simp)

theorem Observed.step (hO : Observed env J L) {w w' : World M} {op : Op} {x : Ret} (hg : op.givesMetric = false)
    (hw : J w ∧ L w.log) (h : step env w op = .ok (x, w')) : J w' ∧ L w'.log := by
  have hI := hO.inv (fun _ => True)
  have hK := hO.kept (fun _ => True)
  refine ⟨hI.step (fun _ _ _ _ => trivial) hw.1 h, ?_⟩
  cases op with
  | create nf name n mt info yaml =>
    obtain ⟨⟨r, w₁⟩, h1, h⟩ := (Res.bind_eq_ok _ _ _).1 h
    cases h
    obtain ⟨R, m, l, h2⟩ := createRegion_ok h1
    rw [h2.log]
    exact hO.other _ _ (hO.append hw.2 (trained_no_finished h2.events)) (by simp)
  | destroy r fuel =>
    obtain ⟨w₁, h1, h⟩ := (Res.bind_eq_ok _ _ _).1 h
    cases h
    obtain ⟨w₁, R, h2, hR, hp, rfl⟩ := destroyRegion_ok h1
    obtain ⟨-, h3⟩ := hK.drain ⟨hI.period _ hw.1, hw.2⟩ h2
    obtain ⟨-, -, -, f4, -⟩ := afterDestroy_frame env w₁ r R
    rw [f4]
    exact hO.other _ _ h3 (by simp)
  | begin r kind =>
    obtain ⟨⟨c, w₁⟩, h1, h⟩ := (Res.bind_eq_ok _ _ _).1 h
    cases h
    obtain ⟨R, C, hb⟩ := begin_ok h1
    rw [hb.log]
    exact hO.other _ _ hw.2 (by simp)
  | beginWith r f =>
    obtain ⟨⟨c, w₁⟩, h1, h⟩ := (Res.bind_eq_ok _ _ _).1 h
    cases h
    obtain ⟨w₁, C₁, h2, hC₁, rfl⟩ := beginWith_ok h1
    obtain ⟨R, C, hb⟩ := begin_ok h2
    refine hO.other _ _ ?_ (by simp)
    show L w₁.log
    rw [hb.log]
    exact hO.other _ _ hw.2 (by simp)
  | setFeature r c v =>
    obtain ⟨w₁, h1, h⟩ := (Res.bind_eq_ok _ _ _).1 h
    cases h
    obtain ⟨C, hC, rfl⟩ := setFeature_ok h1
    exact hO.other _ _ hw.2 (by simp)
  | getPolicyIndex r c =>
    obtain ⟨⟨p, w₁⟩, h1, h⟩ := (Res.bind_eq_ok _ _ _).1 h
    cases h
    obtain ⟨R, m, C, m', F, _, _, _, _, rfl⟩ := getPolicyIndex_ok h1
    exact hO.other _ _ hw.2 (by simp)
  | endMetric r c m => cases hg
  | endCtx r c =>
    obtain ⟨w₁, h1, h⟩ := (Res.bind_eq_ok _ _ _).1 h
    cases h
    exact (hO.endCtx hw h1).2
  | setFeatureCur r v =>
    obtain ⟨c, _, h⟩ := (Res.bind_eq_ok _ _ _).1 h
    obtain ⟨w₁, h1, h⟩ := (Res.bind_eq_ok _ _ _).1 h
    cases h
    obtain ⟨C, hC, rfl⟩ := setFeature_ok h1
    exact hO.other _ _ hw.2 (by simp)
  | getPolicyIndexCur r =>
    obtain ⟨c, _, h⟩ := (Res.bind_eq_ok _ _ _).1 h
    obtain ⟨⟨p, w₁⟩, h1, h⟩ := (Res.bind_eq_ok _ _ _).1 h
    cases h
    obtain ⟨R, m, C, m', F, _, _, _, _, rfl⟩ := getPolicyIndex_ok h1
    exact hO.other _ _ hw.2 (by simp)
  | endMetricCur r m => cases hg
  | endCur r =>
    obtain ⟨c, _, h⟩ := (Res.bind_eq_ok _ _ _).1 h
    obtain ⟨w₁, h1, h⟩ := (Res.bind_eq_ok _ _ _).1 h
    cases h
    exact (hO.endCtx hw h1).2
  | collect r =>
    obtain ⟨w₁, h1, h⟩ := (Res.bind_eq_ok _ _ _).1 h
    cases h
    exact (hK.collect _ _ _ hw h1).2
  | train r s c f =>
    obtain ⟨w₁, h1, h⟩ := (Res.bind_eq_ok _ _ _).1 h
    cases h
    exact (hK.regionTrain (fun _ => trivial) hw h1).2
  | trainAll s c =>
    obtain ⟨w₁, h1, h⟩ := (Res.bind_eq_ok _ _ _).1 h
    cases h
    exact (hK.apolloTrain hw h1).2

theorem Observed.exec (hO : Observed env J L) {ops : List Op} {w w' : World M} (hg : ∀ op ∈ ops, op.givesMetric = false)
    (hw : J w ∧ L w.log) (h : exec env ops w = .ok w') : J w' ∧ L w'.log := by
  induction ops generalizing w with
  | nil => simp only [Apollo.exec] at h; cases h; exact hw
  | cons op ops ih =>
    simp only [Apollo.exec] at h
    obtain ⟨⟨x, w₁⟩, h1, h⟩ := (Res.bind_eq_ok _ _ _).1 h
    exact ih (fun op' ho => hg op' (by simp [ho])) (hO.step (hg op (by simp)) hw h1) h

end

theorem measured_observed (env : Env M) (D : Device) :
    Observed (env.onDevice D) Asked (AllMeasured D) where
  inv := fun F => Asked.invariant (env.onDevice D) F
  other := fun h e H he => (allMeasured_snoc D h e).2 ⟨H, fun r n m heq => absurd heq (he r n m)⟩
  collect := by
    intro w r w' hw hm hc
    obtain ⟨R, kept, w₁, R₁, hR, h1, _, rfl⟩ := collectPending_ok hc
    show AllMeasured D w₁.log
    refine collectLoop_measured ⟨hw.1.2, fun c hc => ⟨r, (hw.2.2.pending r c ?_).1⟩⟩ hm h1
    rw [World.pend_of hR]; exact hc

theorem asked_init (cfg : Cfg) (files : Str → Option Str) :
    Asked (initWorld cfg files : World M) :=
  ⟨⟨logInv_init cfg files, recording_init cfg files⟩, logInv_init cfg files, tracked_init cfg files⟩

theorem measured_init (D : Device) (cfg : Cfg) (files : Str → Option Str) :
    AllMeasured D (initWorld cfg files : World M).log := by
  have hl : (initWorld cfg files : World M).log = [] := rfl
  rw [hl]
  intro h₁ r n m h₂ heq
  simp at heq

/-- A measured time is not negative if the clock of the device does not go back. -/
theorem Spec.Measured.nonneg {D : Device} (hD : D.Forward) {h : List Ev} {c : CtxPtr} {m : ℚ}
    (hm : Measured D h c m) : 0 ≤ m := by
  obtain ⟨a, b, -, -, hab, -, rfl⟩ := hm
  have h1 : 0 ≤ rnd32 (D.time b - D.time a) := by
    have := rnd_mono (p := 24) (emin := -149) (by norm_num) (sub_nonneg.2 (hD a b hab.le))
    rwa [rnd_zero] at this
  have h2 := rnd_mono (p := 53) (emin := -1074) (by norm_num)
    (div_nonneg h1 (by norm_num : (0 : ℚ) ≤ 1000))
  rwa [rnd_zero] at h2

end Apollo
