import Verif.Proofs.TimerAsync

/-!
# The order in which contexts are collected
-/

namespace Apollo

open Spec

variable {M : Type}

/-! ## Pending contexts are in the order of their ends -/

/-- The pending contexts are in the order in which they were ended. -/
def Queued (w : World M) : Prop :=
  ∀ r, (w.pend r).Sublist (w.log.filterMap (endedBy r))

theorem Queued.frame {w w' : World M} {l : List Ev} (hw : Queued w) (hl : w'.log = w.log ++ l)
    (hp : ∀ r, (w'.pend r).Sublist (w.pend r)) : Queued w' := by
  intro r
  rw [hl, List.filterMap_append]
  exact ((hp r).trans (hw r)).trans (List.sublist_append_left _ _)

theorem Queued.kept (env : Env M) (F : ℕ → Prop) : Kept env F (Queued (M := M)) := by
  refine Kept.of ?_ ?_
  · intro w l w' ht hw
    exact hw.frame ht.log (fun r => by rw [ht.pend])
  · intro w r w' hw h
    obtain ⟨kept, l, s, hp⟩ := collectPending_swept h
    refine hw.frame s.log fun r' => ?_
    rw [hp]
    by_cases heq : r' = r
    · subst heq; rw [Function.update_self]; exact s.sub
    · rw [Function.update_of_ne heq]

theorem Queued.invariant (env : Env M) (F : ℕ → Prop) :
    Invariant env F (fun w : World M => LogInv w ∧ Queued w) where
  advance := fun w h => ⟨(LogInv.invariant env F).advance _ h.1, (Queued.kept env F).advance _ h.2⟩
  body := fun w₀ w r s w' h0 h hF ht =>
    ⟨(LogInv.invariant env F).body w₀ w r s w' h0.1 h.1 hF ht,
      (Queued.kept env F).body w₀ w r s w' h0.2 h.2 hF ht⟩
  single := fun w ds rs w' h hs ht =>
    ⟨(LogInv.invariant env F).single w ds rs w' h.1 hs ht,
      (Queued.kept env F).single w ds rs w' h.2 hs ht⟩
  collect := fun w r w' h hc =>
    ⟨(LogInv.invariant env F).collect w r w' h.1 hc, (Queued.kept env F).collect w r w' h.2 hc⟩
  finish := by
    rintro w r c m w' ⟨hI, hw⟩ h
    refine ⟨(LogInv.invariant env F).finish _ _ _ _ _ hI h, ?_⟩
    obtain ⟨R, m', C, l, h1⟩ := collectContext_ok h
    refine hw.frame (l := [.finished r c m] ++ l) ?_ ?_
    · rw [h1.log]; simp [World.emit]
    · intro r'; rw [h1.pend]; exact List.Sublist.refl _
  created := by
    rintro w nf name n mt info yaml r w' ⟨hI, hw⟩ h
    refine ⟨(LogInv.invariant env F).created _ _ _ _ _ _ _ _ _ hI h, ?_⟩
    obtain ⟨R, m, l, h1⟩ := createRegion_ok h
    refine hw.frame (l := l ++ [.created r R.dataset (env.ops.isTrainable m)])
      (by rw [h1.log, List.append_assoc]) fun r' => ?_
    by_cases heq : r' = r
    · subst heq
      have : w'.pend r' = [] := by simp [World.pend, h1.regions, h1.pending]
      rw [this]; exact List.nil_sublist _
    · have : w'.pend r' = w.pend r' := by simp [World.pend, h1.regions, heq]
      rw [this]
  began := by
    rintro w r c R C w' ⟨hI, hw⟩ h
    exact ⟨hI.began h, hw.frame h.log fun r' => by
      rw [World.pend_update h.region h.regions rfl]⟩
  assigned := by
    rintro w c C f ⟨hI, hw⟩ hC
    exact ⟨(LogInv.invariant env F).assigned _ _ _ _ hI hC,
      hw.frame (l := [.assigned c f]) rfl (fun _ => List.Sublist.refl _)⟩
  feature := by
    rintro w c C v ⟨hI, hw⟩ hC
    exact ⟨(LogInv.invariant env F).feature _ _ _ _ hI hC,
      hw.frame (l := [.feature c v]) rfl (fun _ => List.Sublist.refl _)⟩
  chose := by
    rintro w r c R m C p m' ⟨hI, hw⟩ hR hm hC hp
    exact ⟨(LogInv.invariant env F).chose _ _ _ _ _ _ _ _ hI hR hm hC hp,
      hw.frame (l := [.chose r c p]) rfl (fun _ => List.Sublist.refl _)⟩
  stop := by
    rintro w c C t ⟨hI, hw⟩ hC
    exact ⟨(LogInv.invariant env F).stop _ _ _ _ hI hC,
      hw.frame (l := []) (by simp [World.setCtx]) (fun _ => List.Sublist.refl _)⟩
  ended := by
    rintro w r c R ⟨hI, hw⟩ hR hC hne
    refine ⟨(LogInv.invariant env F).ended _ _ _ _ hI hR hC hne, fun r' => ?_⟩
    show (World.pend ((w.setRegion r { R with pending := R.pending ++ [c] }).emit (.ended r c))
      r').Sublist ((w.log ++ [Ev.ended r c]).filterMap (endedBy r'))
    rw [List.filterMap_append]
    by_cases heq : r' = r
    · subst heq
      have : World.pend ((w.setRegion r' { R with pending := R.pending ++ [c] }).emit
          (.ended r' c)) r' = w.pend r' ++ [c] := by
        simp [World.pend, World.emit, World.setRegion, hR]
      rw [this]
      exact (hw r').append (by simp [endedBy])
    · have : World.pend ((w.setRegion r { R with pending := R.pending ++ [c] }).emit
          (.ended r c)) r' = w.pend r' := by
        simp [World.pend, World.emit, World.setRegion, heq]
      rw [this]
      exact (hw r').trans (List.sublist_append_left _ _)
  period := by
    rintro w ⟨hI, hw⟩
    exact ⟨(LogInv.invariant env F).period _ hI, hw⟩
  destroyed := by
    rintro w r R ⟨hI, hw⟩ hR hp
    obtain ⟨f1, f2, f3, f4, f5, f6, _⟩ := afterDestroy_frame env w r R
    refine ⟨hI.destroyed hR, hw.frame f4 fun r' => ?_⟩
    by_cases heq : r' = r
    · subst heq; simp [World.pend, f1]
    · simp [World.pend, f1, heq]

theorem queued_init (cfg : Cfg) (files : Str → Option Str) :
    Queued (initWorld cfg files : World M) := by
  have hr : (initWorld cfg files : World M).regions = fun _ => none := rfl
  intro r
  simp [World.pend, hr]

/-- The positions of the ends of contexts that were ended once increase along the list of ends. -/
theorem ends_increase {h : List Ev} (ho : EndedOnce h) (r : ℕ) :
    (h.filterMap (endedBy r)).Pairwise fun c c' =>
      ∀ b b', EndedLast h c b → EndedLast h c' b' → b < b' := by
  -- positions inside a prefix
  have key : ∀ g : List Ev, (∀ (k : ℕ) (x : Ev), g[k]? = some x → h[k]? = some x) →
      (∀ c ∈ g.filterMap (endedBy r), ∀ b, EndedLast h c b → b < g.length) ∧
      (g.filterMap (endedBy r)).Pairwise fun c c' =>
        ∀ b b', EndedLast h c b → EndedLast h c' b' → b < b' := by
    intro g
    induction g using List.reverseRecOn with
    | nil => intro _; simp
    | append_singleton g e ih =>
      intro hg
      obtain ⟨i1, i2⟩ := ih fun k x hk => hg k x (getElem?_snoc_old hk)
      have he : h[g.length]? = some e := hg _ _ (by simp)
      rw [List.filterMap_append]
      have hcase : [e].filterMap (endedBy r) = [] ∨
          ∃ c, e = .ended r c ∧ [e].filterMap (endedBy r) = [c] := by
        cases e with
        | ended r' c =>
          by_cases hr : r' = r
          · subst hr; exact .inr ⟨c, rfl, by simp [endedBy]⟩
          · exact .inl (by simp [endedBy, hr])
        | _ => exact .inl (by simp [endedBy])
      rcases hcase with hn | ⟨c, rfl, hn⟩
      · rw [hn, List.append_nil]
        refine ⟨fun c hc b hb => ?_, i2⟩
        have := i1 c hc b hb
        simp; omega
      · rw [hn]
        have hpos : ∀ b, EndedLast h c b → b = g.length := by
          rintro b ⟨⟨r', hb⟩, -⟩
          exact ho _ _ _ _ _ hb he
        refine ⟨fun c' hc b hb => ?_, ?_⟩
        · rcases List.mem_append.1 hc with hc | hc
          · have := i1 c' hc b hb
            simp; omega
          · rw [List.mem_singleton.1 hc] at hb
            rw [hpos b hb]; simp
        · rw [List.pairwise_append]
          refine ⟨i2, by simp, fun c' hc c'' hc'' b b' hb hb' => ?_⟩
          rw [List.mem_singleton.1 hc''] at hb'
          rw [hpos b' hb']
          exact i1 c' hc b hb
  exact (key h fun _ _ hk => hk).2

/-! ## A pass over the pending contexts while the device stands still -/

theorem Still.all {D : Device} (hD : D.Still) {h l : List Ev} (hl : ∀ e ∈ l, collecting e = true)
    {k : ℕ} (hk : k < h.length) : k < D.passed (h ++ l) ↔ k < D.passed h := by
  induction l using List.reverseRecOn with
  | nil => simp
  | append_singleton l e ih =>
    rw [← List.append_assoc, hD _ _ (hl e (by simp)) k (by simp; omega),
      ih fun e' he => hl e' (by simp [he])]

/-- The device has executed the end of the context. -/
def Over (D : Device) (h : List Ev) (c : CtxPtr) : Prop :=
  ∃ b, EndedLast h c b ∧ b < D.passed h

theorem endedLast_append {h l : List Ev} (hl : ∀ e ∈ l, collecting e = true) {c : CtxPtr} {b : ℕ} :
    EndedLast (h ++ l) c b ↔ EndedLast h c b := by
  induction l using List.reverseRecOn with
  | nil => simp
  | append_singleton l e ih =>
    rw [← List.append_assoc, ← ih fun e' he => hl e' (by simp [he])]
    have hne : ∀ r, e ≠ .ended r c := by
      rintro r rfl
      exact absurd (hl (.ended r c) (by simp)) (by simp [collecting])
    refine ⟨fun ⟨⟨r, h1⟩, h2⟩ => ⟨?_, fun k r' hk => h2 k r' (getElem?_snoc_old hk)⟩,
      fun H => H.snoc hne⟩
    rcases getElem?_snoc h1 with h1 | ⟨-, h1⟩
    · exact ⟨r, h1⟩
    · exact absurd h1 (hne r)

theorem over_append {D : Device} (hD : D.Still) {h l : List Ev}
    (hl : ∀ e ∈ l, collecting e = true) {c : CtxPtr} : Over D (h ++ l) c ↔ Over D h c := by
  unfold Over
  refine exists_congr fun b => ?_
  rw [endedLast_append hl]
  refine and_congr_right fun ⟨⟨r, hb⟩, _⟩ => ?_
  exact Still.all hD hl (lt_of_getElem? hb)

theorem EndedLast_unique {h : List Ev} {c : CtxPtr} {b b' : ℕ} (h1 : EndedLast h c b)
    (h2 : EndedLast h c b') : b = b' := by
  obtain ⟨⟨r, e1⟩, m1⟩ := h1
  obtain ⟨⟨r', e2⟩, m2⟩ := h2
  exact le_antisymm (m2 _ _ e1) (m1 _ _ e2)

theorem Recorded.over {h : List Ev} {n r : ℕ} (hr : Recorded h n)
    (he : Ev.ended r (.heap n) ∈ h) (D : Device) :
    (D.poll h n = .waiting ↔ ¬ Over D h (.heap n)) := by
  obtain ⟨a, b, hT, hb, hl, hab⟩ := hr.asked he
  have ho : Over D h (.heap n) ↔ b < D.passed h := by
    refine ⟨fun ⟨b', h1, h2⟩ => ?_, fun h1 => ⟨b, hl, h1⟩⟩
    rwa [EndedLast_unique hl h1]
  rw [ho]
  unfold Device.poll
  rw [hT]
  simp only [AsyncTimer.isDone, Device.elapsed]
  by_cases hp : b < D.passed h
  · rw [if_pos ⟨hab.trans hp, hp⟩]; simp [hp]
  · rw [if_neg (by tauto)]; simp [hp]

theorem Spec.EndedOnce.of_append {h l : List Ev} (ho : EndedOnce (h ++ l)) : EndedOnce h :=
  fun i j r r' c hi hj => ho i j r r' c
    (by rw [List.getElem?_append_left (lt_of_getElem? hi)]; exact hi)
    (by rw [List.getElem?_append_left (lt_of_getElem? hj)]; exact hj)

theorem Spec.EndedOnce.append {h l : List Ev} (ho : EndedOnce h)
    (hl : ∀ e ∈ l, collecting e = true) : EndedOnce (h ++ l) := by
  have key : ∀ (i r : ℕ) (c : CtxPtr), (h ++ l)[i]? = some (.ended r c) →
      h[i]? = some (.ended r c) := by
    intro i r c hi
    rw [List.getElem?_append] at hi
    split at hi
    · exact hi
    · exact absurd (hl _ (List.mem_of_getElem? hi)) (by simp [collecting])
  exact fun i j r r' c hi hj => ho i j r r' c (key _ _ _ hi) (key _ _ _ hj)

theorem Spec.InOrder.snoc {h : List Ev} (H : InOrder h) {e : Ev}
    (he : ∀ r n' m, e = .finished r (.heap n') m → ∀ (n i j : ℕ), i < j →
      h[i]? = some (.ended r (.heap n)) → h[j]? = some (.ended r (.heap n')) →
      ∃ m', Ev.finished r (.heap n) m' ∈ h) : InOrder (h ++ [e]) := by
  intro r n n' i j l m hi hj hij hjl hl
  have hlen : l < h.length + 1 := by simpa using lt_of_getElem? hl
  have old : ∀ (k : ℕ) (x : Ev), k < l → (h ++ [e])[k]? = some x → h[k]? = some x := by
    intro k x hk hx
    rwa [List.getElem?_append_left (by omega)] at hx
  have hi' := old _ _ (hij.trans hjl) hi
  have hj' := old _ _ hjl hj
  rcases getElem?_snoc hl with hl | ⟨rfl, rfl⟩
  · obtain ⟨k, hk, m', hm⟩ := H r n n' i j l m hi' hj' hij hjl hl
    exact ⟨k, hk, m', getElem?_snoc_old hm⟩
  · obtain ⟨m', hm⟩ := he r n' m rfl n i j hij hi' hj'
    obtain ⟨k, hk⟩ := List.getElem?_of_mem hm
    exact ⟨k, lt_of_getElem? hk, m', getElem?_snoc_old hk⟩

theorem Spec.InOrder.other {h : List Ev} (H : InOrder h) {e : Ev}
    (he : ∀ r n m, e ≠ .finished r (.heap n) m) : InOrder (h ++ [e]) :=
  H.snoc fun r n' m heq => absurd heq (he r n' m)

theorem Spec.InOrder.others {h l : List Ev} (H : InOrder h)
    (hl : ∀ r n m, Ev.finished r (.heap n) m ∉ l) : InOrder (h ++ l) := by
  induction l using List.reverseRecOn with
  | nil => simpa using H
  | append_singleton l e ih =>
    rw [← List.append_assoc]
    refine (ih fun r n m hm => hl r n m (by simp [hm])).other ?_
    rintro r n m rfl
    exact absurd (by simp) (hl r n m)

theorem Spec.EndedOnce.last {h : List Ev} (ho : EndedOnce h) {r i : ℕ} {c : CtxPtr}
    (hi : h[i]? = some (.ended r c)) : EndedLast h c i :=
  ⟨⟨r, hi⟩, fun _ _ hk => (ho _ _ _ _ _ hk hi).le⟩

/-- In a pass over contexts in the order of their ends, executions finish in that order. -/
theorem collectLoop_inOrder {env : Env M} {D : Device} (hD : D.Still) {r : ℕ}
    {cs kept : List CtxPtr} {w w' : World M} (hw : Awaited cs w) (ho : EndedOnce w.log)
    (hO : InOrder w.log)
    (hrest : ∀ c, Ev.ended r c ∈ w.log →
      c ∈ cs ∨ (∃ m, Ev.finished r c m ∈ w.log) ∨ ¬ Over D w.log c)
    (hcs : cs.Pairwise fun c c' => ∀ b b', EndedLast w.log c b → EndedLast w.log c' b' → b < b')
    (h : collectLoop (env.onDevice D) r cs w = .ok (kept, w')) : InOrder w'.log := by
  induction cs generalizing w kept with
  | nil => simp only [collectLoop] at h; cases h; exact hO
  | cons c cs ih =>
    simp only [collectLoop] at h
    obtain ⟨⟨b, w₁⟩, h1, h⟩ := (Res.bind_eq_ok _ _ _).1 h
    obtain ⟨⟨k, w₂⟩, h2, h⟩ := (Res.bind_eq_ok _ _ _).1 h
    cases h
    have hA := (Awaited.stable (env.onDevice D) (fun _ => False) (c :: cs)).tryCollect hw h1
    obtain ⟨hfirst, hcs⟩ := List.pairwise_cons.1 hcs
    -- the events of the question
    have hl : ∃ l, w₁.log = w.log ++ l ∧ (∀ e ∈ l, collecting e = true) ∧
        InOrder (w.log ++ l) ∧ ((∃ m, Ev.finished r c m ∈ l) ∨ ¬ Over D w.log c) := by
      rcases tryCollect_ok h1 with ⟨n, rfl, hp, -, rfl⟩ | ⟨n, m, rfl, hp, -, hc⟩ |
        ⟨r', m, rfl, -, hc⟩
      · refine ⟨[.waiting (.heap n)], rfl, by simp [collecting], hO.other (by simp), .inr ?_⟩
        have hlive : (w.ctxs (.heap n)).isSome := by
          unfold tryCollect at h1
          obtain ⟨C, hC, -⟩ := (Res.bind_eq_ok _ _ _).1 h1
          rw [World.ctx_ok.1 hC]; rfl
        obtain ⟨r', hr⟩ := hw.2 (.heap n) (by simp)
        exact ((hw.1 n hlive).over hr D).1 hp
      · obtain ⟨R, m', C, l, h3⟩ := collectContext_ok hc
        have hev : ∀ e ∈ [Ev.finished r (.heap n) m] ++ l, collecting e = true := by
          intro e he
          rcases List.mem_append.1 he with he | he
          · rw [List.mem_singleton.1 he]; rfl
          · obtain ⟨_, _, rfl⟩ := h3.events e he
            rfl
        refine ⟨[.finished r (.heap n) m] ++ l, ?_, hev, ?_, .inl ⟨m, by simp⟩⟩
        · rw [h3.log]; simp [World.emit, World.advance]
        · rw [← List.append_assoc]
          refine Spec.InOrder.others (hO.snoc ?_) (trained_no_finished h3.events)
          rintro r₁ n₁ m₁ he n₂ i j hij hi hj
          cases he
          have hover : Over D w.log (.heap n) := by
            have hlive : (w.ctxs (.heap n)).isSome := by
              have : w.ctxs (.heap n) = some C := h3.ctx
              rw [this]; rfl
            obtain ⟨r', hr⟩ := hw.2 (.heap n) (by simp)
            by_contra hx
            have hx := ((hw.1 n hlive).over hr D).2 hx
            exact absurd (hx.symm.trans hp) (by simp)
          rcases hrest _ (List.mem_of_getElem? hi) with hc | hm | hn
          · rcases List.mem_cons.1 hc with hc | hc
            · rw [hc] at hi
              exact absurd (ho _ _ _ _ _ hi hj) (by omega)
            · exact absurd (hfirst _ hc j i (ho.last hj) (ho.last hi)) (by omega)
          · exact hm
          · obtain ⟨b, hb, hlt⟩ := hover
            have := EndedLast_unique hb (ho.last hj)
            exact absurd ⟨i, ho.last hi, by omega⟩ hn
      · obtain ⟨R, m', C, l, h3⟩ := collectContext_ok hc
        refine ⟨[.finished r (.sync r') m] ++ l, ?_, ?_, ?_, .inl ⟨m, by simp⟩⟩
        · rw [h3.log]; simp [World.emit]
        · intro e he
          rcases List.mem_append.1 he with he | he
          · rw [List.mem_singleton.1 he]; rfl
          · obtain ⟨_, _, rfl⟩ := h3.events e he
            rfl
        · rw [← List.append_assoc]
          exact (hO.other (by simp)).others (trained_no_finished h3.events)
    obtain ⟨l, e1, e2, e3, e4⟩ := hl
    refine ih ⟨hA.1, fun c' hc => hA.2 c' (by simp [hc])⟩ (by rw [e1]; exact ho.append e2)
      (by rw [e1]; exact e3) ?_ ?_ h2
    · intro c' hc'
      rw [e1] at hc' ⊢
      rw [over_append hD e2]
      have hc' : Ev.ended r c' ∈ w.log := by
        rcases List.mem_append.1 hc' with hc' | hc'
        · exact hc'
        · exact absurd (e2 _ hc') (by simp [collecting])
      rcases hrest c' hc' with hx | ⟨m, hx⟩ | hx
      · rcases List.mem_cons.1 hx with rfl | hx
        · rcases e4 with ⟨m, h4⟩ | h4
          · exact .inr (.inl ⟨m, List.mem_append_right _ h4⟩)
          · exact .inr (.inr h4)
        · exact .inl hx
      · exact .inr (.inl ⟨m, List.mem_append_left _ hx⟩)
      · exact .inr (.inr hx)
    · rw [e1]
      simpa only [endedLast_append e2] using hcs

/-- While the device stands still during collections, executions finish in the order of their ends. -/
theorem inOrder_observed (env : Env M) {D : Device} (hD : D.Still) :
    Observed (env.onDevice D) (fun w => Asked w ∧ (LogInv w ∧ Queued w))
      (fun h => EndedOnce h → InOrder h) where
  inv := fun F => (Asked.invariant _ F).and (Queued.invariant _ F)
  other := fun h e H he ho => (H ho.of_append).other he
  collect := by
    rintro w r w' ⟨hA, -, hQ⟩ H hc ho'
    obtain ⟨kept, l, s, -⟩ := collectPending_swept hc
    have ho : EndedOnce w.log := by rw [s.log] at ho'; exact ho'.of_append
    obtain ⟨R, kept, w₁, R₁, hR, h1, _, rfl⟩ := collectPending_ok hc
    show InOrder w₁.log
    have hp := World.pend_of hR
    refine collectLoop_inOrder hD ⟨hA.1.2, fun c hc => ⟨r, (hA.2.2.pending r c ?_).1⟩⟩ ho (H ho)
      ?_ ?_ h1
    · rw [hp]; exact hc
    · intro c hc
      rcases hA.2.2.ended r c hc with hx | hx
      · rw [hp] at hx; exact .inl hx
      · exact .inr (.inl hx)
    · rw [← hp]
      exact (ends_increase ho r).sublist (hQ r)

theorem inOrder_init (cfg : Cfg) (files : Str → Option Str) :
    InOrder (initWorld cfg files : World M).log := by
  have hl : (initWorld cfg files : World M).log = [] := rfl
  rw [hl]
  intro r n n' i j l m hi
  simp at hi

end Apollo
