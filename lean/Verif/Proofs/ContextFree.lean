import Verif.Proofs.RegionInv
import Verif.Proofs.RegionPending
import Verif.Spec.ContextFree

/-!
# The context-free interface
-/

namespace Apollo

open Spec

variable {M : Type}

/-- Without asynchronous executions nothing is pending, and running executions use the embedded
context of their region. -/
structure SyncInv (running : ℕ → Bool) (w : World M) : Prop where
  pending : ∀ r R, w.regions r = some R → R.pending = []
  fresh : ∀ r R, w.regions r = some R → r < w.nextRegion
  current : ∀ r, running r = true → ∃ R, w.regions r = some R ∧ R.current = some (.sync r)

theorem SyncInv.congr {running : ℕ → Bool} {w w' : World M} (h : SyncInv running w)
    (hr : w'.regions = w.regions) (hn : w'.nextRegion = w.nextRegion) : SyncInv running w' where
  pending := by rw [hr]; exact h.pending
  fresh := by rw [hr, hn]; exact h.fresh
  current := by rw [hr]; exact h.current

theorem SyncInv.kept (env : Env M) (F : ℕ → Prop) (running : ℕ → Bool) :
    Kept env F (SyncInv running) := by
  refine Kept.of ?_ ?_
  · intro w l w' ht hw
    exact hw.congr ht.regions ht.nextRegion
  · intro w r w' hw h
    obtain ⟨R, kept, w₁, R₁, h0, -⟩ := collectPending_ok h
    rw [collectPending_nil h0 (hw.pending _ _ h0) h]
    exact hw

/-- The region `r` changes; it is running afterwards exactly if it has a current context. -/
theorem SyncInv.update {running running' : ℕ → Bool} {w w' : World M} (h : SyncInv running w)
    {r : ℕ} {R : Region} (hlt : r < w'.nextRegion)
    (hr : w'.regions = Function.update w.regions r (some R)) (hn : w.nextRegion ≤ w'.nextRegion)
    (hp : R.pending = []) (ho : ∀ r', r' ≠ r → running' r' = true → running r' = true)
    (hc : running' r = true → R.current = some (.sync r)) : SyncInv running' w' := by
  constructor
  · intro r' R' hR'
    rw [hr] at hR'
    by_cases heq : r' = r
    · subst heq; rw [Function.update_self] at hR'; cases hR'; exact hp
    · rw [Function.update_of_ne heq] at hR'; exact h.pending _ _ hR'
  · intro r' R' hR'
    rw [hr] at hR'
    by_cases heq : r' = r
    · subst heq; exact hlt
    · rw [Function.update_of_ne heq] at hR'; exact lt_of_lt_of_le (h.fresh _ _ hR') hn
  · intro r' hr'
    rw [hr]
    by_cases heq : r' = r
    · subst heq; rw [Function.update_self]; exact ⟨R, rfl, hc hr'⟩
    · rw [Function.update_of_ne heq]; exact h.current _ (ho _ heq hr')

theorem SyncInv.finish {env : Env M} {running running' : ℕ → Bool} {w w' : World M} {r : ℕ}
    {c : CtxPtr} {m : ℚ} (h : SyncInv running w) (hr : running' r = false)
    (ho : ∀ r', r' ≠ r → running' r' = true → running r' = true)
    (hc : collectContext env (w.emit (.finished r c m)) r c m = .ok w') : SyncInv running' w' := by
  obtain ⟨R, m', C, l, h1⟩ := collectContext_ok hc
  have hR : w.regions r = some R := h1.region
  have hn : w'.nextRegion = w.nextRegion := h1.nextRegion
  refine h.update (r := r) (by rw [hn]; exact h.fresh _ _ hR) h1.regions hn.ge ?_ ho (by simp [hr])
  simp [recRegion, h.pending _ _ hR]

theorem SyncInv.destroy {env : Env M} {running running' : ℕ → Bool} {w w' : World M} {r fuel : ℕ}
    (h : SyncInv running w) (hr : running' r = false)
    (ho : ∀ r', r' ≠ r → running' r' = true → running r' = true)
    (hc : destroyRegion env w r fuel = .ok w') : SyncInv running' w' := by
  obtain ⟨w₁, R, h1, hR, hp, rfl⟩ := destroyRegion_ok hc
  have h2 : SyncInv running w₁ :=
    (SyncInv.kept env (fun _ => False) running).drain
      (w := { w with cfg := { w.cfg with globalPeriod := 0 } }) (h.congr rfl rfl) h1
  have e1 : (afterDestroy env w₁ r R).regions = Function.update w₁.regions r none := by
    obtain ⟨f, hf⟩ := afterDestroy_eq env w₁ r R; rw [hf]; rfl
  have e2 : (afterDestroy env w₁ r R).nextRegion = w₁.nextRegion := by
    obtain ⟨f, hf⟩ := afterDestroy_eq env w₁ r R; rw [hf]; rfl
  constructor
  · intro r' R' hR'
    rw [e1] at hR'
    by_cases heq : r' = r
    · subst heq; rw [Function.update_self] at hR'; cases hR'
    · rw [Function.update_of_ne heq] at hR'; exact h2.pending _ _ hR'
  · intro r' R' hR'
    rw [e1] at hR'
    rw [e2]
    by_cases heq : r' = r
    · subst heq; rw [Function.update_self] at hR'; cases hR'
    · rw [Function.update_of_ne heq] at hR'; exact h2.fresh _ _ hR'
  · intro r' hr'
    rw [e1]
    by_cases heq : r' = r
    · subst heq; rw [hr] at hr'; cases hr'
    · rw [Function.update_of_ne heq]; exact h2.current _ (ho _ heq hr')

theorem begin_sync_ctx {env : Env M} {w w' : World M} {r : ℕ} {c : CtxPtr}
    (h : begin env w r .sync = .ok (c, w')) : c = .sync r := by
  unfold begin at h
  obtain ⟨R, hR, h⟩ := (Res.bind_eq_ok _ _ _).1 h
  obtain ⟨⟨c₀, w₀⟩, h0, h⟩ := (Res.bind_eq_ok _ _ _).1 h
  obtain ⟨R', hR', h⟩ := (Res.bind_eq_ok _ _ _).1 h
  obtain ⟨C', hC', h⟩ := (Res.bind_eq_ok _ _ _).1 h
  dsimp only at h
  split at h
  · simp only [Except.ok.injEq, Prod.mk.injEq] at h
    obtain ⟨rfl, -⟩ := h
    simp only [createContext] at h0
    obtain ⟨C, hC, h0⟩ := (Res.bind_eq_ok _ _ _).1 h0
    cases h0
    rfl
  · cases h

theorem SyncInv.begun {env : Env M} {running running' : ℕ → Bool} {w w' : World M} {r : ℕ}
    {c : CtxPtr} (h : SyncInv running w)
    (ho : ∀ r', r' ≠ r → running' r' = true → running r' = true)
    (hb : begin env w r .sync = .ok (c, w')) : SyncInv running' w' := by
  obtain ⟨R, C, h1⟩ := begin_ok hb
  have hc := begin_sync_ctx hb
  refine h.update (r := r) ?_ h1.regions h1.nextRegion.ge (h.pending r R h1.region) ho ?_
  · rw [h1.nextRegion]; exact h.fresh _ _ h1.region
  · intro _; simp [hc]

/-- The contexts the program keeps for running executions are those of the regions. -/
def Holds (running : ℕ → Bool) (held : ℕ → Option CtxPtr) : Prop :=
  ∀ r, running r = true → held r = some (.sync r)

theorem step_withCtx {env : Env M} {running : ℕ → Bool} {w : World M} (hw : SyncInv running w)
    {x : Call} {r : ℕ} (hx : x.uses = some r) (hr : running r = true) :
    step env w (x.withCtx (.sync r)) = step env w x.free := by
  obtain ⟨R, hR, hc⟩ := hw.current r hr
  have hcur : currentCtx w r = .ok (.sync r) := by
    simp [currentCtx, World.region, hR, hc]
  cases x <;> simp only [Call.uses, Option.some.injEq, reduceCtorEq] at hx <;> subst hx <;>
    simp only [Call.withCtx, Call.free, step, hcur, Res.bind_ok]

theorem step_next {env : Env M} {running : ℕ → Bool} {held : ℕ → Option CtxPtr} {w w' : World M}
    (hw : SyncInv running w) (hh : Holds running held) {x : Call} {a : Ret}
    (hu : ∀ r, x.uses = some r → running r = true)
    (h : step env w x.free = .ok (a, w')) :
    SyncInv (x.next running) w' ∧ Holds (x.next running) (remember held x a) := by
  have same : x.starts = none → x.stops = none → x.next running = running := by
    intro h1 h2; funext r; simp [Call.next, h1, h2]
  have rem : x.starts = none → remember held x a = held := by
    intro h1; cases a <;> simp [remember, h1]
  have stop : ∀ r, x.starts = none → x.stops = some r → x.next running r = false ∧
      (∀ r', r' ≠ r → x.next running r' = true → running r' = true) ∧
      Holds (x.next running) held := by
    intro r h1 h2
    refine ⟨by simp [Call.next, h1, h2], fun r' hne h => ?_, fun r' h => ?_⟩
    · simpa [Call.next, h1, h2, hne.symm] using h
    · by_cases hne : r = r'
      · subst hne; simp [Call.next, h1, h2] at h
      · exact hh _ (by simpa [Call.next, h1, h2, hne] using h)
  have begn : ∀ r, x.starts = some r →
      ∀ r', r' ≠ r → x.next running r' = true → running r' = true := by
    intro r h1 r' hne h
    cases x <;> simp_all [Call.next, Call.starts, Call.stops, hne.symm]
  have keep : ∀ r, x.starts = some r → a = .ctx (.sync r) →
      Holds (x.next running) (remember held x a) := by
    intro r h1 h2 r' hn
    subst h2
    simp only [remember, h1]
    by_cases hne : r' = r
    · subst hne; simp
    · rw [Function.update_of_ne hne]; exact hh _ (begn r h1 r' hne hn)
  cases x with
  | create nf name n mt info yaml =>
    rw [same rfl rfl, rem rfl]
    refine ⟨?_, hh⟩
    obtain ⟨⟨r, w₁⟩, h1, h⟩ := (Res.bind_eq_ok _ _ _).1 h
    cases h
    obtain ⟨R, m, l, h2⟩ := createRegion_ok h1
    refine hw.update (r := r) (by rw [h2.nextRegion]; omega) h2.regions
      (by rw [h2.nextRegion, h2.id]; omega) h2.pending (fun _ _ => id) fun hr => ?_
    obtain ⟨R', hR', -⟩ := hw.current r hr
    have := hw.fresh _ _ hR'
    rw [h2.id] at this
    omega
  | destroy r fuel =>
    obtain ⟨s1, s2, s3⟩ := stop r rfl rfl
    rw [rem rfl]
    refine ⟨?_, s3⟩
    obtain ⟨w₁, h1, h⟩ := (Res.bind_eq_ok _ _ _).1 h
    cases h
    exact hw.destroy s1 s2 h1
  | start r =>
    obtain ⟨⟨c, w₁⟩, h1, h⟩ := (Res.bind_eq_ok _ _ _).1 h
    cases h
    exact ⟨hw.begun (begn r rfl) h1, keep r rfl (by rw [begin_sync_ctx h1])⟩
  | startWith r f =>
    obtain ⟨⟨c, w₁⟩, h1, h⟩ := (Res.bind_eq_ok _ _ _).1 h
    cases h
    obtain ⟨w₂, C, h2, hC, rfl⟩ := beginWith_ok h1
    refine ⟨?_, keep r rfl (by rw [begin_sync_ctx h2])⟩
    exact (hw.begun (begn r rfl) h2).congr rfl rfl
  | feature r v =>
    rw [same rfl rfl, rem rfl]
    refine ⟨?_, hh⟩
    obtain ⟨c, _, h⟩ := (Res.bind_eq_ok _ _ _).1 h
    obtain ⟨w₁, h1, h⟩ := (Res.bind_eq_ok _ _ _).1 h
    cases h
    obtain ⟨C, hC, rfl⟩ := setFeature_ok h1
    exact hw.congr rfl rfl
  | policy r =>
    rw [same rfl rfl, rem rfl]
    refine ⟨?_, hh⟩
    obtain ⟨c, _, h⟩ := (Res.bind_eq_ok _ _ _).1 h
    obtain ⟨⟨p, w₁⟩, h1, h⟩ := (Res.bind_eq_ok _ _ _).1 h
    cases h
    obtain ⟨R, m, C, m', F, _, _, _, _, rfl⟩ := getPolicyIndex_ok h1
    exact hw.congr rfl rfl
  | finish r =>
    obtain ⟨s1, s2, s3⟩ := stop r rfl rfl
    rw [rem rfl]
    refine ⟨?_, s3⟩
    obtain ⟨c, hc, h⟩ := (Res.bind_eq_ok _ _ _).1 h
    obtain ⟨w₁, h1, h⟩ := (Res.bind_eq_ok _ _ _).1 h
    cases h
    obtain ⟨R, hR, hcur⟩ := hw.current r (hu r rfl)
    obtain ⟨R', hR', hcur'⟩ := currentCtx_ok hc
    rw [hR] at hR'
    cases hR'
    rw [hcur] at hcur'
    cases hcur'
    obtain ⟨R₁, C, _, _, ⟨m, _, _, h2⟩ | ⟨h2, _⟩⟩ := endCtx_ok h1
    · have hw' : SyncInv running ((w.setCtx (.sync r) { C with
          stop := some (seconds (env.clock w.tick)) }).advance) := hw.congr rfl rfl
      exact hw'.finish s1 s2 h2
    · exact absurd rfl h2
  | finishWith r m =>
    obtain ⟨s1, s2, s3⟩ := stop r rfl rfl
    rw [rem rfl]
    refine ⟨?_, s3⟩
    obtain ⟨c, hc, h⟩ := (Res.bind_eq_ok _ _ _).1 h
    obtain ⟨w₁, h1, h⟩ := (Res.bind_eq_ok _ _ _).1 h
    cases h
    obtain ⟨w₂, h2, h3⟩ := endMetric_ok h1
    exact (SyncInv.kept env (fun _ => False) _).collect _ _ _ (hw.finish s1 s2 h2) h3
  | collect r =>
    rw [same rfl rfl, rem rfl]
    refine ⟨?_, hh⟩
    obtain ⟨w₁, h1, h⟩ := (Res.bind_eq_ok _ _ _).1 h
    cases h
    exact (SyncInv.kept env (fun _ => False) _).collect _ _ _ hw h1
  | train r s c f =>
    rw [same rfl rfl, rem rfl]
    refine ⟨?_, hh⟩
    obtain ⟨w₁, h1, h⟩ := (Res.bind_eq_ok _ _ _).1 h
    cases h
    exact (SyncInv.kept env (fun _ => True) _).regionTrain (fun _ => trivial) hw h1
  | trainAll s c =>
    rw [same rfl rfl, rem rfl]
    refine ⟨?_, hh⟩
    obtain ⟨w₁, h1, h⟩ := (Res.bind_eq_ok _ _ _).1 h
    cases h
    exact (SyncInv.kept env (fun _ => True) _).apolloTrain hw h1

theorem runHeld_eq {env : Env M} {xs : List Call} {running : ℕ → Bool} {held : ℕ → Option CtxPtr}
    {w : World M} (hw : SyncInv running w) (hh : Holds running held) (hx : WellFormed xs running) :
    runHeld env xs held w = runFree env xs w := by
  induction xs generalizing running held w with
  | nil => rfl
  | cons x xs ih =>
    obtain ⟨hu, hx⟩ := hx
    have key : ∀ op, step env w op = step env w x.free → (step env w op >>= fun p =>
        (runHeld env xs (remember held x p.1) p.2 >>= fun q => Except.ok (p.1 :: q.1, q.2))) =
        runFree env (x :: xs) w := by
      intro op he
      rw [he]
      unfold runFree
      cases hs : step env w x.free with
      | error e => rfl
      | ok p =>
        obtain ⟨h1, h2⟩ := step_next hw hh hu hs
        simp only [Res.bind_ok]
        rw [ih h1 h2 hx]
    unfold runHeld
    cases hux : x.uses with
    | none => exact key _ rfl
    | some r =>
      simp only [hh r (hu r hux)]
      exact key _ (step_withCtx hw hux (hu r hux))

/-! ## The current context in any program -/

/-- Regions remember the context that began last. -/
def Newest (w : World M) : Prop := ∀ r R, w.regions r = some R → R.current = latest r w.log

theorem latest_append (r : ℕ) (h l : List Ev) :
    latest r (h ++ l) = l.foldl (latestNext r) (latest r h) := List.foldl_append

theorem latest_snoc (r : ℕ) (h : List Ev) (e : Ev) :
    latest r (h ++ [e]) = latestNext r (latest r h) e := by rw [latest_append]; rfl

theorem latest_trained (r : ℕ) (h : List Ev) {l : List Ev} (hl : ∀ e ∈ l, ∃ r ds, e = Ev.trained r ds) :
    latest r (h ++ l) = latest r h := by
  rw [latest_append]
  generalize latest r h = c
  induction l generalizing c with
  | nil => rfl
  | cons e l ih =>
    obtain ⟨r', ds, rfl⟩ := hl e List.mem_cons_self
    exact ih (fun e he => hl e (List.mem_cons_of_mem _ he)) c

theorem Newest.congr {w w' : World M} (h : Newest w) (hr : w'.regions = w.regions)
    (hl : ∀ r, latest r w'.log = latest r w.log) : Newest w' := by
  intro r R hR
  rw [hr] at hR
  rw [hl]
  exact h r R hR

theorem Newest.stable (env : Env M) (F : ℕ → Prop) : Stable env F (Newest (M := M)) := by
  refine Stable.of ?_ ?_ ?_ ?_
  · intro w l w' ht hw
    exact hw.congr ht.regions fun r => by rw [ht.log, latest_trained r w.log ht.events]
  · intro w c hw
    exact hw.congr rfl fun r => latest_snoc r w.log (.waiting c)
  · intro w r c m w' hw h
    obtain ⟨R, m', C, l, h1⟩ := collectContext_ok h
    intro r' R' hR'
    rw [h1.regions] at hR'
    rw [h1.log, latest_trained r' _ h1.events]
    change R'.current = latest r' (w.log ++ [.finished r c m])
    rw [latest_snoc]
    by_cases heq : r' = r
    · subst heq
      rw [Function.update_self] at hR'
      cases hR'
      simp [latestNext, recRegion]
    · rw [Function.update_of_ne heq] at hR'
      rw [show latestNext r' (latest r' w.log) (.finished r c m) = latest r' w.log from
        if_neg (Ne.symm heq)]
      exact hw r' R' hR'
  · intro w r R cs hw hR r' R' hR'
    change Function.update w.regions r _ r' = some R' at hR'
    by_cases heq : r' = r
    · subst heq
      rw [Function.update_self] at hR'
      cases hR'
      exact hw r' R hR
    · rw [Function.update_of_ne heq] at hR'
      exact hw r' R' hR'

theorem Newest.invariant (env : Env M) (F : ℕ → Prop) : Invariant env F (Newest (M := M)) where
  toKept := (Newest.stable env F).kept
  finish := (Newest.stable env F).finish
  created := by
    intro w nf name n mt info yaml r w' hw h
    obtain ⟨R, m, l, h1⟩ := createRegion_ok h
    intro r' R' hR'
    rw [h1.regions] at hR'
    rw [h1.log, latest_snoc]
    by_cases heq : r' = r
    · subst heq
      rw [Function.update_self] at hR'
      cases hR'
      simp [latestNext, h1.current]
    · rw [Function.update_of_ne heq] at hR'
      rw [show ∀ c ds b, latestNext r' c (.created r ds b) = c from fun c ds b =>
        if_neg (Ne.symm heq), latest_trained r' _ h1.events]
      exact hw r' R' hR'
  began := by
    intro w r c R C w' hw h r' R' hR'
    rw [h.regions] at hR'
    rw [h.log, latest_snoc]
    by_cases heq : r' = r
    · subst heq
      rw [Function.update_self] at hR'
      cases hR'
      simp [latestNext]
    · rw [Function.update_of_ne heq] at hR'
      rw [show ∀ d, latestNext r' d (.began r c) = d from fun d => if_neg (Ne.symm heq)]
      exact hw r' R' hR'
  assigned := fun w c C f hw _ => hw.congr rfl fun r => latest_snoc r w.log (.assigned c f)
  feature := fun w c C v hw _ => hw.congr rfl fun r => latest_snoc r w.log (.feature c v)
  chose := fun w r c R m C p m' hw _ _ _ _ => hw.congr rfl fun r' => latest_snoc r' w.log (.chose r c p)
  stop := fun w c C t hw _ => hw
  ended := by
    intro w r c R hw hR _ _ r' R' hR'
    change _ = latest r' (w.log ++ [.ended r c])
    rw [latest_snoc]
    exact (Newest.stable env F).pending w r R _ hw hR r' R' hR'
  period := fun w hw => hw
  destroyed := by
    intro w r R hw hR _ r' R' hR'
    obtain ⟨f, hf⟩ := afterDestroy_eq env w r R
    rw [hf] at hR' ⊢
    change Function.update w.regions r none r' = some R' at hR'
    change _ = latest r' (w.log ++ [.destroyed r])
    rw [latest_snoc]
    by_cases heq : r' = r
    · subst heq; rw [Function.update_self] at hR'; cases hR'
    · rw [Function.update_of_ne heq] at hR'
      exact hw r' R' hR'

end Apollo
