import Verif.Proofs.RegionLog
import Mathlib.Algebra.BigOperators.Group.Finset.Basic
import Mathlib.Algebra.BigOperators.Group.Finset.Piecewise

/-!
# Collection of pending contexts
-/

namespace Apollo

open Spec

variable {M : Type}

/-- The pending contexts of a region (none if there is no region). -/
def World.pend (w : World M) (r : ℕ) : List CtxPtr :=
  match w.regions r with
  | some R => R.pending
  | none => []

theorem World.pend_of {w : World M} {r : ℕ} {R : Region} (h : w.regions r = some R) :
    w.pend r = R.pending := by
  simp [World.pend, h]

theorem World.pend_update {w : World M} {r : ℕ} {R R' : Region}
    (h : w.regions r = some R) {w' : World M}
    (hf : w'.regions = Function.update w.regions r (some R')) (hp : R'.pending = R.pending) :
    w'.pend = w.pend := by
  funext r'
  unfold World.pend
  rw [hf]
  by_cases heq : r' = r
  · subst heq; simp [h, hp]
  · rw [Function.update_of_ne heq]

theorem Trained.pend {env : Env M} {w w' : World M} {l : List Ev} (h : Trained env w l w') :
    w'.pend = w.pend := by
  funext r
  simp [World.pend, h.regions]

theorem Collected.pend {env : Env M} {w w' : World M} {r : ℕ} {c : CtxPtr} {metric : ℚ}
    {R : Region} {m : M} {C : Ctx} {l : List Ev}
    (h : Collected env w r c metric R m C l w') : w'.pend = w.pend :=
  World.pend_update h.region h.regions (by simp [recRegion])

theorem filterMap_polled_trained {l : List Ev} (h : ∀ e ∈ l, ∃ r ds, e = Ev.trained r ds) :
    l.filterMap polled = [] := by
  rw [List.filterMap_eq_nil_iff]
  intro e he
  obtain ⟨r, ds, rfl⟩ := h e he
  rfl

/-- What one question to a timer does. -/
theorem tryCollect_effect {env : Env M} {w w' : World M} {r : ℕ} {c : CtxPtr} {b : Bool}
    (h₀ : tryCollect env w r c = .ok (b, w')) :
    (∃ l, w'.log = w.log ++ l ∧ l.filterMap polled = [(c, b)] ∧
      (b = true → ∃ m, Ev.finished r c m ∈ l)) ∧
    w'.pend = w.pend ∧ w'.executions = w.executions + b.toNat ∧ w.tick ≤ w'.tick ∧
    (∀ n, c = .heap n → (b = false → env.poll w.tick w.log n = .waiting) ∧
      (b = true → ∃ m, env.poll w.tick w.log n = .done m)) := by
  rcases tryCollect_ok h₀ with ⟨n, rfl, hn, rfl, rfl⟩ | ⟨n, m, rfl, hn, rfl, h⟩ | ⟨r', m, rfl, rfl, h⟩
  · refine ⟨⟨[.waiting (.heap n)], rfl, rfl, by simp⟩, rfl, rfl, Nat.le_succ _, ?_⟩
    intro n' hc; cases hc; simp [hn]
  · obtain ⟨R, m', C, l, h1⟩ := collectContext_ok h
    refine ⟨⟨[.finished r (.heap n) m] ++ l, ?_, ?_, ?_⟩, ?_, ?_, ?_, ?_⟩
    · rw [h1.log]; simp [World.emit, World.advance]
    · rw [List.filterMap_append, filterMap_polled_trained h1.events]; rfl
    · intro _; exact ⟨m, by simp⟩
    · rw [h1.pend]; rfl
    · rw [h1.executions]; rfl
    · exact le_trans (Nat.le_succ _) h1.tick
    · intro n' hc; cases hc; simp [hn]
  · obtain ⟨R, m', C, l, h1⟩ := collectContext_ok h
    refine ⟨⟨[.finished r (.sync r') m] ++ l, ?_, ?_, ?_⟩, ?_, ?_, ?_, ?_⟩
    · rw [h1.log]; simp [World.emit]
    · rw [List.filterMap_append, filterMap_polled_trained h1.events]; rfl
    · intro _; exact ⟨m, by simp⟩
    · rw [h1.pend]; rfl
    · rw [h1.executions]; rfl
    · exact h1.tick
    · intro n' hc; cases hc

/-- What the collection of a list of contexts does. -/
structure Swept (env : Env M) (r : ℕ) (cs kept : List CtxPtr) (w w' : World M) (l : List Ev) :
    Prop where
  log : w'.log = w.log ++ l
  asked : (l.filterMap polled).map Prod.fst = cs
  left : kept = ((l.filterMap polled).filter (fun x => !x.2)).map Prod.fst
  finished : ∀ c ∈ cs, c ∈ kept ∨ ∃ m, Ev.finished r c m ∈ l
  executions : w'.executions + kept.length = w.executions + cs.length
  tick : w.tick ≤ w'.tick
  done : ∀ n, (∀ t h, w.tick ≤ t → ∃ m, env.poll t h n = .done m) → .heap n ∉ kept
  waits : ∀ n, (∀ t h, w.tick ≤ t → env.poll t h n = .waiting) → .heap n ∈ cs → .heap n ∈ kept

theorem collectLoop_swept {env : Env M} {r : ℕ} {cs kept : List CtxPtr} {w w' : World M}
    (h : collectLoop env r cs w = .ok (kept, w')) :
    (∃ l, Swept env r cs kept w w' l) ∧ w'.pend = w.pend := by
  induction cs generalizing w kept with
  | nil =>
    simp only [Apollo.collectLoop] at h
    cases h
    exact ⟨⟨[], by simp, rfl, rfl, by simp, rfl, le_refl _, by simp, by simp⟩, rfl⟩
  | cons c cs ih =>
    simp only [Apollo.collectLoop] at h
    obtain ⟨⟨b, w₁⟩, h1, h⟩ := (Res.bind_eq_ok _ _ _).1 h
    obtain ⟨⟨k, w₂⟩, h2, h⟩ := (Res.bind_eq_ok _ _ _).1 h
    cases h
    obtain ⟨⟨l₁, e1, e2, e3⟩, e4, e5, e6, e7⟩ := tryCollect_effect h1
    obtain ⟨⟨l₂, s⟩, e8⟩ := ih h2
    refine ⟨⟨l₁ ++ l₂, ?_, ?_, ?_, ?_, ?_, ?_, ?_, ?_⟩, by rw [e8, e4]⟩
    · rw [s.log, e1, List.append_assoc]
    · rw [List.filterMap_append, e2, List.map_append, s.asked]; rfl
    · rw [List.filterMap_append, e2]
      cases b <;> simp [s.left]
    · intro c' hc
      rcases List.mem_cons.1 hc with rfl | hc
      · cases b with
        | true =>
          obtain ⟨m, hm⟩ := e3 rfl
          exact .inr ⟨m, List.mem_append_left _ hm⟩
        | false => exact .inl (by simp)
      · rcases s.finished c' hc with hk | ⟨m, hm⟩
        · refine .inl ?_
          cases b <;> simp [hk]
        · exact .inr ⟨m, List.mem_append_right _ hm⟩
    · have := s.executions
      cases b <;> simp [e5] at this ⊢ <;> omega
    · exact le_trans e6 s.tick
    · intro n hn
      have h3 := s.done n fun t h ht => hn t h (le_trans e6 ht)
      cases b with
      | true => exact h3
      | false =>
        intro hc
        rcases List.mem_cons.1 hc with rfl | hc
        · obtain ⟨m, hm⟩ := hn w.tick w.log (le_refl _)
          rw [(e7 n rfl).1 rfl] at hm
          cases hm
        · exact h3 hc
    · intro n hn hc
      rcases List.mem_cons.1 hc with rfl | hc
      · cases b with
        | true =>
          obtain ⟨m, hm⟩ := (e7 n rfl).2 rfl
          rw [hn w.tick w.log (le_refl _)] at hm
          cases hm
        | false => simp
      · have := s.waits n (fun t h ht => hn t h (le_trans e6 ht)) hc
        cases b <;> simp [this]

theorem collectPending_swept {env : Env M} {w w' : World M} {r : ℕ}
    (h : collectPending env w r = .ok w') :
    ∃ kept l, Swept env r (w.pend r) kept w w' l ∧ w'.pend = Function.update w.pend r kept := by
  obtain ⟨R, kept, w₁, R₁, hR, h1, hR₁, rfl⟩ := collectPending_ok h
  obtain ⟨⟨l, s⟩, hp⟩ := collectLoop_swept h1
  rw [← World.pend_of hR] at s
  refine ⟨kept, l, ⟨s.log, s.asked, s.left, s.finished, s.executions, s.tick, s.done, s.waits⟩, ?_⟩
  funext r'
  by_cases heq : r' = r
  · subst heq
    rw [Function.update_self]
    simp [World.pend, World.setRegion]
  · rw [Function.update_of_ne heq, ← hp]
    simp [World.pend, World.setRegion, heq]

/-! ## Every end call leads to one execution counted or pending -/

/-- Number of contexts waiting for their timers. -/
def World.outstanding (w : World M) : ℕ := ∑ r ∈ Finset.range w.nextRegion, (w.pend r).length

theorem outstanding_congr {w w' : World M} (hn : w'.nextRegion = w.nextRegion)
    (hp : w'.pend = w.pend) : w'.outstanding = w.outstanding := by
  simp [World.outstanding, hn, hp]

theorem LogInv.pend_fresh {w : World M} (hw : LogInv w) {r : ℕ} (h : w.nextRegion ≤ r) :
    w.pend r = [] := by
  simp [World.pend, hw.regFresh r h]

theorem outstanding_update {w w' : World M} {r : ℕ} {cs : List CtxPtr} (hr : r < w.nextRegion)
    (hn : w'.nextRegion = w.nextRegion) (hp : w'.pend = Function.update w.pend r cs) :
    w'.outstanding + (w.pend r).length = w.outstanding + cs.length := by
  unfold World.outstanding
  rw [hn, hp]
  have hm : r ∈ Finset.range w.nextRegion := Finset.mem_range.2 hr
  rw [← Finset.sum_erase_add _ _ hm, ← Finset.sum_erase_add _ _ hm]
  have : ∑ x ∈ (Finset.range w.nextRegion).erase r, (Function.update w.pend r cs x).length =
      ∑ x ∈ (Finset.range w.nextRegion).erase r, (w.pend x).length := by
    refine Finset.sum_congr rfl fun x hx => ?_
    rw [Function.update_of_ne (Finset.ne_of_mem_erase hx)]
  rw [this, Function.update_self]
  omega

/-- A predicate on worlds about allocated objects that `Stable` predicates may assume. -/
theorem collectPending_nextRegion {env : Env M} {w w' : World M} {r : ℕ}
    (h : collectPending env w r = .ok w') : w'.nextRegion = w.nextRegion := by
  have : Stable env (fun _ => False) (fun w' : World M => w'.nextRegion = w.nextRegion) := by
    refine Stable.of ?_ ?_ ?_ ?_
    · intro w₁ l w₂ ht h1; rw [ht.nextRegion, h1]
    · intro w₁ c h1; exact h1
    · intro w₁ r c m w₂ h1 h2
      obtain ⟨R, m', C, l, h3⟩ := collectContext_ok h2
      rw [h3.nextRegion]; exact h1
    · intro w₁ r R cs h1 _; exact h1
  exact this.collectPending rfl h

theorem kept_total (env : Env M) (F : ℕ → Prop) (k : ℕ) :
    Kept env F (fun w : World M => LogInv w ∧ w.executions + w.outstanding = k) := by
  refine Kept.of ?_ ?_
  · rintro w l w' ht ⟨hw, hk⟩
    refine ⟨hw.trained ht, ?_⟩
    rw [ht.executions, outstanding_congr ht.nextRegion ht.pend]; exact hk
  · rintro w r w' ⟨hw, hk⟩ h
    refine ⟨(LogInv.stable env F).collectPending hw h, ?_⟩
    obtain ⟨R, _, _, _, hR, _⟩ := collectPending_ok h
    obtain ⟨kept, l, s, hp⟩ := collectPending_swept h
    have h1 := outstanding_update (hw.region_lt hR) (collectPending_nextRegion h) hp
    have h2 := s.executions
    omega

/-- The call ends an execution. -/
def Op.isEnd : Op → Bool
  | .endMetric _ _ _ => true
  | .endCtx _ _ => true
  | .endMetricCur _ _ => true
  | .endCur _ => true
  | _ => false

theorem Collected.total {env : Env M} {w w' : World M} {r : ℕ} {c : CtxPtr} {metric : ℚ}
    {R : Region} {m : M} {C : Ctx} {l : List Ev}
    (h : Collected env w r c metric R m C l w') :
    w'.executions + w'.outstanding = w.executions + w.outstanding + 1 := by
  rw [h.executions, outstanding_congr h.nextRegion h.pend]; omega

theorem endMetric_total {env : Env M} {w w' : World M} {r : ℕ} {c : CtxPtr} {metric : ℚ}
    (hw : LogInv w) (h : endMetric env w r c metric = .ok w') :
    w'.executions + w'.outstanding = w.executions + w.outstanding + 1 := by
  obtain ⟨w₁, h1, h2⟩ := endMetric_ok h
  obtain ⟨R, m, C, l, h3⟩ := collectContext_ok h1
  have h4 := h3.total
  have h5 := ((kept_total env (fun _ => False) _).collect w₁ r w' ⟨hw.finished h3, rfl⟩ h2).2
  rw [h5, h4]
  rfl

theorem endCtx_total {env : Env M} {w w' : World M} {r : ℕ} {c : CtxPtr}
    (hw : LogInv w) (h : endCtx env w r c = .ok w') :
    w'.executions + w'.outstanding = w.executions + w.outstanding + 1 := by
  obtain ⟨R, C, hR, hC, h | h⟩ := endCtx_ok h
  · obtain ⟨m, rfl, _, h⟩ := h
    obtain ⟨R, m', C, l, h3⟩ := collectContext_ok h
    exact h3.total
  · obtain ⟨hne, h⟩ := h
    have hI := LogInv.invariant env (fun _ => False)
    have hw1 := hI.advance _ (hI.stop _ _ _ (seconds (env.clock w.tick)) hw hC)
    have hw2 := hI.ended _ r c R hw1 hR (by simp [World.advance, World.setCtx]) hne
    have h1 := ((kept_total env (fun _ => False) _).collect _ r w' ⟨hw2, rfl⟩ h).2
    rw [h1]
    have h2 := outstanding_update (w := w) (w' := ((((w.setCtx c { C with
            stop := some (seconds (env.clock w.tick)) }).advance).setRegion r
              { R with pending := R.pending ++ [c] }).emit (.ended r c))) (r := r)
      (cs := R.pending ++ [c]) (hw.region_lt hR) rfl (by
        funext r'
        by_cases heq : r' = r
        · subst heq; simp [World.pend, World.emit, World.setRegion]
        · simp [World.pend, World.emit, World.setRegion, World.advance, World.setCtx, heq])
    rw [World.pend_of hR, List.length_append] at h2
    simp only [List.length_singleton] at h2
    show w.executions + _ = _
    omega

theorem step_total {env : Env M} {w w' : World M} {op : Op} {x : Ret} (hw : LogInv w)
    (h : step env w op = .ok (x, w')) :
    w'.executions + w'.outstanding = w.executions + w.outstanding + op.isEnd.toNat := by
  have hK := kept_total env (fun _ => True) (w.executions + w.outstanding)
  have hI := LogInv.invariant env (fun _ => True)
  cases op with
  | create nf name n mt info yaml =>
    obtain ⟨⟨r, w₁⟩, h1, h⟩ := (Res.bind_eq_ok _ _ _).1 h
    cases h
    obtain ⟨R, m, l, hc⟩ := createRegion_ok h1
    rw [hc.executions]
    unfold World.outstanding
    have hid := hc.id
    rw [hc.nextRegion, Finset.sum_range_succ]
    have h2 : w'.pend r = [] := by simp [World.pend, hc.regions, hc.pending]
    have h3 : ∀ x ∈ Finset.range r, (w'.pend x).length = (w.pend x).length := by
      intro x hx
      have := Finset.mem_range.1 hx
      have hne : x ≠ r := by omega
      simp [World.pend, hc.regions, hne]
    rw [Finset.sum_congr rfl h3, h2, hid]
    simp [Op.isEnd]
  | destroy r fuel =>
    obtain ⟨w₁, h1, h⟩ := (Res.bind_eq_ok _ _ _).1 h
    cases h
    obtain ⟨w₁, R, h2, hR, hp, rfl⟩ := destroyRegion_ok h1
    obtain ⟨hw1, h3⟩ := hK.drain ⟨hI.period _ hw, rfl⟩ h2
    have hf : (afterDestroy env w₁ r R).executions = w₁.executions ∧
        (afterDestroy env w₁ r R).nextRegion = w₁.nextRegion ∧
        (afterDestroy env w₁ r R).regions = Function.update w₁.regions r none := by
      obtain ⟨f, hf⟩ := afterDestroy_eq env w₁ r R
      rw [hf]
      exact ⟨rfl, rfl, rfl⟩
    obtain ⟨f1, f2, f3⟩ := hf
    have h4 := outstanding_update (cs := []) (hw1.region_lt hR) f2 (by
      funext r'
      by_cases heq : r' = r
      · subst heq; simp [World.pend, f3]
      · simp [World.pend, f3, heq])
    rw [World.pend_of hR, hp] at h4
    simp only [List.length_nil, Op.isEnd, Bool.toNat_false] at h4 ⊢
    rw [f1]
    omega
  | begin r kind =>
    obtain ⟨⟨c, w₁⟩, h1, h⟩ := (Res.bind_eq_ok _ _ _).1 h
    cases h
    obtain ⟨R, C, hb⟩ := begin_ok h1
    rw [hb.executions, outstanding_congr hb.nextRegion (World.pend_update hb.region hb.regions rfl)]
    rfl
  | beginWith r f =>
    obtain ⟨⟨c, w₁⟩, h1, h⟩ := (Res.bind_eq_ok _ _ _).1 h
    cases h
    obtain ⟨w₁, C₁, h2, hC₁, rfl⟩ := beginWith_ok h1
    obtain ⟨R, C, hb⟩ := begin_ok h2
    have h3 : w₁.executions + w₁.outstanding = w.executions + w.outstanding := by
      rw [hb.executions, outstanding_congr hb.nextRegion
        (World.pend_update hb.region hb.regions rfl)]
    exact h3
  | setFeature r c v =>
    obtain ⟨w₁, h1, h⟩ := (Res.bind_eq_ok _ _ _).1 h
    cases h
    obtain ⟨C, hC, rfl⟩ := setFeature_ok h1
    rfl
  | getPolicyIndex r c =>
    obtain ⟨⟨p, w₁⟩, h1, h⟩ := (Res.bind_eq_ok _ _ _).1 h
    cases h
    obtain ⟨R, m, C, m', F, _, _, _, _, rfl⟩ := getPolicyIndex_ok h1
    rfl
  | endMetric r c m =>
    obtain ⟨w₁, h1, h⟩ := (Res.bind_eq_ok _ _ _).1 h
    cases h
    exact endMetric_total hw h1
  | endCtx r c =>
    obtain ⟨w₁, h1, h⟩ := (Res.bind_eq_ok _ _ _).1 h
    cases h
    exact endCtx_total hw h1
  | setFeatureCur r v =>
    obtain ⟨c, _, h⟩ := (Res.bind_eq_ok _ _ _).1 h
    obtain ⟨w₁, h1, h⟩ := (Res.bind_eq_ok _ _ _).1 h
    cases h
    obtain ⟨C, hC, rfl⟩ := setFeature_ok h1
    rfl
  | getPolicyIndexCur r =>
    obtain ⟨c, _, h⟩ := (Res.bind_eq_ok _ _ _).1 h
    obtain ⟨⟨p, w₁⟩, h1, h⟩ := (Res.bind_eq_ok _ _ _).1 h
    cases h
    obtain ⟨R, m, C, m', F, _, _, _, _, rfl⟩ := getPolicyIndex_ok h1
    rfl
  | endMetricCur r m =>
    obtain ⟨c, _, h⟩ := (Res.bind_eq_ok _ _ _).1 h
    obtain ⟨w₁, h1, h⟩ := (Res.bind_eq_ok _ _ _).1 h
    cases h
    exact endMetric_total hw h1
  | endCur r =>
    obtain ⟨c, _, h⟩ := (Res.bind_eq_ok _ _ _).1 h
    obtain ⟨w₁, h1, h⟩ := (Res.bind_eq_ok _ _ _).1 h
    cases h
    exact endCtx_total hw h1
  | collect r =>
    obtain ⟨w₁, h1, h⟩ := (Res.bind_eq_ok _ _ _).1 h
    cases h
    exact (hK.collect _ _ _ ⟨hw, rfl⟩ h1).2
  | train r s c f =>
    obtain ⟨w₁, h1, h⟩ := (Res.bind_eq_ok _ _ _).1 h
    cases h
    exact (hK.regionTrain (fun _ => trivial) ⟨hw, rfl⟩ h1).2
  | trainAll s c =>
    obtain ⟨w₁, h1, h⟩ := (Res.bind_eq_ok _ _ _).1 h
    cases h
    exact (hK.apolloTrain ⟨hw, rfl⟩ h1).2

theorem exec_total {env : Env M} {ops : List Op} {w w' : World M} (hw : LogInv w)
    (h : exec env ops w = .ok w') :
    w'.executions + w'.outstanding =
      w.executions + w.outstanding + (ops.filter Op.isEnd).length := by
  induction ops generalizing w with
  | nil => simp only [Apollo.exec] at h; cases h; simp
  | cons op ops ih =>
    simp only [Apollo.exec] at h
    obtain ⟨⟨x, w₁⟩, h1, h⟩ := (Res.bind_eq_ok _ _ _).1 h
    have h2 := step_total hw h1
    have h3 := ih ((LogInv.invariant env (fun _ => True)).step (fun _ _ _ _ => trivial) hw h1) h
    rw [h3, h2, List.filter_cons]
    cases op.isEnd <;> simp
    omega

/-! ## Pending contexts are not lost and not collected twice -/

/-- Finished contexts are released, and finished once. -/
structure Released (w : World M) : Prop where
  released : ∀ r n m, Ev.finished r (.heap n) m ∈ w.log →
    n < w.nextCtx ∧ w.ctxs (.heap n) = none
  once : ∀ n, timesFinished (.heap n) w.log ≤ 1

theorem timesFinished_append (c : CtxPtr) (h l : List Ev) :
    timesFinished c (h ++ l) = timesFinished c h + timesFinished c l := by
  simp [timesFinished]

theorem timesFinished_zero {c : CtxPtr} {h : List Ev} (hn : ∀ r m, Ev.finished r c m ∉ h) :
    timesFinished c h = 0 := by
  unfold timesFinished
  rw [List.countP_eq_zero]
  intro e he
  cases e <;> simp
  rintro rfl
  exact hn _ _ he

/-- Events that finish nothing and contexts that stay. -/
theorem Released.frame {w w' : World M} {l : List Ev} (hw : Released w)
    (hl : w'.log = w.log ++ l) (hf : ∀ r c m, Ev.finished r c m ∉ l)
    (hn : w.nextCtx ≤ w'.nextCtx)
    (hc : ∀ n, n < w.nextCtx → w.ctxs (.heap n) = none → w'.ctxs (.heap n) = none) :
    Released w' := by
  constructor
  · intro r n m h
    rw [hl] at h
    rcases List.mem_append.1 h with h | h
    · obtain ⟨h1, h2⟩ := hw.released r n m h
      exact ⟨by omega, hc n h1 h2⟩
    · exact absurd h (hf _ _ _)
  · intro n
    rw [hl, timesFinished_append, timesFinished_zero fun r m => hf r _ m]
    exact hw.once n

theorem Released.finished {env : Env M} {w w' : World M} {r : ℕ} {c : CtxPtr} {metric : ℚ}
    {R : Region} {m : M} {C : Ctx} {l : List Ev} (hI : LogInv w) (hw : Released w)
    (h : Collected env (w.emit (.finished r c metric)) r c metric R m C l w') : Released w' := by
  have hC : w.ctxs c = some C := h.ctx
  have hcx : w'.ctxs = Function.update w.ctxs c (if c = .sync r then
      some (recCtx env (w.emit (.finished r c metric)) m C) else none) := h.ctxs
  have hne : ∀ r' m', Ev.finished r' c m' ∈ w.log → ∃ r'', c = .sync r'' := by
    intro r' m' hm
    cases c with
    | sync r'' => exact ⟨_, rfl⟩
    | heap n => rw [(hw.released r' n m' hm).2] at hC; cases hC
  have hl : ∀ r' c' m', Ev.finished r' c' m' ∉ l := by
    intro r' c' m' hm
    obtain ⟨_, _, he⟩ := h.events _ hm
    cases he
  have hn : w'.nextCtx = w.nextCtx := h.nextCtx
  constructor
  · intro r' n m' hm
    rw [h.log] at hm
    rw [hn]
    rcases List.mem_append.1 hm with hm | hm
    · rcases List.mem_append.1 hm with hm | hm
      · obtain ⟨h1, h2⟩ := hw.released r' n m' hm
        refine ⟨h1, ?_⟩
        rw [hcx, Function.update_of_ne]
        · exact h2
        · rintro rfl; rw [h2] at hC; cases hC
      · rw [List.mem_singleton] at hm
        cases hm
        refine ⟨hI.ctxFresh _ _ hC, ?_⟩
        rw [hcx]; simp
    · exact absurd hm (hl _ _ _)
  · intro n
    rw [h.log, timesFinished_append, timesFinished_zero fun r' m' => hl r' _ m']
    simp only [World.emit]
    rw [timesFinished_append]
    by_cases hc : c = .heap n
    · subst hc
      rw [timesFinished_zero (h := w.log)]
      · simp [timesFinished]
      · intro r' m' hm
        obtain ⟨_, h⟩ := hne r' m' hm
        cases h
    · have := hw.once n
      simp only [timesFinished, List.countP_singleton] at this ⊢
      simp [hc, this]

theorem Released.stable (env : Env M) (F : ℕ → Prop) :
    Stable env F (fun w : World M => LogInv w ∧ Released w) := by
  refine Stable.of ?_ ?_ ?_ ?_
  · rintro w l w' ht ⟨hI, hw⟩
    refine ⟨hI.trained ht, hw.frame ht.log ?_ (by rw [ht.nextCtx]) ?_⟩
    · intro r c m hm
      obtain ⟨_, _, he⟩ := ht.events _ hm
      cases he
    · intro n _ h; rw [ht.ctxs]; exact h
  · rintro w c ⟨hI, hw⟩
    exact ⟨(LogInv.stable env F).waiting _ _ hI, hw.frame (l := [.waiting c]) rfl (by simp) (le_refl _)
      (fun _ _ h => h)⟩
  · rintro w r c m w' ⟨hI, hw⟩ h
    obtain ⟨R, m, C, l, h1⟩ := collectContext_ok h
    exact ⟨hI.finished h1, hw.finished hI h1⟩
  · rintro w r R cs ⟨hI, hw⟩ hR
    exact ⟨(LogInv.stable env F).pending _ _ _ _ hI hR, hw.1, hw.2⟩

theorem afterDestroy_frame (env : Env M) (w : World M) (r : ℕ) (R : Region) :
    (afterDestroy env w r R).regions = Function.update w.regions r none ∧
    (afterDestroy env w r R).models = Function.update w.models r none ∧
    (afterDestroy env w r R).ctxs = Function.update w.ctxs (.sync r) none ∧
    (afterDestroy env w r R).log = w.log ++ [.destroyed r] ∧
    (afterDestroy env w r R).nextRegion = w.nextRegion ∧ (afterDestroy env w r R).nextCtx = w.nextCtx ∧
    (afterDestroy env w r R).executions = w.executions ∧ (afterDestroy env w r R).cfg = w.cfg ∧
    (afterDestroy env w r R).registry = w.registry := by
  obtain ⟨f, hf⟩ := afterDestroy_eq env w r R
  rw [hf]
  exact ⟨rfl, rfl, rfl, rfl, rfl, rfl, rfl, rfl, rfl⟩

theorem Released.invariant (env : Env M) (F : ℕ → Prop) :
    Invariant env F (fun w : World M => LogInv w ∧ Released w) where
  toKept := (Released.stable env F).kept
  finish := (Released.stable env F).finish
  created := by
    rintro w nf name n mt info yaml r w' ⟨hI, hw⟩ h
    refine ⟨(LogInv.invariant env F).created _ _ _ _ _ _ _ _ _ hI h, ?_⟩
    obtain ⟨R, m, l, h1⟩ := createRegion_ok h
    refine hw.frame (l := l ++ [.created r R.dataset (env.ops.isTrainable m)])
      (by rw [h1.log, List.append_assoc]) ?_ (by rw [h1.nextCtx]) ?_
    · intro r c m hm
      rcases List.mem_append.1 hm with hm | hm
      · obtain ⟨_, _, he⟩ := h1.events _ hm
        cases he
      · simp at hm
    · intro n _ h; rw [h1.ctxs]; simpa using h
  began := by
    rintro w r c R C w' ⟨hI, hw⟩ h
    refine ⟨hI.began h, hw.frame h.log (by simp) ?_ ?_⟩
    · rcases h.ctx with ⟨_, _, hn⟩ | ⟨_, _, hn⟩ <;> omega
    · intro n hn h'
      rw [h.ctxs]
      rcases h.ctx with ⟨rfl, _⟩ | ⟨rfl, _⟩
      · simpa using h'
      · rw [Function.update_of_ne]
        · exact h'
        · simp only [ne_eq, CtxPtr.heap.injEq]; omega
  assigned := by
    rintro w c C f ⟨hI, hw⟩ hC
    refine ⟨(LogInv.invariant env F).assigned _ _ _ _ hI hC,
      hw.frame (l := [.assigned c f]) rfl (by simp) (le_refl _) ?_⟩
    intro n _ h
    show Function.update w.ctxs c _ _ = none
    rw [Function.update_of_ne]
    · exact h
    · rintro rfl; rw [h] at hC; cases hC
  feature := by
    rintro w c C v ⟨hI, hw⟩ hC
    refine ⟨(LogInv.invariant env F).feature _ _ _ _ hI hC,
      hw.frame (l := [.feature c v]) rfl (by simp) (le_refl _) ?_⟩
    intro n _ h
    show Function.update w.ctxs c _ _ = none
    rw [Function.update_of_ne]
    · exact h
    · rintro rfl; rw [h] at hC; cases hC
  chose := by
    rintro w r c R m C p m' ⟨hI, hw⟩ hR hm hC hp
    refine ⟨(LogInv.invariant env F).chose _ _ _ _ _ _ _ _ hI hR hm hC hp,
      hw.frame (l := [.chose r c p]) rfl (by simp) (le_refl _) ?_⟩
    intro n _ h
    show Function.update w.ctxs c _ _ = none
    rw [Function.update_of_ne]
    · exact h
    · rintro rfl; rw [h] at hC; cases hC
  stop := by
    rintro w c C t ⟨hI, hw⟩ hC
    refine ⟨(LogInv.invariant env F).stop _ _ _ _ hI hC,
      hw.frame (l := []) (by simp [World.setCtx]) (by simp) (le_refl _) ?_⟩
    intro n _ h
    show Function.update w.ctxs c _ _ = none
    rw [Function.update_of_ne]
    · exact h
    · rintro rfl; rw [h] at hC; cases hC
  ended := by
    rintro w r c R ⟨hI, hw⟩ hR hC hne
    exact ⟨(LogInv.invariant env F).ended _ _ _ _ hI hR hC hne,
      hw.frame (l := [.ended r c]) rfl (by simp) (le_refl _) (fun _ _ h => h)⟩
  period := by
    rintro w ⟨hI, hw⟩
    exact ⟨(LogInv.invariant env F).period _ hI, hw.1, hw.2⟩
  destroyed := by
    rintro w r R ⟨hI, hw⟩ hR hp
    obtain ⟨f1, f2, f3, f4, f5, f6, _⟩ := afterDestroy_frame env w r R
    refine ⟨hI.destroyed hR, hw.frame f4 (by simp) (by rw [f6]) ?_⟩
    intro n _ h
    rw [f3]; simpa using h

theorem released_init (cfg : Cfg) (files : Str → Option Str) :
    Released (initWorld cfg files : World M) := by
  have hl : (initWorld cfg files : World M).log = [] := rfl
  generalize (initWorld cfg files : World M) = w at hl
  constructor <;> simp [hl, timesFinished]

/-- Contexts that ended are pending or finished. -/
structure Tracked (w : World M) : Prop where
  ended : ∀ r c, Ev.ended r c ∈ w.log → c ∈ w.pend r ∨ ∃ m, Ev.finished r c m ∈ w.log
  pending : ∀ r c, c ∈ w.pend r → Ev.ended r c ∈ w.log ∧ c ≠ .sync r

/-- Steps that change no list of pending contexts. -/
theorem Tracked.frame {w w' : World M} {l : List Ev} (hw : Tracked w)
    (hl : w'.log = w.log ++ l) (hf : ∀ r c, Ev.ended r c ∉ l) (hp : w'.pend = w.pend) :
    Tracked w' := by
  constructor
  · intro r c h
    rw [hl] at h
    rw [hp, hl]
    rcases List.mem_append.1 h with h | h
    · exact (hw.ended r c h).imp id fun ⟨m, hm⟩ => ⟨m, List.mem_append_left _ hm⟩
    · exact absurd h (hf _ _)
  · intro r c h
    rw [hp] at h
    obtain ⟨h1, h2⟩ := hw.pending r c h
    exact ⟨by rw [hl]; exact List.mem_append_left _ h1, h2⟩

theorem trained_no_ended {l : List Ev} (h : ∀ e ∈ l, ∃ r ds, e = Ev.trained r ds) (r : ℕ)
    (c : CtxPtr) : Ev.ended r c ∉ l := by
  intro hm
  obtain ⟨_, _, he⟩ := h _ hm
  cases he

/-- No context ends during a collection. -/
theorem collectPending_ended {env : Env M} {w w' : World M} {r : ℕ}
    (h : collectPending env w r = .ok w') (r' : ℕ) (c : CtxPtr)
    (he : Ev.ended r' c ∈ w'.log) : Ev.ended r' c ∈ w.log := by
  have : Stable env (fun _ => False)
      (fun w' : World M => Ev.ended r' c ∈ w'.log → Ev.ended r' c ∈ w.log) := by
    refine Stable.of ?_ ?_ ?_ ?_
    · intro w₁ l w₂ ht h1 h2
      rw [ht.log] at h2
      exact h1 ((List.mem_append.1 h2).resolve_right (trained_no_ended ht.events _ _))
    · intro w₁ c h1 h2
      exact h1 ((List.mem_append.1 h2).resolve_right (by simp))
    · intro w₁ r c m w₂ h1 h2 h4
      obtain ⟨R, m', C, l, h3⟩ := collectContext_ok h2
      rw [h3.log] at h4
      have h5 := (List.mem_append.1 h4).resolve_right (trained_no_ended h3.events _ _)
      exact h1 ((List.mem_append.1 h5).resolve_right (by simp))
    · intro w₁ r R cs h1 _; exact h1
  exact this.collectPending id h he

theorem Swept.sub {env : Env M} {r : ℕ} {cs kept : List CtxPtr} {w w' : World M} {l : List Ev}
    (h : Swept env r cs kept w w' l) : kept.Sublist cs := by
  rw [h.left, ← h.asked]
  exact List.filter_sublist.map _

theorem Tracked.kept (env : Env M) (F : ℕ → Prop) : Kept env F (Tracked (M := M)) := by
  refine Kept.of ?_ ?_
  · intro w l w' ht hw
    exact hw.frame ht.log (trained_no_ended ht.events) ht.pend
  · intro w r w' hw h
    obtain ⟨kept, l, s, hp⟩ := collectPending_swept h
    constructor
    · intro r' c he
      rw [hp]
      have he := collectPending_ended h r' c he
      rw [s.log]
      rcases hw.ended r' c he with h1 | ⟨m, hm⟩
      · by_cases heq : r' = r
        · subst heq
          rw [Function.update_self]
          exact (s.finished c h1).imp id fun ⟨m, hm⟩ => ⟨m, List.mem_append_right _ hm⟩
        · rw [Function.update_of_ne heq]; exact .inl h1
      · exact .inr ⟨m, List.mem_append_left _ hm⟩
    · intro r' c hc
      rw [hp] at hc
      have hc : c ∈ w.pend r' := by
        by_cases heq : r' = r
        · subst heq; rw [Function.update_self] at hc; exact s.sub.subset hc
        · rwa [Function.update_of_ne heq] at hc
      obtain ⟨h1, h2⟩ := hw.pending r' c hc
      exact ⟨by rw [s.log]; exact List.mem_append_left _ h1, h2⟩

theorem Tracked.invariant (env : Env M) (F : ℕ → Prop) :
    Invariant env F (fun w : World M => LogInv w ∧ Tracked w) where
  advance := fun w h => ⟨(LogInv.invariant env F).advance _ h.1, (Tracked.kept env F).advance _ h.2⟩
  body := fun w₀ w r s w' h0 h hF ht =>
    ⟨(LogInv.invariant env F).body w₀ w r s w' h0.1 h.1 hF ht,
      (Tracked.kept env F).body w₀ w r s w' h0.2 h.2 hF ht⟩
  single := fun w ds rs w' h hs ht =>
    ⟨(LogInv.invariant env F).single w ds rs w' h.1 hs ht,
      (Tracked.kept env F).single w ds rs w' h.2 hs ht⟩
  collect := fun w r w' h hc =>
    ⟨(LogInv.invariant env F).collect w r w' h.1 hc, (Tracked.kept env F).collect w r w' h.2 hc⟩
  finish := by
    rintro w r c m w' ⟨hI, hw⟩ h
    refine ⟨(LogInv.invariant env F).finish _ _ _ _ _ hI h, ?_⟩
    obtain ⟨R, m', C, l, h1⟩ := collectContext_ok h
    refine hw.frame (l := [.finished r c m] ++ l) ?_ ?_ ?_
    · rw [h1.log]; simp [World.emit]
    · intro r' c' hm
      rcases List.mem_append.1 hm with hm | hm
      · simp at hm
      · exact trained_no_ended h1.events _ _ hm
    · rw [h1.pend]; rfl
  created := by
    rintro w nf name n mt info yaml r w' ⟨hI, hw⟩ h
    refine ⟨(LogInv.invariant env F).created _ _ _ _ _ _ _ _ _ hI h, ?_⟩
    obtain ⟨R, m, l, h1⟩ := createRegion_ok h
    refine hw.frame (l := l ++ [.created r R.dataset (env.ops.isTrainable m)])
      (by rw [h1.log, List.append_assoc]) ?_ ?_
    · intro r' c' hm
      rcases List.mem_append.1 hm with hm | hm
      · exact trained_no_ended h1.events _ _ hm
      · simp at hm
    · funext r'
      by_cases heq : r' = r
      · subst heq
        rw [hI.pend_fresh (le_of_eq h1.id.symm)]
        simp [World.pend, h1.regions, h1.pending]
      · simp [World.pend, h1.regions, heq]
  began := by
    rintro w r c R C w' ⟨hI, hw⟩ h
    exact ⟨hI.began h, hw.frame h.log (by simp) (World.pend_update h.region h.regions rfl)⟩
  assigned := by
    rintro w c C f ⟨hI, hw⟩ hC
    exact ⟨(LogInv.invariant env F).assigned _ _ _ _ hI hC,
      hw.frame (l := [.assigned c f]) rfl (by simp) rfl⟩
  feature := by
    rintro w c C v ⟨hI, hw⟩ hC
    exact ⟨(LogInv.invariant env F).feature _ _ _ _ hI hC,
      hw.frame (l := [.feature c v]) rfl (by simp) rfl⟩
  chose := by
    rintro w r c R m C p m' ⟨hI, hw⟩ hR hm hC hp
    exact ⟨(LogInv.invariant env F).chose _ _ _ _ _ _ _ _ hI hR hm hC hp,
      hw.frame (l := [.chose r c p]) rfl (by simp) rfl⟩
  stop := by
    rintro w c C t ⟨hI, hw⟩ hC
    exact ⟨(LogInv.invariant env F).stop _ _ _ _ hI hC,
      hw.frame (l := []) (by simp [World.setCtx]) (by simp) rfl⟩
  ended := by
    rintro w r c R ⟨hI, hw⟩ hR hC hne
    refine ⟨(LogInv.invariant env F).ended _ _ _ _ hI hR hC hne, ?_⟩
    have hp : ((w.setRegion r { R with pending := R.pending ++ [c] }).emit (.ended r c)).pend =
        Function.update w.pend r (w.pend r ++ [c]) := by
      funext r'
      by_cases heq : r' = r
      · subst heq; simp [World.pend, World.emit, World.setRegion, hR]
      · simp [World.pend, World.emit, World.setRegion, heq]
    constructor
    · intro r' c' he
      rw [hp]
      rcases List.mem_append.1 he with he | he
      · rcases hw.ended r' c' he with h1 | ⟨m, hm⟩
        · refine .inl ?_
          by_cases heq : r' = r
          · subst heq; rw [Function.update_self]; exact List.mem_append_left _ h1
          · rw [Function.update_of_ne heq]; exact h1
        · exact .inr ⟨m, List.mem_append_left _ hm⟩
      · rw [List.mem_singleton] at he
        cases he
        refine .inl ?_
        rw [Function.update_self]; simp
    · intro r' c' hc
      rw [hp] at hc
      by_cases heq : r' = r
      · subst heq
        rw [Function.update_self] at hc
        rcases List.mem_append.1 hc with hc | hc
        · obtain ⟨h1, h2⟩ := hw.pending _ _ hc
          exact ⟨List.mem_append_left _ h1, h2⟩
        · rw [List.mem_singleton] at hc
          subst hc
          exact ⟨List.mem_append_right _ (by simp), hne⟩
      · rw [Function.update_of_ne heq] at hc
        obtain ⟨h1, h2⟩ := hw.pending _ _ hc
        exact ⟨List.mem_append_left _ h1, h2⟩
  period := by
    rintro w ⟨hI, hw⟩
    exact ⟨(LogInv.invariant env F).period _ hI, hw.1, hw.2⟩
  destroyed := by
    rintro w r R ⟨hI, hw⟩ hR hp
    obtain ⟨f1, f2, f3, f4, f5, f6, _⟩ := afterDestroy_frame env w r R
    refine ⟨hI.destroyed hR, hw.frame f4 (by simp) ?_⟩
    funext r'
    by_cases heq : r' = r
    · subst heq; simp [World.pend, f1, hR, hp]
    · simp [World.pend, f1, heq]

theorem tracked_init (cfg : Cfg) (files : Str → Option Str) :
    Tracked (initWorld cfg files : World M) := by
  have hl : (initWorld cfg files : World M).log = [] := rfl
  have hr : (initWorld cfg files : World M).regions = fun _ => none := rfl
  generalize (initWorld cfg files : World M) = w at hl hr
  constructor <;> simp [hl, hr, World.pend]

end Apollo
