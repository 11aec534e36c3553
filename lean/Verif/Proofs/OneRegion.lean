import Verif.Proofs.TestRuns

/-!
# Executions of a program with one region, with the events it makes
-/

namespace Apollo

open Spec

variable {M : Type}

/-- Settings with which executions do nothing but choose, measure, and record. -/
structure Quiet (K : Cfg) : Prop where
  global : K.globalPeriod = 0
  perRegion : K.perRegionPeriod = 0
  trace : K.tracePolicy = false

/-- The process between two executions of the only region; `done` are the executions so far. -/
structure Alone (K : Cfg) (w : World M) (R : Region) (m : M) (t : ℕ) (done : List Row) : Prop where
  cfg : w.cfg = K
  region : w.regions 0 = some R
  model : w.models 0 = some m
  ctx : ∃ C, w.ctxs (.sync 0) = some C
  idle : R.minTraining = 0
  pending : R.pending = []
  tick : w.tick = t
  rows : (observe w.log).rows 0 = done
  start : (observe w.log).start 0 = []
  begins : (observe w.log).begins 0 = done.length
  idx : R.idx = done.length
  proper : (observe w.log).proper 0 = true
  registry : w.registry.map Prod.snd = [0]

theorem set_all_log (env : Env M) (fs : Features) : ∀ {w : World M} {R : Region} {C : Ctx},
    w.regions 0 = some R → R.current = some (.sync 0) → w.ctxs (.sync 0) = some C →
    ∃ w', results env (fs.map (.setFeatureCur 0 ·)) w = .ok (List.replicate fs.length .unit, w') ∧
      w'.regions = w.regions ∧ w'.models = w.models ∧ w'.cfg = w.cfg ∧ w'.files = w.files ∧
      w'.tick = w.tick ∧ w'.ctxs (.sync 0) = some { C with features := C.features ++ fs } ∧
      w'.log = w.log ++ fs.map (.feature (.sync 0) ·) ∧ w'.registry = w.registry := by
  induction fs with
  | nil =>
    intro w R C _ _ hC
    exact ⟨w, rfl, rfl, rfl, rfl, rfl, rfl, by simpa using hC, by simp, rfl⟩
  | cons f fs ih =>
    intro w R C hR hc hC
    obtain ⟨w', h1, h2, h3, h4, h5, h6, h7, h8, h9⟩ := ih (w := (w.setCtx (.sync 0)
      { C with features := C.features ++ [f] }).emit (.feature (.sync 0) f)) (R := R)
      (C := { C with features := C.features ++ [f] }) hR hc (by simp [World.setCtx, World.emit])
    refine ⟨w', ?_, h2, h3, h4, h5, h6, by simpa using h7, ?_, h9⟩
    · simp only [List.map_cons, results, step, currentCtx, World.region, hR, hc, setFeature, World.ctx, hC,
        Res.bind_ok, h1]
      rfl
    · rw [h8]
      simp [World.emit, World.setCtx]

theorem observe_features (fs : Features) : ∀ o : Observer,
    (fs.map (Ev.feature (.sync 0) ·)).foldl Observer.next o =
      { o with features := Function.update o.features (.sync 0) (o.features (.sync 0) ++ fs) } := by
  induction fs with
  | nil => intro o; simp
  | cons f fs ih =>
    intro o
    rw [List.map_cons, List.foldl_cons, ih]
    simp [Observer.next, Function.update_idem]

/-- What is seen of one execution. -/
def runEvents (fs : Features) (c : ℤ) (x : ℚ) : List Ev :=
  .began 0 (.sync 0) :: (fs.map (.feature (.sync 0) ·) ++ [.chose 0 (.sync 0) c, .finished 0 (.sync 0) x])

theorem observe_run (l : List Ev) (fs : Features) (c : ℤ) (x : ℚ) :
    (observe (l ++ runEvents fs c x)).rows 0 = (observe l).rows 0 ++
        [⟨(observe l).begins 0, fs, c, x⟩] ∧
      (observe (l ++ runEvents fs c x)).start = (observe l).start ∧
      (observe (l ++ runEvents fs c x)).begins 0 = (observe l).begins 0 + 1 ∧
      ((observe l).proper 0 = true → (observe (l ++ runEvents fs c x)).proper 0 = true) := by
  have : observe (l ++ runEvents fs c x) = (runEvents fs c x).foldl Observer.next (observe l) := by
    rw [observe, List.foldl_append]; rfl
  rw [this, runEvents, List.foldl_cons, List.foldl_append, observe_features]
  simp [Observer.next]

/-- One execution. -/
theorem run_alone {env : Env M} {K : Cfg} (hK : Quiet K) {w : World M} {R : Region} {m m' : M} {t : ℕ}
    {rows : List Row} {fs : Features} {c : ℤ} (h : Alone K w R m t rows) (hi : R.idx + 1 < 2 ^ 31)
    (hm : env.ops.getIndex m fs = .ok (c, m')) :
    ∃ rets w' R', results env (runWith fs) w = .ok (rets, w') ∧ policies rets = [c] ∧
      Alone K w' R' m' (t + 2) (rows ++ [⟨rows.length, fs, c,
        rnd64 (seconds (env.clock (t + 1)) - seconds (env.clock t))⟩]) ∧
      R'.name = R.name ∧ R'.numFeatures = R.numFeatures ∧ R'.modelInfo = R.modelInfo ∧ w'.files = w.files ∧
      R'.dataset = if K.persistent || env.ops.isTrainable m' then R.dataset.insert fs c
        (rnd64 (seconds (env.clock (t + 1)) - seconds (env.clock t))) else R.dataset := by
  obtain ⟨C, hC⟩ := h.ctx
  have hidle := h.idle
  have hcfg := h.cfg
  have ht := h.tick
  obtain ⟨w1, h1, h2, h3, h4, h5, h6, h7, h8, h9⟩ := set_all_log env fs
    (w := ((((w.setCtx (.sync 0) { C with features := [] }).setRegion 0
      { R with current := some (.sync 0), idx := R.idx + 1 }).setCtx (.sync 0)
      { C with features := [], idx := R.idx.toNat, start := some (seconds (env.clock w.tick)) }).advance).emit
      (.began 0 (.sync 0)))
    (R := { R with current := some (.sync 0), idx := R.idx + 1 })
    (C := { C with features := [], idx := R.idx.toNat, start := some (seconds (env.clock w.tick)) })
    (by simp [World.setCtx, World.setRegion, World.advance, World.emit]) rfl
    (by simp [World.setCtx, World.setRegion, World.advance, World.emit])
  have hb : step env w (.begin 0 .sync) = .ok (.ctx (.sync 0), ((((w.setCtx (.sync 0)
      { C with features := [] }).setRegion 0
      { R with current := some (.sync 0), idx := R.idx + 1 }).setCtx (.sync 0)
      { C with features := [], idx := R.idx.toNat, start := some (seconds (env.clock w.tick)) }).advance).emit
      (.began 0 (.sync 0))) := by
    simp only [step, begin, createContext, World.region, World.ctx, World.setRegion, World.setCtx, h.region, hC,
      Res.bind_ok, hi, if_true, Function.update_self]
  have hR1 : w1.regions 0 = some { R with current := some (.sync 0), idx := R.idx + 1 } := by
    rw [h2]; simp [World.setCtx, World.setRegion, World.advance, World.emit]
  have hm1 : w1.models 0 = some m := by rw [h3]; exact h.model
  have hcfg1 : w1.cfg = K := by rw [h4]; exact hcfg
  have ht1 : w1.tick = t + 1 := by rw [h6, ← ht]; rfl
  have hl1 : w1.log = w.log ++ .began 0 (.sync 0) :: fs.map (.feature (.sync 0) ·) := by
    rw [h8]; simp [World.emit, World.advance, World.setCtx, World.setRegion]
  have hf1 : w1.files = w.files := by rw [h5]; rfl
  have he : ∃ w' R', results env [.getPolicyIndexCur 0, .endCur 0] w1 = .ok ([.policy c, .unit], w') ∧
      w'.cfg = K ∧ w'.regions 0 = some R' ∧ w'.models 0 = some m' ∧ (∃ C, w'.ctxs (.sync 0) = some C) ∧
      R'.minTraining = 0 ∧ R'.pending = [] ∧ w'.tick = t + 2 ∧
      w'.log = w.log ++ runEvents fs c (rnd64 (seconds (env.clock (t + 1)) - seconds (env.clock t))) ∧
      R'.idx = R.idx + 1 ∧ R'.name = R.name ∧ R'.numFeatures = R.numFeatures ∧
      R'.modelInfo = R.modelInfo ∧ w'.files = w.files ∧ w'.registry = w.registry ∧
      R'.dataset = if K.persistent || env.ops.isTrainable m' then R.dataset.insert fs c
        (rnd64 (seconds (env.clock (t + 1)) - seconds (env.clock t))) else R.dataset := by
    cases hT : env.ops.isTrainable m' <;> cases hp : K.persistent <;> cases htr : K.traceCsv <;>
    simp only [results, step, currentCtx, World.region, World.ctx, World.model,
      World.setRegion, World.setCtx, World.setModel, World.advance, World.emit, hR1, h7, hm1,
      Res.bind_ok, if_true, Function.update_self, getPolicyIndex, tracePolicy, hcfg1, hK.trace, hK.global,
      hK.perRegion, hp, htr,
      hm, endCtx, syncMetric, collectContext, record, autoTrain, destroyContext, List.nil_append,
      Bool.false_eq_true, if_false, Bool.false_or, Bool.true_or, Bool.or_true, hT, Bool.not_true, Bool.not_false, ne_eq,
      not_true_eq_false, false_and, hidle, lt_irrefl, ht, ht1]
    all_goals
      refine ⟨_, _, rfl, ?_, rfl, ?_, ⟨_, rfl⟩, rfl, h.pending, rfl, ?_, rfl, rfl, rfl, rfl, hf1, h9, rfl⟩
      · first | exact hcfg1 | rfl
      · simp
      · simp [hl1, runEvents]
  obtain ⟨w', R', he, k1, k2, k3, k4, k5, k6, k7, k8, k9, k10, k11, k12, k13, k14, k15⟩ := he
  obtain ⟨o1, o2, o3, o4⟩ := observe_run w.log fs c (rnd64 (seconds (env.clock (t + 1)) - seconds (env.clock t)))
  refine ⟨.ctx (.sync 0) :: (List.replicate fs.length .unit ++ [.policy c, .unit]), w', R', ?_, ?_,
    ⟨k1, k2, k3, k4, k5, k6, k7, ?_, ?_, ?_, ?_, ?_, by rw [k14]; exact h.registry⟩, k10, k11, k12, k13, k15⟩
  · rw [runWith, results, hb, Res.bind_ok]
    simp only
    rw [results_append, h1]
    simp only [Res.bind_ok, he]
  · rw [policies, List.filterMap_cons, List.filterMap_append, List.filterMap_replicate]
    rfl
  · rw [k8, o1, h.rows, h.begins]
  · rw [k8, o2, h.start]
  · rw [k8, o3, h.begins]; simp
  · rw [k9, h.idx]; simp
  · rw [k8]; exact o4 h.proper

/-- The executions with the given features and policies from tick `t` on, numbered from `i`. -/
def rowsFrom (clock : ℕ → ℤ × ℤ) : ℕ → ℕ → List Features → (ℕ → ℤ) → List Row
  | _, _, [], _ => []
  | i, t, f :: fs, cs =>
    ⟨i, f, cs i, rnd64 (seconds (clock (t + 1)) - seconds (clock t))⟩ :: rowsFrom clock (i + 1) (t + 2) fs cs

theorem mem_rowsFrom {clock : ℕ → ℤ × ℤ} {x : Row} : ∀ {fs : List Features} {i t : ℕ} {cs : ℕ → ℤ},
    x ∈ rowsFrom clock i t fs cs ↔ ∃ j, ∃ h : j < fs.length, x = ⟨i + j, fs[j], cs (i + j),
      rnd64 (seconds (clock (t + 2 * j + 1)) - seconds (clock (t + 2 * j)))⟩ := by
  intro fs
  induction fs with
  | nil => intro i t cs; simp [rowsFrom]
  | cons f fs ih =>
    intro i t cs
    rw [rowsFrom, List.mem_cons, ih]
    constructor
    · rintro (rfl | ⟨j, hj, rfl⟩)
      · exact ⟨0, by simp, by simp⟩
      · refine ⟨j + 1, by simpa using hj, ?_⟩
        simp only [List.getElem_cons_succ]
        rw [show i + 1 + j = i + (j + 1) by omega, show t + 2 + 2 * j = t + 2 * (j + 1) by omega]
    · rintro ⟨j, hj, rfl⟩
      cases j with
      | zero => exact .inl rfl
      | succ j =>
        refine .inr ⟨j, by simpa using hj, ?_⟩
        simp only [List.getElem_cons_succ]
        rw [show i + 1 + j = i + (j + 1) by omega, show t + 2 + 2 * j = t + 2 * (j + 1) by omega]

theorem length_rowsFrom (clock : ℕ → ℤ × ℤ) (fs : List Features) : ∀ (i t : ℕ) (cs : ℕ → ℤ),
    (rowsFrom clock i t fs cs).length = fs.length := by
  induction fs with
  | nil => intro i t cs; rfl
  | cons f fs ih => intro i t cs; simp [rowsFrom, ih]

/-- Executions one after the other with known answers. -/
theorem run_all_alone {env : Env M} {K : Cfg} (hK : Quiet K) {ms : ℕ → M} {cs : ℕ → ℤ} :
    ∀ {fs : List Features} {w : World M} {R : Region} {t : ℕ} {rows : List Row},
      Alone K w R (ms rows.length) t rows → rows.length + fs.length < 2 ^ 31 →
      (∀ j (hj : j < fs.length), env.ops.getIndex (ms (rows.length + j)) fs[j] =
        .ok (cs (rows.length + j), ms (rows.length + j + 1))) →
      ∃ rets w' R', results env (fs.flatMap runWith) w = .ok (rets, w') ∧
        policies rets = (List.range fs.length).map (fun j => cs (rows.length + j)) ∧
        Alone K w' R' (ms (rows.length + fs.length)) (t + 2 * fs.length)
          (rows ++ rowsFrom env.clock rows.length t fs cs) ∧
        R'.name = R.name ∧ R'.numFeatures = R.numFeatures ∧ R'.modelInfo = R.modelInfo ∧ w'.files = w.files := by
  intro fs
  induction fs with
  | nil =>
    intro w R t rows h _ _
    exact ⟨[], w, R, rfl, rfl, by simpa [rowsFrom] using h, rfl, rfl, rfl, rfl⟩
  | cons f fs ih =>
    intro w R t rows h hi hm
    simp only [List.length_cons] at hi
    have hm0 := hm 0 (by simp)
    simp only [Nat.add_zero, List.getElem_cons_zero] at hm0
    obtain ⟨r1, w1, R1, e1, p1, a1, n1, f1, i1, g1, -⟩ := run_alone hK h (by rw [h.idx]; push_cast; omega) hm0
    have hl : (rows ++ [(⟨rows.length, f, cs rows.length,
        rnd64 (seconds (env.clock (t + 1)) - seconds (env.clock t))⟩ : Row)]).length = rows.length + 1 := by simp
    obtain ⟨r2, w2, R2, e2, p2, a2, n2, f2, i2, g2⟩ := ih (by rw [hl]; exact a1) (by rw [hl]; omega) (by
      intro j hj
      have := hm (j + 1) (by simpa using hj)
      rw [hl, show rows.length + 1 + j = rows.length + (j + 1) by omega]
      exact this)
    refine ⟨r1 ++ r2, w2, R2, ?_, ?_, ?_, n2.trans n1, f2.trans f1, i2.trans i1, g2.trans g1⟩
    · rw [List.flatMap_cons, results_append, e1]
      simp only [Res.bind_ok, e2]
    · rw [policies_append, p1, p2, hl, List.length_cons, List.range_succ_eq_map, List.map_cons, List.map_map]
      simp only [Nat.add_zero, List.singleton_append, List.cons.injEq, true_and]
      exact List.map_congr_left fun j _ => by simp only [Function.comp]; congr 1; omega
    · rw [hl] at a2
      rw [List.length_cons, rowsFrom]
      have e : rows.length + 1 + fs.length = rows.length + (fs.length + 1) := by omega
      have e' : t + 2 + 2 * fs.length = t + 2 * (fs.length + 1) := by omega
      rw [e, e', List.append_assoc] at a2
      exact a2

end Apollo
