import Verif.Spec.TestPrograms
import Verif.Proofs.InterfaceModels

/-!
# Executions of the test programs
-/

namespace Apollo

open Spec

variable {M : Type}

/-- The process between two executions of the only region; `cl` says whether the training is collective. -/
structure BetweenC (cl : Bool) (w : World M) (R : Region) (m : M) (t : ℕ) : Prop where
  cfg : w.cfg = { collective := cl }
  region : w.regions 0 = some R
  model : w.models 0 = some m
  ctx : ∃ C, w.ctxs (.sync 0) = some C
  idle : R.minTraining = 0
  pending : R.pending = []
  registry : w.registry.map Prod.snd = [0]
  tick : w.tick = t

/-- The process between two executions of the only region, with the default settings. -/
abbrev Between (w : World M) (R : Region) (m : M) (t : ℕ) : Prop := BetweenC false w R m t

theorem results_append (env : Env M) (a b : List Op) (w : World M) : results env (a ++ b) w =
    (results env a w >>= fun x => results env b x.2 >>= fun y => .ok (x.1 ++ y.1, y.2)) := by
  induction a generalizing w with
  | nil =>
    rw [List.nil_append, results, Res.bind_ok]
    rcases results env b w with e | y <;> rfl
  | cons op a ih =>
    rw [List.cons_append, results, results]
    rcases step env w op with e | ⟨x, w1⟩
    · rfl
    · simp only [Res.bind_ok, ih]
      rcases results env a w1 with e | ⟨xs, w2⟩
      · rfl
      · simp only [Res.bind_ok]
        rcases results env b w2 with e | y <;> rfl

/-- The region after an execution. -/
def afterRun (R : Region) (trainable : Bool) (f : Features) (c : ℤ) (x : ℚ) : Region :=
  { R with
    idx := R.idx + 1, current := none
    dataset := if trainable then R.dataset.insert f c x else R.dataset }

/-- One execution with the given features. -/
def runWith (fs : Features) : List Op :=
  .begin 0 .sync :: (fs.map (.setFeatureCur 0 ·) ++ [.getPolicyIndexCur 0, .endCur 0])

theorem testRun_eq (f : ℕ) : testRun f = runWith [(f : ℚ)] := rfl

/-- The features after `begin`. -/
theorem set_all (env : Env M) (fs : Features) : ∀ {w : World M} {R : Region} {C : Ctx},
    w.regions 0 = some R → R.current = some (.sync 0) → w.ctxs (.sync 0) = some C →
    ∃ w', results env (fs.map (.setFeatureCur 0 ·)) w = .ok (List.replicate fs.length .unit, w') ∧
      w'.regions = w.regions ∧ w'.models = w.models ∧ w'.cfg = w.cfg ∧ w'.registry = w.registry ∧
      w'.tick = w.tick ∧ w'.ctxs (.sync 0) = some { C with features := C.features ++ fs } ∧
      chosen w'.log = chosen w.log := by
  induction fs with
  | nil =>
    intro w R C _ _ hC
    exact ⟨w, rfl, rfl, rfl, rfl, rfl, rfl, by simpa using hC, rfl⟩
  | cons f fs ih =>
    intro w R C hR hc hC
    obtain ⟨w', h1, h2, h3, h4, h5, h6, h7, h8⟩ := ih (w := (w.setCtx (.sync 0)
      { C with features := C.features ++ [f] }).emit (.feature (.sync 0) f)) (R := R)
      (C := { C with features := C.features ++ [f] }) hR hc (by simp [World.setCtx, World.emit])
    refine ⟨w', ?_, h2, h3, h4, h5, h6, by simpa using h7, by
      rw [h8]; simp [chosen, World.setCtx, World.emit]⟩
    simp only [List.map_cons, results, step, currentCtx, World.region, hR, hc, setFeature, World.ctx, hC,
      Res.bind_ok, h1]
    rfl

theorem run_onceC {cl : Bool} {env : Env M} {w : World M} {R : Region} {m m' : M} {t : ℕ} {fs : Features}
    {c : ℤ} (h : BetweenC cl w R m t) (hi : R.idx + 1 < 2 ^ 31) (hm : env.ops.getIndex m fs = .ok (c, m')) :
    ∃ rets w', results env (runWith fs) w = .ok (rets, w') ∧ policies rets = [c] ∧
      BetweenC cl w' (afterRun R (env.ops.isTrainable m') fs c
        (rnd64 (seconds (env.clock (t + 1)) - seconds (env.clock t)))) m' (t + 2) ∧
      w'.registry = w.registry ∧ chosen w'.log = chosen w.log ++ [c] := by
  obtain ⟨C, hC⟩ := h.ctx
  have hidle := h.idle
  have hcfg := h.cfg
  have ht := h.tick
  obtain ⟨w1, h1, h2, h3, h4, h5, h6, h7, h8⟩ := set_all env fs
    (w := ((((w.setCtx (.sync 0) { C with features := [] }).setRegion 0
      { R with current := some (.sync 0), idx := R.idx + 1 }).setCtx (.sync 0)
      { C with features := [], idx := R.idx.toNat, start := some (seconds (env.clock w.tick)) }).advance).emit
      (.began 0 (.sync 0)))
    (R := { R with current := some (.sync 0), idx := R.idx + 1 })
    (C := { C with features := [], idx := R.idx.toNat, start := some (seconds (env.clock w.tick)) })
    (by simp [World.setCtx, World.setRegion, World.advance, World.emit]) rfl
    (by simp [World.setCtx, World.setRegion, World.advance, World.emit])
  have hb : step env w (.begin 0 .sync) = .ok (.ctx (.sync 0), ((((w.setCtx (.sync 0)
      { C with features := [] }).setRegion 0
      { R with current := some (.sync 0), idx := R.idx + 1 }).setCtx (.sync 0)
      { C with features := [], idx := R.idx.toNat, start := some (seconds (env.clock w.tick)) }).advance).emit
      (.began 0 (.sync 0))) := by
    simp only [step, begin, createContext, World.region, World.ctx, World.setRegion, World.setCtx, h.region, hC,
      Res.bind_ok, hi, if_true, Function.update_self]
  have hR1 : w1.regions 0 = some { R with current := some (.sync 0), idx := R.idx + 1 } := by
    rw [h2]; simp [World.setCtx, World.setRegion, World.advance, World.emit]
  have hm1 : w1.models 0 = some m := by rw [h3]; exact h.model
  have hcfg1 : w1.cfg = { collective := cl } := by rw [h4]; exact hcfg
  have hreg1 : w1.registry = w.registry := h5
  have ht1 : w1.tick = t + 1 := by rw [h6, ← ht]; rfl
  have he : ∃ w', results env [.getPolicyIndexCur 0, .endCur 0] w1 = .ok ([.policy c, .unit], w') ∧
      BetweenC cl w' (afterRun R (env.ops.isTrainable m') fs c
        (rnd64 (seconds (env.clock (t + 1)) - seconds (env.clock t)))) m' (t + 2) ∧
      w'.registry = w.registry ∧ chosen w'.log = chosen w.log ++ [c] := by
    have hl1 : chosen w1.log = chosen w.log := by
      rw [h8]; simp [chosen, World.setCtx, World.setRegion, World.advance, World.emit]
    cases hT : env.ops.isTrainable m' <;>
    simp only [results, step, currentCtx, World.region, World.ctx, World.model,
      World.setRegion, World.setCtx, World.setModel, World.advance, World.emit, hR1, h7, hm1,
      Res.bind_ok, if_true, Function.update_self, getPolicyIndex, tracePolicy, hcfg1,
      hm, endCtx, syncMetric, collectContext, record, autoTrain, destroyContext, List.nil_append,
      Bool.false_eq_true, if_false, Bool.false_or, hT, Bool.not_true, Bool.not_false, ne_eq,
      not_true_eq_false, false_and, hidle, lt_irrefl, ht, ht1]
    all_goals
      refine ⟨_, rfl, ⟨rfl, ?_, ?_, ?_, hidle, h.pending, ?_, rfl⟩, hreg1, ?_⟩
      · simp [afterRun, hidle]
      · simp
      · exact ⟨_, rfl⟩
      · simp only [hreg1]; exact h.registry
      · rw [← hl1]; simp [chosen]
  obtain ⟨w', he, hw'⟩ := he
  refine ⟨.ctx (.sync 0) :: (List.replicate fs.length .unit ++ [.policy c, .unit]), w', ?_, ?_, hw'⟩
  · rw [runWith, results, hb, Res.bind_ok]
    simp only
    rw [results_append, h1]
    simp only [Res.bind_ok, he]
  · rw [policies, List.filterMap_cons, List.filterMap_append, List.filterMap_replicate]
    rfl

theorem run_once {env : Env M} {w : World M} {R : Region} {m m' : M} {t : ℕ} {fs : Features} {c : ℤ}
    (h : Between w R m t) (hi : R.idx + 1 < 2 ^ 31) (hm : env.ops.getIndex m fs = .ok (c, m')) :
    ∃ rets w', results env (runWith fs) w = .ok (rets, w') ∧ policies rets = [c] ∧
      Between w' (afterRun R (env.ops.isTrainable m') fs c
        (rnd64 (seconds (env.clock (t + 1)) - seconds (env.clock t)))) m' (t + 2) := by
  obtain ⟨rets, w', h1, h2, h3, -⟩ := run_onceC h hi hm
  exact ⟨rets, w', h1, h2, h3⟩

/-- What is measured in a row of executions from tick `t`. -/
def measured (clock : ℕ → ℤ × ℤ) : ℕ → List Features → (ℕ → ℤ) → List Meas
  | _, [], _ => []
  | t, f :: fs, cs =>
    ⟨f, cs 0, rnd64 (seconds (clock (t + 1)) - seconds (clock t))⟩ ::
      measured clock (t + 2) fs fun j => cs (j + 1)

theorem mem_measured {clock : ℕ → ℤ × ℤ} {x : Meas} : ∀ {fs : List Features} {t : ℕ} {cs : ℕ → ℤ},
    x ∈ measured clock t fs cs ↔ ∃ j, ∃ h : j < fs.length, x = ⟨fs[j], cs j,
      rnd64 (seconds (clock (t + 2 * j + 1)) - seconds (clock (t + 2 * j)))⟩ := by
  intro fs
  induction fs with
  | nil => intro t cs; simp [measured]
  | cons f fs ih =>
    intro t cs
    rw [measured, List.mem_cons, ih]
    constructor
    · rintro (rfl | ⟨j, hj, rfl⟩)
      · exact ⟨0, by simp, by simp⟩
      · refine ⟨j + 1, by simpa using hj, ?_⟩
        have e : t + 2 + 2 * j = t + 2 * (j + 1) := by ring
        simp [e]
    · rintro ⟨j, hj, rfl⟩
      cases j with
      | zero => exact .inl (by simp)
      | succ j =>
        refine .inr ⟨j, by simpa using hj, ?_⟩
        have e : t + 2 + 2 * j = t + 2 * (j + 1) := by ring
        simp [e]

theorem policies_append (a b : List Ret) : policies (a ++ b) = policies a ++ policies b := by
  simp [policies]

/-- A row of executions with known answers. -/
theorem run_listC {cl : Bool} {env : Env M} {b : Bool} : ∀ {fs : List Features} {w : World M} {R : Region} {t : ℕ}
    {ms : ℕ → M} {cs : ℕ → ℤ} {h : List Meas}, BetweenC cl w R (ms 0) t → R.idx + fs.length < 2 ^ 31 →
    R.dataset = run h →
    (∀ j (hj : j < fs.length), env.ops.getIndex (ms j) fs[j] = .ok (cs j, ms (j + 1)) ∧
      env.ops.isTrainable (ms (j + 1)) = b) →
    ∃ rets w' R', results env (fs.flatMap runWith) w = .ok (rets, w') ∧
      policies rets = (List.range fs.length).map cs ∧ BetweenC cl w' R' (ms fs.length) (t + 2 * fs.length) ∧
      R'.idx = R.idx + fs.length ∧
      R'.dataset = run (h ++ if b then measured env.clock t fs cs else []) ∧
      (R'.name = R.name ∧ R'.numFeatures = R.numFeatures) ∧ w'.registry = w.registry ∧
      chosen w'.log = chosen w.log ++ (List.range fs.length).map cs := by
  intro fs
  induction fs with
  | nil =>
    intro w R t ms cs h hw _ hR _
    exact ⟨[], w, R, rfl, rfl, hw, by simp, by cases b <;> simp [measured, hR], ⟨rfl, rfl⟩, rfl,
      by simp⟩
  | cons f fs ih =>
    intro w R t ms cs h hw hi hR hm
    obtain ⟨hm0, hb⟩ := hm 0 (by simp)
    simp only [List.length_cons, Nat.cast_add, Nat.cast_one] at hi
    obtain ⟨r1, w1, e1, p1, hw1, g1, l1⟩ := run_onceC hw (by omega) hm0
    change results env (runWith f) w = .ok (r1, w1) at e1
    obtain ⟨r2, w2, R2, e2, p2, hw2, i2, d2, n2, g2, l2⟩ := ih (ms := fun j => ms (j + 1)) (cs := fun j => cs (j + 1))
      (h := h ++ if b then [⟨f, cs 0, rnd64 (seconds (env.clock (t + 1)) - seconds (env.clock t))⟩] else [])
      hw1 (by simp only [afterRun]; omega)
      (by
        rw [hb]
        cases b
        · simp [afterRun, hR]
        · simp [afterRun, hR, run])
      (fun j hj => hm (j + 1) (by simpa using hj))
    refine ⟨r1 ++ r2, w2, R2, ?_, ?_, ?_, ?_, ?_, n2, g2.trans g1, ?_⟩
    · rw [List.flatMap_cons, results_append, e1, Res.bind_ok, e2, Res.bind_ok]
    · rw [policies_append, p1, p2, List.length_cons, List.range_succ_eq_map, List.map_cons, List.map_map]
      rfl
    · rw [List.length_cons, show t + 2 * (fs.length + 1) = t + 2 + 2 * fs.length by ring]
      exact hw2
    · rw [i2, List.length_cons]
      simp only [afterRun]
      push_cast
      ring
    · rw [d2]
      cases b
      · simp
      · simp [measured]
    · rw [l2, l1, List.length_cons, List.range_succ_eq_map, List.map_cons, List.map_map, List.append_assoc]
      rfl

/-- The same with the default settings. -/
theorem run_list {env : Env M} {b : Bool} : ∀ {fs : List Features} {w : World M} {R : Region} {t : ℕ}
    {ms : ℕ → M} {cs : ℕ → ℤ} {h : List Meas}, Between w R (ms 0) t → R.idx + fs.length < 2 ^ 31 →
    R.dataset = run h →
    (∀ j (hj : j < fs.length), env.ops.getIndex (ms j) fs[j] = .ok (cs j, ms (j + 1)) ∧
      env.ops.isTrainable (ms (j + 1)) = b) →
    ∃ rets w' R', results env (fs.flatMap runWith) w = .ok (rets, w') ∧
      policies rets = (List.range fs.length).map cs ∧ Between w' R' (ms fs.length) (t + 2 * fs.length) ∧
      R'.idx = R.idx + fs.length ∧
      R'.dataset = run (h ++ if b then measured env.clock t fs cs else []) := by
  intro fs w R t ms cs h hw hi hR hm
  obtain ⟨rets, w', R', h1, h2, h3, h4, h5, -⟩ := run_listC hw hi hR hm
  exact ⟨rets, w', R', h1, h2, h3, h4, h5⟩

/-- Training with force. -/
theorem train_forceC {cl : Bool} {env : Env M} {w : World M} {R : Region} {m m' : M} {t : ℕ} {force : Bool} {step : ℤ}
    (hw : BetweenC cl w R m t) (hf : force = true ∨ env.ops.isTrainable m = true) (hd : R.dataset.size ≠ 0)
    (hm : env.ops.train t R.dataset m = .ok m') :
    ∃ w', regionTrain env w 0 step true force = .ok w' ∧ BetweenC cl w' R m' (t + 1) ∧
      w'.registry = w.registry ∧ chosen w'.log = chosen w.log := by
  have hcfg := hw.cfg
  have ht := hw.tick
  have hp := hw.pending
  have hg : ¬ (!force && !env.ops.isTrainable m) = true := by
    rcases hf with h | h <;> simp [h]
  have hs : ({ R with pending := [] } : Region) = R := by
    cases R
    simp only at hp
    simp [hp]
  simp only [regionTrain, World.region, World.model, hw.region, hw.model, Res.bind_ok, hg, if_false,
    collectPending, hp, collectLoop, if_true, World.setRegion, Function.update_self, hs, trainBody, hd, hcfg,
    Bool.not_true, Bool.false_eq_true, traceBest, ht, hm, World.setModel, World.advance, World.emit]
  exact ⟨_, rfl, ⟨rfl, by simp, by simp, hw.ctx, hw.idle, hw.pending, hw.registry, rfl⟩, rfl, by simp [chosen]⟩

theorem train_force {env : Env M} {w : World M} {R : Region} {m m' : M} {t : ℕ} {force : Bool} {step : ℤ}
    (hw : Between w R m t) (hf : force = true ∨ env.ops.isTrainable m = true) (hd : R.dataset.size ≠ 0)
    (hm : env.ops.train t R.dataset m = .ok m') :
    ∃ w', regionTrain env w 0 step true force = .ok w' ∧ Between w' R m' (t + 1) := by
  obtain ⟨w', h1, h2, -⟩ := train_forceC (step := step) hw hf hd hm
  exact ⟨w', h1, h2⟩

/-- What the creation of a region needs of its model. -/
structure Made (gen : ℕ → ℕ) (info : Str) (nf n : ℤ) (m : PolicyModel) : Prop where
  ex : ∃ mn ps, parsePolicyModel info = .ok (mn, ps) ∧ mn ≠ "StaticRegion".toList ∧
    createModel gen mn nf n ps = .ok (.model m) ∧ ps.find "load".toList = none ∧
    ps.find "load-dataset".toList = none ∧ mn ≠ "Optimal".toList ∧ mn ≠ "DatasetMap".toList

theorem create_firstC (cl : Bool) {env : Env PolicyModel} {gen : ℕ → ℕ → ℕ} {tenv : ℕ → TrainEnv}
    (ho : env.ops = policyOps gen tenv) {nf n : ℤ} {name info : Str} {m : PolicyModel}
    (hm : Made (gen 0) (if info = [] then "Static,policy=0".toList else info) nf n m)
    (files : Str → Option Str) :
    ∃ R w, results env [.create nf name n 0 info []] (initWorld { collective := cl } files) = .ok ([.region 0], w) ∧
      BetweenC cl w R m 1 ∧ R.idx = 0 ∧ R.dataset = [] ∧ R.name = truncName name ∧ R.numFeatures = nf ∧
      w.registry = [(truncName name, 0)] ∧ chosen w.log = [] := by
  obtain ⟨mn, ps, h1, h2, h3, h4, h5, h6, h7⟩ := hm.ex
  have hc : (policyOps gen tenv).create 0 mn nf n ps = .ok m := by simp only [policyOps, h3]
  have hr : ∀ (nm : Str) (s : Str), resolveStaticRegion nm mn ps s = .ok (mn, ps, s) := by
    intro nm s
    unfold resolveStaticRegion
    rw [if_neg h2]
  let R : Region := ⟨truncName name, nf, n, 0, if info = [] then "Static,policy=0".toList else info, mn, ps, [],
    0, none, [], []⟩
  let w1 : World PolicyModel := ((((({ initWorld { collective := cl } files with nextRegion := 1 } : World PolicyModel).setRegion 0
    R).setModel 0 m).setCtx (.sync 0) {}).advance)
  have hcons : constructRegion env (initWorld { collective := cl } files) nf name n 0 info [] = .ok (0, w1) := by
    unfold constructRegion
    have e1 : (initWorld { collective := cl } files : World PolicyModel).cfg.policyModel = "Static,policy=0".toList := rfl
    have e2 : (initWorld { collective := cl } files : World PolicyModel).tick = 0 := rfl
    have e3 : (initWorld { collective := cl } files : World PolicyModel).nextRegion = 0 := rfl
    simp only [e1, e2, e3, h1, Res.bind_ok, hr, ho, hc, loadYaml, if_true, loadModel, h4]
    rfl
  have hR : w1.region 0 = .ok R := rfl
  have hM : w1.model 0 = .ok m := rfl
  have hcfg : w1.cfg = { collective := cl } := rfl
  refine ⟨R, ({ w1 with registry := OMap.insertNew R.name 0 w1.registry } : World PolicyModel).emit
    (.created 0 [] (env.ops.isTrainable m)), ?_, ⟨rfl, rfl, rfl, ⟨_, rfl⟩, rfl, rfl, rfl, rfl⟩, rfl, rfl, rfl, rfl, rfl, rfl⟩
  have h6' : R.modelName ≠ "Optimal".toList := h6
  have h7' : R.modelName ≠ "DatasetMap".toList := h7
  have h5' : R.params.find "load-dataset".toList = none := h5
  simp only [results, step, createRegion, hcons, Res.bind_ok, loadPersistent, hcfg, Bool.not_false, if_true,
    loadDatasetParam, hR, h5', loadOptimalFile, h6', if_false, loadDatasetMap, h7', startTrace,
    Bool.false_eq_true, hM]
  rfl

theorem create_first {env : Env PolicyModel} {gen : ℕ → ℕ → ℕ} {tenv : ℕ → TrainEnv}
    (ho : env.ops = policyOps gen tenv) {nf n : ℤ} {name info : Str} {m : PolicyModel}
    (hm : Made (gen 0) (if info = [] then "Static,policy=0".toList else info) nf n m)
    (files : Str → Option Str) :
    ∃ R w, results env [.create nf name n 0 info []] (initWorld {} files) = .ok ([.region 0], w) ∧
      Between w R m 1 ∧ R.idx = 0 ∧ R.dataset = [] := by
  obtain ⟨R, w, h1, h2, h3, h4, -⟩ := create_firstC false ho hm files
  exact ⟨R, w, h1, h2, h3, h4⟩

theorem made_tree (gen : ℕ → ℕ) (n : ℤ) : Made gen "DecisionTree,max_depth=3".toList 1 n
    (.newTree n 3 (.roundRobin n (-1))) :=
  ⟨"DecisionTree".toList, [("max_depth".toList, "3".toList)], by decide +kernel, by decide, rfl, rfl, rfl, by decide,
    by decide⟩

theorem made_tree2 (gen : ℕ → ℕ) (nf n : ℤ) : Made gen "DecisionTree,max_depth=2".toList nf n
    (.newTree n 2 (.roundRobin n (-1))) :=
  ⟨"DecisionTree".toList, [("max_depth".toList, "2".toList)], by decide +kernel, by decide, rfl, rfl, rfl, by decide,
    by decide⟩

theorem made_static (gen : ℕ → ℕ) (nf : ℤ) : Made gen "Static,policy=0".toList nf 2 (.static 2 0) :=
  ⟨"Static".toList, [("policy".toList, "0".toList)], by decide +kernel, by decide, rfl, rfl, rfl, by decide,
    by decide⟩

/-- The explorer of the region after `j` executions. -/
def lastOf (n : ℤ) (j : ℕ) : ℤ := if j = 0 then -1 else ((j : ℤ) - 1) % n

theorem explore_step {n : ℤ} (hn : 0 < n) (d : ℕ) (j : ℕ) (f : Features) :
    (PolicyModel.newTree n d (.roundRobin n (lastOf n j))).getIndex f =
      .ok ((j : ℤ) % n, .newTree n d (.roundRobin n (lastOf n (j + 1)))) := by
  have h0 : n ≠ 0 := by omega
  have hc : Int.tmod (lastOf n j + 1) n = (j : ℤ) % n := by
    unfold lastOf
    split
    next h => subst h; simp
    next h =>
      rw [Int.tmod_eq_emod_of_nonneg (by have := Int.emod_nonneg ((j : ℤ) - 1) h0; omega), Int.emod_add_emod]
      congr 1
      ring
  have hl : lastOf n (j + 1) = (j : ℤ) % n := by simp [lastOf]
  simp only [PolicyModel.newTree, PolicyModel.getIndex, Bool.not_true, Bool.false_eq_true, if_false, h0,
    Res.bind_ok, hc, hl]

/-- The first executions, with the explorer. -/
theorem explore_listC {cl : Bool} {env : Env PolicyModel} {gen : ℕ → ℕ → ℕ} {tenv : ℕ → TrainEnv}
    (ho : env.ops = policyOps gen tenv) {n : ℤ} (hn : 0 < n) (d : ℕ) {fs : List Features}
    {w : World PolicyModel} {R : Region} (hw : BetweenC cl w R (.newTree n d (.roundRobin n (-1))) 1)
    (hi : R.idx = 0) (hd : R.dataset = []) (hl : (fs.length : ℤ) < 2 ^ 31) :
    ∃ rets w' R', results env (fs.flatMap runWith) w = .ok (rets, w') ∧
      policies rets = (List.range fs.length).map (fun j : ℕ => (j : ℤ) % n) ∧
      BetweenC cl w' R' (.newTree n d (.roundRobin n (lastOf n fs.length))) (1 + 2 * fs.length) ∧
      R'.idx = fs.length ∧ R'.dataset = run (measured env.clock 1 fs fun j => (j : ℤ) % n) ∧
      (R'.name = R.name ∧ R'.numFeatures = R.numFeatures) ∧ w'.registry = w.registry ∧
      chosen w'.log = chosen w.log ++ (List.range fs.length).map (fun j : ℕ => (j : ℤ) % n) := by
  obtain ⟨rets, w', R', h1, h2, h3, h4, h5, h6⟩ := run_listC (env := env) (b := true) (fs := fs) (h := [])
    (ms := fun j => .newTree n d (.roundRobin n (lastOf n j))) (cs := fun j => (j : ℤ) % n) hw
    (by omega) hd (fun j hj => by
      rw [ho]
      exact ⟨explore_step hn d j _, rfl⟩)
  exact ⟨rets, w', R', h1, h2, h3, by omega, by simpa using h5, h6⟩

/-- The same with the default settings. -/
theorem explore_list {env : Env PolicyModel} {gen : ℕ → ℕ → ℕ} {tenv : ℕ → TrainEnv}
    (ho : env.ops = policyOps gen tenv) {n : ℤ} (hn : 0 < n) (d : ℕ) {fs : List Features}
    {w : World PolicyModel} {R : Region} (hw : Between w R (.newTree n d (.roundRobin n (-1))) 1)
    (hi : R.idx = 0) (hd : R.dataset = []) (hl : (fs.length : ℤ) < 2 ^ 31) :
    ∃ rets w' R', results env (fs.flatMap runWith) w = .ok (rets, w') ∧
      policies rets = (List.range fs.length).map (fun j : ℕ => (j : ℤ) % n) ∧
      Between w' R' (.newTree n d (.roundRobin n (lastOf n fs.length))) (1 + 2 * fs.length) ∧
      R'.idx = fs.length ∧ R'.dataset = run (measured env.clock 1 fs fun j => (j : ℤ) % n) := by
  obtain ⟨rets, w', R', h1, h2, h3, h4, h5, -⟩ := explore_listC ho hn d hw hi hd hl
  exact ⟨rets, w', R', h1, h2, h3, h4, h5⟩

/-- A tree trained with two different best policies asks for a feature. -/
theorem predict_nil {σ : SortFn} (hσ : SortSpec σ) {t0 t : TreeImpl} (hs : t0.classes.Pairwise (· < ·))
    (hd : 1 ≤ t0.maxDepth) {k : ℕ} {xs : List Sample} (hk : ∀ x ∈ xs, x.1.length = k)
    (hlen : xs.length ≤ 2 ^ 20) {x y : Sample} (hx : x ∈ xs) (hy : y ∈ xs) (hne : x.2 ≠ y.2)
    (ht : t0.train σ xs = .ok t) : t.predict [] = .error (.ub .outOfBounds) := by
  obtain ⟨z, rest, root, data, -, hb, rfl⟩ := TreeImpl.train_ok_iff.1 ht
  obtain ⟨hg, -⟩ := buildTree_grown hσ _ _ hk hb
  have hnd := sorted_nodup (setInsertAll_sorted (cs := xs.map Prod.snd) hs)
  have hpos : 0 < gini (setInsertAll (xs.map Prod.snd) t0.classes) xs := by
    exact gini_pos hnd (List.ne_nil_of_mem hx) mem_classes_of_train hlen
      (two_le_nonzero hx hy hne mem_classes_of_train)
  unfold TreeImpl.predict
  simp only
  generalize t0.maxDepth = D at hg hd
  cases hg with
  | leaf d xs n hd' =>
    rcases hd' with h | h
    · omega
    · exact absurd hpos (not_lt.2 h)
  | inner d xs n i l r tl tr himp hg hn hc hbest hi ht hl hr =>
    rw [evaluateTree, if_neg (by rw [hi]; omega), if_neg (by rw [hi]; omega)]
    simp

end Apollo
