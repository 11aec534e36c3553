import Verif.Proofs.OneRegion
import Verif.Proofs.PolicyModels

/-!
# A run that explores and a run with the model DatasetMap
-/

namespace Apollo

open Spec

theorem create_alone {env : Env PolicyModel} {gen : ℕ → ℕ → ℕ} {tenv : ℕ → TrainEnv}
    (ho : env.ops = policyOps gen tenv) {K : Cfg} (hq : Quiet K) {nf n : ℤ} {name info : Str}
    {m : PolicyModel} (hi : info ≠ []) (hm : Made (gen 0) info nf n m) {files : Str → Option Str}
    (hp : K.persistent = true → files (datasetPath K (truncName name)) = none)
    (ht : K.traceCsv = true → env.canWrite (tracePath K env.rank info (truncName name)) = true) :
    ∃ R w, results env [.create nf name n 0 info []] (initWorld K files) = .ok ([.region 0], w) ∧
      Alone K w R m 1 [] ∧ R.name = truncName name ∧ R.numFeatures = nf ∧ R.dataset = [] ∧
      R.modelInfo = info ∧ w.files = files := by
  obtain ⟨mn, ps, h1, h2, h3, h4, h5, h6, h7⟩ := hm.ex
  have hc : (policyOps gen tenv).create 0 mn nf n ps = .ok m := by simp only [policyOps, h3]
  have hr : ∀ (nm : Str) (s : Str), resolveStaticRegion nm mn ps s = .ok (mn, ps, s) := by
    intro nm s
    unfold resolveStaticRegion
    rw [if_neg h2]
  let R : Region := ⟨truncName name, nf, n, 0, info, mn, ps, [], 0, none, [], []⟩
  let w1 : World PolicyModel := ((((({ initWorld K files with nextRegion := 1 } : World PolicyModel).setRegion 0
    R).setModel 0 m).setCtx (.sync 0) {}).advance)
  have hcons : constructRegion env (initWorld K files) nf name n 0 info [] = .ok (0, w1) := by
    unfold constructRegion
    have e2 : (initWorld K files : World PolicyModel).tick = 0 := rfl
    have e3 : (initWorld K files : World PolicyModel).nextRegion = 0 := rfl
    simp only [hi, if_false, e2, e3, h1, Res.bind_ok, hr, ho, hc, loadYaml, if_true, loadModel, h4]
    rfl
  have hR : w1.region 0 = .ok R := rfl
  have hM : w1.model 0 = .ok m := rfl
  have hcfg : w1.cfg = K := rfl
  have h6' : R.modelName ≠ "Optimal".toList := h6
  have h7' : R.modelName ≠ "DatasetMap".toList := h7
  have h5' : R.params.find "load-dataset".toList = none := h5
  have hset : w1.setRegion 0 R = w1 := by
    simp [w1, World.setRegion, World.setModel, World.setCtx, World.advance]
  have hpers : loadPersistent env w1 0 = .ok w1 := by
    cases hK : K.persistent with
    | false => simp [loadPersistent, hcfg, hK]
    | true =>
      have hf : w1.files (datasetPath K R.name) = none := hp hK
      have hmin : R.minTraining = 0 := rfl
      have ha : autoTrain env w1 0 = .ok w1 := by
        simp only [autoTrain, hR, hM, Res.bind_ok, hcfg, hq.global, hq.perRegion, hmin, ne_eq, not_true_eq_false,
          false_and, lt_irrefl, if_false, ite_self]
      simp only [loadPersistent, hcfg, hK, Bool.not_true, Bool.false_eq_true, if_false, hR, Res.bind_ok, hf,
        loadIfExists]
      show autoTrain env (w1.setRegion 0 R) 0 = _
      rw [hset, ha]
  have hrest : loadDatasetParam env w1 0 = .ok w1 ∧ loadOptimalFile env w1 0 = .ok w1 ∧
      loadDatasetMap env w1 0 = .ok w1 := by
    refine ⟨?_, ?_, ?_⟩
    · simp only [loadDatasetParam, hR, Res.bind_ok, h5']
    · simp only [loadOptimalFile, hR, Res.bind_ok, h6', if_false]
    · simp only [loadDatasetMap, hR, Res.bind_ok, h7', if_false]
  cases hK : K.traceCsv with
  | false =>
    refine ⟨R, ({ w1 with registry := OMap.insertNew R.name 0 w1.registry } : World PolicyModel).emit
      (.created 0 [] (env.ops.isTrainable m)), ?_, ⟨rfl, rfl, rfl, ⟨_, rfl⟩, rfl, rfl, rfl, rfl, rfl, rfl, rfl,
      rfl, rfl⟩, rfl, rfl, rfl, rfl, rfl⟩
    simp only [results, step, createRegion, hcons, Res.bind_ok, hpers, hrest, startTrace, hR, hM, hcfg, hK,
      Bool.false_eq_true, if_false]
    rfl
  | true =>
    let R' : Region := { R with trace := traceHeader nf }
    let w2 := w1.setRegion 0 R'
    refine ⟨R', ({ w2 with registry := OMap.insertNew R.name 0 w1.registry } : World PolicyModel).emit
      (.created 0 [] (env.ops.isTrainable m)), ?_, ⟨rfl, rfl, rfl, ⟨_, rfl⟩, rfl, rfl, rfl, rfl, rfl, rfl, rfl,
      rfl, rfl⟩, rfl, rfl, rfl, rfl, rfl⟩
    have hcw : env.canWrite (tracePath K env.rank R.modelInfo R.name) = true := ht hK
    have hst : startTrace env w1 0 = .ok w2 := by
      simp only [startTrace, hR, Res.bind_ok, hcfg, hK, if_true, hcw]
      rfl
    have hR2 : w2.region 0 = .ok R' := rfl
    have hM2 : w2.model 0 = .ok m := rfl
    simp only [results, step, createRegion, hcons, Res.bind_ok, hpers, hrest, hst, hR2, hM2]
    rfl

theorem made_roundRobin (gen : ℕ → ℕ) (nf n : ℤ) : Made gen "RoundRobin".toList nf n (.roundRobin n (-1)) :=
  ⟨"RoundRobin".toList, [], by decide +kernel, by decide, rfl, rfl, rfl, by decide, by decide⟩

theorem roundRobin_step {n : ℤ} (hn : 0 < n) (j : ℕ) (f : Features) :
    (PolicyModel.roundRobin n (lastOf n j)).getIndex f =
      .ok ((j : ℤ) % n, .roundRobin n (lastOf n (j + 1))) := by
  have h0 : n ≠ 0 := by omega
  have hc : Int.tmod (lastOf n j + 1) n = (j : ℤ) % n := by
    unfold lastOf
    split
    next h => subst h; simp
    next h =>
      rw [Int.tmod_eq_emod_of_nonneg (by have := Int.emod_nonneg ((j : ℤ) - 1) h0; omega), Int.emod_add_emod]
      congr 1
      ring
  have hl : lastOf n (j + 1) = (j : ℤ) % n := by simp [lastOf]
  simp only [PolicyModel.getIndex, h0, if_false, hc, hl]

/-- A run that explores. -/
theorem explore_run {env : Env PolicyModel} {gen : ℕ → ℕ → ℕ} {tenv : ℕ → TrainEnv}
    (ho : env.ops = policyOps gen tenv) {K : Cfg} (hK : Quiet K) {nf n : ℤ} (hn : 0 < n) {name : Str}
    {files : Str → Option Str} {fs : List Features} (hl : fs.length < 2 ^ 31)
    (hp : K.persistent = true → files (datasetPath K (truncName name)) = none)
    (ht : K.traceCsv = true →
      env.canWrite (tracePath K env.rank "RoundRobin".toList (truncName name)) = true) :
    ∃ rets w R, results env (.create nf name n 0 "RoundRobin".toList [] :: fs.flatMap runWith)
        (initWorld K files) = .ok (rets, w) ∧
      policies rets = (List.range fs.length).map (fun j : ℕ => (j : ℤ) % n) ∧
      Alone K w R (.roundRobin n (lastOf n fs.length)) (1 + 2 * fs.length)
        (rowsFrom env.clock 0 1 fs fun j => (j : ℤ) % n) ∧
      R.name = truncName name ∧ R.numFeatures = nf ∧ w.files = files := by
  obtain ⟨R, w1, h1, h2, h3, h4, h5, h5', h6⟩ := create_alone ho hK (name := name) (files := files) (by decide)
    (made_roundRobin (gen 0) nf n) hp ht
  obtain ⟨rets, w, R', e1, e2, e3, e4, e5, -, e6⟩ := run_all_alone (env := env) hK (fs := fs)
    (ms := fun j => .roundRobin n (lastOf n j)) (cs := fun j => (j : ℤ) % n) (rows := [])
    (by simpa [lastOf] using h2) (by simpa using hl) (fun j hj => by
      rw [ho]
      simp only [List.length_nil, Nat.zero_add]
      exact roundRobin_step hn j fs[j])
  refine ⟨.region 0 :: rets, w, R', ?_, ?_, ?_, e4.trans h3, e5.trans h4, e6.trans h6⟩
  · rw [← List.singleton_append, results_append, h1, Res.bind_ok, e1]
    rfl
  · show policies rets = _
    simpa using e2
  · simpa using e3

theorem create_datasetMap {env : Env PolicyModel} {gen : ℕ → ℕ → ℕ} {tenv : ℕ → TrainEnv}
    (ho : env.ops = policyOps gen tenv) (nf n : ℤ) (name : Str) {files : Str → Option Str} {s : Str}
    {ds : Dataset} (hf : files (datasetPath {} (truncName name)) = some s)
    (hs : Dataset.load [] s = .ok ds) (hne : ds ≠ []) :
    ∃ R w, results env [.create nf name n 0 "DatasetMap".toList []] (initWorld {} files) =
        .ok ([.region 0], w) ∧
      Between w R (.datasetMap n (Dataset.bestPolicies ds)) 2 ∧ R.idx = 0 ∧ R.dataset = ds := by
  have hp : parsePolicyModel "DatasetMap".toList = .ok ("DatasetMap".toList, []) := by decide +kernel
  have hc : (policyOps gen tenv).create 0 "DatasetMap".toList nf n [] = .ok (.datasetMap n []) := rfl
  have hr : ∀ (nm : Str) (s : Str), resolveStaticRegion nm "DatasetMap".toList [] s =
      .ok ("DatasetMap".toList, [], s) := fun nm s => rfl
  let R : Region := ⟨truncName name, nf, n, 0, "DatasetMap".toList, "DatasetMap".toList, [], [], 0, none, [], []⟩
  let w1 : World PolicyModel := ((((({ initWorld {} files with nextRegion := 1 } : World PolicyModel).setRegion 0
    R).setModel 0 (.datasetMap n [])).setCtx (.sync 0) {}).advance)
  have hcons : constructRegion env (initWorld {} files) nf name n 0 "DatasetMap".toList [] = .ok (0, w1) := by
    unfold constructRegion
    have e0 : "DatasetMap".toList ≠ [] := by decide
    have e2 : (initWorld {} files : World PolicyModel).tick = 0 := rfl
    have e3 : (initWorld {} files : World PolicyModel).nextRegion = 0 := rfl
    have e4 : Params.find [] "load".toList = none := rfl
    simp only [e0, e2, e3, hp, Res.bind_ok, hr, ho, hc, loadYaml, if_true, if_false, loadModel, e4]
    rfl
  have hR : w1.region 0 = .ok R := rfl
  have hM : w1.model 0 = .ok (.datasetMap n []) := rfl
  have hcfg : w1.cfg = {} := rfl
  have hfiles : w1.files (datasetPath {} R.name) = some s := hf
  have h5' : R.params.find "load-dataset".toList = none := rfl
  have h6' : R.modelName = "DatasetMap".toList := rfl
  have h7' : R.modelName ≠ "Optimal".toList := by show "DatasetMap".toList ≠ _; decide
  have hl : ∀ t, env.ops.train t ds (.datasetMap n []) = .ok (.datasetMap n (Dataset.bestPolicies ds)) := by
    intro t; rw [ho]; rfl
  have hsz : ds.size ≠ 0 := by simpa [Dataset.size] using hne
  have hds : R.dataset.load s = .ok ds := hs
  let R' : Region := { R with dataset := ds }
  let w2 := (((w1.setRegion 0 R').setModel 0 (.datasetMap n (Dataset.bestPolicies ds))).advance).emit
    (.trained 0 ds)
  have hmap : loadDatasetMap env w1 0 = .ok w2 := by
    simp only [loadDatasetMap, hR, Res.bind_ok, h6', if_true, hcfg, hfiles, hM, hl, hds, hsz, if_false]
    rfl
  have hR2 : w2.region 0 = .ok R' := rfl
  have hM2 : w2.model 0 = .ok (.datasetMap n (Dataset.bestPolicies ds)) := rfl
  have hcfg2 : w2.cfg = {} := rfl
  refine ⟨R', ({ w2 with registry := OMap.insertNew R.name 0 w2.registry } : World PolicyModel).emit
    (.created 0 ds (env.ops.isTrainable (.datasetMap n (Dataset.bestPolicies ds)))), ?_,
    ⟨rfl, rfl, rfl, ⟨_, rfl⟩, rfl, rfl, rfl, rfl⟩, rfl, rfl⟩
  simp only [results, step, createRegion, hcons, Res.bind_ok, loadPersistent, hcfg, Bool.not_false, if_true,
    loadDatasetParam, hR, h5', hmap, loadOptimalFile, h7', if_false, startTrace, hR2, hM2, hcfg2,
    Bool.false_eq_true]
  rfl

/-- A run with a dataset that has measurements for all features. -/
theorem mapped_run {env : Env PolicyModel} {gen : ℕ → ℕ → ℕ} {tenv : ℕ → TrainEnv}
    (ho : env.ops = policyOps gen tenv) (nf n : ℤ) (name : Str) {files : Str → Option Str} {s : Str}
    {h : List Meas} (hf : files (datasetPath {} (truncName name)) = some s)
    (hs : Dataset.load [] s = .ok (run h)) (hne : run h ≠ []) {qs : List Features} (hl : qs.length < 2 ^ 31)
    (cs : Features → ℤ) (hcs : ∀ q ∈ qs, (PolicyModel.datasetMap n (Dataset.bestPolicies (run h))).getIndex q =
      .ok (cs q, .datasetMap n (Dataset.bestPolicies (run h)))) :
    ∃ rets w, results env (.create nf name n 0 "DatasetMap".toList [] :: qs.flatMap runWith) (initWorld {} files) =
      .ok (rets, w) ∧ policies rets = qs.map cs := by
  obtain ⟨R, w1, h1, h2, h3, h4⟩ := create_datasetMap ho nf n name hf hs hne
  obtain ⟨rets, w, R', e1, e2, -⟩ := run_list (env := env) (b := false) (fs := qs) (h := h)
    (ms := fun _ => .datasetMap n (Dataset.bestPolicies (run h))) (cs := fun j => cs (qs.getD j [])) h2
    (by omega) h4 (fun j hj => by
      rw [ho]
      refine ⟨?_, rfl⟩
      show PolicyModel.getIndex _ _ = _
      rw [hcs _ (List.getElem_mem hj)]
      simp [List.getD_eq_getElem?_getD, hj])
  refine ⟨.region 0 :: rets, w, ?_, ?_⟩
  · rw [← List.singleton_append, results_append, h1, Res.bind_ok, e1]
    rfl
  · show policies rets = _
    rw [e2]
    refine List.ext_getElem (by simp) fun i a b => ?_
    have : i < qs.length := by simpa using b
    simp [List.getD_eq_getElem?_getD, this]

/-- The end of a run. -/
theorem destroy_alone {env : Env PolicyModel} {K : Cfg} {w : World PolicyModel} {R : Region} {m : PolicyModel}
    {t : ℕ} {rows : List Row} (h : Alone K w R m t rows) (fuel : ℕ) :
    ∃ w', destroyRegion env w 0 fuel = .ok w' ∧ w'.log = w.log ++ [.destroyed 0] := by
  have hd : ∀ w1 : World PolicyModel, w1.regions = w.regions → drain env 0 fuel w1 = .ok w1 := by
    intro w1 h1
    cases fuel <;> simp [drain, World.region, h1, h.region, h.pending]
  simp only [destroyRegion, World.region, h.region, Res.bind_ok]
  rw [hd { w with cfg := { w.cfg with globalPeriod := 0 } } rfl, Res.bind_ok]
  simp only [h.region, Res.bind_ok]
  have hlog : ∀ (w1 : World PolicyModel) (b : Bool) (p : Str) (s : Option Str),
      (if b = true then w1.write env p s else w1).log = w1.log := by
    intro w1 b p s
    cases b
    · rfl
    · simp only [if_true, World.write]
      split
      · rfl
      · split <;> rfl
  refine ⟨_, rfl, ?_⟩
  simp only [World.emit]
  rw [hlog]

end Apollo
