import Verif.Proofs.TestRuns
import Verif.Proofs.PolicyModels

/-!
# Executions of a region with the model Optimal
-/

namespace Apollo

open Spec

theorem create_optimal {env : Env PolicyModel} {gen : ℕ → ℕ → ℕ} {tenv : ℕ → TrainEnv}
    (ho : env.ops = policyOps gen tenv) (nf n : ℤ) (name : Str) {files : Str → Option Str} {s : Str}
    {ps : List ℤ} (hf : files (optimalPath env.rank (truncName name)) = some s)
    (hs : PolicyModel.load (some s) (.optimal []) = .ok (.optimal ps)) :
    ∃ R w, results env [.create nf name n 0 "Optimal".toList []] (initWorld {} files) =
        .ok ([.region 0], w) ∧
      Between w R (.optimal ps) 1 ∧ R.idx = 0 ∧ R.dataset = [] := by
  have hp : parsePolicyModel "Optimal".toList = .ok ("Optimal".toList, []) := by decide +kernel
  have hc : (policyOps gen tenv).create 0 "Optimal".toList nf n [] = .ok (.optimal []) := rfl
  have hr : ∀ (nm : Str) (s : Str), resolveStaticRegion nm "Optimal".toList [] s =
      .ok ("Optimal".toList, [], s) := fun nm s => rfl
  let R : Region := ⟨truncName name, nf, n, 0, "Optimal".toList, "Optimal".toList, [], [], 0, none, [], []⟩
  let w1 : World PolicyModel := ((((({ initWorld {} files with nextRegion := 1 } : World PolicyModel).setRegion 0
    R).setModel 0 (.optimal [])).setCtx (.sync 0) {}).advance)
  have hcons : constructRegion env (initWorld {} files) nf name n 0 "Optimal".toList [] = .ok (0, w1) := by
    unfold constructRegion
    have e0 : "Optimal".toList ≠ [] := by decide
    have e2 : (initWorld {} files : World PolicyModel).tick = 0 := rfl
    have e3 : (initWorld {} files : World PolicyModel).nextRegion = 0 := rfl
    have e4 : Params.find [] "load".toList = none := rfl
    simp only [e0, e2, e3, hp, Res.bind_ok, hr, ho, hc, loadYaml, if_true, if_false, loadModel, e4]
    rfl
  have hR : w1.region 0 = .ok R := rfl
  have hM : w1.model 0 = .ok (.optimal []) := rfl
  have hcfg : w1.cfg = {} := rfl
  have hfiles : w1.files (optimalPath env.rank R.name) = some s := hf
  have h5' : R.params.find "load-dataset".toList = none := rfl
  have h6' : R.modelName = "Optimal".toList := rfl
  have h7' : R.modelName ≠ "DatasetMap".toList := by show "Optimal".toList ≠ _; decide
  have hl : env.ops.load (some s) (.optimal []) = .ok (.optimal ps) := by rw [ho]; exact hs
  let w2 := w1.setModel 0 (.optimal ps)
  have hR2 : w2.region 0 = .ok R := rfl
  have hM2 : w2.model 0 = .ok (.optimal ps) := rfl
  have hcfg2 : w2.cfg = {} := rfl
  have hopt : loadOptimalFile env w1 0 = .ok w2 := by
    simp only [loadOptimalFile, hR, Res.bind_ok, h6', if_true, hfiles, hM, hl]
    rfl
  refine ⟨R, ({ w2 with registry := OMap.insertNew R.name 0 w2.registry } : World PolicyModel).emit
    (.created 0 [] (env.ops.isTrainable (.optimal ps))), ?_, ⟨rfl, rfl, rfl, ⟨_, rfl⟩, rfl, rfl, rfl, rfl⟩, rfl,
    rfl⟩
  simp only [results, step, createRegion, hcons, Res.bind_ok, loadPersistent, hcfg, Bool.not_false, if_true,
    loadDatasetParam, hR, h5', hopt, hR2, hM2, hcfg2, loadDatasetMap, h7', startTrace, if_false,
    Bool.false_eq_true]
  rfl

/-- Executions that ask once get the policies of the file in order. -/
theorem optimal_list {env : Env PolicyModel} {gen : ℕ → ℕ → ℕ} {tenv : ℕ → TrainEnv}
    (ho : env.ops = policyOps gen tenv) (nf n : ℤ) (name : Str) {files : Str → Option Str} {s : Str}
    {ps : List ℤ} (hf : files (optimalPath env.rank (truncName name)) = some s)
    (hs : PolicyModel.load (some s) (.optimal []) = .ok (.optimal ps)) {qs : List Features}
    (hl : qs.length ≤ ps.length) (hi : qs.length < 2 ^ 31) :
    ∃ rets w, results env (.create nf name n 0 "Optimal".toList [] :: qs.flatMap runWith) (initWorld {} files) =
      .ok (rets, w) ∧ policies rets = ps.take qs.length := by
  obtain ⟨R, w1, h1, h2, h3, h4⟩ := create_optimal ho nf n name hf hs
  obtain ⟨rets, w, R', e1, e2, -⟩ := run_list (env := env) (b := false) (fs := qs) (h := [])
    (ms := fun j => .optimal (ps.drop j)) (cs := fun j => ps.getD j 0) (by simpa using h2)
    (by omega) h4 (fun j hj => by
      rw [ho]
      have hj' : j < ps.length := by omega
      refine ⟨?_, rfl⟩
      show PolicyModel.getIndex (.optimal (ps.drop j)) _ = _
      rw [List.drop_eq_getElem_cons hj']
      simp [PolicyModel.getIndex, List.getD_eq_getElem?_getD, hj'])
  refine ⟨.region 0 :: rets, w, ?_, ?_⟩
  · rw [← List.singleton_append, results_append, h1, Res.bind_ok, e1]
    rfl
  · show policies rets = _
    rw [e2]
    refine List.ext_getElem (by simp; omega) fun i a b => ?_
    have : i < ps.length := by simp at b; omega
    simp [List.getD_eq_getElem?_getD, this]

end Apollo
