import Verif.Proofs.RegionRange
import Verif.Props.Region

/-!
# Property C16: policies handed to the application are in range

PolicyNet is treated in Verif.Props.PolicyNet (property C52).
-/

namespace Apollo.Props

open Apollo Apollo.Spec

theorem create_model {gen : ℕ → ℕ → ℕ} {tenv : ℕ → TrainEnv} {t : ℕ} {name : Str} {nf n : ℤ}
    {params : Params} {m : PolicyModel} (h : (policyOps gen tenv).create t name nf n params = .ok m) :
    createModel (gen t) name nf n params = .ok (.model m) := by
  simp only [policyOps] at h
  split at h
  next h1 => cases h; exact h1
  · cases h
  · cases h

/-- Kinds of models that are in range whatever they are trained with or loaded from. -/
theorem ranged_robust (gen : ℕ → ℕ → ℕ) (tenv : ℕ → TrainEnv) :
    Ranged (policyOps gen tenv) True (fun k => k.modelName ∈ robustKinds ∧ 1 ≤ k.n)
      (fun _ _ => True) (fun k m => Robust k.n m) where
  create := fun _ _ _ hk h => createPolicyModel_robust hk.2 hk.1 (create_model h)
  index := fun _ _ _ _ _ hk ha h => ⟨(ha.answers.getIndex hk.2 h).1, ha.getIndex hk.2 h⟩
  train := fun _ _ _ _ _ _ ha _ h => ha.train h
  load := fun _ _ _ _ _ ha _ h => ha.load h

/-- Kinds of models that are in range as long as their training data is. -/
theorem ranged_trained (gen : ℕ → ℕ → ℕ) (tenv : ℕ → TrainEnv) :
    Ranged (policyOps gen tenv) False
      (fun k => (k.params.find "load".toList = none ∧ k.modelName ≠ "Optimal".toList) ∧ 1 ≤ k.n)
      (fun k => DataIn k.n) (fun k m => Answers k.n m) where
  create := fun _ _ _ hk h => createPolicyModel_answers hk.2 (create_model h)
  index := fun _ _ _ _ _ hk ha h => ha.getIndex hk.2 h
  train := fun _ _ _ _ _ _ ha hd h => ha.train hd h
  load := by
    rintro k s m m' ⟨⟨h1, h2⟩, -⟩ _ (h | h | h) _
    · exact h.elim
    · exact absurd h1 h
    · exact absurd h h2

variable {gen : ℕ → ℕ → ℕ} {tenv : ℕ → TrainEnv}

/-- C16: at any point of any execution, a region with one of the models Static, RoundRobin, Random or
RandomForest answers with one of its policies, whatever data it was trained with and whatever files
were loaded. -/
theorem C16_models (env : Env PolicyModel) (he : env.ops = policyOps gen tenv) (cfg : Cfg)
    (files : Str → Option Str) (ops : List Op) (w : World PolicyModel)
    (h : exec env ops (initWorld cfg files) = .ok w) (r : ℕ) (R : Region)
    (hR : w.regions r = some R)
    (hk : R.modelName ∈ ["Static".toList, "RoundRobin".toList, "Random".toList,
      "RandomForest".toList]) (hn : 1 ≤ R.numPolicies) (c : CtxPtr) (p : ℤ) (w' : World PolicyModel)
    (hp : getPolicyIndex env w r c = .ok (p, w')) : 0 ≤ p ∧ p < R.numPolicies := by
  have hg := ranged_robust gen tenv
  rw [← he] at hg
  have hw := (ModelInv.stepwise hg fun _ => True).exec (fun _ _ _ _ => trivial) (by
    intro nf name n mt info yaml _ w r w' hw hc
    obtain ⟨R, m, l, h1⟩ := createRegion_ok hc
    exact hw.created hg (fun _ => trivial) h1) (modelInv_init cfg files) h
  obtain ⟨R', m, C, m', F, h1, h2, -, h4, -⟩ := getPolicyIndex_ok hp
  rw [hR] at h1
  cases h1
  exact (hg.index R.kind m _ _ _ ⟨hk, hn⟩ (hw r R m hR h2 ⟨hk, hn⟩ fun _ _ => trivial) h4).1

/-- C16: at any point of any execution, a region whose model was not loaded from a file, of any kind,
answers with one of its policies as long as it was trained with measurements of such policies only. -/
theorem C16_trained (env : Env PolicyModel) (he : env.ops = policyOps gen tenv) (cfg : Cfg)
    (files : Str → Option Str) (ops : List Op)
    (hy : ∀ nf name n mt info yaml, Op.create nf name n mt info yaml ∈ ops → yaml = [])
    (w : World PolicyModel) (h : exec env ops (initWorld cfg files) = .ok w) (r : ℕ) (R : Region)
    (hR : w.regions r = some R) (hl : R.params.find "load".toList = none)
    (ho : R.modelName ≠ "Optimal".toList) (hn : 1 ≤ R.numPolicies)
    (hd : ∀ ds, Ev.trained r ds ∈ w.log →
      ∀ e ∈ ds, 0 ≤ (ofLex e.1).2 ∧ (ofLex e.1).2 < R.numPolicies)
    (c : CtxPtr) (p : ℤ) (w' : World PolicyModel)
    (hp : getPolicyIndex env w r c = .ok (p, w')) : 0 ≤ p ∧ p < R.numPolicies := by
  have hg := ranged_trained gen tenv
  rw [← he] at hg
  have hw := (ModelInv.stepwise hg fun _ => True).exec (fun _ _ _ _ => trivial) (by
    intro nf name n mt info yaml hm w r w' hw hc
    obtain ⟨R, m, l, h1⟩ := createRegion_ok hc
    exact hw.created hg (fun hh => hh (hy _ _ _ _ _ _ hm)) h1) (modelInv_init cfg files) h
  obtain ⟨R', m, C, m', F, h1, h2, -, h4, -⟩ := getPolicyIndex_ok hp
  rw [hR] at h1
  cases h1
  exact (hg.index R.kind m _ _ _ ⟨⟨hl, ho⟩, hn⟩ (hw r R m hR h2 ⟨⟨hl, ho⟩, hn⟩ hd) h4).1

/-- C16: at any point of any execution without APOLLO_SINGLE_MODEL, a region whose model was not loaded
from a file answers with one of its policies, and so were all policies it was trained with, provided
its executions ask for a policy, and ask the region itself.  What the region was created with (persistent
datasets, load-dataset, DatasetMap) has to be in range; nothing is asked of the others. -/
theorem C16_own (env : Env PolicyModel) (he : env.ops = policyOps gen tenv) (cfg : Cfg)
    (hs : cfg.single = false) (files : Str → Option Str) (ops : List Op)
    (hy : ∀ nf name n mt info yaml, Op.create nf name n mt info yaml ∈ ops → yaml = [])
    (w : World PolicyModel) (h : exec env ops (initWorld cfg files) = .ok w) (r : ℕ) (R : Region)
    (hR : w.regions r = some R) (hl : R.params.find "load".toList = none)
    (ho : R.modelName ≠ "Optimal".toList) (hn : 1 ≤ R.numPolicies)
    (hpr : (observe w.log).proper r = true)
    (hask : ∀ pre r' c p post, w.log = pre ++ .chose r' c p :: post →
      (observe pre).owner c = some r → r' = r)
    (hst : (w.cfg.persistent = false ∧ R.params.find "load-dataset".toList = none ∧
        R.modelName ≠ "DatasetMap".toList) ∨
      ∀ pre ds b post, w.log = pre ++ .created r ds b :: post →
        (∀ e ∈ ds, 0 ≤ (ofLex e.1).2 ∧ (ofLex e.1).2 < R.numPolicies) ∧
        ∀ ds', Ev.trained r ds' ∈ pre →
          ∀ e ∈ ds', 0 ≤ (ofLex e.1).2 ∧ (ofLex e.1).2 < R.numPolicies) :
    (∀ c p w', getPolicyIndex env w r c = .ok (p, w') → 0 ≤ p ∧ p < R.numPolicies) ∧
    (∀ ds, Ev.trained r ds ∈ w.log → ∀ e ∈ ds, 0 ≤ (ofLex e.1).2 ∧ (ofLex e.1).2 < R.numPolicies) ∧
    ∀ e ∈ R.dataset, 0 ≤ (ofLex e.1).2 ∧ (ofLex e.1).2 < R.numPolicies := by
  have hg := ranged_trained gen tenv
  rw [← he] at hg
  have hw := (RangeInv.stepwise hg r fun _ => True).exec (fun _ _ _ _ => trivial) (by
    intro nf name n mt info yaml hm w r w' hw hc
    exact hw.created hg (fun hh => hh (hy _ _ _ _ _ _ hm)) hc) (rangeInv_init cfg hs files r) h
  obtain ⟨h1, h2, -⟩ := hw.own.data R hR ⟨⟨hl, ho⟩, hn⟩ ⟨hpr, hask, hst⟩
  refine ⟨fun c p w' hp => ?_, h2, h1⟩
  exact C16_trained env he cfg files ops hy w h r R hR hl ho hn h2 c p w' hp

/-! ## Examples -/

/-- The condition on who is asked for policies, as a check. -/
def askCheck (r : ℕ) (h : List Ev) : Bool :=
  (List.range h.length).all fun i => match h[i]? with
    | some (.chose r' c _) => !decide ((observe (h.take i)).owner c = some r) || decide (r' = r)
    | _ => true

theorem askCheck_spec {r : ℕ} {h : List Ev} (hc : askCheck r h = true) :
    ∀ pre r' c p post, h = pre ++ .chose r' c p :: post → (observe pre).owner c = some r →
      r' = r := by
  rintro pre r' c p post rfl ho
  have := List.all_eq_true.1 hc pre.length (by simp)
  simpa [ho] using this

/-- Region 0 has a decision tree and was trained after four executions; region 1 has a forest and is
not trained. -/
def rangeOps : List Op :=
  [demoCreate "a", .create 1 "b".toList 3 0 "RandomForest,num_trees=2,explore=Random".toList []] ++
    demoRun 0 3 (1 / 2) ++ demoRun 0 3 (1 / 4) ++ demoRun 0 4 (1 / 2) ++ demoRun 0 4 (1 / 4) ++
    [.train 0 0 true false, .begin 0 .sync, .setFeature 0 (.sync 0) 3, .begin 1 .sync,
      .setFeature 1 (.sync 1) 3]

/-- What `getPolicyIndex` returns. -/
def asks (w : World PolicyModel) (r : ℕ) : Option ℤ :=
  match getPolicyIndex demoEnv w r (.sync r) with
  | .ok (p, _) => some p
  | .error _ => none

/-- The hypotheses of the theorems hold for both regions. -/
example : ∃ w, exec demoEnv rangeOps (initWorld {} fun _ => none) = .ok w ∧
    ((w.regions 0).map (fun R => (R.modelName, R.numPolicies)) = some ("DecisionTree".toList, 2) ∧
      (w.regions 0).map (fun R => R.params) = some [("explore".toList, "RoundRobin".toList)] ∧
      (w.regions 1).map (fun R => (R.modelName, R.numPolicies)) = some ("RandomForest".toList, 3) ∧
      (observe w.log).proper 0 = true ∧ askCheck 0 w.log = true ∧ w.cfg.persistent = false) :=
  run_ok (by decide +kernel)

example : ∃ w, exec demoEnv rangeOps (initWorld {} fun _ => none) = .ok w ∧
    ((w.models 0).map PolicyModel.isTrainable = some false ∧ asks w 0 = some 1 ∧
      asks w 1 = some 0) :=
  run_ok (by decide +kernel)

/-- A tree that predicts policy 7. -/
def sevenTree : Str :=
  ("tree: { max_depth: 1, classes: [ ], num_features: 1, root: { gini: 0, num_samples: 1, " ++
    "predicted_class: 7, feature_idx: -1, threshold: 0, count_per_class: { }, }, data: { }, }\n").toList

/-- C16 does not extend to trees loaded from files: the classes of the file are not compared with the
number of policies. -/
theorem C16_loaded_tree : ∃ w, exec demoEnv
    [.create 1 "a".toList 2 0 "DecisionTree,load=x".toList [], .begin 0 .sync,
      .setFeature 0 (.sync 0) 3] (initWorld {} fun _ => some sevenTree) = .ok w ∧
    ((w.regions 0).map (fun R => R.numPolicies) = some 2 ∧ asks w 0 = some 7) :=
  run_ok (by decide +kernel)

end Apollo.Props
