import Verif.Proofs.AnyPredict
import Verif.Props.Forest
import Verif.Props.Models
import Verif.Props.Tree
import Verif.Props.TreeIO

/-!
# C98: answers of trained models for features that are any floats
-/

namespace Apollo.Props

open Spec

/-- C98 (trees): a tree whose thresholds are floats answers for any floats as it does for the numbers
in whose places they stand. -/
theorem C98_tree (t : TreeImpl)
    (hb : ∀ p n l r, subtreeAt t.root p = .node n l r → |n.threshold| ≤ 2 ^ 128)
    (f : List AnyFloat) (hf : ∀ x, AnyFloat.fin x ∈ f → |x| < 2 ^ 128) :
    t.predictAny f = t.predict (f.map standIn) :=
  evaluateAny_standIn hf (Tree.forall_iff.2 hb)

/-- A tree with an inner node: class 0 below 3/2, else 1. -/
def cutTree : TreeImpl :=
  ⟨[], [0, 1], .node ⟨1 / 2, 2, 0, 0, 3 / 2, [1, 1]⟩ (.node ⟨0, 1, 0, -1, 0, [1, 0]⟩ .nil .nil)
    (.node ⟨0, 1, 1, -1, 0, [0, 1]⟩ .nil .nil), 1, 2, 2⟩

example : cutTree.root.Forall (fun n => |n.threshold| ≤ 2 ^ 128) ∧
    cutTree.predictAny [.nan] = .ok 1 ∧ cutTree.predictAny [.posInf] = .ok 1 ∧
    cutTree.predictAny [.negInf] = .ok 0 ∧ cutTree.predictAny [.negZero] = .ok 0 ∧
    cutTree.predictAny [.fin 2] = .ok 1 := by
  refine ⟨?_, by decide +kernel, by decide +kernel, by decide +kernel, by decide +kernel,
    by decide +kernel⟩
  simp only [cutTree, Tree.Forall]
  norm_num [abs_of_pos]

/-- C98 (trees and forests): a NaN is answered as the positive infinity is. -/
theorem C98_nan (t : TreeImpl) (F : ForestImpl) (f : List AnyFloat) :
    t.predictAny (nanAsInf f) = t.predictAny f ∧ F.predictAny (nanAsInf f) = F.predictAny f := by
  refine ⟨evaluateAny_nan f t.root, ?_⟩
  unfold ForestImpl.predictAny
  rw [votesAny_nan]

/-- C98 (trees and forests): for finite features the answers are those of the other parts of the
model. -/
theorem C98_finite (t : TreeImpl) (F : ForestImpl) (f : Features) (hf : ∀ x ∈ f, |x| < 2 ^ 128) :
    t.predictAny (f.map .fin) = t.predict f ∧ F.predictAny (f.map .fin) = F.predict f :=
  ⟨evaluateAny_fin hf t.root, forest_predictAny_congr fun u _ => evaluateAny_fin hf u.root⟩

/-- C98 (trained trees): whatever the features, the answer is the best policy of some features of the
dataset. -/
theorem C98_trained_tree (env : TrainEnv) (hσ : SortSpec env.sort) (n : ℤ) (d k : ℕ)
    (e m : PolicyModel) (h : List Meas) (hk : ∀ x ∈ h, x.features.length = k)
    (hm : (PolicyModel.newTree n d e).train env (run h) = .ok m) (shape : MapShape)
    (f : List AnyFloat) (hf : f.length = k) :
    ∃ c, m.getIndexAny shape f = .ok (c, m) ∧ ∃ g, IsBest (entries h) g c := by
  have hm' := hm
  simp only [PolicyModel.newTree, PolicyModel.train] at hm
  obtain ⟨t, ht, he⟩ := (Res.bind_eq_ok _ _ _).1 hm
  simp only [Except.ok.injEq] at he
  subst he
  obtain ⟨c, hg, hbest⟩ := C23_first_training_partial env hσ n d k e _ h hk hm'
    (f.map fun _ => 0) (by simpa using hf)
  refine ⟨c, ?_, hbest⟩
  obtain ⟨hp, c', hall⟩ := trained_const hσ ht (trainingSamples_length hk)
  have e1 : evaluateTree t.root (f.map fun _ => 0) = .ok c' :=
    eval_const hp.ne_nil (by simpa [hf] using hall)
  have e2 : evaluateAny t.root f = .ok c' := evaluateAny_const hp.ne_nil (by rw [hf]; exact hall)
  simp only [PolicyModel.getIndex, Bool.not_false, if_true, TreeImpl.predict, e1, Res.bind_ok,
    Except.ok.injEq, Prod.mk.injEq, and_true] at hg
  subst hg
  simp only [PolicyModel.getIndexAny, Bool.not_false, if_true, TreeImpl.predictAny, e2, Res.bind_ok]

example : (∀ x ∈ twoBest, x.features.length = 1) ∧
    ∃ m, (PolicyModel.newTree 2 2 (.newRoundRobin 2)).train ⟨isort, id⟩ (run twoBest) = .ok m := by
  have hk : ∀ x ∈ twoBest, x.features.length = 1 := by decide
  obtain ⟨m, hm, -⟩ := C21_model_succeeds ⟨isort, id⟩ isort_spec 2 2 1 (.newRoundRobin 2) twoBest
    (by decide) hk (by decide +kernel)
  exact ⟨hk, m, hm⟩

/-- C98 (trained forests): whatever the features, the answer is a policy of the region, the one for
the numbers in whose places the features stand. -/
theorem C98_trained_forest (env : TrainEnv) (hσ : SortSpec env.sort) (n : ℤ) (k d l : ℕ)
    (e m : PolicyModel) (h : List Meas) (hl : ∀ x ∈ h, x.features.length = l)
    (hr : ∀ x ∈ h, 0 ≤ x.policy ∧ x.policy < n) (hn : 1 ≤ n)
    (hm : (PolicyModel.newForest n k d e).train env (run h) = .ok m) (shape : MapShape)
    (f : List AnyFloat) (hf : f.length = l) (hx : ∀ x, AnyFloat.fin x ∈ f → |x| < 2 ^ 128) :
    ∃ c, m.getIndexAny shape f = .ok (c, m) ∧ m.getIndex (f.map standIn) = .ok (c, m) ∧
      0 ≤ c ∧ c < n := by
  obtain ⟨c, h1, h2, h3⟩ := C27_trained_in_range env hσ n k d l e m h hl hr hn hm (f.map standIn)
    (by simpa using hf)
  refine ⟨c, ?_, h1, h2, h3⟩
  simp only [PolicyModel.newForest, PolicyModel.train] at hm
  obtain ⟨g, hg, he⟩ := (Res.bind_eq_ok _ _ _).1 hm
  simp only [Except.ok.injEq] at he
  subst he
  obtain ⟨-, -, -, new, h4, -, h6⟩ := forest_train_spec hg
  simp only [ForestImpl.new, List.nil_append] at h4
  have : g.predictAny f = g.predict (f.map standIn) := by
    refine forest_predictAny_congr fun t ht => ?_
    rw [h4] at ht
    obtain ⟨ys, ⟨-, hmem⟩, htr⟩ := h6 t ht
    exact evaluateAny_standIn hx (trained_bounded hσ htr
      fun x hx => trainingSamples_length hl x (hmem x hx))
  simp only [PolicyModel.getIndex, PolicyModel.getIndexAny, Bool.not_false, if_true] at h1 ⊢
  rw [this]
  exact h1

example : (∀ x ∈ twoBest, x.features.length = 1) ∧ (∀ x ∈ twoBest, 0 ≤ x.policy ∧ x.policy < 2) ∧
    (match (PolicyModel.newForest 2 2 1 .null).train ⟨isort, id⟩ (run twoBest) with
      | .ok m => (match m.getIndexAny (fun _ => .leaf) [.nan] with
        | .ok (c, _) => decide (c = 0)
        | .error _ => false)
      | .error _ => false) = true := by
  refine ⟨by decide, by decide, by decide +kernel⟩

/-- C98 (compiled trees): a trained tree that has been compiled and the interpreted one give the same
answer, whatever the features. -/
theorem C98_compiled (σ : SortFn) (hσ : SortSpec σ) (t0 t : TreeImpl) (xs : List Sample)
    (ht : t0.train σ xs = .ok t) (k : ℕ) (hk : ∀ x ∈ xs, x.1.length = k)
    (hfin : ∀ p n l r, subtreeAt t.root p = .node n l r → |n.threshold| ≤ maxFloat)
    (f : List AnyFloat) (hf : f.length = k) :
    ∃ c, t.predictAny f = .ok c ∧ t.jitPredictAny f = .ok c := by
  obtain ⟨hp, c, hc⟩ := trained_const hσ ht hk
  subst hf
  refine ⟨c, evaluateAny_const hp.ne_nil hc, ?_⟩
  unfold TreeImpl.jitPredictAny
  rw [if_neg]
  · exact runAny_const hp hc
  · rw [not_not, Tree.all_iff]
    exact (Tree.forall_iff.2 hfin).imp fun n hn => decide_eq_true hn

example : (match (TreeImpl.new 2 2).train isort [([1], 1), ([2], 0)] with
    | .ok t => decide (t.root.all (fun n => |n.threshold| ≤ maxFloat) = true ∧
        t.predictAny [.nan] = .ok 0 ∧ t.jitPredictAny [.negInf] = .ok 0)
    | .error _ => false) = true := by decide +kernel

/-! ## DatasetMap -/

/-- The tree of the map holds its elements in order. -/
def HoldsMap (shape : MapShape) : Prop :=
  ∀ m : OMap Features (ℤ × ℚ), (shape m).toList = m.map fun e => (e.1.map .fin, e.2)

theorem fin_lt (a b : List ℚ) : numbers (a.map .fin) < numbers (b.map .fin) ↔ a < b := by
  have h1 := lexLt_eq_of (P := fun x => x ≠ .nan) (g := fun x => (num x).getD ⊥)
    (fun a b => lt_eq) (a.map .fin) (b.map .fin) (by simp) (by simp)
  have h2 := lexLt_eq_of (P := fun x => ∃ q, x = .fin q) (g := standIn)
    (by rintro - - ⟨a, rfl⟩ ⟨b, rfl⟩; rfl) (a.map .fin) (b.map .fin) (by simp) (by simp)
  rw [h1, decide_eq_decide] at h2
  have e : ∀ l : List ℚ, (l.map AnyFloat.fin).map standIn = l := fun l => by
    rw [List.map_map]
    exact List.map_id l
  rw [e, e] at h2
  exact h2

theorem view_shape {shape : MapShape} (hs : HoldsMap shape) (m : OMap Features (ℤ × ℚ)) :
    (shape m).view numbers = m.map fun e => (numbers (e.1.map .fin), e.2) := by
  rw [SearchTree.view, hs, List.map_map]
  rfl

theorem find_shape {shape : MapShape} (hs : HoldsMap shape) {m : OMap Features (ℤ × ℚ)}
    (hm : m.Sorted) {f : List AnyFloat} (hf : ∀ x ∈ f, x ≠ .nan) (b : ℤ × ℚ) :
    (((shape m).find lexLt f).bind fun i => ((shape m).toList[i]?).map Prod.snd) = some b ↔
      ∃ g, SameFeatures f (g.map .fin) ∧ OMap.find m g = some b := by
  have hsort : OMap.Sorted ((shape m).view numbers) := by
    rw [view_shape hs]
    exact List.Pairwise.map _ (fun a b hab => (fin_lt _ _).2 hab) hm
  rw [SearchTree.find_eq (num := numbers) (lt := lexLt) (P := fun k => ∀ x ∈ k, x ≠ .nan)
    (fun a b ha hb => (lexLt_eq_of (P := fun x => x ≠ .nan) (g := fun x => (num x).getD ⊥)
      (fun a b => lt_eq) a b ha hb).trans (decide_eq_decide.2 Iff.rfl)) ?_ hsort hf]
  · rw [hsort.find_eq_some_iff, view_shape hs]
    constructor
    · intro h
      obtain ⟨e, he, h1⟩ := List.mem_map.1 h
      simp only [Prod.mk.injEq] at h1
      refine ⟨e.1, ?_, ?_⟩
      · exact (numbers_inj hf (by simp)).1 h1.1.symm
      · rw [hm.find_eq_some_iff, ← h1.2]; exact he
    · rintro ⟨g, h1, h2⟩
      rw [hm.find_eq_some_iff] at h2
      exact List.mem_map.2 ⟨(g, b), h2, by
        rw [Prod.mk.injEq]; exact ⟨((numbers_inj hf (by simp)).2 h1).symm, rfl⟩⟩
  · intro e he
    rw [hs] at he
    obtain ⟨e', -, rfl⟩ := List.mem_map.1 he
    simp

theorem getIndexAny_map (shape : MapShape) (n : ℤ) (best : OMap Features (ℤ × ℚ))
    (f : List AnyFloat) :
    (PolicyModel.datasetMap n best).getIndexAny shape f =
      match (((shape best).find lexLt f).bind fun i => ((shape best).toList[i]?).map Prod.snd) with
      | none => .error .abort
      | some b => .ok (b.1, .datasetMap n best) := by
  unfold PolicyModel.getIndexAny
  cases hfi : (shape best).find lexLt f with
  | none => rfl
  | some i =>
    simp only
    cases hg : (shape best).toList[i]? with
    | some e => simp [hg]
    | none =>
      exfalso
      unfold SearchTree.find at hfi
      cases hg' : (shape best).toList[(shape best).lowerBound lexLt f]? with
      | none => rw [hg'] at hfi; simp at hfi
      | some e =>
        rw [hg'] at hfi
        simp only [Option.ite_none_left_eq_some, Option.some.injEq] at hfi
        rw [hfi.2, hg] at hg'
        cases hg'

/-- C98 (DatasetMap, features without NaN): the answer is the best policy for the measured features
that are the same numbers; without such features the model aborts.  (Missing: features with NaN, see
`C98_fails`.) -/
theorem C98_map_partial (env : TrainEnv) (h : List Meas) (n : ℤ) (old : OMap Features (ℤ × ℚ))
    (shape : MapShape) (hs : HoldsMap shape) :
    ∃ m, PolicyModel.train env (run h) (.datasetMap n old) = .ok m ∧
      ∀ f : List AnyFloat, (∀ x ∈ f, x ≠ .nan) →
        (∀ g p, SameFeatures f (g.map .fin) → IsBest (entries h) g p →
          m.getIndexAny shape f = .ok (p, m)) ∧
        ((∀ x ∈ h, ¬ SameFeatures f (x.features.map .fin)) →
          m.getIndexAny shape f = .error .abort) := by
  refine ⟨.datasetMap n (Dataset.bestPolicies (run h)), rfl, fun f hf => ⟨fun g p hg hb => ?_, fun hx => ?_⟩⟩
  · obtain ⟨m, hm, -⟩ := id hb
    have hfind : OMap.find (run h) (mkKey g p) = some m := by
      rw [(run_sorted h).find_eq_some_iff]
      exact Dataset.mem_toVector.1 hm
    have := (find_shape hs (bestPolicies_shape (run h)).1 hf (p, m)).2
      ⟨g, hg, (Dataset.best_iff (run_sorted h) g p m).2 ⟨hb, hfind⟩⟩
    rw [getIndexAny_map, this]
  · rw [getIndexAny_map]
    have : (((shape (Dataset.bestPolicies (run h))).find lexLt f).bind fun i => ((shape (Dataset.bestPolicies (run h))).toList[i]?).map Prod.snd) = none := by
      rw [Option.eq_none_iff_forall_ne_some]
      intro b hb
      obtain ⟨g, hg, hfind⟩ := (find_shape hs (bestPolicies_shape (run h)).1 hf b).1 hb
      obtain ⟨hbest, -⟩ := (Dataset.best_iff (run_sorted h) g b.1 b.2).1 hfind
      obtain ⟨m, hm, -⟩ := hbest
      obtain ⟨x, hx', he, -⟩ := (C01_key_iff h g b.1).1 ⟨m, hm⟩
      exact hx x hx' (by rw [he]; exact hg)
    rw [this]

/-- C98 (DatasetMap, any floats): the model aborts, or it answers with the best policy of some measured
features. -/
theorem C98_map_any (env : TrainEnv) (h : List Meas) (n : ℤ) (old : OMap Features (ℤ × ℚ))
    (shape : MapShape) (hs : HoldsMap shape) :
    ∃ m, PolicyModel.train env (run h) (.datasetMap n old) = .ok m ∧
      ∀ f : List AnyFloat, m.getIndexAny shape f = .error .abort ∨
        ∃ p, m.getIndexAny shape f = .ok (p, m) ∧ ∃ g, IsBest (entries h) g p := by
  refine ⟨.datasetMap n (Dataset.bestPolicies (run h)), rfl, fun f => ?_⟩
  rw [getIndexAny_map]
  cases hfi : (shape (Dataset.bestPolicies (run h))).find lexLt f with
  | none => exact Or.inl rfl
  | some i =>
    rw [Option.bind_some]
    cases hg : (shape (Dataset.bestPolicies (run h))).toList[i]? with
    | none => exact Or.inl rfl
    | some e =>
      have := List.mem_of_getElem? hg
      rw [hs] at this
      obtain ⟨e', he', rfl⟩ := List.mem_map.1 this
      refine Or.inr ⟨e'.2.1, rfl, e'.1, ?_⟩
      have hfind : OMap.find (Dataset.bestPolicies (run h)) e'.1 = some (e'.2.1, e'.2.2) := by
        rw [(bestPolicies_shape (run h)).1.find_eq_some_iff]; exact he'
      exact ((Dataset.best_iff (run_sorted h) _ _ _).1 hfind).1

/-- A tree that holds the elements: a list, with all nodes to the right. -/
def rightShape : MapShape := fun m =>
  m.foldr (fun e t => .node .leaf (e.1.map .fin) e.2 t) .leaf

/-- Another one: a list, with all nodes to the left. -/
def leftShape : MapShape := fun m =>
  m.foldl (fun t e => .node t (e.1.map .fin) e.2 .leaf) .leaf

theorem holds_right : HoldsMap rightShape := fun m => by
  induction m with
  | nil => rfl
  | cons e m ih => simpa [rightShape, SearchTree.toList] using ih

theorem holds_left : HoldsMap leftShape := fun m => by
  have key : ∀ (m : OMap Features (ℤ × ℚ)) (t : SearchTree (List AnyFloat) (ℤ × ℚ)),
      (m.foldl (fun t e => .node t (e.1.map .fin) e.2 .leaf) t).toList =
        t.toList ++ m.map fun e => (e.1.map AnyFloat.fin, e.2) := by
    intro m
    induction m with
    | nil => simp
    | cons e m ih => intro t; simp [ih, SearchTree.toList]
  exact key m .leaf

/-- The answer of a `DatasetMap` trained on measurements. -/
def mapAnswer (shape : MapShape) (h : List Meas) (f : List AnyFloat) : Res ℤ := do
  let m ← PolicyModel.train ⟨isort, id⟩ (run h) (.datasetMap 2 [])
  let (p, _) ← m.getIndexAny shape f
  .ok p

example : HoldsMap rightShape ∧ HoldsMap leftShape ∧
    mapAnswer rightShape [⟨[0], 0, 5⟩, ⟨[1], 1, 5⟩] [.negZero] = .ok 0 ∧
    mapAnswer leftShape [⟨[0], 0, 5⟩, ⟨[1], 1, 5⟩] [.posInf] = .error .abort :=
  ⟨holds_right, holds_left, by decide +kernel, by decide +kernel⟩

/-- C98 is false for NaNs and `DatasetMap`: features with a NaN have not been measured, but where the
map holds one element its policy is the answer, whatever the measured feature; and what happens depends
on the shape of the tree. -/
theorem C98_fails :
    (∀ shape, HoldsMap shape → ∀ x, mapAnswer shape [⟨[x], 1, 5⟩] [.nan] = .ok 1) ∧
    mapAnswer rightShape [⟨[1, 3], 0, 5⟩, ⟨[2, 1], 1, 5⟩] [.nan, .fin 3] = .ok 0 ∧
    mapAnswer leftShape [⟨[1, 3], 0, 5⟩, ⟨[2, 1], 1, 5⟩] [.nan, .fin 3] = .error .abort := by
  refine ⟨fun shape hs x => ?_, by decide +kernel, by decide +kernel⟩
  have hb : Dataset.bestPolicies (run [⟨[x], 1, 5⟩]) = [([x], (1, 5))] := by
    simp [Dataset.bestPolicies, run, Dataset.insert, Dataset.bestStep, OMap.upsert, OMap.find]
    rfl
  have key : ∀ t : SearchTree (List AnyFloat) (ℤ × ℚ), t.toList = [([.fin x], (1, 5))] →
      t = .node .leaf [.fin x] (1, 5) .leaf := by
    intro t ht
    cases t with
    | leaf => simp [SearchTree.toList] at ht
    | node l k v r =>
      have hlen := congrArg List.length ht
      cases l <;> cases r <;> simp [SearchTree.toList] at ht hlen ⊢
      · exact ht
      all_goals omega
  have ht := key _ (hs [([x], (1, 5))])
  simp only [mapAnswer, PolicyModel.train, Dataset.findMinMetricPolicyByFeatures, hb, Res.bind_ok,
    PolicyModel.getIndexAny, ht]
  simp [SearchTree.find, SearchTree.lowerBound, SearchTree.toList, lexLt, AnyFloat.lt]

end Apollo.Props
