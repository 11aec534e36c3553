import Verif.Model.Factory
import Verif.Props.Forest
import Verif.Props.Models

/-!
# Property C92: models created from a file

`ModelFactory::createPolicyModel(name, num_policies, path)`, which nothing in the library calls.
-/

namespace Apollo.Props

open Apollo Apollo.Spec

/-- What a program can observe of a model: whether it is trained in the future, its next answers, and
what it stores. -/
structure Behaviour where
  trainable : Bool
  answer : Features → Res ℤ
  stored : Res (Option (List Char))

/-- The behaviour of a model. -/
def behaviour (m : PolicyModel) : Behaviour :=
  ⟨m.isTrainable, fun f => (m.getIndex f).map Prod.fst, m.store⟩

/-- C92, trees: for every text of a file, creating a tree from the file has the outcome of loading the
file into a new model, whatever its depth and explorer: the same failure, or a model of the same
behaviour. -/
theorem C92_tree (n : ℤ) (d : ℕ) (e : PolicyModel) (s : List Char) :
    (createFromFile "DecisionTree".toList n (some s)).map behaviour =
      ((PolicyModel.newTree n d e).load (some s)).map behaviour := by
  have h : (TreeImpl.new n d).load s = (TreeImpl.new n 0).load s := rfl
  have h1 : createFromFile "DecisionTree".toList n (some s) =
      ((TreeImpl.new n 0).load s >>= fun t => .ok (.tree n false .null t)) := by
    unfold createFromFile
    rw [if_neg (by decide), if_neg (by decide), if_pos rfl]
  rw [h1]
  simp only [PolicyModel.newTree, PolicyModel.load, h]
  cases (TreeImpl.new n 0).load s with
  | error e => rfl
  | ok t =>
    simp only [Res.bind_ok]
    show Except.ok _ = Except.ok _
    simp only [behaviour, PolicyModel.isTrainable, PolicyModel.getIndex, PolicyModel.store, Bool.not_false, if_true]
    congr 2
    funext f
    cases t.predict f <;> rfl

/-- C92, forests. -/
theorem C92_forest (n : ℤ) (k d : ℕ) (e : PolicyModel) (s : List Char) :
    (createFromFile "RandomForest".toList n (some s)).map behaviour =
      ((PolicyModel.newForest n k d e).load (some s)).map behaviour := by
  have h : (ForestImpl.new n k d).load s = (ForestImpl.new n 0 0).load s := rfl
  have h1 : createFromFile "RandomForest".toList n (some s) =
      ((ForestImpl.new n 0 0).load s >>= fun t => .ok (.forest n false .null t)) := by
    unfold createFromFile
    rw [if_neg (by decide), if_neg (by decide), if_neg (by decide), if_pos rfl]
  rw [h1]
  simp only [PolicyModel.newForest, PolicyModel.load, h]
  cases (ForestImpl.new n 0 0).load s with
  | error e => rfl
  | ok t =>
    simp only [Res.bind_ok]
    show Except.ok _ = Except.ok _
    simp only [behaviour, PolicyModel.isTrainable, PolicyModel.getIndex, PolicyModel.store, Bool.not_false, if_true]
    congr 2
    funext f
    cases t.predict f <;> rfl

/-- C92: a forest that was trained and stored is created from its file: with C29. -/
theorem C92_forest_stored (env : TrainEnv) (hσ : SortSpec env.sort) (n : ℤ) (k d l : ℕ)
    (e m : PolicyModel) (h : List Meas) (hl : ∀ x ∈ h, x.features.length = l) (hl31 : l < 2 ^ 31)
    (hlen : (h.map Meas.features).toFinset.card ≤ 2 ^ 20)
    (hs : ∀ x ∈ h, StorableSample (x.features, x.policy)) (hd : d < 2 ^ 32) (hk : k < 2 ^ 32)
    (hn : 0 ≤ n) (hn31 : n < 2 ^ 31)
    (hm : (PolicyModel.newForest n k d e).train env (run h) = .ok m) :
    ∃ s m', m.store = .ok (some s) ∧ createFromFile "RandomForest".toList n (some s) = .ok m' ∧
      m'.isTrainable = false ∧
      ∀ f, f.length = l → (m'.getIndex f).map Prod.fst = (m.getIndex f).map Prod.fst := by
  obtain ⟨s, m', h1, h2, h3⟩ := C29_trained_partial env hσ n k d l e m h hl hl31 hlen hs hd hk hn hn31 hm 0 0 .null
  have h4 := C92_forest n 0 0 .null s
  rw [h2] at h4
  cases hc : createFromFile "RandomForest".toList n (some s) with
  | error e => rw [hc] at h4; cases h4
  | ok m'' =>
    rw [hc] at h4
    have h5 : behaviour m'' = behaviour m' := Except.ok.inj h4
    have h6 : m'.isTrainable = false := by
      simp only [PolicyModel.newForest, PolicyModel.load] at h2
      obtain ⟨g, -, he⟩ := (Res.bind_eq_ok _ _ _).1 h2
      rw [← Except.ok.inj he]; rfl
    refine ⟨s, m'', h1, hc, (congrArg Behaviour.trainable h5).trans h6, fun f hf => ?_⟩
    rw [← h3 f hf]
    exact congrFun (congrArg Behaviour.answer h5) f

/-- C92: a tree that was trained and stored is created from its file, for every number of policies: with
C24. -/
theorem C92_tree_stored (σ : SortFn) (hσ : SortSpec σ) (t0 t : TreeImpl) (h0 : Reach t0)
    (xs : List Sample) (ht : t0.train σ xs = .ok t) (k : ℕ) (hk : ∀ x ∈ xs, x.1.length = k)
    (hk31 : k < 2 ^ 31) (hlen : xs.length ≤ 2 ^ 20) (hK : t.classes.length ≤ 2 ^ 20)
    (hs : ∀ x ∈ xs, StorableSample x) (hc0 : ∀ c ∈ t0.classes, -2 ^ 31 ≤ c ∧ c < 2 ^ 31)
    (hd : t0.maxDepth < 2 ^ 32) (n n' : ℤ) (e : PolicyModel) :
    ∃ s m', PolicyModel.store (.tree n false e t) = .ok (some s) ∧
      createFromFile "DecisionTree".toList n' (some s) = .ok m' ∧ m'.isTrainable = false ∧
      ∀ f, f.length = k → (m'.getIndex f).map Prod.fst = (PolicyModel.getIndex (.tree n false e t) f).map Prod.fst := by
  obtain ⟨s, t', h1, h2, -, -, -, h3⟩ := C24_trained_partial σ hσ t0 t h0 xs ht k hk hk31 hlen hK hs hc0 hd n' 0
  refine ⟨s, .tree n' false .null t', ?_, ?_, rfl, fun f hf => ?_⟩
  · simp only [PolicyModel.store, h1, Res.bind_ok]
  · unfold createFromFile
    rw [if_neg (by decide), if_neg (by decide), if_pos rfl]
    simp only [h2, Res.bind_ok]
  · obtain ⟨c, h4, h5⟩ := h3 f hf
    simp only [PolicyModel.getIndex, Bool.not_false, if_true, h4, h5, Res.bind_ok]
    rfl

/-- C92, Optimal: the policies of the file are replayed in order. -/
theorem C92_optimal (n : ℤ) (ps : List ℤ) (h : ∀ p ∈ ps, -2 ^ 31 ≤ p ∧ p < 2 ^ 31) (hne : ps ≠ [])
    (suffix : List Char) (hs : suffix = [] ∨ suffix = ['\n']) :
    ∃ m0 m, createFromFile "Optimal".toList n (some ([','].intercalate (ps.map fmtInt) ++ suffix)) = .ok m0 ∧
      ∀ fs, fs.length = ps.length →
        m0.indices fs = .ok (ps, m) ∧ ∀ f, m.getIndex f = .error .abort := by
  obtain ⟨m0, m, h1, h2⟩ := C13_replay ps h hne suffix hs
  refine ⟨m0, m, ?_, h2⟩
  unfold createFromFile
  rw [if_neg (by decide), if_pos rfl, h1]

/-- C92: the names of models that have no files throw, whatever the file. -/
theorem C92_throws (n : ℤ) (file : Option (List Char)) (name : List Char)
    (h : name ∈ ["Static", "Random", "RoundRobin", "DatasetMap", "PolicyNet"].map String.toList) :
    createFromFile name n file = .error .throw := by
  simp only [List.map_cons, List.map_nil, List.mem_cons, List.not_mem_nil, or_false] at h
  unfold createFromFile
  rcases h with rfl | rfl | rfl | rfl | rfl
  · rw [if_pos (by decide)]
  · rw [if_pos (by decide)]
  · rw [if_pos (by decide)]
  · rw [if_pos (by decide)]
  · rw [if_neg (by decide), if_neg (by decide), if_neg (by decide), if_neg (by decide), if_pos rfl]

/-- C92: other names abort, and so do trees and forests without a file; Optimal without a file has no
policy to hand out. -/
theorem C92_aborts (n : ℤ) (file : Option (List Char)) (name : List Char)
    (h : name ∉ ["Static", "Random", "RoundRobin", "DatasetMap", "PolicyNet", "Optimal", "DecisionTree",
      "RandomForest"].map String.toList) :
    createFromFile name n file = .error .abort ∧
      createFromFile "DecisionTree".toList n none = .error .abort ∧
      createFromFile "RandomForest".toList n none = .error .abort ∧
      ∃ m, createFromFile "Optimal".toList n none = .ok m ∧ ∀ f, m.getIndex f = .error .abort := by
  refine ⟨?_, rfl, rfl, .optimal [], rfl, fun _ => rfl⟩
  simp only [List.map_cons, List.map_nil, List.mem_cons, List.not_mem_nil, or_false, not_or] at h
  obtain ⟨a, b, c, d, e, f, g, i⟩ := h
  unfold createFromFile
  rw [if_neg (fun h => h.elim a fun h => h.elim b fun h => h.elim c d), if_neg f, if_neg g, if_neg i, if_neg e]

/-- A tree that answers according to a feature is created from its file. -/
example : ∃ s m, (twoLeaves (3 / 2)).save = .ok s ∧ createFromFile "DecisionTree".toList 2 (some s) = .ok m ∧
    (m.getIndex [1]).map Prod.fst = .ok 0 ∧ (m.getIndex [2]).map Prod.fst = .ok 1 := by
  refine ⟨_, .tree 2 false .null (twoLeaves (3 / 2)), save_ok_iff.2 ⟨by simp [twoLeaves], by decide +kernel, by decide, rfl⟩, ?_,
    by decide +kernel, by decide +kernel⟩
  unfold createFromFile
  rw [if_neg (by decide), if_neg (by decide), if_pos rfl]
  show ((TreeImpl.new 2 0).load _ >>= fun t => _) = _
  have : (TreeImpl.new 2 0).load ("# DecisionTreeImpl\n".toList ++ treeText 0 (twoLeaves (3 / 2))) =
      .ok (twoLeaves (3 / 2)) := by
    rw [TreeImpl.load_save (save_ok_iff.2 ⟨by simp [twoLeaves], by decide +kernel, by decide, rfl⟩)
      (treeOk_twoLeaves (Or.inr ⟨by norm_num, by norm_num⟩)) (by simp [twoLeaves])]
    decide +kernel
  rw [this, Res.bind_ok]

end Apollo.Props
