import Verif.Proofs.TreeRoom
import Verif.Proofs.TreeReach
import Verif.Model.PolicyModels
import Verif.Props.Dataset

/-!
# Properties C17–C23: decision trees

`t.train σ xs` trains the tree object `t` on the samples `xs` (feature vector, class); `σ` is the
behaviour of `std::sort`, about which only `SortSpec σ` is assumed.
-/

namespace Apollo.Props

open Apollo Apollo.Spec

/-- The tree objects that can arise: constructed, trained any number of times, loaded from any file. -/
inductive Reach : TreeImpl → Prop
  | new (n : ℤ) (d : ℕ) : Reach (.new n d)
  | train (σ : SortFn) (t : TreeImpl) (xs : List Sample) (t' : TreeImpl) :
      Reach t → t.train σ xs = .ok t' → Reach t'
  | load (t : TreeImpl) (s : List Char) (t' : TreeImpl) : Reach t → t.load s = .ok t' → Reach t'

theorem Reach.sorted {t : TreeImpl} (h : Reach t) : t.classes.Pairwise (· < ·) := by
  induction h with
  | new n d => exact List.Pairwise.nil
  | train σ t xs t' _ ht ih => exact TreeImpl.train_sorted ih ht
  | load t s t' _ hl ih => exact TreeImpl.load_sorted ih hl

/-- Two features; the classes are not separable by one of them. -/
def sampleXs : List Sample := [([1, 1], 0), ([1, 2], 1), ([2, 1], 1), ([2, 2], 0), ([3, 3], 2)]

/-! ## C18 -/

/-- C18: shape and counters of a trained tree, for every tree object, every training set and every
function that permutes in place of `std::sort`. -/
theorem C18_shape (σ : SortFn) (hσ : ∀ i xs, (σ i xs).Perm xs) (t0 t : TreeImpl) (h0 : Reach t0)
    (xs : List Sample) (ht : t0.train σ xs = .ok t) :
    height t.root ≤ t0.maxDepth ∧
    (∃ n l r, t.root = .node n l r ∧ n.numSamples = xs.length ∧
      n.counts = t.classes.map (numOf xs)) ∧
    (∀ p n l r, subtreeAt t.root p = .node n l r → GoodNode t.classes n l r) ∧
    t.data.Perm xs := by
  obtain ⟨x, rest, root, data, -, hb, rfl⟩ := TreeImpl.train_ok_iff.1 ht
  obtain ⟨h1, h2, h3, h4⟩ := buildTree_shape hσ
    (sorted_nodup (setInsertAll_sorted h0.sorted)) _ mem_classes_of_train hb
  exact ⟨h2, h3, h4, h1⟩

example : Reach (.new 3 2) ∧ (∀ i xs, (isort i xs).Perm xs) ∧
    (match (TreeImpl.new 3 2).train isort sampleXs with
      | .ok t => some (height t.root, t.classes)
      | .error _ => none) = some (2, [0, 1, 2]) :=
  ⟨.new _ _, fun i xs => (isort_spec i xs).1, by decide +kernel⟩

/-! ## C19 -/

/-- C19: for every order of the samples and any two conforming sorts, training has the same outcome
(including failures) and yields the same tree, classes and number of features. -/
theorem C19_order_independent (σ σ' : SortFn) (hσ : SortSpec σ) (hσ' : SortSpec σ') (t : TreeImpl)
    (h0 : Reach t) (k : ℕ) (xs xs' : List Sample) (hp : xs.Perm xs') (hk : ∀ x ∈ xs, x.1.length = k) :
    (t.train σ xs).map (fun t => (t.root, t.classes, t.numFeatures, t.maxDepth, t.numClasses)) =
    (t.train σ' xs').map (fun t => (t.root, t.classes, t.numFeatures, t.maxDepth, t.numClasses)) := by
  have hcl := setInsertAll_perm h0.sorted (hp.map Prod.snd)
  have hb := buildTree_perm hσ hσ' (setInsertAll (xs.map Prod.snd) t.classes) t.maxDepth hk hp
  unfold TreeImpl.train
  cases xs with
  | nil =>
    have := hp.nil_eq
    subst this
    rfl
  | cons x rest =>
    cases xs' with
    | nil => exact absurd hp.length_eq (by simp)
    | cons x' rest' =>
      have h1 : x.1.length = k := hk x (by simp)
      have h2 : x'.1.length = k := hk x' (hp.mem_iff.2 (by simp))
      simp only
      rw [← hcl, h1, h2]
      revert hb
      generalize buildTree σ (setInsertAll (List.map Prod.snd (x :: rest)) t.classes) t.maxDepth
        (x :: rest) = A
      generalize buildTree σ' (setInsertAll (List.map Prod.snd (x :: rest)) t.classes) t.maxDepth
        (x' :: rest') = B
      intro hb
      rcases A with e | ⟨r, d⟩ <;> rcases B with e' | ⟨r', d'⟩ <;>
        simp only [Except.map, Except.ok.injEq, Except.error.injEq, reduceCtorEq] at hb
      · subst hb; rfl
      · subst hb; rfl

example : SortSpec isort ∧ sampleXs.Perm sampleXs.reverse ∧ (∀ x ∈ sampleXs, x.1.length = 2) ∧
    sampleXs ≠ sampleXs.reverse :=
  ⟨isort_spec, (List.reverse_perm _).symm, by decide, by decide +kernel⟩

/-! ## C20 -/

/-- C20: the trained tree is grown by dividing every impure node at the first cut of least weighted
impurity (lowest feature, then lowest value), where the impurities are computed in floating point
within the given distance of the exact ones, and thresholds lie between the two values of the cut. -/
theorem C20_splits (σ : SortFn) (hσ : SortSpec σ) (t0 t : TreeImpl) (h0 : Reach t0) (k : ℕ)
    (xs : List Sample) (hk : ∀ x ∈ xs, x.1.length = k)
    (ht : t0.train σ xs = .ok t) (hK : t.classes.length ≤ 2 ^ 22) :
    ∃ (imp : List Sample → ℚ) (w : List Sample → List Sample → ℚ) (thr : ℚ → ℚ → ℚ),
      Grown t.classes imp w thr k t0.maxDepth xs t.root ∧
      (∀ ys, ys ≠ [] → ys.length ≤ 2 ^ 24 → (∀ y ∈ ys, y.2 ∈ t.classes) →
        |imp ys - exactGini t.classes ys| ≤ (2 * t.classes.length + 7) * 2 ^ (-24 : ℤ)) ∧
      (∀ ys zs, ys ≠ [] → zs ≠ [] → ys.length + zs.length ≤ 2 ^ 24 →
        (∀ y ∈ ys, y.2 ∈ t.classes) → (∀ z ∈ zs, z.2 ∈ t.classes) →
        |w ys zs - exactWeighted t.classes ys zs| ≤ (2 * t.classes.length + 11) * 2 ^ (-24 : ℤ)) ∧
      (∀ l r, Float32 l → Float32 r → l ≤ r → |l| ≤ maxFloat / 2 → |r| ≤ maxFloat / 2 →
        l ≤ thr l r ∧ thr l r ≤ r) := by
  obtain ⟨x, rest, root, data, -, hb, rfl⟩ := TreeImpl.train_ok_iff.1 ht
  have hnd := sorted_nodup (setInsertAll_sorted (cs := xs.map Prod.snd) h0.sorted)
  refine ⟨_, _, threshold, (buildTree_grown hσ _ _ hk hb).1, ?_, ?_, ?_⟩
  · intro ys h1 h2 h3
    exact (gini_err hnd hK h1 h3 h2).1
  · intro ys zs h1 h2 h3 h4 h5
    exact wg_err hnd hK h1 h2 h4 h5 h3
  · intro l r h1 h2 h3 h4 h5
    exact threshold_between h1 h2 h3 h4 h5

/-- C20 (exact values): at the root, the exact weighted impurity of the chosen division exceeds that of
no other division by more than the rounding errors. -/
theorem C20_root_exact (σ : SortFn) (hσ : SortSpec σ) (t0 t : TreeImpl) (h0 : Reach t0) (k : ℕ)
    (xs : List Sample) (hk : ∀ x ∈ xs, x.1.length = k) (hlen : xs.length ≤ 2 ^ 24)
    (ht : t0.train σ xs = .ok t) (hK : t.classes.length ≤ 2 ^ 22) (n : NodeInfo) (tl tr : Tree)
    (hroot : t.root = .node n tl tr) (hn : n.featureIdx ≠ -1) :
    ∃ i l r, IsCut xs i l r ∧ n.featureIdx = (i : ℕ) ∧ ∀ i' l' r', i' < k → IsCut xs i' l' r' →
      exactWeighted t.classes (below xs i l) (above xs i l) ≤
        exactWeighted t.classes (below xs i' l') (above xs i' l') +
          (4 * t.classes.length + 22) * 2 ^ (-24 : ℤ) := by
  obtain ⟨x, rest, root, data, -, hb, rfl⟩ := TreeImpl.train_ok_iff.1 ht
  have hnd := sorted_nodup (setInsertAll_sorted (cs := xs.map Prod.snd) h0.sorted)
  have hg := (buildTree_grown hσ _ _ hk hb).1
  have hcls : ∀ x ∈ xs, x.2 ∈ setInsertAll (xs.map Prod.snd) t0.classes := mem_classes_of_train
  simp only at hroot hK ⊢
  rw [hroot] at hg
  revert hg
  generalize t0.maxDepth = d
  intro hg
  cases hg with
  | leaf _ _ _ hd hg hn' hc hi => exact absurd hi hn
  | inner d _ _ i l r _ _ himp hg hn' hc hbest hi hthr hl hr =>
    refine ⟨i, l, r, hbest.cut, hi, ?_⟩
    have err : ∀ i l r, IsCut xs i l r → _ := fun i l r hcut =>
      wg_err hnd hK (List.ne_nil_of_length_pos (below_length_pos hcut))
        (List.ne_nil_of_length_pos (above_length_pos hcut))
        (fun x hx => hcls x (mem_of_below hx)) (fun x hx => hcls x (mem_of_above hx))
        (by
          have := (below_above_perm xs i l).length_eq
          rw [List.length_append] at this
          omega)
    intro i' l' r' hi' hcut
    have e1 := abs_le.1 (err i l r hbest.cut)
    have e2 := abs_le.1 (err i' l' r' hcut)
    have := hbest.least i' l' r' hi' hcut
    unfold eps at e1 e2
    linarith [e1.1, e2.2]

example : SortSpec isort ∧ Reach (.new 3 2) ∧ (∀ x ∈ sampleXs, x.1.length = 2) ∧
    (match (TreeImpl.new 3 2).train isort sampleXs with
      | .ok t => (match t.root with
        | .node n _ _ => some (n.featureIdx, n.threshold)
        | .nil => none)
      | .error _ => none) = some (0, 5 / 2) :=
  ⟨isort_spec, .new _ _, by decide, by decide +kernel⟩

/-! ## C21 -/

/-- C21: training a new tree succeeds. -/
theorem C21_train_succeeds (σ : SortFn) (hσ : SortSpec σ) (n : ℤ) (d k : ℕ) (xs : List Sample)
    (hne : xs ≠ []) (hlen : xs.length ≤ 2 ^ 20) (hk : ∀ x ∈ xs, x.1.length = k)
    (hf : ∀ x ∈ xs, ∀ y ∈ xs, x.1 = y.1 → x.2 = y.2) :
    ∃ t, (TreeImpl.new n d).train σ xs = .ok t := by
  obtain ⟨x, rest, rfl⟩ := List.exists_cons_of_ne_nil hne
  have hs : (setInsertAll ((x :: rest).map Prod.snd) []).Pairwise (· < ·) :=
    setInsertAll_sorted List.Pairwise.nil
  have hK := setInsertAll_length_le ((x :: rest).map Prod.snd) []
  rw [List.length_map, List.length_nil] at hK
  obtain ⟨t, ys, h⟩ := buildTree_ok hσ (sorted_nodup hs) (by omega) d
    ⟨hne, hlen, hk, mem_classes_of_train (t := .new n d), hf⟩
  exact ⟨_, TreeImpl.train_ok_iff.2 ⟨x, rest, t, ys, rfl, h, rfl⟩⟩

/-- C21 (any tree object): the classes of earlier trainings and of loaded files count towards the
limit. -/
theorem C21_retrain_succeeds (σ : SortFn) (hσ : SortSpec σ) (t0 : TreeImpl) (h0 : Reach t0) (k : ℕ)
    (xs : List Sample) (hne : xs ≠ []) (hlen : xs.length + t0.classes.length ≤ 2 ^ 20)
    (hk : ∀ x ∈ xs, x.1.length = k) (hf : ∀ x ∈ xs, ∀ y ∈ xs, x.1 = y.1 → x.2 = y.2) :
    ∃ t, t0.train σ xs = .ok t := by
  obtain ⟨x, rest, rfl⟩ := List.exists_cons_of_ne_nil hne
  have hs : (setInsertAll ((x :: rest).map Prod.snd) t0.classes).Pairwise (· < ·) :=
    setInsertAll_sorted h0.sorted
  have hK := setInsertAll_length_le ((x :: rest).map Prod.snd) t0.classes
  rw [List.length_map] at hK
  obtain ⟨t, ys, h⟩ := buildTree_ok hσ (sorted_nodup hs) (by omega) t0.maxDepth
    ⟨hne, by omega, hk, mem_classes_of_train, hf⟩
  exact ⟨_, TreeImpl.train_ok_iff.2 ⟨x, rest, t, ys, rfl, h, rfl⟩⟩

example : SortSpec isort ∧ sampleXs ≠ [] ∧ sampleXs.length ≤ 2 ^ 20 ∧
    (∀ x ∈ sampleXs, x.1.length = 2) ∧
    ∀ x ∈ sampleXs, ∀ y ∈ sampleXs, x.1 = y.1 → x.2 = y.2 :=
  ⟨isort_spec, by decide, by decide, by decide, by decide +kernel⟩

/-- C21 needs that equal feature vectors have equal classes: otherwise the assertion of
DecisionTreeImpl.cpp:406 fails. -/
theorem C21_contradictory_samples_abort :
    (TreeImpl.new 2 2).train isort [([1], 0), ([1], 1)] = .error .abort := by decide +kernel

/-! ## C22 -/

/-- C22 for well separated features: the samples that evaluation routes to a node are the ones the node
was built from: they account for its number of samples and its counters.  (In full generality C22 is
false, see `C22_fails`; missing here: features that are closer together, of which `C22_roomy_partial`
treats those that are not neighbours.) -/
theorem C22_spaced_partial (σ : SortFn) (hσ : SortSpec σ) (t0 t : TreeImpl) (k : ℕ)
    (xs : List Sample) (hk : ∀ x ∈ xs, x.1.length = k) (ht : t0.train σ xs = .ok t)
    (hs : Spaced k xs) (p : List Bool) (n : NodeInfo) (l r : Tree)
    (hp : subtreeAt t.root p = .node n l r) :
    n.numSamples = (xs.filter fun x => goes t.root p x.1).length ∧
    n.counts = t.classes.map (numOf (xs.filter fun x => goes t.root p x.1)) := by
  obtain ⟨x, rest, root, data, -, hb, rfl⟩ := TreeImpl.train_ok_iff.1 ht
  exact grown_routed (buildTree_grown hσ _ _ hk hb).1 (separable_spaced hs) p n l r hp

example : SortSpec isort ∧ (∀ x ∈ sampleXs, x.1.length = 2) ∧ Spaced 2 sampleXs :=
  ⟨isort_spec, by decide, by unfold Spaced; decide +kernel⟩

/-- C22 for all floats that are not neighbours: if between any two different values of a feature there is
another float (and their sum does not overflow), the samples that evaluation routes to a node are the ones
the node was built from.

Full statement: for all floats.  Missing: neighbouring floats (`C22_fails`). -/
theorem C22_roomy_partial (σ : SortFn) (hσ : SortSpec σ) (t0 t : TreeImpl) (k : ℕ)
    (xs : List Sample) (hk : ∀ x ∈ xs, x.1.length = k) (ht : t0.train σ xs = .ok t)
    (hs : Roomy k xs) (p : List Bool) (n : NodeInfo) (l r : Tree)
    (hp : subtreeAt t.root p = .node n l r) :
    n.numSamples = (xs.filter fun x => goes t.root p x.1).length ∧
    n.counts = t.classes.map (numOf (xs.filter fun x => goes t.root p x.1)) := by
  obtain ⟨x, rest, root, data, -, hb, rfl⟩ := TreeImpl.train_ok_iff.1 ht
  exact grown_routed (buildTree_grown hσ _ _ hk hb).1 (separable_roomy hs) p n l r hp

/-- Values too close for `C22_spaced_partial`: with one float, 1 + 2^-23, between them. -/
example : Roomy 1 [([1], 0), ([1 + 2 / 2 ^ 23], 1)] ∧
    ((TreeImpl.new 2 1).train isort [([1], 0), ([1 + 2 / 2 ^ 23], 1)]).isOk = true := by
  refine ⟨?_, by decide +kernel⟩
  have f1 : Float32 1 := ⟨1, 0, by norm_num, by norm_num, by norm_num⟩
  have f2 : Float32 (1 + 2 / 2 ^ 23) := ⟨2 ^ 23 + 2, -23, by norm_num, by norm_num, by norm_num⟩
  have f3 : Float32 (1 + 1 / 2 ^ 23) := ⟨2 ^ 23 + 1, -23, by norm_num, by norm_num, by norm_num⟩
  intro i hi x hx
  obtain rfl : i = 0 := by omega
  simp only [List.mem_cons, List.not_mem_nil, or_false] at hx
  rcases hx with rfl | rfl
  · refine ⟨f1, by unfold maxFloat; norm_num, fun y hy _ => ?_⟩
    simp only [List.mem_cons, List.not_mem_nil, or_false] at hy
    rcases hy with rfl | rfl
    · simp_all
    · exact ⟨_, f3, by norm_num, by norm_num⟩
  · refine ⟨f2, by unfold maxFloat; norm_num, fun y hy hlt => ?_⟩
    simp only [List.mem_cons, List.not_mem_nil, or_false] at hy
    rcases hy with rfl | rfl <;> norm_num at hlt

/-- C22 for integers of magnitude at most 2^22. -/
theorem C22_integers_partial (σ : SortFn) (hσ : SortSpec σ) (t0 t : TreeImpl) (k : ℕ)
    (xs : List Sample) (hk : ∀ x ∈ xs, x.1.length = k) (ht : t0.train σ xs = .ok t)
    (hs : SmallIntegers xs) (p : List Bool) (n : NodeInfo) (l r : Tree)
    (hp : subtreeAt t.root p = .node n l r) :
    n.numSamples = (xs.filter fun x => goes t.root p x.1).length ∧
    n.counts = t.classes.map (numOf (xs.filter fun x => goes t.root p x.1)) := by
  obtain ⟨x, rest, root, data, -, hb, rfl⟩ := TreeImpl.train_ok_iff.1 ht
  exact grown_routed (buildTree_grown hσ _ _ hk hb).1 (separable_int hs) p n l r hp

example : SmallIntegers sampleXs := by
  intro x hx v hv
  simp only [sampleXs, List.mem_cons, List.not_mem_nil, or_false] at hx
  rcases hx with rfl | rfl | rfl | rfl | rfl <;>
    simp only [List.mem_cons, List.not_mem_nil, or_false] at hv <;>
    rcases hv with rfl | rfl
  all_goals first
    | (refine ⟨1, ?_, ?_⟩ <;> norm_num; done)
    | (refine ⟨2, ?_, ?_⟩ <;> norm_num; done)
    | (refine ⟨3, ?_, ?_⟩ <;> norm_num)

/-- C22 is false: neighbouring floats, here 2^24 and 2^24 + 2, give a threshold equal to the lower one;
its sample is routed to the right child, which counts only the other sample. -/
theorem C22_fails :
    ∃ t n l r, (TreeImpl.new 2 1).train isort [([2 ^ 24], 0), ([2 ^ 24 + 2], 1)] = .ok t ∧
      subtreeAt t.root [true] = .node n l r ∧ n.numSamples = 1 ∧
      goes t.root [true] [2 ^ 24] ∧ goes t.root [true] [2 ^ 24 + 2] := by
  have hlen : ∀ x ∈ ([([2 ^ 24], 0), ([2 ^ 24 + 2], 1)] : List Sample), x.1.length = 1 := by decide
  let leaf (c : List ℕ) : NodeInfo := ⟨0, 1, 0, -1, 0, c⟩
  refine ⟨⟨[([2 ^ 24], 0), ([2 ^ 24 + 2], 1)], [0, 1],
    .node ⟨1 / 2, 2, 0, 0, 2 ^ 24, [1, 1]⟩ (.node (leaf [1, 0]) .nil .nil)
      (.node (leaf [0, 1]) .nil .nil), 1, 1, 2⟩, leaf [0, 1], .nil, .nil, ?_, rfl, rfl, ?_, ?_⟩
  · decide +kernel
  · decide +kernel
  · decide +kernel

/-! ## C23 and C17 -/

/-- The training samples of the policy models. -/
theorem trainingSamples_spec (h : List Meas) :
    (∀ f p, (f, p) ∈ PolicyModel.trainingSamples (run h) ↔ IsBest (entries h) f p) ∧
    ((PolicyModel.trainingSamples (run h)).map Prod.fst).Pairwise (· < ·) ∧
    (∀ f, f ∈ (PolicyModel.trainingSamples (run h)).map Prod.fst ↔ ∃ x ∈ h, x.features = f) := by
  unfold PolicyModel.trainingSamples
  obtain ⟨h1, h2, h3, h4, -, -⟩ := C04_best_policy h _ _ _ rfl
  have hfst : ((Dataset.findMinMetricPolicyByFeatures (run h)).1.zip
      (Dataset.findMinMetricPolicyByFeatures (run h)).2.1).map Prod.fst =
      (Dataset.findMinMetricPolicyByFeatures (run h)).1 := List.map_fst_zip (le_of_eq h3)
  exact ⟨h4, by rw [hfst]; exact h1, by rw [hfst]; exact h2⟩

theorem isBest_unique {E : List (List ℚ × ℤ × ℚ)} {f : List ℚ} {p p' : ℤ} (h : IsBest E f p)
    (h' : IsBest E f p') : p = p' := by
  obtain ⟨m, h1, h2⟩ := h
  obtain ⟨m', h1', h2'⟩ := h'
  rcases h2 p' m' h1' with a | ⟨a, b⟩ <;> rcases h2' p m h1 with a' | ⟨a', b'⟩
  · exact absurd (lt_trans a a') (lt_irrefl _)
  · rw [a'] at a; exact absurd a (lt_irrefl _)
  · rw [a] at a'; exact absurd a' (lt_irrefl _)
  · omega

theorem trainingSamples_length {h : List Meas} {k : ℕ} (hk : ∀ x ∈ h, x.features.length = k) :
    ∀ x ∈ PolicyModel.trainingSamples (run h), x.1.length = k := by
  intro x hx
  obtain ⟨y, hy, he⟩ := ((trainingSamples_spec h).2.2 x.1).1 (List.mem_map.2 ⟨x, hx, rfl⟩)
  rw [← he]; exact hk y hy

/-- C21 for the DecisionTree model: with at most 2^20 different feature vectors, all of the same
length, training on any dataset succeeds. -/
theorem C21_model_succeeds (env : TrainEnv) (hσ : SortSpec env.sort) (n : ℤ) (d k : ℕ)
    (e : PolicyModel) (h : List Meas) (hne : h ≠ []) (hk : ∀ x ∈ h, x.features.length = k)
    (hlen : (h.map Meas.features).toFinset.card ≤ 2 ^ 20) :
    ∃ m, (PolicyModel.newTree n d e).train env (run h) = .ok m ∧ m.isTrainable = false := by
  obtain ⟨h1, h2, h3⟩ := trainingSamples_spec h
  have hcard : (PolicyModel.trainingSamples (run h)).length = (h.map Meas.features).toFinset.card := by
    rw [← List.length_map (f := Prod.fst), ← List.toFinset_card_of_nodup (h2.imp fun h => ne_of_lt h)]
    congr 1
    ext f
    rw [List.mem_toFinset, List.mem_toFinset, h3, List.mem_map]
  have hne' : PolicyModel.trainingSamples (run h) ≠ [] := by
    obtain ⟨x, hx⟩ := List.exists_mem_of_ne_nil h hne
    have := (h3 x.features).2 ⟨x, hx, rfl⟩
    rintro he
    rw [he] at this
    simp at this
  obtain ⟨t, ht⟩ := C21_train_succeeds env.sort hσ n d k _ hne' (by rw [hcard]; exact hlen)
    (trainingSamples_length hk) (by
      intro x hx y hy he
      have a := (h1 x.1 x.2).1 hx
      have b := (h1 y.1 y.2).1 hy
      rw [he] at a
      exact isBest_unique a b)
  refine ⟨.tree n false e t, ?_, rfl⟩
  simp only [PolicyModel.newTree, PolicyModel.train, ht, Res.bind_ok]

/-- Whatever the data: a DecisionTree model answers, for every feature vector of the trained length, the
smallest among the best policies of the training dataset, whichever feature vector it belongs to
(Node's constructor looks for the most frequent class in a vector it has moved from). -/
theorem C17_always_smallest (env : TrainEnv) (hσ : SortSpec env.sort) (n : ℤ) (d k : ℕ)
    (e m : PolicyModel) (h : List Meas) (hk : ∀ x ∈ h, x.features.length = k)
    (hm : (PolicyModel.newTree n d e).train env (run h) = .ok m) :
    ∃ c, (∃ g, IsBest (entries h) g c) ∧ (∀ g c', IsBest (entries h) g c' → c ≤ c') ∧
      ∀ f, f.length = k → m.getIndex f = .ok (c, m) := by
  obtain ⟨h1, h2, h3⟩ := trainingSamples_spec h
  simp only [PolicyModel.newTree, PolicyModel.train] at hm
  obtain ⟨t, ht, he⟩ := (Res.bind_eq_ok _ _ _).1 hm
  simp only [Except.ok.injEq] at he
  subst he
  obtain ⟨x, rest, root, data, hx, hb, rfl⟩ := TreeImpl.train_ok_iff.1 ht
  have hs : (setInsertAll ((PolicyModel.trainingSamples (run h)).map Prod.snd)
      (TreeImpl.new n d).classes).Pairwise (· < ·) := setInsertAll_sorted List.Pairwise.nil
  have hmem : ∀ c, c ∈ setInsertAll ((PolicyModel.trainingSamples (run h)).map Prod.snd)
      (TreeImpl.new n d).classes ↔ ∃ g, IsBest (entries h) g c := by
    intro c
    rw [mem_setInsertAll, List.mem_map]
    constructor
    · rintro (⟨⟨g, c'⟩, hg, rfl⟩ | hc)
      · exact ⟨g, (h1 _ _).1 hg⟩
      · simp [TreeImpl.new] at hc
    · rintro ⟨g, hg⟩
      exact Or.inl ⟨(g, c), (h1 _ _).2 hg, rfl⟩
  obtain ⟨hgrown, -⟩ := buildTree_grown hσ _ _ (trainingSamples_length hk) hb
  have hx' : x.2 ∈ setInsertAll ((PolicyModel.trainingSamples (run h)).map Prod.snd)
      (TreeImpl.new n d).classes := mem_classes_of_train x (by rw [hx]; simp)
  revert hb hs hmem hgrown hx' ht
  generalize setInsertAll ((PolicyModel.trainingSamples (run h)).map Prod.snd)
    (TreeImpl.new n d).classes = cl
  intro hb _ hs hmem hgrown hx'
  cases cl with
  | nil => simp at hx'
  | cons c cl =>
    refine ⟨c, (hmem c).1 (by simp), ?_, ?_⟩
    · intro g c' hb'
      have := (hmem c').2 ⟨g, hb'⟩
      rcases List.mem_cons.1 this with rfl | h
      · exact le_refl _
      · exact le_of_lt ((List.pairwise_cons.1 hs).1 c' h)
    · intro f hf
      obtain ⟨p, nd, e1, -, e3⟩ := grown_eval hgrown hf
      have e4 := buildTree_predicted c cl _ hb p nd _ _ e1
      simp only [PolicyModel.getIndex, Bool.not_false, if_true, TreeImpl.predict]
      rw [e3, e4]
      rfl

/-- C23 for the first training: every prediction is the best policy of some feature vector of the
dataset.  (Missing: after a second training C23 is false, see `C23_fails_retrained`.) -/
theorem C23_first_training_partial (env : TrainEnv) (hσ : SortSpec env.sort) (n : ℤ) (d k : ℕ)
    (e m : PolicyModel) (h : List Meas) (hk : ∀ x ∈ h, x.features.length = k)
    (hm : (PolicyModel.newTree n d e).train env (run h) = .ok m) (f : Features) (hf : f.length = k) :
    ∃ c, m.getIndex f = .ok (c, m) ∧ ∃ g, IsBest (entries h) g c := by
  obtain ⟨c, h1, -, h3⟩ := C17_always_smallest env hσ n d k e m h hk hm
  exact ⟨c, h3 f hf, h1⟩

/-- Data on which training works: two feature vectors, best policies 1 and 0. -/
def twoBest : List Meas := [⟨[1], 1, 1⟩, ⟨[1], 0, 2⟩, ⟨[2], 0, 1⟩, ⟨[2], 1, 2⟩]

example : (∀ x ∈ twoBest, x.features.length = 1) ∧
    ∃ m, (PolicyModel.newTree 2 2 (.newRoundRobin 2)).train ⟨isort, id⟩ (run twoBest) = .ok m := by
  have hk : ∀ x ∈ twoBest, x.features.length = 1 := by decide
  obtain ⟨m, hm, -⟩ := C21_model_succeeds ⟨isort, id⟩ isort_spec 2 2 1 (.newRoundRobin 2) twoBest
    (by decide) hk (by decide +kernel)
  exact ⟨hk, m, hm⟩

/-- C23 is false after retraining: the classes of the first training are kept, and the prediction 0 is
not the best policy of any feature vector of the second dataset. -/
theorem C23_fails_retrained :
    ∃ t1 t2, (TreeImpl.new 2 2).train isort [([1], 0)] = .ok t1 ∧
      t1.train isort [([1], 1)] = .ok t2 ∧ t2.predict [1] = .ok 0 := by
  refine ⟨⟨[([1], 0)], [0], .node ⟨0, 1, 0, -1, 0, [1]⟩ .nil .nil, 1, 2, 2⟩,
    ⟨[([1], 1)], [0, 1], .node ⟨0, 1, 0, -1, 0, [0, 1]⟩ .nil .nil, 1, 2, 2⟩, ?_, ?_, ?_⟩ <;>
    decide +kernel

/-- C17 is false: on a dataset with two feature vectors, where policy 1 is the best for `[1]`, the
trained model of depth 2 answers 0. -/
theorem C17_fails (env : TrainEnv) (hσ : SortSpec env.sort) (e : PolicyModel) :
    IsBest (entries twoBest) [1] 1 ∧
    ∃ m, (PolicyModel.newTree 2 2 e).train env (run twoBest) = .ok m ∧ m.getIndex [1] = .ok (0, m) := by
  have hE : entries twoBest = [([1], 0, 2), ([1], 1, 1), ([2], 0, 1), ([2], 1, 2)] := by
    decide +kernel
  have hk : ∀ x ∈ twoBest, x.features.length = 1 := by decide
  have b1 : IsBest (entries twoBest) [1] 1 := by
    rw [hE]
    refine ⟨1, by simp, ?_⟩
    intro p' m' hp
    simp only [List.mem_cons, Prod.mk.injEq, List.not_mem_nil, or_false] at hp
    rcases hp with ⟨-, -, rfl⟩ | ⟨-, rfl, rfl⟩ | ⟨hh, -, -⟩ | ⟨hh, -, -⟩
    · left; norm_num
    · right; simp
    · norm_num at hh
    · norm_num at hh
  have b2 : IsBest (entries twoBest) [2] 0 := by
    rw [hE]
    refine ⟨1, by simp, ?_⟩
    intro p' m' hp
    simp only [List.mem_cons, Prod.mk.injEq, List.not_mem_nil, or_false] at hp
    rcases hp with ⟨hh, -, -⟩ | ⟨hh, -, -⟩ | ⟨-, rfl, rfl⟩ | ⟨-, -, rfl⟩
    · norm_num at hh
    · norm_num at hh
    · right; simp
    · left; norm_num
  refine ⟨b1, ?_⟩
  obtain ⟨m, hm, -⟩ := C21_model_succeeds env hσ 2 2 1 e twoBest (by decide) hk (by decide +kernel)
  obtain ⟨c, ⟨g, hg⟩, hmin, hc⟩ := C17_always_smallest env hσ 2 2 1 e m twoBest hk hm
  refine ⟨m, hm, ?_⟩
  have h0 : c ≤ 0 := hmin [2] 0 b2
  have h1 : c = 0 := by
    obtain ⟨mm, hmem, -⟩ := hg
    rw [hE] at hmem
    simp only [List.mem_cons, Prod.mk.injEq, List.not_mem_nil, or_false] at hmem
    rcases hmem with ⟨-, rfl, -⟩ | ⟨-, rfl, -⟩ | ⟨-, rfl, -⟩ | ⟨-, rfl, -⟩ <;> omega
  rw [hc [1] rfl, h1]

/-- What holds of C17 (1): if all feature vectors have the same best policy, it is returned. -/
theorem C17_single_best_partial (env : TrainEnv) (hσ : SortSpec env.sort) (n : ℤ) (d k : ℕ)
    (e m : PolicyModel) (h : List Meas) (hk : ∀ x ∈ h, x.features.length = k)
    (hm : (PolicyModel.newTree n d e).train env (run h) = .ok m) (c : ℤ)
    (hc : ∀ g c', IsBest (entries h) g c' → c' = c) (f : Features) (hf : f.length = k) :
    m.getIndex f = .ok (c, m) := by
  obtain ⟨c', ⟨g, hg⟩, -, h3⟩ := C17_always_smallest env hσ n d k e m h hk hm
  rw [h3 f hf, hc g c' hg]

/-- What holds of C17 (2): with a sufficient depth and well separated features the leaf reached by a
feature vector of the dataset was built from samples with the same best policy only; the counters of
the leaf identify the best policy.  (Missing: the leaf's prediction is taken from an empty vector
instead.) -/
theorem C17_leaf_partial (env : TrainEnv) (hσ : SortSpec env.sort) (n : ℤ) (d k : ℕ)
    (e : PolicyModel) (h : List Meas) (hk : ∀ x ∈ h, x.features.length = k) (t : TreeImpl)
    (hm : (PolicyModel.newTree n d e).train env (run h) = .ok (.tree n false e t))
    (hlen : (h.map Meas.features).toFinset.card ≤ 2 ^ 20)
    (hd : (h.map Meas.features).toFinset.card ≤ d + 1)
    (hs : Spaced k (PolicyModel.trainingSamples (run h)) ∨
      SmallIntegers (PolicyModel.trainingSamples (run h)) ∨
      Roomy k (PolicyModel.trainingSamples (run h)))
    (p : List Bool) (nd : NodeInfo) (hp : subtreeAt t.root p = .node nd .nil .nil) (f : Features)
    (c : ℤ) (hf : IsBest (entries h) f c) (hgo : goes t.root p f) :
    nd.numSamples = numOf ((PolicyModel.trainingSamples (run h)).filter fun x => goes t.root p x.1) c ∧
    nd.counts = t.classes.map fun c' => if c' = c then nd.numSamples else 0 := by
  obtain ⟨h1, h2, h3⟩ := trainingSamples_spec h
  simp only [PolicyModel.newTree, PolicyModel.train] at hm
  obtain ⟨t', ht, he⟩ := (Res.bind_eq_ok _ _ _).1 hm
  simp only [Except.ok.injEq, PolicyModel.tree.injEq, true_and] at he
  subst he
  have hcard : (PolicyModel.trainingSamples (run h)).length = (h.map Meas.features).toFinset.card := by
    rw [← List.length_map (f := Prod.fst), ← List.toFinset_card_of_nodup (h2.imp fun h => ne_of_lt h)]
    congr 1
    ext f
    rw [List.mem_toFinset, List.mem_toFinset, h3, List.mem_map]
  obtain ⟨x, rest, root, data, hx, hb, rfl⟩ := TreeImpl.train_ok_iff.1 ht
  have hsep : Separable threshold k (PolicyModel.trainingSamples (run h)) := by
    rcases hs with hs | hs | hs
    · exact separable_spaced hs
    · exact separable_int hs
    · exact separable_roomy hs
  obtain ⟨hgrown, -⟩ := buildTree_grown hσ _ _ (trainingSamples_length hk) hb
  have hnd := sorted_nodup (setInsertAll_sorted (cs := (PolicyModel.trainingSamples (run h)).map
    Prod.snd) (s := (TreeImpl.new n d).classes) List.Pairwise.nil)
  obtain ⟨r1, r2⟩ := grown_routed hgrown hsep p nd _ _ hp
  have hpure := grown_pure hnd hgrown hsep mem_classes_of_train (by rw [hcard]; exact hlen)
    (by rw [hcard]; exact hd) p nd hp
  have hfc : (f, c) ∈ PolicyModel.trainingSamples (run h) := (h1 f c).2 hf
  have hall : ∀ x ∈ (PolicyModel.trainingSamples (run h)).filter (fun x => goes root p x.1),
      x.2 = c := by
    intro x hx
    rw [List.mem_filter, decide_eq_true_eq] at hx
    exact hpure x hx.1 (f, c) hfc hx.2 hgo
  have hnum : ∀ c', numOf ((PolicyModel.trainingSamples (run h)).filter fun x => goes root p x.1) c' =
      if c' = c then nd.numSamples else 0 := by
    intro c'
    unfold numOf
    split
    · rename_i hcc
      rw [r1, List.filter_eq_self.2]
      intro x hx
      rw [decide_eq_true_eq, hcc]; exact hall x hx
    · rename_i hcc
      rw [List.length_eq_zero_iff, List.filter_eq_nil_iff]
      intro x hx hh
      rw [decide_eq_true_eq] at hh
      exact hcc (hh.symm.trans (hall x hx))
  refine ⟨by simp only; rw [hnum, if_pos rfl], ?_⟩
  simp only at r2 ⊢
  rw [r2]
  exact List.map_congr_left fun c' _ => hnum c'

example : (twoBest.map Meas.features).toFinset.card ≤ 1 + 1 ∧
    Spaced 1 (PolicyModel.trainingSamples (run twoBest)) :=
  ⟨by decide +kernel, by unfold Spaced; decide +kernel⟩

end Apollo.Props
