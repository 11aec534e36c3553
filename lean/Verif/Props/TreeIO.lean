import Verif.Proofs.TreeStore
import Verif.Props.Tree
import Verif.Props.Numbers

/-!
# Properties C24–C26, C64: stored trees and generated code

`t.save` is the text of the file (or a failure), `t0.load s` reads the text `s` into the tree object
`t0`.
-/

namespace Apollo.Props

open Apollo Apollo.Spec

/-! ## C24 -/

/-- C24 for the trees that training builds: for every tree object, trained on any samples of moderate
numbers, storing succeeds, loading into any fresh object succeeds, and the predictions are the same for
every feature vector.

Full statement: for all trained trees.  Missing: numbers outside the stated range
(`C24_tiny_feature_throws`).  Note that all predictions of a trained tree are the same
(`C17_always_smallest`), so that the loss of digits in the thresholds has no effect here; for trees that
predict several classes see `C24_fails_loaded` and `C24_exact_partial`. -/
theorem C24_trained_partial (σ : SortFn) (hσ : SortSpec σ) (t0 t : TreeImpl) (h0 : Reach t0)
    (xs : List Sample) (ht : t0.train σ xs = .ok t) (k : ℕ) (hk : ∀ x ∈ xs, x.1.length = k)
    (hk31 : k < 2 ^ 31) (hlen : xs.length ≤ 2 ^ 20) (hK : t.classes.length ≤ 2 ^ 20)
    (hs : ∀ x ∈ xs, StorableSample x) (hc0 : ∀ c ∈ t0.classes, -2 ^ 31 ≤ c ∧ c < 2 ^ 31)
    (hd : t0.maxDepth < 2 ^ 32) (n : ℤ) (d : ℕ) :
    ∃ s t', t.save = .ok s ∧ (TreeImpl.new n d).load s = .ok t' ∧
      t'.classes = t.classes ∧ t'.maxDepth = t.maxDepth ∧ t'.numFeatures = t.numFeatures ∧
      ∀ f, f.length = k → ∃ c, t.predict f = .ok c ∧ t'.predict f = .ok c := by
  obtain ⟨hok, hl⟩ := trained_treeOk hσ h0.sorted ht hk hk31 hlen hK hs hc0 hd
  obtain ⟨s, hsave⟩ := trained_saves hσ ht hk hok
  obtain ⟨hp, c, hc⟩ := trained_const hσ ht hk
  refine ⟨s, _, hsave, TreeImpl.load_save hsave hok hl _, ?_, rfl, rfl, ?_⟩
  · have hsorted := TreeImpl.train_sorted h0.sorted ht
    refine sorted_ext (setInsertAll_sorted List.Pairwise.nil) hsorted fun a => ?_
    show a ∈ setInsertAll t.classes [] ↔ _
    rw [mem_setInsertAll]
    exact ⟨fun h => h.resolve_right (by simp), Or.inl⟩
  · intro f hf
    subst hf
    refine ⟨c, eval_const hp.ne_nil hc, eval_const ?_ (rereadTree_forall.2 hc)⟩
    exact fun h => hp.ne_nil (rereadTree_eq_nil.1 h)

theorem storableFloat_int {n : ℤ} (h : |n| ≤ 2 ^ 24) : StorableFloat (n : ℚ) := by
  refine ⟨representable_intCast (by norm_num) h, ?_, ?_⟩
  · by_cases h0 : n = 0
    · left; simp [h0]
    · right
      have : (1 : ℚ) ≤ |(n : ℚ)| := by exact_mod_cast Int.one_le_abs h0
      exact le_trans (by norm_num) this
  · have : |(n : ℚ)| ≤ 2 ^ 24 := by exact_mod_cast h
    exact le_trans this (by norm_num)

example : ∀ x ∈ sampleXs, StorableSample x := by
  have key : ∀ v : ℚ, v = 1 ∨ v = 2 ∨ v = 3 → StorableFloat v := by
    rintro v (rfl | rfl | rfl)
    · exact_mod_cast storableFloat_int (n := 1) (by norm_num)
    · exact_mod_cast storableFloat_int (n := 2) (by norm_num)
    · exact_mod_cast storableFloat_int (n := 3) (by norm_num)
  intro x hx
  simp only [sampleXs, List.mem_cons, List.not_mem_nil, or_false] at hx
  rcases hx with rfl | rfl | rfl | rfl | rfl <;>
    exact ⟨fun v hv => key v (by simp at hv; tauto), by norm_num⟩

example : ((TreeImpl.new 3 2).train isort sampleXs).map (fun t => decide (t.classes.length ≤ 2 ^ 20)) =
    .ok true := by decide +kernel

/-- C24, part, for every tree object whatever its predictions: if the numbers are in the range of the
parser and the thresholds have at most six significant digits (for instance the means of integers below
100000 in magnitude), the reloaded tree predicts the same for every feature vector, also where
prediction is undefined.  (Missing: other thresholds, see `C24_fails_loaded`.) -/
theorem C24_exact_partial (t : TreeImpl) (s : List Char) (hs : t.save = .ok s) (hok : TreeOk t)
    (hl : t.data.length ≤ 2 ^ 64)
    (h6 : ∀ p n l r, subtreeAt t.root p = .node n l r → Float32 n.threshold ∧ SixDigits n.threshold)
    (t0 : TreeImpl) :
    ∃ t', t0.load s = .ok t' ∧ ∀ f, t'.predict f = t.predict f := by
  refine ⟨_, TreeImpl.load_save hs hok hl t0, fun f => eval_reread ?_⟩
  rw [Tree.forall_iff]
  intro p n l r hp _ v _
  obtain ⟨h1, h2⟩ := h6 p n l r hp
  rw [round6_of_sixDigits h2, show rnd32 n.threshold = n.threshold from
    rnd_of_representable (by norm_num) h1]

/-- The same with any thresholds, for the feature vectors that do not fall between a threshold and its
stored value. -/
theorem C24_between_partial (t : TreeImpl) (s : List Char) (hs : t.save = .ok s) (hok : TreeOk t)
    (hl : t.data.length ≤ 2 ^ 64) (f : Features)
    (hf : ∀ p n l r, subtreeAt t.root p = .node n l r → ∀ v ∈ f,
      (v < n.threshold ∧ v < rnd32 (round6 n.threshold)) ∨
      (n.threshold ≤ v ∧ rnd32 (round6 n.threshold) ≤ v)) (t0 : TreeImpl) :
    ∃ t', t0.load s = .ok t' ∧ t'.predict f = t.predict f := by
  refine ⟨_, TreeImpl.load_save hs hok hl t0, eval_reread ?_⟩
  rw [Tree.forall_iff]
  intro p n l r hp _ v hv
  have := hf p n l r hp v (List.mem_of_getElem? hv)
  constructor <;> intro h <;> rcases this with ⟨a, b⟩ | ⟨a, b⟩ <;> first | assumption | linarith

/-- A tree whose leaves differ, with the given threshold. -/
def twoLeaves (thr : ℚ) : TreeImpl :=
  ⟨[([1], 0), ([2], 1)], [0, 1],
    .node ⟨1 / 2, 2, 0, 0, thr, [1, 1]⟩ (.node ⟨0, 1, 0, -1, 0, [1, 0]⟩ .nil .nil)
      (.node ⟨0, 1, 1, -1, 0, [0, 1]⟩ .nil .nil), 1, 1, 2⟩

theorem treeOk_twoLeaves {thr : ℚ} (h : RangeFloat thr) : TreeOk (twoLeaves thr) := by
  have r1 : RangeFloat 1 := Or.inr ⟨by norm_num, by norm_num⟩
  have r2 : RangeFloat 2 := Or.inr ⟨by norm_num, by norm_num⟩
  have r3 : RangeFloat (1 / 2) := Or.inr ⟨by norm_num, by norm_num⟩
  refine ⟨⟨⟨r3, by norm_num [twoLeaves], by norm_num [twoLeaves], by norm_num [twoLeaves], h, ?_⟩,
    ⟨⟨Or.inl rfl, by norm_num, by norm_num, by norm_num, Or.inl rfl, ?_⟩, trivial, trivial⟩,
    ⟨⟨Or.inl rfl, by norm_num, by norm_num, by norm_num, Or.inl rfl, ?_⟩, trivial, trivial⟩⟩,
    ?_, ?_, by norm_num [twoLeaves], by norm_num [twoLeaves]⟩
  · intro c hc; simp at hc; subst hc; norm_num
  · intro c hc; simp at hc; rcases hc with rfl | rfl <;> norm_num
  · intro c hc; simp at hc; rcases hc with rfl | rfl <;> norm_num
  · intro x hx
    simp only [twoLeaves, List.mem_cons, List.not_mem_nil, or_false] at hx
    rcases hx with rfl | rfl
    · exact ⟨fun v hv => by simp at hv; subst hv; exact r1, by norm_num⟩
    · exact ⟨fun v hv => by simp at hv; subst hv; exact r2, by norm_num⟩
  · intro c hc; simp [twoLeaves] at hc; rcases hc with rfl | rfl <;> norm_num

/-- The hypotheses of `C24_exact_partial` are met by a tree that predicts two classes. -/
example : (∃ s, (twoLeaves (3 / 2)).save = .ok s) ∧ TreeOk (twoLeaves (3 / 2)) ∧
    (Float32 (3 / 2) ∧ SixDigits (3 / 2)) ∧
    (twoLeaves (3 / 2)).predict [1] = .ok 0 ∧ (twoLeaves (3 / 2)).predict [2] = .ok 1 := by
  refine ⟨⟨_, save_ok_iff.2 ⟨by simp [twoLeaves], by decide +kernel, by decide, rfl⟩⟩,
    treeOk_twoLeaves (Or.inr ⟨by norm_num, by norm_num⟩), ⟨?_, ?_⟩, by decide +kernel, by decide +kernel⟩
  · exact ⟨3, -1, by norm_num, by norm_num, by norm_num⟩
  · exact ⟨15, -1, by norm_num, by norm_num⟩

/-- Such a tree without counters and samples. -/
def bareTwoLeaves (thr : ℚ) : TreeImpl :=
  ⟨[], [], .node ⟨0, 2, 0, 0, thr, []⟩ (.node ⟨0, 1, 0, -1, 0, []⟩ .nil .nil)
      (.node ⟨0, 1, 1, -1, 0, []⟩ .nil .nil), 1, 1, 2⟩

/-- C24 is false of trees that predict several classes: the tree loaded from a file with the threshold
1234567 is stored with the threshold 1.23457e+06; for the feature 1234568 the prediction changes from 1
to 0. -/
theorem C24_fails_loaded :
    ∃ t s t', Reach t ∧ t.save = .ok s ∧ (TreeImpl.new 2 1).load s = .ok t' ∧
      t.predict [1234568] = .ok 1 ∧ t'.predict [1234568] = .ok 0 := by
  refine ⟨bareTwoLeaves 1234567, _, bareTwoLeaves 1234570, ?_,
    save_ok_iff.2 ⟨by simp [bareTwoLeaves], by decide +kernel, by decide, rfl⟩, ?_, by decide +kernel,
    by decide +kernel⟩
  · exact Reach.load (.new 2 1) ("tree: { max_depth: 1, classes: [ ], num_features: 1, " ++
      "root: { gini: 0, num_samples: 2, predicted_class: 0, feature_idx: 0, threshold: 1234567, " ++
      "count_per_class: { }, " ++
      "left: { gini: 0, num_samples: 1, predicted_class: 0, feature_idx: -1, threshold: 0, " ++
      "count_per_class: { }, }, " ++
      "right: { gini: 0, num_samples: 1, predicted_class: 1, feature_idx: -1, threshold: 0, " ++
      "count_per_class: { }, }, }, data: { }, }\n").toList
      _ (.new 2 1) (by decide +kernel)
  · have hok : TreeOk (bareTwoLeaves 1234567) := by
      refine ⟨⟨⟨Or.inl rfl, by norm_num, by norm_num, by norm_num,
        Or.inr ⟨by norm_num, by norm_num⟩, by simp⟩,
        ⟨⟨Or.inl rfl, by norm_num, by norm_num, by norm_num, Or.inl rfl, by simp⟩, trivial, trivial⟩,
        ⟨⟨Or.inl rfl, by norm_num, by norm_num, by norm_num, Or.inl rfl, by simp⟩, trivial, trivial⟩⟩,
        by simp [bareTwoLeaves], by simp [bareTwoLeaves], by norm_num [bareTwoLeaves],
        by norm_num [bareTwoLeaves]⟩
    rw [TreeImpl.load_save (save_ok_iff.2 ⟨by simp [bareTwoLeaves], by decide +kernel, by decide, rfl⟩)
      hok (by simp [bareTwoLeaves])]
    decide +kernel

/-- C24 is false of data with very small features: the stored number is below the range of
`std::stof`, which throws. -/
theorem C24_tiny_feature_throws :
    ∃ t s, (TreeImpl.new 2 1).train isort [([2 ^ (-140 : ℤ)], 0)] = .ok t ∧ t.save = .ok s ∧
      (TreeImpl.new 2 1).load s = .error .throw := by
  refine ⟨⟨[([2 ^ (-140 : ℤ)], 0)], [0], .node ⟨0, 1, 0, -1, 0, [1]⟩ .nil .nil, 1, 1, 2⟩, _,
    by decide +kernel, save_ok_iff.2 ⟨by simp, by decide +kernel, by decide, rfl⟩, by decide +kernel⟩

/-- Loading into a tree that has been trained keeps the old classes and samples; storing the result then
reads counters that do not exist. -/
theorem C24_load_over_trained_unsafe :
    ∃ t1 t2 s t', (TreeImpl.new 2 1).train isort [([1], 0)] = .ok t1 ∧
      (TreeImpl.new 2 1).train isort [([1], 1)] = .ok t2 ∧ t2.save = .ok s ∧
      t1.load s = .ok t' ∧ t'.data = [([1], 0), ([1], 1)] ∧
      t'.save = .error (.ub .outOfBounds) := by
  refine ⟨⟨[([1], 0)], [0], .node ⟨0, 1, 0, -1, 0, [1]⟩ .nil .nil, 1, 1, 2⟩,
    ⟨[([1], 1)], [1], .node ⟨0, 1, 1, -1, 0, [1]⟩ .nil .nil, 1, 1, 2⟩, _,
    ⟨[([1], 0), ([1], 1)], [0, 1], .node ⟨0, 1, 1, -1, 0, [1]⟩ .nil .nil, 1, 1, 2⟩,
    by decide +kernel, by decide +kernel,
    save_ok_iff.2 ⟨by simp, by decide +kernel, by decide, rfl⟩, by decide +kernel, rfl,
    by decide +kernel⟩

/-! ## C25 -/

/-- C25: no proper prefix of a stored tree is loaded without error, for every tree and into every tree
object. -/
theorem C25_truncated_never_loads (t t0 : TreeImpl) (full s d : List Char) (hs : t.save = .ok full)
    (hsd : s ++ d = full) (hd : d ≠ []) : ∃ e, t0.load s = .error e := by
  obtain ⟨hroot, -, -, rfl⟩ := save_ok_iff.1 hs
  cases h : t0.load s with
  | error e => exact ⟨e, rfl⟩
  | ok x =>
    exfalso
    unfold TreeImpl.load at h
    cases hx : parseTree (s.length + 1) t0 ⟨s, [], 0⟩ with
    | error e => rw [hx] at h; cases h
    | ok y => exact parseTree_no_prefix _ t0 t hroot s d hsd hd y hx

/-- Cutting off the last character. -/
example : ∃ full, (twoLeaves (3 / 2)).save = .ok full ∧
    (TreeImpl.new 2 1).load full = .ok (twoLeaves (3 / 2)) ∧
    (TreeImpl.new 2 1).load full.dropLast = .error (.ub .endOfStream) := by
  refine ⟨_, save_ok_iff.2 ⟨by simp [twoLeaves], by decide +kernel, by decide, rfl⟩,
    ?_, by decide +kernel⟩
  rw [TreeImpl.load_save (save_ok_iff.2 ⟨by simp [twoLeaves], by decide +kernel, by decide, rfl⟩)
    (treeOk_twoLeaves (Or.inr ⟨by norm_num, by norm_num⟩)) (by simp [twoLeaves])]
  decide +kernel

/-! ## C26 -/

/-- C26 for the trees that training builds: for every tree object trained on any samples without an
overflow in a threshold, generated code and interpretation return the same for every feature vector.

Full statement: for every tree.  Missing: infinite thresholds (the generated source contains `inf` and
does not compile), and trees that predict several classes, which training does not build
(`C26_fails_loaded`, `C26_exact_partial`). -/
theorem C26_trained_partial (σ : SortFn) (hσ : SortSpec σ) (t0 t : TreeImpl)
    (xs : List Sample) (ht : t0.train σ xs = .ok t) (k : ℕ) (hk : ∀ x ∈ xs, x.1.length = k)
    (hfin : ∀ p n l r, subtreeAt t.root p = .node n l r → |n.threshold| ≤ maxFloat)
    (f : Features) (hf : f.length = k) :
    ∃ c, t.predict f = .ok c ∧ t.jitPredict f = .ok c := by
  obtain ⟨hp, c, hc⟩ := trained_const hσ ht hk
  subst hf
  refine ⟨c, eval_const hp.ne_nil hc, ?_⟩
  unfold TreeImpl.jitPredict
  rw [if_neg]
  · exact run_const hp hc
  · rw [not_not, Tree.all_iff]
    exact (Tree.forall_iff.2 hfin).imp fun n hn => decide_eq_true hn

/-- C26, part, for all trees of the shape that training builds, whatever their predictions: if the
thresholds have at most six significant digits, generated code and interpretation have the same outcome
for every feature vector, also where it is undefined.  (Missing: other thresholds, see
`C26_fails_loaded`.) -/
theorem C26_exact_partial (t : TreeImpl)
    (hg : ∃ classes, ∀ p n l r, subtreeAt t.root p = .node n l r → GoodNode classes n l r)
    (hroot : t.root ≠ .nil)
    (h6 : ∀ p n l r, subtreeAt t.root p = .node n l r →
      Float32 n.threshold ∧ SixDigits n.threshold ∧ |n.threshold| ≤ maxFloat) (f : Features) :
    t.jitPredict f = t.predict f := by
  have hp : ∀ u : Tree, u ≠ .nil →
      (∃ classes, ∀ p n l r, subtreeAt u p = .node n l r → GoodNode classes n l r) → u.Proper := by
    intro u
    induction u with
    | nil => exact fun h => absurd rfl h
    | node n l r ihl ihr =>
      rintro - ⟨cl, h⟩
      obtain ⟨-, -, -, hc⟩ := h [] n l r rfl
      rcases hc with hc | ⟨nl, ll, lr, nr, rl, rr, rfl, rfl, h1, -⟩
      · exact Or.inl hc
      · exact Or.inr ⟨h1, ihl (by simp) ⟨cl, fun p n l r hq => h (false :: p) n l r hq⟩,
          ihr (by simp) ⟨cl, fun p n l r hq => h (true :: p) n l r hq⟩⟩
  unfold TreeImpl.jitPredict
  rw [if_neg]
  · refine run_generate (hp _ hroot hg) (Tree.forall_iff.2 fun p n l r hq _ v _ => ?_)
    obtain ⟨h1, h2, -⟩ := h6 p n l r hq
    rw [round6_of_sixDigits h2]
    have : Float64 n.threshold := by
      obtain ⟨m, e, a, b, c⟩ := h1
      exact ⟨m, e, le_trans a (by norm_num), by omega, c⟩
    rw [show rnd64 n.threshold = n.threshold from rnd_of_representable (by norm_num) this]
  · rw [not_not, Tree.all_iff]
    exact Tree.forall_iff.2 fun p n l r hq => decide_eq_true (h6 p n l r hq).2.2

/-- The hypotheses are met by a tree that predicts two classes. -/
example : (∀ p n l r, subtreeAt (twoLeaves (3 / 2)).root p = .node n l r → GoodNode [0, 1] n l r) ∧
    (twoLeaves (3 / 2)).jitPredict [1] = .ok 0 ∧ (twoLeaves (3 / 2)).jitPredict [2] = .ok 1 := by
  refine ⟨?_, by decide +kernel, by decide +kernel⟩
  intro p n l r hp
  match p with
  | [] =>
    simp only [subtreeAt, twoLeaves, Tree.node.injEq] at hp
    obtain ⟨rfl, rfl, rfl⟩ := hp
    exact ⟨rfl, by norm_num, rfl, Or.inr ⟨_, _, _, _, _, _, rfl, rfl, by norm_num, rfl, rfl,
      by norm_num, by norm_num⟩⟩
  | [false] =>
    simp only [subtreeAt, twoLeaves] at hp
    obtain ⟨rfl, rfl, rfl⟩ := hp
    exact ⟨rfl, by norm_num, rfl, Or.inl ⟨rfl, rfl, rfl⟩⟩
  | [true] =>
    simp only [subtreeAt, twoLeaves] at hp
    obtain ⟨rfl, rfl, rfl⟩ := hp
    exact ⟨rfl, by norm_num, rfl, Or.inl ⟨rfl, rfl, rfl⟩⟩
  | false :: b :: p => cases b <;> cases p <;> simp [subtreeAt, twoLeaves] at hp
  | true :: b :: p => cases b <;> cases p <;> simp [subtreeAt, twoLeaves] at hp

/-- C26 is false of trees that predict several classes: the threshold 11744051 / 2^24, the float nearest
to 0.7, is written as the double literal 0.7, which is larger; for that feature interpretation returns 1
and the generated code 0. -/
theorem C26_fails_loaded :
    ∃ t, Reach t ∧ t.predict [11744051 / 2 ^ 24] = .ok 1 ∧
      t.jitPredict [11744051 / 2 ^ 24] = .ok 0 := by
  refine ⟨twoLeaves (11744051 / 2 ^ 24), ?_, by decide +kernel, by decide +kernel⟩
  refine Reach.load (.new 2 1) _ _ (.new 2 1) (Eq.trans (TreeImpl.load_save (t := twoLeaves (11744051 / 2 ^ 24))
    (save_ok_iff.2 ⟨by simp [twoLeaves], by decide +kernel, by decide, rfl⟩)
    (treeOk_twoLeaves (Or.inr ⟨by norm_num, by norm_num⟩)) (by simp [twoLeaves]) (.new 2 1)) ?_)
  decide +kernel

/-! ## C64 -/

/-- C64 (trees): loading ends for every input text. -/
theorem C64_tree_load_terminates (t : TreeImpl) (s : List Char) : t.load s ≠ .error .diverge :=
  TreeImpl.load_terminates t s

example : (TreeImpl.new 2 1).load "tree: { max_depth: 1, classes: [ 0, 1".toList =
    .error (.ub .endOfStream) := by decide +kernel

end Apollo.Props
