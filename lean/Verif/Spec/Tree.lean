import Verif.Model.Tree

/-!
# Specification of trained decision trees

Only the data types `Sample` (features, class), `NodeInfo` and `Tree` are taken from the model.  Cuts
of a training set are described by the feature values around them, not by positions in a sorted
array.
-/

namespace Apollo.Spec

/-- Number of edges on the longest path. -/
def height : Tree → ℕ
  | .nil => 0
  | .node _ .nil .nil => 0
  | .node _ l r => max (height l) (height r) + 1

/-- The subtree at an address (`false` is left, `true` is right). -/
def subtreeAt : Tree → List Bool → Tree
  | t, [] => t
  | .nil, _ :: _ => .nil
  | .node _ l r, b :: p => subtreeAt (if b then r else l) p

/-- The features take the way to the address: at each inner node on it, they go left exactly if the
node's feature is below its threshold. -/
def goes : Tree → List Bool → List ℚ → Prop
  | _, [], _ => True
  | .nil, _ :: _, _ => False
  | .node n l r, b :: p, f =>
    0 ≤ n.featureIdx ∧ (b = false ↔ f.getD n.featureIdx.toNat 0 < n.threshold) ∧
      goes (if b then r else l) p f

instance : ∀ t p f, Decidable (goes t p f)
  | .nil, [], _ => .isTrue trivial
  | .node .., [], _ => .isTrue trivial
  | .nil, _ :: _, _ => .isFalse id
  | .node _ l r, b :: p, f =>
    have := instDecidableGoes (if b then r else l) p f
    inferInstanceAs (Decidable (_ ∧ _ ∧ _))

/-- How many samples have class `c`. -/
def numOf (xs : List Sample) (c : ℤ) : ℕ := (xs.filter fun x => x.2 = c).length

/-- A node of a trained tree: its counters sum to its number of samples, which is not zero; it is a
leaf, or it has two children with samples whose numbers and counters add up to its own. -/
def GoodNode (classes : List ℤ) (n : NodeInfo) (l r : Tree) : Prop :=
  n.counts.sum = n.numSamples ∧ 0 < n.numSamples ∧ n.counts.length = classes.length ∧
  ((l = .nil ∧ r = .nil ∧ n.featureIdx = -1) ∨
    ∃ nl ll lr nr rl rr, l = .node nl ll lr ∧ r = .node nr rl rr ∧ 0 ≤ n.featureIdx ∧
      n.numSamples = nl.numSamples + nr.numSamples ∧
      n.counts = List.zipWith (· + ·) nl.counts nr.counts ∧
      0 < nl.numSamples ∧ 0 < nr.numSamples)

/-- Any two different values of a feature are at least `2^-21` apart relative to the larger of their
magnitudes, which is between `2^-100` and `2^126`. -/
def Spaced (k : ℕ) (xs : List Sample) : Prop :=
  ∀ i < k, ∀ x ∈ xs, ∀ y ∈ xs, x.1.getD i 0 < y.1.getD i 0 →
    2 ^ (-100 : ℤ) ≤ max |x.1.getD i 0| |y.1.getD i 0| ∧
    max |x.1.getD i 0| |y.1.getD i 0| ≤ 2 ^ (126 : ℤ) ∧
    max |x.1.getD i 0| |y.1.getD i 0| * 2 ^ (-21 : ℤ) ≤ y.1.getD i 0 - x.1.getD i 0

/-- A value from which trees can be stored: zero, or between 1e-29 and 1e38 in magnitude. -/
def StorableFloat (v : ℚ) : Prop :=
  Float32 v ∧ (v = 0 ∨ (10 : ℚ) ^ (-29 : ℤ) ≤ |v|) ∧ |v| ≤ 10 ^ (38 : ℤ)

/-- A sample with such values whose class is an `int`. -/
structure StorableSample (x : Sample) : Prop where
  feat : ∀ v ∈ x.1, StorableFloat v
  cls : -2 ^ 31 ≤ x.2 ∧ x.2 < 2 ^ 31

/-- All values are integers of magnitude at most `2^22`. -/
def SmallIntegers (xs : List Sample) : Prop :=
  ∀ x ∈ xs, ∀ v ∈ x.1, ∃ a : ℤ, v = a ∧ |a| ≤ 2 ^ 22

/-- Exact Gini impurity `1 - Σ (n_c / n)²`. -/
def exactGini (classes : List ℤ) (xs : List Sample) : ℚ :=
  1 - (classes.map fun c => ((numOf xs c : ℚ) / xs.length) ^ 2).sum

/-- Exact weighted impurity of a partition. -/
def exactWeighted (classes : List ℤ) (xs ys : List Sample) : ℚ :=
  (xs.length * exactGini classes xs + ys.length * exactGini classes ys) / (xs.length + ys.length)

/-- `l < r` are neighbouring values of feature `i` in the samples. -/
structure IsCut (xs : List Sample) (i : ℕ) (l r : ℚ) : Prop where
  lt : l < r
  left : ∃ x ∈ xs, x.1.getD i 0 = l
  right : ∃ x ∈ xs, x.1.getD i 0 = r
  gap : ∀ x ∈ xs, x.1.getD i 0 ≤ l ∨ r ≤ x.1.getD i 0

/-- The samples on the left of a cut. -/
def below (xs : List Sample) (i : ℕ) (l : ℚ) : List Sample := xs.filter fun x => x.1.getD i 0 ≤ l

/-- The samples on the right of a cut. -/
def above (xs : List Sample) (i : ℕ) (l : ℚ) : List Sample := xs.filter fun x => ¬ x.1.getD i 0 ≤ l

/-- `(i, l, r)` is the first among the cuts of least value, cuts being ordered by feature and then
value; `w` is the value of a partition. -/
structure IsFirstBest (w : List Sample → List Sample → ℚ) (k : ℕ) (xs : List Sample) (i : ℕ)
    (l r : ℚ) : Prop where
  feature : i < k
  cut : IsCut xs i l r
  least : ∀ i' l' r', i' < k → IsCut xs i' l' r' →
    w (below xs i l) (above xs i l) ≤ w (below xs i' l') (above xs i' l')
  first : ∀ i' l' r', i' < k → IsCut xs i' l' r' →
    w (below xs i' l') (above xs i' l') = w (below xs i l) (above xs i l) →
    i < i' ∨ (i = i' ∧ l ≤ l')

/-- The tree of at most the given height for the samples: `imp` is the impurity of a set, `w` the
weighted impurity of a partition, `thr` the threshold between two values, `k` the number of features.
A node is a leaf if no height is left or its samples are pure; otherwise it is divided at the first
best cut. -/
inductive Grown (classes : List ℤ) (imp : List Sample → ℚ) (w : List Sample → List Sample → ℚ)
    (thr : ℚ → ℚ → ℚ) (k : ℕ) : ℕ → List Sample → Tree → Prop
  | leaf (d : ℕ) (xs : List Sample) (n : NodeInfo) (hd : d = 0 ∨ imp xs ≤ 0)
      (hg : n.gini = imp xs) (hn : n.numSamples = xs.length) (hc : n.counts = classes.map (numOf xs))
      (hi : n.featureIdx = -1) : Grown classes imp w thr k d xs (.node n .nil .nil)
  | inner (d : ℕ) (xs : List Sample) (n : NodeInfo) (i : ℕ) (l r : ℚ) (tl tr : Tree)
      (himp : 0 < imp xs) (hg : n.gini = imp xs) (hn : n.numSamples = xs.length)
      (hc : n.counts = classes.map (numOf xs)) (hbest : IsFirstBest w k xs i l r)
      (hi : n.featureIdx = i) (ht : n.threshold = thr l r)
      (hl : Grown classes imp w thr k d (below xs i l) tl)
      (hr : Grown classes imp w thr k d (above xs i l) tr) :
      Grown classes imp w thr k (d + 1) xs (.node n tl tr)

end Apollo.Spec
