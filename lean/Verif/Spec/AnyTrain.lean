import Verif.Model.AnyTrain
import Verif.Spec.AnyFloat
import Verif.Spec.AnyPredict
import Verif.Spec.Tree

/-!
# Specification of decision trees trained with any floats

Only the data types are taken from the model.
-/

namespace Apollo.Spec

/-- The comparison of floats: both stand for numbers, and the first is less. -/
def Less (a b : AnyFloat) : Prop :=
  match num a, num b with
  | some x, some y => x < y
  | _, _ => False

instance (a b : AnyFloat) : Decidable (Less a b) := by
  unfold Less
  split <;> infer_instance

/-- The subtree at an address (`false` is left, `true` is right). -/
def anySubtreeAt : AnyTree → List Bool → AnyTree
  | t, [] => t
  | .nil, _ :: _ => .nil
  | .node _ _ l r, b :: p => anySubtreeAt (if b then r else l) p

/-- The features take the way to the address: at each inner node on it, they go left exactly if the
node's feature is less than its threshold. -/
def anyGoes : AnyTree → List Bool → List AnyFloat → Prop
  | _, [], _ => True
  | .nil, _ :: _, _ => False
  | .node n thr l r, b :: p, f =>
    0 ≤ n.featureIdx ∧ (b = false ↔ Less (f.getD n.featureIdx.toNat (.fin 0)) thr) ∧
      anyGoes (if b then r else l) p f

instance instDecidableAnyGoes : ∀ t p f, Decidable (anyGoes t p f)
  | .nil, [], _ => .isTrue trivial
  | .node .., [], _ => .isTrue trivial
  | .nil, _ :: _, _ => .isFalse id
  | .node _ _ l r, b :: p, f =>
    have := instDecidableAnyGoes (if b then r else l) p f
    inferInstanceAs (Decidable (_ ∧ _ ∧ _))

/-- How many samples have class `c`. -/
def anyNumOf (xs : List AnySample) (c : ℤ) : ℕ := (xs.filter fun x => x.2 = c).length

/-- All features are numbers: there is no NaN, and finite ones are within the range of floats. -/
def Numeric (xs : List AnySample) : Prop :=
  ∀ x ∈ xs, ∀ v ∈ x.1, v ≠ .nan ∧ ∀ q, v = .fin q → |q| ≤ maxFloat

/-- The samples with a number beyond all floats in the place of an infinity. -/
def standInSamples (xs : List AnySample) : List Sample := xs.map fun x => (x.1.map standIn, x.2)

/-- The two trees are the same apart from their thresholds. -/
def SameButThresholds : AnyTree → Tree → Prop
  | .nil, .nil => True
  | .node n _ l r, .node n' l' r' =>
    n.gini = n'.gini ∧ n.numSamples = n'.numSamples ∧ n.predicted = n'.predicted ∧
      n.featureIdx = n'.featureIdx ∧ n.counts = n'.counts ∧
      SameButThresholds l l' ∧ SameButThresholds r r'
  | _, _ => False

/-- The thresholds of the first tree stand for those of the second. -/
def SameThresholds : AnyTree → Tree → Prop
  | .nil, .nil => True
  | .node _ thr l r, .node n' l' r' =>
    thr ≠ .nan ∧ standIn thr = n'.threshold ∧ SameThresholds l l' ∧ SameThresholds r r'
  | _, _ => False

/-- No feature is infinite. -/
def NoInfinity (xs : List AnySample) : Prop :=
  ∀ x ∈ xs, ∀ v ∈ x.1, v ≠ .posInf ∧ v ≠ .negInf

/-- No feature is the negative infinity, and any two different finite values of a feature are at least
`2^-21` apart relative to the larger of their magnitudes, which is between `2^-100` and `2^126`. -/
def AnySpaced (k : ℕ) (xs : List AnySample) : Prop :=
  ∀ i < k, ∀ x ∈ xs, ∀ y ∈ xs, x.1.getD i (.fin 0) ≠ .negInf ∧
    (Less (x.1.getD i (.fin 0)) (y.1.getD i (.fin 0)) → y.1.getD i (.fin 0) ≠ .posInf →
      2 ^ (-100 : ℤ) ≤ max |standIn (x.1.getD i (.fin 0))| |standIn (y.1.getD i (.fin 0))| ∧
      max |standIn (x.1.getD i (.fin 0))| |standIn (y.1.getD i (.fin 0))| ≤ 2 ^ (126 : ℤ) ∧
      max |standIn (x.1.getD i (.fin 0))| |standIn (y.1.getD i (.fin 0))| * 2 ^ (-21 : ℤ) ≤
        standIn (y.1.getD i (.fin 0)) - standIn (x.1.getD i (.fin 0)))

/-- A feature which the comparison of floats does not order: a NaN, and two numbers of which one is
less. -/
def Unordered (i : ℕ) (xs : List AnySample) : Prop :=
  (∃ x ∈ xs, x.1.getD i (.fin 0) = .nan) ∧
    ∃ x ∈ xs, ∃ y ∈ xs, Less (x.1.getD i (.fin 0)) (y.1.getD i (.fin 0))

end Apollo.Spec
