import Verif.Spec.Tree

/-!
# Specification: features between which there is room for a threshold
-/

namespace Apollo.Spec

/-- All features are floats of at most half the largest magnitude, and no two different values of a feature
are neighbours: between them lies another float. -/
def Roomy (k : ℕ) (xs : List Sample) : Prop :=
  ∀ i < k, ∀ x ∈ xs, Float32 (x.1.getD i 0) ∧ |x.1.getD i 0| ≤ maxFloat / 2 ∧
    ∀ y ∈ xs, x.1.getD i 0 < y.1.getD i 0 → ∃ m, Float32 m ∧ x.1.getD i 0 < m ∧ m < y.1.getD i 0

end Apollo.Spec
