import Mathlib.Data.Nat.Cast.Order.Field
import Verif.Spec.AnyFloat

/-!
# Specification of features that are truncated to whole numbers
-/

namespace Apollo.Spec

/-- Without its fraction the float is the natural number `n`, of at most 64 bits. -/
def Truncates (v : AnyFloat) (n : ℕ) : Prop :=
  v = .negZero ∧ n = 0 ∨
    ∃ q, v = .fin q ∧ (n < 2 ^ 64 ∧ (n : ℚ) ≤ q ∧ q < n + 1 ∨ n = 0 ∧ -1 < q ∧ q < 0)

end Apollo.Spec
