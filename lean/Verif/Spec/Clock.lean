import Mathlib.Algebra.Order.Ring.Int

/-!
# Specification of CLOCK_MONOTONIC
-/

namespace Apollo.Spec

/-- A reading of `clock_gettime`: seconds and nanoseconds. -/
structure ClockOk (t : ℤ × ℤ) : Prop where
  sec : 0 ≤ t.1
  nano : 0 ≤ t.2
  nano_lt : t.2 < 10 ^ 9

/-- One reading is not after the other. -/
def ClockLe (a b : ℤ × ℤ) : Prop := a.1 < b.1 ∨ (a.1 = b.1 ∧ a.2 ≤ b.2)

/-- A clock that does not go back. -/
structure Monotonic (clock : ℕ → ℤ × ℤ) : Prop where
  ok : ∀ t, ClockOk (clock t)
  mono : ∀ s t, s ≤ t → ClockLe (clock s) (clock t)

end Apollo.Spec
