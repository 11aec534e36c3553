import Verif.Spec.Clock
import Mathlib.Algebra.Order.Field.Rat
import Mathlib.Algebra.Field.Rat

/-!
# Elapsed time
-/

namespace Apollo.Spec

/-- The time of a reading in seconds. -/
def exactly (t : ℤ × ℤ) : ℚ := t.1 + t.2 / 10 ^ 9

/-- The time between two readings in seconds. -/
def between (a b : ℤ × ℤ) : ℚ := exactly b - exactly a

/-- How far a time measured with readings below `2 ^ k` seconds may be off. -/
def offBy (k : ℕ) : ℚ := 3 * 2 ^ k / 2 ^ 54 + 1 / 2 ^ 53

end Apollo.Spec
