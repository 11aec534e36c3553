import Verif.Spec.AnyFloat

/-!
# Specification of answers for features that are any floats
-/

namespace Apollo.Spec

/-- The number in whose place a float stands when a tree compares it with thresholds: infinities are
beyond all finite floats, negative zero is zero, and NaN is at the place of the positive infinity. -/
def standIn : AnyFloat → ℚ
  | .fin q => q
  | .negZero => 0
  | .posInf => 2 ^ 128
  | .negInf => -2 ^ 128
  | .nan => 2 ^ 128

/-- The same features with every NaN replaced by the positive infinity. -/
def nanAsInf (f : List AnyFloat) : List AnyFloat := f.map fun x => if x = .nan then .posInf else x

end Apollo.Spec
