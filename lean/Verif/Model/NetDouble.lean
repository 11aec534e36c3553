import Verif.Model.Net
import Verif.Num.Round

/-!
# Arithmetic of `double` for the network
-/

namespace Apollo

/-- `double` as finite rationals: the four operations are rounded correctly, the functions of the
mathematical library are parameters.  Overflow, infinities and NaN are not
modelled; division by zero gives 0 here.  As in Verif.Model.NetReal a zero whose sign bit is asked is the
negation of `+0.0`. -/
@[reducible] def doubleArith (exp sqrt : ℚ → ℚ) (pow : ℚ → ℤ → ℚ) : Arith ℚ where
  ofRat := rnd64
  add a b := rnd64 (a + b)
  sub a b := rnd64 (a - b)
  mul a b := rnd64 (a * b)
  div a b := rnd64 (a / b)
  neg a := -a
  lt a b := decide (a < b)
  exp := exp
  sqrt := sqrt
  pow := pow
  signbit a := decide (a ≤ 0)

end Apollo
