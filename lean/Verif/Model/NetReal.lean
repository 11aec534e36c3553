import Verif.Model.Net
import Mathlib.Analysis.SpecialFunctions.Exp
import Mathlib.Analysis.SpecialFunctions.Pow.Real

/-!
# Exact real arithmetic for the network
-/

namespace Apollo

open Classical in
/-- The operations of src/models/PolicyNet.cpp in exact arithmetic.  There is one zero.  The
sign bit is only asked of negated sums; these sums start at `+0.0` and are therefore never `-0.0`, so
the negation of a zero is `-0.0`, whose sign bit is set. -/
noncomputable instance : Arith ℝ where
  ofRat q := (q : ℝ)
  add := (· + ·)
  sub := (· - ·)
  mul := (· * ·)
  div := (· / ·)
  neg := (- ·)
  lt a b := decide (a < b)
  exp := Real.exp
  sqrt := Real.sqrt
  pow a n := a ^ n
  signbit a := decide (a ≤ 0)

end Apollo
