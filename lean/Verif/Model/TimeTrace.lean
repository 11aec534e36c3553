import Verif.Model.Region

/-!
# Model of the time trace of a block

Source: src/helpers/TimeTrace.h.

Simplification: the two readings of the clock are given.
-/

namespace Apollo

/-- `std::fixed << std::setprecision(0)`: the number rounded to an integer (ties to even), with its sign. -/
def fixed0 (x : ℚ) : Str := (if x < 0 then ['-'] else []) ++ natDigits (roundEven x).natAbs

/-- TimeTrace.h:23-35: what the destructor prints, given the readings of the clock in the constructor and
in the destructor. -/
def timeTrace (ref : Str) (start stop : ℤ × ℤ) : Str :=
  let duration := rnd64 (seconds stop - seconds start)
  "=== T ref ".toList ++ ref ++ " = ".toList ++ fixed0 (rnd64 (duration * 10 ^ 6)) ++ " us\n".toList

end Apollo
