import Mathlib.Data.Rat.Defs
import Mathlib.Algebra.Order.Field.Rat
import Mathlib.Order.WithBot
import Mathlib.Data.List.Lex

/-!
# Specification of the measurement store for features that are any floats
-/

namespace Apollo

/-- A value of type `float`: a finite one, where zero is the positive zero, or a special one. -/
inductive AnyFloat
  | fin (q : ℚ)
  | negZero
  | posInf
  | negInf
  | nan
  deriving DecidableEq

end Apollo

namespace Apollo.Spec

/-- The number which a float stands for: none for NaN; `⊥` and `⊤` are the infinities. -/
def num : AnyFloat → Option (WithBot (WithTop ℚ))
  | .fin q => some ((q : WithTop ℚ) : WithBot (WithTop ℚ))
  | .negZero => some (((0 : ℚ) : WithTop ℚ) : WithBot (WithTop ℚ))
  | .posInf => some ((⊤ : WithTop ℚ) : WithBot (WithTop ℚ))
  | .negInf => some ⊥
  | .nan => none

/-- The features are the same: all elements stand for the same numbers, or both are NaN. -/
def SameFeatures (f g : List AnyFloat) : Prop := f.map num = g.map num

instance (f g : List AnyFloat) : Decidable (SameFeatures f g) :=
  inferInstanceAs (Decidable (f.map num = g.map num))

/-- A measurement with any features: features, policy, metric. -/
abbrev AnyMeas := List AnyFloat × ℤ × ℚ

/-- The metrics measured for features and a policy, in order. -/
def anyMetricsOf (h : List AnyMeas) (f : List AnyFloat) (p : ℤ) : List ℚ :=
  (h.filter fun x => SameFeatures x.1 f ∧ x.2.1 = p).map fun x => x.2.2

/-- The numbers of features without NaNs. -/
def numbers (f : List AnyFloat) : List (WithBot (WithTop ℚ)) := f.map fun x => (num x).getD ⊥

end Apollo.Spec
