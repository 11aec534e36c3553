import Verif.Base.OMap
import Verif.Num.Round

/-!
# Specification of the measurement store

Independent of the dataset model: a history is the list of measurements given to the store, in order.
-/

namespace Apollo.Spec

/-- A measurement: features, policy, metric. -/
structure Meas where
  features : List ℚ
  policy : ℤ
  metric : ℚ
  deriving DecidableEq

/-- The metrics measured for a pair, in order. -/
def metricsOf (h : List Meas) (f : List ℚ) (p : ℤ) : List ℚ :=
  (h.filter (fun x => x.features = f ∧ x.policy = p)).map Meas.metric

/-- Half-and-half average in double arithmetic, operation by operation. -/
def halfHalf (a b : ℚ) : ℚ := rnd64 (rnd64 (a / 2) + rnd64 (b / 2))

/-- The correctly rounded mean of two doubles. -/
def roundedMean (a b : ℚ) : ℚ := rnd64 ((a + b) / 2)

/-- First value as is, every later value averaged in. -/
def runningAverage (avg : ℚ → ℚ → ℚ) : List ℚ → Option ℚ
  | [] => none
  | m :: ms => some (ms.foldl avg m)

/-- The policy `p` is the best one measured for features `f` among the entries `E` (features, policy,
metric): it has the least metric, and the least number among policies with that metric. -/
def IsBest (E : List (List ℚ × ℤ × ℚ)) (f : List ℚ) (p : ℤ) : Prop :=
  ∃ m, (f, p, m) ∈ E ∧ ∀ p' m', (f, p', m') ∈ E → m < m' ∨ (m = m' ∧ p ≤ p')

/-- Strictly increasing: features lexicographically, then policy. -/
def KeyLt (a b : List ℚ × ℤ) : Prop := a.1 < b.1 ∨ (a.1 = b.1 ∧ a.2 < b.2)

/-- A metric for which halving is exact: a double that is zero or at least 2^-1021 in magnitude. -/
def NormalMetric (m : ℚ) : Prop := Float64 m ∧ (m = 0 ∨ 2 ^ (-1021 : ℤ) ≤ |m|)

end Apollo.Spec
