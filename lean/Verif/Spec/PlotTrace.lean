import Verif.Spec.Scripts

/-!
# Specification of the picture of a trace
-/

namespace Apollo.Spec

/-- The values in ascending order, each once. -/
structure Ascending (l xs : List ℚ) : Prop where
  sorted : l.Pairwise (· < ·)
  mem : ∀ x, x ∈ l ↔ x ∈ xs

/-- The first feature of an execution. -/
def firstFeature (x : Row) : ℚ := x.features.headD 0

/-- The times of the executions with a feature and a policy. -/
def timesWith (rows : List Row) (feature policy : ℚ) : List ℚ :=
  (rows.filter fun x => decide (firstFeature x = feature ∧ (x.policy : ℚ) = policy)).map Row.metric

/-- The text shows the number, with two digits after the point. -/
def ShowsRounded (s : List Char) (q : ℚ) : Prop :=
  ∃ v, readDecimal s = some (v, []) ∧ |v - q| ≤ 1 / 200

/-- The label of a bar: `0` without executions, otherwise the mean of the times in the unit, up to the
rounding of the last of the two digits and of the product. -/
def Labelled (mean : List ℚ → ℚ) (unit : ℚ) (times : List ℚ) (s : List Char) : Prop :=
  (times = [] → s = ['0']) ∧
    (times ≠ [] → ∃ v, readDecimal s = some (v, []) ∧
      |v - mean times / unit| ≤ 1 / 100 + |mean times / unit| / 2 ^ 53)

/-- The bars of a chart: a group for every feature and in it a bar for every policy, the label of which
belongs to the times of the executions with the feature and the policy. -/
def Charts (label : List ℚ → List Char → Prop) (rows : List Row) (bars : List (List (List Char))) : Prop :=
  ∃ fs ps, Ascending fs (rows.map firstFeature) ∧ Ascending ps (rows.map fun x => (x.policy : ℚ)) ∧
    List.Forall₂ (fun f group => List.Forall₂ (fun p s => label (timesWith rows f p) s) ps group) fs bars

/-- Region.cpp:384-387: the name of the trace of a region, in the directory of traces. -/
def traceFile (info region : List Char) (rank : ℤ) : List Char :=
  "trace-".toList ++ info ++ "-region-".toList ++ region ++ "-rank-".toList ++ fmtInt rank ++ ".csv".toList

end Apollo.Spec
