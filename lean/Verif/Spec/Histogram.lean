import Verif.Spec.Report
import Verif.Model.Histogram

/-!
# Specification of the histograms of policies
-/

namespace Apollo.Spec

/-- How many of the executions had a policy. -/
def withPolicy (es : List (List Char × Row)) (p : ℕ) : ℕ := es.countP fun e => decide (e.2.policy = (p : ℤ))

/-- How many of the executions had each of `n` policies. -/
def tally (n : ℕ) (es : List (List Char × Row)) : List (ℚ × ℕ) :=
  (List.range n).map fun k : ℕ => ((k : ℚ), withPolicy es k)

/-- The same, but the policy `n` counts for the last of the `n` policies. -/
def tallyUpTo (n : ℕ) (es : List (List Char × Row)) : List (ℚ × ℕ) :=
  (List.range n).map fun k : ℕ => ((k : ℚ), withPolicy es k + if k + 1 = n then withPolicy es n else 0)

/-- The models that are analysed, with the executions that count for them. -/
def analysedHits (runs : Runs) (rank : ℤ) : List (List Char × List (List Char × Row)) :=
  (runs.rr.toList.map fun fs => ("RoundRobin".toList, hitsOf rank "DecisionTree".toList fs)) ++
  (runs.random.toList.map fun fs => ("Random".toList, hitsOf rank "DecisionTree".toList fs)) ++
  (runs.load.toList.map fun fs => ("Load".toList, hitsOf rank "Load".toList fs)) ++
  (runs.opt.toList.map fun fs => ("Optimal".toList, hitsOf rank "Optimal".toList fs))

end Apollo.Spec
