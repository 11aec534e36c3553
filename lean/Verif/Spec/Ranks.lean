import Verif.Spec.PolicyLines
import Verif.Num.Bits

/-!
# Specification: several ranks
-/

namespace Apollo.Spec

open Apollo

variable {M : Type}

/-- The metric a process holds for features and policy in the registered region of the given name. -/
def holds (w : World M) (n : Str) (f : Features) (p : ℤ) : Option ℚ :=
  (OMap.find w.registry n).bind fun r => (w.regions r).bind fun R => OMap.find R.dataset (mkKey f p)

/-- What can be sent to other ranks: names that fit the message, numbers that are values of their
types, and as many features as the region has. -/
structure Fit (w : World M) : Prop where
  data : ∀ n r R, (n, r) ∈ w.registry → w.regions r = some R → OMap.Sorted R.dataset
  name : ∀ n r, (n, r) ∈ w.registry → n.length ≤ 63 ∧ nul ∉ n
  count : ∀ n r R, (n, r) ∈ w.registry → w.regions r = some R →
    0 ≤ R.numFeatures ∧ R.numFeatures < 2 ^ 31
  features : ∀ n r R f p m, (n, r) ∈ w.registry → w.regions r = some R →
    OMap.find R.dataset (mkKey f p) = some m →
    (f.length : ℤ) = R.numFeatures ∧ (∀ x ∈ f, fmt32.Finite x) ∧ (-2 ^ 31 ≤ p ∧ p < 2 ^ 31) ∧
      fmt64.Finite m

/-- How often a program calls `Apollo::train`. -/
def trainings : List Op → ℕ
  | [] => 0
  | .trainAll _ _ :: ops => trainings ops + 1
  | _ :: ops => trainings ops

/-- A measurement a rank holds. -/
structure Held where
  rank : ℤ
  name : Str
  features : Features
  policy : ℤ
  metric : ℚ
  deriving DecidableEq

/-- The words of a line in the trace of APOLLO_TRACE_ALLGATHER. -/
def gatherWords (h : Held) (features : List ℤ) : List Str :=
  [fmtInt h.rank ++ [','], h.name ++ [','], ['[']] ++ features.map (fun n => fmtInt n ++ [',']) ++
    [[']', ','], fmtInt h.policy ++ [','], fmtG6 h.metric]

/-- The line for a measurement. -/
def IsGatherLine (h : Held) (s : Str) : Prop :=
  ∃ ns, List.Forall₂ IsTrunc h.features ns ∧ s = [' '].intercalate (gatherWords h ns) ++ ['\n']

/-- The first line. -/
def gatherHeader : Str := "rank, region_name, features, policy, time_avg\n".toList

/-- Where the trace is. -/
def gatherFile (step rank : ℤ) : Str :=
  "step-".toList ++ fmtInt step ++ "-rank-".toList ++ fmtInt rank ++ "-allgather.txt".toList

end Apollo.Spec
