import Verif.Spec.PolicyLines
import Verif.Spec.Dataset

/-!
# What the files of the best policies say

APOLLO_TRACE_BEST_POLICIES writes a file for each training of a region.
-/

namespace Apollo.Spec

open Apollo

/-- The words of the line for features. -/
def bestWords (features : List ℤ) (p : ℤ) (x : ℚ) : List Str :=
  "[".toList :: features.map (fun n => fmtInt n ++ [',']) ++
    ["]".toList, "P:".toList ++ fmtInt p, "T:".toList, fmtG6 x]

/-- The line for features with their best policy and its metric. -/
def IsBestLine (b : List ℚ × ℤ × ℚ) (s : Str) : Prop :=
  ∃ ns, List.Forall₂ IsTrunc b.1 ns ∧ s = [' '].intercalate (bestWords ns b.2.1 b.2.2) ++ ['\n']

/-- The best policies of the entries `E`, in the order of the features. -/
structure IsBestList (E bs : List (List ℚ × ℤ × ℚ)) : Prop where
  sorted : (bs.map Prod.fst).Pairwise (· < ·)
  features : ∀ f, f ∈ bs.map Prod.fst ↔ ∃ p m, (f, p, m) ∈ E
  entry : ∀ b ∈ bs, b ∈ E
  best : ∀ b ∈ bs, IsBest E b.1 b.2.1

/-- The text for the entries of a region. -/
def IsBestText (rank : ℤ) (region : Str) (E : List (List ℚ × ℤ × ℚ)) (s : Str) : Prop :=
  ∃ bs ls, IsBestList E bs ∧ List.Forall₂ IsBestLine bs ls ∧
    s = [' '].intercalate ["===".toList, "Rank".toList, fmtInt rank, "BEST".toList, "POLICIES".toList,
      "Region".toList, region, "===".toList] ++ ['\n'] ++ ls.flatten

/-- Where the best policies are written in a step of training. -/
def bestFile (rank step : ℤ) (region : Str) : Str :=
  "step-".toList ++ fmtInt step ++ "-rank-".toList ++ fmtInt rank ++ "-".toList ++ region ++
    "-best_policies.txt".toList

end Apollo.Spec
