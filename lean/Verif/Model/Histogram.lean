import Verif.Model.AnalyzeReport

/-!
# Model of analyze-traces.py: the histograms of policies

Source: src/python/analysis/analyze-traces.py:104-110.

With the accuracy of a model the script prints how often each policy was optimal, and how often the model chose it.
-/

namespace Apollo.Scripts

/-- `np.histogram(xs, bins=edges)`: the left edge of each bin, and how many numbers are in it.  A bin is open on the
right, except for the last one. -/
def npHistogram (xs : List ℚ) : List ℚ → List (ℚ × ℕ)
  | a :: b :: [] => [(a, xs.countP fun x => decide (a ≤ x ∧ x ≤ b))]
  | a :: b :: edges => (a, xs.countP fun x => decide (a ≤ x ∧ x < b)) :: npHistogram xs (b :: edges)
  | _ => []

/-- `np.arange(n)`. -/
def arange (n : ℕ) : List ℚ := (List.range n).map fun k : ℕ => (k : ℚ)

/-- analyze-traces.py:83-90, 104-110: the two histograms for a model; `npolicies` is the number of static policies and
one (lines 273-284). -/
def modelHistograms (nstatic : ℕ) (data : Frame) (rank : ℤ) (opt : List Record) (trained : Text) :
    Res (List (ℚ × ℕ) × List (ℚ × ℕ)) :=
  if "rankid".toList ∈ data.cols ∧ "training".toList ∈ data.cols ∧ "region".toList ∈ data.cols ∧
      "idx".toList ∈ data.cols ∧ "policy".toList ∈ data.cols ∧ "xtime".toList ∈ data.cols then do
    let rows := data.rows.filter fun row => decide (numOf (row "rankid".toList) = some (rank : ℚ)) &&
      (match row "training".toList with | .str s => decide (trained <:+: s) | _ => false)
    let ps ← column "policy".toList opt
    let qs ← column "policy".toList rows
    .ok (npHistogram ps (arange (nstatic + 1)), npHistogram qs (arange (nstatic + 1)))
  else .error .throw

/-- analyze-traces.py:269-284: the histograms of an option. -/
def optionHistograms (nstatic : ℕ) (data : Option Frame) (rank : ℤ) (opt : List Record) (init trained : Text) :
    Res (List (Text × List (ℚ × ℕ) × List (ℚ × ℕ))) :=
  match data with
  | none => .ok []
  | some f => do
    let h ← modelHistograms nstatic f rank opt trained
    .ok [(init, h)]

/-- analyze-traces.py:166-284: the histograms printed for a rank.  (They are printed if the report gets that far, see
`Py.report`.) -/
def Py.histograms (py : Py) (order : List ℚ → List ℕ) (traces : Traces) (rank : ℤ) :
    Res (List (Text × List (ℚ × ℕ) × List (ℚ × ℕ))) := do
  let data ← py.readTracefiles traces.static.flatten
  let rr ← py.readOption traces.rr
  let random ← py.readOption traces.random
  let load ← py.readOption traces.load
  let opt ← py.readOption traces.opt
  let table ← optimalTable order data rank
  let n := traces.static.length
  let h1 ← optionHistograms n rr rank table "RoundRobin".toList "DecisionTree".toList
  let h2 ← optionHistograms n random rank table "Random".toList "DecisionTree".toList
  let h3 ← optionHistograms n load rank table "Load".toList "Load".toList
  let h4 ← optionHistograms n opt rank table "Optimal".toList "Optimal".toList
  .ok (h1 ++ h2 ++ h3 ++ h4)

end Apollo.Scripts
