import Verif.Model.AnalyzeTraces
import Mathlib.Data.Prod.Lex
import Mathlib.Data.List.Lex
import Mathlib.Data.Char

/-!
# Model of analyze-traces.py: execution times, speedups, and accuracies

Source: src/python/analysis/analyze-traces.py.

For every rank the script reports the time of each static policy, the time of the optimal choice, the
speedups of the optimal choice, and for traces of other models how many executions had the optimal policy.

Simplifications: the contents of the files are given (`glob` is not modelled), and only finite numbers are
(an overflow or a missing time is outside of the model).  How Python adds numbers is a parameter: since
version 3.12 `sum` compensates for rounding errors of floats, before it does not.  What is printed is
the result; for histograms see `Verif.Model.Histogram`, for plots `Verif.Model.AnalyzePlot`.
-/

namespace Apollo.Scripts

/-- The contents of the trace files that the script reads: for every static policy those matching
`trace*Static,policy=<p>-*.csv`, and those of other models if their options are given. -/
structure Traces where
  static : List (List Text)
  rr : Option (List Text) := none
  random : Option (List Text) := none
  load : Option (List Text) := none
  opt : Option (List Text) := none

/-- analyze-traces.py:38-41, 46-49: the times of a model on a rank. -/
def timesOf (data : Frame) (rank : ℤ) (model : Text) : Res (List ℚ) :=
  if "rankid".toList ∈ data.cols ∧ "training".toList ∈ data.cols ∧ "xtime".toList ∈ data.cols then
    column "xtime".toList (data.rows.filter fun row =>
      decide (numOf (row "rankid".toList) = some (rank : ℚ) ∧ row "training".toList = .str model))
  else .error .throw

/-- analyze-traces.py:36-59: the time with the initial model, and with the trained model if there is one
(otherwise it counts 0). -/
def executionTime (sum : List ℚ → ℚ) (data : Frame) (rank : ℤ) (init : Text) (trained : Option Text) :
    Res (ℚ × Option ℚ) := do
  let xs ← timesOf data rank init
  match trained with
  | none => .ok (sum xs, none)
  | some t => do
    let ys ← timesOf data rank t
    .ok (sum xs, some (sum ys))

/-- `sum(xtime_per_pol[k])`. -/
def total (sum : List ℚ → ℚ) : ℚ × Option ℚ → ℚ
  | (x, none) => x
  | (x, some y) => sum [x, y]

/-- The quotient of two times; `ZeroDivisionError` if the second is zero. -/
def quotient (x y : ℚ) : Res ℚ := if y = 0 then .error .throw else .ok (rnd64 (x / y))

/-- The region and the index of a row. -/
def placeKey (row : Record) : Res (Text ×ₗ ℚ) :=
  match row "region".toList, numOf (row "idx".toList) with
  | .str r, some i => .ok (toLex (r, i))
  | _, _ => .error .unmodelled

/-- analyze-traces.py:233-234: `set_index(['region', 'idx']).sort_index()`. -/
def sortIndex (rows : List Record) : Res (List Record) := do
  let ks ← rows.mapM placeKey
  .ok (((ks.zip rows).insertionSort fun a b => a.1 ≤ b.1).map Prod.snd)

/-- analyze-traces.py:230-234: the table of the optimal choice. -/
def optimalTable (order : List ℚ → List ℕ) (data : Frame) (rank : ℤ) : Res (List Record) := do
  let rows ← optimalRows order data rank
  sortIndex rows

/-- Two rows have the same region and index. -/
def sameIndex (a b : Record) : Bool :=
  decide (a "region".toList = b "region".toList ∧ a "idx".toList = b "idx".toList)

/-- analyze-traces.py:95: the row has the optimal policy. -/
def matchesOpt (opt : List Record) (row : Record) : Bool :=
  match opt.find? (sameIndex row) with
  | none => false
  | some o => decide (o "policy".toList = row "policy".toList)

/-- analyze-traces.py:120-123: the time differs by at most 10% from the optimal time.  Nothing is at most
10% of zero: the quotient is infinite or not a number. -/
def nearOpt (opt : List Record) (row : Record) : Bool :=
  match opt.find? (sameIndex row) with
  | none => false
  | some o =>
    match numOf (o "xtime".toList), numOf (row "xtime".toList) with
    | some a, some b => decide (a ≠ 0 ∧ rnd64 (rnd64 (|rnd64 (a - b)| * 100) / a) ≤ 10)
    | _, _ => false

/-- analyze-traces.py:81-135: how many rows have the optimal policy, how many have it or are near the
optimal time, and how many there are.  Rows at a place with a matching row are not tried again. -/
def accuracy (data : Frame) (rank : ℤ) (opt : List Record) (trained : Text) : Res (ℕ × ℕ × ℕ) :=
  if "rankid".toList ∈ data.cols ∧ "training".toList ∈ data.cols ∧ "region".toList ∈ data.cols ∧
      "idx".toList ∈ data.cols ∧ "policy".toList ∈ data.cols ∧ "xtime".toList ∈ data.cols then
    let rows := data.rows.filter fun row => decide (numOf (row "rankid".toList) = some (rank : ℚ)) &&
      (match row "training".toList with | .str s => decide (trained <:+: s) | _ => false)
    let nmatch := (rows.filter (matchesOpt opt)).length
    let rest := rows.filter fun row => !(rows.filter (matchesOpt opt)).any fun row' => sameIndex row' row
    .ok (nmatch, if nmatch < rows.length then (rest.filter (nearOpt opt)).length + nmatch else nmatch,
      rows.length)
  else .error .throw

/-- What is reported for a rank. -/
structure Report where
  /-- `xtime_per_pol` without the entry `Opt`, in the order of insertion -/
  times : List (Text × ℚ × Option ℚ)
  /-- the time of the optimal choice -/
  opt : ℚ
  /-- the fastest static policy -/
  best : Text
  /-- for `Opt`, `RoundRobin`, `Random`: the speedup over the policy 0, and over the fastest -/
  speedups : List (Text × ℚ × ℚ)
  /-- for the other models: see `accuracy` -/
  accuracies : List (Text × ℕ × ℕ × ℕ)
  deriving DecidableEq

/-- The name of a static policy in the column `training`. -/
def staticName (j : ℕ) : Text := "Static,".toList ++ fmtInt j

/-- analyze-traces.py:253-254: the first of the entries with the least time. -/
def minTime : List (Text × ℚ) → Res Text
  | [] => .error .throw
  | x :: l => .ok ((x :: l).getD (idxmin ((x :: l).map Prod.snd)) x).1

/-- analyze-traces.py:62-78. -/
def speedup (sum : List ℚ → ℚ) (times : List (Text × ℚ × Option ℚ)) (best : Text) (x : ℚ) :
    Res (ℚ × ℚ) := do
  match times.lookup (staticName 0), times.lookup best with
  | some t0, some tb => do
    let a ← quotient (total sum t0) x
    let b ← quotient (total sum tb) x
    .ok (a, b)
  | _, _ => .error .throw

/-- analyze-traces.py:178-180 and similar: the table of the files of an option. -/
def Py.readOption (py : Py) : Option (List Text) → Res (Option Frame)
  | none => .ok none
  | some files => do
    let f ← py.readTracefiles files
    .ok (some f)

/-- analyze-traces.py:205-219: the entry of an option. -/
def optionTime (sum : List ℚ → ℚ) (data : Option Frame) (rank : ℤ) (init : Text) (trained : Option Text) :
    Res (List (Text × ℚ × Option ℚ)) :=
  match data with
  | none => .ok []
  | some f => do
    let t ← executionTime sum f rank init trained
    .ok [(init, t)]

/-- analyze-traces.py:260-263: the speedups of an option. -/
def optionSpeedup (sum : List ℚ → ℚ) (times : List (Text × ℚ × Option ℚ)) (best : Text) :
    List (Text × ℚ × Option ℚ) → Res (List (Text × ℚ × ℚ))
  | [] => .ok []
  | (k, t) :: l => do
    let s ← speedup sum times best (total sum t)
    let ss ← optionSpeedup sum times best l
    .ok ((k, s) :: ss)

/-- analyze-traces.py:269-284: the accuracy of an option. -/
def optionAccuracy (data : Option Frame) (rank : ℤ) (opt : List Record) (init trained : Text) :
    Res (List (Text × ℕ × ℕ × ℕ)) :=
  match data with
  | none => .ok []
  | some f => do
    let a ← accuracy f rank opt trained
    .ok [(init, a)]

/-- analyze-traces.py:166-284: the report of a rank.  (The script reads the files once and then reports for
one rank after the other.) -/
def Py.report (py : Py) (order : List ℚ → List ℕ) (sum : List ℚ → ℚ) (traces : Traces) (rank : ℤ) :
    Res Report := do
  let data ← py.readTracefiles traces.static.flatten
  let rr ← py.readOption traces.rr
  let random ← py.readOption traces.random
  let load ← py.readOption traces.load
  let opt ← py.readOption traces.opt
  let statics ← (List.range traces.static.length).mapM fun j => do
    let t ← executionTime sum data rank (staticName j) none
    .ok (staticName j, t)
  let rrTime ← optionTime sum rr rank "RoundRobin".toList (some "DecisionTree".toList)
  let randomTime ← optionTime sum random rank "Random".toList (some "DecisionTree".toList)
  let loadTime ← optionTime sum load rank "Load".toList none
  let optTime ← optionTime sum opt rank "Optimal".toList none
  let table ← optimalTable order data rank
  let xs ← column "xtime".toList table
  let best ← minTime (statics.map fun e => (e.1, e.2.1))
  let s ← speedup sum statics best (sum xs)
  let ss ← optionSpeedup sum statics best (rrTime ++ randomTime)
  let a1 ← optionAccuracy rr rank table "RoundRobin".toList "DecisionTree".toList
  let a2 ← optionAccuracy random rank table "Random".toList "DecisionTree".toList
  let a3 ← optionAccuracy load rank table "Load".toList "Load".toList
  let a4 ← optionAccuracy opt rank table "Optimal".toList "Optimal".toList
  .ok ⟨statics ++ rrTime ++ randomTime ++ loadTime ++ optTime, sum xs, best, ("Opt".toList, s) :: ss,
    a1 ++ a2 ++ a3 ++ a4⟩

end Apollo.Scripts
