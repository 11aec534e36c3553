import Verif.Model.CreateDataset
import Mathlib.Data.List.Sort

/-!
# Model of analyze-traces.py: the option `--write-opt`

Source: src/python/analysis/analyze-traces.py.

For the traces of runs with the models `Static,policy=0`, `Static,policy=1`, … the script writes for
every region and rank the file that the model `Optimal` reads.  What it prints is in
`Verif.Model.AnalyzeReport`; the files of one rank do not depend on what is printed before.
-/

namespace Apollo.Scripts

/-- `drop_duplicates(by, keep='first')`: `seen` are the keys met so far. -/
def dropDuplicates (by_ : List Text) : List Record → List (List Cell) → List Record
  | [], _ => []
  | row :: rows, seen =>
    if by_.map row ∈ seen then dropDuplicates by_ rows seen
    else row :: dropDuplicates by_ rows (by_.map row :: seen)

/-- `sort_values(by=['xtime'])`, which need not be stable: `order` gives the positions of the numbers in
the order of the numbers. -/
def sortTimes (order : List ℚ → List ℕ) (rows : List Record) : Res (List Record) := do
  let xs ← column "xtime".toList rows
  .ok ((order xs).map fun i => rows.getD i fun _ => .nan)

/-- analyze-traces.py:230-234: the rows of a rank with the least time for each region and index. -/
def optimalRows (order : List ℚ → List ℕ) (data : Frame) (rank : ℤ) : Res (List Record) := do
  if "rankid".toList ∈ data.cols ∧ "xtime".toList ∈ data.cols ∧ "region".toList ∈ data.cols ∧
      "idx".toList ∈ data.cols ∧ "policy".toList ∈ data.cols then
    let rows ← sortTimes order
      (data.rows.filter fun row => decide (numOf (row "rankid".toList) = some (rank : ℚ)))
    .ok (dropDuplicates ["region".toList, "idx".toList] rows [])
  else .error .throw

/-- analyze-traces.py:234, 247: the policies of a region in the order of the indexes. -/
def Py.optimalPolicies (py : Py) (rows : List Record) (r : Cell) : Res (List Text) := do
  let mine := rows.filter fun row => decide (row "region".toList = r)
  let is ← column "idx".toList mine
  .ok (((is.zip mine).insertionSort fun a b => a.1 ≤ b.1).map fun p => py.str (p.2 "policy".toList))

/-- analyze-traces.py:246-249: the file of a region. -/
def Py.optimalFile (py : Py) (rows : List Record) (rank : ℤ) : Cell → Res (Text × Text)
  | .str r => do
    let ps ← py.optimalPolicies rows (.str r)
    .ok ("opt-".toList ++ r ++ "-rank-".toList ++ fmtInt rank ++ ".txt".toList, [','].intercalate ps)
  | _ => .error .unmodelled

/-- analyze-traces.py:24-33, 168-175, 230-249: the files written for a rank from the traces of the static
models.  The files of a region are independent of each other; the script writes them in any order. -/
def Py.writeOpt (py : Py) (order : List ℚ → List ℕ) (files : List Text) (rank : ℤ) :
    Res (List (Text × Text)) := do
  let data ← py.readTracefiles files
  let rows ← optimalRows order data rank
  (uniqueCells (rows.map (· "region".toList))).mapM (py.optimalFile rows rank)

end Apollo.Scripts
