import Verif.Spec.Region
import Verif.Num.Decimal

/-!
# Specification of trace files

A trace is a table in text form: one line per row, columns separated by one blank.
-/

namespace Apollo.Spec

/-- The columns of the first line, for regions with `nf` features. -/
def headerColumns (nf : ℕ) : List (List Char) :=
  ["rankid".toList, "training".toList, "region".toList, "idx".toList] ++
    (List.range nf).map (fun i : ℕ => 'f' :: fmtInt i) ++ ["policy".toList, "xtime".toList]

/-- The columns for one execution. -/
def rowColumns (rank : ℤ) (model region : List Char) (x : Row) : List (List Char) :=
  [fmtInt rank, model, region, fmtInt x.index] ++ x.features.map fmtG6 ++
    [fmtInt x.policy, fmtG6 x.metric]

/-- The table of a region. -/
def traceTable (rank : ℤ) (model region : List Char) (nf : ℕ) (rows : List Row) :
    List (List (List Char)) :=
  headerColumns nf :: rows.map (rowColumns rank model region)

/-- The columns of a line. -/
def columns (line : List Char) : List (List Char) := line.splitOn ' '

/-- The lines of a text, each ended by a line feed. -/
def lines (s : List Char) : List (List Char) := (s.splitOn '\n').dropLast

/-- The table in a text. -/
def readTable (s : List Char) : List (List (List Char)) := (lines s).map columns

end Apollo.Spec
