import Verif.Spec.Trace
import Verif.Model.Tables

/-!
# Specification of the input of the analysis scripts

Trace files of regions, and what it means that a script keeps the numbers in them.
-/

namespace Apollo.Spec

/-- The trace file of a region. -/
structure RegionTrace where
  rank : ℤ
  model : List Char
  region : List Char
  /-- number of features of the region -/
  nf : ℕ
  rows : List Row

/-- The text of a trace file. -/
def RegionTrace.text (F : RegionTrace) : List Char :=
  ((traceTable F.rank F.model F.region F.nf F.rows).map fun ws =>
    [' '].intercalate ws ++ ['\n']).flatten

/-- Names that cannot be taken for anything else in a table: they start with a letter, have no blanks and
no quotes, and are not a word for a missing value, an infinity, or a truth value. -/
def Ordinary (s : List Char) : Prop :=
  (∃ c l, s = c :: l ∧ c.isAlpha = true) ∧
  ' ' ∉ s ∧ '\n' ∉ s ∧ '\r' ∉ s ∧ '"' ∉ s ∧
  s.map Char.toLower ∉ ["n/a", "na", "null", "nan", "none", "inf", "infinity", "true", "false"].map
    String.toList

/-- A file as Apollo writes it for a region with an ordinary name: every row has the features of the
region. -/
structure RegionTrace.Wellformed (F : RegionTrace) : Prop where
  model : Ordinary F.model
  region : Ordinary F.region
  rank : |F.rank| < 2 ^ 31
  rows : ∀ x ∈ F.rows, x.features.length = F.nf ∧ x.index < 2 ^ 63 ∧
    -2 ^ 31 ≤ x.policy ∧ x.policy < 2 ^ 31

/-- A number that keeps its value when it is printed with six digits and read as a float. -/
def Keeps32 (q : ℚ) : Prop :=
  ∃ n k : ℤ, |n| ≤ 1000000 ∧ q = rnd32 (n * 10 ^ k) ∧
    (q = 0 ∨ 10 ^ (-37 : ℤ) ≤ |q| ∧ |q| ≤ 10 ^ (38 : ℤ))

/-- A number that keeps its value when it is printed with six digits and read as a double. -/
def Keeps64 (q : ℚ) : Prop :=
  ∃ n k : ℤ, |n| ≤ 1000000 ∧ q = rnd64 (n * 10 ^ k) ∧
    (q = 0 ∨ 10 ^ (-307 : ℤ) ≤ |q| ∧ |q| ≤ 10 ^ (308 : ℤ))

/-- Python keeps the number `v` that is in a table as `s`: it is read to nearest, and what is printed for
it is a decimal number with the value `v`. -/
structure Reprints (py : Scripts.Py) (s : List Char) (v : ℚ) : Prop where
  read : py.toDouble s = rnd64 v
  value : readDecimal (py.repr (rnd64 v)) = some (v, [])
  chars : ∀ c ∈ py.repr (rnd64 v), isDigit c = true ∨ c ∈ ['-', '+', '.', 'e']
  short : (py.repr (rnd64 v)).length < 63

/-- Python keeps the numbers of a trace file, which have at most six digits. -/
def RegionTrace.Kept (py : Scripts.Py) (F : RegionTrace) : Prop :=
  ∀ x ∈ F.rows, (∀ q ∈ x.features, Keeps32 q ∧ Reprints py (fmtG6 q) (round6 q)) ∧
    Keeps64 x.metric ∧ Reprints py (fmtG6 x.metric) (round6 x.metric)

/-- The measurements of a region in files, in order. -/
def measurements (fs : List RegionTrace) (r : List Char) : List Meas :=
  fs.flatMap fun F => if F.region = r then F.rows.map Row.meas else []

/-- The first of the measurements with the same features that have the least metric. -/
def IsFirstLeast (ms : List Meas) (x : Meas) : Prop :=
  ∃ pre post, ms = pre ++ x :: post ∧
    (∀ y ∈ pre, y.features = x.features → x.metric < y.metric) ∧
    ∀ y ∈ post, y.features = x.features → x.metric ≤ y.metric

/-- Python prints the `float64` `y` such that it is read back. -/
structure Prints (py : Scripts.Py) (y : ℚ) : Prop where
  value : ∃ v, readDecimal (py.repr y) = some (v, []) ∧ rnd64 v = y ∧
    (v = 0 ∨ 2 ^ (-1022 : ℤ) ≤ |y| ∧ |y| ≤ maxDouble)
  chars : ∀ c ∈ py.repr y, isDigit c = true ∨ c ∈ ['-', '+', '.', 'e']
  short : (py.repr y).length < 63

/-- The name of the dataset of a region. -/
def datasetName (r : List Char) : List Char := "Dataset-".toList ++ r ++ ".yaml".toList

/-- The first file is of a region with the most features. -/
def WidestFirst : List RegionTrace → Prop
  | [] => True
  | F :: fs => ∀ G ∈ fs, G.nf ≤ F.nf

/-- A region has the same features in all files. -/
def SameWidths (fs : List RegionTrace) : Prop :=
  ∀ F ∈ fs, ∀ G ∈ fs, F.region = G.region → F.nf = G.nf

/-- The executions of a region on a rank with an index, in all files. -/
def rowsAt (fs : List RegionTrace) (rank : ℤ) (r : List Char) (i : ℕ) : List Row :=
  fs.flatMap fun F =>
    if F.rank = rank ∧ F.region = r then F.rows.filter fun x => decide (x.index = i) else []

/-- The policy of one of the fastest executions with an index. -/
def BestAt (fs : List RegionTrace) (rank : ℤ) (r : List Char) (i : ℕ) (p : ℤ) : Prop :=
  ∃ x ∈ rowsAt fs rank r i, x.policy = p ∧ ∀ y ∈ rowsAt fs rank r i, x.metric ≤ y.metric

/-- The positions of numbers in the order of the numbers; equal numbers come in any order. -/
def Orders (order : List ℚ → List ℕ) : Prop :=
  ∀ l : List ℚ, (order l).Perm (List.range l.length) ∧
    ((order l).map fun i => l.getD i 0).Pairwise (· ≤ ·)

/-- The name of the file of the model Optimal. -/
def optimalName (rank : ℤ) (r : List Char) : List Char :=
  "opt-".toList ++ r ++ "-rank-".toList ++ fmtInt rank ++ ".txt".toList

end Apollo.Spec
