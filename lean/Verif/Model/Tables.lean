import Verif.Model.Dataset
import Verif.Num.Decimal

/-!
# Tables of the analysis scripts

The Python scripts under src/python read trace files with `pandas`.  This is the part of `pandas` that
they use: reading a table from a text with columns separated by one blank, joining tables, dropping
columns, and grouping rows.

Simplifications: fields with quotes, names of truth values and of infinities, integers of more than 64
bits, repeated or empty column names, and lines with more fields than the first line are outside of the
model (`unmodelled`).  Reading a decimal number, printing a number of type `float64`, and the mean of a
column are parameters (`Py`): `pandas` does not promise to read decimal numbers to nearest.
-/

namespace Apollo

/-- A string. -/
abbrev Text := List Char

namespace Scripts

/-- A cell of a table. -/
inductive Cell
  | nan
  | int (v : ℤ)
  | flt (x : ℚ)
  | str (s : Text)
  deriving DecidableEq

/-- The parts of Python and `pandas` that are not fixed here. -/
structure Py where
  /-- the value of a decimal number in a table, as `float64` -/
  toDouble : Text → ℚ
  /-- `str(x)` of a `float64` -/
  repr : ℚ → Text
  /-- `Series.mean` -/
  mean : List ℚ → ℚ
  /-- how the name of a group is printed when there is a single key: `none` if the name is the key
  (`pandas` before 2.0), otherwise the text of the tuple with the one given element -/
  single : Option (Text → Text) := none

/-- `str(c)`. -/
def Py.str (py : Py) : Cell → Text
  | .nan => "nan".toList
  | .int v => fmtInt v
  | .flt x => py.repr x
  | .str s => s

/-- The texts that `pandas.read_csv` takes for a missing value. -/
def naTexts : List Text :=
  ["", "#N/A", "#N/A N/A", "#NA", "-1.#IND", "-1.#QNAN", "-NaN", "-nan", "1.#IND", "1.#QNAN", "<NA>",
    "N/A", "NA", "NULL", "NaN", "None", "n/a", "nan", "null"].map String.toList

/-- The field is a missing value. -/
def isNa (s : Text) : Bool := decide (s ∈ naTexts)

/-- The field is an integer. -/
def isInt (s : Text) : Bool := !(readSign s).2.isEmpty && (readSign s).2.all isDigit

/-- The value of an integer field. -/
def intValue (s : Text) : ℤ :=
  if (readSign s).1 then -(valDigits (readSign s).2 : ℤ) else valDigits (readSign s).2

/-- The field is a number. -/
def isNumber (s : Text) : Bool :=
  match readDecimal s with
  | some (_, []) => true
  | _ => false

/-- The field is outside of the model. -/
def isOdd (s : Text) : Bool :=
  s.contains '"' || s.contains '\r' || decide (s.map Char.toLower ∈
    ["inf", "+inf", "-inf", "infinity", "+infinity", "-infinity", "true", "false"].map String.toList) ||
  (isInt s && decide (2 ^ 63 ≤ |intValue s|))

/-- The type of a column. -/
inductive Kind
  | int
  | flt
  | str
  deriving DecidableEq

/-- The type `pandas.read_csv` finds for a column with the given fields. -/
def kindOf (col : List Text) : Kind :=
  if col.all isInt then .int
  else if col.all (fun s => isNa s || isNumber s) then .flt
  else .str

/-- The cell of a field in a column of a type. -/
def Py.cell (py : Py) : Kind → Text → Cell
  | .int, s => .int (intValue s)
  | .flt, s => if isNa s then .nan else .flt (py.toDouble s)
  | .str, s => if isNa s then .nan else .str s

/-- A row: the cell of every column, `nan` for columns that the table does not have. -/
abbrev Record := Text → Cell

/-- A table (`pandas.DataFrame`). -/
structure Frame where
  cols : List Text
  rows : List Record

/-- The field of a row in column `j`: missing fields at the end are empty. -/
def field (row : List Text) (j : ℕ) : Text := row.getD j []

/-- The position of a column. -/
def position (cols : List Text) (c : Text) : Option ℕ := cols.findIdx? (· == c)

/-- The table with the given column names and fields. -/
def Py.frame (py : Py) (cols : List Text) (rows : List (List Text)) : Frame where
  cols := cols
  rows := rows.map fun row c =>
    match position cols c with
    | none => .nan
    | some j => py.cell (kindOf (rows.map (field · j))) (field row j)

/-- The lines of a text that are not empty, with their fields. -/
def csvTable (s : Text) : List (List Text) :=
  ((s.splitOn '\n').filter (fun l => !l.isEmpty)).map (fun l => l.splitOn ' ')

/-- `pd.read_csv(f, sep=' ', header=0, index_col=False)`; `none` for `EmptyDataError`. -/
def Py.readCsv (py : Py) (s : Text) : Res (Option Frame) :=
  match csvTable s with
  | [] => .ok none
  | cols :: rows =>
    if cols.any (fun c => c.isEmpty || isOdd c) ∨ ¬ cols.Nodup ∨
        rows.any (fun row => decide (cols.length < row.length) || row.any isOdd) then
      .error .unmodelled
    else .ok (some (py.frame cols rows))

/-- The columns of `a` and those of `b` that are not among them. -/
def unionCols (a b : List Text) : List Text := a ++ b.filter (fun c => decide (c ∉ a))

/-- A column after joining tables: integers become `float64` when there is a missing value or a
`float64`, unless there are strings. -/
def promotes (col : List Cell) : Bool :=
  !col.any (fun | .str _ => true | _ => false) &&
    col.any (fun | .nan => true | .flt _ => true | _ => false)

/-- An integer as `float64`. -/
def toFlt : Cell → Cell
  | .int v => .flt (rnd64 v)
  | c => c

/-- Joining tables without regard to the types of the columns. -/
def stack (fs : List Frame) : Frame where
  cols := fs.foldl (fun cs f => unionCols cs f.cols) []
  rows := fs.flatMap Frame.rows

/-- The common type of every column. -/
def unify (f : Frame) : Frame where
  cols := f.cols
  rows := f.rows.map fun row c => if promotes (f.rows.map (· c)) then toFlt (row c) else row c

/-- `pd.concat(fs, ignore_index=True, sort=False)`. -/
def concat (fs : List Frame) : Frame := unify (stack fs)

/-- `data['c'].unique()`: in order of appearance. -/
def uniqueCells (col : List Cell) : List Cell :=
  col.foldl (fun seen c => if c ∈ seen then seen else seen ++ [c]) []

/-- `data.loc[data['c'] == x]`: nothing equals a missing value. -/
def Frame.select (f : Frame) (c : Text) (x : Cell) : Frame where
  cols := f.cols
  rows := f.rows.filter fun row => decide (row c = x ∧ x ≠ .nan)

/-- `dropna(axis='columns')`. -/
def Frame.dropna (f : Frame) : Frame where
  cols := f.cols.filter fun c => f.rows.all fun row => decide (row c ≠ .nan)
  rows := f.rows

/-- `reset_index()`: a new first column with the old row numbers.  (The scripts do not read it.) -/
def Frame.resetIndex (f : Frame) : Frame where
  cols := "index".toList :: f.cols
  rows := f.rows

/-- `l[a:-b]`. -/
def slice (a b : ℕ) (l : List Text) : List Text := (l.take (l.length - b)).drop a

/-- The number in a cell. -/
def numOf : Cell → Option ℚ
  | .int v => some v
  | .flt x => some x
  | _ => none

/-- The numbers in some columns of a row, as the key of a group; strings are not modelled as keys. -/
def keyOf (by_ : List Text) (row : Record) : Res (List ℚ) :=
  match by_.mapM (fun c => numOf (row c)) with
  | some k => .ok k
  | none => .error .unmodelled

/-- `groupby(by=...)` applied to the rows: the groups in the order of their keys, each with its rows in
order. -/
def groupRows (by_ : List Text) : List Record → OMap (List ℚ) (List Record) →
    Res (OMap (List ℚ) (List Record))
  | [], g => .ok g
  | row :: rows, g => do
    let k ← keyOf by_ row
    groupRows by_ rows (OMap.upsert (fun o => o.getD [] ++ [row]) k g)

/-- `groupby(by=...)`: without keys a `ValueError`, with an unknown column a `KeyError`. -/
def Frame.groupby (f : Frame) (by_ : List Text) : Res (List (List Record)) :=
  if by_ = [] ∨ ¬ ∀ c ∈ by_, c ∈ f.cols then .error .throw
  else do
    let g ← groupRows by_ f.rows []
    .ok (g.map Prod.snd)

/-- The numbers of a column. -/
def column (c : Text) (rows : List Record) : Res (List ℚ) :=
  match rows.mapM (fun row => numOf (row c)) with
  | some l => .ok l
  | none => .error .unmodelled

/-- `idxmin`: the position of the first of the least numbers (0 without numbers). -/
def idxmin : List ℚ → ℕ
  | [] => 0
  | x :: l => if l.all (fun y => decide (x ≤ y)) then 0 else idxmin l + 1

end Scripts

end Apollo
