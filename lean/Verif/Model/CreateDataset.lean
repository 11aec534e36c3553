import Verif.Model.Tables

/-!
# Model of create-dataset.py

Source: src/python/modeling/create-dataset.py.

The script reads trace files and writes for every region in them the file `Dataset-<region>.yaml`, for
`Apollo::Dataset::load`.  Messages are not modelled; a file can always be written.  The order in which
`glob` lists the files of a directory is the order in which their contents are given here.
-/

namespace Apollo.Scripts

/-- create-dataset.py:154-155: the argument `--agg`. -/
inductive Agg
  | none
  | mean
  | min
  | meanMin
  deriving DecidableEq

/-- create-dataset.py:12-21, for texts of the numbers. -/
def printToStr (index : ℕ) (features : List Text) (policy xtime : Text) : Text :=
  "  ".toList ++ fmtInt index ++ ": { features: [ ".toList ++
    (features.map fun f => f ++ ", ".toList).flatten ++ "]".toList ++ ", policy: ".toList ++ policy ++
    ", xtime: ".toList ++ xtime ++ " },\n".toList

/-- The lines of a dataset, numbered from `index`. -/
def printAll : ℕ → List (List Text × Text × Text) → Text
  | _, [] => []
  | i, (f, p, x) :: l => printToStr i f p x ++ printAll (i + 1) l

/-- create-dataset.py:28, 44, 64, 86. -/
def featureCols (f : Frame) : List Text := slice 5 2 f.cols

/-- Reading the columns `policy` and `xtime` is a `KeyError` without them. -/
def needs (f : Frame) : Res Unit :=
  if "policy".toList ∈ f.cols ∧ "xtime".toList ∈ f.cols then .ok () else .error .throw

/-- The texts of a row. -/
def Py.rowTexts (py : Py) (fc : List Text) (row : Record) : List Text × Text × Text :=
  (fc.map fun c => py.str (row c), py.str (row "policy".toList), py.str (row "xtime".toList))

/-- create-dataset.py:24-36. -/
def Py.aggNone (py : Py) (f : Frame) : Res (List (List Text × Text × Text)) := do
  if f.rows = [] then .ok []
  else
    needs f
    .ok (f.rows.map (py.rowTexts (featureCols f)))

/-- create-dataset.py:50-54: a group with equal features and policy. -/
def Py.meanEntry (py : Py) (fc : List Text) (g : List Record) : Res (List Text × Text × Text) := do
  let xs ← column "xtime".toList g
  let row := g.headD fun _ => .nan
  .ok (fc.map fun c => py.str (row c), py.str (row "policy".toList), py.str (.flt (py.mean xs)))

/-- create-dataset.py:39-58.  With no feature the name of a group is a number before `pandas` 2.0, and
`name[:-1]` is a `TypeError`. -/
def Py.aggMean (py : Py) (f : Frame) : Res (List (List Text × Text × Text)) := do
  let fc := featureCols f
  let gs ← f.groupby (fc ++ ["policy".toList])
  if gs = [] then .ok []
  else if fc = [] ∧ py.single = none then .error .throw
  else
    needs f
    gs.mapM (py.meanEntry fc)

/-- create-dataset.py:70-76: the row with the least time. -/
def Py.minEntry (py : Py) (fc : List Text) (g : List Record) : Res (List Text × Text × Text) := do
  let xs ← column "xtime".toList g
  .ok (py.rowTexts fc (g.getD (idxmin xs) fun _ => .nan))

/-- create-dataset.py:60-80. -/
def Py.aggMin (py : Py) (f : Frame) : Res (List (List Text × Text × Text)) := do
  let fc := featureCols f
  let gs ← f.groupby fc
  if gs = [] then .ok []
  else
    needs f
    gs.mapM (py.minEntry fc)

/-- create-dataset.py:98-102: the texts of the name of a group. -/
def Py.nameTexts (py : Py) (fc : List Text) (row : Record) : List Text :=
  match fc, py.single with
  | [c], some tuple => [tuple (py.str (row c))]
  | fc, _ => fc.map fun c => py.str (row c)

/-- create-dataset.py:91-105: a group with equal features; the groups of one policy are in the order of
the policies. -/
def Py.meanMinEntry (py : Py) (fc : List Text) (g : List Record) : Res (List Text × Text × Text) := do
  let g2 ← groupRows ["policy".toList] g []
  let means ← g2.mapM fun p => do
    let xs ← column "xtime".toList p.2
    .ok (py.mean xs)
  let i := idxmin means
  let best : List Record := (g2.map Prod.snd).getD i []
  let row := g.headD fun _ => .nan
  let bestRow := best.headD fun _ => .nan
  .ok (py.nameTexts fc row, py.str (bestRow "policy".toList), py.str (.flt (means.getD i 0)))

/-- create-dataset.py:82-109. -/
def Py.aggMeanMin (py : Py) (f : Frame) : Res (List (List Text × Text × Text)) := do
  let fc := featureCols f
  let gs ← f.groupby fc
  if gs = [] then .ok []
  else
    needs f
    gs.mapM (py.meanMinEntry fc)

/-- create-dataset.py:24-109: the first line and the entries. -/
def Py.aggregate (py : Py) (f : Frame) : Agg → Res (Text × List (List Text × Text × Text))
  | .none => do
    let l ← py.aggNone f
    .ok ("# agg by none\n".toList, l)
  | .mean => do
    let l ← py.aggMean f
    .ok ("# agg by mean\n".toList, l)
  | .min => do
    let l ← py.aggMin f
    .ok ("# agg by min\n".toList, l)
  | .meanMin => do
    let l ← py.aggMeanMin f
    .ok ("# agg by mean_min\n".toList, l)

/-- create-dataset.py:174-188: the file of one region. -/
def Py.datasetOf (py : Py) (agg : Agg) (data : Frame) (r : Cell) : Res (Text × Text) := do
  let f := ((data.select "region".toList r).dropna).resetIndex
  let (title, l) ← py.aggregate f agg
  match r with
  | .str s => .ok ("Dataset-".toList ++ s ++ ".yaml".toList,
      title ++ "data: {\n".toList ++ printAll 0 l ++ "}\n\n".toList)
  | _ => .error .throw

/-- create-dataset.py:172-188: the files written, and the error that ended the script, if any. -/
def Py.datasets (py : Py) (agg : Agg) (data : Frame) : List Cell → List (Text × Text) × Option Err
  | [] => ([], none)
  | r :: rs =>
    match py.datasetOf agg data r with
    | .error e => ([], some e)
    | .ok file =>
      let (files, e) := py.datasets agg data rs
      (file :: files, e)

/-- create-dataset.py:120-126. -/
def Py.readAll (py : Py) : List Text → Res (List Frame)
  | [] => .ok []
  | s :: ss => do
    let f ← py.readCsv s
    let fs ← py.readAll ss
    match f with
    | none => .ok fs
    | some f => .ok (f :: fs)

/-- create-dataset.py:112-130: joining no tables is a `ValueError`. -/
def Py.readTracefiles (py : Py) (files : List Text) : Res Frame := do
  let fs ← py.readAll files
  if fs = [] then .error .throw else .ok (concat fs)

/-- create-dataset.py:133-141: the directories, each with the contents of its files `trace*.csv`. -/
def Py.readTracedirs (py : Py) : List (List Text) → Frame → Res Frame
  | [], data => .ok data
  | d :: ds, data => do
    let f ← py.readTracefiles d
    py.readTracedirs ds (concat [data, f])

/-- create-dataset.py:164-168: `--tracedirs` overrides `--tracefiles`. -/
def Py.readData (py : Py) (tracefiles : List Text) (tracedirs : List (List Text)) : Res Frame := do
  if tracefiles = [] ∧ tracedirs = [] then .error .throw
  else
    let data ← if tracefiles = [] then .ok ⟨[], []⟩ else py.readTracefiles tracefiles
    if tracedirs = [] then .ok data else py.readTracedirs tracedirs ⟨[], []⟩

/-- create-dataset.py:144-188: the script. -/
def Py.createDataset (py : Py) (agg : Agg) (tracefiles : List Text) (tracedirs : List (List Text)) :
    List (Text × Text) × Option Err :=
  match py.readData tracefiles tracedirs with
  | .error e => ([], some e)
  | .ok data =>
    if "region".toList ∈ data.cols then
      py.datasets agg data (uniqueCells (data.rows.map (· "region".toList)))
    else ([], some .throw)

end Apollo.Scripts
