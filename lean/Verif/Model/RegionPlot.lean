import Verif.Model.AnalyzePlot

/-!
# Model of analyze-traces.py: the pictures of the regions

Source: src/python/analysis/analyze-traces.py:316-330.

With `--plot2` the script draws for every region the mean times of the static policies, for each combination of
features.  Of a picture the legend, the groups of bars and their heights are modelled.

Simplifications: features that are not numbers are outside of the model (`unmodelled`).  In which order `pd.concat`
leaves the columns of tables depends on the version of `pandas` when all tables have the same (it may sort
them or not): the order is a parameter.
-/

namespace Apollo.Scripts

/-- The values in ascending order, each once. -/
def ascend {α : Type} [LinearOrder α] (l : List α) : List α := l.dedup.insertionSort (· ≤ ·)

/-- What the chart of a region shows. -/
structure RegionPicture where
  /-- the models, a colour for each -/
  legend : List Text
  /-- the groups from left to right: the numbers below, and the heights for the models; no bar where there is
  no number.  (Without features there is one group, and `xtime` below it.) -/
  groups : List (List ℚ × List (Option ℚ))
  deriving DecidableEq

/-- The features, the model and the time of a row. -/
def pivotRow (fc : List Text) (row : Record) : Res (List ℚ × Text × ℚ) := do
  let k ← keyOf fc row
  match row "training".toList, numOf (row "xtime".toList) with
  | .str m, some t => .ok (k, m, t)
  | _, _ => .error .unmodelled

/-- A cell of the table of means: not a number without rows. -/
def Py.pivotMean (py : Py) (rows : List (List ℚ × Text × ℚ)) (k : List ℚ) (m : Text) : Option ℚ :=
  let ts := (rows.filter fun x => decide (x.1 = k ∧ x.2.1 = m)).map fun x => x.2.2
  if ts = [] then none else some (py.mean ts)

/-- analyze-traces.py:323-324: `pd.pivot_table(ddf, values='xtime', index=features, columns='training',
aggfunc='mean')`. -/
def Py.pivot (py : Py) (rows : List (List ℚ × Text × ℚ)) : RegionPicture where
  legend := ascend (rows.map fun x => x.2.1)
  groups := (ascend (rows.map Prod.fst)).map fun k =>
    (k, (ascend (rows.map fun x => x.2.1)).map (py.pivotMean rows k))

/-- analyze-traces.py:322: `v.startswith('f')`. -/
def startsF (c : Text) : Bool := c.head? == some 'f'

/-- analyze-traces.py:320-327: the picture of a region.  Without the columns `xtime` or `training` (columns with a
missing value are dropped) `pivot_table` is a `KeyError`. -/
def Py.regionPicture (py : Py) (arrange : List Text → List Text) (data : Frame) (r : Cell) :
    Res RegionPicture :=
  let f := (data.select "region".toList r).dropna
  if f.rows = [] then .error .unmodelled
  else if "xtime".toList ∉ f.cols ∨ "training".toList ∉ f.cols then .error .throw
  else do
    let rows ← f.rows.mapM (pivotRow ((arrange f.cols).filter startsF))
    .ok (py.pivot rows)

/-- analyze-traces.py:329: the file of the picture. -/
def regionPictureName (r : Text) : Text := r ++ ".pdf".toList

/-- analyze-traces.py:318-330: the pictures of the regions, and the error that ends the script.  `plt` is only
bound with `--plot` (lines 162-163, 328). -/
def Py.plotRegions (py : Py) (arrange : List Text → List Text) (dirs : Text → Bool) (data : Frame)
    (plot : Bool) : List Cell → List (Text × RegionPicture) × Option Err
  | [] => ([], none)
  | r :: rs =>
    match py.regionPicture arrange data r, r with
    | .error e, _ => ([], some e)
    | .ok P, .str name =>
      if plot && canSave dirs (regionPictureName name) then
        let rest := py.plotRegions arrange dirs data plot rs
        ((regionPictureName name, P) :: rest.1, rest.2)
      else ([], some .throw)
    | .ok _, _ => ([], some .unmodelled)

/-- A picture of either kind. -/
abbrev Picture := RankPicture ⊕ RegionPicture

/-- analyze-traces.py:200-330: the ranks one after the other, with the pictures saved and the error that ends the
script. -/
def Py.plotRanksAll (py : Py) (order : List ℚ → List ℕ) (sum : List ℚ → ℚ) (arrange : List Text → List Text)
    (dirs : Text → Bool) (traces : Traces) (dir : Text) (plot plot2 : Bool) (data : Frame) :
    List ℤ → List (Text × Picture) × Option Err
  | [] => ([], none)
  | rank :: ranks =>
    match py.report order sum traces rank with
    | .error e => ([], some e)
    | .ok rep =>
      if plot && !canSave dirs (pictureName dir) then ([], some .throw)
      else
        let saved : List (Text × Picture) :=
          if plot then [(pictureName dir, .inl (rankPicture sum dir rep))] else []
        let more := if plot2 then py.plotRegions arrange dirs data plot
            (uniqueCells (data.rows.map (· "region".toList))) else ([], none)
        let saved := saved ++ more.1.map fun p => (p.1, .inr p.2)
        match more.2 with
        | some e => (saved, some e)
        | none =>
          let rest := py.plotRanksAll order sum arrange dirs traces dir plot plot2 data ranks
          (saved ++ rest.1, rest.2)

/-- analyze-traces.py:162-331: the script with its pictures. -/
def Py.analyzePictures (py : Py) (order : List ℚ → List ℕ) (sum : List ℚ → ℚ) (arrange : List Text → List Text)
    (dirs : Text → Bool) (traces : Traces) (dir : Text) (plot plot2 : Bool) (nranks : ℕ) :
    List (Text × Picture) × Option Err :=
  match py.readTracefiles traces.static.flatten with
  | .error e => ([], some e)
  | .ok data => py.plotRanksAll order sum arrange dirs traces dir plot plot2 data
      ((List.range nranks).map fun r : ℕ => (r : ℤ))

end Apollo.Scripts
