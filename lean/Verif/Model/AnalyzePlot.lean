import Verif.Model.AnalyzeReport
import Verif.Model.PlotTrace

/-!
# Model of analyze-traces.py: the pictures

Source: src/python/analysis/analyze-traces.py.

With `--plot` the script draws a bar chart for every rank, and with `--plot2` one for every region.

Simplifications: of a picture only its texts and the heights of the bars are modelled; the contents of the
pictures for the regions are not (`unmodelled`).  Reading of the files is not repeated for every rank, but
here part of `Py.report`; it has the same result each time.
-/

namespace Apollo.Scripts

/-- What the chart of a rank shows. -/
structure RankPicture where
  title : Text
  /-- the bars from left to right: the name below, the height, and the label above -/
  bars : List (Text × ℚ × Text)
  /-- the text in the box -/
  text : Text
  deriving DecidableEq

/-- analyze-traces.py:304: `'%.2f' % ((a * 100.0) / n)`.  The counts are `pandas` numbers: `0 / 0` is not a
number. -/
def percentText (a n : ℕ) : Text :=
  if n = 0 then "nan".toList else fixed2 (rnd64 (rnd64 (rnd64 a * 100) / rnd64 n))

/-- analyze-traces.py:302-306: the line for the accuracy of a model. -/
def accuracyLine (e : Text × ℕ × ℕ × ℕ) : Text :=
  e.1 ++ " Accuracy strict = ".toList ++ percentText e.2.1 e.2.2.2 ++ "%|relaxed (+/- 10.00%) ".toList ++
    percentText e.2.2.1 e.2.2.2 ++ "%".toList

/-- analyze-traces.py:286-313 and 14-22: the picture for a report.  The text with the speedups (lines 296-301)
is replaced by the one with the accuracies before it is used. -/
def rankPicture (sum : List ℚ → ℚ) (dir : Text) (rep : Report) : RankPicture where
  title := dir
  bars := (rep.times ++ [("Opt".toList, rep.opt, none)]).map fun e : Text × ℚ × Option ℚ =>
    (e.1, total sum e.2, fixed2 (total sum e.2))
  text := ['\n'].intercalate (rep.accuracies.map accuracyLine)

/-- analyze-traces.py:314: the file of the picture. -/
def pictureName (dir : Text) : Text := "analysis-".toList ++ dir ++ ".pdf".toList

/-- The directory in a path, if there is one. -/
def folder (path : Text) : Option Text :=
  if '/' ∈ path then some ((path.reverse.dropWhile (· != '/')).drop 1).reverse else none

/-- A file with this path can be created, if these are the directories (besides the current one). -/
def canSave (dirs : Text → Bool) (path : Text) : Bool :=
  match folder path with
  | none => true
  | some d => dirs d

/-- analyze-traces.py:200-331: the ranks one after the other, with the pictures saved and the error that ends
the script.  `plt` is only bound with `--plot`; without, `--plot2` ends with an `UnboundLocalError` (lines 162-163,
328). -/
def Py.plotRanks (py : Py) (order : List ℚ → List ℕ) (sum : List ℚ → ℚ) (dirs : Text → Bool)
    (traces : Traces) (dir : Text) (plot plot2 : Bool) (regions : List Cell) :
    List ℤ → List (Text × RankPicture) × Option Err
  | [] => ([], none)
  | rank :: ranks =>
    match py.report order sum traces rank with
    | .error e => ([], some e)
    | .ok rep =>
      if plot && !canSave dirs (pictureName dir) then ([], some .throw)
      else
        let saved := if plot then [(pictureName dir, rankPicture sum dir rep)] else []
        if plot2 && !regions.isEmpty then (saved, some (if plot then .unmodelled else .throw))
        else
          let rest := py.plotRanks order sum dirs traces dir plot plot2 regions ranks
          (saved ++ rest.1, rest.2)

/-- analyze-traces.py:162-331: the script. -/
def Py.analyzePlots (py : Py) (order : List ℚ → List ℕ) (sum : List ℚ → ℚ) (dirs : Text → Bool)
    (traces : Traces) (dir : Text) (plot plot2 : Bool) (nranks : ℕ) :
    List (Text × RankPicture) × Option Err :=
  match py.readTracefiles traces.static.flatten with
  | .error e => ([], some e)
  | .ok data =>
    py.plotRanks order sum dirs traces dir plot plot2 (uniqueCells (data.rows.map (· "region".toList)))
      ((List.range nranks).map fun r : ℕ => (r : ℤ))

end Apollo.Scripts
