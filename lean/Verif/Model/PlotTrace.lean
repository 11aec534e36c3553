import Verif.Model.Tables

/-!
# plot-trace.py

src/python/analysis/plot-trace.py draws the trace of a region as two bar charts: the executions of the
training, and those after it.  The model contains what the script writes into the picture: the labels of the
bars, the numbers in the titles of the charts, and the name of the model.

Simplifications: a chart has a group of bars for each feature, in ascending order, and in each group a bar
for every policy, in ascending order (`seaborn.countplot` with `hue`).  Charts without rows and negative
numbers of executions are outside of the model (`unmodelled`).  The mean of a list of numbers is a parameter
(`Py.mean`, here for `np.mean`).
-/

namespace Apollo.Scripts

/-- `'%.2f' % q`. -/
def fixed2 (q : ℚ) : Text :=
  let n := (roundEven (|q| * 100)).toNat
  (if q < 0 then ['-'] else []) ++ natDigits (n / 100) ++ '.' :: fixDigits 2 n

/-- plot-trace.py:15-18: `unique()` and `sort()`. -/
def levels (l : List ℚ) : List ℚ := l.dedup.insertionSort (· ≤ ·)

/-- plot-trace.py:24-33: the label of a bar, from the times of its executions. -/
def Py.barLabel (py : Py) (times : List ℚ) : Text :=
  if times = [] then ['0'] else fixed2 (rnd64 (py.mean times * 1000000))

/-- plot-trace.py:24, 28: the times of the rows (policy, feature, time) with a feature and a policy. -/
def timesAt (rows : List (ℚ × ℚ × ℚ)) (feature policy : ℚ) : List ℚ :=
  (rows.filter fun r => decide (r.2.1 = feature ∧ r.1 = policy)).map fun r => r.2.2

/-- plot-trace.py:22-33: all labels, policy by policy. -/
def Py.barLabels (py : Py) (rows : List (ℚ × ℚ × ℚ)) : List Text :=
  (levels (rows.map Prod.fst)).flatMap fun policy =>
    (levels (rows.map fun r => r.2.1)).map fun feature => py.barLabel (timesAt rows feature policy)

/-- `l[i::n]` for `0 < n`: the element after `i` others, and every `n`-th from there. -/
def stride (n : ℕ) : ℕ → List Text → List Text
  | _, [] => []
  | 0, a :: l => a :: stride n (n - 1) l
  | i + 1, _ :: l => stride n i l

/-- The policy, the feature and the time of the rows. -/
def plotRows (rows : List Record) : Res (List (ℚ × ℚ × ℚ)) := do
  let ps ← column "policy".toList rows
  let fs ← column "f0".toList rows
  let ts ← column "xtime".toList rows
  .ok (ps.zip (fs.zip ts))

/-- plot-trace.py:12-40: the labels of the bars, group by group. -/
def Py.plotBars (py : Py) (rows : List Record) : Res (List (List Text)) :=
  if rows = [] then .error .unmodelled
  else do
    let data ← plotRows rows
    let n := (levels (data.map fun r => r.2.1)).length
    .ok ((List.range n).map fun i => stride n i (py.barLabels data))

/-- plot-trace.py:50-51: `re.match('trace-(.*?)-.*', file).group(1)`; `AttributeError` without match. -/
def plotName (file : Text) : Res Text :=
  if "trace-".toList <+: file then
    match (file.drop 6).dropWhile (fun c => c != '-' && c != '\n') with
    | '-' :: _ => .ok ((file.drop 6).takeWhile fun c => c != '-' && c != '\n')
    | _ => .error .throw
  else .error .throw

/-- What is written into the picture. -/
structure Plot where
  /-- the name of the model, in the title -/
  name : Text
  /-- the number of executions in the title of the first chart -/
  trained : ℤ
  /-- the labels of the first chart -/
  training : List (List Text)
  /-- the number of executions in the title of the second chart -/
  tuned : ℕ
  /-- the labels of the second chart -/
  tuning : List (List Text)
  deriving DecidableEq

/-- plot-trace.py:42-83: the picture of a trace file with the given name and content. -/
def Py.plotTrace (py : Py) (file text : Text) (ntraining : ℤ) (dropFirst : Bool) : Res Plot := do
  let name ← plotName file
  match ← py.readCsv text with
  | none => .error .throw
  | some f =>
    if ntraining < 0 then .error .unmodelled
    else if "f0".toList ∉ f.cols ∨ "policy".toList ∉ f.cols ∨ "xtime".toList ∉ f.cols then .error .throw
    else do
      let start := if dropFirst then 1 else 0
      let a ← py.plotBars ((f.rows.take ntraining.toNat).drop start)
      let b ← py.plotBars (f.rows.drop ntraining.toNat)
      .ok ⟨name, ntraining - start, a, (f.rows.drop ntraining.toNat).length, b⟩

end Apollo.Scripts
