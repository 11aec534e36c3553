import Verif.Model.AnyDatasetIO
import Verif.Model.AnyMetric
import Verif.Model.DatasetIO

/-!
# `Apollo::Dataset::store` and `load` with metrics that are any doubles

Source: `src/Dataset.cpp:94-174`.  As `Model/DatasetIO.lean`, for the datasets of `Model/AnyMetric.lean`.
-/

namespace Apollo

/-- `std::stod` (src/helpers/Parser.cpp:97-103) with infinities, NaN and negative zero.  Hexadecimal
numbers are not modelled. -/
def stodAny (s : List Char) : Res (AnyFloat × ℕ) :=
  let sr := readSign (s.dropWhile isSpace)
  match stripWord "inf".toList sr.2 with
  | some r =>
    .ok (if sr.1 then .negInf else .posInf, s.length - ((stripWord "inity".toList r).getD r).length)
  | none =>
    match stripWord "nan".toList sr.2 with
    | some r => .ok (.nan, s.length - (afterNan r).length)
    | none =>
      match stod s with
      | .error e => .error e
      | .ok (q, n) => .ok (if sr.1 ∧ q = 0 then .negZero else .fin q, n)

/-- src/helpers/Parser.cpp:97-103. -/
def parseAnyDouble : P AnyFloat := parseWith stodAny

namespace MetricDataset

/-- src/Dataset.cpp:99-108: the line of one entry; `neg` is the sign of a NaN. -/
def entryText (neg : Bool) (idx : ℕ) (d : Key × AnyFloat) : List Char :=
  "  ".toList ++ fmtInt idx ++ ": { features: [ ".toList ++ Dataset.featText (ofLex d.1).1 ++
    " ], ".toList ++ "policy: ".toList ++ fmtInt (ofLex d.1).2 ++ ", ".toList ++
    "xtime: ".toList ++ fmtAny neg d.2 ++ " },\n".toList

/-- src/Dataset.cpp:97-110: the loop over the entries, starting at `idx`. -/
def entriesText (neg : ℕ → Bool) : ℕ → MetricDataset → List Char
  | _, [] => []
  | idx, d :: ds => entryText (neg idx) idx d ++ entriesText neg (idx + 1) ds

/-- src/Dataset.cpp:94-112.  `neg i` is the sign of a NaN in entry `i`. -/
def store (neg : ℕ → Bool) (ds : MetricDataset) : List Char :=
  "data: {\n".toList ++ entriesText neg 0 ds ++ "}\n".toList

/-- src/Dataset.cpp:124-160: body of the loop over the entries (the token `idx:` has been read). -/
def loadEntry (fuel : ℕ) : P (Features × ℤ × AnyFloat) := do
  let _ ← parseInt
  parseExpected ":".toList
  expectNext "{".toList
  expectNext "features:".toList
  expectNext "[".toList
  let f ← Dataset.loadFeatures fuel []
  expectNext "policy:".toList
  getNextToken
  let p ← parseInt
  parseExpected ",".toList
  expectNext "xtime:".toList
  getNextToken
  let m ← parseAnyDouble
  expectNext "},".toList
  pure (f, p, m)

/-- src/Dataset.cpp:123-173: the loop over the entries. -/
def loadEntries : ℕ → MetricDataset → P MetricDataset
  | 0, _ => P.fail .diverge
  | fuel + 1, ds => do
    if ← getNextTokenEquals "}".toList then pure ds
    else
      let (f, p, m) ← loadEntry fuel
      loadEntries fuel (insert ds f p m)

/-- src/Dataset.cpp:114-174 with a bound on the number of loop iterations. -/
def loadP (fuel : ℕ) (ds : MetricDataset) : P MetricDataset := do
  expectNext "data:".toList
  expectNext "{".toList
  loadEntries fuel ds

/-- src/Dataset.cpp:114-174: load from the stream `s` into `ds`. -/
def load (ds : MetricDataset) (s : List Char) : Res MetricDataset := do
  let (ds, _) ← loadP (s.length + 1) ds { is := s, buf := [], off := 0 }
  .ok ds

end MetricDataset

/-- Driver: what `toVectorOfTuples` shows after a history of `insert` calls on an empty dataset, a
`store`, and a `load` of the file into an empty dataset. -/
def metricReload (neg : ℕ → Bool) (h : List Spec.MetricMeas) : Res (List (List ℚ × ℤ × AnyFloat)) := do
  let ds ← MetricDataset.load [] (MetricDataset.store neg (metricRun h))
  .ok (MetricDataset.toVectorOfTuples ds)

end Apollo
