import Verif.Model.AnyFloat
import Verif.Model.DatasetIO

/-!
# `Apollo::Dataset::store` and `Apollo::Dataset::load` with features that are any floats

Source: src/Dataset.cpp:94-174.  In `Model/DatasetIO.lean` features are finite numbers.  Here they are
any floats, as in `Model/AnyFloat.lean`.  Metrics are finite.  `AnyFloat` has one NaN, but glibc prints
`-nan` if its sign is set; so `store` takes the signs of the NaNs as an argument.
-/

namespace Apollo

/-- `os << float(f)` (src/Dataset.cpp:104): as printf's `%g`.  `neg` is the sign of a NaN. -/
def fmtAny (neg : Bool) : AnyFloat → List Char
  | .fin q => fmtG6 q
  | .negZero => "-0".toList
  | .posInf => "inf".toList
  | .negInf => "-inf".toList
  | .nan => if neg then "-nan".toList else "nan".toList

/-- What follows the word `w` at the start of a text, in upper or lower case. -/
def stripWord : List Char → List Char → Option (List Char)
  | [], s => some s
  | w :: ws, c :: s => if c.toLower = w then stripWord ws s else none
  | _ :: _, [] => none

/-- What follows `nan` in `strtof`: letters, digits and underscores in parentheses belong to it. -/
def afterNan (s : List Char) : List Char :=
  match s with
  | '(' :: r =>
    match r.dropWhile fun c => c.isAlphanum || c = '_' with
    | ')' :: t => t
    | _ => s
  | _ => s

/-- `std::stof` (src/helpers/Parser.cpp:105-111) with infinities, NaN and negative zero.  Hexadecimal
numbers are not modelled. -/
def stofAny (s : List Char) : Res (AnyFloat × ℕ) :=
  let sr := readSign (s.dropWhile isSpace)
  match stripWord "inf".toList sr.2 with
  | some r =>
    .ok (if sr.1 then .negInf else .posInf, s.length - ((stripWord "inity".toList r).getD r).length)
  | none =>
    match stripWord "nan".toList sr.2 with
    | some r => .ok (.nan, s.length - (afterNan r).length)
    | none =>
      match stof s with
      | .error e => .error e
      | .ok (q, n) => .ok (if sr.1 ∧ q = 0 then .negZero else .fin q, n)

/-- src/helpers/Parser.cpp:105-111. -/
def parseAny : P AnyFloat := parseWith stofAny

namespace AnyDataset

/-- src/Dataset.cpp:103-104: the features, each followed by `,`; `neg j` is the sign of a NaN at
position `j`. -/
def featText (neg : ℕ → Bool) : ℕ → List AnyFloat → List Char
  | _, [] => []
  | j, x :: f => fmtAny (neg j) x ++ ',' :: featText neg (j + 1) f

/-- src/Dataset.cpp:99-108: the line of one entry. -/
def entryText (neg : ℕ → ℕ → Bool) (idx : ℕ) (d : (List AnyFloat × ℤ) × ℚ) : List Char :=
  "  ".toList ++ fmtInt idx ++ ": { features: [ ".toList ++ featText (neg idx) 0 d.1.1 ++
    " ], ".toList ++ "policy: ".toList ++ fmtInt d.1.2 ++ ", ".toList ++
    "xtime: ".toList ++ fmtG6 d.2 ++ " },\n".toList

/-- src/Dataset.cpp:97-110: the loop over the entries, starting at `idx`. -/
def entriesText (neg : ℕ → ℕ → Bool) : ℕ → List ((List AnyFloat × ℤ) × ℚ) → List Char
  | _, [] => []
  | idx, d :: ds => entryText neg idx d ++ entriesText neg (idx + 1) ds

/-- src/Dataset.cpp:94-112.  `neg i j` is the sign of a NaN in entry `i` at position `j`. -/
def store (neg : ℕ → ℕ → Bool) (ds : AnyDataset) : List Char :=
  "data: {\n".toList ++ entriesText neg 0 ds.toList ++ "}\n".toList

/-- src/Dataset.cpp:141-146: the loop over the features (`fuel` bounds the iterations). -/
def loadFeatures : ℕ → List AnyFloat → P (List AnyFloat)
  | 0, _ => P.fail .diverge
  | fuel + 1, acc => do
    if ← getNextTokenEquals "],".toList then pure acc
    else
      let x ← parseAny
      parseExpected ",".toList
      loadFeatures fuel (acc ++ [x])

/-- src/Dataset.cpp:124-160: body of the loop over the entries (the token `idx:` has been read). -/
def loadEntry (fuel : ℕ) : P (List AnyFloat × ℤ × ℚ) := do
  let _ ← parseInt
  parseExpected ":".toList
  expectNext "{".toList
  expectNext "features:".toList
  expectNext "[".toList
  let f ← loadFeatures fuel []
  expectNext "policy:".toList
  getNextToken
  let p ← parseInt
  parseExpected ",".toList
  expectNext "xtime:".toList
  getNextToken
  let m ← parseDouble
  expectNext "},".toList
  pure (f, p, m)

/-- src/Dataset.cpp:123-173: the loop over the entries. -/
def loadEntries (balance : AnyDataset → AnyDataset) : ℕ → AnyDataset → P AnyDataset
  | 0, _ => P.fail .diverge
  | fuel + 1, ds => do
    if ← getNextTokenEquals "}".toList then pure ds
    else
      let (f, p, m) ← loadEntry fuel
      loadEntries balance fuel (insert balance ds f p m)

/-- src/Dataset.cpp:114-174 with a bound on the number of loop iterations. -/
def loadP (balance : AnyDataset → AnyDataset) (fuel : ℕ) (ds : AnyDataset) : P AnyDataset := do
  expectNext "data:".toList
  expectNext "{".toList
  loadEntries balance fuel ds

/-- src/Dataset.cpp:114-174: load from the stream `s` into `ds`. -/
def load (balance : AnyDataset → AnyDataset) (ds : AnyDataset) (s : List Char) : Res AnyDataset := do
  let (ds, _) ← loadP balance (s.length + 1) ds { is := s, buf := [], off := 0 }
  .ok ds

end AnyDataset

/-- Driver: what `toVectorOfTuples` shows after a history of `insert` calls on an empty dataset, a
`store`, and a `load` of the file into an empty dataset. -/
def anyReload (balance : AnyDataset → AnyDataset) (neg : ℕ → ℕ → Bool) (h : List Spec.AnyMeas) :
    Res (List (List AnyFloat × ℤ × ℚ)) := do
  let ds := h.foldl (fun ds x => AnyDataset.insert balance ds x.1 x.2.1 x.2.2) .leaf
  let ds' ← AnyDataset.load balance .leaf (AnyDataset.store neg ds)
  .ok (AnyDataset.toVectorOfTuples ds')

end Apollo
