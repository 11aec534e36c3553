import Verif.Model.Dataset
import Verif.Model.Parser

/-!
# Model of `Apollo::Dataset::store` and `Apollo::Dataset::load`

Source: src/Dataset.cpp:94-174.
-/

namespace Apollo
namespace Dataset

/-- src/Dataset.cpp:103-104: the features, each followed by `,` and no blank. -/
def featText (f : Features) : List Char := (f.map fun x => fmtG6 x ++ [',']).flatten

/-- src/Dataset.cpp:99-108: the line of one entry. -/
def entryText (idx : ℕ) (d : Key × ℚ) : List Char :=
  "  ".toList ++ fmtInt idx ++ ": { features: [ ".toList ++ featText (ofLex d.1).1 ++
    " ], ".toList ++ "policy: ".toList ++ fmtInt (ofLex d.1).2 ++ ", ".toList ++
    "xtime: ".toList ++ fmtG6 d.2 ++ " },\n".toList

/-- src/Dataset.cpp:97-110: the loop over the entries, starting at `idx`. -/
def entriesText : ℕ → Dataset → List Char
  | _, [] => []
  | idx, d :: ds => entryText idx d ++ entriesText (idx + 1) ds

/-- src/Dataset.cpp:94-112. -/
def store (ds : Dataset) : List Char :=
  "data: {\n".toList ++ entriesText 0 ds ++ "}\n".toList

/-- src/Dataset.cpp:141-146: the loop over the features (`fuel` bounds the iterations). -/
def loadFeatures : ℕ → Features → P Features
  | 0, _ => P.fail .diverge
  | fuel + 1, acc => do
    if ← getNextTokenEquals "],".toList then pure acc
    else
      let x ← parseFloat
      parseExpected ",".toList
      loadFeatures fuel (acc ++ [x])

/-- src/Dataset.cpp:124-160: body of the loop over the entries (the token `idx:` has been read). -/
def loadEntry (fuel : ℕ) : P (Features × ℤ × ℚ) := do
  let _ ← parseInt
  parseExpected ":".toList
  expectNext "{".toList
  expectNext "features:".toList
  expectNext "[".toList
  let f ← loadFeatures fuel []
  expectNext "policy:".toList
  getNextToken
  let p ← parseInt
  parseExpected ",".toList
  expectNext "xtime:".toList
  getNextToken
  let m ← parseDouble
  expectNext "},".toList
  pure (f, p, m)

/-- src/Dataset.cpp:123-173: the loop over the entries. -/
def loadEntries : ℕ → Dataset → P Dataset
  | 0, _ => P.fail .diverge
  | fuel + 1, ds => do
    if ← getNextTokenEquals "}".toList then pure ds
    else
      let (f, p, m) ← loadEntry fuel
      loadEntries fuel (insert ds f p m)

/-- src/Dataset.cpp:114-174 with a bound on the number of loop iterations. -/
def loadP (fuel : ℕ) (ds : Dataset) : P Dataset := do
  expectNext "data:".toList
  expectNext "{".toList
  loadEntries fuel ds

/-- src/Dataset.cpp:114-174: load from the stream `s` into `ds`. -/
def load (ds : Dataset) (s : List Char) : Res Dataset := do
  let (ds, _) ← loadP (s.length + 1) ds { is := s, buf := [], off := 0 }
  .ok ds

end Dataset
end Apollo
