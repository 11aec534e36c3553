import Verif.Num.Decimal
import Verif.Spec.AnyFloat

/-!
# Specification: the layout of a text file

A file is a list of words.  How many blanks, tabs and newlines stand between them does not matter.
-/

namespace Apollo.Spec

/-- The white space characters: blank, tab, newline, carriage return, vertical tab, form feed. -/
def whiteSpace : List Char := [' ', '\t', '\n', '\r', Char.ofNat 11, Char.ofNat 12]

/-- Some white space, and at least one character of it. -/
def IsGap (g : List Char) : Prop := g ≠ [] ∧ ∀ c ∈ g, c ∈ whiteSpace

/-- The text consists of the words, with white space behind each of them and possibly in front. -/
def LaidOut (words : List (List Char)) (text : List Char) : Prop :=
  ∃ (front : List Char) (gaps : List (List Char)), (∀ c ∈ front, c ∈ whiteSpace) ∧
    gaps.length = words.length ∧ (∀ g ∈ gaps, IsGap g) ∧
    text = front ++ (List.zipWith (· ++ ·) words gaps).flatten

/-! ## The words of a dataset file -/

/-- An entry of a file: its number, the features (a NaN with its sign), the policy, the metric. -/
abbrev FileEntry := ℤ × List (Bool × AnyFloat) × ℤ × ℚ

/-- A float as the standard library writes it. -/
def floatWord : Bool × AnyFloat → List Char
  | (_, .fin q) => fmtG6 q
  | (_, .negZero) => "-0".toList
  | (_, .posInf) => "inf".toList
  | (_, .negInf) => "-inf".toList
  | (false, .nan) => "nan".toList
  | (true, .nan) => "-nan".toList

/-- The words of an entry: every feature is a word of its own, with a comma at the end. -/
def datasetEntryWords (e : FileEntry) : List (List Char) :=
  [fmtInt e.1 ++ ":".toList, "{".toList, "features:".toList, "[".toList] ++
    e.2.1.map (fun x => floatWord x ++ ",".toList) ++
    ["],".toList, "policy:".toList, fmtInt e.2.2.1 ++ ",".toList, "xtime:".toList, fmtG6 e.2.2.2,
      "},".toList]

/-- The words of a dataset file. -/
def datasetWords (es : List FileEntry) : List (List Char) :=
  ["data:".toList, "{".toList] ++ es.flatMap datasetEntryWords ++ ["}".toList]

end Apollo.Spec
