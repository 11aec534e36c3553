import Verif.Spec.FileLayout

/-!
# Specification: the words of a text
-/

namespace Apollo.Spec

/-- The words of a text when the letters `word` were just read. -/
def wordsFrom : List Char → List Char → List (List Char)
  | word, [] => if word = [] then [] else [word]
  | word, c :: s =>
    if c ∈ whiteSpace then (if word = [] then wordsFrom [] s else word :: wordsFrom [] s)
    else wordsFrom (word ++ [c]) s

/-- The words of a text: what is between white space. -/
def textWords (s : List Char) : List (List Char) := wordsFrom [] s

/-- The last character is white space. -/
def EndsWhite (s : List Char) : Prop := ∃ a c, s = a ++ [c] ∧ c ∈ whiteSpace

end Apollo.Spec
