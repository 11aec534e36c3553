import Verif.Num.Decimal

/-!
# The part of YAML in which models are written

A reader for documents with one key at the top whose value is made of flow mappings `{ key: value, … }`,
flow sequences `[ value, … ]` and plain scalars without blanks.  A comma may follow the last entry, and an
entry `key: value` of a sequence is a mapping with one key.  Inside of brackets the indentation does not
matter.  The reader is independent of how the files are written; what is outside of this part of YAML is
not read (`none`).
-/

namespace Apollo.Spec

/-- A value: scalars are kept as they are written, and mappings as the list of their entries. -/
inductive Yaml where
  | scalar (s : List Char)
  | seq (l : List Yaml)
  | map (l : List (List Char × Yaml))

namespace Yaml

/-- A character of a plain scalar. -/
def plainChar (c : Char) : Bool := c.isAlphanum || c = '_' || c = '-' || c = '+' || c = '.'

/-- After blanks a plain scalar. -/
def readScalar (s : List Char) : Option (List Char × List Char) :=
  let s := s.dropWhile isSpace
  let w := s.takeWhile plainChar
  if w.any Char.isAlphanum then some (w, s.dropWhile plainChar) else none

/-- A colon that ends a key: a blank follows. -/
def readColon : List Char → Option (List Char)
  | ':' :: c :: s => if isSpace c then some s else none
  | _ => none

mutual

/-- A value. -/
def readValue : ℕ → List Char → Option (Yaml × List Char)
  | 0, _ => none
  | fuel + 1, s =>
    match s.dropWhile isSpace with
    | '{' :: s => (readFields fuel s).map fun x => (.map x.1, x.2)
    | '[' :: s => (readItems fuel s).map fun x => (.seq x.1, x.2)
    | s => (readScalar s).map fun x => (.scalar x.1, x.2)

/-- The entries of a mapping, after the opening bracket or a comma, up to its closing bracket. -/
def readFields : ℕ → List Char → Option (List (List Char × Yaml) × List Char)
  | 0, _ => none
  | fuel + 1, s =>
    match s.dropWhile isSpace with
    | '}' :: s => some ([], s)
    | s => do
      let (k, s) ← readScalar s
      let s ← readColon s
      let (v, s) ← readValue fuel s
      match s.dropWhile isSpace with
      | ',' :: s => (readFields fuel s).map fun x => ((k, v) :: x.1, x.2)
      | '}' :: s => some ([(k, v)], s)
      | _ => none

/-- The entries of a sequence, after the opening bracket or a comma, up to its closing bracket. -/
def readItems : ℕ → List Char → Option (List Yaml × List Char)
  | 0, _ => none
  | fuel + 1, s =>
    match s.dropWhile isSpace with
    | ']' :: s => some ([], s)
    | s => do
      let (v, s) ← match (readScalar s).bind fun x => (readColon x.2).map fun s => (x.1, s) with
        | some (k, s) => (readValue fuel s).map fun x => (.map [(k, x.1)], x.2)
        | none => readValue fuel s
      match s.dropWhile isSpace with
      | ',' :: s => (readItems fuel s).map fun x => (v :: x.1, x.2)
      | ']' :: s => some ([v], s)
      | _ => none

end

/-- A document that may start with a line of comment. -/
def read (s : List Char) : Option Yaml := do
  let s := match s with
    | '#' :: s => s.dropWhile (· ≠ '\n')
    | s => s
  let (k, s) ← readScalar s
  let s ← readColon s
  let (v, s) ← readValue (s.length + 1) s
  if s.all isSpace then some (.map [(k, v)]) else none

end Yaml

end Apollo.Spec
