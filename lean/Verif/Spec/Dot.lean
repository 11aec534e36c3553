import Verif.Spec.CSource

/-!
# The part of the language of `dot` in which graphs are written

A reader for directed graphs with statements for nodes, whose attributes are words or quoted strings, and
for edges.  It is independent of how the graphs are written; what is outside of this part of the language
is not read (`none`).  Quoted strings with escapes are not read.
-/

namespace Apollo.Spec

/-- A statement of a graph. -/
inductive DotStmt where
  | node (name : List Char) (attrs : List (List Char × List Char))
  | edge (src dst : List Char)
  deriving DecidableEq

namespace Dot

/-- After blanks an identifier, which does not start with a digit. -/
def readId (s : List Char) : Option (List Char × List Char) :=
  let s := s.dropWhile isSpace
  match s.takeWhile isIdent with
  | [] => none
  | c :: w => if isDigit c then none else some (c :: w, s.dropWhile isIdent)

/-- After blanks an identifier or a quoted string. -/
def readWord (s : List Char) : Option (List Char × List Char) :=
  match sym ['"'] s with
  | none => readId s
  | some s =>
    match s.dropWhile (· ≠ '"') with
    | [] => none
    | _ :: r => if '\\' ∈ s.takeWhile (· ≠ '"') then none else some (s.takeWhile (· ≠ '"'), r)

/-- Attributes up to the closing bracket. -/
def readAttrs : ℕ → List Char → Option (List (List Char × List Char) × List Char)
  | 0, _ => none
  | fuel + 1, s => do
    let (k, s) ← readId s
    let s ← sym ['='] s
    let (v, s) ← readWord s
    match sym [','] s with
    | some s => (readAttrs fuel s).map fun x => ((k, v) :: x.1, x.2)
    | none => (sym [']'] s).map fun s => ([(k, v)], s)

/-- Statements up to the closing bracket, after which there are only blanks. -/
def readStmts : ℕ → List Char → Option (List DotStmt)
  | 0, _ => none
  | fuel + 1, s =>
    match sym ['}'] s with
    | some s => if s.all isSpace then some [] else none
    | none => do
      let (a, s) ← readId s
      let (x, s) ← match sym ['-', '>'] s with
        | some s => (readId s).map fun y => (.edge a y.1, y.2)
        | none => do
          let s ← sym ['['] s
          let (l, s) ← readAttrs (s.length + 1) s
          some (.node a l, s)
      let l ← readStmts fuel ((sym [';'] s).getD s)
      some (x :: l)

/-- A directed graph. -/
def read (s : List Char) : Option (List DotStmt) := do
  let s ← word "digraph".toList s
  let (_, s) ← readId s
  let s ← sym ['{'] s
  readStmts (s.length + 1) s

end Dot

/-- The names of the nodes of a graph, once for each statement. -/
def nodesOf (g : List DotStmt) : List (List Char) :=
  g.filterMap fun x => match x with
    | .node a _ => some a
    | .edge _ _ => none

/-- The edges of a graph, once for each statement. -/
def edgesOf (g : List DotStmt) : List (List Char × List Char) :=
  g.filterMap fun x => match x with
    | .node _ _ => none
    | .edge a b => some (a, b)

end Apollo.Spec
