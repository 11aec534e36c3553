import Verif.Num.Decimal

/-!
# The part of C++ in which trees are written

What a C++ compiler makes of the source of an evaluation function: a reader for the few statements that
occur (`return`, and `if` with an optional `else`), independent of how the source is written, and the
meaning of the statements.  Text outside of this part of the language is not read (`none`).
-/

namespace Apollo.Spec

/-- A sequence of statements.  `ite i v thn els` is `if (features[i] < v) { thn } else { els }`. -/
inductive CStmts
  | done
  | ret (c : ℤ) (next : CStmts)
  | ite (i : ℤ) (v : ℚ) (thn els next : CStmts)

/-- Executing the statements: `none` if control reaches their end. -/
def CStmts.exec : CStmts → List ℚ → Option (Res ℤ)
  | .done, _ => none
  | .ret c _, _ => some (.ok c)
  | .ite i v thn els next, f =>
    match if i < 0 then none else f[i.toNat]? with
    | none => some (.error (.ub .outOfBounds))
    | some x =>
      match if x < v then thn.exec f else els.exec f with
      | some r => some r
      | none => next.exec f

/-- Calling a function with this body that returns a value: flowing off the end is undefined. -/
def CStmts.call (b : CStmts) (f : List ℚ) : Res ℤ := (b.exec f).getD (.error (.ub .dangling))

/-- A character of an identifier. -/
def isIdent (c : Char) : Bool := c.isAlphanum || c = '_'

/-- After blanks the symbol `w`: the text after it. -/
def sym (w s : List Char) : Option (List Char) :=
  let s := s.dropWhile isSpace
  if w.isPrefixOf s then some (s.drop w.length) else none

/-- After blanks the word `w`, which ends there: the text after it. -/
def word (w s : List Char) : Option (List Char) :=
  match sym w s with
  | some (c :: r) => if isIdent c then none else some (c :: r)
  | x => x

/-- Read statements up to the first text that is none. -/
def readStmts : ℕ → List Char → Option (CStmts × List Char)
  | 0, _ => none
  | fuel + 1, s =>
    match word "return".toList s with
    | some s => do
      let (c, s) ← readInt s
      let s ← sym ";".toList s
      let (next, s) ← readStmts fuel s
      some (.ret c next, s)
    | none =>
      match word "if".toList s with
      | some s => do
        let s ← sym "(".toList s
        let s ← word "features".toList s
        let s ← sym "[".toList s
        let (i, s) ← readInt s
        let s ← sym "]".toList s
        let s ← sym "<".toList s
        let (v, s) ← readDecimal (s.dropWhile isSpace)
        let s ← sym ")".toList s
        let s ← sym "{".toList s
        let (thn, s) ← readStmts fuel s
        let s ← sym "}".toList s
        let (els, s) ← match word "else".toList s with
          | none => some (.done, s)
          | some s => do
            let s ← sym "{".toList s
            let (els, s) ← readStmts fuel s
            let s ← sym "}".toList s
            some (els, s)
        let (next, s) ← readStmts fuel s
        some (.ite i (rnd64 v) thn els next, s)
      | none => some (.done, s.dropWhile isSpace)

/-- Read a source with one function of a vector of floats that has C linkage: its name and its body. -/
def readSource (s : List Char) : Option (List Char × CStmts) := do
  let s ← sym "#include <vector>\n".toList s
  let s ← word "extern".toList s
  let s ← sym "\"C\"".toList s
  let s ← sym "{".toList s
  let s ← word "int".toList s
  let name := (s.dropWhile isSpace).takeWhile isIdent
  let s := (s.dropWhile isSpace).dropWhile isIdent
  let s ← sym "(".toList s
  let s ← sym "const std::vector<float> &features".toList s
  let s ← sym ")".toList s
  let s ← sym "{".toList s
  let (body, s) ← readStmts (s.length + 1) s
  let s ← sym "}".toList s
  let s ← sym "}".toList s
  if s.all isSpace then some (name, body) else none

/-- The text of a here-document in the shell up to the line `EOF`; `start`: at the start of a line. -/
def untilEOF : Bool → List Char → Option (List Char)
  | _, [] => none
  | start, c :: s =>
    if start && "EOF\n".toList.isPrefixOf (c :: s) then some []
    else (untilEOF (c == '\n') s).map (c :: ·)

/-- A command for the shell that compiles its here-document into a library: the name of the library and
the source.  Texts with characters that the shell expands are not read. -/
def readCommand (s : List Char) : Option (List Char × List Char) := do
  let s ← sym "c++ -x c++ -O0 -shared -fPIC -o ".toList s
  let path := s.takeWhile (· ≠ ' ')
  let s ← sym "- << EOF\n".toList (s.dropWhile (· ≠ ' '))
  if path.any (· ∈ "$`\\".toList) || s.any (· ∈ "$`\\".toList) then none
  else
    let src ← untilEOF true s
    some (path, src)

end Apollo.Spec
