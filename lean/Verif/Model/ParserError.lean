import Verif.Model.Parser

/-!
# Model of `Parser::error` (src/helpers/Parser.cpp:53-77)

The message that is written to standard error before the abort.  The stream is the whole text of a file;
`tellg` after the end of the file has been met returns -1 (libstdc++: the sentry of a stream whose `eofbit`
is set sets `failbit`).  Positions are unbounded (`int`).
-/

namespace Apollo

/-- src/helpers/Parser.cpp:60-68: the loop of `getline`.  `cur` is the part of the line read so far,
`consumed` the position.  The result is (`line`, `lineno`, `col`).  A last line without line break leaves
`col = -1`; the next `getline` fails at once and leaves `line` as it is. -/
def errorLoop (errPos : ℕ) : List Char → ℕ → ℕ → ℤ → List Char → List Char × ℕ × ℤ
  | cur, _, lineno, col, [] => if cur = [] then ([], lineno, col) else (cur, lineno + 1, -1)
  | cur, consumed, lineno, col, c :: s =>
    if c = '\n' then
      if errPos ≤ consumed + 1 then (cur, lineno, col)
      else errorLoop errPos [] (consumed + 1) (lineno + 1) ((consumed + 1 : ℕ) : ℤ) s
    else errorLoop errPos (cur ++ [c]) (consumed + 1) lineno col s

/-- src/helpers/Parser.cpp:55-70: (`line`, `lineno`, `col`) for the stream with all of the text `s`,
standing at position `errPos`. -/
def errorPlace (s : List Char) (errPos : ℕ) : List Char × ℕ × ℤ :=
  let (line, lineno, col) := errorLoop errPos [] 0 1 1 s
  (line, lineno, errPos - col)

/-- src/helpers/Parser.cpp:71-76. -/
def errorText (s : List Char) (errPos : ℕ) (msg : List Char) : List Char :=
  let (line, lineno, col) := errorPlace s errPos
  line ++ "\n".toList ++ List.replicate (col - 1).toNat ' ' ++ "^\n".toList ++
    "Line: ".toList ++ fmtInt lineno ++ " Col: ".toList ++ fmtInt col ++ ", Parse error: ".toList ++ msg ++
    "\n".toList

/-- src/helpers/Parser.cpp:17-45, 79-87: what `getNextToken` followed by `parseExpected(e)` writes to
standard error, if the stream with all of the text `full` has `s` left; `none` if nothing is written. -/
def expectMessage (full e s : List Char) : Option (List Char) :=
  match nextToken s with
  | .error _ => none
  | .ok (t, r) =>
    if t = e then none
    else some (errorText full (full.length - r.length)
      ("Expected \"".toList ++ e ++ "\" but parsed \"".toList ++ t ++ "\"".toList))

end Apollo
