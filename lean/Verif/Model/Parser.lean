import Verif.Num.Decimal

/-!
# Model of `Parser` (src/helpers/Parser.cpp, src/helpers/Parser.h)

A stream is the list of characters not yet consumed.  The model has two levels: `getNextTokenRaw`
follows the C++ loop with its 64 byte buffer, `nextToken` is the same function without the buffer
(`C08` proves that they agree).  The file parsers use the second level.
-/

namespace Apollo

/-- The NUL character. -/
def nul : Char := Char.ofNat 0

/-- src/helpers/Parser.cpp:24-31: skip blanks and `#` comments (`inComment`: inside of
`is.ignore(max, '\n')`).  Dereferencing the stream iterator at the end is undefined. -/
def skipBlanks : Bool → List Char → Res (List Char)
  | _, [] => .error (.ub .endOfStream)
  | true, c :: s => if c = '\n' then skipBlanks false s else skipBlanks true s
  | false, c :: s =>
    if isSpace c then skipBlanks false s
    else if c = '#' then skipBlanks true s
    else .ok (c :: s)

/-- src/helpers/Parser.h:24. -/
def BUFSIZE : ℕ := 64

/-- A store into `buffer`; outside of the array it is undefined. -/
def bufSet (buf : List Char) (i : ℕ) (c : Char) : Res (List Char) :=
  if i < buf.length then .ok (buf.set i c) else .error (.ub .outOfBounds)

/-- src/helpers/Parser.cpp:33-38: copy until white space; `fatal_error` when the buffer is full. -/
def copyToken : List Char → ℕ → List Char → Res (List Char × ℕ × List Char)
  | _, _, [] => .error (.ub .endOfStream)
  | buf, idx, c :: s =>
    if isSpace c then .ok (buf, idx, c :: s)
    else do
      let buf ← bufSet buf idx c
      if idx + 1 ≥ BUFSIZE then .error .abort else copyToken buf (idx + 1) s

/-- src/helpers/Parser.cpp:17-45 with the explicit buffer: (buffer, rest of the stream). -/
def getNextTokenRaw (buf : List Char) (s : List Char) : Res (List Char × List Char) :=
  match s with
  | [] => do
    let buf ← bufSet buf 0 nul
    .ok (buf, [])
  | s => do
    let s ← skipBlanks false s
    let (buf, idx, s) ← copyToken buf 0 s
    let buf ← bufSet buf idx nul
    .ok (buf, s)

/-- The C string starting at the beginning of a buffer. -/
def cstr (buf : List Char) : List Char := buf.takeWhile (· ≠ nul)

/-- src/helpers/Parser.cpp:17-45 without the buffer: (token as C string, rest of the stream). -/
def nextToken (s : List Char) : Res (List Char × List Char) :=
  match s with
  | [] => .ok ([], [])
  | s => do
    let s ← skipBlanks false s
    let t := s.takeWhile (fun c => !isSpace c)
    let r := s.dropWhile (fun c => !isSpace c)
    if BUFSIZE ≤ t.length then .error .abort
    else if r = [] then .error (.ub .endOfStream)
    else .ok (cstr t, r)

/-- State of a `Parser` (src/helpers/Parser.h:22-26): rest of the stream, C string in `buffer`, and
`token - buffer`. -/
structure PS where
  is : List Char
  buf : List Char
  off : ℕ
  deriving DecidableEq

/-- The C string `token`. -/
def PS.tok (s : PS) : List Char := s.buf.drop s.off

/-- Parser actions. -/
abbrev P := StateT PS Res

/-- Failure of a parser action. -/
def P.fail {α : Type} (e : Err) : P α := fun _ => .error e

/-- src/helpers/Parser.cpp:17-45. -/
def getNextToken : P Unit := fun s => do
  let (t, r) ← nextToken s.is
  .ok ((), { is := r, buf := t, off := 0 })

/-- src/helpers/Parser.cpp:12-15. -/
def getTokenEquals (e : List Char) : P Bool := fun s => .ok (s.tok = e, s)

/-- src/helpers/Parser.cpp:47-51. -/
def getNextTokenEquals (e : List Char) : P Bool := do
  getNextToken
  getTokenEquals e

/-- src/helpers/Parser.cpp:79-87 (and 53-77, which ends in `abort`). -/
def parseExpected (e : List Char) : P Unit := fun s =>
  if s.tok = e then .ok ((), s) else .error .abort

/-- src/helpers/Parser.cpp:89-129: read a number from `token` and set `token = &buffer[pos]`
(relative to the start of the buffer, as in the source). -/
def parseWith {α : Type} (f : List Char → Res (α × ℕ)) : P α := fun s => do
  let (v, pos) ← f s.tok
  .ok (v, { s with off := pos })

/-- src/helpers/Parser.cpp:89-95. -/
def parseInt : P ℤ := parseWith stoi

/-- src/helpers/Parser.cpp:97-103. -/
def parseDouble : P ℚ := parseWith stod

/-- src/helpers/Parser.cpp:105-111. -/
def parseFloat : P ℚ := parseWith stof

/-- src/helpers/Parser.cpp:114-120: `unsigned int` from `std::stoul` (conversion modulo 2^32). -/
def parseUnsigned : P ℕ := do
  let n ← parseWith stoul
  pure (n % 2 ^ 32)

/-- src/helpers/Parser.cpp:123-129: `unsigned long` from `std::stoull`. -/
def parseUnsignedLong : P ℕ := parseWith stoul

/-- Call getNextToken, then parseExpected (the frequent pair in the sources). -/
def expectNext (e : List Char) : P Unit := do
  getNextToken
  parseExpected e

end Apollo
