import Verif.Model.Factory

/-!
# Model of `Apollo::getCallpathOffset`

Source: src/Apollo.cpp:96-118.  `backtrace` and `backtrace_symbols` are the platform's: their result is
the argument `frames` (the description of the innermost frame first).  A null result of
`backtrace_symbols` (no memory) is not modelled.
-/

namespace Apollo

namespace Callpath

/-- `std::string::npos`. -/
def npos : ℕ := 2 ^ 64 - 1

/-- `s.find(c)` and `s.find_first_of(c)` as a `size_t` (src/Apollo.cpp:111-112). -/
def findFirst (c : Char) (s : Str) : ℕ := (findChar c s).getD npos

/-- `s.find_last_of(cs)` as a `size_t` (src/Apollo.cpp:108-110, 113): the last position holding one of
`cs`. -/
def findLastOf (cs : List Char) (s : Str) : ℕ :=
  match s.reverse.findIdx? (fun c => decide (c ∈ cs)) with
  | none => npos
  | some i => s.length - 1 - i

/-- `s.substr(pos, n)`: throws `std::out_of_range` when `pos` is past the end. -/
def substr (s : Str) (pos n : ℕ) : Res Str :=
  if s.length < pos then .error .throw else .ok ((s.drop pos).take n)

/-- `size_t` addition. -/
def addSize (a b : ℕ) : ℕ := (a + b) % 2 ^ 64

/-- The conversion of a `size_t` to `unsigned`. -/
def toUnsigned (a : ℕ) : ℕ := a % 2 ^ 32

/-- `unsigned` subtraction of unsigned values. -/
def subUnsigned (a b : ℕ) : ℕ := (a + (2 ^ 32 - b)) % 2 ^ 32

/-- src/Apollo.cpp:108-117: the region id made of the description of a frame. -/
def regionId (info : Str) : Res Str := do
  let m ← substr info 0 (findLastOf [' '] info)
  let m ← substr m (addSize (findLastOf ['/', '\\'] m) 1) npos
  let m ← substr m 0 (findLastOf ['('] m)
  let a ← substr info (findFirst ' ' info) npos
  let start := toUnsigned (addSize (findFirst '[' a) 1)
  let stop := toUnsigned (findLastOf [']'] a)
  let a ← substr a start (subUnsigned stop start)
  .ok (m ++ '@' :: a)

/-- src/Apollo.cpp:96-118.  With `walk ≤ 0` the array has no element `walk - 1`; with fewer frames than
`walk` the last elements of the buffer handed to `backtrace_symbols` were never written. -/
def getCallpathOffset (frames : List Str) (walk : ℤ) : Res Str :=
  if walk ≤ 0 then .error (.ub .outOfBounds)
  else
    match frames[walk.toNat - 1]? with
    | none => .error (.ub .uninit)
    | some info => regionId info

end Callpath

end Apollo
