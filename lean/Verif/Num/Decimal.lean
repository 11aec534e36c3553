import Verif.Base.Res
import Verif.Num.Round

/-!
# Decimal text of numbers

* `fmtInt`, `fmtG6`: what `std::ostream::operator<<` writes for integers and for `float`/`double`
  with the default format (`%g`, precision 6; the Apollo sources never change it).
* `stoi`, `stoul`, `stof`, `stod`: the C++ library readers used by the Apollo sources.  They return the
  value and the number of characters consumed.
-/

namespace Apollo

/-- The character of a decimal digit. -/
def digitChar (d : ℕ) : Char := Char.ofNat (48 + d)

def isDigit (c : Char) : Bool := decide (48 ≤ c.toNat) && decide (c.toNat ≤ 57)

def digitVal (c : Char) : ℕ := c.toNat - 48

/-- Value of a digit string. -/
def valDigits (l : List Char) : ℕ := l.foldl (fun a c => 10 * a + digitVal c) 0

/-- Decimal digits of `n`, most significant first, by repeated division (`fuel` > n suffices). -/
def natDigitsAux : ℕ → ℕ → List Char
  | 0, _ => []
  | fuel + 1, n =>
    if n < 10 then [digitChar n] else natDigitsAux fuel (n / 10) ++ [digitChar (n % 10)]

/-- Decimal digits of `n` without leading zeros. -/
def natDigits (n : ℕ) : List Char := natDigitsAux (n + 1) n

/-- The `k` low decimal digits of `n`, most significant first. -/
def fixDigits : ℕ → ℕ → List Char
  | 0, _ => []
  | k + 1, n => fixDigits k (n / 10) ++ [digitChar (n % 10)]

/-- `os << n` for an integer type. -/
def fmtInt (n : ℤ) : List Char :=
  if n < 0 then '-' :: natDigits n.natAbs else natDigits n.natAbs

/-- Remove trailing zeros, as `%g` does for the fraction. -/
def stripZeros (l : List Char) : List Char := (l.reverse.dropWhile (· = '0')).reverse

/-- A decimal exponent as `%g` writes it: sign and at least two digits. -/
def fmtExp (e : ℤ) : List Char :=
  (if e < 0 then '-' else '+') ::
    (if e.natAbs < 10 then '0' :: natDigits e.natAbs else natDigits e.natAbs)

/-- Exponent part of a number, if any. -/
def fmtExpOpt : Option ℤ → List Char
  | none => []
  | some e => 'e' :: fmtExp e

/-- sign, integer part, fraction (with point if non-empty) and exponent. -/
def render (neg : Bool) (ip fp : List Char) (ex : Option ℤ) : List Char :=
  (if neg then ['-'] else []) ++ ip ++ (if fp = [] then [] else '.' :: fp) ++ fmtExpOpt ex

/-- Position of the last of six significant digits of `q`. -/
def unit6 (q : ℚ) : ℤ := Int.log 10 |q| - 5

/-- `q` rounded to six significant decimal digits (ties to even, as glibc's printf does). -/
def round6 (q : ℚ) : ℚ := roundEven (q / 10 ^ unit6 q) * 10 ^ unit6 q

/-- Six significant digits `n` (100000 ≤ n ≤ 999999) and the decimal exponent of the first, for x > 0. -/
def sig6 (x : ℚ) : ℕ × ℤ :=
  let n := (roundEven (x / 10 ^ unit6 x)).toNat
  if n = 1000000 then (100000, Int.log 10 x + 1) else (n, Int.log 10 x)

/-- Integer part, fraction and exponent chosen by `%g` for x > 0. -/
def parts6 (x : ℚ) : List Char × List Char × Option ℤ :=
  let n := (sig6 x).1
  let e := (sig6 x).2
  let D := fixDigits 6 n
  if 0 ≤ e ∧ e < 6 then
    (D.take (e.toNat + 1), stripZeros (D.drop (e.toNat + 1)), none)
  else if -4 ≤ e ∧ e < 0 then
    (['0'], List.replicate (-e - 1).toNat '0' ++ stripZeros D, none)
  else
    (D.take 1, stripZeros (D.drop 1), some e)

/-- `os << q` for a finite `float` or `double` with default format. -/
def fmtG6 (q : ℚ) : List Char :=
  if q = 0 then ['0']
  else
    let (ip, fp, ex) := parts6 |q|
    render (q < 0) ip fp ex

/-! ## Readers -/

/-- `std::isspace` in the "C" locale. -/
def isSpace (c : Char) : Bool :=
  c = ' ' || c = '\t' || c = '\n' || c = '\r' || c = Char.ofNat 11 || c = Char.ofNat 12

/-- Optional sign: (negative?, rest). -/
def readSign : List Char → Bool × List Char
  | '-' :: r => (true, r)
  | '+' :: r => (false, r)
  | s => (false, s)

/-- Optional exponent `e[+-]digits`: (value, rest); the `e` is not consumed without digits. -/
def readExp (s : List Char) : ℤ × List Char :=
  match s with
  | c :: r =>
    if c = 'e' ∨ c = 'E' then
      let sr := readSign r
      let ds := sr.2.takeWhile isDigit
      if ds = [] then (0, s)
      else (if sr.1 then -(valDigits ds : ℤ) else (valDigits ds : ℤ), sr.2.dropWhile isDigit)
    else (0, s)
  | [] => (0, s)

/-- Optional fraction: (digits, rest). -/
def readFrac (s : List Char) : List Char × List Char :=
  match s with
  | '.' :: r => (r.takeWhile isDigit, r.dropWhile isDigit)
  | _ => ([], s)

/-- Decimal floating point prefix of `s` (no leading blanks): exact value and rest. -/
def readDecimal (s : List Char) : Option (ℚ × List Char) :=
  let sr := readSign s
  let ip := sr.2.takeWhile isDigit
  let fr := readFrac (sr.2.dropWhile isDigit)
  if ip = [] ∧ fr.1 = [] then none
  else
    let er := readExp fr.2
    let v : ℚ := valDigits (ip ++ fr.1) * 10 ^ (er.1 - (fr.1.length : ℤ))
    some (if sr.1 then -v else v, er.2)

/-- Literals which `strtod` accepts but which are not modelled: hexadecimal, infinity, NaN. -/
def isSpecialFloat (s : List Char) : Bool :=
  match (readSign s).2 with
  | '0' :: x :: _ => x = 'x' || x = 'X'
  | a :: b :: c :: _ =>
    (a.toLower = 'i' && b.toLower = 'n' && c.toLower = 'f') ||
    (a.toLower = 'n' && b.toLower = 'a' && c.toLower = 'n')
  | _ => false

/-- `std::stof`/`std::stod` with precision `p`, least exponent `emin`, largest finite value `maxv`
and least normal value `minn`.  `strtod` rounds the exact decimal value to nearest; it reports ERANGE
(so the C++ wrapper throws `out_of_range`) on overflow and when the result is subnormal and inexact. -/
def readFloat (p : ℕ) (emin : ℤ) (maxv minn : ℚ) (s : List Char) : Res (ℚ × ℕ) :=
  let s' := s.dropWhile isSpace
  if isSpecialFloat s' then .error .unmodelled
  else
    match readDecimal s' with
    | none => .error .throw
    | some (v, rest) =>
      let r := rnd p emin v
      if maxv < |r| then .error .throw
      else if |r| < minn ∧ r ≠ v then .error .throw
      else .ok (r, s.length - rest.length)

/-- Largest finite float, (2^24-1)*2^104. -/
def maxFloat : ℚ := (2 ^ 24 - 1) * 2 ^ 104

/-- Largest finite double, (2^53-1)*2^971. -/
def maxDouble : ℚ := (2 ^ 53 - 1) * 2 ^ 971

/-- `std::stof`. -/
def stof : List Char → Res (ℚ × ℕ) := readFloat 24 (-149) maxFloat (2 ^ (-126 : ℤ))

/-- `std::stod`. -/
def stod : List Char → Res (ℚ × ℕ) := readFloat 53 (-1074) maxDouble (2 ^ (-1022 : ℤ))

/-- Signed decimal integer prefix after optional blanks: (value, rest). -/
def readInt (s : List Char) : Option (ℤ × List Char) :=
  let sr := readSign (s.dropWhile isSpace)
  let ds := sr.2.takeWhile isDigit
  if ds = [] then none
  else some (if sr.1 then -(valDigits ds : ℤ) else (valDigits ds : ℤ), sr.2.dropWhile isDigit)

/-- `std::stoi`: throws `invalid_argument` without digits, `out_of_range` outside of int. -/
def stoi (s : List Char) : Res (ℤ × ℕ) :=
  match readInt s with
  | none => .error .throw
  | some (v, rest) =>
    if v < -2 ^ 31 ∨ 2 ^ 31 ≤ v then .error .throw else .ok (v, s.length - rest.length)

/-- `std::stoul`/`std::stoull` (64 bit): a minus sign negates modulo 2^64. -/
def stoul (s : List Char) : Res (ℕ × ℕ) :=
  match readInt s with
  | none => .error .throw
  | some (v, rest) =>
    if 2 ^ 64 ≤ v.natAbs then .error .throw
    else .ok ((v % 2 ^ 64).toNat, s.length - rest.length)

end Apollo
