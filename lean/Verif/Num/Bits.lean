import Verif.Num.Round
import Verif.Base.Res

/-!
# Numbers in memory

The object representations of `int`, `float` and `double` on the platform of the library (little
endian, two's complement, IEEE 754 binary32 and binary64).  They matter where the library copies
memory: the buffers of MPI (src/Apollo.cpp:290-327) and the files of PolicyNet
(src/models/PolicyNet.cpp:598-685).  A byte is a character below 256.
-/

namespace Apollo

/-- `n` bytes of the number `v`, lowest first. -/
def bytesLE : ℕ → ℕ → List Char
  | 0, _ => []
  | n + 1, v => Char.ofNat (v % 256) :: bytesLE n (v / 256)

/-- The number of bytes, lowest first. -/
def ofBytesLE : List Char → ℕ
  | [] => 0
  | c :: s => c.toNat + 256 * ofBytesLE s

/-- Two's complement with `n` bytes. -/
def encInt (n : ℕ) (v : ℤ) : List Char := bytesLE n (v % 256 ^ n).toNat

/-- Two's complement with as many bytes as given. -/
def decInt (s : List Char) : ℤ :=
  let v : ℕ := ofBytesLE s
  if 2 * v < 256 ^ s.length then v else (v : ℤ) - 256 ^ s.length

/-- An IEEE 754 binary format: precision with the hidden bit, least exponent of the last place,
bits of the exponent field. -/
structure Fmt where
  p : ℕ
  emin : ℤ
  ebits : ℕ

/-- binary32. -/
def fmt32 : Fmt := ⟨24, -149, 8⟩

/-- binary64. -/
def fmt64 : Fmt := ⟨53, -1074, 11⟩

namespace Fmt

/-- The weight of the sign bit. -/
def sign (F : Fmt) : ℕ := 2 ^ (F.p - 1 + F.ebits)

/-- Bit pattern without sign: the exponent field above the fraction.  Without the hidden bit the
exponent field is one less, so that adding the significand gives the pattern in both cases. -/
def magnitude (F : Fmt) (x : ℚ) : ℕ :=
  if x = 0 then 0 else
  (ulpExp F.p F.emin x - F.emin).toNat * 2 ^ (F.p - 1) + ⌊|x| / 2 ^ ulpExp F.p F.emin x⌋.toNat

/-- The bit pattern of a finite number; zero has the positive sign. -/
def toBits (F : Fmt) (x : ℚ) : ℕ := (if x < 0 then F.sign else 0) + F.magnitude x

/-- The number of a bit pattern without sign; `none` for infinity and NaN. -/
def ofMagnitude (F : Fmt) (c : ℕ) : Option ℚ :=
  let q := c / 2 ^ (F.p - 1)
  let r := c % 2 ^ (F.p - 1)
  if 2 ^ F.ebits ≤ q + 1 then none
  else if q = 0 then some (r * 2 ^ F.emin)
  else some (((2 ^ (F.p - 1) + r : ℕ) : ℚ) * 2 ^ (F.emin + q - 1))

/-- The number of a bit pattern; `none` for infinity and NaN. -/
def ofBits (F : Fmt) (c : ℕ) : Option ℚ :=
  if c < F.sign then F.ofMagnitude c else (F.ofMagnitude (c - F.sign)).map (- ·)

/-- The finite numbers of the format. -/
def Finite (F : Fmt) (x : ℚ) : Prop :=
  Representable F.p F.emin x ∧ |x| < 2 ^ (F.emin + 2 ^ F.ebits - 3 + F.p)

end Fmt

/-- The bytes of a `float`. -/
def encFloat (x : ℚ) : List Char := bytesLE 4 (fmt32.toBits x)

/-- The `float` of four bytes; infinities and NaN are not modelled. -/
def decFloat (s : List Char) : Res ℚ :=
  match fmt32.ofBits (ofBytesLE s) with
  | some x => .ok x
  | none => .error .unmodelled

/-- The bytes of a `double`. -/
def encDouble (x : ℚ) : List Char := bytesLE 8 (fmt64.toBits x)

/-- The `double` of eight bytes; infinities and NaN are not modelled. -/
def decDouble (s : List Char) : Res ℚ :=
  match fmt64.ofBits (ofBytesLE s) with
  | some x => .ok x
  | none => .error .unmodelled

/-! ## Round trips -/

theorem length_bytesLE (n v : ℕ) : (bytesLE n v).length = n := by
  induction n generalizing v with
  | zero => rfl
  | succ n ih => simp [bytesLE, ih]

theorem toNat_ofNat_byte {b : ℕ} (h : b < 256) : (Char.ofNat b).toNat = b := by
  have hv : b.isValidChar := Or.inl (by omega)
  rw [Char.ofNat, dif_pos hv]
  simp [Char.toNat, Char.ofNatAux]
  

theorem ofBytesLE_bytesLE (n v : ℕ) (h : v < 256 ^ n) : ofBytesLE (bytesLE n v) = v := by
  induction n generalizing v with
  | zero => simp only [pow_zero, Nat.lt_one_iff] at h; subst h; rfl
  | succ n ih =>
    simp only [bytesLE, ofBytesLE]
    rw [ih _ (by rw [pow_succ] at h; omega), toNat_ofNat_byte (Nat.mod_lt _ (by norm_num))]
    omega

theorem length_encInt (n : ℕ) (v : ℤ) : (encInt n v).length = n := length_bytesLE _ _

theorem decInt_encInt (n : ℕ) {v : ℤ} (h1 : -(256 ^ n : ℤ) ≤ 2 * v) (h2 : 2 * v < 256 ^ n) :
    decInt (encInt n v) = v := by
  have hpos : (0 : ℤ) < 256 ^ n := by positivity
  have hm := Int.emod_nonneg v hpos.ne'
  have hlt := Int.emod_lt_of_pos v hpos
  unfold decInt
  rw [length_encInt]
  have e : ((ofBytesLE (encInt n v) : ℕ) : ℤ) = v % 256 ^ n := by
    unfold encInt
    rw [ofBytesLE_bytesLE _ _ (by zify; rw [Int.toNat_of_nonneg hm]; exact hlt),
      Int.toNat_of_nonneg hm]
  have e' : (2 * ofBytesLE (encInt n v) < 256 ^ n) ↔ 2 * (v % 256 ^ n) < 256 ^ n := by
    rw [← e]; norm_cast
  simp only [e', e]
  by_cases hv : 0 ≤ v
  · rw [Int.emod_eq_of_lt hv (by omega), if_pos h2]
  · have : v % 256 ^ n = v + 256 ^ n := by
      rw [← Int.add_emod_right, Int.emod_eq_of_lt (by omega) (by omega)]
    rw [this, if_neg (by omega)]
    omega

namespace Fmt

theorem significand {F : Fmt} (hp : 1 ≤ F.p) {x : ℚ} (h : Representable F.p F.emin x)
    (h0 : x ≠ 0) :
    ∃ m : ℕ, |x| = m * 2 ^ ulpExp F.p F.emin x ∧ m < 2 ^ F.p ∧
      (F.emin < ulpExp F.p F.emin x → 2 ^ (F.p - 1) ≤ m) := by
  have hr := rnd_of_representable hp h
  set e := ulpExp F.p F.emin x with he
  have h2 := two_zpow_pos e
  have hx : |x| = ((roundEven (x / 2 ^ e)).natAbs : ℚ) * 2 ^ e := by
    conv_lhs => rw [← hr, rnd, ← he]
    rw [abs_mul, abs_of_pos h2, Nat.cast_natAbs, Int.cast_abs]
  refine ⟨(roundEven (x / 2 ^ e)).natAbs, hx, ?_, ?_⟩
  · have hlt := abs_lt_two_zpow_ulpExp (p := F.p) (emin := F.emin) x
    rw [← he, hx, zpow_add₀ (by norm_num), zpow_natCast] at hlt
    have := lt_of_mul_lt_mul_right hlt h2.le
    exact_mod_cast this
  · intro hlt
    have he' : e = Int.log 2 |x| - ((F.p : ℤ) - 1) := by
      rw [he, ulpExp] at hlt ⊢
      rcases max_choice (Int.log 2 |x| - ((F.p : ℤ) - 1)) F.emin with h | h
      · exact h
      · rw [h] at hlt; exact absurd hlt (lt_irrefl _)
    have hl := Int.zpow_log_le_self (b := 2) (by norm_num) (abs_pos.2 h0)
    have e2 : ((2 : ℕ) : ℚ) ^ Int.log 2 |x| = 2 ^ (F.p - 1) * 2 ^ e := by
      rw [← zpow_natCast, Nat.cast_ofNat, ← zpow_add₀ (by norm_num)]
      congr 1
      rw [he']
      omega
    rw [e2, hx] at hl
    have := le_of_mul_le_mul_right hl h2
    exact_mod_cast this

theorem ofMagnitude_magnitude {F : Fmt} (hp : 1 ≤ F.p) (hb : 2 ≤ F.ebits) {x : ℚ}
    (h : F.Finite x) : F.magnitude x < F.sign ∧ F.ofMagnitude (F.magnitude x) = some |x| := by
  obtain ⟨hr, hbig⟩ := h
  have hB : 2 ≤ 2 ^ F.ebits := le_trans (by norm_num) (Nat.pow_le_pow_right (by norm_num) hb)
  have hP : 0 < 2 ^ (F.p - 1) := by positivity
  unfold magnitude
  by_cases h0 : x = 0
  · rw [if_pos h0]
    refine ⟨by unfold sign; positivity, ?_⟩
    subst h0
    simp only [ofMagnitude, Nat.zero_div, Nat.zero_mod]
    rw [if_neg (by omega)]
    simp
  rw [if_neg h0]
  obtain ⟨m, hx, hm, hn⟩ := significand hp hr h0
  set e := ulpExp F.p F.emin x with he
  have h2 := two_zpow_pos e
  have hmin : F.emin ≤ e := le_max_right _ _
  have hfl : ⌊|x| / 2 ^ e⌋.toNat = m := by
    rw [hx, mul_div_assoc, div_self h2.ne', mul_one]; simp
  rw [hfl]
  obtain ⟨d, hd⟩ := Int.le.dest hmin
  have hd' : (e - F.emin).toNat = d := by omega
  rw [hd']
  have hpp : 2 ^ F.p = 2 * 2 ^ (F.p - 1) := by rw [← pow_succ']; congr 1; omega
  have hmpos : 0 < m := by
    rcases Nat.eq_zero_or_pos m with rfl | h
    · rw [Nat.cast_zero, zero_mul, abs_eq_zero] at hx; exact absurd hx h0
    · exact h
  have hdB : d + 3 ≤ 2 ^ F.ebits ∨ (d = 0 ∧ m < 2 ^ (F.p - 1)) := by
    by_contra hcon
    rw [not_or, not_le] at hcon
    have hms : 2 ^ (F.p - 1) ≤ m := by
      rcases Nat.eq_zero_or_pos d with hd0 | hd0
      · by_contra hlt; exact hcon.2 ⟨hd0, by omega⟩
      · exact hn (by omega)
    rw [hx] at hbig
    have : (2 : ℚ) ^ (F.emin + 2 ^ F.ebits - 3 + F.p) ≤ m * 2 ^ e := by
      have e1 : (2 : ℚ) ^ (F.emin + 2 ^ F.ebits - 3 + F.p) =
          2 ^ (F.p - 1) * 2 ^ (F.emin + 2 ^ F.ebits - 2) := by
        rw [← zpow_natCast, ← zpow_add₀ (by norm_num)]
        congr 1
        omega
      rw [e1]
      have hB' : ((2 ^ F.ebits : ℕ) : ℤ) = 2 ^ F.ebits := by push_cast; rfl
      exact mul_le_mul (by exact_mod_cast hms)
        (zpow_le_zpow_right₀ (by norm_num) (by rw [← hd, ← hB']; omega)) (two_zpow_pos _).le (Nat.cast_nonneg _)
    exact absurd hbig (not_lt.2 this)
  unfold sign ofMagnitude
  rw [pow_add]
  rcases lt_or_ge m (2 ^ (F.p - 1)) with hlt | hge
  · have hd0 : d = 0 := by
      rcases Nat.eq_zero_or_pos d with h | h
      · exact h
      · have := hn (by omega); omega
    subst hd0
    rw [zero_mul, zero_add]
    refine ⟨by nlinarith, ?_⟩
    rw [Nat.div_eq_of_lt hlt, Nat.mod_eq_of_lt hlt]
    simp only
    rw [if_neg (by omega), if_pos trivial, hx]
    congr 3
    omega
  · have hdB : d + 3 ≤ 2 ^ F.ebits := by rcases hdB with h | ⟨_, h⟩ <;> omega
    obtain ⟨k, rfl⟩ := Nat.exists_eq_add_of_le hge
    have hk : k < 2 ^ (F.p - 1) := by omega
    have e1 : d * 2 ^ (F.p - 1) + (2 ^ (F.p - 1) + k) = k + 2 ^ (F.p - 1) * (d + 1) := by ring
    rw [e1]
    refine ⟨by nlinarith, ?_⟩
    rw [Nat.add_mul_div_left _ _ hP, Nat.div_eq_of_lt hk, Nat.add_mul_mod_self_left,
      Nat.mod_eq_of_lt hk, zero_add]
    simp only
    rw [if_neg (by omega), if_neg (by omega), hx]
    congr 3
    push_cast
    omega

/-- Every finite number is read back from its bits. -/
theorem ofBits_toBits {F : Fmt} (hp : 1 ≤ F.p) (hb : 2 ≤ F.ebits) {x : ℚ} (h : F.Finite x) :
    F.toBits x < 2 * F.sign ∧ F.ofBits (F.toBits x) = some x := by
  obtain ⟨h1, h2⟩ := ofMagnitude_magnitude hp hb h
  unfold toBits ofBits
  split
  next hx =>
    refine ⟨by omega, ?_⟩
    rw [if_neg (by omega), Nat.add_sub_cancel_left, h2]
    simp [abs_of_neg hx]
  next hx =>
    rw [zero_add]
    refine ⟨by omega, ?_⟩
    rw [if_pos h1, h2, abs_of_nonneg (not_lt.1 hx)]

end Fmt

theorem length_encFloat (x : ℚ) : (encFloat x).length = 4 := length_bytesLE _ _

theorem length_encDouble (x : ℚ) : (encDouble x).length = 8 := length_bytesLE _ _

theorem decFloat_encFloat {x : ℚ} (h : fmt32.Finite x) : decFloat (encFloat x) = .ok x := by
  obtain ⟨h1, h2⟩ := Fmt.ofBits_toBits (F := fmt32) (by decide) (by decide) h
  unfold decFloat encFloat
  rw [ofBytesLE_bytesLE _ _ (lt_of_lt_of_le h1 (by decide)), h2]

theorem decDouble_encDouble {x : ℚ} (h : fmt64.Finite x) : decDouble (encDouble x) = .ok x := by
  obtain ⟨h1, h2⟩ := Fmt.ofBits_toBits (F := fmt64) (by decide) (by decide) h
  unfold decDouble encDouble
  rw [ofBytesLE_bytesLE _ _ (lt_of_lt_of_le h1 (by decide)), h2]

end Apollo
