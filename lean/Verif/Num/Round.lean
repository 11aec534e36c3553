import Mathlib.Data.Int.Log
import Mathlib.Data.Rat.Floor
import Mathlib.Tactic.Linarith
import Mathlib.Tactic.Ring
import Mathlib.Tactic.NormNum
import Mathlib.Tactic.FieldSimp
import Mathlib.Tactic.Positivity

/-!
# Binary floating point: round to nearest, ties to even

A finite float is the rational number it denotes.  `rnd p emin` is the IEEE-754 rounding of an exact
result to precision `p` with smallest exponent `emin` (gradual underflow).  Overflow, infinities,
NaN and the sign of zero are not modelled.
-/

namespace Apollo

/-- Round a rational to the nearest integer, ties to even. -/
def roundEven (x : ℚ) : ℤ :=
  let f := ⌊x⌋
  let d := x - f
  if d < 1/2 then f else if 1/2 < d then f + 1 else if f % 2 = 0 then f else f + 1

/-- Exponent of the unit in the last place used for `q`. -/
def ulpExp (p : ℕ) (emin : ℤ) (q : ℚ) : ℤ := max (Int.log 2 |q| - ((p : ℤ) - 1)) emin

/-- Round to nearest even with precision `p` bits and least exponent `emin`. -/
def rnd (p : ℕ) (emin : ℤ) (q : ℚ) : ℚ :=
  roundEven (q / 2 ^ ulpExp p emin q) * 2 ^ ulpExp p emin q

/-- Rounding to `float` (binary32). -/
def rnd32 : ℚ → ℚ := rnd 24 (-149)

/-- Rounding to `double` (binary64). -/
def rnd64 : ℚ → ℚ := rnd 53 (-1074)

/-- `q` is the value of a finite number with precision `p` and least exponent `emin`
(no upper bound on the exponent). -/
def Representable (p : ℕ) (emin : ℤ) (q : ℚ) : Prop :=
  ∃ m e : ℤ, |m| ≤ 2 ^ p ∧ emin ≤ e ∧ q = m * 2 ^ e

/-- Values of a `float` (finite, exponent unbounded above). -/
def Float32 (q : ℚ) : Prop := Representable 24 (-149) q

/-- Values of a `double` (finite, exponent unbounded above). -/
def Float64 (q : ℚ) : Prop := Representable 53 (-1074) q

/-! ## roundEven -/

theorem roundEven_intCast (n : ℤ) : roundEven (n : ℚ) = n := by
  simp [roundEven]

theorem roundEven_cases (x : ℚ) :
    (roundEven x = ⌊x⌋ ∧ x - ⌊x⌋ ≤ 1/2) ∨ (roundEven x = ⌊x⌋ + 1 ∧ 1/2 ≤ x - ⌊x⌋) := by
  unfold roundEven
  simp only
  split
  · left; exact ⟨rfl, by linarith⟩
  · split
    · right; exact ⟨rfl, by linarith⟩
    · split
      · left; exact ⟨rfl, by linarith⟩
      · right; exact ⟨rfl, by linarith⟩

theorem abs_roundEven_sub (x : ℚ) : |(roundEven x : ℚ) - x| ≤ 1/2 := by
  have h0 := Int.floor_le x
  have h1 := Int.lt_floor_add_one x
  rcases roundEven_cases x with ⟨h, h'⟩ | ⟨h, h'⟩ <;> rw [h, abs_le]
  · constructor <;> linarith
  · push_cast
    constructor <;> linarith

theorem roundEven_mono {x y : ℚ} (h : x ≤ y) : roundEven x ≤ roundEven y := by
  have hf : ⌊x⌋ ≤ ⌊y⌋ := Int.floor_mono h
  rcases lt_or_eq_of_le hf with hlt | heq
  · have a : roundEven x ≤ ⌊x⌋ + 1 := by
      rcases roundEven_cases x with ⟨h, _⟩ | ⟨h, _⟩ <;> omega
    have b : ⌊y⌋ ≤ roundEven y := by
      rcases roundEven_cases y with ⟨h, _⟩ | ⟨h, _⟩ <;> omega
    omega
  · unfold roundEven
    simp only [heq]
    split
    · split
      · exact le_refl _
      · split
        · omega
        · split <;> omega
    · have hxy : x - ⌊y⌋ ≤ y - ⌊y⌋ := by linarith
      rw [if_neg (show ¬ y - ⌊y⌋ < 1/2 by linarith)]
      split
      · rw [if_pos (by linarith)]
      · split
        · split
          · omega
          · exact le_refl _
        · split <;> exact le_refl _

theorem roundEven_le_of_le_int {x : ℚ} {n : ℤ} (h : x ≤ n) : roundEven x ≤ n := by
  have := roundEven_mono h; rwa [roundEven_intCast] at this

theorem le_roundEven_of_int_le {x : ℚ} {n : ℤ} (h : (n : ℚ) ≤ x) : n ≤ roundEven x := by
  have := roundEven_mono h; rwa [roundEven_intCast] at this

theorem roundEven_neg (x : ℚ) : roundEven (-x) = - roundEven x := by
  by_cases hint : (⌊x⌋ : ℚ) = x
  · rw [← hint, roundEven_intCast, ← Int.cast_neg, roundEven_intCast]
  · have h0 : (⌊x⌋ : ℚ) < x := lt_of_le_of_ne (Int.floor_le x) hint
    have h1 := Int.lt_floor_add_one x
    have hfl : ⌊-x⌋ = -⌊x⌋ - 1 := by
      rw [Int.floor_eq_iff]; push_cast; constructor <;> linarith
    unfold roundEven
    simp only [hfl]
    push_cast
    by_cases c1 : x - ⌊x⌋ < 1/2
    · rw [if_neg (by linarith), if_pos (by linarith), if_pos c1]; ring
    · rw [if_neg c1]
      by_cases c2 : 1/2 < x - ⌊x⌋
      · rw [if_pos (by linarith), if_pos c2]; ring
      · rw [if_neg (by linarith), if_neg (by linarith), if_neg c2]
        by_cases c3 : ⌊x⌋ % 2 = 0
        · rw [if_neg (by omega), if_pos c3]; ring
        · rw [if_pos (by omega), if_neg c3]; ring

/-! ## rnd -/

section
variable {p : ℕ} {emin : ℤ}

theorem ulpExp_neg (q : ℚ) : ulpExp p emin (-q) = ulpExp p emin q := by simp [ulpExp]

theorem rnd_neg (q : ℚ) : rnd p emin (-q) = - rnd p emin q := by
  unfold rnd
  rw [ulpExp_neg, neg_div, roundEven_neg]
  push_cast; ring

@[simp] theorem rnd_zero : rnd p emin 0 = 0 := by
  have : roundEven 0 = 0 := roundEven_intCast 0
  simp [rnd, this]

theorem two_zpow_pos (e : ℤ) : (0 : ℚ) < 2 ^ e := zpow_pos (by norm_num) e

/-- Exact multiples of the ulp bound the rounded value. -/
theorem rnd_le_of_mul {x : ℚ} {n : ℤ} (h : x ≤ n * 2 ^ ulpExp p emin x) :
    rnd p emin x ≤ n * 2 ^ ulpExp p emin x := by
  have hp := two_zpow_pos (ulpExp p emin x)
  unfold rnd
  refine mul_le_mul_of_nonneg_right ?_ hp.le
  exact_mod_cast roundEven_le_of_le_int ((div_le_iff₀ hp).2 h)

theorem le_rnd_of_mul {x : ℚ} {n : ℤ} (h : n * 2 ^ ulpExp p emin x ≤ x) :
    n * 2 ^ ulpExp p emin x ≤ rnd p emin x := by
  have hp := two_zpow_pos (ulpExp p emin x)
  unfold rnd
  refine mul_le_mul_of_nonneg_right ?_ hp.le
  exact_mod_cast le_roundEven_of_int_le ((le_div_iff₀ hp).2 h)

theorem two_zpow_split (E k : ℤ) (h : E ≤ k) :
    (2 : ℚ) ^ k = ((2 ^ (k - E).toNat : ℤ) : ℚ) * 2 ^ E := by
  have : k = ((k - E).toNat : ℤ) + E := by omega
  conv_lhs => rw [this, zpow_add₀ (by norm_num), zpow_natCast]
  push_cast
  rfl

/-- Powers of two above the ulp are upper bounds that rounding respects. -/
theorem rnd_le_two_zpow {x : ℚ} {k : ℤ} (hk : ulpExp p emin x ≤ k) (h : x ≤ 2 ^ k) :
    rnd p emin x ≤ 2 ^ k := by
  rw [two_zpow_split _ _ hk] at h ⊢
  exact rnd_le_of_mul h

theorem two_zpow_le_rnd {x : ℚ} {k : ℤ} (hk : ulpExp p emin x ≤ k) (h : 2 ^ k ≤ x) :
    2 ^ k ≤ rnd p emin x := by
  rw [two_zpow_split _ _ hk] at h ⊢
  exact le_rnd_of_mul h

theorem ulpExp_mono {x y : ℚ} (hx : 0 < x) (h : x ≤ y) : ulpExp p emin x ≤ ulpExp p emin y := by
  unfold ulpExp
  have : Int.log 2 |x| ≤ Int.log 2 |y| :=
    Int.log_mono_right (abs_pos.2 hx.ne') (by rw [abs_of_pos hx, abs_of_pos (lt_of_lt_of_le hx h)]; exact h)
  omega

theorem rnd_nonneg {x : ℚ} (h : 0 ≤ x) : 0 ≤ rnd p emin x := by
  have := le_rnd_of_mul (p := p) (emin := emin) (x := x) (n := 0) (by simpa using h)
  simpa using this

theorem rnd_nonpos {x : ℚ} (h : x ≤ 0) : rnd p emin x ≤ 0 := by
  have := rnd_le_of_mul (p := p) (emin := emin) (x := x) (n := 0) (by simpa using h)
  simpa using this

theorem rnd_mono_pos (hp : 1 ≤ p) {x y : ℚ} (hx : 0 < x) (h : x ≤ y) :
    rnd p emin x ≤ rnd p emin y := by
  have hy := lt_of_lt_of_le hx h
  rcases lt_or_eq_of_le (ulpExp_mono (p := p) (emin := emin) hx h) with hlt | heq
  · have hE : ulpExp p emin y = Int.log 2 |y| - ((p : ℤ) - 1) := by
      have h1 : emin ≤ ulpExp p emin x := le_max_right _ _
      unfold ulpExp at hlt h1 ⊢
      omega
    have hx1 : Int.log 2 |x| - ((p : ℤ) - 1) ≤ ulpExp p emin x := le_max_left _ _
    have hlog : ulpExp p emin y ≤ Int.log 2 |y| := by omega
    have hxlog : ulpExp p emin x ≤ Int.log 2 |y| := by omega
    have hlogs : Int.log 2 |x| + 1 ≤ Int.log 2 |y| := by omega
    have a : rnd p emin x ≤ 2 ^ (Int.log 2 |y|) := by
      refine rnd_le_two_zpow hxlog ?_
      have := Int.lt_zpow_succ_log_self (R := ℚ) (b := 2) (by norm_num) |x|
      rw [abs_of_pos hx] at this hlogs
      refine this.le.trans ?_
      have := zpow_le_zpow_right₀ (a := (2 : ℚ)) (by norm_num) hlogs
      simpa using this
    have b : 2 ^ (Int.log 2 |y|) ≤ rnd p emin y := by
      refine two_zpow_le_rnd hlog ?_
      have := Int.zpow_log_le_self (R := ℚ) (b := 2) (r := |y|) (by norm_num) (abs_pos.2 hy.ne')
      rw [abs_of_pos hy] at this ⊢
      simpa using this
    exact a.trans b
  · unfold rnd
    rw [heq]
    have hp := two_zpow_pos (ulpExp p emin y)
    refine mul_le_mul_of_nonneg_right ?_ hp.le
    exact_mod_cast roundEven_mono ((div_le_div_iff_of_pos_right hp).2 h)

/-- Rounding is monotone. -/
theorem rnd_mono (hp : 1 ≤ p) {x y : ℚ} (h : x ≤ y) : rnd p emin x ≤ rnd p emin y := by
  rcases lt_or_ge 0 x with hx | hx
  · exact rnd_mono_pos hp hx h
  · rcases lt_or_ge y 0 with hy | hy
    · have := rnd_mono_pos (p := p) (emin := emin) hp (x := -y) (y := -x) (by linarith) (by linarith)
      rw [rnd_neg, rnd_neg] at this
      linarith
    · exact (rnd_nonpos hx).trans (rnd_nonneg hy)

/-- Rounding does not change representable values. -/
theorem rnd_of_representable {q : ℚ} (hp : 1 ≤ p) (h : Representable p emin q) :
    rnd p emin q = q := by
  obtain ⟨m, e, hm, he, rfl⟩ := h
  by_cases hm0 : m = 0
  · subst hm0; simp
  have hpos : (0 : ℚ) < 2 ^ e := two_zpow_pos e
  -- normalise to |m| < 2^p unless |m| = 2^p
  have key : ∀ (m e : ℤ), m ≠ 0 → |m| < 2 ^ p → emin ≤ e →
      rnd p emin ((m : ℚ) * 2 ^ e) = (m : ℚ) * 2 ^ e := by
    intro m e hm0 hm he
    have hpos : (0 : ℚ) < 2 ^ e := two_zpow_pos e
    have habs : |(m : ℚ) * 2 ^ e| = |(m : ℚ)| * 2 ^ e := by rw [abs_mul, abs_of_pos hpos]
    have hlt : |(m : ℚ) * 2 ^ e| < 2 ^ ((p : ℤ) + e) := by
      rw [habs, zpow_add₀ (by norm_num)]
      refine mul_lt_mul_of_pos_right ?_ hpos
      have : |(m : ℚ)| < ((2 ^ p : ℤ) : ℚ) := by exact_mod_cast hm
      simpa using this
    have hq0 : 0 < |(m : ℚ) * 2 ^ e| := abs_pos.2 (mul_ne_zero (by exact_mod_cast hm0) hpos.ne')
    have hlog : Int.log 2 |(m : ℚ) * 2 ^ e| < p + e := by
      rw [← Int.lt_zpow_iff_log_lt (by norm_num) hq0]
      simpa using hlt
    have hE : ulpExp p emin ((m : ℚ) * 2 ^ e) ≤ e := by
      unfold ulpExp; omega
    have hsplit := two_zpow_split _ _ hE
    unfold rnd
    set E := ulpExp p emin ((m : ℚ) * 2 ^ e) with hEdef
    have hEpos : (0 : ℚ) < 2 ^ E := two_zpow_pos E
    have : (m : ℚ) * 2 ^ e / 2 ^ E = ((m * 2 ^ (e - E).toNat : ℤ) : ℚ) := by
      rw [div_eq_iff hEpos.ne', hsplit]; push_cast; ring
    rw [this, roundEven_intCast, hsplit]
    push_cast; ring
  rcases lt_or_eq_of_le hm with hlt | heq
  · exact key m e hm0 hlt he
  · -- |m| = 2^p
    obtain ⟨k, rfl⟩ : ∃ k, p = k + 1 := ⟨p - 1, by omega⟩
    rcases abs_eq (by positivity : (0 : ℤ) ≤ 2 ^ (k + 1)) |>.1 heq with h | h
    · have e1 : (m : ℚ) * 2 ^ e = ((2 ^ k : ℤ) : ℚ) * 2 ^ (e + 1) := by
        rw [h, zpow_add₀ (by norm_num)]; push_cast; ring
      rw [e1]
      refine key _ _ (by positivity) ?_ (by omega)
      rw [abs_of_pos (by positivity)]
      exact pow_lt_pow_right₀ (by norm_num) (by omega)
    · have e1 : (m : ℚ) * 2 ^ e = ((-2 ^ k : ℤ) : ℚ) * 2 ^ (e + 1) := by
        rw [h, zpow_add₀ (by norm_num)]; push_cast; ring
      rw [e1]
      refine key _ _ (by simp) ?_ (by omega)
      rw [abs_neg, abs_of_pos (by positivity)]
      exact pow_lt_pow_right₀ (by norm_num) (by omega)

theorem abs_lt_two_zpow_ulpExp (q : ℚ) : |q| < 2 ^ ((p : ℤ) + ulpExp p emin q) := by
  have h := Int.lt_zpow_succ_log_self (R := ℚ) (b := 2) (by norm_num) |q|
  have h1 : Int.log 2 |q| - ((p : ℤ) - 1) ≤ ulpExp p emin q := le_max_left _ _
  refine lt_of_lt_of_le h ?_
  have := zpow_le_zpow_right₀ (a := (2 : ℚ)) (by norm_num) (m := Int.log 2 |q| + 1)
    (n := (p : ℤ) + ulpExp p emin q) (by omega)
  simpa using this

/-- The result of rounding is representable. -/
theorem representable_rnd (q : ℚ) : Representable p emin (rnd p emin q) := by
  refine ⟨roundEven (q / 2 ^ ulpExp p emin q), ulpExp p emin q, ?_, le_max_right _ _, rfl⟩
  have hpos := two_zpow_pos (ulpExp p emin q)
  have h := abs_lt_two_zpow_ulpExp (p := p) (emin := emin) q
  rw [zpow_add₀ (by norm_num)] at h
  have h2 : |q / 2 ^ ulpExp p emin q| ≤ ((2 ^ p : ℤ) : ℚ) := by
    rw [abs_div, abs_of_pos hpos, div_le_iff₀ hpos]
    push_cast
    have := h.le
    simpa using this
  rw [abs_le] at h2 ⊢
  constructor
  · have := le_roundEven_of_int_le (x := q / 2 ^ ulpExp p emin q) (n := -(2 ^ p)) (by
      push_cast at h2 ⊢; exact h2.1)
    exact this
  · exact roundEven_le_of_le_int h2.2

theorem rnd_idem (hp : 1 ≤ p) (q : ℚ) : rnd p emin (rnd p emin q) = rnd p emin q :=
  rnd_of_representable hp (representable_rnd q)

/-- Rounding to nearest: the error is at most half a unit in the last place. -/
theorem abs_rnd_sub_le (q : ℚ) : |rnd p emin q - q| ≤ 2 ^ ulpExp p emin q / 2 := by
  have hpos := two_zpow_pos (ulpExp p emin q)
  have h := abs_roundEven_sub (q / 2 ^ ulpExp p emin q)
  have e : rnd p emin q - q =
      ((roundEven (q / 2 ^ ulpExp p emin q) : ℚ) - q / 2 ^ ulpExp p emin q)
        * 2 ^ ulpExp p emin q := by
    unfold rnd
    rw [sub_mul, div_mul_cancel₀ _ hpos.ne']
  rw [e, abs_mul, abs_of_pos hpos]
  nlinarith

theorem representable_neg {q : ℚ} (h : Representable p emin q) : Representable p emin (-q) := by
  obtain ⟨m, e, hm, he, rfl⟩ := h
  exact ⟨-m, e, by simpa using hm, he, by push_cast; ring⟩

theorem representable_intCast {n : ℤ} (he : emin ≤ 0) (h : |n| ≤ 2 ^ p) :
    Representable p emin (n : ℚ) := ⟨n, 0, h, he, by simp⟩

theorem representable_zero : Representable p emin 0 := ⟨0, emin, by positivity, le_refl _, by simp⟩

/-- Rounding lies between representable bounds. -/
theorem rnd_le_of_le {x b : ℚ} (hp : 1 ≤ p) (hb : Representable p emin b) (h : x ≤ b) :
    rnd p emin x ≤ b := by
  have := rnd_mono (emin := emin) hp h
  rwa [rnd_of_representable hp hb] at this

theorem le_rnd_of_le {x b : ℚ} (hp : 1 ≤ p) (hb : Representable p emin b) (h : b ≤ x) :
    b ≤ rnd p emin x := by
  have := rnd_mono (emin := emin) hp h
  rwa [rnd_of_representable hp hb] at this

end

end Apollo
