import Verif.Num.Round

/-!
# Rounding gives the nearest representable number

`rnd` of `Verif.Num.Round` is a computation.  Here it is shown to be what IEEE-754 demands: no
representable number is nearer, and among two nearest ones the result has an even last digit.
-/

namespace Apollo

theorem roundEven_nearest (x : ℚ) (k : ℤ) : |(roundEven x : ℚ) - x| ≤ |(k : ℚ) - x| := by
  have h0 := Int.floor_le x
  have h1 := Int.lt_floor_add_one x
  rcases le_or_gt k ⌊x⌋ with hk | hk
  · have hk' : (k : ℚ) ≤ ⌊x⌋ := by exact_mod_cast hk
    rw [abs_of_nonpos (a := (k : ℚ) - x) (by linarith)]
    rcases roundEven_cases x with ⟨h, h'⟩ | ⟨h, h'⟩ <;> rw [h, abs_le] <;> push_cast <;>
      constructor <;> linarith
  · have hk' : (⌊x⌋ : ℚ) + 1 ≤ k := by exact_mod_cast hk
    rw [abs_of_nonneg (a := (k : ℚ) - x) (by linarith)]
    rcases roundEven_cases x with ⟨h, h'⟩ | ⟨h, h'⟩ <;> rw [h, abs_le] <;> push_cast <;>
      constructor <;> linarith

section
variable {p : ℕ} {emin : ℤ}

theorem rnd_nearest_mul (q : ℚ) (k : ℤ) :
    |rnd p emin q - q| ≤ |k * 2 ^ ulpExp p emin q - q| := by
  have hpos := two_zpow_pos (ulpExp p emin q)
  have h := roundEven_nearest (q / 2 ^ ulpExp p emin q) k
  have e : ∀ n : ℤ, (n : ℚ) * 2 ^ ulpExp p emin q - q =
      ((n : ℚ) - q / 2 ^ ulpExp p emin q) * 2 ^ ulpExp p emin q := by
    intro n
    rw [sub_mul, div_mul_cancel₀ _ hpos.ne']
  unfold rnd
  rw [e, e, abs_mul, abs_mul]
  exact mul_le_mul_of_nonneg_right h (abs_nonneg _)

theorem rnd_nearest_pos (hp : 1 ≤ p) {q b : ℚ} (hq : 0 < q) (hb : Representable p emin b) :
    |rnd p emin q - q| ≤ |b - q| := by
  obtain ⟨m, e, hm, he, rfl⟩ := hb
  rcases le_or_gt (ulpExp p emin q) e with hE | hE
  · have := rnd_nearest_mul (p := p) (emin := emin) q (m * 2 ^ (e - ulpExp p emin q).toNat)
    rw [two_zpow_split _ _ hE]
    refine this.trans (le_of_eq ?_)
    push_cast
    ring_nf
  · have hL : ulpExp p emin q = Int.log 2 |q| - ((p : ℤ) - 1) := by
      unfold ulpExp at hE ⊢
      omega
    have hle : ulpExp p emin q ≤ Int.log 2 |q| := by omega
    have h1 : (2 : ℚ) ^ Int.log 2 |q| ≤ q := by
      have := Int.zpow_log_le_self (R := ℚ) (b := 2) (r := |q|) (by norm_num) (abs_pos.2 hq.ne')
      rw [abs_of_pos hq] at this ⊢
      simpa using this
    have h2 : (m : ℚ) * 2 ^ e ≤ 2 ^ Int.log 2 |q| := by
      have hm' : (m : ℚ) ≤ 2 ^ p := by exact_mod_cast (le_abs_self m).trans hm
      calc (m : ℚ) * 2 ^ e ≤ 2 ^ p * 2 ^ e := mul_le_mul_of_nonneg_right hm' (two_zpow_pos e).le
        _ = 2 ^ ((p : ℤ) + e) := by rw [zpow_add₀ (by norm_num), zpow_natCast]
        _ ≤ 2 ^ Int.log 2 |q| := zpow_le_zpow_right₀ (by norm_num) (by omega)
    have := rnd_nearest_mul (p := p) (emin := emin) q (2 ^ (Int.log 2 |q| - ulpExp p emin q).toNat)
    rw [← two_zpow_split _ _ hle, abs_of_nonpos (a := 2 ^ Int.log 2 |q| - q) (by linarith)] at this
    refine this.trans ?_
    rw [abs_of_nonpos (a := (m : ℚ) * 2 ^ e - q) (by linarith)]
    linarith

/-- No representable number is nearer than the rounded one. -/
theorem rnd_nearest (hp : 1 ≤ p) (q : ℚ) {b : ℚ} (hb : Representable p emin b) :
    |rnd p emin q - q| ≤ |b - q| := by
  rcases lt_trichotomy q 0 with hq | rfl | hq
  · have := rnd_nearest_pos hp (q := -q) (by linarith) (representable_neg hb)
    rw [rnd_neg, ← neg_sub', abs_neg, ← neg_sub', abs_neg] at this
    exact this
  · simp
  · exact rnd_nearest_pos hp hq hb

theorem roundEven_tie {x : ℚ} {k : ℤ} (h : k ≠ roundEven x)
    (he : |(k : ℚ) - x| = |(roundEven x : ℚ) - x|) : roundEven x % 2 = 0 := by
  have h0 := Int.floor_le x
  have h1 := Int.lt_floor_add_one x
  have half := abs_roundEven_sub x
  rw [← he, abs_le] at half
  have hd : x - ⌊x⌋ = 1 / 2 := by
    have hk : k = ⌊x⌋ ∨ k = ⌊x⌋ + 1 := by
      have a1 : ((⌊x⌋ - 1 : ℤ) : ℚ) < k := by push_cast; linarith
      have a2 : (k : ℚ) < ((⌊x⌋ + 2 : ℤ) : ℚ) := by push_cast; linarith
      have a1' : ⌊x⌋ - 1 < k := by exact_mod_cast a1
      have a2' : k < ⌊x⌋ + 2 := by exact_mod_cast a2
      omega
    rcases hk with hk | hk <;> rcases roundEven_cases x with ⟨h2, h3⟩ | ⟨h2, h3⟩
    · omega
    · rw [h2, hk] at he
      push_cast at he half
      rw [abs_of_nonpos (a := (⌊x⌋ : ℚ) - x) (by linarith),
        abs_of_nonneg (a := (⌊x⌋ : ℚ) + 1 - x) (by linarith)] at he
      linarith
    · rw [h2, hk] at he
      push_cast at he half
      rw [abs_of_nonpos (a := (⌊x⌋ : ℚ) - x) (by linarith),
        abs_of_nonneg (a := (⌊x⌋ : ℚ) + 1 - x) (by linarith)] at he
      linarith
    · omega
  unfold roundEven
  simp only
  rw [if_neg (by linarith), if_neg (by linarith)]
  split <;> omega

theorem rnd_tie_pos (hp : 1 ≤ p) {q b : ℚ} (hq : 0 < q) (hb : Representable p emin b)
    (hne : b ≠ rnd p emin q) (he : |b - q| = |rnd p emin q - q|) :
    ∃ n : ℤ, n % 2 = 0 ∧ rnd p emin q = n * 2 ^ ulpExp p emin q := by
  have hpos := two_zpow_pos (ulpExp p emin q)
  have key : ∀ k : ℤ, b = k * 2 ^ ulpExp p emin q →
      ∃ n : ℤ, n % 2 = 0 ∧ rnd p emin q = n * 2 ^ ulpExp p emin q := by
    rintro k rfl
    refine ⟨roundEven (q / 2 ^ ulpExp p emin q), roundEven_tie (k := k) ?_ ?_, rfl⟩
    · rintro rfl
      exact hne rfl
    · have e : ∀ n : ℤ, (n : ℚ) * 2 ^ ulpExp p emin q - q =
          ((n : ℚ) - q / 2 ^ ulpExp p emin q) * 2 ^ ulpExp p emin q := by
        intro n
        rw [sub_mul, div_mul_cancel₀ _ hpos.ne']
      unfold rnd at he
      rw [e, e, abs_mul, abs_mul, abs_of_pos hpos] at he
      exact mul_right_cancel₀ hpos.ne' he
  obtain ⟨m, e, hm, hemin, rfl⟩ := hb
  rcases le_or_gt (ulpExp p emin q) e with hE | hE
  · refine key (m * 2 ^ (e - ulpExp p emin q).toNat) ?_
    rw [two_zpow_split _ _ hE]
    push_cast
    ring
  · have hL : ulpExp p emin q = Int.log 2 |q| - ((p : ℤ) - 1) := by
      unfold ulpExp at hE ⊢
      omega
    have hle : ulpExp p emin q ≤ Int.log 2 |q| := by omega
    have h1 : (2 : ℚ) ^ Int.log 2 |q| ≤ q := by
      have := Int.zpow_log_le_self (R := ℚ) (b := 2) (r := |q|) (by norm_num) (abs_pos.2 hq.ne')
      rw [abs_of_pos hq] at this ⊢
      simpa using this
    have h2 : (m : ℚ) * 2 ^ e ≤ 2 ^ Int.log 2 |q| := by
      have hm' : (m : ℚ) ≤ 2 ^ p := by exact_mod_cast (le_abs_self m).trans hm
      calc (m : ℚ) * 2 ^ e ≤ 2 ^ p * 2 ^ e := mul_le_mul_of_nonneg_right hm' (two_zpow_pos e).le
        _ = 2 ^ ((p : ℤ) + e) := by rw [zpow_add₀ (by norm_num), zpow_natCast]
        _ ≤ 2 ^ Int.log 2 |q| := zpow_le_zpow_right₀ (by norm_num) (by omega)
    have := rnd_nearest_mul (p := p) (emin := emin) q (2 ^ (Int.log 2 |q| - ulpExp p emin q).toNat)
    rw [← two_zpow_split _ _ hle, abs_of_nonpos (a := 2 ^ Int.log 2 |q| - q) (by linarith), ← he,
      abs_of_nonpos (a := (m : ℚ) * 2 ^ e - q) (by linarith)] at this
    refine key (2 ^ (Int.log 2 |q| - ulpExp p emin q).toNat) ?_
    rw [← two_zpow_split _ _ hle]
    linarith

/-- If another representable number is as near as the rounded one, the rounded one is an even multiple of
the unit in the last place. -/
theorem rnd_tie_even (hp : 1 ≤ p) {q b : ℚ} (hb : Representable p emin b)
    (hne : b ≠ rnd p emin q) (he : |b - q| = |rnd p emin q - q|) :
    ∃ n : ℤ, n % 2 = 0 ∧ rnd p emin q = n * 2 ^ ulpExp p emin q := by
  rcases lt_trichotomy q 0 with hq | rfl | hq
  · obtain ⟨n, h1, h2⟩ := rnd_tie_pos (p := p) (emin := emin) hp (q := -q) (b := -b) (by linarith)
      (representable_neg hb) (by rw [rnd_neg]; exact fun h => hne (neg_injective h))
      (by rw [rnd_neg, ← neg_sub', abs_neg, ← neg_sub', abs_neg]; exact he)
    refine ⟨-n, by omega, ?_⟩
    rw [rnd_neg, ulpExp_neg] at h2
    push_cast
    linarith
  · exact ⟨0, rfl, by simp⟩
  · exact rnd_tie_pos hp hq hb hne he

/-- Above the mean of two representable numbers the result is above the lower one. -/
theorem lt_rnd_of_mean_lt (hp : 1 ≤ p) {a b q : ℚ} (ha : Representable p emin a)
    (hb : Representable p emin b) (hab : a < b) (hq : (a + b) / 2 < q) : a < rnd p emin q := by
  refine lt_of_le_of_ne (le_rnd_of_le hp ha (by linarith)) fun h => ?_
  have h1 := rnd_nearest hp q hb
  rw [← h, abs_of_nonpos (by linarith)] at h1
  have h2 := le_abs_self (b - q)
  rcases abs_cases (b - q) with ⟨h3, -⟩ | ⟨h3, h4⟩ <;> rw [h3] at h1 <;> linarith

end

end Apollo
