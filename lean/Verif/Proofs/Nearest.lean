import Verif.Proofs.DecimalRange

/-! `round6` is a nearest six digit decimal. -/

namespace Apollo

theorem roundEven_nearest (x : ℚ) (n : ℤ) : |(roundEven x : ℚ) - x| ≤ |(n : ℚ) - x| := by
  by_cases h : n = roundEven x
  · rw [h]
  · have h1 := abs_roundEven_sub x
    have h2 : (1 : ℚ) ≤ |(n : ℚ) - roundEven x| := by
      have : (1 : ℤ) ≤ |n - roundEven x| := Int.one_le_abs (by omega)
      exact_mod_cast this
    have h3 : |(n : ℚ) - roundEven x| ≤ |(n : ℚ) - x| + |(roundEven x : ℚ) - x| := by
      rw [abs_sub_comm (roundEven x : ℚ) x]
      have := abs_add_le ((n : ℚ) - x) (x - roundEven x)
      simpa using this
    linarith

theorem round6_nearest_multiple (q : ℚ) (n : ℤ) : |round6 q - q| ≤ |n * 10 ^ unit6 q - q| := by
  have hpos := ten_zpow_pos (unit6 q)
  have e1 : round6 q - q =
      ((roundEven (q / 10 ^ unit6 q) : ℚ) - q / 10 ^ unit6 q) * 10 ^ unit6 q := by
    unfold round6; rw [sub_mul, div_mul_cancel₀ _ hpos.ne']
  have e2 : n * 10 ^ unit6 q - q = ((n : ℚ) - q / 10 ^ unit6 q) * 10 ^ unit6 q := by
    rw [sub_mul, div_mul_cancel₀ _ hpos.ne']
  rw [e1, e2, abs_mul, abs_mul]
  exact mul_le_mul_of_nonneg_right (roundEven_nearest _ _) (abs_nonneg _)

theorem round6_nearest (q d : ℚ) (hd : SixDigits d) : |round6 q - q| ≤ |d - q| := by
  by_cases hq : q = 0
  · subst hq; simp
  obtain ⟨n, k, hn, rfl⟩ := hd
  by_cases hk : unit6 q ≤ k
  · rw [ten_zpow_split _ _ hk, ← mul_assoc, ← Int.cast_mul]
    exact round6_nearest_multiple q _
  · have hpos := ten_zpow_pos (unit6 q)
    -- |d| ≤ 10^5 * 10^unit ≤ |q|
    have hle : |(n : ℚ) * 10 ^ k| ≤ 100000 * 10 ^ unit6 q := by
      rw [abs_mul, abs_of_pos (ten_zpow_pos k)]
      have a : |(n : ℚ)| ≤ 1000000 := by exact_mod_cast hn
      have b : (10 : ℚ) * 10 ^ k ≤ 10 ^ unit6 q := by
        rw [← zpow_one_add₀ (by norm_num)]
        exact zpow_le_zpow_right₀ (by norm_num) (by omega)
      have := ten_zpow_pos k
      nlinarith
    have hq2 : 100000 * 10 ^ unit6 q ≤ |q| := by
      have := unit6_le hq
      linarith
    rcases lt_or_gt_of_ne hq with hneg | hposq
    · have h := round6_nearest_multiple q (-100000)
      refine h.trans ?_
      rw [abs_of_neg hneg] at hq2
      rw [abs_le] at hle
      push_cast
      rw [abs_of_nonneg (by linarith), abs_of_nonneg (by linarith)]
      linarith
    · have h := round6_nearest_multiple q 100000
      refine h.trans ?_
      rw [abs_of_pos hposq] at hq2
      rw [abs_le] at hle
      push_cast
      rw [abs_of_nonpos (by linarith), abs_of_nonpos (by linarith)]
      linarith

theorem sixDigits_int {n : ℤ} (h : |n| ≤ 1000000) : SixDigits (n : ℚ) := ⟨n, 0, h, by simp⟩

theorem round6_rnd32 {d : ℚ} (h : SixDigits d) (hr : d = 0 ∨ 2 ^ (-126 : ℤ) ≤ |d|) :
    round6 (rnd32 d) = d := by
  rcases hr with rfl | hr
  · rw [show rnd32 0 = 0 from rnd_zero]; exact round6_zero
  · exact round6_of_close h (by
      have := abs_rnd_sub_rel (p := 24) (emin := -149) (q := d) (by simpa using hr)
      exact this)

theorem round6_rnd64 {d : ℚ} (h : SixDigits d) (hr : d = 0 ∨ 2 ^ (-1022 : ℤ) ≤ |d|) :
    round6 (rnd64 d) = d := by
  rcases hr with rfl | hr
  · rw [show rnd64 0 = 0 from rnd_zero]; exact round6_zero
  · exact round6_of_close h (by
      have := abs_rnd_sub_rel (p := 53) (emin := -1074) (q := d) (by simpa using hr)
      refine this.trans ?_
      have := abs_nonneg d
      rw [div_le_div_iff₀ (by norm_num) (by norm_num)]
      nlinarith)

theorem rangeFloat_rnd32 {d : ℚ}
    (h : d = 0 ∨ (2 * 10 ^ (-37 : ℤ) ≤ |d| ∧ |d| ≤ 9 * 10 ^ (37 : ℤ))) : RangeFloat (rnd32 d) := by
  rcases h with rfl | ⟨h1, h2⟩
  · exact Or.inl rnd_zero
  · have hn : (2 : ℚ) ^ (-149 + ((24 : ℕ) : ℤ) - 1) ≤ |d| := le_trans (by decide +kernel) h1
    have hrel := abs_rnd_sub_rel (p := 24) (emin := -149) (q := d) hn
    have a1 := abs_sub_abs_le_abs_sub (rnd 24 (-149) d) d
    have a2 := abs_sub_abs_le_abs_sub d (rnd 24 (-149) d)
    rw [abs_sub_comm] at a2
    refine Or.inr ⟨?_, ?_⟩
    · show _ ≤ |rnd 24 (-149) d|
      have : (10 : ℚ) ^ (-37 : ℤ) ≤ 2 * 10 ^ (-37 : ℤ) / 2 := by decide +kernel
      linarith
    · show |rnd 24 (-149) d| ≤ _
      have : (9 * (10 : ℚ) ^ (37 : ℤ)) * (1 + 1 / 2 ^ 24) ≤ 10 ^ (38 : ℤ) := by decide +kernel
      linarith

theorem rangeDouble_rnd64 {d : ℚ}
    (h : d = 0 ∨ (2 * 10 ^ (-307 : ℤ) ≤ |d| ∧ |d| ≤ 9 * 10 ^ (307 : ℤ))) : RangeDouble (rnd64 d) := by
  rcases h with rfl | ⟨h1, h2⟩
  · exact Or.inl rnd_zero
  · have hn : (2 : ℚ) ^ (-1074 + ((53 : ℕ) : ℤ) - 1) ≤ |d| := le_trans (by decide +kernel) h1
    have hrel := abs_rnd_sub_rel (p := 53) (emin := -1074) (q := d) hn
    have a1 := abs_sub_abs_le_abs_sub (rnd 53 (-1074) d) d
    have a2 := abs_sub_abs_le_abs_sub d (rnd 53 (-1074) d)
    rw [abs_sub_comm] at a2
    refine Or.inr ⟨?_, ?_⟩
    · show _ ≤ |rnd 53 (-1074) d|
      have : (10 : ℚ) ^ (-307 : ℤ) ≤ 2 * 10 ^ (-307 : ℤ) / 2 := by decide +kernel
      linarith
    · show |rnd 53 (-1074) d| ≤ _
      have h3 : (9 * (10 : ℚ) ^ (307 : ℤ)) * (1 + 1 / 2 ^ 53) ≤ 10 ^ (308 : ℤ) := by
        decide +kernel
      generalize (10 : ℚ) ^ (307 : ℤ) = A at h2 h3
      generalize (10 : ℚ) ^ (308 : ℤ) = B at h3 ⊢
      linarith

end Apollo
