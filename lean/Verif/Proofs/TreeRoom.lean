import Verif.Spec.TreeRoom
import Verif.Num.RoundNearest
import Verif.Proofs.TreeTrain

/-!
# Thresholds between floats that are not neighbours
-/

namespace Apollo

open Spec

theorem float32_double {q : ℚ} (h : Float32 q) : Float32 (2 * q) := by
  obtain ⟨m, e, h1, h2, rfl⟩ := h
  refine ⟨m, e + 1, h1, by omega, ?_⟩
  rw [zpow_add₀ (by norm_num)]; ring

/-- A float is a multiple of the least one. -/
theorem float32_mul_least {q : ℚ} (h : Float32 q) : ∃ n : ℤ, q = n * 2 ^ (-149 : ℤ) := by
  obtain ⟨m, e, -, h2, rfl⟩ := h
  refine ⟨m * 2 ^ (e - (-149)).toNat, ?_⟩
  rw [two_zpow_split _ _ h2]
  push_cast
  ring

/-- Small multiples of the least float are floats. -/
theorem float32_of_mul {n : ℤ} (h : |n| ≤ 2 ^ 24) : Float32 (n * 2 ^ (-149 : ℤ)) :=
  ⟨n, -149, h, le_refl _, rfl⟩

/-- Half of a float is a float, or the float is an odd multiple of the least one. -/
theorem float32_half {q : ℚ} (h : Float32 q) :
    Float32 (q / 2) ∨ ∃ n : ℤ, q = n * 2 ^ (-149 : ℤ) ∧ |n| ≤ 2 ^ 24 := by
  obtain ⟨m, e, h1, h2, rfl⟩ := h
  rcases eq_or_lt_of_le h2 with rfl | h3
  · exact .inr ⟨m, rfl, h1⟩
  · refine .inl ⟨m, e - 1, h1, by omega, ?_⟩
    rw [zpow_sub₀ (by norm_num)]; ring

theorem threshold_room {l r m : ℚ} (hl : Float32 l) (hr : Float32 r) (hm : Float32 m)
    (h1 : l < m) (h2 : m < r) (hbl : |l| ≤ maxFloat / 2) (hbr : |r| ≤ maxFloat / 2) :
    l < threshold l r ∧ threshold l r ≤ r := by
  refine ⟨?_, (threshold_between hl hr (h1.trans h2).le hbl hbr).2⟩
  have hmax : Representable 24 (-149) maxFloat := ⟨2 ^ 24 - 1, 104, by norm_num, by norm_num, by
    unfold maxFloat; norm_num⟩
  have b1 := abs_le.1 hbl
  have b2 := abs_le.1 hbr
  have s3 : rnd32 (l + r) ≤ maxFloat := rnd_le_of_le (by norm_num) hmax (by linarith)
  have s4 : -maxFloat ≤ rnd32 (l + r) :=
    le_rnd_of_le (by norm_num) (representable_neg hmax) (by linarith)
  have hs : Float32 (rnd32 (l + r)) := representable_rnd _
  have s5 : 2 * l < rnd32 (l + r) :=
    lt_rnd_of_mean_lt (by norm_num) (float32_double hl) (float32_double hm) (by linarith) (by linarith)
  unfold threshold
  simp only
  rw [if_neg (not_lt.2 s3), if_neg (not_lt.2 s4)]
  have h64 : rnd64 (rnd32 (l + r) / 2) = rnd32 (l + r) / 2 := by
    apply rnd_of_representable (by norm_num)
    obtain ⟨m, e, h1, h2, h3⟩ := hs
    refine ⟨m, e - 1, le_trans h1 (by norm_num), by omega, ?_⟩
    rw [h3, zpow_sub₀ (by norm_num)]; ring
  rw [h64]
  rcases float32_half hs with hh | ⟨n, hn, hn24⟩
  · have : rnd32 (rnd32 (l + r) / 2) = rnd32 (l + r) / 2 := rnd_of_representable (by norm_num) hh
    rw [this]
    linarith
  · -- the sum is exact
    obtain ⟨a, rfl⟩ := float32_mul_least hl
    obtain ⟨b, rfl⟩ := float32_mul_least hr
    obtain ⟨c, rfl⟩ := float32_mul_least hm
    have hpos := two_zpow_pos (-149)
    have hac : a < c := by
      have := lt_of_mul_lt_mul_right h1 hpos.le
      exact_mod_cast this
    have hcb : c < b := by
      have := lt_of_mul_lt_mul_right h2 hpos.le
      exact_mod_cast this
    rw [hn] at s5 ⊢
    have hs5 : 2 * a < n := by
      have : ((2 * a : ℤ) : ℚ) * 2 ^ (-149 : ℤ) < n * 2 ^ (-149 : ℤ) := by push_cast; linarith
      have := lt_of_mul_lt_mul_right this hpos.le
      exact_mod_cast this
    have hn2 : 2 * a + 2 ≤ n := by
      by_contra hlt
      have e : n = 2 * a + 1 := by omega
      have hodd : |n + 1| ≤ 2 ^ 24 := by
        have := abs_le.1 hn24
        rw [abs_le]
        constructor <;> omega
      have h3 : ((n + 1 : ℤ) : ℚ) * 2 ^ (-149 : ℤ) ≤
          rnd32 ((a : ℚ) * 2 ^ (-149 : ℤ) + b * 2 ^ (-149 : ℤ)) := by
        refine le_rnd_of_le (by norm_num) (float32_of_mul hodd) ?_
        rw [← add_mul]
        refine mul_le_mul_of_nonneg_right ?_ hpos.le
        have : n + 1 ≤ a + b := by omega
        exact_mod_cast this
      rw [hn] at h3
      have := le_of_mul_le_mul_right h3 hpos
      have : n + 1 ≤ n := by exact_mod_cast this
      omega
    have hf : Float32 ((n / 2 : ℤ) * 2 ^ (-149 : ℤ)) := by
      apply float32_of_mul
      have := abs_le.1 hn24
      rw [abs_le]
      constructor <;> omega
    refine lt_of_lt_of_le ?_ (le_rnd_of_le (by norm_num) hf ?_)
    · refine mul_lt_mul_of_pos_right ?_ hpos
      have : a < n / 2 := by omega
      exact_mod_cast this
    · have : ((n / 2 : ℤ) : ℚ) ≤ n / 2 := by
        have : 2 * (n / 2) ≤ n := by omega
        have : (2 : ℚ) * ((n / 2 : ℤ) : ℚ) ≤ n := by exact_mod_cast this
        linarith
      calc ((n / 2 : ℤ) : ℚ) * 2 ^ (-149 : ℤ) ≤ (n : ℚ) / 2 * 2 ^ (-149 : ℤ) :=
            mul_le_mul_of_nonneg_right this hpos.le
        _ = n * 2 ^ (-149 : ℤ) / 2 := by ring

theorem separable_roomy {k : ℕ} {xs : List Sample} (h : Roomy k xs) : Separable threshold k xs := by
  intro i hi x hx y hy hlt
  obtain ⟨h1, h2, h3⟩ := h i hi x hx
  obtain ⟨m, hm, h4, h5⟩ := h3 y hy hlt
  obtain ⟨h6, h7, -⟩ := h i hi y hy
  exact threshold_room h1 h6 hm h4 h5 h2 h7

end Apollo
