import Verif.Spec.Net
import Verif.Model.NetDouble
import Mathlib.Algebra.BigOperators.Group.Finset.Basic
import Mathlib.Algebra.Order.BigOperators.Group.Finset
import Mathlib.Algebra.BigOperators.Ring.Finset
import Mathlib.Algebra.BigOperators.Field
import Mathlib.Algebra.Order.Ring.Pow
import Mathlib.Tactic.Linarith
import Mathlib.Tactic.GCongr

/-!
# The probabilities of PolicyNet in `double`
-/

namespace Apollo

open Finset Spec.Net

/-- Half a unit in the last place, and half the smallest number. -/
theorem abs_rnd64_sub_le (q : ℚ) : |rnd64 q - q| ≤ 2 ^ (-53 : ℤ) * |q| + 2 ^ (-1075 : ℤ) := by
  by_cases hq : q = 0
  · subst hq
    unfold rnd64
    rw [rnd_zero]
    simp
  · have h := abs_rnd_sub_le (p := 53) (emin := -1074) q
    change |rnd64 q - q| ≤ _ at h
    have hpos : 0 < |q| := abs_pos.2 hq
    have hlog := Int.zpow_log_le_self (b := 2) (by norm_num) hpos
    simp only [Nat.cast_ofNat] at hlog
    refine h.trans ?_
    unfold ulpExp
    rcases max_cases (Int.log 2 |q| - (((53 : ℕ) : ℤ) - 1)) (-1074) with ⟨e, -⟩ | ⟨e, -⟩
    · rw [e]
      have e1 : (2 : ℚ) ^ (Int.log 2 |q| - (((53 : ℕ) : ℤ) - 1)) / 2 = 2 ^ (-53 : ℤ) * 2 ^ Int.log 2 |q| := by
        rw [div_eq_mul_inv, ← zpow_neg_one, ← zpow_add₀ (by norm_num), ← zpow_add₀ (by norm_num)]
        congr 1
        push_cast
        ring
      rw [e1]
      have : (0 : ℚ) < 2 ^ (-1075 : ℤ) := two_zpow_pos _
      have h2 : (0 : ℚ) < 2 ^ (-53 : ℤ) := two_zpow_pos _
      nlinarith [mul_le_mul_of_nonneg_left hlog h2.le]
    · rw [e]
      have e1 : (2 : ℚ) ^ (-1074 : ℤ) / 2 = 2 ^ (-1075 : ℤ) := by
        rw [div_eq_mul_inv, ← zpow_neg_one, ← zpow_add₀ (by norm_num)]
        norm_num
      rw [e1]
      have : (0 : ℚ) ≤ 2 ^ (-53 : ℤ) * |q| := by positivity
      linarith

theorem rnd64_bounds {q : ℚ} (hq : 0 ≤ q) :
    (1 - 2 ^ (-53 : ℤ)) * q - 2 ^ (-1075 : ℤ) ≤ rnd64 q ∧
    rnd64 q ≤ (1 + 2 ^ (-53 : ℤ)) * q + 2 ^ (-1075 : ℤ) := by
  have h := abs_le.1 (abs_rnd64_sub_le q)
  rw [abs_of_nonneg hq] at h
  constructor <;> linarith [h.1, h.2]

theorem rnd64_mono {x y : ℚ} (h : x ≤ y) : rnd64 x ≤ rnd64 y := rnd_mono (by norm_num) h

theorem rnd64_one : rnd64 1 = 1 := rnd_of_representable (by norm_num)
  (by simpa using representable_intCast (p := 53) (emin := -1074) (n := 1) (by norm_num) (by norm_num))

section

variable {exp sqrt : ℚ → ℚ} {pow : ℚ → ℤ → ℚ}

/-- Adding numbers one after the other. -/
theorem sumTo_bounds {e : ℕ → ℚ} (he : ∀ k, 0 ≤ e k) (n : ℕ) :
    (1 - 2 ^ (-53 : ℤ)) ^ n * ∑ k ∈ range n, e k - n * 2 ^ (-1075 : ℤ) ≤
      @sumTo ℚ (doubleArith exp sqrt pow) n e ∧
    @sumTo ℚ (doubleArith exp sqrt pow) n e ≤
      (1 + 2 ^ (-53 : ℤ)) ^ n * (∑ k ∈ range n, e k + n * 2 ^ (-1075 : ℤ)) ∧
    0 ≤ @sumTo ℚ (doubleArith exp sqrt pow) n e := by
  have hu : (0 : ℚ) < 2 ^ (-53 : ℤ) := two_zpow_pos _
  have hu1 : (2 : ℚ) ^ (-53 : ℤ) ≤ 1 := by norm_num
  have hη : (0 : ℚ) < 2 ^ (-1075 : ℤ) := two_zpow_pos _
  have hb := fun q (hq : (0 : ℚ) ≤ q) => rnd64_bounds hq
  generalize (2 : ℚ) ^ (-53 : ℤ) = u at *
  generalize (2 : ℚ) ^ (-1075 : ℤ) = η at *
  induction n with
  | zero =>
    have : @sumTo ℚ (doubleArith exp sqrt pow) 0 e = 0 := by
      show rnd64 0 = 0
      unfold rnd64; simp
    rw [this]
    simp
  | succ n ih =>
    obtain ⟨h1, h2, h3⟩ := ih
    have hs : @sumTo ℚ (doubleArith exp sqrt pow) (n + 1) e =
        rnd64 (@sumTo ℚ (doubleArith exp sqrt pow) n e + e n) := rfl
    rw [hs]
    generalize @sumTo ℚ (doubleArith exp sqrt pow) n e = S at *
    have hn := he n
    obtain ⟨b1, b2⟩ := hb (S + e n) (by linarith)
    have hT : 0 ≤ ∑ k ∈ range n, e k := sum_nonneg fun k _ => he k
    rw [sum_range_succ]
    generalize ∑ k ∈ range n, e k = T at *
    have p1 : (1 - u) ^ n ≤ 1 := pow_le_one₀ (by linarith) (by linarith)
    have p2 : 1 ≤ (1 + u) ^ n := one_le_pow₀ (by linarith)
    have p0 : 0 ≤ (1 - u) ^ n := pow_nonneg (by linarith) _
    push_cast
    refine ⟨?_, ?_, rnd_nonneg (by linarith)⟩
    · refine le_trans ?_ b1
      have k1 : (1 - u) ^ n * e n ≤ e n := by nlinarith
      have k2 : (1 - u) * ((1 - u) ^ n * T - n * η + (1 - u) ^ n * e n) ≤ (1 - u) * (S + e n) :=
        mul_le_mul_of_nonneg_left (by linarith) (by linarith)
      have k3 : (1 - u) * (n * η) ≤ n * η := by
        have : 0 ≤ (n : ℚ) * η := by positivity
        nlinarith
      rw [pow_succ]
      nlinarith
    · refine b2.trans ?_
      have k1 : e n ≤ (1 + u) ^ n * e n := by nlinarith
      have k2 : (1 + u) * (S + e n) ≤ (1 + u) * ((1 + u) ^ n * (T + n * η) + (1 + u) ^ n * e n) :=
        mul_le_mul_of_nonneg_left (by linarith) (by linarith)
      have p3 : 1 ≤ (1 + u) ^ (n + 1) := one_le_pow₀ (by linarith)
      have k3 : η ≤ (1 + u) ^ (n + 1) * η := by nlinarith
      rw [pow_succ] at k3 ⊢
      nlinarith

theorem sumTo_rnd (e : ℕ → ℚ) (n : ℕ) : ∃ q, @sumTo ℚ (doubleArith exp sqrt pow) n e = rnd64 q := by
  cases n with
  | zero => exact ⟨_, rfl⟩
  | succ n => exact ⟨_, rfl⟩

/-- A sum is not below its terms. -/
theorem le_sumTo {e : ℕ → ℚ} (he : ∀ k, 0 ≤ e k) (hf : ∀ k, Float64 (e k)) {n j : ℕ} (hj : j < n) :
    e j ≤ @sumTo ℚ (doubleArith exp sqrt pow) n e := by
  induction n with
  | zero => omega
  | succ n ih =>
    have hs : @sumTo ℚ (doubleArith exp sqrt pow) (n + 1) e =
        rnd64 (@sumTo ℚ (doubleArith exp sqrt pow) n e + e n) := rfl
    rw [hs]
    have h0 := (sumTo_bounds (exp := exp) (sqrt := sqrt) (pow := pow) he n).2.2
    refine le_rnd_of_le (by norm_num) (hf j) ?_
    rcases Nat.lt_succ_iff_lt_or_eq.1 hj with h | rfl
    · linarith [ih h, he n]
    · linarith

theorem maxTo_double (x : ℕ → ℚ) (n : ℕ) :
    (∀ j < n, x j ≤ @maxTo ℚ (doubleArith exp sqrt pow) n x) ∧
    (0 < n → ∃ j < n, x j = @maxTo ℚ (doubleArith exp sqrt pow) n x) := by
  induction n with
  | zero => exact ⟨fun j hj => by omega, fun h => absurd h (lt_irrefl _)⟩
  | succ n ih =>
    have hs : @maxTo ℚ (doubleArith exp sqrt pow) (n + 1) x =
        if @maxTo ℚ (doubleArith exp sqrt pow) n x < x n then x n
        else @maxTo ℚ (doubleArith exp sqrt pow) n x := by
      show (if decide (_ < _) = true then _ else _) = _
      simp only [decide_eq_true_eq]
    rw [hs]
    cases n with
    | zero =>
      have h0 : @maxTo ℚ (doubleArith exp sqrt pow) 0 x = x 0 := rfl
      rw [h0, if_neg (lt_irrefl _)]
      exact ⟨fun j hj => by rw [Nat.lt_one_iff.1 hj], fun _ => ⟨0, by omega, rfl⟩⟩
    | succ n =>
      obtain ⟨h1, h2⟩ := ih
      obtain ⟨i, hi, e⟩ := h2 (by omega)
      split_ifs with hc
      · refine ⟨fun j hj => ?_, fun _ => ⟨n + 1, by omega, rfl⟩⟩
        rcases Nat.lt_succ_iff_lt_or_eq.1 hj with h | rfl
        · exact (h1 j h).trans hc.le
        · exact le_refl _
      · refine ⟨fun j hj => ?_, fun _ => ⟨i, by omega, e⟩⟩
        rcases Nat.lt_succ_iff_lt_or_eq.1 hj with h | rfl
        · exact h1 j h
        · exact not_lt.1 hc

/-- The probabilities are at most one and sum up to one but for rounding. -/
theorem softmax_double (h0 : exp 0 = 1) (h1 : ∀ x, 0 ≤ exp x ∧ Float64 (exp x)) {n : ℕ}
    (hn : 0 < n) (hn' : n ≤ 2 ^ 20) (x : ℕ → ℚ) :
    (∀ j < n, 0 ≤ @softmax ℚ (doubleArith exp sqrt pow) n x j ∧
      @softmax ℚ (doubleArith exp sqrt pow) n x j ≤ 1) ∧
    |∑ j ∈ range n, @softmax ℚ (doubleArith exp sqrt pow) n x j - 1| ≤ (n + 2) * 2 ^ (-53 : ℤ) := by
  have hs : ∀ j, @softmax ℚ (doubleArith exp sqrt pow) n x j =
      rnd64 (@expo ℚ (doubleArith exp sqrt pow) n x j /
        @sumTo ℚ (doubleArith exp sqrt pow) n (@expo ℚ (doubleArith exp sqrt pow) n x)) := fun _ => rfl
  have he : ∀ j, 0 ≤ @expo ℚ (doubleArith exp sqrt pow) n x j ∧
      Float64 (@expo ℚ (doubleArith exp sqrt pow) n x j) := fun j => h1 _
  have hone : ∃ j < n, @expo ℚ (doubleArith exp sqrt pow) n x j = 1 := by
    obtain ⟨j, hj, e⟩ := (maxTo_double (exp := exp) (sqrt := sqrt) (pow := pow) x n).2 hn
    refine ⟨j, hj, ?_⟩
    show exp (rnd64 (x j - @maxTo ℚ (doubleArith exp sqrt pow) n x)) = 1
    rw [← e, sub_self]
    unfold rnd64
    rw [rnd_zero, h0]
  simp only [hs]
  generalize @expo ℚ (doubleArith exp sqrt pow) n x = e at *
  obtain ⟨b1, b2, -⟩ := sumTo_bounds (exp := exp) (sqrt := sqrt) (pow := pow) (fun k => (he k).1) n
  have hle : ∀ j < n, e j ≤ @sumTo ℚ (doubleArith exp sqrt pow) n e := fun j hj =>
    le_sumTo (fun k => (he k).1) (fun k => (he k).2) hj
  generalize @sumTo ℚ (doubleArith exp sqrt pow) n e = S at *
  have hS : 1 ≤ S := by
    obtain ⟨j, hj, ej⟩ := hone
    rw [← ej]
    exact hle j hj
  have hS0 : 0 < S := by linarith
  have hq : ∀ j, 0 ≤ e j / S := fun j => div_nonneg (he j).1 hS0.le
  refine ⟨fun j hj => ⟨rnd_nonneg (hq j), ?_⟩, ?_⟩
  · have := rnd64_mono ((div_le_one hS0).2 (hle j hj))
    rwa [rnd64_one] at this
  have hu : (0 : ℚ) < 2 ^ (-53 : ℤ) := two_zpow_pos _
  have hη : (0 : ℚ) < 2 ^ (-1075 : ℤ) := two_zpow_pos _
  have hη' : (2 : ℚ) ^ (-1075 : ℤ) * 2 ^ 20 ≤ 2 ^ (-53 : ℤ) / 16 := by
    have k : (2 : ℚ) ^ (-1075 : ℤ) ≤ 2 ^ (-77 : ℤ) := zpow_le_zpow_right₀ (by norm_num) (by norm_num)
    calc _ ≤ (2 : ℚ) ^ (-77 : ℤ) * 2 ^ 20 := mul_le_mul_of_nonneg_right k (by norm_num)
      _ ≤ _ := by norm_num
  have hν : (2 : ℚ) ^ (-53 : ℤ) * 2 ^ 40 ≤ 1 / 16 := by norm_num
  have hup : ∑ j ∈ range n, rnd64 (e j / S) ≤
      (1 + 2 ^ (-53 : ℤ)) * ((∑ j ∈ range n, e j) / S) + n * 2 ^ (-1075 : ℤ) := by
    calc _ ≤ ∑ j ∈ range n, ((1 + 2 ^ (-53 : ℤ)) * (e j / S) + 2 ^ (-1075 : ℤ)) :=
          sum_le_sum fun j _ => (rnd64_bounds (hq j)).2
      _ = _ := by rw [sum_add_distrib, ← mul_sum, ← sum_div, sum_const, card_range, nsmul_eq_mul]
  have hdn : (1 - 2 ^ (-53 : ℤ)) * ((∑ j ∈ range n, e j) / S) - n * 2 ^ (-1075 : ℤ) ≤
      ∑ j ∈ range n, rnd64 (e j / S) := by
    calc _ = ∑ j ∈ range n, ((1 - 2 ^ (-53 : ℤ)) * (e j / S) - 2 ^ (-1075 : ℤ)) := by
          rw [sum_sub_distrib, ← mul_sum, ← sum_div, sum_const, card_range, nsmul_eq_mul]
      _ ≤ _ := sum_le_sum fun j _ => (rnd64_bounds (hq j)).1
  generalize ∑ j ∈ range n, rnd64 (e j / S) = Q at *
  have hT : 0 ≤ ∑ j ∈ range n, e j := sum_nonneg fun k _ => (he k).1
  generalize ∑ j ∈ range n, e j = T at *
  generalize (2 : ℚ) ^ (-53 : ℤ) = u at *
  generalize (2 : ℚ) ^ (-1075 : ℤ) = η at *
  have hnq : (n : ℚ) ≤ 2 ^ 20 := by exact_mod_cast hn'
  have hn1 : (1 : ℚ) ≤ n := by exact_mod_cast hn
  have hδ : (n : ℚ) * η ≤ u / 16 := by nlinarith
  have hδ0 : 0 ≤ (n : ℚ) * η := by positivity
  have hν1 : (n : ℚ) * (n * u) ≤ 1 / 16 := by
    have : (n : ℚ) * n ≤ 2 ^ 40 := by nlinarith
    nlinarith
  have hν2 : (n : ℚ) * u ≤ 1 / 16 := by nlinarith [mul_nonneg (sub_nonneg.2 hn1) (mul_nonneg (by linarith : (0:ℚ) ≤ n) hu.le)]
  have hu1 : u ≤ 1 / 16 := by nlinarith
  have c1 : 1 - n * u ≤ (1 - u) ^ n := by
    have := one_add_mul_le_pow (a := -u) (by linarith) n
    calc 1 - n * u = 1 + n * -u := by ring
      _ ≤ (1 + -u) ^ n := this
      _ = _ := by rw [← sub_eq_add_neg]
  have c2 : (1 + u) ^ n * (1 - u) ^ n ≤ 1 := by
    rw [← mul_pow]
    exact pow_le_one₀ (by nlinarith) (by nlinarith)
  have t1 : (1 - n * u) * (T / S) ≤ 1 + n * η := by
    rw [← mul_div_assoc, div_le_iff₀ hS0]
    have a1 : (1 - n * u) * T ≤ (1 - u) ^ n * T := mul_le_mul_of_nonneg_right c1 hT
    have a2 : (n : ℚ) * η ≤ n * η * S := le_mul_of_one_le_right hδ0 hS
    linarith
  have t2 : 1 - n * u ≤ T / S + n * η := by
    have p0 : 0 < (1 - u) ^ n := pow_pos (by linarith) _
    have a1 : (1 - u) ^ n * S ≤ T + n * η := by
      calc (1 - u) ^ n * S ≤ (1 - u) ^ n * ((1 + u) ^ n * (T + n * η)) := mul_le_mul_of_nonneg_left b2 p0.le
        _ = ((1 + u) ^ n * (1 - u) ^ n) * (T + n * η) := by ring
        _ ≤ 1 * (T + n * η) := mul_le_mul_of_nonneg_right c2 (by linarith)
        _ = _ := one_mul _
    have a2 : (1 - n * u) * S ≤ T + n * η := le_trans (mul_le_mul_of_nonneg_right c1 hS0.le) a1
    have a3 : 1 - n * u ≤ (T + n * η) / S := (le_div_iff₀ hS0).2 a2
    have a4 : n * η / S ≤ n * η := div_le_self hδ0 hS
    rw [add_div] at a3
    linarith
  generalize T / S = t at *
  generalize (n : ℚ) * η = δ at *
  have hν3 : (n : ℚ) * u * (n * u) ≤ u / 16 := by nlinarith
  have e1 : ((n : ℚ) + 2) * u = n * u + 2 * u := by ring
  rw [e1, abs_le]
  have hν0 : 0 ≤ (n : ℚ) * u := by positivity
  generalize (n : ℚ) * u = ν at *
  have ht0 : 0 ≤ t := by linarith
  constructor
  · nlinarith
  · have k : (1 - ν) * ((1 + u) * t + δ) ≤ (1 - ν) * (1 + ν + 2 * u) := by
      have k1 : (1 + u) * ((1 - ν) * t) ≤ (1 + u) * (1 + δ) := mul_le_mul_of_nonneg_left t1 (by linarith)
      have k2 : u * δ ≤ u * (1 / 16) := mul_le_mul_of_nonneg_left (by linarith) hu.le
      have k3 : u * ν ≤ u * (1 / 16) := mul_le_mul_of_nonneg_left hν2 hu.le
      have k4 : 0 ≤ δ * ν := mul_nonneg hδ0 hν0
      nlinarith
    have := le_of_mul_le_mul_left k (by linarith)
    linarith

end

end Apollo
