import Verif.Model.NetReal
import Verif.Spec.Net
import Mathlib.Algebra.BigOperators.Field

/-!
# The specification of the network in exact arithmetic
-/

namespace Apollo.Spec.Net

open Arith Finset

@[simp] theorem real_ofRat (q : ℚ) : (ofRat q : ℝ) = q := rfl
@[simp] theorem real_add (a b : ℝ) : add a b = a + b := rfl
@[simp] theorem real_sub (a b : ℝ) : sub a b = a - b := rfl
@[simp] theorem real_mul (a b : ℝ) : mul a b = a * b := rfl
@[simp] theorem real_div (a b : ℝ) : div a b = a / b := rfl
@[simp] theorem real_neg (a : ℝ) : neg a = -a := rfl
@[simp] theorem real_lt (a b : ℝ) : (lt a b = true) ↔ a < b := by
  show decide _ = true ↔ _
  exact decide_eq_true_iff
theorem real_lt_false (a b : ℝ) : (lt a b = false) ↔ b ≤ a := by
  rw [← Bool.not_eq_true, real_lt, not_lt]
@[simp] theorem real_exp (a : ℝ) : exp a = Real.exp a := rfl
@[simp] theorem real_sqrt (a : ℝ) : sqrt a = Real.sqrt a := rfl
@[simp] theorem real_pow (a : ℝ) (n : ℤ) : pow a n = a ^ n := rfl
@[simp] theorem real_signbit (a : ℝ) : (signbit a = true) ↔ a ≤ 0 := by
  show decide _ = true ↔ _
  exact decide_eq_true_iff

theorem sumTo_eq (n : ℕ) (f : ℕ → ℝ) : sumTo n f = ∑ i ∈ range n, f i := by
  induction n with
  | zero => simp [sumTo]
  | succ n ih => rw [sumTo, real_add, ih, sum_range_succ]

theorem affine_eq (n : ℕ) (L : Layer ℝ) (x : ℕ → ℝ) (j : ℕ) :
    affine n L x j = ∑ k ∈ range n, L.w j k * x k + L.b j := by
  rw [affine, real_add, sumTo_eq]
  rfl

theorem relu_eq (x : ℕ → ℝ) (j : ℕ) : relu x j = max 0 (x j) := by
  unfold relu
  by_cases h : x j < 0
  · rw [if_pos ((real_lt _ _).2 (by simpa using h)), max_eq_left h.le]
    simp
  · rw [if_neg (fun h' => h (by simpa using (real_lt _ _).1 h')), max_eq_right (not_lt.1 h)]

/-- The shift by the maximum cancels. -/
theorem softmax_eq (n : ℕ) (x : ℕ → ℝ) (j : ℕ) :
    softmax n x j = Real.exp (x j) / ∑ k ∈ range n, Real.exp (x k) := by
  unfold softmax expo
  rw [real_div, sumTo_eq]
  simp only [real_exp, real_sub, Real.exp_sub]
  rw [← sum_div, div_div_div_cancel_right₀ (Real.exp_ne_zero _)]

theorem softmax_pos {n : ℕ} (hn : 0 < n) (x : ℕ → ℝ) (j : ℕ) : 0 < softmax n x j := by
  rw [softmax_eq]
  exact div_pos (Real.exp_pos _) (sum_pos (fun _ _ => Real.exp_pos _)
    ⟨0, mem_range.2 hn⟩)

theorem softmax_sum {n : ℕ} (hn : 0 < n) (x : ℕ → ℝ) : ∑ j ∈ range n, softmax n x j = 1 := by
  simp only [softmax_eq]
  rw [← sum_div]
  exact div_self (ne_of_gt (sum_pos (fun _ _ => Real.exp_pos _) ⟨0, mem_range.2 hn⟩))

end Apollo.Spec.Net
