import Verif.Spec.KokkosRange
import Verif.Proofs.Kokkos
import Verif.Proofs.NetSoftmax

/-!
# Candidates of ranges of floating-point numbers
-/

namespace Apollo.Kokkos

open Spec

/-- The lower end with which the connector counts. -/
def lowEnd (r : Range ℚ) : ℚ := if r.openLower then r.lower else rnd64 (r.lower + epsilon)

/-- The upper end with which the connector counts. -/
def highEnd (r : Range ℚ) : ℚ := if r.openUpper then r.upper else rnd64 (r.upper - epsilon)

/-- The `x`-th candidate. -/
def candidate (r : Range ℚ) (x : ℕ) : ℚ := rnd64 (lowEnd r + rnd64 ((x : ℚ) * r.step))

/-- Half of the least positive `double`. -/
def tiny : ℚ := 2 ^ (-1075 : ℤ)

theorem tiny_pos : 0 < tiny := two_zpow_pos _

theorem tiny_le : tiny ≤ 1 / 10 ^ 40 := by
  have : (2 : ℚ) ^ (-1075 : ℤ) ≤ 2 ^ (-140 : ℤ) := zpow_le_zpow_right₀ (by norm_num) (by norm_num)
  refine le_trans this ?_
  norm_num

/-- The error of rounding. -/
theorem near64 (q : ℚ) : |rnd64 q - q| ≤ |q| / 9007199254740992 + tiny := by
  have h := abs_rnd64_sub_le q
  have e : (2 : ℚ) ^ (-53 : ℤ) = 1 / 9007199254740992 := by norm_num
  rw [e] at h
  change _ ≤ _ + tiny at h
  linarith

theorem epsilon_near : |epsilon - 1 / 10 ^ 24| ≤ 1 / 10 ^ 39 := by
  have h := near64 (1 / 10 ^ 24)
  have h1 := tiny_le
  rw [abs_of_pos (by norm_num : (0 : ℚ) < 1 / 10 ^ 24)] at h
  change |epsilon - _| ≤ _ at h
  refine h.trans ?_
  norm_num at h1 ⊢
  linarith

theorem epsilon_pos : 0 < epsilon := by
  have h := (abs_le.1 epsilon_near).1
  norm_num at h ⊢
  linarith

theorem epsilon_le : epsilon ≤ 11 / 10 ^ 25 := by
  have h := (abs_le.1 epsilon_near).2
  norm_num at h ⊢
  linarith

theorem f64 {q : ℚ} (h : Float64 q) : rnd64 q = q := rnd_of_representable (by norm_num) h

theorem mono64 {x y : ℚ} (h : x ≤ y) : rnd64 x ≤ rnd64 y := rnd_mono (by norm_num) h

/-- What `associate` gives for a range with positive step. -/
theorem associate_dbl {r : Range ℚ} (hs : 0 < r.step) {n : ℤ} {vs : List Value}
    (h : associate (.dblRange r) = .ok (n, vs)) :
    n = (let q := rnd64 (rnd64 (highEnd r - lowEnd r) / r.step); if 0 ≤ q then ⌊q⌋ else ⌈q⌉) ∧ n < 2 ^ 31 ∧
      vs = (List.range n.toNat).map fun x => .dbl (candidate r x) := by
  simp only [associate] at h
  obtain ⟨k, h1, h⟩ := (Res.bind_eq_ok _ _ _).1 h
  unfold countDbl at h1
  rw [if_neg hs.ne'] at h1
  change i64 _ = _ at h1
  have hk : k = (let q := rnd64 (rnd64 (highEnd r - lowEnd r) / r.step); if 0 ≤ q then ⌊q⌋ else ⌈q⌉) := by
    exact i64_ok h1
  split at h
  · next h0 =>
    cases h
    refine ⟨hk, lt_of_le_of_lt h0 (by norm_num), ?_⟩
    rw [Int.toNat_of_nonpos h0]
    rfl
  · split at h
    · next h2 =>
      cases h
      refine ⟨hk, h2, ?_⟩
      unfold fillDbl candidate lowEnd
      rfl
    · cases h

theorem lower_le_lowEnd {r : Range ℚ} (h : Float64 r.lower) : r.lower ≤ lowEnd r := by
  unfold lowEnd
  split
  · exact le_rfl
  · exact le_rnd_of_le (by norm_num) h (by linarith [epsilon_pos])

theorem highEnd_le_upper {r : Range ℚ} (h : Float64 r.upper) : highEnd r ≤ r.upper := by
  unfold highEnd
  split
  · exact le_rfl
  · exact rnd_le_of_le (by norm_num) h (by linarith [epsilon_pos])

theorem le_candidate {r : Range ℚ} (h : DblRange r) (x : ℕ) : r.lower ≤ candidate r x := by
  have h1 := lower_le_lowEnd h.lower
  have h2 : 0 ≤ rnd64 ((x : ℚ) * r.step) := rnd_nonneg (mul_nonneg (Nat.cast_nonneg x) h.pos.le)
  exact le_rnd_of_le (by norm_num) h.lower (by linarith)

theorem step_ge {s : ℚ} (h : Float64 s) (hp : 0 < s) : 2 * tiny ≤ s := by
  obtain ⟨m, e, -, he, rfl⟩ := h
  have h2 : (0 : ℚ) < 2 ^ e := two_zpow_pos _
  have hm : 0 < m := by
    by_contra hn
    have : (m : ℚ) ≤ 0 := by exact_mod_cast not_lt.1 hn
    nlinarith
  have hm1 : (1 : ℚ) ≤ m := by exact_mod_cast hm
  have h3 : (2 : ℚ) ^ (-1074 : ℤ) ≤ 2 ^ e := zpow_le_zpow_right₀ (by norm_num) he
  have e1 : 2 * (2 : ℚ) ^ (-1075 : ℤ) = 2 ^ (-1074 : ℤ) := by
    rw [← zpow_one_add₀ (by norm_num)]; norm_num
  unfold tiny
  rw [e1]
  nlinarith

/-- The numbers `x + 3/4` are of type `double`. -/
theorem float64_quarters {x : ℕ} (hx : (x : ℤ) < 2 ^ 31) : Float64 ((x : ℚ) + 3 / 4) := by
  refine ⟨4 * x + 3, -2, ?_, by norm_num, ?_⟩
  · rw [abs_of_nonneg (by omega)]
    norm_num at hx ⊢
    omega
  · push_cast
    norm_num
    ring

/-- The distance from the end with which the connector counts covers the step to each candidate. -/
theorem rnd_mul_le {r : Range ℚ} (h : DblRange r) {n : ℤ} (hn : n < 2 ^ 31)
    (hq : n = (let q := rnd64 (rnd64 (highEnd r - lowEnd r) / r.step); if 0 ≤ q then ⌊q⌋ else ⌈q⌉)) {x : ℕ}
    (hx : (x : ℤ) < n) : rnd64 ((x : ℚ) * r.step) ≤ highEnd r - lowEnd r := by
  simp only at hq
  set q := rnd64 (rnd64 (highEnd r - lowEnd r) / r.step) with hqd
  have hx' : (x : ℤ) < 2 ^ 31 := by omega
  have hq0 : ((x : ℚ) + 1) ≤ q := by
    split at hq
    · have h1 : ((x + 1 : ℤ) : ℚ) ≤ (⌊q⌋ : ℚ) := by exact_mod_cast (by omega : (x + 1 : ℤ) ≤ ⌊q⌋)
      have := Int.floor_le q
      push_cast at h1
      linarith
    · next h0 =>
      have : ⌈q⌉ ≤ 0 := Int.ceil_le.2 (by push_cast; linarith)
      omega
  have h1 : (x : ℚ) + 3 / 4 < rnd64 (highEnd r - lowEnd r) / r.step := by
    by_contra hc
    have := rnd_le_of_le (p := 53) (emin := -1074) (by norm_num) (float64_quarters hx') (not_lt.1 hc)
    change q ≤ _ at this
    linarith
  rw [lt_div_iff₀ h.pos] at h1
  by_contra hc
  have h2 : rnd64 (highEnd r - lowEnd r) ≤ rnd64 ((x : ℚ) * r.step) := by
    have := mono64 (not_le.1 hc).le
    rwa [show rnd64 (rnd64 ((x : ℚ) * r.step)) = _ from rnd_idem (by norm_num) _] at this
  have hy : 0 ≤ (x : ℚ) * r.step := mul_nonneg (Nat.cast_nonneg x) h.pos.le
  have h3 := (abs_le.1 (near64 ((x : ℚ) * r.step))).2
  rw [abs_of_nonneg hy] at h3
  have h4 := step_ge h.step h.pos
  have h5 : (x : ℚ) ≤ 2 ^ 31 := by exact_mod_cast hx'.le
  have h6 : (x : ℚ) * r.step ≤ 2 ^ 31 * r.step := mul_le_mul_of_nonneg_right h5 h.pos.le
  have h7 := h.pos
  have e : ((x : ℚ) + 3 / 4) * r.step = (x : ℚ) * r.step + 3 / 4 * r.step := by ring
  rw [e] at h1
  norm_num at h6
  linarith

theorem candidate_le {r : Range ℚ} (h : DblRange r) {n : ℤ} (hn : n < 2 ^ 31)
    (hq : n = (let q := rnd64 (rnd64 (highEnd r - lowEnd r) / r.step); if 0 ≤ q then ⌊q⌋ else ⌈q⌉)) {x : ℕ}
    (hx : (x : ℤ) < n) : candidate r x ≤ r.upper := by
  have h1 := rnd_mul_le h hn hq hx
  have h2 := highEnd_le_upper h.upper
  exact rnd_le_of_le (by norm_num) h.upper (by linarith)

theorem candidate_mono {r : Range ℚ} (h : DblRange r) {x y : ℕ} (hxy : x ≤ y) : candidate r x ≤ candidate r y := by
  have h1 : (x : ℚ) * r.step ≤ (y : ℚ) * r.step :=
    mul_le_mul_of_nonneg_right (by exact_mod_cast hxy) h.pos.le
  have h2 := mono64 h1
  exact mono64 (by linarith)

theorem lowEnd_near {r : Range ℚ} : |lowEnd r - r.lower| ≤ |r.lower| / 9007199254740992 + 12 / 10 ^ 25 := by
  have h1 := epsilon_pos
  have h2 := epsilon_le
  have h3 := tiny_le
  unfold lowEnd
  split
  · rw [sub_self, abs_zero]
    have := abs_nonneg r.lower
    positivity
  · have h4 := abs_le.1 (near64 (r.lower + epsilon))
    have h5 : |r.lower + epsilon| ≤ |r.lower| + epsilon := by
      have := abs_add_le r.lower epsilon
      rwa [abs_of_pos h1] at this
    rw [abs_le]
    norm_num at h3 h4 h2 ⊢
    constructor <;> linarith [h4.1, h4.2, abs_nonneg r.lower]

theorem highEnd_near {r : Range ℚ} : |highEnd r - r.upper| ≤ |r.upper| / 9007199254740992 + 12 / 10 ^ 25 := by
  have h1 := epsilon_pos
  have h2 := epsilon_le
  have h3 := tiny_le
  unfold highEnd
  split
  · rw [sub_self, abs_zero]
    have := abs_nonneg r.upper
    positivity
  · have h4 := abs_le.1 (near64 (r.upper - epsilon))
    have h5 : |r.upper - epsilon| ≤ |r.upper| + epsilon := by
      have := abs_sub r.upper epsilon
      rwa [abs_of_pos h1] at this
    rw [abs_le]
    norm_num at h3 h4 h2 ⊢
    constructor <;> linarith [h4.1, h4.2, abs_nonneg r.upper]

theorem candidate_near {r : Range ℚ} (h : 0 < r.step) (x : ℕ) :
    |candidate r x - (r.lower + x * r.step)| ≤ 2 / 10 ^ 24 + (|r.lower| + x * r.step) / 2 ^ 51 := by
  have hy : 0 ≤ (x : ℚ) * r.step := mul_nonneg (Nat.cast_nonneg x) h.le
  have h1 := abs_le.1 (lowEnd_near (r := r))
  have h2 := abs_le.1 (near64 ((x : ℚ) * r.step))
  rw [abs_of_nonneg hy] at h2
  have h3 := abs_le.1 (near64 (lowEnd r + rnd64 ((x : ℚ) * r.step)))
  have h4 := tiny_le
  have h0 := abs_nonneg r.lower
  have h5 := abs_le.1 (le_refl |r.lower|)
  change |rnd64 (lowEnd r + rnd64 ((x : ℚ) * r.step)) - _| ≤ _
  generalize (x : ℚ) * r.step = y at *
  generalize rnd64 y = z at *
  generalize lowEnd r = w at *
  generalize rnd64 (w + z) = v at *
  generalize |r.lower| = a at *
  generalize tiny = t at *
  have h6 : |w + z| ≤ 2 * a + 2 * y + 2 / 10 ^ 24 := by
    rw [abs_le]
    norm_num at h1 h2 h4 h5 ⊢
    constructor <;> linarith [h1.1, h1.2, h2.1, h2.2, h5.1, h5.2]
  rw [abs_le]
  norm_num at h1 h2 h3 h4 h5 h6 ⊢
  constructor <;> linarith [h1.1, h1.2, h2.1, h2.2, h3.1, h3.2, h5.1, h5.2]

/-- The candidates reach up to a step below the upper end. -/
theorem count_ge {r : Range ℚ} (h : DblRange r) {n : ℤ} (hn : n < 2 ^ 31)
    (hq : n = (let q := rnd64 (rnd64 (highEnd r - lowEnd r) / r.step); if 0 ≤ q then ⌊q⌋ else ⌈q⌉)) {k : ℕ}
    (hk : (k + 1) * r.step + 3 / 10 ^ 24 + (|r.lower| + |r.upper|) / 2 ^ 51 ≤ r.upper - r.lower) :
    (k : ℤ) < n := by
  simp only at hq
  have hd : ((k : ℚ) + 1) * r.step ≤ rnd64 (highEnd r - lowEnd r) := by
    have h1 := abs_le.1 (lowEnd_near (r := r))
    have h2 := abs_le.1 (highEnd_near (r := r))
    have h3 := abs_le.1 (near64 (highEnd r - lowEnd r))
    have h4 := tiny_le
    have h5 := abs_le.1 (le_refl |r.lower|)
    have h6 := abs_le.1 (le_refl |r.upper|)
    have h0 := abs_nonneg r.lower
    have h0' := abs_nonneg r.upper
    generalize ((k : ℚ) + 1) * r.step = y at *
    generalize lowEnd r = w at *
    generalize highEnd r = w' at *
    generalize rnd64 (w' - w) = v at *
    generalize |r.lower| = a at *
    generalize |r.upper| = b at *
    generalize tiny = t at *
    have h7 : |w' - w| ≤ 2 * a + 2 * b + 3 / 10 ^ 24 := by
      rw [abs_le]
      norm_num at h1 h2 h4 h5 h6 ⊢
      constructor <;> linarith [h1.1, h1.2, h2.1, h2.2, h5.1, h5.2, h6.1, h6.2]
    norm_num at h1 h2 h3 h4 h5 h6 h7 hk ⊢
    linarith [h1.1, h1.2, h2.1, h2.2, h3.1, h3.2, h5.1, h5.2, h6.1, h6.2]
  have hd' : ((k : ℚ) + 1) ≤ rnd64 (highEnd r - lowEnd r) / r.step := by rwa [le_div_iff₀ h.pos]
  set q := rnd64 (rnd64 (highEnd r - lowEnd r) / r.step) with hqd
  have key : ∀ j : ℕ, j ≤ 2 ^ 53 → j ≤ k + 1 → (j : ℤ) ≤ n := by
    intro j hj hjk
    have hjq : (j : ℚ) ≤ q := by
      have hf : Float64 (j : ℚ) := by
        have := representable_intCast (p := 53) (emin := -1074) (n := (j : ℤ)) (by norm_num) (by
          rw [abs_of_nonneg (by omega)]; exact_mod_cast hj)
        exact_mod_cast this
      have : (j : ℚ) ≤ (k : ℚ) + 1 := by exact_mod_cast hjk
      exact le_rnd_of_le (by norm_num) hf (this.trans hd')
    have h0 : 0 ≤ q := le_trans (Nat.cast_nonneg j) hjq
    rw [if_pos h0] at hq
    rw [hq]
    exact Int.le_floor.2 (by exact_mod_cast hjq)
  by_cases hk' : k + 1 ≤ 2 ^ 53
  · have := key (k + 1) hk' le_rfl
    push_cast at this
    omega
  · have := key (2 ^ 53) le_rfl (by omega)
    norm_num at this hn
    omega

end Apollo.Kokkos
