import Verif.Proofs.TreeBuild
import Mathlib.Algebra.Order.Ring.Pow
import Mathlib.Algebra.Order.BigOperators.Group.List
import Mathlib.Tactic.Positivity
import Mathlib.Tactic.Ring
import Mathlib.Tactic.FieldSimp
import Mathlib.Tactic.NormNum

/-!
# Rounding errors of the impurity computation
-/

namespace Apollo

open Spec

/-- Unit roundoff of binary32. -/
def eps : ℚ := 2 ^ (-24 : ℤ)

theorem eps_eq : eps = 1 / 16777216 := by unfold eps; norm_num

theorem eps_pos : 0 < eps := by rw [eps_eq]; norm_num

/-- Error of rounding something of magnitude at most `B`. -/
theorem rnd32_abs_err {q B : ℚ} (hB : 2 ^ (-125 : ℤ) ≤ B) (h : |q| ≤ B) :
    |rnd32 q - q| ≤ eps * B := by
  have hB0 : 0 < B := lt_of_lt_of_le (by positivity) hB
  rcases eq_or_ne q 0 with h0 | h0
  · subst h0
    have : rnd32 0 = 0 := rnd_of_representable (by norm_num) representable_zero
    rw [this, sub_zero, abs_zero]
    exact mul_nonneg eps_pos.le hB0.le
  refine le_trans (abs_rnd_sub_le q) ?_
  have hmono : ulpExp 24 (-149) q ≤ ulpExp 24 (-149) B := by
    have h1 : ulpExp 24 (-149) q = ulpExp 24 (-149) |q| := by unfold ulpExp; rw [abs_abs]
    rw [h1]
    exact ulpExp_mono (abs_pos.2 h0) h
  have hlog : (-125 : ℤ) ≤ Int.log 2 B := by
    rw [← Int.zpow_le_iff_le_log (by norm_num) hB0]
    exact_mod_cast hB
  have hB1 : ulpExp 24 (-149) B = Int.log 2 B - 23 := by
    unfold ulpExp
    rw [abs_of_pos hB0]
    push_cast
    omega
  have h2 : (2 : ℚ) ^ ulpExp 24 (-149) q ≤ 2 ^ (Int.log 2 B - 23) := by
    rw [← hB1]
    exact zpow_le_zpow_right₀ (by norm_num) hmono
  have h3 : ((2 : ℕ) : ℚ) ^ Int.log 2 B ≤ B := Int.zpow_log_le_self (by norm_num) hB0
  push_cast at h3
  rw [zpow_sub₀ (by norm_num)] at h2
  rw [eps_eq]
  have h4 : (2 : ℚ) ^ (23 : ℤ) = 8388608 := by norm_num
  rw [h4] at h2
  linarith

/-- `b` is `a` up to `k` roundings. -/
def Rel (k : ℕ) (a b : ℚ) : Prop := (1 - eps) ^ k * a ≤ b ∧ b ≤ (1 + eps) ^ k * a

theorem one_sub_eps_nonneg : 0 ≤ 1 - eps := by rw [eps_eq]; norm_num
theorem one_sub_eps_le_one : 1 - eps ≤ 1 := by linarith [eps_pos]
theorem one_le_one_add_eps : 1 ≤ 1 + eps := by linarith [eps_pos]

theorem Rel.nonneg {k : ℕ} {a b : ℚ} (h : Rel k a b) (ha : 0 ≤ a) : 0 ≤ b :=
  le_trans (mul_nonneg (pow_nonneg one_sub_eps_nonneg k) ha) h.1

theorem Rel.zero (a : ℚ) : Rel 0 a a := by simp [Rel]

theorem Rel.mono {k m : ℕ} (hkm : k ≤ m) {a b : ℚ} (ha : 0 ≤ a) (h : Rel k a b) : Rel m a b := by
  refine ⟨le_trans (mul_le_mul_of_nonneg_right ?_ ha) h.1,
    le_trans h.2 (mul_le_mul_of_nonneg_right ?_ ha)⟩
  · exact pow_le_pow_of_le_one one_sub_eps_nonneg one_sub_eps_le_one hkm
  · exact pow_le_pow_right₀ one_le_one_add_eps hkm

theorem Rel.rnd {a : ℚ} (ha : 2 ^ (-125 : ℤ) ≤ a) : Rel 1 a (rnd32 a) := by
  have ha0 : 0 < a := lt_of_lt_of_le (by positivity) ha
  have := abs_le.1 (rnd32_abs_err ha (le_of_eq (abs_of_pos ha0)))
  unfold Rel
  constructor <;> simp only [pow_one] <;> linarith [this.1, this.2]

theorem Rel.trans {k m : ℕ} {a b c : ℚ} (h : Rel k a b) (h' : Rel m b c) : Rel (k + m) a c := by
  constructor
  · rw [pow_add, mul_comm ((1 - eps) ^ k), mul_assoc]
    exact le_trans (mul_le_mul_of_nonneg_left h.1 (pow_nonneg one_sub_eps_nonneg m)) h'.1
  · rw [pow_add, mul_comm ((1 + eps) ^ k), mul_assoc]
    refine le_trans h'.2 (mul_le_mul_of_nonneg_left h.2 (pow_nonneg ?_ m))
    linarith [eps_pos]

theorem Rel.add {k : ℕ} {a b a' b' : ℚ} (h : Rel k a b) (h' : Rel k a' b') :
    Rel k (a + a') (b + b') := by
  constructor
  · rw [mul_add]; exact add_le_add h.1 h'.1
  · rw [mul_add]; exact add_le_add h.2 h'.2

theorem Rel.mul {k m : ℕ} {a b a' b' : ℚ} (ha : 0 ≤ a) (ha' : 0 ≤ a') (h : Rel k a b)
    (h' : Rel m a' b') : Rel (k + m) (a * a') (b * b') := by
  have hb := h.nonneg ha
  have hb' := h'.nonneg ha'
  constructor
  · have : (1 - eps) ^ (k + m) * (a * a') = ((1 - eps) ^ k * a) * ((1 - eps) ^ m * a') := by
      rw [pow_add]; ring
    rw [this]
    exact mul_le_mul h.1 h'.1 (mul_nonneg (pow_nonneg one_sub_eps_nonneg m) ha') hb
  · have : (1 + eps) ^ (k + m) * (a * a') = ((1 + eps) ^ k * a) * ((1 + eps) ^ m * a') := by
      rw [pow_add]; ring
    rw [this]
    refine mul_le_mul h.2 h'.2 hb' (mul_nonneg (pow_nonneg ?_ k) ha)
    linarith [eps_pos]

/-- Exact square of the share of a class. -/
def share2 (xs : List Sample) (c : ℤ) : ℚ := ((numOf xs c : ℚ) / xs.length) ^ 2

theorem share2_nonneg (xs : List Sample) (c : ℤ) : 0 ≤ share2 xs c := by
  unfold share2; positivity

theorem giniStep_rel {xs : List Sample} (hne : xs ≠ []) (hlen : xs.length ≤ 2 ^ 24) {k : ℕ}
    {E S : ℚ} (hE : 0 ≤ E) (hS : Float32 S) (h : Rel (k + 3) E S) (c : ℤ) :
    Rel (k + (if numOf xs c = 0 then 0 else 1) + 3) (E + share2 xs c) (giniStep xs S c) ∧
      Float32 (giniStep xs S c) := by
  refine ⟨?_, representable_rnd _⟩
  have hcount : countClass xs c ≤ xs.length := List.countP_le_length
  have hpos : (0 : ℚ) < xs.length := by exact_mod_cast List.length_pos_of_ne_nil hne
  unfold giniStep
  simp only [rnd32_natCast hlen, rnd32_natCast (le_trans hcount hlen)]
  unfold share2
  rw [← countClass_eq]
  rcases Nat.eq_zero_or_pos (countClass xs c) with h0 | h0
  · have hz : rnd32 0 = 0 := rnd_of_representable (by norm_num) representable_zero
    rw [h0]
    simp only [Nat.cast_zero, zero_div, hz, mul_zero, add_zero]
    have hSS : rnd32 S = S := rnd_of_representable (by norm_num) hS
    rw [hSS]
    have : E + (0 : ℚ) ^ 2 = E := by ring
    rw [this]
    exact h
  · rw [if_neg (by omega)]
    have hq : (2 : ℚ) ^ (-24 : ℤ) ≤ (countClass xs c : ℚ) / xs.length := by
      rw [le_div_iff₀ hpos]
      have h1 : (1 : ℚ) ≤ countClass xs c := by exact_mod_cast h0
      have h2 : (xs.length : ℚ) ≤ 2 ^ 24 := by exact_mod_cast hlen
      have h3 : (2 : ℚ) ^ (-24 : ℤ) * 2 ^ 24 = 1 := by norm_num
      nlinarith [show (0:ℚ) < 2 ^ (-24 : ℤ) by positivity]
    generalize (countClass xs c : ℚ) / xs.length = q at hq
    have hq0 : 0 < q := lt_of_lt_of_le (by positivity) hq
    have hp : Rel 1 q (rnd32 q) := Rel.rnd (le_trans (by norm_num) hq)
    have hpl : (2 : ℚ) ^ (-24 : ℤ) ≤ rnd32 q := by
      apply le_rnd_of_le (by norm_num) _ hq
      exact ⟨1, -24, by norm_num, by norm_num, by norm_num⟩
    generalize rnd32 q = p at hp hpl
    have hp0 : 0 < p := lt_of_lt_of_le (by positivity) hpl
    have hpp : Rel 2 (q * q) (p * p) := Rel.mul hq0.le hq0.le hp hp
    have hppl : (2 : ℚ) ^ (-48 : ℤ) ≤ p * p := by
      have : (2 : ℚ) ^ (-48 : ℤ) = 2 ^ (-24 : ℤ) * 2 ^ (-24 : ℤ) := by norm_num
      rw [this]
      exact mul_le_mul hpl hpl (by positivity) hp0.le
    have ht : Rel 3 (q * q) (rnd32 (p * p)) := hpp.trans (Rel.rnd (le_trans (by norm_num) hppl))
    have htl : (2 : ℚ) ^ (-48 : ℤ) ≤ rnd32 (p * p) := by
      apply le_rnd_of_le (by norm_num) _ hppl
      exact ⟨1, -48, by norm_num, by norm_num, by norm_num⟩
    generalize rnd32 (p * p) = t at ht htl
    have hS0 := h.nonneg hE
    have hsum : Rel (k + 3) (E + q * q) (S + t) :=
      h.add (ht.mono (by omega) (by positivity))
    have := hsum.trans (Rel.rnd (a := S + t) (by
      refine le_trans ?_ (le_trans htl (by linarith))
      norm_num))
    rw [show k + 1 + 3 = k + 3 + 1 by omega, show q ^ 2 = q * q by ring]
    exact this

/-- The number of classes that occur. -/
def nonzero (classes : List ℤ) (xs : List Sample) : ℕ := classes.countP fun c => numOf xs c ≠ 0

theorem fold_rel {xs : List Sample} (hne : xs ≠ []) (hlen : xs.length ≤ 2 ^ 24)
    (classes : List ℤ) : ∀ {k : ℕ} {E S : ℚ}, 0 ≤ E → Float32 S → Rel (k + 3) E S →
      Rel (k + nonzero classes xs + 3) (E + (classes.map (share2 xs)).sum)
        (classes.foldl (giniStep xs) S) ∧ Float32 (classes.foldl (giniStep xs) S) := by
  induction classes with
  | nil => intro k E S hE hS h; simpa [nonzero] using ⟨h, hS⟩
  | cons c cs ih =>
    intro k E S hE hS h
    obtain ⟨h1, h2⟩ := giniStep_rel hne hlen hE hS h c
    have := ih (E := E + share2 xs c) (add_nonneg hE (share2_nonneg xs c)) h2 h1
    simp only [List.foldl_cons, List.map_cons, List.sum_cons]
    have hn : nonzero (c :: cs) xs = (if numOf xs c = 0 then 0 else 1) + nonzero cs xs := by
      unfold nonzero
      rw [List.countP_cons]
      by_cases h0 : numOf xs c = 0 <;> simp [h0, Nat.add_comm]
    rw [hn, ← Nat.add_assoc k, ← add_assoc E]
    exact this

/-- Sum of the squared shares. -/
def shares (classes : List ℤ) (xs : List Sample) : ℚ := (classes.map (share2 xs)).sum

theorem exactGini_eq (classes : List ℤ) (xs : List Sample) :
    exactGini classes xs = 1 - shares classes xs := rfl

theorem shares_nonneg (classes : List ℤ) (xs : List Sample) : 0 ≤ shares classes xs := by
  unfold shares
  apply List.sum_nonneg
  intro a ha
  obtain ⟨c, -, rfl⟩ := List.mem_map.1 ha
  exact share2_nonneg xs c

theorem gini_rel' (classes : List ℤ) {xs : List Sample} (hne : xs ≠ [])
    (hlen : xs.length ≤ 2 ^ 24) :
    Rel (nonzero classes xs + 3) (shares classes xs) (classes.foldl (giniStep xs) 0) := by
  have := (fold_rel hne hlen classes (k := 0) (E := 0) (S := 0) (le_refl 0) representable_zero
    (by simp [Rel])).1
  simpa [shares] using this

theorem gini_rel (classes : List ℤ) {xs : List Sample} (hne : xs ≠ [])
    (hlen : xs.length ≤ 2 ^ 24) :
    Rel (classes.length + 3) (shares classes xs) (classes.foldl (giniStep xs) 0) :=
  (gini_rel' classes hne hlen).mono
    (by have : nonzero classes xs ≤ classes.length := List.countP_le_length; omega)
    (shares_nonneg classes xs)

/-! ## Sums of counters -/

theorem sum_numOf (classes : List ℤ) (hnd : classes.Nodup) (xs : List Sample)
    (h : ∀ x ∈ xs, x.2 ∈ classes) : (classes.map (numOf xs)).sum = xs.length := by
  induction xs with
  | nil =>
    rw [List.length_nil, List.sum_eq_zero]
    intro n hn
    obtain ⟨c, -, rfl⟩ := List.mem_map.1 hn
    rfl
  | cons x xs ih =>
    have ih := ih fun y hy => h y (by simp [hy])
    have hx := h x (by simp)
    have : classes.map (numOf (x :: xs)) =
        classes.map fun c => (if c = x.2 then 1 else 0) + numOf xs c := by
      apply List.map_congr_left
      intro c _
      unfold numOf
      rw [List.filter_cons]
      by_cases hc : x.2 = c
      · simp [hc, Nat.add_comm]
      · rw [if_neg (by simpa using hc), if_neg (fun e => hc e.symm), Nat.zero_add]
    rw [this, List.length_cons, ← ih]
    have hs : ∀ l : List ℤ, (l.map fun c => (if c = x.2 then 1 else 0) + numOf xs c).sum =
        l.count x.2 + (l.map (numOf xs)).sum := by
      intro l
      induction l with
      | nil => rfl
      | cons c l ihl =>
        simp only [List.map_cons, List.sum_cons, ihl, List.count_cons, beq_iff_eq]
        split <;> omega
    rw [hs, List.count_eq_one_of_mem hnd hx]
    omega

theorem sum_sq_ge (l : List ℕ) : (l.sum : ℚ) ≤ (l.map fun n : ℕ => (n : ℚ) ^ 2).sum := by
  induction l with
  | nil => simp
  | cons a l ih =>
    simp only [List.sum_cons, List.map_cons]
    push_cast
    have : (a : ℚ) ≤ (a : ℚ) ^ 2 := by
      rcases Nat.eq_zero_or_pos a with h | h
      · subst h; norm_num
      · have : (1 : ℚ) ≤ a := by exact_mod_cast h
        nlinarith
    linarith

theorem sum_sq_le (l : List ℕ) : (l.map fun n : ℕ => (n : ℚ) ^ 2).sum ≤ (l.sum : ℚ) ^ 2 := by
  induction l with
  | nil => simp
  | cons a l ih =>
    simp only [List.sum_cons, List.map_cons]
    push_cast
    have h1 : (0 : ℚ) ≤ a := by positivity
    have h2 : (0 : ℚ) ≤ (l.sum : ℚ) := by positivity
    nlinarith

theorem shares_eq (classes : List ℤ) (xs : List Sample) :
    shares classes xs =
      ((classes.map (numOf xs)).map fun n : ℕ => (n : ℚ) ^ 2).sum / (xs.length : ℚ) ^ 2 := by
  unfold shares
  induction classes with
  | nil => simp
  | cons c cs ih =>
    simp only [List.map_cons, List.sum_cons, ih, add_div]
    congr 1
    unfold share2
    rw [div_pow]

theorem shares_ge {classes : List ℤ} (hnd : classes.Nodup) {xs : List Sample} (hne : xs ≠ [])
    (h : ∀ x ∈ xs, x.2 ∈ classes) : 1 / (xs.length : ℚ) ≤ shares classes xs := by
  have hpos : (0 : ℚ) < xs.length := by exact_mod_cast List.length_pos_of_ne_nil hne
  rw [shares_eq, div_le_div_iff₀ hpos (by positivity)]
  have h1 := sum_sq_ge (classes.map (numOf xs))
  rw [sum_numOf classes hnd xs h] at h1
  nlinarith

theorem shares_le_one {classes : List ℤ} (hnd : classes.Nodup) {xs : List Sample} (hne : xs ≠ [])
    (h : ∀ x ∈ xs, x.2 ∈ classes) : shares classes xs ≤ 1 := by
  have hpos : (0 : ℚ) < xs.length := by exact_mod_cast List.length_pos_of_ne_nil hne
  rw [shares_eq, div_le_one (by positivity)]
  have h1 := sum_sq_le (classes.map (numOf xs))
  rwa [sum_numOf classes hnd xs h] at h1

/-! ## No split has weighted impurity 1 -/

theorem gini_le {classes : List ℤ} (hnd : classes.Nodup) (hK : classes.length ≤ 2 ^ 20)
    {xs : List Sample} (hne : xs ≠ []) (h : ∀ x ∈ xs, x.2 ∈ classes) (hlen : xs.length ≤ 2 ^ 20) :
    gini classes xs ≤ 1 - 2 ^ (-21 : ℤ) := by
  have hrel := gini_rel classes hne (le_trans hlen (by norm_num))
  have hpos : (0 : ℚ) < xs.length := by exact_mod_cast List.length_pos_of_ne_nil hne
  have hge := shares_ge hnd hne h
  have hbern : 1 - ((classes.length + 3 : ℕ) : ℚ) * eps ≤ (1 - eps) ^ (classes.length + 3) := by
    have := one_add_mul_le_pow (a := -eps) (by linarith [one_sub_eps_nonneg]) (classes.length + 3)
    rw [← sub_eq_add_neg 1 eps] at this
    linarith
  have hK' : ((classes.length + 3 : ℕ) : ℚ) * eps ≤ 1 / 8 := by
    have : ((classes.length + 3 : ℕ) : ℚ) ≤ 2 ^ 20 + 3 := by push_cast; linarith [show (classes.length : ℚ) ≤ 2 ^ 20 by exact_mod_cast hK]
    rw [eps_eq]
    linarith
  have hS : 7 / 8 / 2 ^ 20 ≤ classes.foldl (giniStep xs) 0 := by
    refine le_trans ?_ hrel.1
    have h1 : (7 / 8 : ℚ) ≤ (1 - eps) ^ (classes.length + 3) := by linarith
    have h2 : (1 : ℚ) / 2 ^ 20 ≤ shares classes xs := by
      refine le_trans ?_ hge
      apply one_div_le_one_div_of_le hpos
      exact_mod_cast hlen
    calc (7 / 8 / 2 ^ 20 : ℚ) = 7 / 8 * (1 / 2 ^ 20) := by ring
      _ ≤ _ := mul_le_mul h1 h2 (by positivity) (le_trans (by norm_num) h1)
  unfold gini
  apply rnd_le_of_le (by norm_num)
  · exact ⟨2 ^ 21 - 1, -21, by norm_num, by norm_num, by norm_num⟩
  · refine le_trans (sub_le_sub_left hS 1) ?_
    norm_num

theorem wg_lt_one {classes : List ℤ} (hnd : classes.Nodup) (hK : classes.length ≤ 2 ^ 20)
    {xs ys : List Sample} (hx : xs ≠ []) (hy : ys ≠ []) (hcx : ∀ x ∈ xs, x.2 ∈ classes)
    (hcy : ∀ x ∈ ys, x.2 ∈ classes) (hlen : xs.length + ys.length ≤ 2 ^ 20) :
    wg classes xs ys < 1 := by
  have hgx := gini_le hnd hK hx hcx (by omega)
  have hgy := gini_le hnd hK hy hcy (by omega)
  have hpx : (1 : ℚ) ≤ xs.length := by exact_mod_cast List.length_pos_of_ne_nil hx
  have hpy : (1 : ℚ) ≤ ys.length := by exact_mod_cast List.length_pos_of_ne_nil hy
  unfold wg
  rw [rnd32_natCast (show xs.length ≤ 2 ^ 24 by omega),
    rnd32_natCast (show ys.length ≤ 2 ^ 24 by omega),
    rnd32_natCast (show xs.length + ys.length ≤ 2 ^ 24 by omega)]
  push_cast
  generalize (xs.length : ℚ) = a at hpx
  generalize (ys.length : ℚ) = b at hpy
  generalize gini classes xs = g at hgx
  generalize gini classes ys = g' at hgy
  have hM : (2 : ℚ) ^ (-21 : ℤ) = 1 / 2097152 := by norm_num
  rw [hM] at hgx hgy
  have small : (2 : ℚ) ^ (-125 : ℤ) ≤ 1 / 2 := by norm_num
  have key : ∀ a g : ℚ, 1 ≤ a → g ≤ 1 - 1 / 2097152 →
      rnd32 (a * g) ≤ (1 + eps) * (a * (1 - 1 / 2097152)) := by
    intro a g ha hg
    have h1 : a * g ≤ a * (1 - 1 / 2097152) := mul_le_mul_of_nonneg_left hg (by linarith)
    refine le_trans (rnd_mono (by norm_num) h1) ?_
    have h2 : (2 : ℚ) ^ (-125 : ℤ) ≤ a * (1 - 1 / 2097152) := by
      refine le_trans small ?_
      linarith
    have := (Rel.rnd h2).2
    rwa [pow_one] at this
  have h1 := key a g hpx hgx
  have h2 := key b g' hpy hgy
  have h3 : rnd32 (a * g) + rnd32 (b * g') ≤ (1 + eps) * ((a + b) * (1 - 1 / 2097152)) := by
    calc _ ≤ _ := add_le_add h1 h2
      _ = _ := by ring
  have h4 : rnd32 (rnd32 (a * g) + rnd32 (b * g')) ≤
      (1 + eps) * ((1 + eps) * ((a + b) * (1 - 1 / 2097152))) := by
    refine le_trans (rnd_mono (by norm_num) h3) ?_
    have h5 : (2 : ℚ) ^ (-125 : ℤ) ≤ (1 + eps) * ((a + b) * (1 - 1 / 2097152)) := by
      refine le_trans small ?_
      rw [eps_eq]
      linarith
    have := (Rel.rnd h5).2
    rwa [pow_one] at this
  have h6 : rnd32 (rnd32 (a * g) + rnd32 (b * g')) / (a + b) ≤ 1 - 1 / 4194304 := by
    rw [div_le_iff₀ (by linarith)]
    refine le_trans h4 ?_
    rw [eps_eq]
    have : (0 : ℚ) < a + b := by linarith
    linarith
  have h7 : rnd32 (rnd32 (rnd32 (a * g) + rnd32 (b * g')) / (a + b)) ≤ 1 - 1 / 4194304 := by
    apply rnd_le_of_le (by norm_num) _ h6
    exact ⟨2 ^ 22 - 1, -22, by norm_num, by norm_num, by norm_num⟩
  linarith

/-! ## Impure sets have positive impurity -/

theorem pow_up {m : ℕ} (hm : (m : ℚ) * eps ≤ 1 / 3) : (1 + eps) ^ m ≤ 1 + 2 * ((m : ℚ) * eps) := by
  have hm0 : 0 ≤ (m : ℚ) * eps := mul_nonneg (by positivity) eps_pos.le
  have hbern : 1 - (m : ℚ) * eps ≤ (1 - eps) ^ m := by
    have := one_add_mul_le_pow (a := -eps) (by linarith [one_sub_eps_nonneg]) m
    rw [← sub_eq_add_neg 1 eps] at this
    linarith
  have hprod : (1 + eps) ^ m * (1 - eps) ^ m ≤ 1 := by
    rw [← mul_pow]
    apply pow_le_one₀
    · rw [eps_eq]; norm_num
    · rw [eps_eq]; norm_num
  generalize (m : ℚ) * eps = y at *
  generalize (1 - eps) ^ m = u at *
  have hv : 0 ≤ (1 + eps) ^ m := pow_nonneg (by linarith [eps_pos]) _
  generalize (1 + eps) ^ m = v at *
  have : v * (1 - y) ≤ 1 := le_trans (mul_le_mul_of_nonneg_left hbern hv) hprod
  nlinarith

theorem nonzero_le_sum (l : List ℕ) : l.countP (· ≠ 0) ≤ l.sum := by
  induction l with
  | nil => simp
  | cons a l ih =>
    rw [List.countP_cons, List.sum_cons]
    simp only [decide_eq_true_eq]
    split <;> omega

theorem mem_add_nonzero_le (l : List ℕ) (a : ℕ) (ha : a ∈ l) :
    a + l.countP (· ≠ 0) ≤ l.sum + 1 := by
  induction l with
  | nil => simp at ha
  | cons b l ih =>
    rw [List.countP_cons, List.sum_cons]
    rcases List.mem_cons.1 ha with rfl | h
    · have := nonzero_le_sum l
      simp only [decide_eq_true_eq]
      split <;> omega
    · have := ih h
      simp only [decide_eq_true_eq]
      split <;> omega

theorem sum_sq_le_mul (l : List ℕ) (M : ℕ) (h : ∀ a ∈ l, a ≤ M) :
    (l.map fun n : ℕ => (n : ℚ) ^ 2).sum ≤ M * (l.sum : ℚ) := by
  induction l with
  | nil => simp
  | cons a l ih =>
    simp only [List.sum_cons, List.map_cons]
    push_cast
    have h1 := ih fun b hb => h b (by simp [hb])
    have h2 : (a : ℚ) ≤ M := by exact_mod_cast h a (by simp)
    have h3 : (0 : ℚ) ≤ a := by positivity
    nlinarith

theorem nonzero_eq (classes : List ℤ) (xs : List Sample) :
    nonzero classes xs = (classes.map (numOf xs)).countP (· ≠ 0) := by
  unfold nonzero
  rw [List.countP_map]
  rfl

theorem gini_pos {classes : List ℤ} (hnd : classes.Nodup) {xs : List Sample} (hne : xs ≠ [])
    (h : ∀ x ∈ xs, x.2 ∈ classes) (hlen : xs.length ≤ 2 ^ 20) (hm : 2 ≤ nonzero classes xs) :
    0 < gini classes xs := by
  have hrel := (gini_rel' classes hne (le_trans hlen (by norm_num))).2
  have hsum := sum_numOf classes hnd xs h
  have hnpos : (0 : ℚ) < xs.length := by exact_mod_cast List.length_pos_of_ne_nil hne
  have hmn : nonzero classes xs ≤ xs.length := by
    rw [nonzero_eq, ← hsum]; exact nonzero_le_sum _
  have hE : shares classes xs ≤ 1 - ((nonzero classes xs : ℚ) - 1) / xs.length := by
    rw [shares_eq]
    have h1 := sum_sq_le_mul (classes.map (numOf xs)) (xs.length + 1 - nonzero classes xs) (by
      intro a ha
      have := mem_add_nonzero_le _ a ha
      rw [← nonzero_eq, hsum] at this
      omega)
    rw [hsum, Nat.cast_sub (by omega)] at h1
    push_cast at h1
    rw [div_le_iff₀ (by positivity)]
    refine le_trans h1 (le_of_eq ?_)
    field_simp
    ring
  have hn20 : (xs.length : ℚ) ≤ 2 ^ 20 := by exact_mod_cast hlen
  have hm2 : (2 : ℚ) ≤ nonzero classes xs := by exact_mod_cast hm
  have hmn' : (nonzero classes xs : ℚ) ≤ xs.length := by exact_mod_cast hmn
  have hpow := pow_up (m := nonzero classes xs + 3) (by
    rw [eps_eq]; push_cast; linarith)
  have hdiv : ((nonzero classes xs : ℚ) - 1) / 2 ^ 20 ≤
      ((nonzero classes xs : ℚ) - 1) / xs.length :=
    div_le_div_of_nonneg_left (by linarith) hnpos hn20
  have h0 := shares_nonneg classes xs
  have hS : classes.foldl (giniStep xs) 0 ≤ 1 - 1 / 2 ^ 22 := by
    refine le_trans hrel ?_
    push_cast at hpow
    rw [eps_eq] at hpow
    rw [eps_eq]
    generalize (1 + 1 / 16777216 : ℚ) ^ (nonzero classes xs + 3) = v at *
    generalize (nonzero classes xs : ℚ) = m at *
    generalize (m - 1) / (xs.length : ℚ) = w at *
    generalize shares classes xs = e at *
    have he1 : e ≤ 1 - (m - 1) / 2 ^ 20 := by linarith
    have he2 : e ≤ 1 := by linarith
    calc v * e ≤ (1 + 2 * ((m + 3) * (1 / 16777216))) * e := mul_le_mul_of_nonneg_right hpow h0
      _ = e + 2 * ((m + 3) * (1 / 16777216)) * e := by ring
      _ ≤ e + 2 * ((m + 3) * (1 / 16777216)) * 1 := by
        have : 0 ≤ 2 * ((m + 3) * (1 / 16777216)) := by linarith
        linarith [mul_le_mul_of_nonneg_left he2 this]
      _ ≤ 1 - 1 / 2 ^ 22 := by linarith
  unfold gini
  have : (1 / 2 ^ 22 : ℚ) ≤ rnd32 (1 - classes.foldl (giniStep xs) 0) := by
    apply le_rnd_of_le (by norm_num)
    · exact ⟨1, -22, by norm_num, by norm_num, by norm_num⟩
    · linarith
  exact lt_of_lt_of_le (by norm_num) this

/-- Two samples of different classes make two classes that occur. -/
theorem two_le_nonzero {classes : List ℤ} {xs : List Sample} {x y : Sample} (hx : x ∈ xs)
    (hy : y ∈ xs) (hne : x.2 ≠ y.2) (h : ∀ x ∈ xs, x.2 ∈ classes) : 2 ≤ nonzero classes xs := by
  have key : ∀ z ∈ xs, numOf xs z.2 ≠ 0 := by
    intro z hz
    have : 0 < numOf xs z.2 := by
      apply List.length_pos_of_mem (a := z)
      simp [hz]
    omega
  unfold nonzero
  rw [List.countP_eq_length_filter]
  have hx' : x.2 ∈ classes.filter fun c => numOf xs c ≠ 0 := by
    simp [h x hx, key x hx]
  have hy' : y.2 ∈ classes.filter fun c => numOf xs c ≠ 0 := by
    simp [h y hy, key y hy]
  by_contra hcon
  have hlen := List.length_pos_of_mem hx'
  have h1 : (classes.filter fun c => numOf xs c ≠ 0).length = 1 := by
    simp only [not_le] at hcon
    omega
  obtain ⟨a, ha⟩ := List.length_eq_one_iff.1 h1
  rw [ha] at hx' hy'
  simp only [List.mem_cons, List.not_mem_nil, or_false] at hx' hy'
  exact hne (hx'.trans hy'.symm)

/-! ## Distance to the exact impurity -/

theorem gini_err {classes : List ℤ} (hnd : classes.Nodup) (hK : classes.length ≤ 2 ^ 22)
    {xs : List Sample} (hne : xs ≠ []) (h : ∀ x ∈ xs, x.2 ∈ classes) (hlen : xs.length ≤ 2 ^ 24) :
    |gini classes xs - exactGini classes xs| ≤ (2 * classes.length + 7) * eps ∧
      |gini classes xs| ≤ 1 := by
  have hrel := gini_rel classes hne hlen
  have h0 := shares_nonneg classes xs
  have h1 := shares_le_one hnd hne h
  have hm : ((classes.length + 3 : ℕ) : ℚ) * eps ≤ 1 / 3 := by
    have : ((classes.length + 3 : ℕ) : ℚ) ≤ 2 ^ 22 + 3 := by
      push_cast; linarith [show (classes.length : ℚ) ≤ 2 ^ 22 by exact_mod_cast hK]
    rw [eps_eq]
    linarith
  have hm0 : 0 ≤ ((classes.length + 3 : ℕ) : ℚ) * eps := mul_nonneg (by positivity) eps_pos.le
  have hbern : 1 - ((classes.length + 3 : ℕ) : ℚ) * eps ≤ (1 - eps) ^ (classes.length + 3) := by
    have := one_add_mul_le_pow (a := -eps) (by linarith [one_sub_eps_nonneg]) (classes.length + 3)
    rw [← sub_eq_add_neg 1 eps] at this
    linarith
  have hup : (1 + eps) ^ (classes.length + 3) ≤
      1 + 2 * (((classes.length + 3 : ℕ) : ℚ) * eps) := by
    have hprod : (1 + eps) ^ (classes.length + 3) * (1 - eps) ^ (classes.length + 3) ≤ 1 := by
      rw [← mul_pow]
      apply pow_le_one₀
      · rw [eps_eq]; norm_num
      · rw [eps_eq]; norm_num
    generalize ((classes.length + 3 : ℕ) : ℚ) * eps = y at *
    generalize (1 - eps) ^ (classes.length + 3) = u at *
    have hv : 0 ≤ (1 + eps) ^ (classes.length + 3) := pow_nonneg (by linarith [eps_pos]) _
    generalize (1 + eps) ^ (classes.length + 3) = v at *
    have : v * (1 - y) ≤ 1 := le_trans (mul_le_mul_of_nonneg_left hbern hv) hprod
    nlinarith
  have hS : |classes.foldl (giniStep xs) 0 - shares classes xs| ≤
      2 * (((classes.length + 3 : ℕ) : ℚ) * eps) := by
    rw [abs_le]
    obtain ⟨r1, r2⟩ := hrel
    generalize ((classes.length + 3 : ℕ) : ℚ) * eps = y at *
    generalize (1 - eps) ^ (classes.length + 3) = u at *
    generalize (1 + eps) ^ (classes.length + 3) = v at *
    constructor <;> nlinarith
  have hSnn := hrel.nonneg h0
  rw [exactGini_eq]
  unfold gini
  generalize classes.foldl (giniStep xs) 0 = S at *
  have hS2 := abs_le.1 hS
  have hSabs : |1 - S| ≤ 1 := by
    rw [abs_le]
    constructor <;> linarith
  have hr := rnd32_abs_err (q := 1 - S) (B := 1) (by norm_num) hSabs
  constructor
  · have hr2 := abs_le.1 hr
    have hsplit : ((classes.length + 3 : ℕ) : ℚ) * eps = classes.length * eps + 3 * eps := by
      push_cast; ring
    rw [hsplit] at hS2
    rw [abs_le]
    constructor <;> nlinarith
  · rw [abs_le]
    have hb := abs_le.1 hSabs
    have one : Representable 24 (-149) 1 := ⟨1, 0, by norm_num, by norm_num, by norm_num⟩
    exact ⟨le_rnd_of_le (by norm_num) (representable_neg one) hb.1,
      rnd_le_of_le (by norm_num) one hb.2⟩

theorem wg_num {a b g g' : ℚ} (ha : 1 ≤ a) (hb : 1 ≤ b) (hg : |g| ≤ 1) (hg' : |g'| ≤ 1) :
    |rnd32 (rnd32 (rnd32 (a * g) + rnd32 (b * g')) / (a + b)) - (a * g + b * g') / (a + b)| ≤
      4 * eps := by
  have small : (2 : ℚ) ^ (-125 : ℤ) ≤ 1 := by norm_num
  have hab : ∀ a g : ℚ, 1 ≤ a → |g| ≤ 1 → |a * g| ≤ a := by
    intro a g ha hg
    rw [abs_mul, abs_of_pos (by linarith)]
    exact mul_le_of_le_one_right (by linarith) hg
  have ha1 := hab a g ha hg
  have hb1 := hab b g' hb hg'
  have i1 := rnd32_abs_err (le_trans small ha) ha1
  have i2 := rnd32_abs_err (le_trans small hb) hb1
  generalize rnd32 (a * g) = u at i1 ⊢
  generalize rnd32 (b * g') = v at i2 ⊢
  generalize a * g = x at i1 ha1 ⊢
  generalize b * g' = y at i2 hb1 ⊢
  have heps := eps_pos
  have i12 : |u + v - (x + y)| ≤ eps * (a + b) := by
    rw [show u + v - (x + y) = (u - x) + (v - y) by ring, mul_add]
    exact le_trans (abs_add_le _ _) (add_le_add i1 i2)
  have hxy : |x + y| ≤ a + b := le_trans (abs_add_le _ _) (add_le_add ha1 hb1)
  clear i1 i2 ha1 hb1 hab
  have hn1 : 1 ≤ a + b := by linarith
  generalize a + b = n at *
  have huv : |u + v| ≤ (1 + eps) * n := by
    have := abs_add_le (u + v - (x + y)) (x + y)
    rw [sub_add_cancel] at this
    linarith
  have hB1 : 1 ≤ (1 + eps) * n := by nlinarith
  have i3 := rnd32_abs_err (le_trans small hB1) huv
  generalize u + v = z at *
  generalize x + y = t at *
  generalize rnd32 z = w at *
  have hn : 0 < n := by linarith
  have hw : |w / n - t / n| ≤ 2 * eps + eps ^ 2 := by
    rw [← sub_div, abs_div, abs_of_pos hn, div_le_iff₀ hn]
    have := abs_add_le (w - z) (z - t)
    rw [show w - z + (z - t) = w - t by ring] at this
    refine le_trans this (le_trans (add_le_add i3 i12) (le_of_eq ?_))
    ring
  have ht : |t / n| ≤ 1 := by rw [abs_div, abs_of_pos hn, div_le_one hn]; exact hxy
  have hwb : |w / n| ≤ 1 + (2 * eps + eps ^ 2) := by
    have := abs_add_le (w / n - t / n) (t / n)
    rw [sub_add_cancel] at this
    linarith
  have i4 := rnd32_abs_err (B := 1 + (2 * eps + eps ^ 2))
    (by refine le_trans small ?_; rw [eps_eq]; norm_num) hwb
  have hB : eps * (1 + (2 * eps + eps ^ 2)) ≤ 3 / 2 * eps := by rw [eps_eq]; norm_num
  have hC : 2 * eps + eps ^ 2 ≤ 9 / 4 * eps := by rw [eps_eq]; norm_num
  have := abs_add_le (rnd32 (w / n) - w / n) (w / n - t / n)
  rw [sub_add_sub_cancel] at this
  linarith

theorem mean_err {a b g g' e e' d : ℚ} (ha : 1 ≤ a) (hb : 1 ≤ b) (h : |g - e| ≤ d)
    (h' : |g' - e'| ≤ d) : |(a * g + b * g') / (a + b) - (a * e + b * e') / (a + b)| ≤ d := by
  have hn : 0 < a + b := by linarith
  rw [← sub_div, abs_div, abs_of_pos hn, div_le_iff₀ hn,
    show a * g + b * g' - (a * e + b * e') = a * (g - e) + b * (g' - e') by ring]
  refine le_trans (abs_add_le _ _) ?_
  rw [abs_mul, abs_mul, abs_of_pos (show 0 < a by linarith), abs_of_pos (show 0 < b by linarith)]
  have h1 := mul_le_mul_of_nonneg_left h (show 0 ≤ a by linarith)
  have h2 := mul_le_mul_of_nonneg_left h' (show 0 ≤ b by linarith)
  linarith

theorem wg_err {classes : List ℤ} (hnd : classes.Nodup) (hK : classes.length ≤ 2 ^ 22)
    {xs ys : List Sample} (hx : xs ≠ []) (hy : ys ≠ []) (hcx : ∀ x ∈ xs, x.2 ∈ classes)
    (hcy : ∀ x ∈ ys, x.2 ∈ classes) (hlen : xs.length + ys.length ≤ 2 ^ 24) :
    |wg classes xs ys - exactWeighted classes xs ys| ≤ (2 * classes.length + 11) * eps := by
  obtain ⟨ex, bx⟩ := gini_err hnd hK hx hcx (by omega)
  obtain ⟨ey, bY⟩ := gini_err hnd hK hy hcy (by omega)
  have hpx : (1 : ℚ) ≤ xs.length := by exact_mod_cast List.length_pos_of_ne_nil hx
  have hpy : (1 : ℚ) ≤ ys.length := by exact_mod_cast List.length_pos_of_ne_nil hy
  unfold wg exactWeighted
  rw [rnd32_natCast (show xs.length ≤ 2 ^ 24 by omega),
    rnd32_natCast (show ys.length ≤ 2 ^ 24 by omega),
    rnd32_natCast (show xs.length + ys.length ≤ 2 ^ 24 by omega), Nat.cast_add]
  have h1 := wg_num hpx hpy bx bY
  have h2 := mean_err hpx hpy ex ey
  have hd : (2 * (classes.length : ℚ) + 11) * eps = 4 * eps + (2 * classes.length + 7) * eps := by
    ring
  rw [hd]
  refine le_trans ?_ (add_le_add h1 h2)
  refine le_trans (le_of_eq ?_) (abs_add_le _ _)
  rw [sub_add_sub_cancel]

end Apollo
