import Verif.Proofs.NetReal
import Verif.Proofs.PolicyNetRun

/-!
# PolicyNet in exact arithmetic
-/

namespace Apollo.PolicyNet

open Arith Net Spec.Net Finset

theorem foldl_add (l : List ℝ) (a : ℝ) : l.foldl add a = a + l.sum := by
  induction l generalizing a with
  | nil => simp
  | cons x l ih => rw [List.foldl_cons, ih, real_add, List.sum_cons, add_assoc]

/-- The elements of the cumulated distribution are the sums of the probabilities. -/
theorem cumulative_get {ps : List ℝ} (hsum : ps.sum = 1) {i : ℕ} (hi : i < ps.length) :
    (cumulative ps)[i]? = some (ps.take (i + 1)).sum := by
  have hdiv : ps.map (fun p => div p (ps.foldl add (ofRat 0))) = ps := by
    rw [foldl_add, hsum]
    simp
  cases hps : ps with
  | nil => simp [hps] at hi
  | cons q qs =>
    unfold cumulative
    rw [← hps]
    dsimp only
    rw [hdiv]
    rw [hps]
    dsimp only
    have hlen : (List.scanl add q qs).dropLast.length = qs.length := by simp
    rcases lt_or_ge i qs.length with h | h
    · rw [List.getElem?_append_left (by omega), List.getElem?_dropLast, List.getElem?_scanl]
      rw [if_pos (by rw [List.length_scanl]; omega), if_pos (by omega), foldl_add,
        List.take_succ_cons, List.sum_cons]
    · have hi' : i = qs.length := by rw [hps, List.length_cons] at hi; omega
      subst hi'
      rw [List.getElem?_append_right (by omega), hlen, Nat.sub_self]
      rw [← List.length_cons (a := q) (as := qs), List.take_length, ← hps, hsum]
      simp

theorem sum_take_map (f : ℕ → ℝ) {n i : ℕ} (hi : i ≤ n) :
    (((List.range n).map f).take i).sum = ∑ j ∈ range i, f j := by
  rw [← List.map_take, List.take_range, min_eq_left hi]
  induction i with
  | zero => simp
  | succ i ih => rw [List.range_succ, List.map_append, List.sum_append, ih (by omega),
      sum_range_succ]; simp

/-- With two or more probabilities, the number drawn lies between the sums of the probabilities before
the chosen index and up to it. -/
theorem sample_real {f : ℕ → ℝ} {n : ℕ} (hn : 2 ≤ n) (hsum : ∑ j ∈ range n, f j = 1)
    {gen : ℕ → ℝ} (h1 : gen 0 ≤ 1) {i : ℕ} {gen' : ℕ → ℝ}
    (h : sample ((List.range n).map f) gen = .ok (i, gen')) :
    i < n ∧ (i = 0 ∨ ∑ j ∈ range i, f j < gen 0) ∧ gen 0 ≤ ∑ j ∈ range (i + 1), f j := by
  have hs : ((List.range n).map f).sum = 1 := by
    have := sum_take_map f (le_refl n)
    rw [List.take_of_length_le (by simp)] at this
    rw [this, hsum]
  have hlen : ((List.range n).map f).length = n := by simp
  have hlt : i < n := by
    have := sample_lt (by rw [hlen]; omega) (by
      rw [real_lt_false]; simpa using h1) h
    rwa [hlen] at this
  obtain ⟨j, gen'', hj, -, -, h2, -⟩ := sample_ok ((List.range n).map f) gen
  rw [h] at hj
  cases hj
  obtain ⟨ha, hb⟩ := h2 (by rw [hlen]; exact hn)
  refine ⟨hlt, ?_, ?_⟩
  · rcases ha with rfl | ⟨c, hc, hlt'⟩
    · exact Or.inl rfl
    · rcases Nat.eq_zero_or_pos i with rfl | hi
      · exact Or.inl rfl
      · rw [cumulative_get hs (by rw [hlen]; omega), Nat.sub_add_cancel hi,
          sum_take_map f (by omega)] at hc
        cases hc
        exact Or.inr ((real_lt _ _).1 hlt')
  · rcases hb with hb | ⟨c, hc, hlt'⟩
    · rw [hlen] at hb; omega
    · rw [cumulative_get hs (by rw [hlen]; omega), sum_take_map f (by omega)] at hc
      cases hc
      exact (real_lt_false _ _).1 hlt'

/-! ## The moving average -/

/-- The mean of the rewards of a dataset. -/
noncomputable def meanReward (ds : Dataset) : ℝ :=
  ((ds.toVectorOfTuples.map fun m => Real.exp (-(m.2.2 : ℝ))).sum) / ds.length

theorem batchAverage_eq (ds : Dataset) : batchAverage (rewardsOf ds : List ℝ) = meanReward ds := by
  unfold batchAverage meanReward rewardsOf
  rw [foldl_add]
  simp [Dataset.toVectorOfTuples]

/-- The average after `n` batches lies between bounds of the batches, up to the bias. -/
structure AvgIn (P : PolicyNet ℝ) (beta lo hi : ℝ) : Prop where
  b : P.beta = beta
  count : 0 ≤ P.trainCount
  lower : lo * (1 - beta ^ P.trainCount) ≤ P.rewardMovingAvg
  upper : P.rewardMovingAvg ≤ hi * (1 - beta ^ P.trainCount)

theorem AvgIn.update {P : PolicyNet ℝ} {beta lo hi : ℝ} (h : P.AvgIn beta lo hi)
    (hb : 0 ≤ beta ∧ beta < 1) {ds : Dataset} (hd : lo ≤ meanReward ds ∧ meanReward ds ≤ hi) :
    (P.updateAverage (rewardsOf ds)).AvgIn beta lo hi := by
  have hc := h.count
  obtain ⟨n, hn⟩ := Int.eq_ofNat_of_zero_le hc
  have h1 := h.lower
  have h2 := h.upper
  rw [hn, zpow_natCast] at h1 h2
  have e : (P.updateAverage (rewardsOf ds)).rewardMovingAvg =
      beta * P.rewardMovingAvg + (1 - beta) * meanReward ds := by
    simp only [updateAverage, batchAverage_eq, h.b]
    simp
  have e' : (P.updateAverage (rewardsOf ds)).trainCount = ((n + 1 : ℕ) : ℤ) := by
    simp only [updateAverage, hn]
    push_cast
    rfl
  refine ⟨h.b, by rw [e']; positivity, ?_, ?_⟩
  · rw [e, e', zpow_natCast, pow_succ]
    nlinarith [mul_le_mul_of_nonneg_left h1 hb.1, mul_le_mul_of_nonneg_left hd.1
      (by linarith : (0 : ℝ) ≤ 1 - beta)]
  · rw [e, e', zpow_natCast, pow_succ]
    nlinarith [mul_le_mul_of_nonneg_left h2 hb.1, mul_le_mul_of_nonneg_left hd.2
      (by linarith : (0 : ℝ) ≤ 1 - beta)]

theorem AvgIn.debias {P : PolicyNet ℝ} {beta lo hi : ℝ} (h : P.AvgIn beta lo hi)
    (hb : 0 ≤ beta ∧ beta < 1) (hc : 0 < P.trainCount) :
    lo ≤ debias P.rewardMovingAvg P.beta P.trainCount ∧
      debias P.rewardMovingAvg P.beta P.trainCount ≤ hi := by
  have h1 := h.lower
  have h2 := h.upper
  obtain ⟨n, hn⟩ := Int.eq_ofNat_of_zero_le hc.le
  have hpos : 0 < 1 - beta ^ P.trainCount := by
    rw [hn, zpow_natCast]
    have : n ≠ 0 := by rintro rfl; simp [hn] at hc
    linarith [pow_lt_one₀ hb.1 hb.2 this]
  unfold PolicyNet.debias
  rw [h.b]
  simp only [real_div, real_sub, real_ofRat, real_pow, Rat.cast_one]
  exact ⟨(le_div_iff₀ hpos).2 h1, (div_le_iff₀ hpos).2 h2⟩

theorem train_fields {α : Type} [Arith α] {P P' : PolicyNet α} {ds : Dataset}
    (h : P.train ds = .ok P') : P'.beta = P.beta ∧ P'.threshold = P.threshold ∧ P'.gen = P.gen ∧
      P'.rewardMovingAvg = (if ds = [] then P else P.updateAverage (rewardsOf ds)).rewardMovingAvg ∧
      P'.trainCount = (if ds = [] then P else P.updateAverage (rewardsOf ds)).trainCount := by
  unfold PolicyNet.train at h
  obtain ⟨states, h1, h⟩ := (Res.bind_eq_ok _ _ _).1 h
  obtain ⟨P1, h2, h⟩ := (Res.bind_eq_ok _ _ _).1 h
  cases h
  unfold PolicyNet.trainNet at h2
  cases ds with
  | nil =>
    cases h1
    cases h2
    simp
  | cons d ds =>
    cases states with
    | nil =>
      exfalso
      simp only [Dataset.toVectorOfTuples, List.map_cons, List.mapM_cons] at h1
      obtain ⟨_, _, h1⟩ := (Res.bind_eq_ok _ _ _).1 h1
      obtain ⟨_, _, h1⟩ := (Res.bind_eq_ok _ _ _).1 h1
      cases h1
    | cons s ss =>
      dsimp only at h2
      split at h2
      · cases h2
        simp [updateAverage, rewardsOf]
      · obtain ⟨_, _, h2⟩ := (Res.bind_eq_ok _ _ _).1 h2
        obtain ⟨_, _, h2⟩ := (Res.bind_eq_ok _ _ _).1 h2
        cases h2
        simp [updateAverage, rewardsOf]

theorem getIndex_fields {α : Type} [Arith α] {P P' : PolicyNet α} {f : List ℚ} {i : ℤ}
    (h : P.getIndex f = .ok (i, P')) : P'.beta = P.beta ∧ P'.threshold = P.threshold ∧
      P'.rewardMovingAvg = P.rewardMovingAvg ∧ P'.trainCount = P.trainCount := by
  unfold PolicyNet.getIndex at h
  split at h
  · cases h; exact ⟨rfl, rfl, rfl, rfl⟩
  · obtain ⟨⟨ps, P1⟩, h1, h⟩ := (Res.bind_eq_ok _ _ _).1 h
    obtain ⟨⟨j, gen⟩, h2, h⟩ := (Res.bind_eq_ok _ _ _).1 h
    cases h
    unfold PolicyNet.probabilities at h1
    obtain ⟨k, hk, h1⟩ := (Res.bind_eq_ok _ _ _).1 h1
    split at h1
    · cases h1; exact ⟨rfl, rfl, rfl, rfl⟩
    · obtain ⟨⟨ps', P2⟩, h3, h1⟩ := (Res.bind_eq_ok _ _ _).1 h1
      cases h1
      unfold PolicyNet.evaluate at h3
      obtain ⟨_, _, h3⟩ := (Res.bind_eq_ok _ _ _).1 h3
      obtain ⟨_, _, h3⟩ := (Res.bind_eq_ok _ _ _).1 h3
      obtain ⟨_, _, h3⟩ := (Res.bind_eq_ok _ _ _).1 h3
      cases h3
      exact ⟨rfl, rfl, rfl, rfl⟩

end Apollo.PolicyNet
