import Verif.Proofs.PolicyNetReal
import Verif.Proofs.PolicyNetFile
import Verif.Proofs.NetSoftmax
import Verif.Model.NetDouble

/-!
# C51-C55: PolicyNet
-/

namespace Apollo.Props

open Apollo Apollo.PolicyNet Apollo.Spec.Net Finset

variable {α : Type} [Arith α]

/-! ## Histories -/

/-- A call of a method of PolicyNet. -/
inductive NetUse
  | getIndex (features : List ℚ)
  | train (ds : Dataset)

/-- The object after the call. -/
def NetUse.run (u : NetUse) (P : PolicyNet α) : Res (PolicyNet α) :=
  match u with
  | .getIndex f => do
    let (_, P) ← P.getIndex f
    .ok P
  | .train ds => P.train ds

/-- The object after a sequence of calls. -/
def runUses : List NetUse → PolicyNet α → Res (PolicyNet α)
  | [], P => .ok P
  | u :: us, P => do
    let P ← u.run P
    runUses us P

/-- Features as they are expected: of the right number, convertible to unsigned integers. -/
def GoodFeatures (numFeatures : ℕ) (f : List ℚ) : Prop :=
  f.length = numFeatures ∧ ∀ v ∈ f, 0 ≤ v ∧ v < 2 ^ 64

/-- A call with features as expected, and in training policies of the model. -/
def NetUse.Valid (numPolicies numFeatures : ℕ) : NetUse → Prop
  | .getIndex f => GoodFeatures numFeatures f
  | .train ds => ∀ m ∈ ds.toVectorOfTuples,
      GoodFeatures numFeatures m.1 ∧ 0 ≤ m.2.1 ∧ m.2.1 < numPolicies

theorem GoodFeatures.encode {nf : ℕ} {f : List ℚ} (h : GoodFeatures nf f) :
    ∃ bs, PolicyNet.encode f = .ok bs ∧ bs.length = 64 * nf := by
  obtain ⟨bs, e, hl⟩ := encode_total fun v hv => ⟨by linarith [(h.2 v hv).1], (h.2 v hv).2⟩
  exact ⟨bs, e, by rw [hl, h.1]⟩

/-- Along a history the object holds a network and the cache holds its probabilities. -/
theorem runUses_good {np nf : ℕ} (hnp : 0 < np) (us : List NetUse)
    (hv : ∀ u ∈ us, u.Valid np nf) {P : PolicyNet α} {S : NetState α}
    (h : P.Good (shape np nf) S) :
    ∃ P' S' m, runUses us P = .ok P' ∧ P'.Good (shape np nf) S' ∧
      P'.gen = fun k => P.gen (k + m) := by
  induction us generalizing P S with
  | nil => exact ⟨P, S, 0, rfl, h, rfl⟩
  | cons u us ih =>
    have hv' : ∀ u ∈ us, u.Valid np nf := fun x hx => hv x (List.mem_cons_of_mem _ hx)
    have hu := hv u List.mem_cons_self
    cases u with
    | getIndex f =>
      obtain ⟨bs, e, hl⟩ := GoodFeatures.encode (hu : GoodFeatures nf f)
      obtain ⟨i, P1, e1, h1, -, -, -, -, hg, -⟩ := h.getIndex hnp e hl.ge
      obtain ⟨P2, S2, m, e2, h2, hg2⟩ := ih hv' h1
      have hrun : runUses (.getIndex f :: us) P = .ok P2 := by
        simp only [runUses, NetUse.run]
        rw [e1, Res.bind_ok, Res.bind_ok, e2]
      rcases hg with hg | hg
      · exact ⟨P2, S2, m, hrun, h2, by rw [hg2, hg]⟩
      · refine ⟨P2, S2, m + 1, hrun, h2, ?_⟩
        rw [hg2, hg]
        rfl
    | train ds =>
      by_cases hne : ds = []
      · subst hne
        obtain ⟨P2, S2, m, e2, h2, hg2⟩ := ih (P := { P with cache := [] }) hv'
          ⟨h.net, h.num, by simp⟩
        exact ⟨P2, S2, m, by simp only [runUses, NetUse.run, train_nil, Res.bind_ok, e2], h2, hg2⟩
      · obtain ⟨N, S1, e1, h1, -⟩ := h.train (nf := nf) rfl (ds := ds)
          (fun m hm => ⟨((hu : _) m hm).1.1, fun f hf => ⟨by
            linarith [(((hu : _) m hm).1.2 f hf).1], (((hu : _) m hm).1.2 f hf).2⟩,
            ((hu : _) m hm).2⟩) hne
        obtain ⟨P2, S2, m, e2, h2, hg2⟩ := ih hv' h1
        exact ⟨P2, S2, m, by simp only [runUses, NetUse.run, e1, Res.bind_ok, e2], h2, hg2⟩

/-! ## C51 -/

/-- The debiased average reward. -/
noncomputable def baseline (P : PolicyNet ℝ) : ℝ :=
  if P.trainCount = 0 then 0 else P.rewardMovingAvg / (1 - P.beta ^ P.trainCount)

/-- Below the threshold `getIndex` answers 0 and changes nothing; in any arithmetic. -/
theorem C51_default (P : PolicyNet α) (f : List ℚ) (h : P.suppressed = true) :
    P.getIndex f = .ok (0, P) := by
  unfold PolicyNet.getIndex
  rw [if_pos h]

/-- Training that leaves the average below the threshold leaves the network unchanged; in any
arithmetic. -/
theorem C51_untrained {P P' : PolicyNet α} {ds : Dataset} (hc : 0 ≤ P.trainCount)
    (h : P.train ds = .ok P') (hs : P'.suppressed = true) : P'.net = P.net := by
  unfold PolicyNet.train at h
  obtain ⟨states, h1, h⟩ := (Res.bind_eq_ok _ _ _).1 h
  obtain ⟨P1, h2, h⟩ := (Res.bind_eq_ok _ _ _).1 h
  cases h
  unfold PolicyNet.trainNet at h2
  cases states with
  | nil => cases h2; rfl
  | cons s ss =>
    dsimp only at h2
    split at h2
    · cases h2
      rfl
    · rename_i hlt
      exfalso
      obtain ⟨_, _, h2⟩ := (Res.bind_eq_ok _ _ _).1 h2
      obtain ⟨_, _, h2⟩ := (Res.bind_eq_ok _ _ _).1 h2
      cases h2
      unfold PolicyNet.suppressed at hs
      simp only [updateAverage] at hs hlt
      simp only [show 0 < P.trainCount + 1 by omega, if_true] at hs
      exact hlt hs

/-- What "below the threshold" is, in exact arithmetic. -/
theorem C51_suppressed_iff (P : PolicyNet ℝ) (hc : 0 ≤ P.trainCount) :
    P.suppressed = true ↔ baseline P < P.threshold := by
  unfold PolicyNet.suppressed baseline
  by_cases h : P.trainCount = 0
  · rw [h]
    simp
  · rw [if_pos (by omega), if_neg h]
    simp [PolicyNet.debias]

/-- Averages of batches along a history, bounded. -/
theorem runUses_avg {beta lo hi : ℝ} (hb : 0 ≤ beta ∧ beta < 1) (us : List NetUse)
    (hd : ∀ ds, NetUse.train ds ∈ us → ds ≠ [] → lo ≤ meanReward ds ∧ meanReward ds ≤ hi)
    {P P' : PolicyNet ℝ} (h : P.AvgIn beta lo hi) (hr : runUses us P = .ok P') :
    P'.AvgIn beta lo hi ∧ P'.threshold = P.threshold ∧ P.trainCount ≤ P'.trainCount ∧
      ((∃ ds, NetUse.train ds ∈ us ∧ ds ≠ []) → P.trainCount < P'.trainCount) := by
  induction us generalizing P with
  | nil => cases hr; exact ⟨h, rfl, le_refl _, by simp⟩
  | cons u us ih =>
    unfold runUses at hr
    obtain ⟨P1, h1, hr1⟩ := (Res.bind_eq_ok _ _ _).1 hr
    clear hr
    have hd' : ∀ ds, NetUse.train ds ∈ us → ds ≠ [] → lo ≤ meanReward ds ∧ meanReward ds ≤ hi :=
      fun ds hm => hd ds (List.mem_cons_of_mem _ hm)
    cases u with
    | getIndex f =>
      obtain ⟨⟨i, P2⟩, h2, h3⟩ := (Res.bind_eq_ok _ _ _).1 h1
      cases h3
      obtain ⟨e1, e2, e3, e4⟩ := getIndex_fields h2
      obtain ⟨g1, g2, g3, g4⟩ := ih hd' (P := P1) ⟨by rw [e1, h.b], by rw [e4]; exact h.count,
        by rw [e3, e4]; exact h.lower, by rw [e3, e4]; exact h.upper⟩ hr1
      refine ⟨g1, by rw [g2, e2], by rw [← e4]; exact g3, ?_⟩
      rintro ⟨ds, m, hne⟩
      rcases List.mem_cons.1 m with m | m
      · cases m
      · rw [← e4]; exact g4 ⟨ds, m, hne⟩
    | train ds =>
      obtain ⟨e1, e2, -, e3, e4⟩ := train_fields h1
      by_cases hne : ds = []
      · rw [if_pos hne] at e3 e4
        obtain ⟨g1, g2, g3, g4⟩ := ih hd' (P := P1) ⟨by rw [e1, h.b], by rw [e4]; exact h.count,
          by rw [e3, e4]; exact h.lower, by rw [e3, e4]; exact h.upper⟩ hr1
        refine ⟨g1, by rw [g2, e2], by rw [← e4]; exact g3, ?_⟩
        rintro ⟨ds', m, hne'⟩
        rcases List.mem_cons.1 m with m | m
        · cases m; exact absurd hne hne'
        · rw [← e4]; exact g4 ⟨ds', m, hne'⟩
      · rw [if_neg hne] at e3 e4
        have hu := h.update hb (hd ds List.mem_cons_self hne)
        obtain ⟨g1, g2, g3, g4⟩ := ih hd' (P := P1) ⟨by rw [e1, h.b], by rw [e4]; exact hu.count,
          by rw [e3, e4]; exact hu.lower, by rw [e3, e4]; exact hu.upper⟩ hr1
        have e5 : P1.trainCount = P.trainCount + 1 := by rw [e4]; rfl
        exact ⟨g1, by rw [g2, e2], by omega, fun _ => by omega⟩

/-- In exact arithmetic the debiased average lies between the smallest and the largest mean reward of
the batches seen, for every history with at least one batch. -/
theorem C51_average (np nf : ℕ) (lr beta beta1 beta2 threshold : ℝ) (init : ℕ → ℕ → ℝ)
    (gen : ℕ → ℝ) (hb : 0 ≤ beta ∧ beta < 1) (us : List NetUse) {P : PolicyNet ℝ}
    (hr : runUses us (.new np nf lr beta beta1 beta2 threshold init gen) = .ok P)
    (hne : ∃ ds, NetUse.train ds ∈ us ∧ ds ≠ []) {lo hi : ℝ}
    (hd : ∀ ds, NetUse.train ds ∈ us → ds ≠ [] → lo ≤ meanReward ds ∧ meanReward ds ≤ hi) :
    lo ≤ baseline P ∧ baseline P ≤ hi := by
  obtain ⟨h, -, -, hc⟩ := runUses_avg hb us hd ⟨rfl, le_refl _, by simp [PolicyNet.new],
    by simp [PolicyNet.new]⟩ hr
  have hc : 0 < P.trainCount := hc hne
  have := h.debias hb hc
  unfold baseline
  rw [if_neg (by omega)]
  simpa [PolicyNet.debias] using this

theorem meanReward_nonneg (ds : Dataset) : 0 ≤ meanReward ds := by
  unfold meanReward
  apply div_nonneg _ (Nat.cast_nonneg _)
  apply List.sum_nonneg
  intro x hx
  obtain ⟨m, -, rfl⟩ := List.mem_map.1 hx
  exact (Real.exp_pos _).le

theorem meanReward_le_one {ds : Dataset} (h : ∀ m ∈ ds.toVectorOfTuples, 0 ≤ m.2.2) :
    meanReward ds ≤ 1 := by
  unfold meanReward
  apply div_le_one_of_le₀ _ (Nat.cast_nonneg _)
  have := List.sum_le_card_nsmul (ds.toVectorOfTuples.map fun m => Real.exp (-(m.2.2 : ℝ))) 1 (by
    intro x hx
    obtain ⟨m, hm, rfl⟩ := List.mem_map.1 hx
    rw [Real.exp_le_one_iff]
    have : (0 : ℝ) ≤ m.2.2 := by exact_mod_cast h m hm
    linarith)
  simpa [Dataset.toVectorOfTuples] using this

/-- A threshold of at most 0 never suppresses the network. -/
theorem C51_never (np nf : ℕ) (lr beta beta1 beta2 threshold : ℝ) (init : ℕ → ℕ → ℝ)
    (gen : ℕ → ℝ) (hb : 0 ≤ beta ∧ beta < 1) (ht : threshold ≤ 0) (us : List NetUse)
    {P : PolicyNet ℝ} (hr : runUses us (.new np nf lr beta beta1 beta2 threshold init gen) = .ok P) :
    P.suppressed = false := by
  have hn := Bool.not_eq_true P.suppressed
  rw [← hn]
  obtain ⟨B, hB⟩ : ∃ B : ℝ, ∀ ds, NetUse.train ds ∈ us → ds ≠ [] → meanReward ds ≤ B := by
    clear hr
    induction us with
    | nil => exact ⟨0, by simp⟩
    | cons u us ih =>
      obtain ⟨B, hB⟩ := ih
      cases u with
      | getIndex f =>
        refine ⟨B, fun ds m hne => hB ds ?_ hne⟩
        rcases List.mem_cons.1 m with m | m
        · cases m
        · exact m
      | train ds' =>
        refine ⟨max B (meanReward ds'), fun ds m hne => ?_⟩
        rcases List.mem_cons.1 m with m | m
        · cases m; exact le_max_right _ _
        · exact (hB ds m hne).trans (le_max_left _ _)
  obtain ⟨h, htr, -, -⟩ := runUses_avg hb us (fun ds m hne => ⟨meanReward_nonneg ds, hB ds m hne⟩)
    ⟨rfl, le_refl _, by simp [PolicyNet.new], by simp [PolicyNet.new]⟩ hr
  rw [C51_suppressed_iff P h.count, htr]
  unfold baseline
  change ¬ _ < threshold
  split
  · linarith
  · have hc := h.count
    have := (h.debias hb (by omega)).1
    simp only [PolicyNet.debias, real_div, real_sub, real_ofRat, real_pow, Rat.cast_one] at this
    linarith

/-- In the binary64 arithmetic of the code too a threshold of at most 0 never suppresses the network, with
any `exp` that is not negative and any `pow` that is at most 1 where it is used.  (For thresholds above 1
there is no such statement here: the rounded average is not shown to be at most 1.) -/
theorem C51_never_double (exp sqrt : ℚ → ℚ) (pow : ℚ → ℤ → ℚ) (h1 : ∀ x, 0 ≤ exp x) (np nf : ℕ)
    (lr beta beta1 beta2 threshold : ℚ) (h2 : ∀ c, 0 < c → pow beta c ≤ 1) (init : ℕ → ℕ → ℚ)
    (gen : ℕ → ℚ) (hb : 0 ≤ beta ∧ beta < 1) (ht : threshold ≤ 0) (us : List NetUse) :
    letI : Arith ℚ := doubleArith exp sqrt pow
    ∀ P : PolicyNet ℚ, runUses us (.new np nf lr beta beta1 beta2 threshold init gen) = .ok P →
      P.suppressed = false := by
  let : Arith ℚ := doubleArith exp sqrt pow
  have r0 : rnd64 (0 : ℚ) = 0 := by decide +kernel
  have r1 : rnd64 (1 : ℚ) = 1 := by decide +kernel
  have hsum : ∀ (l : List ℚ) (a : ℚ), 0 ≤ a → (∀ x ∈ l, 0 ≤ x) → 0 ≤ l.foldl Arith.add a := by
    intro l
    induction l with
    | nil => exact fun a ha _ => ha
    | cons x l ih =>
      intro a ha hl
      exact ih _ (rnd_nonneg (add_nonneg ha (hl x (by simp)))) fun y hy => hl y (by simp [hy])
  have key : ∀ (us : List NetUse) (P P' : PolicyNet ℚ), P.beta = beta → P.threshold = threshold →
      0 ≤ P.rewardMovingAvg → runUses us P = .ok P' →
      P'.beta = beta ∧ P'.threshold = threshold ∧ 0 ≤ P'.rewardMovingAvg := by
    intro us
    induction us with
    | nil => intro P P' a b c hr; cases hr; exact ⟨a, b, c⟩
    | cons u us ih =>
      intro P P' a b c hr
      unfold runUses at hr
      obtain ⟨P1, e1, hr1⟩ := (Res.bind_eq_ok _ _ _).1 hr
      cases u with
      | getIndex f =>
        obtain ⟨⟨i, P2⟩, e2, e3⟩ := (Res.bind_eq_ok _ _ _).1 e1
        cases e3
        obtain ⟨f1, f2, f3, -⟩ := getIndex_fields e2
        exact ih P1 P' (f1.trans a) (f2.trans b) (by rw [f3]; exact c) hr1
      | train ds =>
        obtain ⟨f1, f2, -, f3, -⟩ := train_fields e1
        refine ih P1 P' (f1.trans a) (f2.trans b) ?_ hr1
        rw [f3]
        split
        · exact c
        · show 0 ≤ rnd64 (rnd64 (P.beta * P.rewardMovingAvg) +
            rnd64 (rnd64 (rnd64 1 - P.beta) * batchAverage (rewardsOf ds)))
          rw [a, r1]
          refine rnd_nonneg (add_nonneg (rnd_nonneg (mul_nonneg hb.1 c)) (rnd_nonneg (mul_nonneg
            (rnd_nonneg (by linarith [hb.2])) ?_)))
          refine rnd_nonneg (div_nonneg (hsum _ _ (by show 0 ≤ rnd64 0; rw [r0]) ?_)
            (rnd_nonneg (Nat.cast_nonneg _)))
          intro x hx
          obtain ⟨m, -, rfl⟩ := List.mem_map.1 hx
          exact h1 _
  intro P hr
  obtain ⟨a, b, c⟩ := key us _ P rfl rfl (by show 0 ≤ rnd64 0; rw [r0]) hr
  unfold PolicyNet.suppressed
  refine decide_eq_false (not_lt.2 ?_)
  rw [b]
  refine ht.trans ?_
  split
  · next hc =>
    show 0 ≤ rnd64 (P.rewardMovingAvg / rnd64 (rnd64 1 - pow P.beta P.trainCount))
    rw [a, r1]
    exact rnd_nonneg (div_nonneg c (rnd_nonneg (by linarith [h2 _ hc])))
  · show 0 ≤ rnd64 0
    rw [r0]

/-- A threshold above 1 always suppresses the network, when the times are not negative. -/
theorem C51_always (np nf : ℕ) (lr beta beta1 beta2 threshold : ℝ) (init : ℕ → ℕ → ℝ)
    (gen : ℕ → ℝ) (hb : 0 ≤ beta ∧ beta < 1) (ht : 1 < threshold) (us : List NetUse)
    (hd : ∀ ds, NetUse.train ds ∈ us → ∀ m ∈ ds.toVectorOfTuples, 0 ≤ m.2.2)
    {P : PolicyNet ℝ} (hr : runUses us (.new np nf lr beta beta1 beta2 threshold init gen) = .ok P) :
    P.suppressed = true := by
  obtain ⟨h, htr, -, -⟩ := runUses_avg hb us
    (fun ds m hne => ⟨meanReward_nonneg ds, meanReward_le_one (hd ds m)⟩)
    ⟨rfl, le_refl _, by simp [PolicyNet.new], by simp [PolicyNet.new]⟩ hr
  rw [C51_suppressed_iff P h.count, htr]
  unfold baseline
  change _ < threshold
  split
  · linarith
  · have hc := h.count
    have := (h.debias hb (by omega)).2
    simp only [PolicyNet.debias, real_div, real_sub, real_ofRat, real_pow, Rat.cast_one] at this
    linarith

/-! ## C52 -/

/-- In exact arithmetic the probabilities which `getIndex` uses are positive and sum to one, one for
each policy; after any history. -/
theorem C52_distribution {np nf : ℕ} (hnp : 0 < np) (lr beta beta1 beta2 threshold : ℝ)
    (init : ℕ → ℕ → ℝ) (gen : ℕ → ℝ) (us : List NetUse) (hv : ∀ u ∈ us, u.Valid np nf)
    {f : List ℚ} (hf : GoodFeatures nf f) :
    ∃ P P' ps, runUses us (.new np nf lr beta beta1 beta2 threshold init gen) = .ok P ∧
      P.probabilities f = .ok (ps, P') ∧ ps.length = np ∧ (∀ p ∈ ps, 0 < p) ∧ ps.sum = 1 := by
  obtain ⟨P, S, m, e, hg, -⟩ := runUses_good hnp us hv
    (good_new np nf lr beta beta1 beta2 threshold init gen)
  obtain ⟨bs, eb, hl⟩ := hf.encode
  obtain ⟨N, c, e', -⟩ := hg.probabilities (by exact hnp) eb (by rw [hl]; exact le_refl _)
  refine ⟨P, _, _, e, e', by rw [length_probsList]; rfl, ?_, ?_⟩
  · intro p hp
    obtain ⟨j, -, rfl⟩ := List.mem_map.1 hp
    exact softmax_pos hnp _ _
  · have := sum_take_map (probs (shape np nf) S.weights (input bs)) (le_refl np)
    rw [List.take_of_length_le (by simp)] at this
    unfold probsList
    rw [show (shape np nf).output = np from rfl, this]
    exact softmax_sum hnp _

/-- In the binary64 arithmetic of the code, with any `exp` which is exact at zero and answers doubles
that are not negative, the probabilities are in the unit interval, one for each policy, and their
exact sum differs from one by at most `(np + 2) * 2 ^ -53`; after any history. -/
theorem C52_double (exp sqrt : ℚ → ℚ) (pow : ℚ → ℤ → ℚ) (h0 : exp 0 = 1)
    (h1 : ∀ x, 0 ≤ exp x ∧ Float64 (exp x)) {np nf : ℕ} (hnp : 0 < np) (hnp' : np ≤ 2 ^ 20)
    (lr beta beta1 beta2 threshold : ℚ) (init : ℕ → ℕ → ℚ) (gen : ℕ → ℚ) (us : List NetUse)
    (hv : ∀ u ∈ us, u.Valid np nf) {f : List ℚ} (hf : GoodFeatures nf f) :
    letI : Arith ℚ := doubleArith exp sqrt pow
    ∃ P P' ps, runUses us (.new np nf lr beta beta1 beta2 threshold init gen) = .ok P ∧
      P.probabilities f = .ok (ps, P') ∧ ps.length = np ∧ (∀ p ∈ ps, 0 ≤ p ∧ p ≤ 1) ∧
      |ps.sum - 1| ≤ (np + 2) * 2 ^ (-53 : ℤ) := by
  let : Arith ℚ := doubleArith exp sqrt pow
  obtain ⟨P, S, m, e, hg, -⟩ := runUses_good hnp us hv
    (good_new np nf lr beta beta1 beta2 threshold init gen)
  obtain ⟨bs, eb, hl⟩ := hf.encode
  obtain ⟨N, c, e', -⟩ := hg.probabilities (by exact hnp) eb (by rw [hl]; exact le_refl _)
  have hs : ∀ (g : ℕ → ℚ) n, ((List.range n).map g).sum = ∑ j ∈ range n, g j := by
    intro g n
    induction n with
    | zero => simp
    | succ n ih => rw [List.range_succ, List.map_append, List.sum_append, ih, sum_range_succ]; simp
  refine ⟨P, _, _, e, e', by rw [length_probsList]; rfl, ?_, ?_⟩
  · intro p hp
    obtain ⟨j, hj, rfl⟩ := List.mem_map.1 hp
    exact (softmax_double h0 h1 hnp hnp' _).1 j (List.mem_range.1 hj)
  · unfold probsList
    rw [show (shape np nf).output = np from rfl, hs]
    exact (softmax_double h0 h1 hnp hnp' _).2

/-- A function as in `C52_double`: two to the power of the rounded argument, for arguments that are
not positive, as those of the code, and not far below zero. -/
example : ∃ exp : ℚ → ℚ, exp 0 = 1 ∧ exp (-3 / 2) = 1 / 4 ∧ ∀ x, 0 ≤ exp x ∧ Float64 (exp x) := by
  have h : ∀ n : ℕ, n ≤ 1000 → Float64 ((2 : ℚ) ^ (-(n : ℤ))) := fun n hn =>
    ⟨1, -(n : ℤ), by norm_num, by omega, by simp⟩
  refine ⟨fun x => if (-⌊x⌋).toNat ≤ 1000 then 2 ^ (-((-⌊x⌋).toNat : ℤ)) else 0, ?_, ?_, ?_⟩
  · simp
  · dsimp only
    rw [show ⌊(-3 / 2 : ℚ)⌋ = -2 by norm_num [Int.floor_eq_iff]]; norm_num
  · intro x
    dsimp only
    split
    · exact ⟨by positivity, h _ ‹_›⟩
    · exact ⟨le_refl _, 0, 0, by norm_num, by norm_num, by simp⟩

/-- After any history, `getIndex` answers a policy of the model, for any arithmetic in which the
numbers drawn are not above one. -/
theorem C52_range {np nf : ℕ} (hnp : 0 < np) (lr beta beta1 beta2 threshold : α)
    (init : ℕ → ℕ → α) (gen : ℕ → α) (hgen : ∀ k, Arith.lt (Arith.ofRat 1) (gen k) = false)
    (us : List NetUse) (hv : ∀ u ∈ us, u.Valid np nf) {f : List ℚ} (hf : GoodFeatures nf f) :
    ∃ P P' i, runUses us (.new np nf lr beta beta1 beta2 threshold init gen) = .ok P ∧
      P.getIndex f = .ok (i, P') ∧ 0 ≤ i ∧ i < np := by
  obtain ⟨P, S, m, e, hg, hgen'⟩ := runUses_good hnp us hv
    (good_new np nf lr beta beta1 beta2 threshold init gen)
  obtain ⟨bs, eb, hl⟩ := hf.encode
  obtain ⟨i, P', e', -, -, -, -, -, -, hi⟩ := hg.getIndex (by exact hnp) eb
    (by rw [hl]; exact le_refl _)
  refine ⟨P, P', i, e, e', hi ?_⟩
  rw [hgen']
  exact hgen _

/-- Policy `i` is chosen exactly if the number drawn lies between the sum of the probabilities of the
policies before `i` and that sum with `p i`: in exact arithmetic, policy `i` has probability `p i`. -/
theorem C52_proportional {np nf : ℕ} (hnp : 2 ≤ np) (lr beta beta1 beta2 threshold : ℝ)
    (init : ℕ → ℕ → ℝ) (gen : ℕ → ℝ) (hgen : ∀ k, 0 < gen k ∧ gen k ≤ 1) (us : List NetUse)
    (hv : ∀ u ∈ us, u.Valid np nf) {f : List ℚ} (hf : GoodFeatures nf f) {P P1 P2 : PolicyNet ℝ}
    {ps : List ℝ} {i : ℤ}
    (hr : runUses us (.new np nf lr beta beta1 beta2 threshold init gen) = .ok P)
    (hs : P.suppressed = false) (hp : P.probabilities f = .ok (ps, P1))
    (hi : P.getIndex f = .ok (i, P2)) (j : ℕ) (hj : j < np) :
    i = j ↔ (ps.take j).sum < P.gen 0 ∧ P.gen 0 ≤ (ps.take (j + 1)).sum := by
  obtain ⟨P', S, m, e, hg, hgen'⟩ := runUses_good (by omega) us hv
    (good_new np nf lr beta beta1 beta2 threshold init gen)
  rw [hr] at e
  cases e
  obtain ⟨bs, eb, hl⟩ := hf.encode
  obtain ⟨N, c, e', -⟩ := hg.probabilities (show 0 < np by omega) eb (by rw [hl]; exact le_refl _)
  rw [hp] at e'
  cases e'
  have hu : 0 < P.gen 0 ∧ P.gen 0 ≤ 1 := by rw [hgen']; exact hgen _
  set q := probs (shape np nf) S.weights (input bs) with hq
  have hqpos : ∀ k, 0 < q k := fun k => softmax_pos (show 0 < np by omega) _ _
  have hqsum : ∑ k ∈ range np, q k = 1 := softmax_sum (show 0 < np by omega) _
  unfold PolicyNet.getIndex at hi
  rw [if_neg (by rw [hs]; simp), hp, Res.bind_ok] at hi
  dsimp only at hi
  obtain ⟨⟨n, gen'⟩, hsam, hi⟩ := (Res.bind_eq_ok _ _ _).1 hi
  cases hi
  obtain ⟨hn, hlow, hup⟩ := sample_real (f := q) (n := np) hnp hqsum hu.2 hsam
  have hlow' : ∑ k ∈ range n, q k < P.gen 0 := by
    rcases hlow with rfl | h
    · simpa using hu.1
    · exact h
  unfold probsList
  change ((n : ℤ) = j) ↔ (((List.range np).map q).take j).sum < P.gen 0 ∧
    P.gen 0 ≤ (((List.range np).map q).take (j + 1)).sum
  rw [sum_take_map q (by omega), sum_take_map q (by omega)]
  have hmono : ∀ a b : ℕ, a ≤ b → ∑ k ∈ range a, q k ≤ ∑ k ∈ range b, q k := fun a b hab =>
    sum_le_sum_of_subset_of_nonneg (range_mono hab) fun k _ _ => (hqpos k).le
  constructor
  · intro h
    have : n = j := by omega
    subst this
    exact ⟨hlow', hup⟩
  · rintro ⟨h1, h2⟩
    by_contra hne
    have hne' : n ≠ j := fun h => hne (by rw [h])
    rcases lt_or_gt_of_ne hne' with h | h
    · linarith [hmono (n + 1) j h]
    · linarith [hmono (j + 1) n h]

/-- The number of answers in a history which come from the network. -/
def networkAnswers : List NetUse → PolicyNet α → ℕ
  | [], _ => 0
  | u :: us, P =>
    (match u with
      | .getIndex _ => if P.suppressed then 0 else 1
      | .train _ => 0) +
    (match u.run P with
      | .ok P => networkAnswers us P
      | .error _ => 0)

/-- Every answer that comes from the network takes a number of its own from the generator, and nothing
else takes one: after a history the next number is the one after those of the answers given so far. In
any arithmetic. -/
theorem C52_draws {np nf : ℕ} (hnp : 2 ≤ np) (lr beta beta1 beta2 threshold : α)
    (init : ℕ → ℕ → α) (gen : ℕ → α) (us : List NetUse) (hv : ∀ u ∈ us, u.Valid np nf) :
    ∃ P, runUses us (.new np nf lr beta beta1 beta2 threshold init gen) = .ok P ∧
      ∀ k, P.gen k =
        gen (networkAnswers us (.new np nf lr beta beta1 beta2 threshold init gen) + k) := by
  suffices H : ∀ (us : List NetUse) (P : PolicyNet α) (S : NetState α),
      (∀ u ∈ us, u.Valid np nf) → P.Good (shape np nf) S →
      ∃ P', runUses us P = .ok P' ∧ ∀ k, P'.gen k = P.gen (networkAnswers us P + k) from
    H us _ _ hv (good_new np nf lr beta beta1 beta2 threshold init gen)
  intro us
  induction us with
  | nil => intro P S _ _; exact ⟨P, rfl, fun k => by simp [networkAnswers]⟩
  | cons u us ih =>
    intro P S hv h
    have hv' : ∀ u ∈ us, u.Valid np nf := fun x hx => hv x (List.mem_cons_of_mem _ hx)
    have hu := hv u List.mem_cons_self
    cases u with
    | getIndex f =>
      obtain ⟨bs, e, hl⟩ := GoodFeatures.encode (hu : GoodFeatures nf f)
      obtain ⟨i, P1, e1, h1, -⟩ := h.getIndex (by change 0 < np; omega) e hl.ge
      obtain ⟨P2, e2, hg2⟩ := ih P1 S hv' h1
      have hrun : (NetUse.getIndex f).run P = .ok P1 := by
        simp only [NetUse.run]
        rw [e1, Res.bind_ok]
      refine ⟨P2, by simp only [runUses]; rw [hrun, Res.bind_ok, e2], fun k => ?_⟩
      rw [hg2]
      simp only [networkAnswers]
      rw [hrun]
      dsimp only
      by_cases hs : P.suppressed = true
      · rw [C51_default P f hs] at e1
        cases e1
        rw [if_pos hs, Nat.zero_add]
      · rw [if_neg hs]
        unfold PolicyNet.getIndex at e1
        rw [if_neg hs] at e1
        obtain ⟨N, c, ep, -⟩ := h.probabilities (by change 0 < np; omega) e hl.ge
        rw [ep, Res.bind_ok] at e1
        dsimp only at e1
        obtain ⟨⟨n, gen'⟩, hsam, e1⟩ := (Res.bind_eq_ok _ _ _).1 e1
        cases e1
        unfold PolicyNet.sample at hsam
        rw [if_neg (by rw [length_probsList]; change ¬ np < 2; omega)] at hsam
        obtain ⟨n', -, hsam⟩ := (Res.bind_eq_ok _ _ _).1 hsam
        cases hsam
        dsimp only
        congr 1
        omega
    | train ds =>
      by_cases hne : ds = []
      · subst hne
        obtain ⟨P2, e2, hg2⟩ := ih { P with cache := [] } S hv' ⟨h.net, h.num, by simp⟩
        refine ⟨P2, by simp only [runUses, NetUse.run, train_nil, Res.bind_ok, e2], fun k => ?_⟩
        rw [hg2]
        simp only [networkAnswers, NetUse.run, train_nil, Nat.zero_add]
      · obtain ⟨N, S1, e1, h1, -⟩ := h.train (nf := nf) rfl (ds := ds)
          (fun m hm => ⟨((hu : _) m hm).1.1, fun f hf => ⟨by
            linarith [(((hu : _) m hm).1.2 f hf).1], (((hu : _) m hm).1.2 f hf).2⟩,
            ((hu : _) m hm).2⟩) hne
        obtain ⟨P2, e2, hg2⟩ := ih _ S1 hv' h1
        refine ⟨P2, by simp only [runUses, NetUse.run, e1, Res.bind_ok, e2], fun k => ?_⟩
        rw [hg2, (train_fields e1).2.2.1]
        simp only [networkAnswers, NetUse.run, e1, Nat.zero_add]

end Apollo.Props
