import Verif.Proofs.DatasetBest

/-! Histories of insertions: helper lemmas for C01-C05. -/

namespace Apollo

open Apollo.Spec

theorem exists_least (a : ℚ) (l : List ℚ) : ∃ lo ∈ a :: l, ∀ x ∈ a :: l, lo ≤ x := by
  induction l generalizing a with
  | nil => exact ⟨a, by simp, by simp⟩
  | cons b l ih =>
    obtain ⟨lo, h1, h2⟩ := ih b
    rcases le_total a lo with h | h
    · refine ⟨a, by simp, fun x hx => ?_⟩
      rcases List.mem_cons.1 hx with rfl | hx
      · exact le_refl _
      · exact h.trans (h2 x hx)
    · refine ⟨lo, List.mem_cons_of_mem _ h1, fun x hx => ?_⟩
      rcases List.mem_cons.1 hx with rfl | hx
      · exact h
      · exact h2 x hx

theorem exists_greatest (a : ℚ) (l : List ℚ) : ∃ hi ∈ a :: l, ∀ x ∈ a :: l, x ≤ hi := by
  induction l generalizing a with
  | nil => exact ⟨a, by simp, by simp⟩
  | cons b l ih =>
    obtain ⟨lo, h1, h2⟩ := ih b
    rcases le_total lo a with h | h
    · refine ⟨a, by simp, fun x hx => ?_⟩
      rcases List.mem_cons.1 hx with rfl | hx
      · exact le_refl _
      · exact (h2 x hx).trans h
    · refine ⟨lo, List.mem_cons_of_mem _ h1, fun x hx => ?_⟩
      rcases List.mem_cons.1 hx with rfl | hx
      · exact h
      · exact h2 x hx

theorem run_eq (h : List Meas) :
    run h = Dataset.insertAll [] (h.map fun x => (x.features, x.policy, x.metric)) := by
  simp [run, Dataset.insertAll, List.foldl_map]

theorem run_sorted (h : List Meas) : OMap.Sorted (run h) := by
  rw [run_eq]; exact Dataset.sorted_insertAll OMap.sorted_nil _

theorem metricsFor_eq (h : List Meas) (f : List ℚ) (p : ℤ) :
    Dataset.metricsFor (h.map fun x => (x.features, x.policy, x.metric)) (mkKey f p) =
      metricsOf h f p := by
  unfold Dataset.metricsFor metricsOf
  rw [List.filter_map, List.map_map]
  simp only [Function.comp_def, Dataset.mkKey_inj]

theorem ema_eq_halfHalf : Dataset.ema = halfHalf := by
  funext a b
  unfold Dataset.ema halfHalf
  rw [show 1/2 * a = a / 2 by ring, show 1/2 * b = b / 2 by ring]

theorem find_run (h : List Meas) (f : List ℚ) (p : ℤ) :
    OMap.find (run h) (mkKey f p) = runningAverage halfHalf (metricsOf h f p) := by
  rw [run_eq, Dataset.find_insertAll OMap.sorted_nil, metricsFor_eq, ← ema_eq_halfHalf]
  cases metricsOf h f p with
  | nil => rfl
  | cons m ms =>
    simp only [List.foldl_cons, runningAverage]
    exact Dataset.foldl_combine_some _ _

theorem mem_entries (h : List Meas) (f : List ℚ) (p : ℤ) (m : ℚ) :
    (f, p, m) ∈ entries h ↔ runningAverage halfHalf (metricsOf h f p) = some m := by
  unfold entries
  rw [Dataset.mem_toVector, ← (run_sorted h).find_eq_some_iff, find_run]

theorem foldl_ema_between {lo hi : ℚ} (hlo : NormalMetric lo) (hhi : NormalMetric hi)
    (ms : List ℚ) (a : ℚ) (ha : lo ≤ a ∧ a ≤ hi) (h : ∀ m ∈ ms, lo ≤ m ∧ m ≤ hi) :
    lo ≤ ms.foldl halfHalf a ∧ ms.foldl halfHalf a ≤ hi := by
  induction ms generalizing a with
  | nil => exact ha
  | cons m ms ih =>
    refine ih (halfHalf a m) ?_ (fun x hx => h x (List.mem_cons_of_mem _ hx))
    rw [← ema_eq_halfHalf]
    exact Dataset.ema_between hlo.1 hhi.1 (Dataset.float64_half hlo.1 hlo.2)
      (Dataset.float64_half hhi.1 hhi.2) ha (h m (by simp))

theorem halfHalf_eq_roundedMean {a b : ℚ} (ha : NormalMetric a) (hb : NormalMetric b) :
    halfHalf a b = roundedMean a b := by
  have h1 := Dataset.float64_half ha.1 ha.2
  have h2 := Dataset.float64_half hb.1 hb.2
  unfold halfHalf roundedMean
  rw [show a / 2 = 1/2 * a by ring, show b / 2 = 1/2 * b by ring,
    Dataset.rnd64_of_float64 h1, Dataset.rnd64_of_float64 h2]
  congr 1
  ring

theorem normal_of_ge {m : ℚ} (h : Float64 m ∧ 2 ^ (-1021 : ℤ) ≤ m) : NormalMetric m :=
  ⟨h.1, Or.inr (h.2.trans (le_abs_self _))⟩

theorem normal_bound : NormalMetric (2 ^ (-1021 : ℤ)) :=
  ⟨⟨1, -1021, by norm_num, by norm_num, by simp⟩, Or.inr (le_abs_self _)⟩

theorem halfHalf_ge {a b : ℚ} (ha : Float64 a ∧ 2 ^ (-1021 : ℤ) ≤ a)
    (hb : Float64 b ∧ 2 ^ (-1021 : ℤ) ≤ b) :
    Float64 (halfHalf a b) ∧ 2 ^ (-1021 : ℤ) ≤ halfHalf a b := by
  refine ⟨representable_rnd _, ?_⟩
  rw [halfHalf_eq_roundedMean (normal_of_ge ha) (normal_of_ge hb)]
  exact le_rnd_of_le (by norm_num) normal_bound.1 (by linarith [ha.2, hb.2])

theorem foldl_halfHalf_eq (ms : List ℚ) (a : ℚ) (ha : Float64 a ∧ 2 ^ (-1021 : ℤ) ≤ a)
    (h : ∀ x ∈ ms, Float64 x ∧ 2 ^ (-1021 : ℤ) ≤ x) :
    ms.foldl halfHalf a = ms.foldl roundedMean a ∧
    (Float64 (ms.foldl halfHalf a) ∧ 2 ^ (-1021 : ℤ) ≤ ms.foldl halfHalf a) := by
  induction ms generalizing a with
  | nil => exact ⟨rfl, ha⟩
  | cons m ms ih =>
    have hm := h m (by simp)
    have := ih (halfHalf a m) (halfHalf_ge ha hm) (fun x hx => h x (List.mem_cons_of_mem _ hx))
    simp only [List.foldl_cons]
    refine ⟨?_, this.2⟩
    rw [this.1, halfHalf_eq_roundedMean (normal_of_ge ha) (normal_of_ge hm)]

theorem runningAverage_halfHalf_eq (ms : List ℚ)
    (h : ∀ x ∈ ms, Float64 x ∧ 2 ^ (-1021 : ℤ) ≤ x) :
    runningAverage halfHalf ms = runningAverage roundedMean ms := by
  cases ms with
  | nil => rfl
  | cons a ms =>
    simp only [runningAverage]
    rw [(foldl_halfHalf_eq ms a (h a (by simp)) (fun x hx => h x (List.mem_cons_of_mem _ hx))).1]

theorem normal_of_runningAverage (ms : List ℚ)
    (h : ∀ x ∈ ms, Float64 x ∧ 2 ^ (-1021 : ℤ) ≤ x) (m : ℚ)
    (hm : runningAverage halfHalf ms = some m) : NormalMetric m := by
  cases ms with
  | nil => simp [runningAverage] at hm
  | cons a ms =>
    simp only [runningAverage, Option.some.injEq] at hm
    rw [← hm]
    exact normal_of_ge
      (foldl_halfHalf_eq ms a (h a (by simp)) (fun x hx => h x (List.mem_cons_of_mem _ hx))).2

end Apollo
