import Verif.Proofs.AnyMetric

/-!
# C125: metrics that are any doubles

`metricEntries h` are the entries of the dataset after the measurements `h`, `metricBest h` the features
with the policies that `findMinMetricPolicyByFeatures` gives for training.
-/

namespace Apollo.Props

open Apollo Apollo.Spec

/-- C125 (the average): a pair has an entry iff it was measured; its metric is infinite once an infinite
metric was measured, NaN once a NaN or two opposite infinities were, and the running average of finite
metrics. -/
theorem C125_entry (h : List MetricMeas) (f : List ℚ) (p : ℤ) :
    (allMetricsOf h f p = [] ∧ ∀ m, (f, p, m) ∉ metricEntries h) ∨
      (allMetricsOf h f p ≠ [] ∧ ∃ m, AverageOf (allMetricsOf h f p) m ∧
        ∀ m', (f, p, m') ∈ metricEntries h ↔ m' = m) := by
  have key : ∀ m, (f, p, m) ∈ metricEntries h ↔
      (allMetricsOf h f p).foldl combineAny none = some m := by
    intro m
    rw [← find_metricRun, (sorted_metricRun h).find_eq_some_iff]
    unfold metricEntries MetricDataset.toVectorOfTuples
    rw [List.mem_map]
    constructor
    · rintro ⟨d, hd, he⟩
      simp only [Prod.mk.injEq] at he
      obtain ⟨rfl, rfl, rfl⟩ := he
      exact hd
    · intro hd
      exact ⟨_, hd, rfl⟩
  simp only [key]
  cases hm : allMetricsOf h f p with
  | nil => exact Or.inl ⟨rfl, fun m h => by cases h⟩
  | cons x xs =>
    obtain ⟨r, h1, h2⟩ := averageOf_foldl x xs
    refine Or.inr ⟨by simp, r, h2, fun m' => ?_⟩
    rw [List.foldl_cons, show combineAny none x = some x from rfl, h1, Option.some.injEq]
    exact eq_comm

/-- One infinite metric among finite ones: the entry stays infinite.  With an opposite infinity it is
NaN. -/
example : metricEntries [([1], 0, .fin 4), ([1], 0, .posInf), ([1], 0, .fin 2), ([1], 1, .posInf),
    ([1], 1, .negInf), ([1], 1, .fin 3), ([1], 2, .fin 4), ([1], 2, .fin 2), ([1], 3, .negInf),
    ([1], 3, .fin 1)] =
    [([1], 0, .posInf), ([1], 1, .nan), ([1], 2, .fin 3), ([1], 3, .negInf)] := by decide +kernel

/-- C125 (full statement): the policy found for features has a metric that is not greater than the
metric, unless it is NaN, of any other policy measured for these features. -/
def C125_claim : Prop :=
  ∀ (h : List MetricMeas) (f : List ℚ) (p : ℤ), (f, p) ∈ metricBest h →
    ∃ m, (f, p, m) ∈ metricEntries h ∧
      ∀ p' m', (f, p', m') ∈ metricEntries h → m' ≠ .nan → NotGreater m m'

/-- The full statement is false: a NaN measured for the policy 0 makes it the best one. -/
theorem C125_fails : ¬ C125_claim := by
  intro h
  have he : metricEntries [([], 0, .nan), ([], 1, .fin 1)] = [([], 0, .nan), ([], 1, .fin 1)] := by
    decide +kernel
  obtain ⟨m, h1, h2⟩ := h [([], 0, .nan), ([], 1, .fin 1)] [] 0 (by decide +kernel)
  rw [he] at h1 h2
  have hm : m = .nan := by simpa using h1
  subst hm
  obtain ⟨a, ha, -⟩ := h2 1 (.fin 1) (by simp) (by simp)
  cases ha

/-- What holds: if the least of the policies measured for the features has the metric NaN, then it is
the one found; otherwise it is the least policy among the ones with the least metric, where NaNs are
passed over.  Infinite metrics are compared as one expects.  Missing from the full statement: a NaN for
the least policy (`C125_fails`). -/
theorem C125_best_partial (h : List MetricMeas) (f : List ℚ) (p : ℤ) :
    (f, p) ∈ metricBest h ↔
      FirstPolicy (metricEntries h) f p .nan ∨
        ((∃ p₁ m₁, FirstPolicy (metricEntries h) f p₁ m₁ ∧ m₁ ≠ .nan) ∧
          BestOfNumbers (metricEntries h) f p) := by
  rw [mem_metricBest]
  have hs := sorted_group (sorted_metricRun h) f
  have hm : ∀ p m, (f, p, m) ∈ metricEntries h ↔ (p, m) ∈ group f (metricRun h) :=
    fun p m => mem_group.symm
  simp only [FirstPolicy, BestOfNumbers, hm]
  generalize group f (metricRun h) = l at hs
  cases l with
  | nil => simp
  | cons x l =>
    have hfirst : ∀ y ∈ x :: l, x.1 ≤ y.1 := by
      intro y hy
      rcases List.mem_cons.1 hy with rfl | hy
      · exact le_rfl
      · exact ((List.pairwise_cons.1 hs).1 y hy).le
    have huniq : ∀ y ∈ x :: l, y.1 ≤ x.1 → y = x := by
      intro y hy hle
      rcases List.mem_cons.1 hy with rfl | hy
      · rfl
      · exact absurd ((List.pairwise_cons.1 hs).1 y hy) (not_lt.2 hle)
    rw [List.foldl_cons, show pick none x = some x from rfl]
    by_cases hx : x.2 = .nan
    · have hx' : x = (x.1, .nan) := by rw [← hx]
      constructor
      · rintro ⟨m, hp⟩
        rw [hx', pick_nan, Option.some.injEq, Prod.mk.injEq] at hp
        obtain ⟨rfl, -⟩ := hp
        exact Or.inl ⟨by rw [← hx']; simp, fun p' m' hy => hfirst _ hy⟩
      · rintro (⟨h1, h2⟩ | ⟨⟨p₁, m₁, ⟨h1, h2⟩, h3⟩, -⟩)
        · have := huniq _ h1 (h2 x.1 x.2 (by simp))
          refine ⟨.nan, ?_⟩
          rw [← this, pick_nan]
        · have := huniq _ h1 (h2 x.1 x.2 (by simp))
          rw [← this] at hx
          exact absurd hx h3
    · obtain ⟨r, h1, h2, h3, h4⟩ := pick_number x hx l hs
      rw [h1]
      have hbest : ∀ p' m', (p', m') ∈ x :: l → m' ≠ .nan → NotGreater r.2 m' ∧
          (NotGreater m' r.2 → r.1 ≤ p') := by
        intro p' m' hy hn
        rw [notGreater_iff h3 hn, notGreater_iff hn h3]
        exact h4 _ hy hn
      constructor
      · rintro ⟨m, hp⟩
        rw [Option.some.injEq] at hp
        subst hp
        exact Or.inr ⟨⟨x.1, x.2, ⟨by simp, fun p' m' hy => hfirst _ hy⟩, hx⟩, _, h2, h3, hbest⟩
      · rintro (⟨h5, h6⟩ | ⟨-, m, h5, h6, h7⟩)
        · have := huniq _ h5 (h6 x.1 x.2 (by simp))
          rw [← this] at hx
          exact absurd rfl hx
        · refine ⟨r.2, ?_⟩
          have a1 := h7 r.1 r.2 h2 h3
          have a2 := hbest p m h5 h6
          have : r.1 = p := le_antisymm (a2.2 a1.1) (a1.2 a2.1)
          rw [← this]

/-- Infinities and NaNs behind the first policy: policy 3 has the least metric. -/
example : metricBest [([1], 0, .posInf), ([1], 1, .nan), ([1], 2, .fin 3), ([1], 3, .fin 2),
    ([2], 0, .nan), ([2], 1, .fin 1), ([3], 4, .posInf), ([3], 1, .posInf), ([4], 0, .fin 3),
    ([4], 1, .fin 1), ([4], 2, .fin 2), ([5], 0, .fin 1), ([5], 1, .negInf), ([5], 2, .fin 0)] =
    [([1], 3), ([2], 0), ([3], 1), ([4], 1), ([5], 1)] := by decide +kernel

/-- Consequence: without NaN the full statement holds, and the policy is the least one with this
metric. -/
theorem C125_numbers_partial (h : List MetricMeas) (f : List ℚ) (p : ℤ)
    (hn : ∀ p' m', (f, p', m') ∈ metricEntries h → m' ≠ .nan) :
    (f, p) ∈ metricBest h ↔ BestOfNumbers (metricEntries h) f p := by
  rw [C125_best_partial]
  constructor
  · rintro (⟨h1, -⟩ | ⟨-, h1⟩)
    · exact absurd rfl (hn _ _ h1)
    · exact h1
  · intro h1
    have hb : (∃ q, (f, q) ∈ metricBest h) := by
      obtain ⟨m, h2, -⟩ := h1
      have hg := mem_group.2 h2
      simp only [mem_metricBest]
      cases hl : group f (metricRun h) with
      | nil => rw [hl] at hg; cases hg
      | cons x l =>
        have hs := sorted_group (sorted_metricRun h) f
        rw [hl] at hs
        have hx : x.2 ≠ .nan := hn x.1 x.2 (mem_group.1 (by rw [hl]; simp))
        obtain ⟨r, h3, -⟩ := pick_number x hx l hs
        exact ⟨r.1, r.2, h3⟩
    obtain ⟨q, hq⟩ := hb
    rcases (C125_best_partial h f q).1 hq with ⟨h2, -⟩ | ⟨h2, -⟩
    · exact absurd rfl (hn _ _ h2)
    · exact Or.inr ⟨h2, h1⟩

example : ∀ p' m', (([1], p', m') : List ℚ × ℤ × AnyFloat) ∈
    ([([1], 0, .posInf), ([1], 1, .fin 3)] : List (List ℚ × ℤ × AnyFloat)) → m' ≠ .nan := by
  intro p' m' h
  simp only [List.mem_cons, Prod.mk.injEq, List.not_mem_nil, or_false] at h
  rcases h with ⟨-, -, rfl⟩ | ⟨-, -, rfl⟩ <;> simp

example : metricEntries [([1], 0, .posInf), ([1], 1, .fin 3)] =
    [([1], 0, .posInf), ([1], 1, .fin 3)] := by decide +kernel

end Apollo.Props
