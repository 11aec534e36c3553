import Verif.Proofs.AnyMetricIO
import Verif.Props.AnyDatasetIO

/-!
# C127: dataset files whose metrics are any doubles

`metricReload neg h` is what a dataset shows that was loaded from the file of the dataset after the
measurements `h`; `neg` are the signs of the NaNs.
-/

namespace Apollo.Props

open Apollo Apollo.Spec

/-- Infinities, NaN and negative zero are kept; a finite metric is rounded to six significant decimal
digits and then to double. -/
def DoubleCopy (x y : AnyFloat) : Prop :=
  match x with
  | .fin q => ∃ d, NearestSixDigit q d ∧ y = .fin (rnd64 d)
  | x => y = x

/-- The measurement that an entry reads back as. -/
def MetricCopy (e e' : List ℚ × ℤ × AnyFloat) : Prop :=
  List.Forall₂ (fun x y => ∃ d, NearestSixDigit x d ∧ y = rnd32 d) e.1 e'.1 ∧ e'.2.1 = e.2.1 ∧
    DoubleCopy e.2.2 e'.2.2

/-- An entry that can be read back: no more than one feature, finite numbers in the normal range,
policy an `int`. -/
structure MetricStorable (e : List ℚ × ℤ × AnyFloat) : Prop where
  few : e.1.length ≤ 1
  feat : ∀ x ∈ e.1, x = 0 ∨ (10 ^ (-37 : ℤ) ≤ |x| ∧ |x| ≤ 10 ^ (38 : ℤ))
  pol : -2 ^ 31 ≤ e.2.1 ∧ e.2.1 < 2 ^ 31
  metric : ∀ q, e.2.2 = .fin q → q = 0 ∨ (10 ^ (-307 : ℤ) ≤ |q| ∧ |q| ≤ 10 ^ (308 : ℤ))

theorem metricEntryOk {h : List MetricMeas} (hs : ∀ e ∈ metricEntries h, MetricStorable e) :
    ∀ d ∈ metricRun h, MetricDataset.EntryOk d := by
  intro d hd
  obtain ⟨h1, h2, h3, h4⟩ := hs ((ofLex d.1).1, (ofLex d.1).2, d.2) (List.mem_map.2 ⟨d, hd, rfl⟩)
  refine ⟨h1, h2, h3, ?_⟩
  simp only at h4
  cases hm : d.2 with
  | fin q => exact h4 q hm
  | _ => trivial

theorem metricReload_eq (neg : ℕ → Bool) {h : List MetricMeas}
    (hs : ∀ e ∈ metricEntries h, MetricStorable e) (hlen : (metricEntries h).length ≤ 2 ^ 31) :
    metricReload neg h = .ok (metricEntries ((metricRun h).map MetricDataset.reread)) := by
  have h1 := MetricDataset.load_store neg (metricEntryOk hs)
    (by simpa [metricEntries, MetricDataset.toVectorOfTuples] using hlen) []
  unfold metricReload
  rw [h1]
  rfl

/-- C127 (general form): a dataset with at most one feature per entry loads back without error, as its
entries inserted in order; infinite and NaN metrics are kept, finite numbers are rounded to six
significant digits. -/
theorem C127_reload (neg : ℕ → Bool) (h : List MetricMeas)
    (hs : ∀ e ∈ metricEntries h, MetricStorable e) (hlen : (metricEntries h).length ≤ 2 ^ 31) :
    ∃ h', List.Forall₂ MetricCopy (metricEntries h) h' ∧
      metricReload neg h = .ok (metricEntries h') := by
  refine ⟨_, ?_, metricReload_eq neg hs hlen⟩
  unfold metricEntries MetricDataset.toVectorOfTuples
  rw [List.forall₂_map_left_iff, List.forall₂_map_right_iff, List.forall₂_same]
  intro d _
  refine ⟨?_, rfl, ?_⟩
  · show List.Forall₂ _ (ofLex d.1).1 ((ofLex d.1).1.map fun x => rnd32 (round6 x))
    rw [List.forall₂_map_right_iff, List.forall₂_same]
    exact fun x _ => ⟨round6 x, ⟨sixDigits_round6 _, fun d' hd' => round6_nearest _ d' hd'⟩, rfl⟩
  · show DoubleCopy d.2 (rereadAnyDouble d.2)
    cases d.2 with
    | fin q => exact ⟨round6 q, ⟨sixDigits_round6 _, fun d' hd' => round6_nearest _ d' hd'⟩, rfl⟩
    | _ => rfl

/-- The file of a dataset with special metrics. -/
example : MetricDataset.store (fun i => i = 2)
    (metricRun [([1], 0, .posInf), ([1], 1, .negInf), ([2], 0, .nan), ([2], 1, .fin (1/4)),
      ([], 5, .negZero)]) =
    ("data: {\n  0: { features: [  ], policy: 5, xtime: -0 },\n" ++
      "  1: { features: [ 1, ], policy: 0, xtime: inf },\n" ++
      "  2: { features: [ 1, ], policy: 1, xtime: -inf },\n" ++
      "  3: { features: [ 2, ], policy: 0, xtime: nan },\n" ++
      "  4: { features: [ 2, ], policy: 1, xtime: 0.25 },\n}\n").toList := by decide +kernel

/-- The numbers of an entry have at most six significant digits and are in the normal range. -/
structure MetricExact (e : List ℚ × ℤ × AnyFloat) : Prop where
  few : e.1.length ≤ 1
  feat : ∀ x ∈ e.1, ∃ d, SixDigitDecimal d ∧ x = rnd32 d ∧
    (d = 0 ∨ (2 * 10 ^ (-37 : ℤ) ≤ |d| ∧ |d| ≤ 9 * 10 ^ (37 : ℤ)))
  pol : -2 ^ 31 ≤ e.2.1 ∧ e.2.1 < 2 ^ 31
  metric : ∀ q, e.2.2 = .fin q → ∃ d, SixDigitDecimal d ∧ q = rnd64 d ∧
    (d = 0 ∨ (2 * 10 ^ (-307 : ℤ) ≤ |d| ∧ |d| ≤ 9 * 10 ^ (307 : ℤ)))

theorem metricExact_reread {d : Key × AnyFloat} (h : MetricExact ((ofLex d.1).1, (ofLex d.1).2, d.2)) :
    MetricStorable ((ofLex d.1).1, (ofLex d.1).2, d.2) ∧
      MetricDataset.reread d = ((ofLex d.1).1, (ofLex d.1).2, d.2) := by
  obtain ⟨h1, h2, h3, h4⟩ := h
  simp only at h1 h2 h3 h4
  have m1 : ∀ q, d.2 = .fin q → RangeDouble q ∧ rnd64 (round6 q) = q := by
    intro q hq
    obtain ⟨x, h6, rfl, hr⟩ := h4 q hq
    exact ⟨rangeDouble_rnd64 hr, by
      rw [round6_rnd64 h6 (hr.imp id fun h => le_trans (by decide +kernel) h.1)]⟩
  have f1 : ∀ x ∈ (ofLex d.1).1, RangeFloat x ∧ rnd32 (round6 x) = x := by
    intro x hx
    obtain ⟨q, h6, rfl, hr⟩ := h2 x hx
    exact ⟨rangeFloat_rnd32 hr, by
      rw [round6_rnd32 h6 (hr.imp id fun h => le_trans (by decide +kernel) h.1)]⟩
  refine ⟨⟨h1, fun x hx => (f1 x hx).1, h3, fun q hq => (m1 q hq).1⟩, ?_⟩
  unfold MetricDataset.reread
  have e1 : ((ofLex d.1).1.map fun x => rnd32 (round6 x)) = (ofLex d.1).1 := by
    conv_rhs => rw [← List.map_id (ofLex d.1).1]
    exact List.map_congr_left fun x hx => (f1 x hx).2
  have e2 : rereadAnyDouble d.2 = d.2 := by
    cases hm : d.2 with
    | fin q => simp only [rereadAnyDouble, (m1 q hm).2]
    | _ => rfl
  rw [e1, e2]

/-- C127: a dataset with at most one feature per entry, whose finite numbers have at most six
significant digits, has the same entries after `store` and `load`, whatever doubles the metrics are. -/
theorem C127_exact (neg : ℕ → Bool) (h : List MetricMeas) (hlen : (metricEntries h).length ≤ 2 ^ 31)
    (hx : ∀ e ∈ metricEntries h, MetricExact e) : metricReload neg h = .ok (metricEntries h) := by
  have hx' : ∀ d ∈ metricRun h, MetricExact ((ofLex d.1).1, (ofLex d.1).2, d.2) := fun d hd =>
    hx _ (List.mem_map.2 ⟨d, hd, rfl⟩)
  have hs : ∀ e ∈ metricEntries h, MetricStorable e := by
    intro e he
    obtain ⟨d, hd, rfl⟩ := List.mem_map.1 he
    exact (metricExact_reread (hx' d hd)).1
  rw [metricReload_eq neg hs hlen]
  have e1 : (metricRun h).map MetricDataset.reread = metricEntries h :=
    List.map_congr_left fun d hd => (metricExact_reread (hx' d hd)).2
  rw [e1]
  show Except.ok (MetricDataset.toVectorOfTuples (metricRun (metricEntries h))) = _
  rw [metricRun_entries]
  rfl

/-- The dataset of the example above loads back as it was. -/
example : (match metricReload (fun i => i = 2) [([1], 0, .posInf), ([1], 1, .negInf), ([2], 0, .nan),
      ([2], 1, .fin (1/4)), ([], 5, .negZero)] with
    | .ok l => decide (l = [([], 5, .negZero), ([1], 0, .posInf), ([1], 1, .negInf), ([2], 0, .nan),
        ([2], 1, .fin (1/4))])
    | .error _ => false) = true := by decide +kernel

/-- Its entries meet the hypothesis. -/
example : ∀ e ∈ metricEntries [([1], 0, .posInf), ([2], 0, .nan), ([2], 1, .fin (1/4)),
    ([], 5, .negZero)], MetricExact e := by
  have e : metricEntries [([1], 0, .posInf), ([2], 0, .nan), ([2], 1, .fin (1/4)), ([], 5, .negZero)] =
      [([], 5, .negZero), ([1], 0, .posInf), ([2], 0, .nan), ([2], 1, .fin (1/4))] := by decide +kernel
  have f1 : ∃ d, SixDigitDecimal d ∧ (1 : ℚ) = rnd32 d ∧
      (d = 0 ∨ (2 * 10 ^ (-37 : ℤ) ≤ |d| ∧ |d| ≤ 9 * 10 ^ (37 : ℤ))) :=
    ⟨1, ⟨1, 0, by norm_num, by norm_num⟩, by decide +kernel, Or.inr (by decide +kernel)⟩
  have f2 : ∃ d, SixDigitDecimal d ∧ (2 : ℚ) = rnd32 d ∧
      (d = 0 ∨ (2 * 10 ^ (-37 : ℤ) ≤ |d| ∧ |d| ≤ 9 * 10 ^ (37 : ℤ))) :=
    ⟨2, ⟨2, 0, by norm_num, by norm_num⟩, by decide +kernel, Or.inr (by decide +kernel)⟩
  have f3 : ∃ d, SixDigitDecimal d ∧ (1/4 : ℚ) = rnd64 d ∧
      (d = 0 ∨ (2 * 10 ^ (-307 : ℤ) ≤ |d| ∧ |d| ≤ 9 * 10 ^ (307 : ℤ))) :=
    ⟨1/4, ⟨25, -2, by norm_num, by norm_num⟩, by decide +kernel, Or.inr (by decide +kernel)⟩
  rw [e]
  intro e he
  simp only [List.mem_cons, List.not_mem_nil, or_false] at he
  rcases he with rfl | rfl | rfl | rfl
  · exact ⟨by simp, by simp, by norm_num, by simp⟩
  · exact ⟨by simp, by simpa using f1, by norm_num, by simp⟩
  · exact ⟨by simp, by simpa using f2, by norm_num, by simp⟩
  · refine ⟨by simp, by simpa using f2, by norm_num, fun q hq => ?_⟩
    cases hq
    exact f3

end Apollo.Props
