import Verif.Proofs.MetricLayout
import Verif.Props.AnyMetricIO

/-!
# C128: the layout of a dataset file with any metrics

As C126, for files in which the metrics are any doubles.
-/

namespace Apollo.Props

open Apollo Apollo.Spec

/-- The finite numbers of an entry are in the normal ranges of their types. -/
structure MetricFileEntryInRange (e : MetricFileEntry) : Prop where
  idx : -2 ^ 31 ≤ e.1 ∧ e.1 < 2 ^ 31
  feat : ∀ x ∈ e.2.1, x = 0 ∨ (10 ^ (-37 : ℤ) ≤ |x| ∧ |x| ≤ 10 ^ (38 : ℤ))
  pol : -2 ^ 31 ≤ e.2.2.1 ∧ e.2.2.1 < 2 ^ 31
  metric : ∀ q, e.2.2.2.2 = .fin q → q = 0 ∨ (10 ^ (-307 : ℤ) ≤ |q| ∧ |q| ≤ 10 ^ (308 : ℤ))

theorem metricFileEntryOk {e : MetricFileEntry} (h : MetricFileEntryInRange e) :
    MetricDataset.FileEntryOk e := by
  refine ⟨h.idx, h.feat, h.pol, ?_⟩
  have h4 := h.metric
  cases hm : e.2.2.2.2 with
  | fin q => exact h4 q hm
  | _ => trivial

/-- C128: a file in which every feature is a word of its own and the metrics are any doubles is loaded
without error, whatever white space stands between the words and however many features there are.  The
dataset is the one after inserting the entries in the order of the file; infinite, NaN and negative zero
metrics are kept, the numbers of the entries do not matter. -/
theorem C128_layout (es : List MetricFileEntry) (hr : ∀ e ∈ es, MetricFileEntryInRange e)
    (text : List Char) (hl : LaidOut (metricWords es) text) :
    ∃ h, List.Forall₂ MetricCopy (es.map fun e => (e.2.1, e.2.2.1, e.2.2.2.2)) h ∧
      ∃ ds, MetricDataset.load [] text = .ok ds ∧
        MetricDataset.toVectorOfTuples ds = metricEntries h := by
  rw [MetricDataset.fileWords_eq] at hl
  refine ⟨es.map MetricDataset.readEntry, ?_, _,
    MetricDataset.load_laidOut (fun e he => metricFileEntryOk (hr e he)) hl [], rfl⟩
  rw [List.forall₂_map_left_iff, List.forall₂_map_right_iff, List.forall₂_same]
  intro e _
  refine ⟨?_, rfl, ?_⟩
  · show List.Forall₂ _ e.2.1 (e.2.1.map fun x => rnd32 (round6 x))
    rw [List.forall₂_map_right_iff, List.forall₂_same]
    exact fun x _ => ⟨round6 x, ⟨sixDigits_round6 _, fun d' hd' => round6_nearest _ d' hd'⟩, rfl⟩
  · show DoubleCopy e.2.2.2.2 (rereadAnyDouble e.2.2.2.2)
    cases e.2.2.2.2 with
    | fin q => exact ⟨round6 q, ⟨sixDigits_round6 _, fun d' hd' => round6_nearest _ d' hd'⟩, rfl⟩
    | _ => rfl

/-- Two entries with two features, one without. -/
example : ∀ e ∈ ([(7, [1, 1/4], 2, false, .posInf), (7, [1, 1/4], 3, true, .nan),
    (-1, [], 0, false, .fin (1/2))] : List MetricFileEntry), MetricFileEntryInRange e := by
  have f : ∀ x ∈ ([1, 1/4] : List ℚ), x = 0 ∨ (10 ^ (-37 : ℤ) ≤ |x| ∧ |x| ≤ 10 ^ (38 : ℤ)) := by
    intro x hx
    simp only [List.mem_cons, List.not_mem_nil, or_false] at hx
    rcases hx with rfl | rfl <;> exact Or.inr (by decide +kernel)
  intro e he
  simp only [List.mem_cons, List.not_mem_nil, or_false] at he
  rcases he with rfl | rfl | rfl
  · exact ⟨by norm_num, f, by norm_num, by simp⟩
  · exact ⟨by norm_num, f, by norm_num, by simp⟩
  · refine ⟨by norm_num, by simp, by norm_num, fun q hq => ?_⟩
    cases hq
    exact Or.inr (by decide +kernel)

example : LaidOut (metricWords [(7, [1, 1/4], 2, false, .posInf), (7, [1, 1/4], 3, true, .nan),
      (-1, [], 0, false, .fin (1/2))])
    ("data: {\n7: { features: [ 1,\t0.25, ], policy: 2, xtime: inf },\n" ++
      "7: { features: [ 1,\n0.25, ], policy: 3, xtime: -nan },\n" ++
      "-1: { features: [ ], policy: 0, xtime: 0.5 },\n}\n").toList := by
  refine ⟨[], [" ", "\n", " ", " ", " ", " ", "\t", " ", " ", " ", " ", " ", " ", "\n",
    " ", " ", " ", " ", "\n", " ", " ", " ", " ", " ", " ", "\n",
    " ", " ", " ", " ", " ", " ", " ", " ", " ", "\n", "\n"].map String.toList, by simp,
    by decide +kernel, ?_, by decide +kernel⟩
  have : ([" ", "\n", " ", " ", " ", " ", "\t", " ", " ", " ", " ", " ", " ", "\n",
    " ", " ", " ", " ", "\n", " ", " ", " ", " ", " ", " ", "\n",
    " ", " ", " ", " ", " ", " ", " ", " ", " ", "\n", "\n"].map String.toList).all
      (fun g => g ≠ [] && g.all (· ∈ whiteSpace)) = true := by decide +kernel
  intro g hg
  have h1 := List.all_eq_true.1 this g hg
  simpa [IsGap] using h1

/-- What the dataset shows after loading this file. -/
example : (match MetricDataset.load []
    ("data: {\n7: { features: [ 1,\t0.25, ], policy: 2, xtime: inf },\n" ++
      "7: { features: [ 1,\n0.25, ], policy: 3, xtime: -nan },\n" ++
      "-1: { features: [ ], policy: 0, xtime: 0.5 },\n}\n").toList with
    | .ok ds => decide (MetricDataset.toVectorOfTuples ds =
        [([], 0, .fin (1/2)), ([1, 1/4], 2, .posInf), ([1, 1/4], 3, .nan)])
    | .error _ => false) = true := by decide +kernel

/-- Entries of the same features and policy are averaged in the order of the file; an infinite one stays. -/
example : (match MetricDataset.load []
    ("data: { 0: { features: [ 1, 2, ], policy: 0, xtime: 8 }, 1: { features: [ 1, 2, ], policy: 0, xtime: 4 }, " ++
      "1: { features: [ 1, 2, ], policy: 0, xtime: 4 }, 2: { features: [ 1, 3, ], policy: 0, xtime: 4 }, 3: { features: [ 1, 3, ], policy: 0, xtime: -inf }, }\n").toList with
    | .ok ds => MetricDataset.toVectorOfTuples ds
    | .error _ => []) = metricEntries [([1, 2], 0, .fin 8), ([1, 2], 0, .fin 4), ([1, 2], 0, .fin 4), ([1, 3], 0, .fin 4),
        ([1, 3], 0, .negInf)] ∧
    metricEntries [([1, 2], 0, .fin 8), ([1, 2], 0, .fin 4), ([1, 2], 0, .fin 4)] ≠
      metricEntries [([1, 2], 0, .fin 4), ([1, 2], 0, .fin 4), ([1, 2], 0, .fin 8)] := by decide +kernel

end Apollo.Props
