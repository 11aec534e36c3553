import Verif.Model.AnyMetric
import Verif.Proofs.AnyFloat

/-! Helper lemmas about datasets whose metrics are any doubles. -/

namespace Apollo

open Spec

/-! ## The running average -/

theorem sorted_metricRun (h : List MetricMeas) : OMap.Sorted (metricRun h) := by
  unfold metricRun
  induction h using List.reverseRecOn with
  | nil => exact OMap.sorted_nil
  | append_singleton h x ih =>
    rw [List.foldl_append]
    exact ih.upsert _ _

/-- One more metric. -/
def combineAny (o : Option AnyFloat) (m : AnyFloat) : Option AnyFloat :=
  some (match o with
    | none => m
    | some old => AnyDouble.ema old m)

theorem find_metricRun (h : List MetricMeas) (f : List ℚ) (p : ℤ) :
    OMap.find (metricRun h) (mkKey f p) = (allMetricsOf h f p).foldl combineAny none := by
  induction h using List.reverseRecOn with
  | nil => rfl
  | append_singleton h x ih =>
    have e : metricRun (h ++ [x]) = MetricDataset.insert (metricRun h) x.1 x.2.1 x.2.2 := by
      simp [metricRun]
    have hk : (mkKey f p = mkKey x.1 x.2.1) ↔ x.1 = f ∧ x.2.1 = p := by
      rw [mkKey, mkKey, toLex_inj, Prod.mk.injEq]
      exact and_congr eq_comm eq_comm
    rw [e, MetricDataset.insert, OMap.find_upsert_of_sorted (sorted_metricRun h)]
    unfold allMetricsOf at ih ⊢
    rw [List.filter_append, List.map_append, List.foldl_append]
    by_cases hc : x.1 = f ∧ x.2.1 = p
    · rw [if_pos (hk.2 hc), ← hk.2 hc, ih, List.filter_singleton, decide_eq_true hc]
      simp only [cond_true, List.map_singleton, List.foldl_cons, List.foldl_nil, combineAny]
      rfl
    · rw [if_neg fun h => hc (hk.1 h), ih, List.filter_singleton, decide_eq_false hc]
      rfl

theorem ema_nan (a b : AnyFloat) : AnyDouble.ema a b = .nan ↔
    (a = .nan ∨ b = .nan) ∨ (a = .posInf ∧ b = .negInf) ∨ (a = .negInf ∧ b = .posInf) := by
  cases a <;> cases b <;> simp [AnyDouble.ema, AnyDouble.half, AnyDouble.add]

theorem ema_posInf (a b : AnyFloat) : AnyDouble.ema a b = .posInf ↔
    (a = .posInf ∨ b = .posInf) ∧ a ≠ .nan ∧ b ≠ .nan ∧ a ≠ .negInf ∧ b ≠ .negInf := by
  cases a <;> cases b <;> simp [AnyDouble.ema, AnyDouble.half, AnyDouble.add]

theorem ema_negInf (a b : AnyFloat) : AnyDouble.ema a b = .negInf ↔
    (a = .negInf ∨ b = .negInf) ∧ a ≠ .nan ∧ b ≠ .nan ∧ a ≠ .posInf ∧ b ≠ .posInf := by
  cases a <;> cases b <;> simp [AnyDouble.ema, AnyDouble.half, AnyDouble.add]

theorem ema_fin (a b : ℚ) : AnyDouble.ema (.fin a) (.fin b) = .fin (halfHalf a b) := by
  simp only [AnyDouble.ema, AnyDouble.half, AnyDouble.add, AnyFloat.value, halfHalf]
  rw [show 1 / 2 * a = a / 2 by ring, show 1 / 2 * b = b / 2 by ring]

/-- One more metric `x`, where `A`, `B` and `C` say whether NaN and the infinities were among the ones
before. -/
theorem ema_kinds {A B C : Prop} {r : AnyFloat} (h2 : r = .nan ↔ A ∨ (B ∧ C))
    (h3 : r = .posInf ↔ B ∧ ¬ C ∧ ¬ A) (h4 : r = .negInf ↔ C ∧ ¬ B ∧ ¬ A) (x : AnyFloat) :
    (AnyDouble.ema r x = .nan ↔ (A ∨ AnyFloat.nan = x) ∨
      ((B ∨ AnyFloat.posInf = x) ∧ (C ∨ AnyFloat.negInf = x))) ∧
    (AnyDouble.ema r x = .posInf ↔ (B ∨ AnyFloat.posInf = x) ∧ ¬ (C ∨ AnyFloat.negInf = x) ∧
      ¬ (A ∨ AnyFloat.nan = x)) ∧
    (AnyDouble.ema r x = .negInf ↔ (C ∨ AnyFloat.negInf = x) ∧ ¬ (B ∨ AnyFloat.posInf = x) ∧
      ¬ (A ∨ AnyFloat.nan = x)) := by
  rw [ema_nan, ema_posInf, ema_negInf]
  simp only [Ne, h2, h3, h4]
  clear h2 h3 h4
  by_cases hA : A <;> by_cases hB : B <;> by_cases hC : C <;> cases x <;> simp [hA, hB, hC]

theorem averageOf_foldl (m : AnyFloat) (ms : List AnyFloat) :
    ∃ r, ms.foldl combineAny (some m) = some r ∧ AverageOf (m :: ms) r := by
  induction ms using List.reverseRecOn with
  | nil =>
    refine ⟨m, rfl, ⟨?_, ?_, ?_, ?_⟩⟩
    · cases m <;> simp
    · cases m <;> simp
    · cases m <;> simp
    · intro qs hq
      match qs, hq with
      | [q], hq => exact ⟨q, rfl, by simpa using hq⟩
  | append_singleton ms x ih =>
    obtain ⟨r, h1, h2, h3, h4, h5⟩ := ih
    refine ⟨AnyDouble.ema r x, ?_, ⟨?_, ?_, ?_, ?_⟩⟩
    · rw [List.foldl_append, h1]; rfl
    · simp only [← List.cons_append, List.mem_append, List.mem_singleton]
      exact (ema_kinds h2 h3 h4 x).1
    · simp only [← List.cons_append, List.mem_append, List.mem_singleton]
      exact (ema_kinds h2 h3 h4 x).2.1
    · simp only [← List.cons_append, List.mem_append, List.mem_singleton]
      exact (ema_kinds h2 h3 h4 x).2.2
    · intro qs hq
      rw [← List.cons_append] at hq
      obtain ⟨l1, l2, rfl, h6, h7⟩ := List.append_eq_map_iff.1 hq
      obtain ⟨b, rfl, hb⟩ : ∃ b, l2 = [b] ∧ AnyFloat.fin b = x := by
        match l2, h7 with
        | [b], h7 => exact ⟨b, rfl, by simpa using h7⟩
      obtain ⟨q, h8, rfl⟩ := h5 l1 h6.symm
      refine ⟨halfHalf q b, ?_, ?_⟩
      · rw [runningAverage_snoc, h8]
      · rw [← hb, ema_fin]

/-! ## The best policy -/

/-- The place of a metric that is not NaN. -/
def place (m : AnyFloat) : WithBot (WithTop ℚ) := (num m).getD ⊥

theorem notGreater_iff {m m' : AnyFloat} (h : m ≠ .nan) (h' : m' ≠ .nan) :
    NotGreater m m' ↔ place m ≤ place m' := by
  unfold NotGreater place
  cases m <;> cases m' <;> simp_all [num]

/-- The loop for one feature vector. -/
def pick : Option (ℤ × AnyFloat) → ℤ × AnyFloat → Option (ℤ × AnyFloat)
  | none, x => some x
  | some prev, x => if x.2.lt prev.2 then some x else some prev

/-- The entries for one feature vector. -/
def group (f : Features) (ds : MetricDataset) : List (ℤ × AnyFloat) :=
  (ds.filter fun d => (ofLex d.1).1 = f).map fun d => ((ofLex d.1).2, d.2)

theorem sorted_bestStep {best : OMap Features (ℤ × AnyFloat)} (h : best.Sorted) (d : Key × AnyFloat) :
    (MetricDataset.bestStep best d).Sorted := by
  unfold MetricDataset.bestStep
  simp only
  split
  · exact h.upsert _ _
  · split
    · exact h.upsert _ _
    · exact h

theorem find_bestStep {best : OMap Features (ℤ × AnyFloat)} (h : best.Sorted) (d : Key × AnyFloat)
    (f : Features) : OMap.find (MetricDataset.bestStep best d) f =
      if (ofLex d.1).1 = f then pick (OMap.find best f) ((ofLex d.1).2, d.2)
      else OMap.find best f := by
  unfold MetricDataset.bestStep
  simp only
  by_cases hf : (ofLex d.1).1 = f
  · subst hf
    rw [if_pos rfl]
    cases hx : OMap.find best (ofLex d.1).1 with
    | none => simp only [OMap.find_insertNew h, hx]; rfl
    | some prev =>
      simp only [pick]
      split
      · rw [OMap.find_assign h]; simp
      · exact hx
  · rw [if_neg hf]
    split
    · rw [OMap.find_insertNew h, if_neg (Ne.symm hf)]
    · split
      · rw [OMap.find_assign h, if_neg (Ne.symm hf)]
      · rfl

theorem find_best (ds : MetricDataset) (best : OMap Features (ℤ × AnyFloat)) (h : best.Sorted)
    (f : Features) : (ds.foldl MetricDataset.bestStep best).Sorted ∧
      OMap.find (ds.foldl MetricDataset.bestStep best) f =
        (group f ds).foldl pick (OMap.find best f) := by
  induction ds generalizing best with
  | nil => exact ⟨h, rfl⟩
  | cons d ds ih =>
    obtain ⟨h1, h2⟩ := ih _ (sorted_bestStep h d)
    refine ⟨h1, ?_⟩
    rw [List.foldl_cons, h2, find_bestStep h]
    unfold group
    by_cases hf : (ofLex d.1).1 = f
    · rw [if_pos hf, List.filter_cons_of_pos (by simpa using hf)]; rfl
    · rw [if_neg hf, List.filter_cons_of_neg (by simpa using hf)]

theorem sorted_group {ds : MetricDataset} (h : OMap.Sorted ds) (f : Features) :
    (group f ds).Pairwise fun a b => a.1 < b.1 := by
  unfold group
  rw [List.pairwise_map]
  have h1 : (ds.filter fun d => (ofLex d.1).1 = f).Pairwise fun a b => a.1 < b.1 :=
    List.Pairwise.sublist List.filter_sublist h
  refine h1.imp_of_mem fun {a b} ha hb hab => ?_
  have ha' : (ofLex a.1).1 = f := by simpa using (List.mem_filter.1 ha).2
  have hb' : (ofLex b.1).1 = f := by simpa using (List.mem_filter.1 hb).2
  rw [Prod.Lex.lt_iff] at hab
  rcases hab with h | h
  · rw [ha', hb'] at h; exact absurd h (lt_irrefl _)
  · exact h.2

theorem mem_group {h : List MetricMeas} {f : Features} {p : ℤ} {m : AnyFloat} :
    (p, m) ∈ group f (metricRun h) ↔ (f, p, m) ∈ metricEntries h := by
  unfold group metricEntries MetricDataset.toVectorOfTuples
  simp only [List.mem_map, List.mem_filter, decide_eq_true_eq, Prod.mk.injEq]
  constructor
  · rintro ⟨d, ⟨hd, rfl⟩, rfl, rfl⟩
    exact ⟨d, hd, rfl, rfl, rfl⟩
  · rintro ⟨d, hd, rfl, rfl, rfl⟩
    exact ⟨d, ⟨hd, rfl⟩, rfl, rfl⟩

/-- If the first metric is NaN, then nothing is less. -/
theorem pick_nan (p : ℤ) (l : List (ℤ × AnyFloat)) :
    l.foldl pick (some (p, .nan)) = some (p, .nan) := by
  induction l with
  | nil => rfl
  | cons x l ih =>
    rw [List.foldl_cons]
    have : x.2.lt .nan = false := by cases x.2 <;> rfl
    simp only [pick, this]
    exact ih

/-- Otherwise the first one of the least metrics is found. -/
theorem pick_number (x : ℤ × AnyFloat) (hx : x.2 ≠ .nan) (l : List (ℤ × AnyFloat))
    (hs : (x :: l).Pairwise fun a b => a.1 < b.1) :
    ∃ r, l.foldl pick (some x) = some r ∧ r ∈ x :: l ∧ r.2 ≠ .nan ∧
      ∀ y ∈ x :: l, y.2 ≠ .nan → place r.2 ≤ place y.2 ∧ (place y.2 ≤ place r.2 → r.1 ≤ y.1) := by
  induction l using List.reverseRecOn with
  | nil => exact ⟨x, rfl, by simp, hx, fun y hy _ => by simp at hy; subst hy; simp⟩
  | append_singleton l y ih =>
    rw [← List.cons_append, List.pairwise_append] at hs
    obtain ⟨r, h1, h2, h3, h4⟩ := ih hs.1
    have hlt : r.1 < y.1 := hs.2.2 r h2 y (by simp)
    rw [List.foldl_append, h1]
    simp only [List.foldl_cons, List.foldl_nil, pick]
    by_cases hy : y.2 = .nan
    · have : y.2.lt r.2 = false := by rw [hy]; cases r.2 <;> rfl
      rw [this]
      refine ⟨r, rfl, by rw [← List.cons_append]; exact List.mem_append_left _ h2, h3, ?_⟩
      intro z hz hzn
      rw [← List.cons_append, List.mem_append, List.mem_singleton] at hz
      rcases hz with hz | rfl
      · exact h4 z hz hzn
      · exact absurd hy hzn
    · have hl : y.2.lt r.2 = decide (place y.2 < place r.2) := lt_eq hy h3
      by_cases hc : place y.2 < place r.2
      · rw [hl, decide_eq_true hc]
        refine ⟨y, rfl, by simp, hy, ?_⟩
        intro z hz hzn
        rw [← List.cons_append, List.mem_append, List.mem_singleton] at hz
        rcases hz with hz | rfl
        · have := (h4 z hz hzn).1
          exact ⟨hc.le.trans this, fun h => absurd (this.trans h) (not_le.2 hc)⟩
        · exact ⟨le_rfl, fun _ => le_rfl⟩
      · rw [hl, decide_eq_false hc]
        refine ⟨r, rfl, by rw [← List.cons_append]; exact List.mem_append_left _ h2, h3, ?_⟩
        intro z hz hzn
        rw [← List.cons_append, List.mem_append, List.mem_singleton] at hz
        rcases hz with hz | rfl
        · exact h4 z hz hzn
        · exact ⟨not_lt.1 hc, fun _ => hlt.le⟩

theorem mem_metricBest {h : List MetricMeas} {f : Features} {p : ℤ} :
    (f, p) ∈ metricBest h ↔ ∃ m, (group f (metricRun h)).foldl pick none = some (p, m) := by
  obtain ⟨h1, h2⟩ := find_best (metricRun h) [] OMap.sorted_nil f
  change _ = (group f (metricRun h)).foldl pick none at h2
  rw [← h2]
  unfold metricBest MetricDataset.findMinMetricPolicyByFeatures
  simp only
  rw [List.zip_map', List.mem_map]
  constructor
  · rintro ⟨b, hb, he⟩
    simp only [Prod.mk.injEq] at he
    obtain ⟨rfl, rfl⟩ := he
    exact ⟨b.2.2, (h1.find_eq_some_iff _ _).2 hb⟩
  · rintro ⟨m, hm⟩
    exact ⟨_, (h1.find_eq_some_iff _ _).1 hm, rfl⟩

end Apollo
