import Verif.Proofs.DatasetHist

/-!
# Properties C01–C05: the measurement store

`run h` is the dataset after the calls `insert(features, policy, metric)` of the history `h`, in order,
on an empty dataset.
-/

namespace Apollo.Props

open Apollo Apollo.Spec

/-! ## C01 -/

/-- C01 (value): the entry for `(f, p)` with metric `m` exists iff `m` is the running average of the
metrics inserted for exactly this pair (in particular iff there is at least one such metric). -/
theorem C01_entry_iff (h : List Meas) (f : List ℚ) (p : ℤ) (m : ℚ) :
    (f, p, m) ∈ entries h ↔ runningAverage halfHalf (metricsOf h f p) = some m :=
  mem_entries h f p m

example : runningAverage halfHalf (metricsOf
    [⟨[1], 0, 4⟩, ⟨[2], 0, 100⟩, ⟨[1], 0, 8⟩, ⟨[1], 1, 50⟩, ⟨[1], 0, 2⟩] [1] 0) = some 4 := by
  decide +kernel

/-- C01 (keys): a pair has an entry iff it was inserted. -/
theorem C01_key_iff (h : List Meas) (f : List ℚ) (p : ℤ) :
    (∃ m, (f, p, m) ∈ entries h) ↔ ∃ x ∈ h, x.features = f ∧ x.policy = p := by
  simp only [mem_entries]
  unfold metricsOf
  constructor
  · rintro ⟨m, hm⟩
    cases hf : h.filter (fun x => x.features = f ∧ x.policy = p) with
    | nil => rw [hf] at hm; simp [runningAverage] at hm
    | cons x xs =>
      have : x ∈ h.filter (fun x => x.features = f ∧ x.policy = p) := by rw [hf]; simp
      rw [List.mem_filter] at this
      exact ⟨x, this.1, by simpa using this.2⟩
  · rintro ⟨x, hx, he⟩
    have hm : x ∈ h.filter (fun x => x.features = f ∧ x.policy = p) := by
      rw [List.mem_filter]; exact ⟨hx, by simpa using he⟩
    cases hf : h.filter (fun x => x.features = f ∧ x.policy = p) with
    | nil => rw [hf] at hm; simp at hm
    | cons x xs => exact ⟨_, rfl⟩

/-- C01 (one entry per pair, and `size()` counts the pairs): no two entries share a pair, and the
size is the number of distinct inserted pairs. -/
theorem C01_size (h : List Meas) :
    ((entries h).map fun e => (e.1, e.2.1)).Nodup ∧
    (run h).size = (h.map fun x => (x.features, x.policy)).toFinset.card := by
  have hs := (OMap.sorted_iff _).1 (run_sorted h)
  have hnd : ((entries h).map fun e => (e.1, e.2.1)).Nodup := by
    have : ((run h).map Prod.fst).Nodup := hs.imp (fun h => ne_of_lt h)
    have e : ((entries h).map fun e => (e.1, e.2.1)) = ((run h).map Prod.fst).map ofLex := by
      simp [entries, Dataset.toVectorOfTuples, Function.comp_def]
    rw [e]
    exact this.map (fun a b hab => hab)
  refine ⟨hnd, ?_⟩
  rw [show (run h).size = ((entries h).map fun e => (e.1, e.2.1)).length by
    simp [entries, Dataset.toVectorOfTuples, Dataset.size]]
  rw [← List.toFinset_card_of_nodup hnd]
  congr 1
  ext ⟨f, p⟩
  simp only [List.mem_toFinset, List.mem_map, Prod.mk.injEq]
  have := C01_key_iff h f p
  constructor
  · rintro ⟨⟨f', p', m⟩, hm, rfl, rfl⟩
    exact this.1 ⟨m, hm⟩
  · intro hx
    obtain ⟨m, hm⟩ := this.2 hx
    exact ⟨(f, p, m), hm, rfl, rfl⟩

/-- C01 (independence): measurements of other pairs never influence the entry of a pair. -/
theorem C01_independent (h h' : List Meas) (f : List ℚ) (p : ℤ)
    (heq : h.filter (fun x => x.features = f ∧ x.policy = p) =
      h'.filter (fun x => x.features = f ∧ x.policy = p)) (m : ℚ) :
    (f, p, m) ∈ entries h ↔ (f, p, m) ∈ entries h' := by
  rw [mem_entries, mem_entries]; unfold metricsOf; rw [heq]

example : ([⟨[1], 0, 4⟩, ⟨[2], 0, 100⟩, ⟨[1], 0, 8⟩] : List Meas).filter
      (fun x => x.features = [1] ∧ x.policy = 0) =
    ([⟨[1], 0, 4⟩, ⟨[1], 0, 8⟩, ⟨[1], 1, 3⟩] : List Meas).filter
      (fun x => x.features = [1] ∧ x.policy = 0) := by decide +kernel

/-! ## C02 -/

/-- C02: the stored metric of a pair lies between the least and the greatest metric inserted for the
pair, for all histories whose metrics for the pair are zero or of magnitude at least 2^-1021. -/
theorem C02_between_min_max (h : List Meas) (f : List ℚ) (p : ℤ) (m : ℚ)
    (hnorm : ∀ x ∈ h, x.features = f → x.policy = p → NormalMetric x.metric)
    (hm : (f, p, m) ∈ entries h) :
    ∃ lo ∈ metricsOf h f p, ∃ hi ∈ metricsOf h f p,
      (∀ x ∈ metricsOf h f p, lo ≤ x ∧ x ≤ hi) ∧ lo ≤ m ∧ m ≤ hi := by
  rw [mem_entries] at hm
  have hn : ∀ x ∈ metricsOf h f p, NormalMetric x := by
    intro x hx
    unfold metricsOf at hx
    simp only [List.mem_map, List.mem_filter, decide_eq_true_eq] at hx
    obtain ⟨y, ⟨hy, h1, h2⟩, rfl⟩ := hx
    exact hnorm y hy h1 h2
  generalize metricsOf h f p = ms at hm hn
  cases ms with
  | nil => simp [runningAverage] at hm
  | cons a ms =>
    simp only [runningAverage, Option.some.injEq] at hm
    obtain ⟨lo, hlo, hlo'⟩ := exists_least a ms
    obtain ⟨hi, hhi, hhi'⟩ := exists_greatest a ms
    refine ⟨lo, hlo, hi, hhi, fun x hx => ⟨hlo' x hx, hhi' x hx⟩, ?_⟩
    rw [← hm]
    exact foldl_ema_between (hn lo hlo) (hn hi hhi) ms a ⟨hlo' a (by simp), hhi' a (by simp)⟩
      (fun x hx => ⟨hlo' x (List.mem_cons_of_mem _ hx), hhi' x (List.mem_cons_of_mem _ hx)⟩)

example : ∀ x ∈ ([⟨[1], 0, 4⟩, ⟨[1], 0, 3/2⟩, ⟨[2], 7, 1/2^1074⟩] : List Meas),
    x.features = [1] → x.policy = 0 → NormalMetric x.metric := by
  intro x hx h1 h2
  simp only [List.mem_cons, List.not_mem_nil, or_false] at hx
  rcases hx with rfl | rfl | rfl
  · exact ⟨⟨4, 0, by norm_num, by norm_num, by norm_num⟩, Or.inr (by decide +kernel)⟩
  · exact ⟨⟨3, -1, by norm_num, by norm_num, by norm_num⟩, Or.inr (by decide +kernel)⟩
  · simp at h1

/-- C02, limit of the claim: for metrics below 2^-1021 it fails.  Inserting the least positive double
twice stores 0, which is below every inserted metric. -/
theorem C02_fails_for_subnormals :
    ∃ (h : List Meas) (f : List ℚ) (p : ℤ) (m : ℚ),
      (∀ x ∈ h, Float64 x.metric ∧ 0 < x.metric) ∧ (f, p, m) ∈ entries h ∧
      ∀ x ∈ metricsOf h f p, m < x := by
  refine ⟨[⟨[], 0, 2 ^ (-1074 : ℤ)⟩, ⟨[], 0, 2 ^ (-1074 : ℤ)⟩], [], 0, 0, ?_, ?_, ?_⟩
  · intro x hx
    simp only [List.mem_cons, List.not_mem_nil, or_false] at hx
    rcases hx with rfl | rfl <;>
      exact ⟨⟨1, -1074, by norm_num, le_refl _, by simp⟩, two_zpow_pos _⟩
  · decide +kernel
  · decide +kernel

/-- C01/C02: for metrics of at least 2^-1021 each update stores the correctly rounded mean
`(old + new) / 2` (a single rounding). -/
theorem C01_update_is_rounded_mean (h : List Meas) (f : List ℚ) (p : ℤ)
    (hnorm : ∀ x ∈ h, x.features = f → x.policy = p →
      Float64 x.metric ∧ 2 ^ (-1021 : ℤ) ≤ x.metric) (m : ℚ) :
    (f, p, m) ∈ entries h ↔ runningAverage roundedMean (metricsOf h f p) = some m := by
  rw [mem_entries]
  have hn : ∀ x ∈ metricsOf h f p, Float64 x ∧ 2 ^ (-1021 : ℤ) ≤ x := by
    intro x hx
    unfold metricsOf at hx
    simp only [List.mem_map, List.mem_filter, decide_eq_true_eq] at hx
    obtain ⟨y, ⟨hy, h1, h2⟩, rfl⟩ := hx
    exact hnorm y hy h1 h2
  rw [runningAverage_halfHalf_eq _ hn]

example : ∀ x ∈ ([⟨[1], 0, 4⟩, ⟨[1], 0, 3⟩] : List Meas),
    x.features = [1] → x.policy = 0 → Float64 x.metric ∧ 2 ^ (-1021 : ℤ) ≤ x.metric := by
  intro x hx h1 h2
  simp only [List.mem_cons, List.not_mem_nil, or_false] at hx
  rcases hx with rfl | rfl
  · exact ⟨⟨4, 0, by norm_num, by norm_num, by norm_num⟩, by decide +kernel⟩
  · exact ⟨⟨3, 0, by norm_num, by norm_num, by norm_num⟩, by decide +kernel⟩

/-! ## C03 -/

/-- C03 (order): entries are listed strictly increasing in (features, policy). -/
theorem C03_strictly_increasing (h : List Meas) :
    ((entries h).map fun e => (e.1, e.2.1)).Pairwise KeyLt := by
  have hs := (OMap.sorted_iff _).1 (run_sorted h)
  have e : ((entries h).map fun e => (e.1, e.2.1)) = ((run h).map Prod.fst).map ofLex := by
    simp [entries, Dataset.toVectorOfTuples, Function.comp_def]
  rw [e, List.pairwise_map]
  refine hs.imp ?_
  intro a b hab
  rw [Prod.Lex.lt_iff] at hab
  exact hab

/-- C03 (canonical): the listed pairs depend only on which pairs were inserted. -/
theorem C03_depends_only_on_pairs (h h' : List Meas)
    (hset : ∀ f p, (∃ x ∈ h, x.features = f ∧ x.policy = p) ↔
      (∃ x ∈ h', x.features = f ∧ x.policy = p)) :
    (entries h).map (fun e => (e.1, e.2.1)) = (entries h').map (fun e => (e.1, e.2.1)) := by
  have key : ∀ h : List Meas,
      ((entries h).map fun e => (e.1, e.2.1)) = ((run h).map Prod.fst).map ofLex := by
    intro h; simp [entries, Dataset.toVectorOfTuples, Function.comp_def]
  rw [key, key]
  congr 1
  refine OMap.eq_of_sorted_of_mem ((OMap.sorted_iff _).1 (run_sorted h))
    ((OMap.sorted_iff _).1 (run_sorted h')) ?_
  intro k
  have mem : ∀ h : List Meas, k ∈ (run h).map Prod.fst ↔
      ∃ x ∈ h, x.features = (ofLex k).1 ∧ x.policy = (ofLex k).2 := by
    intro h
    rw [← C01_key_iff]
    unfold entries
    simp only [Dataset.mem_toVector, Dataset.mkKey_ofLex, List.mem_map, Prod.exists,
      exists_and_right, exists_eq_right]
  rw [mem, mem, hset]

/-- C03 (permutations): reordering the insertions does not change the listed pairs. -/
theorem C03_permutation (h h' : List Meas) (hp : h.Perm h') :
    (entries h).map (fun e => (e.1, e.2.1)) = (entries h').map (fun e => (e.1, e.2.1)) :=
  C03_depends_only_on_pairs h h' (fun f p => by simp [hp.mem_iff])

example : ([⟨[1], 0, 4⟩, ⟨[2], 0, 3⟩] : List Meas).Perm [⟨[2], 0, 3⟩, ⟨[1], 0, 4⟩] :=
  List.Perm.swap _ _ _

/-! ## C04 -/

/-- C04: the result of the best-policy reduction of the dataset after history `h`. -/
theorem C04_best_policy (h : List Meas) :
    ∀ F P M, Dataset.findMinMetricPolicyByFeatures (run h) = (F, P, M) →
      F.Pairwise (· < ·) ∧
      (∀ f, f ∈ F ↔ ∃ x ∈ h, x.features = f) ∧
      F.length = P.length ∧
      (∀ f p, (f, p) ∈ F.zip P ↔ IsBest (entries h) f p) ∧
      M.map (fun b => (b.1, b.2.1)) = F.zip P ∧
      (∀ f p m, (f, (p, m)) ∈ M → (f, p, m) ∈ entries h) := by
  intro F P M he
  have hs := run_sorted h
  have inv := Dataset.bestInv_bestPolicies hs
  simp only [Dataset.findMinMetricPolicyByFeatures, Prod.mk.injEq] at he
  obtain ⟨rfl, rfl, rfl⟩ := he
  have hzip : ((Dataset.bestPolicies (run h)).map fun b => b.1).zip
      ((Dataset.bestPolicies (run h)).map fun b => b.2.1) =
      (Dataset.bestPolicies (run h)).map (fun b => (b.1, b.2.1)) := by
    rw [List.zip_map', ]
  refine ⟨(OMap.sorted_iff _).1 inv.sorted, ?_, by simp, ?_, hzip.symm, ?_⟩
  · intro f
    have h1 := Dataset.mem_bestPolicies_keys hs f
    have h2 : (∃ p m, (mkKey f p, m) ∈ run h) ↔ ∃ x ∈ h, x.features = f := by
      constructor
      · rintro ⟨p, m, hm⟩
        obtain ⟨x, hx, hf, _⟩ := (C01_key_iff h f p).1 ⟨m, Dataset.mem_toVector.2 hm⟩
        exact ⟨x, hx, hf⟩
      · rintro ⟨x, hx, hf⟩
        obtain ⟨m, hm⟩ := (C01_key_iff h f x.policy).2 ⟨x, hx, hf, rfl⟩
        exact ⟨x.policy, m, Dataset.mem_toVector.1 hm⟩
    exact h1.trans h2
  · intro f p
    rw [hzip]
    simp only [List.mem_map, Prod.mk.injEq, Prod.exists]
    constructor
    · rintro ⟨f', p', m, hm, rfl, rfl⟩
      rw [← inv.sorted.find_eq_some_iff, Dataset.best_iff hs] at hm
      exact hm.1
    · intro hb
      obtain ⟨m, hm, hall⟩ := hb
      refine ⟨f, p, m, ?_, rfl, rfl⟩
      rw [← inv.sorted.find_eq_some_iff, Dataset.best_iff hs, hs.find_eq_some_iff]
      exact ⟨⟨m, hm, hall⟩, Dataset.mem_toVector.1 hm⟩
  · intro f p m hm
    rw [← inv.sorted.find_eq_some_iff, Dataset.best_iff hs, hs.find_eq_some_iff] at hm
    exact Dataset.mem_toVector.2 hm.2

/-- A tie: policies 1 and 2 have the same metric for features [5]; policy 1 is reported. -/
example : Dataset.findMinMetricPolicyByFeatures
    (run [⟨[5], 2, 3⟩, ⟨[5], 1, 3⟩, ⟨[5], 0, 4⟩, ⟨[4], 7, 9⟩]) =
    ([[4], [5]], [7, 1], [([4], (7, 9)), ([5], (1, 3))]) := by decide +kernel

/-! ## C05 -/

/-- C05 (merge): `A.insert(B)`. -/
theorem C05_merge (hA hB : List Meas) (f : List ℚ) (p : ℤ) (m : ℚ) :
    (f, p, m) ∈ Dataset.toVectorOfTuples (Dataset.merge (run hA) (run hB)) ↔
      ((f, p, m) ∈ entries hA ∧ ¬ ∃ b, (f, p, b) ∈ entries hB) ∨
      ((f, p, m) ∈ entries hB ∧ ¬ ∃ a, (f, p, a) ∈ entries hA) ∨
      (∃ a b, (f, p, a) ∈ entries hA ∧ (f, p, b) ∈ entries hB ∧ m = halfHalf a b) := by
  have hs := Dataset.sorted_merge (run_sorted hA) (run hB)
  unfold entries
  simp only [Dataset.mem_toVector]
  simp only [← hs.find_eq_some_iff, ← (run_sorted hA).find_eq_some_iff,
    ← (run_sorted hB).find_eq_some_iff]
  rw [Dataset.find_merge (run_sorted hA) (run_sorted hB), ema_eq_halfHalf]
  cases OMap.find (run hA) (mkKey f p) <;> cases OMap.find (run hB) (mkKey f p) <;>
    simp [eq_comm]

/-- C05 (idempotence): merging a dataset into itself changes nothing, when the stored metrics are zero
or of magnitude at least 2^-1021. -/
theorem C05_merge_self (h : List Meas)
    (hn : ∀ e ∈ entries h, NormalMetric e.2.2) :
    Dataset.merge (run h) (run h) = run h := by
  refine OMap.ext_of_find (Dataset.sorted_merge (run_sorted h) _) (run_sorted h) ?_
  intro k
  rw [Dataset.find_merge (run_sorted h) (run_sorted h)]
  cases hf : OMap.find (run h) k with
  | none => rfl
  | some a =>
    simp only
    rw [(run_sorted h).find_eq_some_iff] at hf
    have := hn ((ofLex k).1, (ofLex k).2, a) (Dataset.mem_toVector.2 hf)
    rw [Dataset.ema_self this.1 (Dataset.float64_half this.1 this.2)]

/-- The hypothesis of `C05_merge_self` holds whenever all metrics are doubles of at least 2^-1021. -/
theorem C05_stored_normal (h : List Meas)
    (hn : ∀ x ∈ h, Float64 x.metric ∧ 2 ^ (-1021 : ℤ) ≤ x.metric) :
    ∀ e ∈ entries h, NormalMetric e.2.2 := by
  rintro ⟨f, p, m⟩ he
  rw [mem_entries] at he
  refine normal_of_runningAverage _ ?_ m he
  intro x hx
  unfold metricsOf at hx
  simp only [List.mem_map, List.mem_filter, decide_eq_true_eq] at hx
  obtain ⟨y, ⟨hy, h1, h2⟩, rfl⟩ := hx
  exact hn y hy

example : ∀ x ∈ ([⟨[1], 0, 4⟩, ⟨[1], 0, 3⟩] : List Meas),
    Float64 x.metric ∧ 2 ^ (-1021 : ℤ) ≤ x.metric := by
  intro x hx
  simp only [List.mem_cons, List.not_mem_nil, or_false] at hx
  rcases hx with rfl | rfl
  · exact ⟨⟨4, 0, by norm_num, by norm_num, by norm_num⟩, by decide +kernel⟩
  · exact ⟨⟨3, 0, by norm_num, by norm_num, by norm_num⟩, by decide +kernel⟩

end Apollo.Props
