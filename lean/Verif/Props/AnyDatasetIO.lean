import Verif.Proofs.AnyDatasetRT
import Verif.Props.DatasetIO

/-!
# C124: dataset files whose features are any floats

`anyReload balance neg h` is what a dataset shows that was loaded from the file of the dataset after
the measurements `h`.  `balance` is the rebalancing of the tree as in C91, `neg` the signs of the NaNs.
-/

namespace Apollo.Props

open Apollo Apollo.Spec

/-- Infinities, NaN and negative zero are kept; a finite number is rounded to six significant decimal
digits and then to float. -/
def FloatCopy (x y : AnyFloat) : Prop :=
  match x with
  | .fin q => ∃ d, NearestSixDigit q d ∧ y = .fin (rnd32 d)
  | x => y = x

/-- The measurement that an entry reads back as. -/
def AnyCopy (e e' : List AnyFloat × ℤ × ℚ) : Prop :=
  List.Forall₂ FloatCopy e.1 e'.1 ∧ e'.2.1 = e.2.1 ∧ ∃ d, NearestSixDigit e.2.2 d ∧ e'.2.2 = rnd64 d

/-- An entry that can be read back: no more than one feature, finite numbers in the normal range,
policy an `int`. -/
structure AnyStorable (e : List AnyFloat × ℤ × ℚ) : Prop where
  few : e.1.length ≤ 1
  feat : ∀ q, AnyFloat.fin q ∈ e.1 → q = 0 ∨ (10 ^ (-37 : ℤ) ≤ |q| ∧ |q| ≤ 10 ^ (38 : ℤ))
  pol : -2 ^ 31 ≤ e.2.1 ∧ e.2.1 < 2 ^ 31
  metric : e.2.2 = 0 ∨ (10 ^ (-307 : ℤ) ≤ |e.2.2| ∧ |e.2.2| ≤ 10 ^ (308 : ℤ))

theorem anyEntryOk {balance : AnyDataset → AnyDataset} {h : List AnyMeas}
    (hs : ∀ e ∈ anyEntries balance h, AnyStorable e) :
    ∀ d ∈ (anyRun balance h).toList, AnyDataset.EntryOk d := by
  intro d hd
  obtain ⟨h1, h2, h3, h4⟩ := hs (d.1.1, d.1.2, d.2) (List.mem_map.2 ⟨d, hd, rfl⟩)
  refine ⟨h1, fun x hx => ?_, h3, h4⟩
  cases x with
  | fin q => exact h2 q hx
  | _ => trivial

theorem anyReload_eq {balance : AnyDataset → AnyDataset} {h : List AnyMeas} (neg : ℕ → ℕ → Bool)
    (hs : ∀ e ∈ anyEntries balance h, AnyStorable e)
    (hlen : (anyEntries balance h).length ≤ 2 ^ 31) :
    anyReload balance neg h =
      .ok (anyEntries balance ((anyRun balance h).toList.map AnyDataset.reread)) := by
  have h1 := AnyDataset.load_store balance neg (anyEntryOk hs)
    (by simpa [anyEntries, AnyDataset.toVectorOfTuples, anyRun] using hlen) .leaf
  unfold anyReload
  change (AnyDataset.load balance .leaf (AnyDataset.store neg (anyRun balance h)) >>= _) = _
  rw [h1]
  rfl

/-- C124 (general form): a dataset with at most one feature per entry loads back without error, as its
entries inserted in order; infinities, NaNs and negative zeros are kept, finite numbers are rounded to
six significant digits. -/
theorem C124_reload (balance : AnyDataset → AnyDataset) (neg : ℕ → ℕ → Bool) (h : List AnyMeas)
    (hs : ∀ e ∈ anyEntries balance h, AnyStorable e)
    (hlen : (anyEntries balance h).length ≤ 2 ^ 31) :
    ∃ h', List.Forall₂ AnyCopy (anyEntries balance h) h' ∧
      anyReload balance neg h = .ok (anyEntries balance h') := by
  refine ⟨_, ?_, anyReload_eq neg hs hlen⟩
  unfold anyEntries AnyDataset.toVectorOfTuples
  rw [List.forall₂_map_left_iff, List.forall₂_map_right_iff]
  change List.Forall₂ _ (anyRun balance h).toList _
  rw [List.forall₂_same]
  intro d _
  refine ⟨?_, rfl, round6 d.2, ⟨sixDigits_round6 _, fun d' hd' => round6_nearest _ d' hd'⟩, rfl⟩
  show List.Forall₂ _ d.1.1 (d.1.1.map rereadAny)
  rw [List.forall₂_map_right_iff, List.forall₂_same]
  intro x _
  cases x with
  | fin q => exact ⟨round6 q, ⟨sixDigits_round6 _, fun d' hd' => round6_nearest _ d' hd'⟩, rfl⟩
  | _ => rfl

/-- The file of a dataset with an infinity, a NaN with its sign set, and a negative zero. -/
example : AnyDataset.store (fun _ _ => true)
    (anyRun id [([.negInf], 0, 4), ([.negZero], 0, 1/4), ([.nan], 1, 2)]) =
    ("data: {\n  0: { features: [ -inf, ], policy: 0, xtime: 4 },\n" ++
      "  1: { features: [ -0, ], policy: 0, xtime: 0.25 },\n" ++
      "  2: { features: [ -nan, ], policy: 1, xtime: 2 },\n}\n").toList := by decide +kernel

example : anyEntries id [([.negInf], 0, 4), ([.negZero], 0, 1/4), ([.nan], 1, 2)] =
    [([.negInf], 0, 4), ([.negZero], 0, 1/4), ([.nan], 1, 2)] := by decide +kernel

example : ∀ e ∈ ([([.negInf], 0, 4), ([.negZero], 0, 1/4), ([.nan], 1, 2)] :
    List (List AnyFloat × ℤ × ℚ)), AnyStorable e := by
  intro e he
  simp only [List.mem_cons, List.not_mem_nil, or_false] at he
  rcases he with rfl | rfl | rfl
  all_goals exact ⟨by simp, by simp, by norm_num, Or.inr ⟨by decide +kernel, by decide +kernel⟩⟩

/-- Entries with two or more features cannot be loaded, whatever floats they are. -/
theorem C124_two_features (balance : AnyDataset → AnyDataset) (neg : ℕ → ℕ → Bool)
    (h : List AnyMeas) (hf : ∃ e ∈ anyEntries balance h, 2 ≤ e.1.length) :
    ∃ e, anyReload balance neg h = .error e := by
  obtain ⟨e, he, hl⟩ := hf
  obtain ⟨d, hd, rfl⟩ := List.mem_map.1 he
  obtain ⟨e, h1⟩ := AnyDataset.load_fails balance neg (ds := anyRun balance h) ⟨d, hd, hl⟩ .leaf
  refine ⟨e, ?_⟩
  unfold anyReload
  change (AnyDataset.load balance .leaf (AnyDataset.store neg (anyRun balance h)) >>= _) = _
  rw [h1]
  rfl

example : ∃ e ∈ anyEntries id [([.posInf, .nan], 0, 5)], 2 ≤ e.1.length := by decide +kernel

/-- The numbers of an entry have at most six significant digits and are in the normal range. -/
structure AnyExact (e : List AnyFloat × ℤ × ℚ) : Prop where
  few : e.1.length ≤ 1
  feat : ∀ q, AnyFloat.fin q ∈ e.1 → ∃ d, SixDigitDecimal d ∧ q = rnd32 d ∧
    (d = 0 ∨ (2 * 10 ^ (-37 : ℤ) ≤ |d| ∧ |d| ≤ 9 * 10 ^ (37 : ℤ)))
  pol : -2 ^ 31 ≤ e.2.1 ∧ e.2.1 < 2 ^ 31
  metric : ∃ d, SixDigitDecimal d ∧ e.2.2 = rnd64 d ∧
    (d = 0 ∨ (2 * 10 ^ (-307 : ℤ) ≤ |d| ∧ |d| ≤ 9 * 10 ^ (307 : ℤ)))

/-- C124 (full statement): a dataset with at most one feature per entry, whose finite numbers have at
most six significant digits, has the same entries after `store` and `load`. -/
def C124_claim : Prop :=
  ∀ balance : AnyDataset → AnyDataset, (∀ t, (balance t).toList = t.toList) →
    ∀ (neg : ℕ → ℕ → Bool) (h : List AnyMeas), (anyEntries balance h).length ≤ 2 ^ 31 →
      (∀ e ∈ anyEntries balance h, AnyExact e) →
        anyReload balance neg h = .ok (anyEntries balance h)

theorem anyExact_reread {d : (List AnyFloat × ℤ) × ℚ} (h : AnyExact (d.1.1, d.1.2, d.2)) :
    AnyStorable (d.1.1, d.1.2, d.2) ∧ AnyDataset.reread d = (d.1.1, d.1.2, d.2) := by
  obtain ⟨h1, h2, h3, q, h6, hq, hr⟩ := h
  simp only at h1 h2 h3 hq
  have m1 : RangeDouble d.2 ∧ rnd64 (round6 d.2) = d.2 := by
    rw [hq]
    exact ⟨rangeDouble_rnd64 hr, by
      rw [round6_rnd64 h6 (hr.imp id fun h => le_trans (by decide +kernel) h.1)]⟩
  have f1 : ∀ x, AnyFloat.fin x ∈ d.1.1 → RangeFloat x ∧ rnd32 (round6 x) = x := by
    intro x hx
    obtain ⟨q, h6, rfl, hr⟩ := h2 x hx
    exact ⟨rangeFloat_rnd32 hr, by
      rw [round6_rnd32 h6 (hr.imp id fun h => le_trans (by decide +kernel) h.1)]⟩
  refine ⟨⟨h1, fun x hx => (f1 x hx).1, h3, m1.1⟩, ?_⟩
  unfold AnyDataset.reread
  rw [m1.2]
  have : d.1.1.map rereadAny = d.1.1 := by
    conv_rhs => rw [← List.map_id d.1.1]
    refine List.map_congr_left fun x hx => ?_
    cases x with
    | fin q => simp only [rereadAny, (f1 q hx).2, id]
    | _ => rfl
  rw [this]

/-- Entries of numbers of one digit are exact. -/
theorem anyExact_digit {f : List AnyFloat} {p : ℤ} {m : ℚ} (h1 : f.length ≤ 1)
    (h2 : ∀ q, AnyFloat.fin q ∈ f → ∃ n : ℕ, n < 10 ∧ q = n) (h3 : -2 ^ 31 ≤ p ∧ p < 2 ^ 31) {n : ℕ}
    (h4 : n < 10) (h5 : m = n) : AnyExact (f, p, m) := by
  refine ⟨h1, fun q hq => ?_, h3, ?_⟩
  · obtain ⟨n, hn, rfl⟩ := h2 q hq
    refine ⟨n, ⟨n, 0, by rw [abs_of_nonneg (by omega)]; omega, by simp⟩, ?_, ?_⟩
    · interval_cases n <;> decide +kernel
    · interval_cases n <;> decide +kernel
  · refine ⟨n, ⟨n, 0, by rw [abs_of_nonneg (by omega)]; omega, by simp⟩, ?_, ?_⟩
    · show m = rnd64 n
      rw [h5]
      clear h5
      interval_cases n <;> decide +kernel
    · interval_cases n <;> decide +kernel

/-- The full statement is false: an entry with a NaN can be found for other features when the entries
are inserted in the order of the file.  Three entries become two. -/
theorem C124_fails : ¬ C124_claim := by
  intro h
  have he : anyEntries id [([.fin 1], 5, 4), ([.fin 2], 0, 2), ([.nan], 0, 8)] =
      [([.nan], 0, 8), ([.fin 1], 5, 4), ([.fin 2], 0, 2)] := by decide +kernel
  have hr : anyReload id (fun _ _ => false) [([.fin 1], 5, 4), ([.fin 2], 0, 2), ([.nan], 0, 8)] =
      .ok [([.nan], 0, 5), ([.fin 1], 5, 4)] := by
    have : (match anyReload id (fun _ _ => false)
        [([.fin 1], 5, 4), ([.fin 2], 0, 2), ([.nan], 0, 8)] with
      | .ok l => decide (l = [([.nan], 0, 5), ([.fin 1], 5, 4)])
      | .error _ => false) = true := by decide +kernel
    split at this
    · next l hl => rw [hl]; simpa using this
    · cases this
  have := h id (fun _ => rfl) (fun _ _ => false)
    [([.fin 1], 5, 4), ([.fin 2], 0, 2), ([.nan], 0, 8)] (by rw [he]; decide) (by
      rw [he]
      intro e he
      simp only [List.mem_cons, List.not_mem_nil, or_false] at he
      rcases he with rfl | rfl | rfl
      · exact anyExact_digit (by simp) (by simp) (by norm_num) (n := 8) (by norm_num) (by norm_num)
      · exact anyExact_digit (by simp) (by simp; exact ⟨1, by simp⟩) (by norm_num) (n := 4)
          (by norm_num) (by norm_num)
      · exact anyExact_digit (by simp) (by simp; exact ⟨2, by simp⟩) (by norm_num) (n := 2)
          (by norm_num) (by norm_num))
  rw [he, hr] at this
  simp at this

/-- What holds: without NaN, but with infinities and zeros of either sign, the entries are the same
after `store` and `load`.  Missing: NaN (`C124_fails`). -/
theorem C124_exact_partial {balance : AnyDataset → AnyDataset}
    (hb : ∀ t, (balance t).toList = t.toList) (neg : ℕ → ℕ → Bool) (h : List AnyMeas)
    (hn : ∀ y ∈ h, AnyFloat.nan ∉ y.1) (hlen : (anyEntries balance h).length ≤ 2 ^ 31)
    (hx : ∀ e ∈ anyEntries balance h, AnyExact e) :
    anyReload balance neg h = .ok (anyEntries balance h) := by
  have hx' : ∀ d ∈ (anyRun balance h).toList, AnyExact (d.1.1, d.1.2, d.2) := fun d hd =>
    hx _ (List.mem_map.2 ⟨d, hd, rfl⟩)
  have hs : ∀ e ∈ anyEntries balance h, AnyStorable e := by
    intro e he
    obtain ⟨d, hd, rfl⟩ := List.mem_map.1 he
    exact (anyExact_reread (hx' d hd)).1
  rw [anyReload_eq neg hs hlen]
  have e1 : (anyRun balance h).toList.map AnyDataset.reread =
      (anyRun balance h).toList.map fun d => (d.1.1, d.1.2, d.2) :=
    List.map_congr_left fun d hd => (anyExact_reread (hx' d hd)).2
  rw [e1]
  have hn' : ∀ y ∈ h, ∀ x ∈ y.1, x ≠ .nan := fun y hy x hx e => hn y hy (e ▸ hx)
  obtain ⟨-, hs, hg⟩ := anyRun_view (P := fun x => x ≠ .nan) (g := fun x => (num x).getD ⊥)
    (fun a b => lt_eq) hb h hn'
  have hp : (anyRun balance h).toList.Pairwise fun a b =>
      keyLt a.1 b.1 = true ∧ keyLt b.1 a.1 = false := by
    unfold OMap.Sorted SearchTree.view at hs
    rw [List.pairwise_map] at hs
    refine hs.imp_of_mem fun {a b} ha hb h => ?_
    have k1 := keyLt_eq_of (P := fun x => x ≠ .nan) (g := fun x => (num x).getD ⊥)
      (fun a b => lt_eq) a.1 b.1 (hg a ha) (hg b hb)
    have k2 := keyLt_eq_of (P := fun x => x ≠ .nan) (g := fun x => (num x).getD ⊥)
      (fun a b => lt_eq) b.1 a.1 (hg b hb) (hg a ha)
    rw [k1, k2]
    exact ⟨decide_eq_true h, decide_eq_false (not_lt.2 h.le)⟩
  have e2 := AnyDataset.insertAll_sorted hb (anyRun balance h).toList .leaf
    (by simpa [SearchTree.toList] using hp)
  unfold anyEntries AnyDataset.toVectorOfTuples
  change Except.ok (List.map _ (AnyDataset.insertAll balance .leaf _).toList) =
    Except.ok (List.map _ (anyRun balance h).toList)
  rw [e2]
  rfl

/-- A dataset that meets the hypotheses. -/
example : (match anyReload id (fun _ _ => false) [([.posInf], 1, 4), ([.negZero], 0, 1/4),
      ([.fin (3/2)], 0, 100), ([.negInf], 2, 8)] with
    | .ok l => decide (l = [([.negInf], 2, 8), ([.negZero], 0, 1/4), ([.fin (3/2)], 0, 100),
        ([.posInf], 1, 4)])
    | .error _ => false) = true := by decide +kernel

example : AnyFloat.nan ∉ [AnyFloat.posInf] ∧ AnyExact ([.posInf], 1, 4) ∧ AnyExact ([.fin 7], 1, 4) :=
  ⟨by decide, anyExact_digit (by simp) (by simp) (by norm_num) (n := 4) (by norm_num) (by norm_num),
    anyExact_digit (by simp) (by simp; exact ⟨7, by simp⟩) (by norm_num) (n := 4) (by norm_num)
      (by norm_num)⟩

end Apollo.Props
