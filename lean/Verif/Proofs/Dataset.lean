import Verif.Model.Dataset

/-! Helper lemmas about the dataset model. -/

namespace Apollo
namespace Dataset

@[simp] theorem mkKey_ofLex (k : Key) : mkKey (ofLex k).1 (ofLex k).2 = k := rfl

@[simp] theorem mkKey_inj (f f' : Features) (p p' : ℤ) :
    mkKey f p = mkKey f' p' ↔ f = f' ∧ p = p' := by
  simp [mkKey]

@[simp] theorem ofLex_mkKey (f : Features) (p : ℤ) : ofLex (mkKey f p) = (f, p) := rfl

/-- The value after inserting a metric. -/
def combine (metric : ℚ) : Option ℚ → ℚ
  | none => metric
  | some old => ema old metric

theorem insert_eq (ds : Dataset) (f : Features) (p : ℤ) (m : ℚ) :
    insert ds f p m = OMap.upsert (combine m) (mkKey f p) ds := by
  unfold insert
  congr 1

theorem sorted_insert {ds : Dataset} (h : OMap.Sorted ds) (f : Features) (p : ℤ) (m : ℚ) :
    OMap.Sorted (insert ds f p m) := OMap.Sorted.upsert h _ _

theorem find_insert {ds : Dataset} (h : OMap.Sorted ds) (f : Features) (p : ℤ) (m : ℚ) (k : Key) :
    OMap.find (insert ds f p m) k =
      if k = mkKey f p then some (combine m (OMap.find ds k)) else OMap.find ds k := by
  rw [insert_eq, OMap.find_upsert_of_sorted h]
  split
  next h => rw [h]
  next => rfl

/-- Insert a list of measurements. -/
def insertAll (ds : Dataset) (h : List (Features × ℤ × ℚ)) : Dataset :=
  h.foldl (fun acc x => insert acc x.1 x.2.1 x.2.2) ds

theorem sorted_insertAll {ds : Dataset} (hs : OMap.Sorted ds) (h : List (Features × ℤ × ℚ)) :
    OMap.Sorted (insertAll ds h) := by
  induction h generalizing ds with
  | nil => exact hs
  | cons x h ih => exact ih (sorted_insert hs _ _ _)

theorem merge_eq_insertAll (ds other : Dataset) :
    merge ds other = insertAll ds (toVectorOfTuples other) := by
  unfold merge insertAll toVectorOfTuples
  rw [List.foldl_map]

theorem sorted_merge {ds : Dataset} (hs : OMap.Sorted ds) (other : Dataset) :
    OMap.Sorted (merge ds other) := by
  rw [merge_eq_insertAll]; exact sorted_insertAll hs _

theorem mem_keys_insertAll (ds : Dataset) (h : List (Features × ℤ × ℚ)) (k : Key) :
    k ∈ (insertAll ds h).map Prod.fst ↔
      k ∈ ds.map Prod.fst ∨ k ∈ h.map (fun x => mkKey x.1 x.2.1) := by
  induction h generalizing ds with
  | nil => simp [insertAll]
  | cons x h ih =>
    have := ih (insert ds x.1 x.2.1 x.2.2)
    unfold insertAll at this ⊢
    rw [List.foldl_cons, this, insert_eq, OMap.mem_upsert_key]
    simp only [List.map_cons, List.mem_cons]
    tauto

/-- Metrics of a history belonging to a key, in order. -/
def metricsFor (h : List (Features × ℤ × ℚ)) (k : Key) : List ℚ :=
  (h.filter (fun x => mkKey x.1 x.2.1 = k)).map (fun x => x.2.2)

theorem find_insertAll {ds : Dataset} (hs : OMap.Sorted ds) (h : List (Features × ℤ × ℚ))
    (k : Key) :
    OMap.find (insertAll ds h) k =
      (metricsFor h k).foldl (fun o m => some (combine m o)) (OMap.find ds k) := by
  induction h generalizing ds with
  | nil => rfl
  | cons x h ih =>
    have := ih (sorted_insert hs x.1 x.2.1 x.2.2)
    unfold insertAll at this ⊢
    rw [List.foldl_cons, this, find_insert hs]
    unfold metricsFor
    by_cases hk : mkKey x.1 x.2.1 = k
    · rw [if_pos hk.symm, List.filter_cons_of_pos (by simpa using hk)]; simp
    · rw [if_neg (Ne.symm hk), List.filter_cons_of_neg (by simpa using hk)]

theorem foldl_combine_some (a : ℚ) (ms : List ℚ) :
    ms.foldl (fun o m => some (combine m o)) (some a) = some (ms.foldl ema a) := by
  induction ms generalizing a with
  | nil => rfl
  | cons m ms ih => simpa [combine] using ih (ema a m)

theorem metricsFor_toVector {ds : Dataset} (hs : OMap.Sorted ds) (k : Key) :
    metricsFor (toVectorOfTuples ds) k = (OMap.find ds k).toList := by
  induction ds with
  | nil => rfl
  | cons d ds ih =>
    obtain ⟨kd, v⟩ := d
    simp only [OMap.Sorted, List.pairwise_cons] at hs
    have ih := ih hs.2
    unfold metricsFor toVectorOfTuples at ih ⊢
    simp only [List.map_cons, OMap.find]
    by_cases hk : k = kd
    · subst hk
      rw [List.filter_cons_of_pos (by simp), if_pos rfl, List.map_cons, ih]
      have : OMap.find ds k = none := by
        rw [OMap.find_eq_none_iff]; intro hm
        obtain ⟨x, hx, hx'⟩ := List.mem_map.1 hm
        have := hs.1 x hx
        simp only [hx'] at this
        exact lt_irrefl _ this
      simp [this]
    · rw [List.filter_cons_of_neg (fun h => hk (of_decide_eq_true h).symm), if_neg hk, ih]

theorem find_merge {ds other : Dataset} (hs : OMap.Sorted ds) (ho : OMap.Sorted other) (k : Key) :
    OMap.find (merge ds other) k =
      match OMap.find ds k, OMap.find other k with
      | none, o => o
      | some a, none => some a
      | some a, some b => some (ema a b) := by
  rw [merge_eq_insertAll, find_insertAll hs, metricsFor_toVector ho]
  cases OMap.find ds k <;> cases OMap.find other k <;> simp [combine]

/-! ## Rounding of the moving average -/

theorem rnd64_mono {x y : ℚ} (h : x ≤ y) : rnd64 x ≤ rnd64 y := rnd_mono (by norm_num) h

theorem rnd64_of_float64 {x : ℚ} (h : Float64 x) : rnd64 x = x :=
  rnd_of_representable (by norm_num) h

theorem ema_between {lo hi a m : ℚ} (hlo : Float64 lo) (hhi : Float64 hi)
    (hlo2 : Float64 (1/2 * lo)) (hhi2 : Float64 (1/2 * hi))
    (ha : lo ≤ a ∧ a ≤ hi) (hm : lo ≤ m ∧ m ≤ hi) : lo ≤ ema a m ∧ ema a m ≤ hi := by
  unfold ema
  have l1 := rnd64_mono (show 1/2 * lo ≤ 1/2 * a by linarith)
  have l2 := rnd64_mono (show 1/2 * lo ≤ 1/2 * m by linarith)
  have u1 := rnd64_mono (show 1/2 * a ≤ 1/2 * hi by linarith)
  have u2 := rnd64_mono (show 1/2 * m ≤ 1/2 * hi by linarith)
  rw [rnd64_of_float64 hlo2] at l1 l2
  rw [rnd64_of_float64 hhi2] at u1 u2
  constructor
  · exact le_rnd_of_le (by norm_num) hlo (by linarith)
  · exact rnd_le_of_le (by norm_num) hhi (by linarith)

theorem ema_self {a : ℚ} (h : Float64 a) (h2 : Float64 (1/2 * a)) : ema a a = a := by
  have := ema_between h h h2 h2 ⟨le_refl a, le_refl a⟩ ⟨le_refl a, le_refl a⟩
  exact le_antisymm this.2 this.1

/-- Halving a double that is zero or at least 2^-1021 in magnitude is exact. -/
theorem float64_half {a : ℚ} (h : Float64 a) (hn : a = 0 ∨ 2 ^ (-1021 : ℤ) ≤ |a|) :
    Float64 (1/2 * a) := by
  rcases hn with rfl | hn
  · rw [mul_zero]; exact representable_zero
  · obtain ⟨m, e, hm, he, rfl⟩ := h
    by_cases hE : -1074 < e
    · refine ⟨m, e - 1, hm, by omega, ?_⟩
      rw [zpow_sub₀ (by norm_num)]; ring
    · have : e = -1074 := by omega
      subst this
      rw [abs_mul, abs_of_pos (two_zpow_pos _)] at hn
      have hm' : (2 : ℚ) ^ (53 : ℤ) ≤ |(m : ℚ)| := by
        have e1 : (2 : ℚ) ^ (-1021 : ℤ) = 2 ^ (53 : ℤ) * 2 ^ (-1074 : ℤ) := by
          rw [← zpow_add₀ (by norm_num)]; norm_num
        rw [e1] at hn
        exact le_of_mul_le_mul_right hn (two_zpow_pos _)
      have hmeq : |m| = 2 ^ 53 := by
        have h1 : (2 : ℤ) ^ 53 ≤ |m| := by
          have : ((2 ^ 53 : ℤ) : ℚ) ≤ ((|m| : ℤ) : ℚ) := by
            rw [Int.cast_abs]
            refine le_trans (le_of_eq ?_) hm'
            norm_num
          exact Int.cast_le.1 this
        omega
      refine ⟨m / 2, -1074, ?_, le_refl _, ?_⟩
      · rcases abs_cases m with ⟨h1, h2⟩ | ⟨h1, h2⟩ <;> rcases abs_cases (m/2) with ⟨h3, h4⟩ | ⟨h3, h4⟩ <;> omega
      · have : m = 2 * (m / 2) := by
          rcases abs_cases m with ⟨h1, h2⟩ | ⟨h1, h2⟩ <;> omega
        have hq : (m : ℚ) = 2 * ((m / 2 : ℤ) : ℚ) := by exact_mod_cast this
        rw [hq]; ring

end Dataset
end Apollo
