import Verif.Spec.TestPrograms
import Mathlib.Data.Nat.ModEq

/-!
# The pairs of features and policies of the test program
-/

namespace Apollo

open Spec

/-- Features and the positions in their row, in the order of one pass. -/
def testPairs (n reps : ℕ) : List (ℕ × ℕ) :=
  (List.range reps).flatMap fun _ => (List.range n).flatMap fun i => (List.range n).map fun k =>
    ((k + i) % n, k)

theorem testPairs_fst (n reps : ℕ) : (testPairs n reps).map Prod.fst = testFeatures n reps := by
  simp only [testPairs, testFeatures, List.map_flatMap, List.map_map, Function.comp_def]

theorem testFeatures_length (n reps : ℕ) : (testFeatures n reps).length = reps * (n * n) := by
  simp [testFeatures, List.length_flatMap]

theorem testFeatures_lt {n reps f : ℕ} (h : f ∈ testFeatures n reps) : f < n := by
  simp only [testFeatures, List.mem_flatMap, List.mem_map, List.mem_range] at h
  obtain ⟨-, -, i, hi, k, hk, rfl⟩ := h
  exact Nat.mod_lt _ (by omega)

theorem testFeatures_first {n reps f : ℕ} (hr : 1 ≤ reps) (hf : f < n) :
    (testFeatures n reps)[f]? = some f := by
  have key : ∀ G : ℕ → List ℕ, ∃ rest,
      ((List.range reps).flatMap fun _ => (List.range n).flatMap G) = G 0 ++ rest := by
    intro G
    obtain ⟨r, rfl⟩ : ∃ r, reps = r + 1 := ⟨reps - 1, by omega⟩
    obtain ⟨k, rfl⟩ : ∃ k, n = k + 1 := ⟨n - 1, by omega⟩
    rw [List.range_succ_eq_map (n := r), List.flatMap_cons, List.range_succ_eq_map (n := k), List.flatMap_cons,
      List.append_assoc]
    exact ⟨_, rfl⟩
  obtain ⟨rest, h⟩ := key fun i => (List.range n).map fun k => (k + i) % n
  rw [testFeatures, h, List.getElem?_append_left (by simpa using hf)]
  simp [Nat.mod_eq_of_lt hf, hf]

theorem range_mod (n a : ℕ) : (List.range (a * n)).map (· % n) = (List.range a).flatMap fun _ => List.range n := by
  induction a with
  | zero => simp
  | succ a ih =>
    rw [Nat.succ_mul, List.range_add, List.map_append, ih, List.range_succ, List.flatMap_append]
    congr 1
    rw [List.map_map, List.flatMap_singleton, List.map_congr_left (g := id), List.map_id]
    intro k hk
    rw [List.mem_range] at hk
    simp [Nat.mod_eq_of_lt hk]

theorem testPairs_snd (n reps : ℕ) :
    (testPairs n reps).map Prod.snd = (List.range (reps * (n * n))).map (· % n) := by
  rw [← Nat.mul_assoc, range_mod]
  simp only [testPairs, List.map_flatMap, List.map_map, Function.comp_def, List.map_id']
  induction reps with
  | zero => simp
  | succ r ih =>
    rw [List.range_succ, List.flatMap_append, List.flatMap_singleton, ih, Nat.succ_mul, List.range_add,
      List.flatMap_append, List.flatMap_map]

theorem sum_const (l : List ℕ) (c : ℕ) : (l.map fun _ => c).sum = l.length * c := by
  induction l with
  | nil => simp
  | cons a l ih => simp only [List.map_cons, List.sum_cons, ih, List.length_cons]; ring

theorem row_count {n c : ℕ} (hc : c < n) (i : ℕ) :
    ((List.range n).map fun k => (k + i) % n).count c = 1 := by
  apply List.count_eq_one_of_mem
  · refine List.Nodup.map_on ?_ List.nodup_range
    intro a ha b hb hab
    rw [List.mem_range] at ha hb
    have := Nat.ModEq.add_right_cancel' i (show Nat.ModEq n (a + i) (b + i) from hab)
    exact Nat.ModEq.eq_of_lt_of_lt this ha hb
  · rw [List.mem_map]
    refine ⟨(c + (n - i % n)) % n, List.mem_range.2 (Nat.mod_lt _ (by omega)), ?_⟩
    have hi : i % n < n := Nat.mod_lt _ (by omega)
    rw [Nat.add_mod, Nat.mod_mod, ← Nat.add_mod, Nat.add_mod, ← Nat.add_mod]
    have : (c + (n - i % n) + i) % n = (c + n + (i - i % n)) % n := by
      congr 1
      have := Nat.mod_le i n
      omega
    rw [this]
    have h2 : n ∣ i - i % n := Nat.dvd_sub_mod i
    obtain ⟨q, hq⟩ := h2
    rw [hq, Nat.add_mul_mod_self_left, Nat.add_mod_right, Nat.mod_eq_of_lt hc]

/-- A policy is the feature in one execution of each row. -/
theorem matched_const {n c : ℕ} (hc : c < n) (reps : ℕ) :
    matched (testFeatures n reps) (List.replicate (reps * (n * n)) (c : ℤ)) = reps * n := by
  have h1 : matched (testFeatures n reps) (List.replicate (reps * (n * n)) (c : ℤ)) =
      (testFeatures n reps).count c := by
    unfold matched
    have : ∀ (l : List ℕ) (k : ℕ), l.length ≤ k →
        (l.zip (List.replicate k (c : ℤ))).countP (fun x => (x.1 : ℤ) = x.2) = l.count c := by
      intro l
      induction l with
      | nil => intro k _; simp
      | cons a l ih =>
        intro k hk
        cases k with
        | zero => simp at hk
        | succ k =>
          rw [List.replicate_succ, List.zip_cons_cons, List.countP_cons,
            ih k (by simpa using hk), List.count_cons]
          by_cases ha : a = c <;> simp [ha]
    exact this _ _ (by rw [testFeatures_length])
  rw [h1]
  simp only [testFeatures, List.count_flatMap, Function.comp_def, row_count hc, sum_const, List.length_range,
    Nat.mul_one]

/-- The position in the row is the feature in the first row. -/
theorem matched_round {n : ℕ} (hn : 0 < n) (reps : ℕ) :
    matched (testFeatures n reps) ((List.range (reps * (n * n))).map fun q => ((q % n : ℕ) : ℤ)) = reps * n := by
  have h1 : ((List.range (reps * (n * n))).map fun q => ((q % n : ℕ) : ℤ)) =
      ((testPairs n reps).map Prod.snd).map Nat.cast := by
    rw [testPairs_snd, List.map_map]; rfl
  rw [h1, ← testPairs_fst]
  have h2 : matched ((testPairs n reps).map Prod.fst) (((testPairs n reps).map Prod.snd).map Nat.cast) =
      (testPairs n reps).countP fun x => x.1 = x.2 := by
    unfold matched
    rw [List.map_map, List.zip_map', List.countP_map]
    congr 1
    funext x
    simp
  rw [h2]
  have h3 : ∀ i ∈ List.range n, ((List.range n).map fun k => ((k + i) % n, k)).countP (fun x => x.1 = x.2) =
      if i = 0 then n else 0 := by
    intro i hi
    rw [List.mem_range] at hi
    rw [List.countP_map]
    split
    next h =>
      subst h
      have : (List.range n).countP ((fun x : ℕ × ℕ => decide (x.1 = x.2)) ∘ fun k => ((k + 0) % n, k)) =
          (List.range n).length := by
        rw [List.countP_eq_length]
        intro k hk
        rw [List.mem_range] at hk
        simp [Nat.mod_eq_of_lt hk]
      rw [this, List.length_range]
    next h =>
      rw [List.countP_eq_zero]
      intro k hk
      rw [List.mem_range] at hk
      simp only [Function.comp_apply, decide_eq_true_eq]
      intro he
      rcases Nat.lt_or_ge (k + i) n with hl | hl
      · rw [Nat.mod_eq_of_lt hl] at he; omega
      · rw [Nat.mod_eq_sub_mod hl, Nat.mod_eq_of_lt (by omega)] at he; omega
  simp only [testPairs, List.countP_flatMap, Function.comp_def, sum_const, List.length_range]
  congr 1
  rw [List.map_congr_left h3]
  obtain ⟨m, rfl⟩ : ∃ m, n = m + 1 := ⟨n - 1, by omega⟩
  rw [List.range_succ_eq_map]
  simp [Function.comp_def]

end Apollo
