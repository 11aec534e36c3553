import Verif.Model.PolicyNet

/-!
# Lemmas on sampling
-/

namespace Apollo.PolicyNet

open Arith

variable {α : Type} [Arith α]

theorem cumulative_eq {ps : List α} {p : α} {qs : List α} (h : ps = p :: qs) :
    ∃ l, cumulative ps = l ++ [ofRat 1] ∧ l.length + 1 = ps.length := by
  subst h
  refine ⟨(List.scanl add (div p ((p :: qs).foldl add (ofRat 0)))
    (qs.map fun q => div q ((p :: qs).foldl add (ofRat 0)))).dropLast, rfl, ?_⟩
  simp

theorem length_cumulative (ps : List α) : (cumulative ps).length = ps.length := by
  cases ps with
  | nil => rfl
  | cons p qs =>
    obtain ⟨l, h, hl⟩ := cumulative_eq (rfl : p :: qs = p :: qs)
    rw [h]
    simpa using hl

/-- `lower_bound` finishes inside the array, between an element below `u` and one not below `u`. -/
theorem lowerBound_spec {cp : List α} {u : α} {fuel first len : ℕ} (hf : len < fuel)
    (hl : first + len ≤ cp.length)
    (h0 : first = 0 ∨ ∃ c, cp[first - 1]? = some c ∧ lt c u = true)
    (h1 : first + len = cp.length ∨ ∃ c, cp[first + len]? = some c ∧ lt c u = false) :
    ∃ i, lowerBound cp u fuel first len = .ok i ∧ i ≤ cp.length ∧
      (i = 0 ∨ ∃ c, cp[i - 1]? = some c ∧ lt c u = true) ∧
      (i = cp.length ∨ ∃ c, cp[i]? = some c ∧ lt c u = false) := by
  induction fuel generalizing first len with
  | zero => omega
  | succ fuel ih =>
    unfold lowerBound
    by_cases hz : len = 0
    · subst hz
      exact ⟨first, by rw [if_pos rfl], by omega, h0, h1⟩
    · rw [if_neg hz]
      have hlt : first + len / 2 < cp.length := by omega
      dsimp only
      rw [List.getElem?_eq_getElem hlt]
      dsimp only
      cases hc : lt cp[first + len / 2] u with
      | true =>
        rw [if_pos rfl]
        refine ih (by omega) (by omega) (Or.inr ⟨_, ?_, hc⟩) ?_
        · rw [Nat.add_sub_cancel, List.getElem?_eq_getElem hlt]
        · rw [show first + len / 2 + 1 + (len - len / 2 - 1) = first + len by omega]
          exact h1
      | false =>
        rw [if_neg (by simp)]
        refine ih (by omega) (by omega) h0 (Or.inr ⟨_, ?_, hc⟩)
        rw [List.getElem?_eq_getElem hlt]

/-- Sampling succeeds. -/
theorem sample_ok (ps : List α) (gen : ℕ → α) :
    ∃ i gen', sample ps gen = .ok (i, gen') ∧ i ≤ ps.length ∧
      (gen' = gen ∨ gen' = fun k => gen (k + 1)) ∧
      (2 ≤ ps.length → (i = 0 ∨ ∃ c, (cumulative ps)[i - 1]? = some c ∧ lt c (gen 0) = true) ∧
        (i = ps.length ∨ ∃ c, (cumulative ps)[i]? = some c ∧ lt c (gen 0) = false)) ∧
      (ps.length < 2 → i = 0) := by
  unfold sample
  by_cases h : ps.length < 2
  · exact ⟨0, gen, by rw [if_pos h], by omega, Or.inl rfl, fun h' => absurd h' (by omega),
      fun _ => rfl⟩
  · obtain ⟨i, hi, h1, h2, h3⟩ := lowerBound_spec (cp := cumulative ps) (u := gen 0)
      (fuel := (cumulative ps).length + 1) (first := 0) (len := (cumulative ps).length)
      (by omega) (by omega) (Or.inl rfl) (Or.inl (by omega))
    rw [length_cumulative] at h1 h3
    refine ⟨i, fun k => gen (k + 1), ?_, h1, Or.inr rfl, fun _ => ⟨h2, h3⟩, fun h' => absurd h' h⟩
    rw [if_neg h]
    dsimp only
    rw [hi, Res.bind_ok]

/-- The sampled index is one of the list, if the number drawn is at most 1. -/
theorem sample_lt {ps : List α} {gen gen' : ℕ → α} {i : ℕ} (hp : 0 < ps.length)
    (hu : lt (ofRat 1) (gen 0) = false) (h : sample ps gen = .ok (i, gen')) : i < ps.length := by
  obtain ⟨j, gen'', hj, hle, -, h2, h3⟩ := sample_ok ps gen
  rw [h] at hj
  cases hj
  by_cases hl : ps.length < 2
  · rw [h3 hl]; exact hp
  · rcases lt_or_eq_of_le hle with hlt | rfl
    · exact hlt
    · exfalso
      obtain ⟨h2, -⟩ := h2 (by omega)
      rcases h2 with h2 | ⟨c, hc, hlt⟩
      · omega
      · cases ps with
        | nil => simp at hp
        | cons p qs =>
          obtain ⟨l, e, hl⟩ := cumulative_eq (rfl : p :: qs = p :: qs)
          rw [e, List.getElem?_append_right (by omega),
            show (p :: qs).length - 1 - l.length = 0 by omega] at hc
          cases hc
          rw [hu] at hlt
          cases hlt

end Apollo.PolicyNet
