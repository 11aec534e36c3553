import Verif.Proofs.Dataset
import Verif.Spec.Dataset

/-! Loop invariant of the best-policy reduction. -/

namespace Apollo
namespace Dataset

open Spec

theorem toVector_append (a b : Dataset) :
    toVectorOfTuples (a ++ b) = toVectorOfTuples a ++ toVectorOfTuples b := by
  simp [toVectorOfTuples]

theorem mem_toVector {ds : Dataset} {f : Features} {p : ℤ} {m : ℚ} :
    (f, p, m) ∈ toVectorOfTuples ds ↔ (mkKey f p, m) ∈ ds := by
  unfold toVectorOfTuples
  simp only [List.mem_map, Prod.mk.injEq]
  constructor
  · rintro ⟨⟨k, v⟩, hd, h1, h2, h3⟩
    simp only at h1 h2 h3
    subst h1 h2 h3
    exact hd
  · intro h
    exact ⟨_, h, rfl, rfl, rfl⟩

/-- Invariant of the loop over a prefix `pre` of the data. -/
structure BestInv (pre : Dataset) (best : OMap Features (ℤ × ℚ)) : Prop where
  sorted : OMap.Sorted best
  none_iff : ∀ f, OMap.find best f = none ↔ ∀ p m, (mkKey f p, m) ∉ pre
  some_best : ∀ f p m, OMap.find best f = some (p, m) →
    (mkKey f p, m) ∈ pre ∧ ∀ p' m', (mkKey f p', m') ∈ pre → m < m' ∨ (m = m' ∧ p ≤ p')

theorem bestInv_step {pre : Dataset} {best : OMap Features (ℤ × ℚ)} {d : Key × ℚ}
    (hs : OMap.Sorted (pre ++ [d])) (h : BestInv pre best) :
    BestInv (pre ++ [d]) (bestStep best d) := by
  obtain ⟨k, avg⟩ := d
  obtain ⟨⟨f, p⟩, rfl⟩ : ∃ x : Features × ℤ, k = mkKey x.1 x.2 := ⟨ofLex k, by simp⟩
  have hlt : ∀ p' m', (mkKey f p', m') ∈ pre → p' < p := by
    intro p' m' hm
    have := (List.pairwise_append.1 hs).2.2 _ hm (mkKey f p, avg) (by simp)
    simp only [mkKey, Prod.Lex.toLex_lt_toLex] at this
    rcases this with h | ⟨_, h⟩
    · exact absurd h (lt_irrefl _)
    · exact h
  unfold bestStep
  simp only [ofLex_mkKey]
  cases hfind : OMap.find best f with
  | none =>
    have hno := (h.none_iff f).1 hfind
    refine ⟨OMap.Sorted.upsert h.sorted _ _, ?_, ?_⟩
    · intro g
      simp only [OMap.find_insertNew h.sorted]
      by_cases hg : g = f
      · subst hg
        simp only [if_true]
        constructor
        · intro hc; cases hc
        · intro hc; exact absurd (hc p avg) (by simp)
      · rw [if_neg hg, h.none_iff g]
        constructor
        · intro hc p' m' hm
          rcases List.mem_append.1 hm with hm | hm
          · exact hc _ _ hm
          · simp at hm; exact hg hm.1.1
        · intro hc p' m' hm
          exact hc p' m' (List.mem_append_left _ hm)
    · intro g q m hgm
      rw [OMap.find_insertNew h.sorted] at hgm
      by_cases hg : g = f
      · subst hg
        rw [if_pos rfl, hfind] at hgm
        cases hgm
        refine ⟨by simp, ?_⟩
        intro p' m' hm
        rcases List.mem_append.1 hm with hm | hm
        · exact absurd hm (hno _ _)
        · simp at hm; right; exact ⟨hm.2.symm, hm.1.ge⟩
      · rw [if_neg hg] at hgm
        obtain ⟨h1, h2⟩ := h.some_best g q m hgm
        refine ⟨List.mem_append_left _ h1, ?_⟩
        intro p' m' hm
        rcases List.mem_append.1 hm with hm | hm
        · exact h2 _ _ hm
        · simp at hm; exact absurd hm.1.1 hg
  | some prev =>
    obtain ⟨p0, m0⟩ := prev
    obtain ⟨hb1, hb2⟩ := h.some_best f p0 m0 hfind
    simp only
    by_cases hc : avg < m0
    · rw [if_pos hc]
      refine ⟨OMap.Sorted.upsert h.sorted _ _, ?_, ?_⟩
      · intro g
        simp only [OMap.find_assign h.sorted]
        by_cases hg : g = f
        · subst hg
          simp only [if_true]
          constructor
          · intro hc; cases hc
          · intro hc; exact absurd (hc p avg) (by simp)
        · rw [if_neg hg, h.none_iff g]
          constructor
          · intro hc p' m' hm
            rcases List.mem_append.1 hm with hm | hm
            · exact hc _ _ hm
            · simp at hm; exact hg hm.1.1
          · intro hc p' m' hm
            exact hc p' m' (List.mem_append_left _ hm)
      · intro g q m hgm
        rw [OMap.find_assign h.sorted] at hgm
        by_cases hg : g = f
        · subst hg
          rw [if_pos rfl] at hgm
          cases hgm
          refine ⟨by simp, ?_⟩
          intro p' m' hm
          rcases List.mem_append.1 hm with hm | hm
          · left
            rcases hb2 _ _ hm with h | ⟨h, _⟩ <;> linarith
          · simp at hm; right; exact ⟨hm.2.symm, hm.1.ge⟩
        · rw [if_neg hg] at hgm
          obtain ⟨h1, h2⟩ := h.some_best g q m hgm
          refine ⟨List.mem_append_left _ h1, ?_⟩
          intro p' m' hm
          rcases List.mem_append.1 hm with hm | hm
          · exact h2 _ _ hm
          · simp at hm; exact absurd hm.1.1 hg
    · rw [if_neg hc]
      refine ⟨h.sorted, ?_, ?_⟩
      · intro g
        rw [h.none_iff g]
        constructor
        · intro hn p' m' hm
          rcases List.mem_append.1 hm with hm | hm
          · exact hn _ _ hm
          · simp at hm
            obtain ⟨⟨rfl, rfl⟩, rfl⟩ := hm
            exact hn _ _ hb1
        · intro hn p' m' hm
          exact hn p' m' (List.mem_append_left _ hm)
      · intro g q m hgm
        obtain ⟨h1, h2⟩ := h.some_best g q m hgm
        refine ⟨List.mem_append_left _ h1, ?_⟩
        intro p' m' hm
        rcases List.mem_append.1 hm with hm | hm
        · exact h2 _ _ hm
        · simp at hm
          obtain ⟨⟨rfl, rfl⟩, rfl⟩ := hm
          rw [hfind] at hgm
          cases hgm
          rcases lt_or_eq_of_le (not_lt.1 hc) with h | h
          · left; exact h
          · right; exact ⟨h, (hlt _ _ hb1).le⟩

theorem bestInv_bestPolicies {ds : Dataset} (hs : OMap.Sorted ds) :
    BestInv ds (bestPolicies ds) := by
  unfold bestPolicies
  induction ds using List.reverseRecOn with
  | nil =>
    exact ⟨OMap.sorted_nil, by simp [OMap.find], by simp [OMap.find]⟩
  | append_singleton pre d ih =>
    rw [List.foldl_append]
    exact bestInv_step hs (ih (List.pairwise_append.1 hs).1)

theorem best_iff {ds : Dataset} (hs : OMap.Sorted ds) (f : Features) (p : ℤ) (m : ℚ) :
    OMap.find (bestPolicies ds) f = some (p, m) ↔
      IsBest (toVectorOfTuples ds) f p ∧ OMap.find ds (mkKey f p) = some m := by
  have inv := bestInv_bestPolicies hs
  rw [hs.find_eq_some_iff]
  constructor
  · intro h
    obtain ⟨h1, h2⟩ := inv.some_best f p m h
    refine ⟨⟨m, mem_toVector.2 h1, fun p' m' hm => h2 _ _ (mem_toVector.1 hm)⟩, h1⟩
  · rintro ⟨⟨m1, hm1, hall⟩, hm⟩
    cases hfind : OMap.find (bestPolicies ds) f with
    | none => exact absurd hm ((inv.none_iff f).1 hfind _ _)
    | some x =>
      obtain ⟨q, v⟩ := x
      obtain ⟨h1, h2⟩ := inv.some_best f q v hfind
      have a := hall q v (mem_toVector.2 h1)
      have b := h2 p m1 (mem_toVector.1 hm1)
      have c := (hs.find_eq_some_iff _ _).2 (mem_toVector.1 hm1)
      have d := (hs.find_eq_some_iff _ _).2 hm
      rw [c] at d; cases d
      have hv : m = v := by
        rcases a with a | a <;> rcases b with b | b
        · linarith
        · exact b.1.symm
        · exact a.1
        · exact a.1
      subst hv
      have hq : p = q := by
        rcases a with a | a <;> rcases b with b | b
        · exact absurd a (lt_irrefl _)
        · exact absurd a (lt_irrefl _)
        · exact absurd b (lt_irrefl _)
        · exact le_antisymm a.2 b.2
      rw [hq]

theorem mem_bestPolicies_keys {ds : Dataset} (hs : OMap.Sorted ds) (f : Features) :
    f ∈ (bestPolicies ds).map Prod.fst ↔ ∃ p m, (mkKey f p, m) ∈ ds := by
  have inv := bestInv_bestPolicies hs
  rw [← OMap.find_isSome_iff, ← not_iff_not, Option.not_isSome_iff_eq_none, inv.none_iff]
  push Not
  rfl

end Dataset
end Apollo
