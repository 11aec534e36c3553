import Mathlib.Order.Defs.LinearOrder
import Mathlib.Data.List.Sort
import Mathlib.Data.List.Lex
import Mathlib.Data.Prod.Lex

/-!
# `std::map` as a strictly sorted association list

`std::map<K,V>` iterates in increasing key order; lookups use the ordering.  The key types of the
modelled maps (vectors of finite floats, ints, strings) are linear orders.
-/

namespace Apollo

/-- Association list; the representation of a `std::map` when strictly sorted (`OMap.Sorted`). -/
abbrev OMap (κ α : Type) := List (κ × α)

namespace OMap

variable {κ α : Type} [LinearOrder κ]

/-- Keys strictly increase: the class invariant of `std::map`. -/
def Sorted (m : OMap κ α) : Prop := m.Pairwise (fun a b => a.1 < b.1)

/-- `std::map::find`. -/
def find : OMap κ α → κ → Option α
  | [], _ => none
  | (k', v) :: m, k => if k = k' then some v else find m k

/-- Insert or update the value at key `k`; `f` gets the old value if present. -/
def upsert (f : Option α → α) (k : κ) : OMap κ α → OMap κ α
  | [] => [(k, f none)]
  | (k', v) :: m =>
    if k < k' then (k, f none) :: (k', v) :: m
    else if k = k' then (k', f (some v)) :: m
    else (k', v) :: upsert f k m

/-- `std::map::insert`/`emplace`: keeps the old value when the key is present. -/
def insertNew (k : κ) (v : α) (m : OMap κ α) : OMap κ α := upsert (fun o => o.getD v) k m

/-- `m[k] = v`. -/
def assign (k : κ) (v : α) (m : OMap κ α) : OMap κ α := upsert (fun _ => v) k m

theorem sorted_nil : Sorted ([] : OMap κ α) := List.Pairwise.nil

theorem mem_upsert_key (f : Option α → α) (k : κ) (m : OMap κ α) (x : κ) :
    x ∈ (upsert f k m).map Prod.fst ↔ x = k ∨ x ∈ m.map Prod.fst := by
  induction m with
  | nil => simp [upsert]
  | cons a m ih =>
    obtain ⟨k', v⟩ := a
    simp only [upsert]
    split
    · simp
    · split
      · subst_vars; simp
      · simp only [List.map_cons, List.mem_cons, ih]; tauto

theorem sorted_iff (m : OMap κ α) :
    Sorted m ↔ (m.map Prod.fst).Pairwise (· < ·) := by
  simp [Sorted, List.pairwise_map]

theorem Sorted.upsert {m : OMap κ α} (h : Sorted m) (f : Option α → α) (k : κ) :
    Sorted (upsert f k m) := by
  induction m with
  | nil => simp [OMap.upsert, Sorted]
  | cons a m ih =>
    obtain ⟨k', v⟩ := a
    rw [sorted_iff] at h
    simp only [List.map_cons, List.pairwise_cons] at h
    obtain ⟨h1, h2⟩ := h
    rw [sorted_iff]
    simp only [OMap.upsert]
    split
    next hlt =>
      simp only [List.map_cons, List.pairwise_cons, List.mem_cons, forall_eq_or_imp]
      exact ⟨⟨hlt, fun a ha => lt_trans hlt (h1 a ha)⟩, h1, h2⟩
    next hlt =>
      split
      next heq => simp only [List.map_cons, List.pairwise_cons]; exact ⟨h1, h2⟩
      next hne =>
        simp only [List.map_cons, List.pairwise_cons]
        refine ⟨?_, (sorted_iff _).1 (ih ((sorted_iff _).2 h2))⟩
        intro x hx
        rw [mem_upsert_key] at hx
        rcases hx with rfl | hx
        · exact lt_of_le_of_ne (not_lt.1 hlt) (Ne.symm hne)
        · exact h1 x hx

theorem find_eq_none_iff (m : OMap κ α) (k : κ) : find m k = none ↔ k ∉ m.map Prod.fst := by
  induction m with
  | nil => simp [find]
  | cons a m ih =>
    obtain ⟨k', v⟩ := a
    simp only [find]
    split <;> simp_all

theorem find_isSome_iff (m : OMap κ α) (k : κ) :
    (find m k).isSome ↔ k ∈ m.map Prod.fst := by
  rw [← not_iff_not, Option.not_isSome_iff_eq_none, find_eq_none_iff]

theorem mem_of_find_eq_some {m : OMap κ α} {k : κ} {v : α} (h : find m k = some v) :
    (k, v) ∈ m := by
  induction m with
  | nil => simp [find] at h
  | cons a m ih =>
    obtain ⟨k', v'⟩ := a
    simp only [find] at h
    split at h
    next heq => simp_all
    next => exact List.mem_cons_of_mem _ (ih h)

theorem Sorted.find_eq_some_iff {m : OMap κ α} (hs : Sorted m) (k : κ) (v : α) :
    find m k = some v ↔ (k, v) ∈ m := by
  refine ⟨mem_of_find_eq_some, fun h => ?_⟩
  induction m with
  | nil => simp at h
  | cons a m ih =>
    obtain ⟨k', v'⟩ := a
    simp only [Sorted, List.pairwise_cons] at hs
    simp only [find]
    rcases List.mem_cons.1 h with h | h
    · cases h; simp
    · have := hs.1 _ h
      simp only at this
      rw [if_neg (ne_of_gt this)]
      exact ih hs.2 h

theorem find_upsert_of_sorted {m : OMap κ α} (h : Sorted m) (f : Option α → α) (k k' : κ) :
    find (upsert f k m) k' = if k' = k then some (f (find m k)) else find m k' := by
  induction m with
  | nil => simp [upsert, find]
  | cons a m ih =>
    obtain ⟨k₁, v⟩ := a
    simp only [Sorted, List.pairwise_cons] at h
    have ih := ih h.2
    simp only [upsert]
    split
    next hlt =>
      have hnot : find ((k₁, v) :: m) k = none := by
        rw [find_eq_none_iff]
        intro hk
        simp only [List.map_cons, List.mem_cons, List.mem_map] at hk
        rcases hk with rfl | ⟨a, ha, rfl⟩
        · exact lt_irrefl _ hlt
        · exact lt_asymm hlt (h.1 a ha)
      rw [hnot]
      simp only [find]
    next hlt =>
      split
      next heq =>
        subst heq
        simp only [find, if_true]
        split <;> rfl
      next hne =>
        simp only [find, if_neg hne, ih]
        split
        next h1 =>
          subst h1
          rw [if_neg (Ne.symm hne)]
        next h1 => rfl

/-- Two `std::map`s with the same lookups are the same. -/
theorem ext_of_find {m₁ m₂ : OMap κ α} (h₁ : Sorted m₁) (h₂ : Sorted m₂)
    (h : ∀ k, find m₁ k = find m₂ k) : m₁ = m₂ := by
  induction m₁ generalizing m₂ with
  | nil =>
    cases m₂ with
    | nil => rfl
    | cons a m => have := h a.1; simp [find] at this
  | cons a m ih =>
    cases m₂ with
    | nil => have := h a.1; simp [find] at this
    | cons b m' =>
      obtain ⟨ka, va⟩ := a
      obtain ⟨kb, vb⟩ := b
      have e1 : (ka, va) ∈ ((kb, vb) :: m') := by
        rw [← h₂.find_eq_some_iff, ← h, h₁.find_eq_some_iff]; simp
      have e2 : (kb, vb) ∈ ((ka, va) :: m) := by
        rw [← h₁.find_eq_some_iff, h, h₂.find_eq_some_iff]; simp
      simp only [Sorted, List.pairwise_cons] at h₁ h₂
      have hab : (ka, va) = (kb, vb) := by
        rcases List.mem_cons.1 e1 with e1 | e1
        · exact e1
        · rcases List.mem_cons.1 e2 with e2 | e2
          · exact e2.symm
          · exact absurd (h₂.1 _ e1) (lt_asymm (h₁.1 _ e2))
      cases hab
      congr 1
      refine ih h₁.2 h₂.2 fun k => ?_
      have hk := h k
      simp only [find] at hk
      split at hk
      next heq =>
        subst heq
        have n1 : find m k = none := by
          rw [find_eq_none_iff]; intro hm
          obtain ⟨x, hx, hx'⟩ := List.mem_map.1 hm
          have := h₁.1 x hx
          simp only [hx'] at this
          exact lt_irrefl _ this
        have n2 : find m' k = none := by
          rw [find_eq_none_iff]; intro hm
          obtain ⟨x, hx, hx'⟩ := List.mem_map.1 hm
          have := h₂.1 x hx
          simp only [hx'] at this
          exact lt_irrefl _ this
        rw [n1, n2]
      next hne => exact hk

/-- Strictly increasing lists with the same members are equal. -/
theorem eq_of_sorted_of_mem {l₁ l₂ : List κ} (h₁ : l₁.Pairwise (· < ·)) (h₂ : l₂.Pairwise (· < ·))
    (h : ∀ x, x ∈ l₁ ↔ x ∈ l₂) : l₁ = l₂ := by
  have e := ext_of_find (m₁ := l₁.map fun x => (x, ())) (m₂ := l₂.map fun x => (x, ()))
    (by rw [sorted_iff]; simpa [Function.comp_def] using h₁)
    (by rw [sorted_iff]; simpa [Function.comp_def] using h₂) (fun k => by
      have a := find_isSome_iff (l₁.map fun x => (x, ())) k
      have b := find_isSome_iff (l₂.map fun x => (x, ())) k
      simp only [List.map_map, Function.comp_def, List.map_id'] at a b
      rw [h] at a
      rw [← b] at a
      cases h1 : find (l₁.map fun x => (x, ())) k <;> cases h2 : find (l₂.map fun x => (x, ())) k <;>
        simp_all)
  have := congrArg (List.map Prod.fst) e
  simpa [Function.comp_def] using this

theorem find_insertNew {m : OMap κ α} (h : Sorted m) (k k' : κ) (v : α) :
    find (insertNew k v m) k' = if k' = k then some ((find m k).getD v) else find m k' :=
  find_upsert_of_sorted h _ _ _

theorem find_assign {m : OMap κ α} (h : Sorted m) (k k' : κ) (v : α) :
    find (assign k v m) k' = if k' = k then some v else find m k' :=
  find_upsert_of_sorted h _ _ _

end OMap
end Apollo
