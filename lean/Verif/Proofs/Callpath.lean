import Verif.Model.Callpath
import Verif.Proofs.Factory

/-!
# Positions in strings built by concatenation
-/

namespace Apollo.Callpath

theorem findFirst_append {c : Char} {a b : Str} (h : c ∉ a) :
    findFirst c (a ++ c :: b) = a.length := by
  simp [findFirst, findChar_append h]

theorem findLastOf_append {cs : List Char} {a b : Str} {c : Char} (hc : c ∈ cs)
    (h : ∀ x ∈ b, x ∉ cs) : findLastOf cs (a ++ c :: b) = a.length := by
  have hb : List.findIdx? (fun c => decide (c ∈ cs)) b.reverse = none := by
    rw [List.findIdx?_eq_none_iff]
    intro x hx
    simpa using h x (List.mem_reverse.1 hx)
  unfold findLastOf
  have : (a ++ c :: b).reverse = b.reverse ++ (c :: a.reverse) := by simp
  rw [this, List.findIdx?_append, hb]
  simp [hc, List.findIdx?_cons]

theorem findLastOf_none {cs : List Char} {s : Str} (h : ∀ x ∈ s, x ∉ cs) :
    findLastOf cs s = npos := by
  have hb : List.findIdx? (fun c => decide (c ∈ cs)) s.reverse = none := by
    rw [List.findIdx?_eq_none_iff]
    intro x hx
    simpa using h x (List.mem_reverse.1 hx)
  unfold findLastOf
  rw [hb]

theorem substr_zero (s : Str) (n : ℕ) : substr s 0 n = .ok (s.take n) := by
  simp [substr]

theorem substr_ok {s : Str} {pos n : ℕ} (h : pos ≤ s.length) :
    substr s pos n = .ok ((s.drop pos).take n) := by
  unfold substr
  rw [if_neg (by omega)]

/-- Everything after the position, for a string shorter than the address space. -/
theorem substr_rest {a b : Str} {n : ℕ} (h : b.length ≤ n) :
    substr (a ++ b) a.length n = .ok b := by
  rw [substr_ok (by simp)]
  simp [List.take_of_length_le h]

end Apollo.Callpath

namespace Apollo.Callpath

/-- The address between the first `[` and the last `]`. -/
theorem addr_part {q addr : Str} (hq : '[' ∉ q) (hlen : q.length + addr.length + 2 < 2 ^ 32) :
    substr (q ++ '[' :: (addr ++ [']']))
      (toUnsigned (addSize (findFirst '[' (q ++ '[' :: (addr ++ [']']))) 1))
      (subUnsigned (toUnsigned (findLastOf [']'] (q ++ '[' :: (addr ++ [']']))))
        (toUnsigned (addSize (findFirst '[' (q ++ '[' :: (addr ++ [']']))) 1))) = .ok addr := by
  have h1 : findFirst '[' (q ++ '[' :: (addr ++ [']'])) = q.length := findFirst_append hq
  have h2 : findLastOf [']'] (q ++ '[' :: (addr ++ [']'])) = q.length + 1 + addr.length := by
    have := findLastOf_append (cs := [']']) (a := q ++ '[' :: addr) (b := []) (c := ']')
      (by simp) (by simp)
    simp only [List.append_assoc, List.cons_append, List.length_append, List.length_cons] at this
    rw [this]
    omega
  have h3 : toUnsigned (addSize q.length 1) = q.length + 1 := by
    unfold toUnsigned addSize
    rw [Nat.mod_eq_of_lt (a := q.length + 1) (by omega), Nat.mod_eq_of_lt (by omega)]
  have h4 : subUnsigned (toUnsigned (q.length + 1 + addr.length)) (q.length + 1) = addr.length := by
    unfold subUnsigned toUnsigned
    rw [Nat.mod_eq_of_lt (a := q.length + 1 + addr.length) (by omega)]
    have : q.length + 1 + addr.length + (2 ^ 32 - (q.length + 1)) = addr.length + 2 ^ 32 := by omega
    rw [this, Nat.add_mod_right, Nat.mod_eq_of_lt (by omega)]
  rw [h1, h2, h3, h4, substr_ok (by simp)]
  have : q ++ '[' :: (addr ++ [']']) = (q ++ ['[']) ++ (addr ++ [']']) := by simp
  rw [this, List.drop_append_of_le_length (by simp), List.drop_of_length_le (by simp)]
  simp

/-- The text from the first blank on: it still ends in the bracketed address, and holds no earlier
`[` unless the blank-containing prefix does. -/
theorem blank_part {P addr : Str} (hsp : ' ' ∉ P ∨ '[' ∉ P) :
    ∃ p q, P ++ ' ' :: '[' :: (addr ++ [']']) = p ++ (q ++ '[' :: (addr ++ [']'])) ∧
      findFirst ' ' (P ++ ' ' :: '[' :: (addr ++ [']'])) = p.length ∧ '[' ∉ q := by
  by_cases h : ' ' ∈ P
  · have hb : '[' ∉ P := hsp.resolve_left (fun k => k h)
    obtain ⟨p, r, rfl, hp⟩ := List.eq_append_cons_of_mem h
    refine ⟨p, ' ' :: r ++ [' '], by simp, ?_, ?_⟩
    · simpa using findFirst_append (c := ' ') (a := p)
        (b := r ++ ' ' :: '[' :: (addr ++ [']'])) hp
    · simp only [List.mem_append, List.mem_cons, not_or] at hb ⊢
      refine ⟨⟨by decide, hb.2.2⟩, by decide, List.not_mem_nil⟩
  · exact ⟨P, [' '], by simp, findFirst_append h, by decide⟩

end Apollo.Callpath
