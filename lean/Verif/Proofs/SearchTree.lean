import Verif.Model.SearchTree
import Verif.Base.OMap

/-!
# A search tree whose comparator is a linear order behaves as a sorted list
-/

namespace Apollo.SearchTree

variable {κ α : Type}

theorem length_toList (t : SearchTree κ α) : t.toList.length = t.size := by
  induction t with
  | leaf => rfl
  | node l k v r hl hr => simp [toList, size, hl, hr]; omega

theorem insertPos_le (lt : κ → κ → Bool) (k : κ) (t : SearchTree κ α) :
    t.insertPos lt k ≤ t.size := by
  induction t with
  | leaf => simp [insertPos, size]
  | node l k v r hl hr =>
    simp only [insertPos, size]
    split <;> omega

theorem toList_put (lt : κ → κ → Bool) (k : κ) (v : α) (t : SearchTree κ α) :
    (t.put lt k v).toList =
      t.toList.take (t.insertPos lt k) ++ (k, v) :: t.toList.drop (t.insertPos lt k) := by
  induction t with
  | leaf => simp [put, toList, insertPos]
  | node l k' v' r hl hr =>
    have h1 := insertPos_le lt k l
    rw [← length_toList] at h1
    simp only [put, insertPos]
    split
    · simp only [toList, hl]
      rw [List.take_append_of_le_length h1, List.drop_append_of_le_length h1]
      simp
    · simp only [toList, hr, ← length_toList]
      rw [show l.toList.length + 1 + r.insertPos lt k = l.toList.length + (r.insertPos lt k + 1) by
        omega, List.take_length_add_append, List.drop_length_add_append]
      simp

theorem modifyHead_append {β : Type} (g : β → β) {l : List β} (r : List β) (h : l ≠ []) :
    (l ++ r).modifyHead g = l.modifyHead g ++ r := by
  cases l with
  | nil => exact absurd rfl h
  | cons a l => rfl

theorem toList_modify (g : α → α) (t : SearchTree κ α) (i : ℕ) :
    (t.modify g i).toList = t.toList.modify i fun e => (e.1, g e.2) := by
  induction t generalizing i with
  | leaf => simp [modify, toList]
  | node l k v r hl hr =>
    rw [modify, ← length_toList, toList]
    split
    case isTrue h =>
      rw [toList, hl, List.modify_eq_take_drop, List.modify_eq_take_drop,
        List.take_append_of_le_length h.le, List.drop_append_of_le_length h.le,
        modifyHead_append, List.append_assoc]
      simpa using h
    case isFalse h =>
      split
      case isTrue h' => subst h'; simp [toList, List.modify_eq_take_drop]
      case isFalse h' =>
        obtain ⟨j, rfl⟩ : ∃ j, i = l.toList.length + (j + 1) := ⟨i - l.toList.length - 1, by omega⟩
        rw [toList, hr, List.modify_eq_take_drop, List.modify_eq_take_drop,
          List.take_length_add_append, List.drop_length_add_append,
          show l.toList.length + (j + 1) - l.toList.length - 1 = j by omega]
        simp

/-! ## Ordered keys -/

/-- What the tree holds, with the keys replaced by what they stand for. -/
def view {L : Type} (num : κ → L) (t : SearchTree κ α) : OMap L α :=
  t.toList.map fun e => (num e.1, e.2)

variable {L : Type} [LinearOrder L] {num : κ → L} {lt : κ → κ → Bool} {P : κ → Prop}

theorem Sorted_append {m m' : OMap L α} :
    OMap.Sorted (m ++ m') ↔ m.Sorted ∧ m'.Sorted ∧ ∀ a ∈ m, ∀ b ∈ m', a.1 < b.1 :=
  List.pairwise_append

theorem Sorted_cons {a : L × α} {m : OMap L α} :
    OMap.Sorted (a :: m) ↔ (∀ b ∈ m, a.1 < b.1) ∧ m.Sorted := List.pairwise_cons

omit [LinearOrder L] in
theorem view_node (l : SearchTree κ α) (k : κ) (v : α) (r : SearchTree κ α) :
    (node l k v r).view num = l.view num ++ (num k, v) :: r.view num := by
  simp [view, toList]

omit [LinearOrder L] in
theorem length_view (t : SearchTree κ α) : (t.view num).length = t.size := by
  simp [view, length_toList]

theorem lowerBound_eq (hlt : ∀ a b, P a → P b → lt a b = decide (num a < num b))
    {t : SearchTree κ α} (ht : ∀ e ∈ t.toList, P e.1) (hs : (t.view num).Sorted) {k : κ} (hk : P k) :
    t.lowerBound lt k = (t.view num).countP fun e => e.1 < num k := by
  induction t with
  | leaf => rfl
  | node l k' v r hl hr =>
    simp only [toList, List.mem_append, List.mem_cons] at ht
    rw [view_node, Sorted_append, Sorted_cons] at hs
    obtain ⟨s1, ⟨s3, s2⟩, s4⟩ := hs
    rw [lowerBound, hlt _ _ (ht _ (.inr (.inl rfl))) hk, view_node, List.countP_append,
      List.countP_cons, hl (fun e he => ht e (.inl he)) s1,
      hr (fun e he => ht e (.inr (.inr he))) s2]
    by_cases h : num k' < num k
    · have : (l.view num).countP (fun e => e.1 < num k) = l.size := by
        rw [← length_view (num := num), List.countP_eq_length]
        intro e he
        simpa using (s4 e he (num k', v) (by simp)).trans h
      simp [h, this]
      omega
    · have : (r.view num).countP (fun e => e.1 < num k) = 0 := by
        rw [List.countP_eq_zero]
        intro e he
        simpa using (not_lt.1 h).trans (s3 e he).le
      simp [h, this]

theorem insertPos_eq (hlt : ∀ a b, P a → P b → lt a b = decide (num a < num b))
    {t : SearchTree κ α} (ht : ∀ e ∈ t.toList, P e.1) (hs : (t.view num).Sorted) {k : κ} (hk : P k) :
    t.insertPos lt k = (t.view num).countP fun e => e.1 ≤ num k := by
  induction t with
  | leaf => rfl
  | node l k' v r hl hr =>
    simp only [toList, List.mem_append, List.mem_cons] at ht
    rw [view_node, Sorted_append, Sorted_cons] at hs
    obtain ⟨s1, ⟨s3, s2⟩, s4⟩ := hs
    rw [insertPos, hlt _ _ hk (ht _ (.inr (.inl rfl))), view_node, List.countP_append,
      List.countP_cons, hl (fun e he => ht e (.inl he)) s1,
      hr (fun e he => ht e (.inr (.inr he))) s2]
    by_cases h : num k < num k'
    · have : (r.view num).countP (fun e => e.1 ≤ num k) = 0 := by
        rw [List.countP_eq_zero]
        intro e he
        simpa using h.trans (s3 e he)
      simp [h, this]
    · have : (l.view num).countP (fun e => e.1 ≤ num k) = l.size := by
        rw [← length_view (num := num), List.countP_eq_length]
        intro e he
        simpa using (s4 e he (num k', v) (by simp)).le.trans (not_lt.1 h)
      simp [h, not_lt.1 h, this]
      omega

/-- Insertion or update in a sorted list, by position. -/
theorem upsert_eq (f : Option α → α) (k : L) {m : OMap L α} (hs : m.Sorted) :
    OMap.upsert f k m =
      if (m.map Prod.fst)[m.countP fun e => e.1 < k]? = some k then
        m.modify (m.countP fun e => e.1 < k) fun e => (e.1, f (some e.2))
      else m.take (m.countP fun e => e.1 < k) ++ (k, f none) ::
        m.drop (m.countP fun e => e.1 < k) := by
  induction m with
  | nil => simp [OMap.upsert]
  | cons a m ih =>
    obtain ⟨k', v⟩ := a
    rw [Sorted_cons] at hs
    rw [OMap.upsert, List.countP_cons]
    have h0 : ¬ k' < k → (m.countP fun e => e.1 < k) = 0 := by
      intro h
      rw [List.countP_eq_zero]
      intro e he
      simpa using (not_lt.1 h).trans (hs.1 e he).le
    rcases lt_trichotomy k k' with h | h | h
    · rw [if_pos h, h0 h.not_gt]
      simp [h.not_gt, h.ne']
    · subst h
      rw [if_neg (lt_irrefl _), if_pos rfl, h0 (lt_irrefl _)]
      simp
    · rw [if_neg h.not_gt, if_neg h.ne', ih hs.2,
        if_pos (by simpa using h : decide ((k', v).1 < k) = true)]
      simp only [List.map_cons, List.getElem?_cons_succ, List.modify_succ_cons,
        List.take_succ_cons, List.drop_succ_cons]
      split <;> rfl

theorem split_sorted {m : OMap L α} (hs : m.Sorted) (k : L) :
    ∃ a b, m = a ++ b ∧ (∀ e ∈ a, e.1 < k) ∧ ∀ e ∈ b, k ≤ e.1 := by
  induction m with
  | nil => exact ⟨[], [], by simp⟩
  | cons x m ih =>
    rw [Sorted_cons] at hs
    by_cases h : x.1 < k
    · obtain ⟨a, b, rfl, h1, h2⟩ := ih hs.2
      exact ⟨x :: a, b, rfl, by simpa using ⟨h, fun k' v hv => h1 _ hv⟩, h2⟩
    · refine ⟨[], x :: m, rfl, by simp, ?_⟩
      intro e he
      rcases List.mem_cons.1 he with rfl | he
      · exact not_lt.1 h
      · exact (not_lt.1 h).trans (hs.1 e he).le

theorem view_upsert (hlt : ∀ a b, P a → P b → lt a b = decide (num a < num b))
    {balance : SearchTree κ α → SearchTree κ α} (hb : ∀ t, (balance t).toList = t.toList)
    {t : SearchTree κ α} (ht : ∀ e ∈ t.toList, P e.1) (hs : (t.view num).Sorted) {k : κ} (hk : P k)
    (f : Option α → α) {t' : SearchTree κ α}
    (h : t' = match t.find lt k with
      | none => t.emplace lt balance k (f none)
      | some i => t.modify (fun v => f (some v)) i) :
    t'.view num = OMap.upsert f (num k) (t.view num) ∧ ∀ e ∈ t'.toList, P e.1 := by
  have e1 := lowerBound_eq hlt ht hs hk
  have e2 := insertPos_eq hlt ht hs hk
  rw [upsert_eq f (num k) hs]
  obtain ⟨a', b', hab, ha', hb'⟩ := split_sorted hs (num k)
  obtain ⟨a, b, htl, rfl, rfl⟩ := List.map_eq_append_iff.1 hab
  have ha : ∀ e ∈ a, num e.1 < num k := fun e he => ha' _ (List.mem_map_of_mem he)
  have hbk : ∀ e ∈ b, num k ≤ num e.1 := fun e he => hb' _ (List.mem_map_of_mem he)
  have hn : ((t.view num).countP fun e => e.1 < num k) = a.length := by
    rw [hab, List.countP_append, List.countP_eq_length.2 (by simpa using ha'),
      List.countP_eq_zero.2 (by simpa using hb')]
    simp
  rw [hn] at e1 ⊢
  have hget : ((t.view num).map Prod.fst)[a.length]? = b.head?.map fun e => num e.1 := by
    rw [hab, ← List.map_append, List.map_map, List.getElem?_map, List.getElem?_append_right le_rfl]
    cases b <;> simp [Function.comp_def]
  have hgt : t.toList[a.length]? = b.head? := by
    rw [htl, List.getElem?_append_right le_rfl]
    cases b <;> simp
  rw [hget]
  have hmem : ∀ e, e ∈ t.toList ↔ e ∈ a ∨ e ∈ b := by simp [htl]
  have hput : (∀ e ∈ b, num k < num e.1) → t.find lt k = none →
      t'.view num = (t.view num).take a.length ++ (num k, f none) :: (t.view num).drop a.length ∧
        ∀ e ∈ t'.toList, P e.1 := by
    intro hlt' hf
    rw [hf] at h
    have e3 : t.insertPos lt k = a.length := by
      rw [e2, hab, List.countP_append, List.countP_eq_length.2 (by
        intro e he
        obtain ⟨x, hx, rfl⟩ := List.mem_map.1 he
        simpa using (ha x hx).le), List.countP_eq_zero.2 (by
        intro e he
        obtain ⟨x, hx, rfl⟩ := List.mem_map.1 he
        simpa using hlt' x hx)]
      simp
    have e4 : t' = balance (t.put lt k (f none)) := by
      rw [h]
      show t.emplace lt balance k (f none) = _
      rw [emplace]
      cases hl : a.length with
      | zero => rw [e3, hl]
      | succ i =>
        rw [e3, hl]
        have hi : i < a.length := by omega
        have : t.toList[i]? = some a[i] := by
          rw [htl, List.getElem?_append_left hi, List.getElem?_eq_getElem hi]
        dsimp only
        rw [this]
        dsimp only
        rw [hlt _ _ (ht _ ((hmem _).2 (.inl (List.getElem_mem hi)))) hk,
          if_pos (by simpa using ha _ (List.getElem_mem hi))]
    have e5 : t'.toList = a ++ (k, f none) :: b := by
      rw [e4, hb, toList_put, e3, htl]
      simp
    refine ⟨?_, ?_⟩
    · rw [view, e5, hab]
      simp
    · rw [e5]
      intro e he
      simp only [List.mem_append, List.mem_cons] at he
      rcases he with he | rfl | he
      · exact ht e ((hmem e).2 (.inl he))
      · exact hk
      · exact ht e ((hmem e).2 (.inr he))
  cases hbc : b with
  | nil =>
    subst hbc
    simp only [List.head?_nil, Option.map_none, reduceCtorEq, if_false]
    refine hput (by simp) ?_
    rw [find, e1, hgt]
    rfl
  | cons x b2 =>
    have hx : P x.1 := ht x ((hmem x).2 (.inr (by simp [hbc])))
    have hfind : t.find lt k = if num k < num x.1 then none else some a.length := by
      rw [find, e1, hgt, hbc]
      simp [hlt _ _ hk hx]
    have hs2 := hs
    rw [hab, Sorted_append, hbc, List.map_cons, Sorted_cons] at hs2
    simp only [List.head?_cons, Option.map_some, Option.some.injEq]
    rcases (hbk x (by simp [hbc])).lt_or_eq with h3 | h3
    · rw [if_neg h3.ne']
      refine hput ?_ (by rw [hfind, if_pos h3])
      intro e he
      rw [hbc] at he
      rcases List.mem_cons.1 he with rfl | he
      · exact h3
      · exact h3.trans (hs2.2.1.1 (num e.1, e.2) (List.mem_map_of_mem (f := fun e : κ × α =>
          (num e.1, e.2)) he))
    · rw [if_pos h3.symm]
      rw [hfind, if_neg h3.not_lt] at h
      have e5 : t'.toList = a ++ (x.1, f (some x.2)) :: b2 := by
        rw [h]
        show (t.modify (fun v => f (some v)) a.length).toList = _
        rw [toList_modify, htl, hbc, List.modify_eq_take_drop]
        simp
      refine ⟨?_, ?_⟩
      · rw [view, e5, hab, hbc, List.modify_eq_take_drop]
        simp
      · rw [e5]
        intro e he
        simp only [List.mem_append, List.mem_cons] at he
        rcases he with he | rfl | he
        · exact ht e ((hmem e).2 (.inl he))
        · exact hx
        · exact ht e ((hmem e).2 (.inr (by simp [hbc, he])))

end Apollo.SearchTree
