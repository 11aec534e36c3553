import Verif.Spec.Tree
import Mathlib.Data.List.Sort
import Mathlib.Tactic.Linarith

/-!
# Splits of a training set: from sorted positions to cuts
-/

namespace Apollo

open Spec

theorem countClass_eq (xs : List Sample) (c : ℤ) : countClass xs c = numOf xs c := by
  unfold countClass numOf
  rw [List.countP_eq_length_filter]

theorem countClass_perm {xs ys : List Sample} (h : xs.Perm ys) (c : ℤ) :
    countClass xs c = countClass ys c := h.countP_eq _

theorem gini_perm (classes : List ℤ) {xs ys : List Sample} (h : xs.Perm ys) :
    gini classes xs = gini classes ys := by
  unfold gini
  have : giniStep xs = giniStep ys := by
    funext g c
    simp only [giniStep, countClass_perm h, h.length_eq]
  rw [this]

theorem getCountPerClass_perm (classes : List ℤ) {xs ys : List Sample} (h : xs.Perm ys) :
    getCountPerClass classes xs = getCountPerClass classes ys := by
  unfold getCountPerClass
  exact List.map_congr_left fun c _ => countClass_perm h c

/-- The weighted impurity of a partition as computed. -/
def wg (classes : List ℤ) (xs ys : List Sample) : ℚ :=
  rnd32 (rnd32 (rnd32 (rnd32 xs.length * gini classes xs) +
    rnd32 (rnd32 ys.length * gini classes ys)) / rnd32 ((xs.length + ys.length : ℕ) : ℚ))

theorem weightedGini_eq (classes : List ℤ) (ys : List Sample) {i : ℕ} (hi : i ≤ ys.length) :
    weightedGini classes ys i = wg classes (ys.take i) (ys.drop i) := by
  unfold weightedGini wg
  rw [List.length_take, List.length_drop, Nat.min_eq_left hi, Nat.add_sub_cancel' hi]

theorem wg_perm (classes : List ℤ) {xs xs' ys ys' : List Sample} (h : xs.Perm xs')
    (h' : ys.Perm ys') : wg classes xs ys = wg classes xs' ys' := by
  unfold wg
  rw [gini_perm classes h, gini_perm classes h', h.length_eq, h'.length_eq]

theorem Spec.IsCut.perm {xs ys : List Sample} (h : xs.Perm ys) {i : ℕ} {l r : ℚ} (hc : IsCut xs i l r) :
    IsCut ys i l r := by
  obtain ⟨h1, ⟨x, hx, hx'⟩, ⟨y, hy, hy'⟩, h4⟩ := hc
  exact ⟨h1, ⟨x, h.mem_iff.1 hx, hx'⟩, ⟨y, h.mem_iff.1 hy, hy'⟩, fun z hz => h4 z (h.mem_iff.2 hz)⟩

theorem below_perm {xs ys : List Sample} (h : xs.Perm ys) (i : ℕ) (l : ℚ) :
    (below xs i l).Perm (below ys i l) := h.filter _

theorem above_perm {xs ys : List Sample} (h : xs.Perm ys) (i : ℕ) (l : ℚ) :
    (above xs i l).Perm (above ys i l) := h.filter _

theorem below_above_perm (xs : List Sample) (i : ℕ) (l : ℚ) :
    (below xs i l ++ above xs i l).Perm xs := by
  unfold below above
  have := List.filter_append_perm (fun x : Sample => decide (x.1.getD i 0 ≤ l)) xs
  simpa only [decide_not] using this

/-- Sorted by feature `i`. -/
def SortedBy (i : ℕ) (ys : List Sample) : Prop := ys.Pairwise (fun a b => feat a i ≤ feat b i)

theorem getD_map_feat (ys : List Sample) (i : ℕ) {j : ℕ} (h : j < ys.length) :
    (ys.map fun x => feat x i).getD j 0 = feat ys[j] i := by
  rw [List.getD_eq_getElem?_getD, List.getElem?_map, List.getElem?_eq_getElem h]
  rfl

theorem SortedBy.le {i : ℕ} {ys : List Sample} (hs : SortedBy i ys) {a b : ℕ} (hab : a ≤ b)
    (hb : b < ys.length) : feat (ys[a]'(by omega)) i ≤ feat ys[b] i := by
  rcases Nat.lt_or_eq_of_le hab with h | h
  · exact List.pairwise_iff_getElem.1 hs a b (by omega) hb h
  · subst h; exact le_refl _

theorem below_above_append {A B : List Sample} {i : ℕ} {a : ℚ} (hA : ∀ x ∈ A, feat x i ≤ a)
    (hB : ∀ x ∈ B, a < feat x i) : below (A ++ B) i a = A ∧ above (A ++ B) i a = B := by
  unfold below above
  rw [List.filter_append, List.filter_append]
  constructor
  · rw [List.filter_eq_self.2, List.filter_eq_nil_iff.2, List.append_nil]
    · intro x hx
      simpa [feat] using hB x hx
    · intro x hx
      simpa [feat] using hA x hx
  · rw [List.filter_eq_nil_iff.2, List.filter_eq_self.2, List.nil_append]
    · intro x hx
      simpa [feat] using hB x hx
    · intro x hx
      simpa [feat] using hA x hx

/-- At a position between different values there is a cut, and the position divides the range as the
cut does. -/
theorem cut_of_pos {i : ℕ} {ys : List Sample} (hs : SortedBy i ys) {j : ℕ} (h1 : 1 ≤ j)
    (h2 : j < ys.length) (hne : feat (ys[j - 1]'(by omega)) i ≠ feat ys[j] i) :
    IsCut ys i (feat (ys[j - 1]'(by omega)) i) (feat ys[j] i) ∧
      ys.take j = below ys i (feat (ys[j - 1]'(by omega)) i) ∧
      ys.drop j = above ys i (feat (ys[j - 1]'(by omega)) i) := by
  have hlt : feat (ys[j - 1]'(by omega)) i < feat ys[j] i :=
    lt_of_le_of_ne (hs.le (by omega) h2) hne
  have ht : ∀ x ∈ ys.take j, feat x i ≤ feat (ys[j - 1]'(by omega)) i := by
    intro x hx
    obtain ⟨k, hk, rfl⟩ := List.getElem_of_mem hx
    rw [List.length_take] at hk
    rw [List.getElem_take]
    exact hs.le (by omega) (by omega)
  have hd : ∀ x ∈ ys.drop j, feat ys[j] i ≤ feat x i := by
    intro x hx
    obtain ⟨k, hk, rfl⟩ := List.getElem_of_mem hx
    rw [List.length_drop] at hk
    rw [List.getElem_drop]
    exact hs.le (by omega) (by omega)
  have hsplit : ys = ys.take j ++ ys.drop j := (List.take_append_drop j ys).symm
  have hba := below_above_append ht (fun x hx => lt_of_lt_of_le hlt (hd x hx))
  rw [← hsplit] at hba
  refine ⟨⟨hlt, ⟨_, List.getElem_mem _, rfl⟩, ⟨_, List.getElem_mem _, rfl⟩, ?_⟩, hba.1.symm,
    hba.2.symm⟩
  intro x hx
  rw [hsplit, List.mem_append] at hx
  rcases hx with hx | hx
  · exact Or.inl (ht x hx)
  · exact Or.inr (hd x hx)

/-- Every cut is at a position. -/
theorem pos_of_cut {i : ℕ} {ys : List Sample} (hs : SortedBy i ys) {l r : ℚ}
    (hc : IsCut ys i l r) :
    ∃ j, ∃ h1 : 1 ≤ j, ∃ h2 : j < ys.length, j = (below ys i l).length ∧
      feat (ys[j - 1]'(by omega)) i = l ∧ feat ys[j] i = r := by
  obtain ⟨hlt, ⟨x, hx, hxl⟩, ⟨y, hy, hyr⟩, hgap⟩ := hc
  -- the first position with value at least `r`
  have hex : ∃ j, ∃ h : j < ys.length, r ≤ feat ys[j] i := by
    obtain ⟨j, hj, rfl⟩ := List.getElem_of_mem hy
    exact ⟨j, hj, le_of_eq hyr.symm⟩
  classical
  obtain ⟨h2, h3⟩ := Nat.find_spec hex
  have hmin : ∀ m < Nat.find hex, ∀ h : m < ys.length, feat ys[m] i < r := by
    intro m hm h
    have := Nat.find_min hex hm
    push Not at this
    exact this h
  generalize Nat.find hex = j at h2 h3 hmin
  obtain ⟨m, hm, rfl⟩ := List.getElem_of_mem hx
  have hmj : m < j := by
    by_contra hcon
    have := hs.le (Nat.le_of_not_lt hcon) hm
    have e : feat ys[m] i = l := hxl
    rw [e] at this
    linarith
  have hj1 : 1 ≤ j := by omega
  have hl : feat (ys[j - 1]'(by omega)) i = l := by
    apply le_antisymm
    · rcases hgap (ys[j - 1]'(by omega)) (List.getElem_mem _) with h | h
      · exact h
      · have := hmin (j - 1) (by omega) (by omega)
        exact absurd h (not_le.2 this)
    · have := hs.le (show m ≤ j - 1 by omega) (by omega)
      have e : feat ys[m] i = l := hxl
      rwa [e] at this
  have hr : feat ys[j] i = r := by
    apply le_antisymm _ h3
    obtain ⟨q, hq, rfl⟩ := List.getElem_of_mem hy
    have e : feat ys[q] i = r := hyr
    have hjq : j ≤ q := by
      by_contra hcon
      have := hmin q (by omega) hq
      linarith
    have := hs.le hjq hq
    rwa [e] at this
  refine ⟨j, hj1, h2, ?_, hl, hr⟩
  have := (cut_of_pos hs hj1 h2 (by rw [hl, hr]; exact ne_of_lt hlt)).2.1
  rw [hl] at this
  rw [← this, List.length_take]
  omega

theorem Spec.IsCut.right_unique {xs : List Sample} {i : ℕ} {l r r' : ℚ} (h : IsCut xs i l r)
    (h' : IsCut xs i l r') : r = r' := by
  obtain ⟨a, -, ⟨y, hy, rfl⟩, d⟩ := h
  obtain ⟨a', -, ⟨y', hy', rfl⟩, d'⟩ := h'
  apply le_antisymm
  · rcases d y' hy' with h | h
    · linarith
    · exact h
  · rcases d' y hy with h | h
    · linarith
    · exact h

theorem below_length_lt {xs : List Sample} {i : ℕ} {l l' r' : ℚ} (h : l < l')
    (hc : IsCut xs i l' r') : (below xs i l).length < (below xs i l').length := by
  obtain ⟨x, hx, hxl⟩ := hc.left
  have hsub : (below xs i l).Sublist (below xs i l') := by
    apply List.monotone_filter_right
    intro a ha
    simp only [decide_eq_true_eq] at ha ⊢
    linarith
  rcases Nat.lt_or_eq_of_le hsub.length_le with h1 | h1
  · exact h1
  · exfalso
    have := hsub.eq_of_length h1
    have hm : x ∈ below xs i l' := by simp [below, hx, ← hxl]
    rw [← this] at hm
    simp only [below, List.mem_filter, decide_eq_true_eq] at hm
    linarith [hm.2]

end Apollo
