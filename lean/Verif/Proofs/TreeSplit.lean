import Verif.Proofs.Tree

/-!
# The search for the best split
-/

namespace Apollo

open Spec

/-- The value of a cut as computed. -/
def cutVal (classes : List ℤ) (xs : List Sample) (i : ℕ) (l : ℚ) : ℚ :=
  wg classes (below xs i l) (above xs i l)

theorem cutVal_perm (classes : List ℤ) {xs ys : List Sample} (h : xs.Perm ys) (i : ℕ) (l : ℚ) :
    cutVal classes xs i l = cutVal classes ys i l :=
  wg_perm classes (below_perm h i l) (above_perm h i l)

/-- The state of the search after the cuts in `S`. -/
def ScanInv (classes : List ℤ) (xs : List Sample) (S : ℕ → ℚ → ℚ → Prop) (st : Best) : Prop :=
  match st.at? with
  | none => st.minGini = 1 ∧ ∀ i l r, S i l r → 1 ≤ cutVal classes xs i l
  | some (pos, i, l, r) => S i l r ∧ pos = (below xs i l).length ∧
      st.minGini = cutVal classes xs i l ∧ cutVal classes xs i l < 1 ∧
      ∀ i' l' r', S i' l' r' → cutVal classes xs i l ≤ cutVal classes xs i' l' ∧
        (cutVal classes xs i' l' = cutVal classes xs i l → i < i' ∨ (i = i' ∧ l ≤ l'))

theorem ScanInv.congr {classes : List ℤ} {xs : List Sample} {S S' : ℕ → ℚ → ℚ → Prop} {st : Best}
    (h : ScanInv classes xs S st) (hS : ∀ i l r, S i l r ↔ S' i l r) :
    ScanInv classes xs S' st := by
  have : S = S' := by funext i l r; exact propext (hS i l r)
  rwa [← this]

theorem ScanInv.step {classes : List ℤ} {xs : List Sample} {S S' : ℕ → ℚ → ℚ → Prop} {st : Best}
    (h : ScanInv classes xs S st) (i : ℕ) (l r : ℚ)
    (hS : ∀ i' l' r', S' i' l' r' ↔ S i' l' r' ∨ (i' = i ∧ l' = l ∧ r' = r))
    (hlast : ∀ i' l' r', S i' l' r' → i' < i ∨ (i' = i ∧ l' ≤ l)) :
    ScanInv classes xs S'
      (if st.minGini ≤ cutVal classes xs i l then st
        else ⟨cutVal classes xs i l, some ((below xs i l).length, i, l, r)⟩) := by
  unfold ScanInv at h
  cases hat : st.at? with
  | none =>
    rw [hat] at h
    obtain ⟨h1, h2⟩ := h
    split
    · rename_i hle
      unfold ScanInv
      rw [hat]
      refine ⟨h1, ?_⟩
      intro i' l' r' h'
      rcases (hS i' l' r').1 h' with h3 | ⟨rfl, rfl, rfl⟩
      · exact h2 _ _ _ h3
      · rw [← h1]; exact hle
    · rename_i hle
      unfold ScanInv
      refine ⟨(hS _ _ _).2 (Or.inr ⟨rfl, rfl, rfl⟩), rfl, rfl, by rw [← h1]; exact not_le.1 hle, ?_⟩
      intro i' l' r' h'
      rw [h1, not_le] at hle
      rcases (hS i' l' r').1 h' with h3 | ⟨rfl, rfl, rfl⟩
      · have := h2 _ _ _ h3
        exact ⟨by linarith, fun he => by linarith⟩
      · exact ⟨le_refl _, fun _ => Or.inr ⟨rfl, le_refl _⟩⟩
  | some b =>
    obtain ⟨pos, i0, l0, r0⟩ := b
    rw [hat] at h
    obtain ⟨h1, h2, h3, h4, h5⟩ := h
    split
    · rename_i hle
      unfold ScanInv
      rw [hat]
      refine ⟨(hS _ _ _).2 (Or.inl h1), h2, h3, h4, ?_⟩
      intro i' l' r' h'
      rcases (hS i' l' r').1 h' with h6 | ⟨rfl, rfl, rfl⟩
      · exact h5 _ _ _ h6
      · exact ⟨by rw [← h3]; exact hle, fun _ => hlast _ _ _ h1⟩
    · rename_i hle
      unfold ScanInv
      rw [h3, not_le] at hle
      refine ⟨(hS _ _ _).2 (Or.inr ⟨rfl, rfl, rfl⟩), rfl, rfl, by linarith, ?_⟩
      intro i' l' r' h'
      rcases (hS i' l' r').1 h' with h6 | ⟨rfl, rfl, rfl⟩
      · have := (h5 _ _ _ h6).1
        exact ⟨by linarith, fun he => by linarith⟩
      · exact ⟨le_refl _, fun _ => Or.inr ⟨rfl, le_refl _⟩⟩

/-- The state is determined by the cuts. -/
theorem ScanInv.unique {classes : List ℤ} {xs : List Sample} {k : ℕ} {st st' : Best}
    (h : ScanInv classes xs (fun i l r => IsCut xs i l r ∧ i < k) st)
    (h' : ScanInv classes xs (fun i l r => IsCut xs i l r ∧ i < k) st') : st = st' := by
  obtain ⟨m, a⟩ := st
  obtain ⟨m', a'⟩ := st'
  unfold ScanInv at h h'
  cases a with
  | none =>
    cases a' with
    | none =>
      simp only at h h'
      rw [h.1, h'.1]
    | some b' =>
      obtain ⟨pos', i', l', r'⟩ := b'
      simp only at h h'
      have := h.2 _ _ _ h'.1
      linarith [h'.2.2.2.1]
  | some b =>
    obtain ⟨pos, i, l, r⟩ := b
    cases a' with
    | none =>
      simp only at h h'
      have := h'.2 _ _ _ h.1
      linarith [h.2.2.2.1]
    | some b' =>
      obtain ⟨pos', i', l', r'⟩ := b'
      simp only at h h'
      obtain ⟨h1, h2, h3, h4, h5⟩ := h
      obtain ⟨h1', h2', h3', h4', h5'⟩ := h'
      have e1 := (h5 _ _ _ h1').1
      have e2 := (h5' _ _ _ h1).1
      have e : cutVal classes xs i l = cutVal classes xs i' l' := le_antisymm e1 e2
      have f1 := (h5 _ _ _ h1').2 e.symm
      have f2 := (h5' _ _ _ h1).2 e
      have hi : i = i' := by omega
      subst hi
      have hl : l = l' := by
        rcases f1 with h | ⟨-, h⟩
        · omega
        · rcases f2 with h' | ⟨-, h'⟩
          · omega
          · exact le_antisymm h h'
      subst hl
      have hr := h1.1.right_unique h1'.1
      subst hr
      rw [h2, h2', h3, h3']

theorem ScanInv.perm {classes : List ℤ} {xs ys : List Sample} (hp : xs.Perm ys) {k : ℕ} {st : Best}
    (h : ScanInv classes xs (fun i l r => IsCut xs i l r ∧ i < k) st) :
    ScanInv classes ys (fun i l r => IsCut ys i l r ∧ i < k) st := by
  have hS : ∀ i l r, (IsCut xs i l r ∧ i < k) ↔ (IsCut ys i l r ∧ i < k) := fun i l r =>
    ⟨fun h => ⟨h.1.perm hp, h.2⟩, fun h => ⟨h.1.perm hp.symm, h.2⟩⟩
  have h := h.congr hS
  unfold ScanInv at h ⊢
  have hv : ∀ i l, cutVal classes xs i l = cutVal classes ys i l := cutVal_perm classes hp
  have hb : ∀ i l, (below xs i l).length = (below ys i l).length := fun i l =>
    (below_perm hp i l).length_eq
  simpa only [hv, hb] using h

/-- One position. -/
theorem scanPos_inv {classes : List ℤ} {xs ys : List Sample} {k : ℕ} (hp : ys.Perm xs)
    (hs : SortedBy k ys) {j : ℕ} (h1 : 1 ≤ j) (h2 : j < ys.length) {st : Best}
    (h : ScanInv classes xs
      (fun i l r => IsCut xs i l r ∧ (i < k ∨ (i = k ∧ (below xs i l).length < j))) st) :
    ScanInv classes xs
      (fun i l r => IsCut xs i l r ∧ (i < k ∨ (i = k ∧ (below xs i l).length < j + 1)))
      (scanPos classes k ys st j) := by
  have hlen : ∀ l, (below xs k l).length = (below ys k l).length := fun l =>
    (below_perm hp k l).length_eq.symm
  unfold scanPos
  rw [getD_map_feat ys k h2, getD_map_feat ys k (show j - 1 < ys.length by omega)]
  have hchar : ∀ l r, IsCut xs k l r → (below xs k l).length = j →
      l = feat (ys[j - 1]'(by omega)) k ∧ r = feat ys[j] k := by
    intro l r hc hj
    obtain ⟨j', h1', h2', hj', e1, e2⟩ := pos_of_cut hs (hc.perm hp.symm)
    rw [← hlen, hj] at hj'
    subst hj'
    exact ⟨e1.symm, e2.symm⟩
  by_cases heq : feat (ys[j - 1]'(by omega)) k = feat ys[j] k
  · simp only [heq, if_true]
    refine h.congr ?_
    intro i l r
    constructor
    · rintro ⟨hc, h⟩
      exact ⟨hc, by omega⟩
    · rintro ⟨hc, h0 | ⟨rfl, h0⟩⟩
      · exact ⟨hc, Or.inl h0⟩
      · refine ⟨hc, Or.inr ⟨rfl, ?_⟩⟩
        rcases Nat.lt_or_eq_of_le (Nat.le_of_lt_succ h0) with h' | h'
        · exact h'
        · obtain ⟨e1, e2⟩ := hchar l r hc h'
          have := hc.lt
          rw [e1, e2, heq] at this
          exact absurd this (lt_irrefl _)
  · simp only [if_neg heq]
    obtain ⟨hcut, ht, hd⟩ := cut_of_pos hs h1 h2 heq
    have hw : weightedGini classes ys j = cutVal classes xs k (feat (ys[j - 1]'(by omega)) k) := by
      rw [weightedGini_eq classes ys (by omega), ht, hd]
      exact wg_perm classes (below_perm hp _ _) (above_perm hp _ _)
    have hj : (below xs k (feat (ys[j - 1]'(by omega)) k)).length = j := by
      rw [hlen, ← ht, List.length_take]
      omega
    rw [hw]
    have := h.step (S' := fun i l r => IsCut xs i l r ∧
        (i < k ∨ (i = k ∧ (below xs i l).length < j + 1))) k (feat (ys[j - 1]'(by omega)) k)
      (feat ys[j] k) ?_ ?_
    · rw [hj] at this
      exact this
    · intro i l r
      constructor
      · rintro ⟨hc, h0 | ⟨rfl, h0⟩⟩
        · exact Or.inl ⟨hc, Or.inl h0⟩
        · rcases Nat.lt_or_eq_of_le (Nat.le_of_lt_succ h0) with h' | h'
          · exact Or.inl ⟨hc, Or.inr ⟨rfl, h'⟩⟩
          · obtain ⟨e1, e2⟩ := hchar l r hc h'
            exact Or.inr ⟨rfl, e1, e2⟩
      · rintro (⟨hc, h⟩ | ⟨rfl, rfl, rfl⟩)
        · exact ⟨hc, by omega⟩
        · exact ⟨hcut.perm hp, Or.inr ⟨rfl, by omega⟩⟩
    · rintro i l r ⟨hc, h | ⟨rfl, h⟩⟩
      · exact Or.inl h
      · refine Or.inr ⟨rfl, ?_⟩
        by_contra hcon
        have := below_length_lt (not_le.1 hcon) hc
        omega

theorem below_length_pos {xs : List Sample} {i : ℕ} {l r : ℚ} (hc : IsCut xs i l r) :
    0 < (below xs i l).length := by
  obtain ⟨x, hx, hxl⟩ := hc.left
  apply List.length_pos_of_mem (a := x)
  simp only [below, List.mem_filter, hx, true_and, decide_eq_true_eq]
  exact le_of_eq hxl

theorem above_length_pos {xs : List Sample} {i : ℕ} {l r : ℚ} (hc : IsCut xs i l r) :
    0 < (above xs i l).length := by
  obtain ⟨x, hx, hxl⟩ := hc.right
  apply List.length_pos_of_mem (a := x)
  simp only [above, List.mem_filter, hx, true_and, decide_eq_true_eq, not_le]
  rw [hxl]; exact hc.lt

theorem below_length_lt_length {xs : List Sample} {i : ℕ} {l r : ℚ} (hc : IsCut xs i l r) :
    (below xs i l).length < xs.length := by
  have h1 := (below_above_perm xs i l).length_eq
  have h2 := above_length_pos hc
  rw [List.length_append] at h1
  omega

/-- One feature. -/
theorem scanFeature_inv {classes : List ℤ} {xs ys : List Sample} {k : ℕ} (hp : ys.Perm xs)
    (hs : SortedBy k ys) {st : Best}
    (h : ScanInv classes xs (fun i l r => IsCut xs i l r ∧ i < k) st) :
    ScanInv classes xs (fun i l r => IsCut xs i l r ∧ i < k + 1)
      (scanFeature classes k ys st) := by
  have key : ∀ m, m + 1 ≤ ys.length → ∀ st,
      ScanInv classes xs
        (fun i l r => IsCut xs i l r ∧ (i < k ∨ (i = k ∧ (below xs i l).length < 1))) st →
      ScanInv classes xs
        (fun i l r => IsCut xs i l r ∧ (i < k ∨ (i = k ∧ (below xs i l).length < m + 1)))
        ((List.range' 1 m).foldl (scanPos classes k ys) st) := by
    intro m hm st h
    induction m with
    | zero => exact h
    | succ m ih =>
      rw [List.range'_1_concat, List.foldl_append]
      simp only [List.foldl_cons, List.foldl_nil]
      have := ih (by omega)
      rw [Nat.add_comm 1 m]
      exact scanPos_inv hp hs (by omega) (by omega) this
  unfold scanFeature
  have h0 : ScanInv classes xs
      (fun i l r => IsCut xs i l r ∧ (i < k ∨ (i = k ∧ (below xs i l).length < 1))) st := by
    refine h.congr ?_
    intro i l r
    constructor
    · rintro ⟨hc, h⟩; exact ⟨hc, Or.inl h⟩
    · rintro ⟨hc, h | ⟨-, h⟩⟩
      · exact ⟨hc, h⟩
      · have := below_length_pos hc; omega
  by_cases hl : ys.length = 0
  · rw [hl]
    refine h0.congr ?_
    intro i l r
    have hx : ∀ i l r, ¬ IsCut xs i l r := by
      intro i l r hc
      obtain ⟨x, hx, -⟩ := hc.left
      rw [List.length_eq_zero_iff] at hl
      rw [hl] at hp
      rw [hp.symm.eq_nil] at hx
      simp at hx
    simp [hx]
  · have := key (ys.length - 1) (by omega) st h0
    refine this.congr ?_
    intro i l r
    constructor
    · rintro ⟨hc, h⟩; exact ⟨hc, by omega⟩
    · rintro ⟨hc, h⟩
      refine ⟨hc, ?_⟩
      have := below_length_lt_length hc
      rw [← hp.length_eq] at this
      omega

theorem sortBy_ok {σ : SortFn} {i : ℕ} {xs : List Sample} (h : ∀ x ∈ xs, i < x.1.length) :
    sortBy σ i xs = .ok (σ i xs) := by
  unfold sortBy
  rw [if_pos]
  simpa using h

/-- All features. -/
theorem scanAll {σ : SortFn} (hσ : SortSpec σ) (classes : List ℤ) {xs : List Sample} {k : ℕ}
    (hk : ∀ x ∈ xs, x.1.length = k) (m : ℕ) (hm : m ≤ k) :
    ∃ ys best, (List.range m).foldlM (scanStep σ classes) (xs, ⟨1, none⟩) = .ok (ys, best) ∧
      ys.Perm xs ∧ ScanInv classes xs (fun i l r => IsCut xs i l r ∧ i < m) best := by
  induction m with
  | zero =>
    refine ⟨xs, ⟨1, none⟩, rfl, List.Perm.refl _, ?_⟩
    simp [ScanInv]
  | succ m ih =>
    obtain ⟨ys, best, h1, h2, h3⟩ := ih (by omega)
    have hs := hσ m ys
    refine ⟨σ m ys, scanFeature classes m (σ m ys) best, ?_, hs.1.trans h2,
      scanFeature_inv (hs.1.trans h2) hs.2 h3⟩
    rw [List.range_succ, List.foldlM_append, h1]
    simp only [Res.bind_ok, List.foldlM_cons, List.foldlM_nil]
    unfold scanStep
    rw [sortBy_ok (by intro x hx; rw [hk x (h2.mem_iff.1 hx)]; omega)]
    rfl

/-- What a conforming split is. -/
structure IsSplit (classes : List ℤ) (k : ℕ) (xs ys : List Sample) (pos fidx : ℕ) (thr l r : ℚ) :
    Prop where
  perm : ys.Perm xs
  best : IsFirstBest (wg classes) k xs fidx l r
  lt_one : wg classes (below xs fidx l) (above xs fidx l) < 1
  thr_eq : thr = threshold l r
  take : ys.take pos = below ys fidx l
  drop : ys.drop pos = above ys fidx l

/-- The outcome of the search. -/
theorem split_cases {σ : SortFn} (hσ : SortSpec σ) (classes : List ℤ) {xs : List Sample} {k : ℕ}
    (hk : ∀ x ∈ xs, x.1.length = k) (hlen : 1 < xs.length) :
    (∃ ys pos fidx thr l r, split σ classes xs = .ok (ys, pos, fidx, thr) ∧
      IsSplit classes k xs ys pos fidx thr l r) ∨
    ((∀ i l r, i < k → IsCut xs i l r → 1 ≤ wg classes (below xs i l) (above xs i l)) ∧
      split σ classes xs = .error (if k = 0 then .ub .outOfBounds else .abort)) := by
  obtain ⟨ys, best, h1, h2, h3⟩ := scanAll hσ classes hk k (le_refl k)
  have hhead : (xs.headD ([], 0)).1.length = k := by
    cases xs with
    | nil => simp at hlen
    | cons x xs => exact hk x (by simp)
  have hk' : ∀ x ∈ ys, x.1.length = k := fun x hx => hk x (h2.mem_iff.1 hx)
  unfold split
  rw [if_neg (by omega)]
  simp only [hhead, h1, Res.bind_ok]
  obtain ⟨m, a⟩ := best
  cases a with
  | none =>
    right
    simp only [ScanInv] at h3
    refine ⟨fun i l r hi hc => h3.2 i l r ⟨hc, hi⟩, ?_⟩
    unfold sortBy
    by_cases hk0 : k = 0
    · rw [if_neg, if_pos hk0]
      · rfl
      · have hne : ys ≠ [] := by
          intro h
          have := h2.length_eq
          rw [h] at this
          simp at this
          omega
        obtain ⟨x, hx⟩ := List.exists_mem_of_ne_nil ys hne
        simp only [List.all_eq_true, decide_eq_true_eq, not_forall]
        exact ⟨x, hx, by rw [hk' x hx]; omega⟩
    · rw [if_pos, if_neg hk0]
      · rfl
      · simp only [List.all_eq_true, decide_eq_true_eq]
        intro x hx
        rw [hk' x hx]
        omega
  | some b =>
    left
    obtain ⟨pos, i, l, r⟩ := b
    simp only [ScanInv] at h3
    obtain ⟨⟨hc, hi⟩, hpos, hm, hlt, hall⟩ := h3
    have hs := hσ i ys
    refine ⟨σ i ys, pos, i, threshold l r, l, r, ?_, ?_⟩
    · simp only
      rw [sortBy_ok (i := i) (by intro x hx; rw [hk' x hx]; exact hi)]
      rfl
    · have hperm : (σ i ys).Perm xs := hs.1.trans h2
      obtain ⟨j, hj1, hj2, hj, e1, e2⟩ := pos_of_cut hs.2 (hc.perm hperm.symm)
      have hjp : j = pos := by rw [hj, hpos]; exact (below_perm hperm i l).length_eq
      subst hjp
      obtain ⟨-, t1, t2⟩ := cut_of_pos hs.2 hj1 hj2 (by rw [e1, e2]; exact ne_of_lt hc.lt)
      rw [e1] at t1 t2
      exact ⟨hperm, ⟨hi, hc, fun i' l' r' hi' hc' => (hall i' l' r' ⟨hc', hi'⟩).1,
        fun i' l' r' hi' hc' => (hall i' l' r' ⟨hc', hi'⟩).2⟩, hlt, rfl, t1, t2⟩

end Apollo
