import Verif.Proofs.Gini

/-!
# Shape and counters of trees

No assumption on the lengths of the feature vectors; of the sort only that it permutes.
-/

namespace Apollo

open Spec

theorem scanFeature_pos {classes : List ℤ} {fidx : ℕ} {ys : List Sample} {st : Best}
    (h : ∀ pos f l r, st.at? = some (pos, f, l, r) → 0 < pos ∧ pos < ys.length) :
    ∀ pos f l r, (scanFeature classes fidx ys st).at? = some (pos, f, l, r) →
      0 < pos ∧ pos < ys.length := by
  unfold scanFeature
  have key : ∀ (is : List ℕ) (st : Best), (∀ i ∈ is, 0 < i ∧ i < ys.length) →
      (∀ pos f l r, st.at? = some (pos, f, l, r) → 0 < pos ∧ pos < ys.length) →
      ∀ pos f l r, (is.foldl (scanPos classes fidx ys) st).at? = some (pos, f, l, r) →
        0 < pos ∧ pos < ys.length := by
    intro is
    induction is with
    | nil => intro st _ h; exact h
    | cons i is ih =>
      intro st hi h
      rw [List.foldl_cons]
      refine ih _ (fun j hj => hi j (by simp [hj])) ?_
      intro pos f l r he
      unfold scanPos at he
      simp only at he
      split at he
      · exact h _ _ _ _ he
      · split at he
        · exact h _ _ _ _ he
        · simp only [Option.some.injEq, Prod.mk.injEq] at he
          rw [← he.1]
          exact hi i (by simp)
  refine key _ st ?_ h
  intro i hi
  rw [List.mem_range'_1] at hi
  omega

theorem sortBy_perm {σ : SortFn} (hσ : ∀ i xs, (σ i xs).Perm xs) {fidx : ℕ} {xs ys : List Sample}
    (h : sortBy σ fidx xs = .ok ys) : ys.Perm xs := by
  unfold sortBy at h
  split at h
  · simp only [Except.ok.injEq] at h
    rw [← h]
    exact hσ _ _
  · simp at h

theorem scan_pos {σ : SortFn} (hσ : ∀ i xs, (σ i xs).Perm xs) {classes : List ℤ}
    {xs : List Sample} : ∀ (is : List ℕ) (st st' : List Sample × Best), st.1.Perm xs →
      (∀ pos f l r, st.2.at? = some (pos, f, l, r) → 0 < pos ∧ pos < xs.length) →
      is.foldlM (scanStep σ classes) st = .ok st' →
      st'.1.Perm xs ∧
        ∀ pos f l r, st'.2.at? = some (pos, f, l, r) → 0 < pos ∧ pos < xs.length := by
  intro is
  induction is with
  | nil =>
    intro st st' h1 h2 h
    simp only [List.foldlM_nil, Res.pure_eq, Except.ok.injEq] at h
    rw [← h]; exact ⟨h1, h2⟩
  | cons i is ih =>
    intro st st' h1 h2 h
    rw [List.foldlM_cons] at h
    obtain ⟨st1, h3, h4⟩ := (Res.bind_eq_ok _ _ _).1 h
    unfold scanStep at h3
    obtain ⟨ys, h5, h6⟩ := (Res.bind_eq_ok _ _ _).1 h3
    simp only [Except.ok.injEq] at h6
    subst h6
    have hp := (sortBy_perm hσ h5).trans h1
    refine ih _ st' hp ?_ h4
    intro pos f l r he
    rw [← hp.length_eq]
    refine scanFeature_pos ?_ pos f l r he
    intro pos f l r he
    rw [hp.length_eq]
    exact h2 pos f l r he

theorem split_pos {σ : SortFn} (hσ : ∀ i xs, (σ i xs).Perm xs) {classes : List ℤ}
    {xs ys : List Sample} {pos fidx : ℕ} {thr : ℚ}
    (h : split σ classes xs = .ok (ys, pos, fidx, thr)) :
    ys.Perm xs ∧ 0 < pos ∧ pos < xs.length := by
  unfold split at h
  split at h
  · simp at h
  obtain ⟨⟨zs, best⟩, h1, h2⟩ := (Res.bind_eq_ok _ _ _).1 h
  obtain ⟨h3, h4⟩ := scan_pos hσ _ _ _ (List.Perm.refl xs) (by simp) h1
  simp only at h2 h3 h4
  split at h2
  · obtain ⟨_, _, h5⟩ := (Res.bind_eq_ok _ _ _).1 h2
    simp at h5
  · rename_i p f l r hat
    obtain ⟨ys', h5, h6⟩ := (Res.bind_eq_ok _ _ _).1 h2
    simp only [Except.ok.injEq, Prod.mk.injEq] at h6
    obtain ⟨rfl, rfl, -, -⟩ := h6
    exact ⟨(sortBy_perm hσ h5).trans h3, h4 _ _ _ _ hat⟩

theorem numOf_append (xs ys : List Sample) (c : ℤ) : numOf (xs ++ ys) c = numOf xs c + numOf ys c := by
  unfold numOf
  rw [List.filter_append, List.length_append]

theorem buildTree_shape {σ : SortFn} (hσ : ∀ i xs, (σ i xs).Perm xs) {classes : List ℤ}
    (hnd : classes.Nodup) (d : ℕ) : ∀ {xs ys : List Sample} {t : Tree},
      (∀ x ∈ xs, x.2 ∈ classes) → buildTree σ classes d xs = .ok (t, ys) →
      ys.Perm xs ∧ height t ≤ d ∧
      (∃ n l r, t = .node n l r ∧ n.numSamples = xs.length ∧ n.counts = classes.map (numOf xs)) ∧
      ∀ p n l r, subtreeAt t p = .node n l r → GoodNode classes n l r := by
  have leafCase : ∀ (d : ℕ) {xs ys : List Sample} {g : ℚ} {n : NodeInfo}, xs ≠ [] →
      (∀ x ∈ xs, x.2 ∈ classes) →
      newNode classes g xs.length (getCountPerClass classes xs) = .ok n → xs = ys →
      ys.Perm xs ∧ height (.node n .nil .nil) ≤ d ∧
      (∃ n' l r, Tree.node n .nil .nil = .node n' l r ∧ n'.numSamples = xs.length ∧
        n'.counts = classes.map (numOf xs)) ∧
      ∀ p n' l r, subtreeAt (.node n .nil .nil) p = .node n' l r → GoodNode classes n' l r := by
    rintro d xs ys g n hne hcls hn rfl
    obtain ⟨c, rest, -, rfl⟩ := newNode_ok_iff.1 hn
    refine ⟨List.Perm.refl _, by simp [height], ⟨_, _, _, rfl, rfl, getCountPerClass_eq _ _⟩, ?_⟩
    intro p n' l r hp
    cases p with
    | nil =>
      simp only [subtreeAt, Tree.node.injEq] at hp
      obtain ⟨rfl, rfl, rfl⟩ := hp
      refine ⟨?_, List.length_pos_of_ne_nil hne, ?_, Or.inl ⟨rfl, rfl, rfl⟩⟩
      · rw [getCountPerClass_eq, sum_numOf classes hnd xs hcls]
      · rw [getCountPerClass_eq, List.length_map]
    | cons b p => cases b <;> cases p <;> simp [subtreeAt] at hp
  induction d with
  | zero =>
    intro xs ys t hcls h
    unfold buildTree at h
    obtain ⟨g, h1, h2⟩ := (Res.bind_eq_ok _ _ _).1 h
    obtain ⟨n, h3, h4⟩ := (Res.bind_eq_ok _ _ _).1 h2
    have hne : xs ≠ [] := by
      rintro rfl
      simp [computeGini] at h1
    simp only [Except.ok.injEq, Prod.mk.injEq] at h4
    obtain ⟨rfl, h5⟩ := h4
    exact leafCase 0 hne hcls h3 h5
  | succ d ih =>
    intro xs ys t hcls h
    unfold buildTree at h
    obtain ⟨g, h1, h2⟩ := (Res.bind_eq_ok _ _ _).1 h
    obtain ⟨n, h3, h4⟩ := (Res.bind_eq_ok _ _ _).1 h2
    have hne : xs ≠ [] := by
      rintro rfl
      simp [computeGini] at h1
    rw [if_neg hne] at h4
    split at h4
    · simp only [Except.ok.injEq, Prod.mk.injEq] at h4
      obtain ⟨rfl, h5⟩ := h4
      exact leafCase (d + 1) hne hcls h3 h5
    obtain ⟨⟨zs, pos, fidx, thr⟩, h5, h6⟩ := (Res.bind_eq_ok _ _ _).1 h4
    obtain ⟨⟨tl, y1⟩, h7, h8⟩ := (Res.bind_eq_ok _ _ _).1 h6
    obtain ⟨⟨tr, y2⟩, h9, h10⟩ := (Res.bind_eq_ok _ _ _).1 h8
    simp only [Except.ok.injEq, Prod.mk.injEq] at h10
    obtain ⟨rfl, rfl⟩ := h10
    obtain ⟨hp, hpos, hlt⟩ := split_pos hσ h5
    have hlen := hp.length_eq
    obtain ⟨pl, hl, ⟨nl, ll, lr, rfl, ln, lc⟩, gl⟩ := ih
      (fun x hx => hcls x (hp.mem_iff.1 (List.mem_of_mem_take hx))) h7
    obtain ⟨pr, hr, ⟨nr, rl, rr, rfl, rn, rc⟩, gr⟩ := ih
      (fun x hx => hcls x (hp.mem_iff.1 (List.mem_of_mem_drop hx))) h9
    obtain ⟨c, rest, -, rfl⟩ := newNode_ok_iff.1 h3
    rw [List.length_take] at ln
    rw [List.length_drop] at rn
    refine ⟨?_, ?_, ⟨_, _, _, rfl, rfl, getCountPerClass_eq _ _⟩, ?_⟩
    · refine (pl.append pr).trans ?_
      rw [List.take_append_drop]
      exact hp
    · simp only [height] at hl hr ⊢
      omega
    · intro p n' l r hpp
      cases p with
      | nil =>
        simp only [subtreeAt, Tree.node.injEq] at hpp
        obtain ⟨rfl, rfl, rfl⟩ := hpp
        refine ⟨?_, List.length_pos_of_ne_nil hne, ?_,
          Or.inr ⟨nl, ll, lr, nr, rl, rr, rfl, rfl, by simp, ?_, ?_, by omega, by omega⟩⟩
        · simp only
          rw [getCountPerClass_eq, sum_numOf classes hnd xs hcls]
        · simp only
          rw [getCountPerClass_eq, List.length_map]
        · simp only
          omega
        · simp only
          rw [getCountPerClass_eq, lc, rc, List.zipWith_map_left, List.zipWith_map_right,
            List.zipWith_self]
          apply List.map_congr_left
          intro c _
          rw [← numOf_append, List.take_append_drop]
          exact numOf_perm hp.symm c
      | cons b p =>
        cases b with
        | false => exact gl p n' l r hpp
        | true => exact gr p n' l r hpp

end Apollo
