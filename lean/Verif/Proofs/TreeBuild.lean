import Verif.Proofs.TreeSplit

/-!
# Building a tree
-/

namespace Apollo

open Spec

theorem newNode_ok_iff {classes : List ℤ} {g : ℚ} {m : ℕ} {cs : List ℕ} {n : NodeInfo} :
    newNode classes g m cs = .ok n ↔
      ∃ c rest, classes = c :: rest ∧ n = ⟨g, m, c, -1, 0, cs⟩ := by
  unfold newNode
  cases classes with
  | nil => simp [maxElementIdx]
  | cons c rest =>
    simp only [maxElementIdx, List.getElem?_cons_zero, Except.ok.injEq, List.cons.injEq]
    constructor
    · rintro rfl; exact ⟨c, rest, ⟨rfl, rfl⟩, rfl⟩
    · rintro ⟨c', rest', ⟨rfl, rfl⟩, rfl⟩; rfl

theorem newNode_cons (c : ℤ) (rest : List ℤ) (g : ℚ) (m : ℕ) (cs : List ℕ) :
    newNode (c :: rest) g m cs = .ok ⟨g, m, c, -1, 0, cs⟩ :=
  newNode_ok_iff.2 ⟨c, rest, rfl, rfl⟩

theorem newNode_nil (g : ℚ) (m : ℕ) (cs : List ℕ) :
    newNode [] g m cs = .error (.ub .outOfBounds) := rfl

theorem getCountPerClass_eq (classes : List ℤ) (xs : List Sample) :
    getCountPerClass classes xs = classes.map (numOf xs) := by
  unfold getCountPerClass
  exact List.map_congr_left fun c _ => countClass_eq xs c

theorem numOf_perm {xs ys : List Sample} (h : xs.Perm ys) (c : ℤ) : numOf xs c = numOf ys c := by
  rw [← countClass_eq, ← countClass_eq, countClass_perm h]

/-- The model's tree for the samples. -/
abbrev GrownM (classes : List ℤ) (k d : ℕ) (xs : List Sample) (t : Tree) : Prop :=
  Grown classes (gini classes) (wg classes) threshold k d xs t

theorem Spec.IsFirstBest.perm {classes : List ℤ} {k : ℕ} {xs ys : List Sample} (hp : xs.Perm ys)
    {i : ℕ} {l r : ℚ} (h : IsFirstBest (wg classes) k xs i l r) :
    IsFirstBest (wg classes) k ys i l r := by
  have hw : ∀ i l, wg classes (below ys i l) (above ys i l) =
      wg classes (below xs i l) (above xs i l) := fun i l =>
    wg_perm classes (below_perm hp.symm i l) (above_perm hp.symm i l)
  refine ⟨h.feature, h.cut.perm hp, ?_, ?_⟩
  · intro i' l' r' hi' hc
    rw [hw, hw]
    exact h.least i' l' r' hi' (hc.perm hp.symm)
  · intro i' l' r' hi' hc
    rw [hw, hw]
    exact h.first i' l' r' hi' (hc.perm hp.symm)

theorem grown_perm {classes : List ℤ} {k d : ℕ} {xs ys : List Sample} {t : Tree}
    (h : GrownM classes k d xs t) (hp : xs.Perm ys) : GrownM classes k d ys t := by
  induction h generalizing ys with
  | leaf d xs n hd hg hn hc hi =>
    refine .leaf d ys n ?_ ?_ ?_ ?_ hi
    · rwa [← gini_perm classes hp]
    · rwa [← gini_perm classes hp]
    · rwa [← hp.length_eq]
    · rw [hc]; exact List.map_congr_left fun c _ => numOf_perm hp c
  | inner d xs n i l r tl tr himp hg hn hc hbest hi ht hl hr ihl ihr =>
    refine .inner d ys n i l r tl tr ?_ ?_ ?_ ?_ (hbest.perm hp) hi ht (ihl (below_perm hp i l))
      (ihr (above_perm hp i l))
    · rwa [← gini_perm classes hp]
    · rwa [← gini_perm classes hp]
    · rwa [← hp.length_eq]
    · rw [hc]; exact List.map_congr_left fun c _ => numOf_perm hp c

theorem float32_natCast {n : ℕ} (h : n ≤ 2 ^ 24) : Float32 (n : ℚ) := by
  have : Representable 24 (-149) (((n : ℤ)) : ℚ) :=
    representable_intCast (by norm_num) (by rw [abs_of_nonneg (by positivity)]; exact_mod_cast h)
  rw [Int.cast_natCast] at this
  exact this

theorem rnd32_natCast {n : ℕ} (h : n ≤ 2 ^ 24) : rnd32 (n : ℚ) = n :=
  rnd_of_representable (by norm_num) (float32_natCast h)

/-- One class only: no impurity. -/
theorem gini_pure (classes : List ℤ) (hnd : classes.Nodup) {xs : List Sample} (hne : xs ≠ [])
    {c : ℤ} (hc : c ∈ classes) (h : ∀ x ∈ xs, x.2 = c) (hlen : xs.length ≤ 2 ^ 24) :
    gini classes xs = 0 := by
  have hcount : ∀ c', countClass xs c' = if c' = c then xs.length else 0 := by
    intro c'
    unfold countClass
    split
    · rename_i heq
      subst heq
      rw [List.countP_eq_length]
      simpa using h
    · rename_i hne'
      rw [List.countP_eq_zero]
      intro x hx
      simp only [decide_eq_true_eq]
      rw [h x hx]
      exact fun he => hne' he.symm
  have h0 : rnd32 0 = 0 := rnd_of_representable (by norm_num) representable_zero
  have h1 : rnd32 1 = 1 := by simpa using rnd32_natCast (n := 1) (by norm_num)
  have hlenr : rnd32 (xs.length : ℚ) = xs.length := rnd32_natCast hlen
  have hpos : (0 : ℚ) < xs.length := by
    have := List.length_pos_of_ne_nil hne
    exact_mod_cast this
  have hstep1 : giniStep xs 0 c = 1 := by
    unfold giniStep
    rw [hcount, if_pos rfl, hlenr, div_self (ne_of_gt hpos), h1]
    norm_num
    rw [h1, h1]
  have hstep0 : ∀ g c', Representable 24 (-149) g → c' ≠ c → giniStep xs g c' = g := by
    intro g c' hg hc'
    unfold giniStep
    rw [hcount, if_neg hc']
    simp only [Nat.cast_zero, h0, zero_div, mul_zero, add_zero]
    exact rnd_of_representable (by norm_num) hg
  have hrep1 : Representable 24 (-149) (1 : ℚ) := by
    rw [← h1]; exact representable_rnd _
  have hfold0 : ∀ cs : List ℤ, c ∉ cs → ∀ g, Representable 24 (-149) g →
      cs.foldl (giniStep xs) g = g := by
    intro cs
    induction cs with
    | nil => intros; rfl
    | cons a cs ih =>
      intro hmem g hg
      simp only [List.mem_cons, not_or] at hmem
      rw [List.foldl_cons, hstep0 g a hg (fun e => hmem.1 e.symm)]
      exact ih hmem.2 g hg
  obtain ⟨as, bs, rfl⟩ := List.append_of_mem hc
  have hna : c ∉ as := by
    intro hm
    rw [List.nodup_append] at hnd
    exact hnd.2.2 c hm c (by simp) rfl
  have hnb : c ∉ bs := by
    rw [List.nodup_append] at hnd
    exact (List.nodup_cons.1 hnd.2.1).1
  unfold gini
  rw [List.foldl_append, hfold0 as hna 0 representable_zero, List.foldl_cons, hstep1,
    hfold0 bs hnb 1 hrep1]
  rw [sub_self, h0]

/-- Success of training yields the specified tree. -/
theorem buildTree_grown {σ : SortFn} (hσ : SortSpec σ) (classes : List ℤ) {k : ℕ} (d : ℕ) :
    ∀ {xs : List Sample} {t : Tree} {ys : List Sample}, (∀ x ∈ xs, x.1.length = k) →
      buildTree σ classes d xs = .ok (t, ys) →
      GrownM classes k d xs t ∧ ys.Perm xs := by
  induction d with
  | zero =>
    intro xs t ys hk h
    unfold buildTree at h
    obtain ⟨g, h1, h2⟩ := (Res.bind_eq_ok _ _ _).1 h
    obtain ⟨n, h3, h4⟩ := (Res.bind_eq_ok _ _ _).1 h2
    simp only [Except.ok.injEq, Prod.mk.injEq] at h4
    obtain ⟨rfl, rfl⟩ := h4
    obtain ⟨c, rest, hcl, rfl⟩ := newNode_ok_iff.1 h3
    unfold computeGini at h1
    split at h1
    · simp at h1
    · simp only [Except.ok.injEq] at h1
      subst h1
      exact ⟨.leaf 0 xs _ (Or.inl rfl) rfl rfl (getCountPerClass_eq classes xs) rfl,
        List.Perm.refl _⟩
  | succ d ih =>
    intro xs t ys hk h
    unfold buildTree at h
    obtain ⟨g, h1, h2⟩ := (Res.bind_eq_ok _ _ _).1 h
    obtain ⟨n, h3, h4⟩ := (Res.bind_eq_ok _ _ _).1 h2
    obtain ⟨c, rest, hcl, hn⟩ := newNode_ok_iff.1 h3
    unfold computeGini at h1
    split at h1
    · simp at h1
    rename_i hne
    simp only [Except.ok.injEq] at h1
    subst h1
    rw [if_neg hne] at h4
    by_cases hg : gini classes xs ≤ 0
    · rw [if_pos hg] at h4
      simp only [Except.ok.injEq, Prod.mk.injEq] at h4
      obtain ⟨rfl, rfl⟩ := h4
      subst hn
      exact ⟨.leaf (d + 1) xs _ (Or.inr hg) rfl rfl (getCountPerClass_eq classes xs) rfl,
        List.Perm.refl _⟩
    · rw [if_neg hg] at h4
      obtain ⟨⟨zs, pos, fidx, thr⟩, h5, h6⟩ := (Res.bind_eq_ok _ _ _).1 h4
      have hlen : 1 < xs.length := by
        by_contra hcon
        unfold split at h5
        rw [if_pos (by omega)] at h5
        simp at h5
      rcases split_cases hσ classes hk hlen with ⟨zs', pos', fidx', thr', l, r, e, hs⟩ | ⟨-, e⟩
      · rw [e] at h5
        simp only [Except.ok.injEq, Prod.mk.injEq] at h5
        obtain ⟨rfl, rfl, rfl, rfl⟩ := h5
        obtain ⟨⟨tl, ys1⟩, h7, h8⟩ := (Res.bind_eq_ok _ _ _).1 h6
        obtain ⟨⟨tr, ys2⟩, h9, h10⟩ := (Res.bind_eq_ok _ _ _).1 h8
        simp only [Except.ok.injEq, Prod.mk.injEq] at h10
        obtain ⟨rfl, rfl⟩ := h10
        have hkz : ∀ x ∈ zs', x.1.length = k := fun x hx => hk x (hs.perm.mem_iff.1 hx)
        obtain ⟨g1, p1⟩ := ih (fun x hx => hkz x (List.mem_of_mem_take hx)) h7
        obtain ⟨g2, p2⟩ := ih (fun x hx => hkz x (List.mem_of_mem_drop hx)) h9
        refine ⟨?_, ?_⟩
        · subst hn
          refine .inner d xs _ fidx' l r tl tr (not_le.1 hg) rfl rfl
            (getCountPerClass_eq classes xs) hs.best rfl hs.thr_eq ?_ ?_
          · rw [hs.take] at g1
            exact grown_perm g1 (below_perm hs.perm _ _)
          · rw [hs.drop] at g2
            exact grown_perm g2 (above_perm hs.perm _ _)
        · have := p1.append p2
          rw [List.take_append_drop] at this
          exact this.trans hs.perm
      · rw [e] at h5
        split at h5 <;> simp at h5

/-- The outcome does not depend on the order of the samples nor on the sort. -/
theorem buildTree_perm {σ σ' : SortFn} (hσ : SortSpec σ) (hσ' : SortSpec σ') (classes : List ℤ)
    {k : ℕ} (d : ℕ) : ∀ {xs xs' : List Sample}, (∀ x ∈ xs, x.1.length = k) → xs.Perm xs' →
      (buildTree σ classes d xs).map Prod.fst = (buildTree σ' classes d xs').map Prod.fst := by
  induction d with
  | zero =>
    intro xs xs' hk hp
    unfold buildTree computeGini
    have hnil : xs = [] ↔ xs' = [] := by
      constructor
      · rintro rfl; exact hp.symm.eq_nil
      · rintro rfl; exact hp.eq_nil
    rw [gini_perm classes hp, getCountPerClass_perm classes hp, hp.length_eq]
    by_cases hx : xs = []
    · rw [if_pos hx, if_pos (hnil.1 hx)]; rfl
    · rw [if_neg hx, if_neg (fun h => hx (hnil.2 h))]
      simp only [Res.bind_ok]
      cases newNode classes (gini classes xs') xs'.length (getCountPerClass classes xs') <;> rfl
  | succ d ih =>
    intro xs xs' hk hp
    have hk' : ∀ x ∈ xs', x.1.length = k := fun x hx => hk x (hp.mem_iff.2 hx)
    unfold buildTree computeGini
    have hnil : xs = [] ↔ xs' = [] := by
      constructor
      · rintro rfl; exact hp.symm.eq_nil
      · rintro rfl; exact hp.eq_nil
    rw [gini_perm classes hp, getCountPerClass_perm classes hp, hp.length_eq]
    by_cases hx : xs = []
    · rw [if_pos hx, if_pos (hnil.1 hx)]; rfl
    have hx' : xs' ≠ [] := fun h => hx (hnil.2 h)
    rw [if_neg hx, if_neg hx']
    simp only [Res.bind_ok]
    cases newNode classes (gini classes xs') xs'.length (getCountPerClass classes xs') with
    | error e => rfl
    | ok n =>
      simp only [Res.bind_ok]
      rw [if_neg hx, if_neg hx']
      by_cases hg : gini classes xs' ≤ 0
      · rw [if_pos hg, if_pos hg]; rfl
      rw [if_neg hg, if_neg hg]
      by_cases hlen : xs.length ≤ 1
      · have hlen' : xs'.length ≤ 1 := by rw [← hp.length_eq]; exact hlen
        unfold split
        rw [if_pos hlen, if_pos hlen']; rfl
      have hlen' : 1 < xs'.length := by rw [← hp.length_eq]; omega
      rcases split_cases hσ classes hk (by omega) with ⟨ys, pos, fidx, thr, l, r, e, hs⟩ | ⟨hall, e⟩
      · rcases split_cases hσ' classes hk' hlen' with
          ⟨ys', pos', fidx', thr', l', r', e', hs'⟩ | ⟨hall', e'⟩
        · -- the same cut
          have hb := hs.best.perm hp
          have hb' := hs'.best
          have e1 := hb.least _ _ _ hb'.feature hb'.cut
          have e2 := hb'.least _ _ _ hb.feature hb.cut
          have f1 := hb.first _ _ _ hb'.feature hb'.cut (le_antisymm e2 e1)
          have f2 := hb'.first _ _ _ hb.feature hb.cut (le_antisymm e1 e2)
          have hfi : fidx = fidx' := by omega
          subst hfi
          have hl : l = l' := by
            rcases f1 with h | ⟨-, h⟩
            · omega
            · rcases f2 with h' | ⟨-, h'⟩
              · omega
              · exact le_antisymm h h'
          subst hl
          have hr := hb.cut.right_unique hb'.cut
          subst hr
          have hthr : thr = thr' := by rw [hs.thr_eq, hs'.thr_eq]
          subst hthr
          have hpp : ys.Perm ys' := hs.perm.trans (hp.trans hs'.perm.symm)
          have ht : (ys.take pos).Perm (ys'.take pos') := by
            rw [hs.take, hs'.take]; exact below_perm hpp _ _
          have hd : (ys.drop pos).Perm (ys'.drop pos') := by
            rw [hs.drop, hs'.drop]; exact above_perm hpp _ _
          have hky : ∀ x ∈ ys, x.1.length = k := fun x hx => hk x (hs.perm.mem_iff.1 hx)
          have i1 := ih (fun x hx => hky x (List.mem_of_mem_take hx)) ht
          have i2 := ih (fun x hx => hky x (List.mem_of_mem_drop hx)) hd
          rw [e, e']
          simp only [Res.bind_ok]
          cases h1 : buildTree σ classes d (ys.take pos) with
          | error er =>
            rw [h1] at i1
            cases h1' : buildTree σ' classes d (ys'.take pos') with
            | error er' =>
              rw [h1'] at i1
              simp only [Except.map] at i1
              simp only [Except.error.injEq] at i1
              subst i1
              rfl
            | ok p => rw [h1'] at i1; simp [Except.map] at i1
          | ok p =>
            rw [h1] at i1
            cases h1' : buildTree σ' classes d (ys'.take pos') with
            | error er' => rw [h1'] at i1; simp [Except.map] at i1
            | ok p' =>
              rw [h1'] at i1
              simp only [Except.map, Except.ok.injEq] at i1
              simp only [Res.bind_ok]
              cases h2 : buildTree σ classes d (ys.drop pos) with
              | error er =>
                rw [h2] at i2
                cases h2' : buildTree σ' classes d (ys'.drop pos') with
                | error er' =>
                  rw [h2'] at i2
                  simp only [Except.map, Except.error.injEq] at i2
                  subst i2
                  rfl
                | ok q => rw [h2'] at i2; simp [Except.map] at i2
              | ok q =>
                rw [h2] at i2
                cases h2' : buildTree σ' classes d (ys'.drop pos') with
                | error er' => rw [h2'] at i2; simp [Except.map] at i2
                | ok q' =>
                  rw [h2'] at i2
                  simp only [Except.map, Except.ok.injEq] at i2
                  simp only [Res.bind_ok, Except.map, i1, i2]
        · have hb := hs.best.perm hp
          have h1 := hall' _ _ _ hb.feature hb.cut
          have h2 := hs.lt_one
          rw [wg_perm classes (below_perm hp _ _) (above_perm hp _ _)] at h2
          linarith
      · rcases split_cases hσ' classes hk' hlen' with
          ⟨ys', pos', fidx', thr', l', r', e', hs'⟩ | ⟨hall', e'⟩
        · have hb := hs'.best.perm hp.symm
          have h1 := hall _ _ _ hb.feature hb.cut
          have h2 := hs'.lt_one
          rw [wg_perm classes (below_perm hp.symm _ _) (above_perm hp.symm _ _)] at h2
          linarith
        · rw [e, e']; rfl

/-- Every node predicts the first class. -/
theorem buildTree_predicted {σ : SortFn} (c : ℤ) (rest : List ℤ) (d : ℕ) :
    ∀ {xs ys : List Sample} {t : Tree}, buildTree σ (c :: rest) d xs = .ok (t, ys) →
      ∀ p n l r, subtreeAt t p = .node n l r → n.predicted = c := by
  induction d with
  | zero =>
    intro xs ys t h p n l r hp
    unfold buildTree at h
    obtain ⟨g, h1, h2⟩ := (Res.bind_eq_ok _ _ _).1 h
    obtain ⟨n', h3, h4⟩ := (Res.bind_eq_ok _ _ _).1 h2
    simp only [Except.ok.injEq, Prod.mk.injEq] at h4
    obtain ⟨rfl, rfl⟩ := h4
    rw [newNode_cons] at h3
    simp only [Except.ok.injEq] at h3
    subst h3
    cases p with
    | nil => simp only [subtreeAt, Tree.node.injEq] at hp; rw [← hp.1]
    | cons b p => cases b <;> cases p <;> simp [subtreeAt] at hp
  | succ d ih =>
    intro xs ys t h p n l r hp
    unfold buildTree at h
    obtain ⟨g, h1, h2⟩ := (Res.bind_eq_ok _ _ _).1 h
    obtain ⟨n', h3, h4⟩ := (Res.bind_eq_ok _ _ _).1 h2
    rw [newNode_cons] at h3
    simp only [Except.ok.injEq] at h3
    have leaf : t = .node n' .nil .nil → n.predicted = c := by
      rintro rfl
      cases p with
      | nil => simp only [subtreeAt, Tree.node.injEq] at hp; rw [← hp.1, ← h3]
      | cons b p => cases b <;> cases p <;> simp [subtreeAt] at hp
    split at h4
    · simp only [Except.ok.injEq, Prod.mk.injEq] at h4
      exact leaf h4.1.symm
    split at h4
    · simp only [Except.ok.injEq, Prod.mk.injEq] at h4
      exact leaf h4.1.symm
    obtain ⟨⟨zs, pos, fidx, thr⟩, h5, h6⟩ := (Res.bind_eq_ok _ _ _).1 h4
    obtain ⟨⟨tl, ys1⟩, h7, h8⟩ := (Res.bind_eq_ok _ _ _).1 h6
    obtain ⟨⟨tr, ys2⟩, h9, h10⟩ := (Res.bind_eq_ok _ _ _).1 h8
    simp only [Except.ok.injEq, Prod.mk.injEq] at h10
    obtain ⟨rfl, rfl⟩ := h10
    cases p with
    | nil =>
      simp only [subtreeAt, Tree.node.injEq] at hp
      rw [← hp.1, ← h3]
    | cons b p =>
      cases b with
      | false => exact ih h7 p n l r hp
      | true => exact ih h9 p n l r hp

end Apollo
