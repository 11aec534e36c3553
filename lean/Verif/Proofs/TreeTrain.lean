import Verif.Proofs.Gini
import Mathlib.Data.Finset.Max
import Mathlib.Data.List.NodupEquivFin

/-!
# Training: classes, success, shape and routing of the tree
-/

namespace Apollo

open Spec

/-! ## The set of classes -/

theorem mem_setInsert {c a : ℤ} {s : List ℤ} : a ∈ setInsert c s ↔ a = c ∨ a ∈ s := by
  induction s with
  | nil => simp [setInsert]
  | cons x xs ih =>
    simp only [setInsert]
    split
    · simp
    · split
      · rename_i h; subst h; simp
      · simp only [List.mem_cons, ih]; tauto

theorem setInsert_sorted {c : ℤ} {s : List ℤ} (h : s.Pairwise (· < ·)) :
    (setInsert c s).Pairwise (· < ·) := by
  induction s with
  | nil => simp [setInsert]
  | cons x xs ih =>
    obtain ⟨h1, h2⟩ := List.pairwise_cons.1 h
    simp only [setInsert]
    split
    · rename_i hc
      refine List.pairwise_cons.2 ⟨?_, h⟩
      intro a ha
      rcases List.mem_cons.1 ha with rfl | ha
      · exact hc
      · exact lt_trans hc (h1 a ha)
    · split
      · exact h
      · rename_i hc1 hc2
        refine List.pairwise_cons.2 ⟨?_, ih h2⟩
        intro a ha
        rcases mem_setInsert.1 ha with rfl | ha
        · omega
        · exact h1 a ha

theorem mem_setInsertAll {a : ℤ} {cs s : List ℤ} : a ∈ setInsertAll cs s ↔ a ∈ cs ∨ a ∈ s := by
  unfold setInsertAll
  induction cs generalizing s with
  | nil => simp
  | cons c cs ih =>
    rw [List.foldl_cons, ih, mem_setInsert, List.mem_cons]
    tauto

theorem setInsertAll_sorted {cs s : List ℤ} (h : s.Pairwise (· < ·)) :
    (setInsertAll cs s).Pairwise (· < ·) := by
  unfold setInsertAll
  induction cs generalizing s with
  | nil => exact h
  | cons c cs ih => exact ih (setInsert_sorted h)

theorem sorted_nodup {s : List ℤ} (h : s.Pairwise (· < ·)) : s.Nodup :=
  h.imp (fun h => ne_of_lt h)

/-- Sorted lists with the same elements are equal. -/
theorem sorted_ext {s s' : List ℤ} (h : s.Pairwise (· < ·)) (h' : s'.Pairwise (· < ·))
    (he : ∀ a, a ∈ s ↔ a ∈ s') : s = s' := by
  induction s generalizing s' with
  | nil =>
    cases s' with
    | nil => rfl
    | cons b s' => exact absurd ((he b).2 (by simp)) (by simp)
  | cons a s ih =>
    cases s' with
    | nil => exact absurd ((he a).1 (by simp)) (by simp)
    | cons b s' =>
      obtain ⟨h1, h2⟩ := List.pairwise_cons.1 h
      obtain ⟨h1', h2'⟩ := List.pairwise_cons.1 h'
      have hab : a = b := by
        rcases List.mem_cons.1 ((he a).1 (by simp)) with e | e
        · exact e
        · rcases List.mem_cons.1 ((he b).2 (by simp)) with e' | e'
          · exact e'.symm
          · have := h1' a e; have := h1 b e'; omega
      subst hab
      congr 1
      apply ih h2 h2'
      intro x
      constructor
      · intro hx
        rcases List.mem_cons.1 ((he x).1 (by simp [hx])) with e | e
        · subst e; exact absurd (h1 _ hx) (lt_irrefl _)
        · exact e
      · intro hx
        rcases List.mem_cons.1 ((he x).2 (by simp [hx])) with e | e
        · subst e; exact absurd (h1' _ hx) (lt_irrefl _)
        · exact e

theorem setInsertAll_perm {cs cs' s : List ℤ} (hs : s.Pairwise (· < ·)) (h : cs.Perm cs') :
    setInsertAll cs s = setInsertAll cs' s := by
  apply sorted_ext (setInsertAll_sorted hs) (setInsertAll_sorted hs)
  intro a
  rw [mem_setInsertAll, mem_setInsertAll, h.mem_iff]

theorem setInsert_length_le (c : ℤ) (s : List ℤ) : (setInsert c s).length ≤ s.length + 1 := by
  induction s with
  | nil => simp [setInsert]
  | cons x xs ih =>
    simp only [setInsert]
    split
    · simp
    · split
      · simp
      · simpa using ih

theorem setInsertAll_length_le (cs s : List ℤ) :
    (setInsertAll cs s).length ≤ cs.length + s.length := by
  unfold setInsertAll
  induction cs generalizing s with
  | nil => simp
  | cons c cs ih =>
    rw [List.foldl_cons]
    have h1 := ih (setInsert c s)
    have h2 := setInsert_length_le c s
    rw [List.length_cons]
    omega

/-! ## Success -/

theorem exists_cut {xs : List Sample} {i : ℕ} {x y : Sample} (hx : x ∈ xs) (hy : y ∈ xs)
    (hlt : feat x i < feat y i) : ∃ l r, IsCut xs i l r := by
  classical
  have hne : (xs.toFinset.filter fun z => feat x i < feat z i).Nonempty :=
    ⟨y, by simp [hy, hlt]⟩
  obtain ⟨z, hz, hmin⟩ := Finset.exists_min_image _ (fun z => feat z i) hne
  rw [Finset.mem_filter, List.mem_toFinset] at hz
  refine ⟨feat x i, feat z i, hz.2, ⟨x, hx, rfl⟩, ⟨z, hz.1, rfl⟩, ?_⟩
  intro w hw
  by_cases h : feat x i < feat w i
  · exact Or.inr (hmin w (by rw [Finset.mem_filter, List.mem_toFinset]; exact ⟨hw, h⟩))
  · exact Or.inl (not_lt.1 h)

theorem exists_feature_ne {k : ℕ} {f g : Features} (hf : f.length = k) (hg : g.length = k)
    (h : f ≠ g) : ∃ i < k, f.getD i 0 ≠ g.getD i 0 := by
  by_contra hcon
  push Not at hcon
  apply h
  apply List.ext_getElem (by omega)
  intro i h1 h2
  have := hcon i (by omega)
  rwa [List.getD_eq_getElem?_getD, List.getD_eq_getElem?_getD, List.getElem?_eq_getElem h1,
    List.getElem?_eq_getElem h2, Option.getD_some, Option.getD_some] at this

/-- What training assumes about its samples. -/
structure TrainOk (classes : List ℤ) (k : ℕ) (xs : List Sample) : Prop where
  ne : xs ≠ []
  len : xs.length ≤ 2 ^ 20
  feats : ∀ x ∈ xs, x.1.length = k
  cls : ∀ x ∈ xs, x.2 ∈ classes
  func : ∀ x ∈ xs, ∀ y ∈ xs, x.1 = y.1 → x.2 = y.2

theorem TrainOk.sub {classes : List ℤ} {k : ℕ} {xs ys : List Sample} (h : TrainOk classes k xs)
    (hne : ys ≠ []) (hlen : ys.length ≤ xs.length) (hsub : ∀ x ∈ ys, x ∈ xs) :
    TrainOk classes k ys :=
  ⟨hne, le_trans hlen h.len, fun x hx => h.feats x (hsub x hx), fun x hx => h.cls x (hsub x hx),
    fun x hx y hy => h.func x (hsub x hx) y (hsub y hy)⟩

theorem mem_of_below {xs : List Sample} {i : ℕ} {l : ℚ} {x : Sample} (h : x ∈ below xs i l) :
    x ∈ xs := (List.mem_filter.1 h).1

theorem mem_of_above {xs : List Sample} {i : ℕ} {l : ℚ} {x : Sample} (h : x ∈ above xs i l) :
    x ∈ xs := (List.mem_filter.1 h).1

/-- Not pure: the search finds a split. -/
theorem split_ok {σ : SortFn} (hσ : SortSpec σ) {classes : List ℤ} (hnd : classes.Nodup)
    (hK : classes.length ≤ 2 ^ 20) {k : ℕ} {xs : List Sample} (h : TrainOk classes k xs)
    (hg : 0 < gini classes xs) :
    ∃ ys pos fidx thr l r, split σ classes xs = .ok (ys, pos, fidx, thr) ∧
      IsSplit classes k xs ys pos fidx thr l r := by
  -- two samples of different classes
  have hex : ∃ x ∈ xs, ∃ y ∈ xs, x.2 ≠ y.2 := by
    by_contra hcon
    push Not at hcon
    obtain ⟨z, hz⟩ := List.exists_mem_of_ne_nil xs h.ne
    have := gini_pure classes hnd h.ne (h.cls z hz) (fun x hx => hcon x hx z hz)
      (le_trans h.len (by norm_num))
    linarith
  obtain ⟨x, hx, y, hy, hxy⟩ := hex
  have hfne : x.1 ≠ y.1 := fun e => hxy (h.func x hx y hy e)
  obtain ⟨i, hi, hne⟩ := exists_feature_ne (h.feats x hx) (h.feats y hy) hfne
  have hcut : ∃ l r, IsCut xs i l r := by
    rcases lt_or_gt_of_ne hne with hlt | hlt
    · exact exists_cut hx hy hlt
    · exact exists_cut hy hx hlt
  obtain ⟨l, r, hc⟩ := hcut
  have hlen : 1 < xs.length := by
    rcases Nat.lt_or_ge 1 xs.length with h1 | h1
    · exact h1
    · have h2 := List.length_pos_of_ne_nil h.ne
      obtain ⟨a, ha⟩ := List.length_eq_one_iff.1 (show xs.length = 1 by omega)
      rw [ha] at hx hy
      simp only [List.mem_cons, List.not_mem_nil, or_false] at hx hy
      subst hx; subst hy
      exact absurd rfl hxy
  rcases split_cases hσ classes h.feats hlen with h1 | ⟨hall, -⟩
  · exact h1
  · exfalso
    have h1 := hall i l r hi hc
    have hsum := (below_above_perm xs i l).length_eq
    rw [List.length_append] at hsum
    have hlt := wg_lt_one hnd hK (List.ne_nil_of_length_pos (below_length_pos hc))
      (List.ne_nil_of_length_pos (above_length_pos hc))
      (fun x hx => h.cls x (mem_of_below hx)) (fun x hx => h.cls x (mem_of_above hx))
      (by rw [hsum]; exact h.len)
    linarith

theorem buildTree_ok {σ : SortFn} (hσ : SortSpec σ) {classes : List ℤ} (hnd : classes.Nodup)
    (hK : classes.length ≤ 2 ^ 20) {k : ℕ} (d : ℕ) : ∀ {xs : List Sample}, TrainOk classes k xs →
      ∃ t ys, buildTree σ classes d xs = .ok (t, ys) := by
  induction d with
  | zero =>
    intro xs h
    obtain ⟨z, hz⟩ := List.exists_mem_of_ne_nil xs h.ne
    have hc := h.cls z hz
    obtain ⟨c, rest, rfl⟩ := List.exists_cons_of_ne_nil (List.ne_nil_of_mem hc)
    unfold buildTree computeGini
    rw [if_neg h.ne]
    simp only [Res.bind_ok, newNode_cons]
    exact ⟨_, _, rfl⟩
  | succ d ih =>
    intro xs h
    obtain ⟨z, hz⟩ := List.exists_mem_of_ne_nil xs h.ne
    have hc := h.cls z hz
    obtain ⟨c, rest, hcl⟩ := List.exists_cons_of_ne_nil (List.ne_nil_of_mem hc)
    unfold buildTree computeGini
    rw [if_neg h.ne]
    have hnn : newNode classes (gini classes xs) xs.length (getCountPerClass classes xs) =
        .ok ⟨gini classes xs, xs.length, c, -1, 0, getCountPerClass classes xs⟩ := by
      rw [newNode_ok_iff]; exact ⟨c, rest, hcl, rfl⟩
    simp only [Res.bind_ok, hnn]
    rw [if_neg h.ne]
    by_cases hg : gini classes xs ≤ 0
    · rw [if_pos hg]; exact ⟨_, _, rfl⟩
    rw [if_neg hg]
    obtain ⟨ys, pos, fidx, thr, l, r, e, hs⟩ := split_ok hσ hnd hK h (not_le.1 hg)
    rw [e]
    simp only [Res.bind_ok]
    have hcy := hs.best.cut.perm hs.perm.symm
    have hlen := hs.perm.length_eq
    have hbl := below_length_pos hcy
    have hal := above_length_pos hcy
    have hsum := (below_above_perm ys fidx l).length_eq
    rw [List.length_append] at hsum
    have h1 : TrainOk classes k (ys.take pos) := by
      rw [hs.take]
      exact h.sub (List.ne_nil_of_length_pos hbl) (by omega)
        (fun x hx => hs.perm.mem_iff.1 (mem_of_below hx))
    have h2 : TrainOk classes k (ys.drop pos) := by
      rw [hs.drop]
      exact h.sub (List.ne_nil_of_length_pos hal) (by omega)
        (fun x hx => hs.perm.mem_iff.1 (mem_of_above hx))
    obtain ⟨t1, y1, e1⟩ := ih h1
    obtain ⟨t2, y2, e2⟩ := ih h2
    rw [e1]
    simp only [Res.bind_ok]
    rw [e2]
    exact ⟨_, _, rfl⟩

/-! ## Shape -/

section Shape

variable {classes : List ℤ} {imp : List Sample → ℚ} {w : List Sample → List Sample → ℚ}
  {thr : ℚ → ℚ → ℚ} {k : ℕ}

theorem grown_node {d : ℕ} {xs : List Sample} {t : Tree} (h : Grown classes imp w thr k d xs t) :
    ∃ n l r, t = .node n l r ∧ n.numSamples = xs.length ∧ n.counts = classes.map (numOf xs) := by
  cases h with
  | leaf _ _ n hd hg hn hc hi => exact ⟨n, _, _, rfl, hn, hc⟩
  | inner d _ n i l r tl tr himp hg hn hc hbest hi ht hl hr => exact ⟨n, _, _, rfl, hn, hc⟩

/-! ## Routing -/

/-- The thresholds separate: between any two values of a feature, the threshold is above the lower
and at most the higher one. -/
def Separable (thr : ℚ → ℚ → ℚ) (k : ℕ) (xs : List Sample) : Prop :=
  ∀ i < k, ∀ x ∈ xs, ∀ y ∈ xs, x.1.getD i 0 < y.1.getD i 0 →
    x.1.getD i 0 < thr (x.1.getD i 0) (y.1.getD i 0) ∧ thr (x.1.getD i 0) (y.1.getD i 0) ≤ y.1.getD i 0

theorem Separable.sub {xs ys : List Sample} (h : Separable thr k xs) (hs : ∀ x ∈ ys, x ∈ xs) :
    Separable thr k ys := fun i hi x hx y hy => h i hi x (hs x hx) y (hs y hy)

/-- At a cut of separable samples the threshold divides as the cut does. -/
theorem lt_thr_iff {xs : List Sample} (hs : Separable thr k xs) {i : ℕ} (hi : i < k) {l r : ℚ}
    (hc : IsCut xs i l r) {x : Sample} (hx : x ∈ xs) :
    x.1.getD i 0 < thr l r ↔ x.1.getD i 0 ≤ l := by
  obtain ⟨a, ha, rfl⟩ := hc.left
  obtain ⟨b, hb, rfl⟩ := hc.right
  obtain ⟨h1, h2⟩ := hs i hi a ha b hb hc.lt
  constructor
  · intro h
    rcases hc.gap x hx with h' | h'
    · exact h'
    · linarith
  · intro h; linarith

/-- Each node counts the samples that are routed to it. -/
theorem grown_routed {d : ℕ} {xs : List Sample} {t : Tree} (h : Grown classes imp w thr k d xs t)
    (hs : Separable thr k xs) :
    ∀ p n l r, subtreeAt t p = .node n l r →
      n.numSamples = (xs.filter fun x => goes t p x.1).length ∧
      n.counts = classes.map (numOf (xs.filter fun x => goes t p x.1)) := by
  induction h with
  | leaf d xs n hd hg hn hc hi =>
    intro p n' l r hp
    cases p with
    | nil =>
      simp only [subtreeAt, Tree.node.injEq] at hp
      obtain ⟨rfl, rfl, rfl⟩ := hp
      have : (xs.filter fun x => goes (.node n .nil .nil) [] x.1) = xs := by
        rw [List.filter_eq_self]; intro x _; exact decide_eq_true trivial
      rw [this]
      exact ⟨hn, hc⟩
    | cons b p => cases b <;> cases p <;> simp [subtreeAt] at hp
  | inner d xs n i l r tl tr himp hg hn hc hbest hi ht hl hr ihl ihr =>
    intro p n' l' r' hp
    have hlt : ∀ x ∈ xs, (x.1.getD n.featureIdx.toNat 0 < n.threshold ↔ x.1.getD i 0 ≤ l) := by
      intro x hx
      rw [hi, ht, Int.toNat_natCast]
      exact lt_thr_iff hs hbest.feature hbest.cut hx
    cases p with
    | nil =>
      simp only [subtreeAt, Tree.node.injEq] at hp
      obtain ⟨rfl, rfl, rfl⟩ := hp
      have : (xs.filter fun x => goes (.node n tl tr) [] x.1) = xs := by
        rw [List.filter_eq_self]; intro x _; exact decide_eq_true trivial
      rw [this]
      exact ⟨hn, hc⟩
    | cons b p =>
      cases b with
      | false =>
        have : (xs.filter fun x => goes (.node n tl tr) (false :: p) x.1) =
            (below xs i l).filter fun x => goes tl p x.1 := by
          unfold below
          rw [List.filter_filter]
          apply List.filter_congr
          intro x hx
          rw [Bool.eq_iff_iff]
          simp only [goes, true_iff, decide_eq_true_eq, Bool.and_eq_true, hlt x hx]
          constructor
          · rintro ⟨-, h1, h2⟩; exact ⟨h2, h1⟩
          · rintro ⟨h2, h1⟩; exact ⟨by omega, h1, h2⟩
        rw [this]
        exact ihl (hs.sub fun x hx => mem_of_below hx) p n' l' r' hp
      | true =>
        have : (xs.filter fun x => goes (.node n tl tr) (true :: p) x.1) =
            (above xs i l).filter fun x => goes tr p x.1 := by
          unfold above
          rw [List.filter_filter]
          apply List.filter_congr
          intro x hx
          rw [Bool.eq_iff_iff]
          simp only [goes, decide_eq_true_eq, Bool.and_eq_true, hlt x hx, Bool.true_eq_false,
            false_iff, if_true]
          constructor
          · rintro ⟨-, h1, h2⟩; exact ⟨h2, h1⟩
          · rintro ⟨h2, h1⟩; exact ⟨by omega, h1, h2⟩
        rw [this]
        exact ihr (hs.sub fun x hx => mem_of_above hx) p n' l' r' hp

/-- Evaluation ends in a leaf. -/
theorem grown_eval {d : ℕ} {xs : List Sample} {t : Tree} (h : Grown classes imp w thr k d xs t)
    {f : Features} (hf : f.length = k) :
    ∃ p n, subtreeAt t p = .node n .nil .nil ∧ goes t p f ∧ evaluateTree t f = .ok n.predicted := by
  induction h with
  | leaf d xs n hd hg hn hc hi =>
    exact ⟨[], n, rfl, trivial, by simp [evaluateTree, hi]⟩
  | inner d xs n i l r tl tr himp hg hn hc hbest hi ht hl hr ihl ihr =>
    obtain ⟨nl, ll, lr, hl', -, -⟩ := grown_node hl
    obtain ⟨nr, rl, rr, hr', -, -⟩ := grown_node hr
    have hif : i < f.length := by rw [hf]; exact hbest.feature
    have hget : f[n.featureIdx.toNat]? = some (f.getD n.featureIdx.toNat 0) := by
      rw [hi, Int.toNat_natCast, List.getD_eq_getElem?_getD, List.getElem?_eq_getElem hif]
      rfl
    have hev : evaluateTree (.node n tl tr) f =
        if f.getD n.featureIdx.toNat 0 < n.threshold then evaluateTree tl f
        else evaluateTree tr f := by
      conv_lhs => unfold evaluateTree
      rw [if_neg (by omega), if_neg (by omega), hget]
      simp only [hl', hr', reduceCtorEq, if_false]
    by_cases hlt : f.getD n.featureIdx.toNat 0 < n.threshold
    · obtain ⟨p, m, h1, h2, h3⟩ := ihl
      refine ⟨false :: p, m, h1, ?_, by rw [hev, if_pos hlt, h3]⟩
      exact ⟨by omega, by simp only [true_iff]; exact hlt, h2⟩
    · obtain ⟨p, m, h1, h2, h3⟩ := ihr
      refine ⟨true :: p, m, h1, ?_, by rw [hev, if_neg hlt, h3]⟩
      exact ⟨by omega, by simp only [Bool.true_eq_false, false_iff]; exact hlt, h2⟩

end Shape

/-- With enough height, leaves are pure. -/
theorem grown_pure {classes : List ℤ} {w : List Sample → List Sample → ℚ} {thr : ℚ → ℚ → ℚ} {k : ℕ}
    (hnd : classes.Nodup) {d : ℕ} {xs : List Sample} {t : Tree}
    (h : Grown classes (gini classes) w thr k d xs t) (hs : Separable thr k xs)
    (hcls : ∀ x ∈ xs, x.2 ∈ classes) (hlen : xs.length ≤ 2 ^ 20) (hd : xs.length ≤ d + 1) :
    ∀ p n, subtreeAt t p = .node n .nil .nil → ∀ x ∈ xs, ∀ y ∈ xs, goes t p x.1 → goes t p y.1 →
      x.2 = y.2 := by
  induction h with
  | leaf d xs n hd' hg hn hc hi =>
    intro p n' hp x hx y hy _ _
    rcases hd' with h0 | hle
    · subst h0
      have h1 := List.length_pos_of_mem hx
      obtain ⟨a, ha⟩ := List.length_eq_one_iff.1 (show xs.length = 1 by omega)
      rw [ha] at hx hy
      simp only [List.mem_cons, List.not_mem_nil, or_false] at hx hy
      rw [hx, hy]
    · by_contra hne
      have := gini_pos hnd (List.ne_nil_of_mem hx) hcls hlen (two_le_nonzero hx hy hne hcls)
      linarith
  | inner d xs n i l r tl tr himp hg hn hc hbest hi ht hl hr ihl ihr =>
    intro p n' hp x hx y hy gx gy
    obtain ⟨nl, ll, lr, rfl, -, -⟩ := grown_node hl
    have hlt : ∀ x ∈ xs, (x.1.getD n.featureIdx.toNat 0 < n.threshold ↔ x.1.getD i 0 ≤ l) := by
      intro x hx
      rw [hi, ht, Int.toNat_natCast]
      exact lt_thr_iff hs hbest.feature hbest.cut hx
    have hsum := (below_above_perm xs i l).length_eq
    rw [List.length_append] at hsum
    have hbl := below_length_pos hbest.cut
    have hal := above_length_pos hbest.cut
    cases p with
    | nil => simp [subtreeAt] at hp
    | cons b p =>
      cases b with
      | false =>
        have mem : ∀ x ∈ xs, goes (.node n (.node nl ll lr) tr) (false :: p) x.1 →
            x ∈ below xs i l ∧ goes (.node nl ll lr) p x.1 := by
          intro x hx g
          obtain ⟨-, h1, h2⟩ := g
          exact ⟨by simp only [below, List.mem_filter, hx, true_and, decide_eq_true_eq]
                    exact (hlt x hx).1 (h1.1 rfl), h2⟩
        exact ihl (hs.sub fun x hx => mem_of_below hx) (fun x hx => hcls x (mem_of_below hx))
          (by omega) (by omega) p n' hp x (mem x hx gx).1 y (mem y hy gy).1 (mem x hx gx).2
          (mem y hy gy).2
      | true =>
        have mem : ∀ x ∈ xs, goes (.node n (.node nl ll lr) tr) (true :: p) x.1 →
            x ∈ above xs i l ∧ goes tr p x.1 := by
          intro x hx g
          obtain ⟨-, h1, h2⟩ := g
          refine ⟨?_, h2⟩
          simp only [above, List.mem_filter, hx, true_and, decide_eq_true_eq]
          intro hle
          have := h1.2 ((hlt x hx).2 hle)
          simp at this
        exact ihr (hs.sub fun x hx => mem_of_above hx) (fun x hx => hcls x (mem_of_above hx))
          (by omega) (by omega) p n' hp x (mem x hx gx).1 y (mem y hy gy).1 (mem x hx gx).2
          (mem y hy gy).2

/-! ## Thresholds -/

/-- Without overflow the threshold lies between the two values. -/
theorem threshold_between {l r : ℚ} (hl : Float32 l) (hr : Float32 r) (hlr : l ≤ r)
    (hm : |l| ≤ maxFloat / 2) (hm' : |r| ≤ maxFloat / 2) :
    l ≤ threshold l r ∧ threshold l r ≤ r := by
  have hmax : Representable 24 (-149) maxFloat := ⟨2 ^ 24 - 1, 104, by norm_num, by norm_num, by
    unfold maxFloat; norm_num⟩
  have b1 := abs_le.1 hm
  have b2 := abs_le.1 hm'
  have dbl : ∀ q, Float32 q → Float32 (2 * q) := by
    rintro q ⟨m, e, h1, h2, rfl⟩
    refine ⟨m, e + 1, h1, by omega, ?_⟩
    rw [zpow_add₀ (by norm_num)]; ring
  have s1 : 2 * l ≤ rnd32 (l + r) := le_rnd_of_le (by norm_num) (dbl l hl) (by linarith)
  have s2 : rnd32 (l + r) ≤ 2 * r := rnd_le_of_le (by norm_num) (dbl r hr) (by linarith)
  have s3 : rnd32 (l + r) ≤ maxFloat := rnd_le_of_le (by norm_num) hmax (by linarith)
  have s4 : -maxFloat ≤ rnd32 (l + r) :=
    le_rnd_of_le (by norm_num) (representable_neg hmax) (by linarith)
  have hs : Float32 (rnd32 (l + r)) := representable_rnd _
  unfold threshold
  simp only
  rw [if_neg (not_lt.2 s3), if_neg (not_lt.2 s4)]
  have h64 : rnd64 (rnd32 (l + r) / 2) = rnd32 (l + r) / 2 := by
    apply rnd_of_representable (by norm_num)
    obtain ⟨m, e, h1, h2, h3⟩ := hs
    refine ⟨m, e - 1, le_trans h1 (by norm_num), by omega, ?_⟩
    rw [h3, zpow_sub₀ (by norm_num)]; ring
  rw [h64]
  exact ⟨le_rnd_of_le (by norm_num) hl (by linarith), rnd_le_of_le (by norm_num) hr (by linarith)⟩

/-- Between integers of at most 2^22 in magnitude the threshold is the exact mean. -/
theorem threshold_int {a b : ℤ} (ha : |a| ≤ 2 ^ 22) (hb : |b| ≤ 2 ^ 22) :
    threshold (a : ℚ) (b : ℚ) = ((a : ℚ) + b) / 2 := by
  have h1 := abs_le.1 ha
  have h2 := abs_le.1 hb
  have hs : rnd32 ((a : ℚ) + b) = (a : ℚ) + b := by
    apply rnd_of_representable (by norm_num)
    have := representable_intCast (p := 24) (emin := -149) (n := a + b) (by norm_num)
      (by rw [abs_le]; constructor <;> norm_num at * <;> omega)
    push_cast at this
    exact this
  have hr : ∀ (p : ℕ) (emin : ℤ), 24 ≤ p → emin ≤ -1 → rnd p emin (((a : ℚ) + b) / 2) = ((a : ℚ) + b) / 2 := by
    intro p emin hp he
    apply rnd_of_representable (by omega)
    refine ⟨a + b, -1, ?_, he, ?_⟩
    · have h3 : |a + b| ≤ 2 ^ 24 := by rw [abs_le]; constructor <;> norm_num at * <;> omega
      refine le_trans h3 ?_
      exact_mod_cast Nat.pow_le_pow_right (by norm_num) hp
    · push_cast
      rw [zpow_neg_one]; ring
  have hq1 : ((a : ℚ) + b) ≤ 2 ^ 23 := by
    have : a + b ≤ 2 ^ 23 := by norm_num at *; omega
    exact_mod_cast this
  have hq2 : -(2 ^ 23 : ℚ) ≤ (a : ℚ) + b := by
    have : -(2 ^ 23) ≤ a + b := by norm_num at *; omega
    exact_mod_cast this
  unfold threshold
  simp only [hs]
  rw [if_neg, if_neg]
  · unfold rnd64 rnd32
    rw [hr 53 _ (by norm_num) (by norm_num), hr 24 _ (by norm_num) (by norm_num)]
  · unfold maxFloat; norm_num at *; linarith
  · unfold maxFloat; norm_num at *; linarith

/-- Between values that are well apart. -/
theorem threshold_spaced {a b M : ℚ} (ha : |a| ≤ M) (hb : |b| ≤ M) (h1 : 2 ^ (-100 : ℤ) ≤ M)
    (h2 : M ≤ 2 ^ (126 : ℤ)) (h3 : M * 2 ^ (-21 : ℤ) ≤ b - a) :
    a < threshold a b ∧ threshold a b ≤ b := by
  have b1 := abs_le.1 ha
  have b2 := abs_le.1 hb
  have hM : 0 < M := lt_of_lt_of_le (by positivity) h1
  have small : (2 : ℚ) ^ (-125 : ℤ) ≤ 2 * M := by
    have : (2 : ℚ) ^ (-125 : ℤ) ≤ 2 ^ (-100 : ℤ) := zpow_le_zpow_right₀ (by norm_num) (by norm_num)
    linarith
  have hgap : M * 2 ^ (-21 : ℤ) = 8 * eps * M := by rw [eps_eq]; norm_num; ring
  rw [hgap] at h3
  have e1 := rnd32_abs_err (q := a + b) (B := 2 * M) small (by rw [abs_le]; constructor <;> linarith)
  have hs : Float32 (rnd32 (a + b)) := representable_rnd _
  unfold threshold
  simp only
  generalize rnd32 (a + b) = s at e1 hs ⊢
  have e1' := abs_le.1 e1
  have heps : eps ≤ 1 / 4 := by rw [eps_eq]; norm_num
  have hMe : eps * M ≤ 1 / 8 * 2 ^ (126 : ℤ) := by
    have h4 : eps ≤ 1 / 8 := by rw [eps_eq]; norm_num
    have := mul_le_mul h4 h2 hM.le (by norm_num)
    linarith
  have hmax : 2 * 2 ^ (126 : ℤ) + 2 * (1 / 8 * 2 ^ (126 : ℤ)) ≤ maxFloat := by
    unfold maxFloat; norm_num
  have h64 : rnd64 (s / 2) = s / 2 := by
    apply rnd_of_representable (by norm_num)
    obtain ⟨m, e, h1, h2, h3⟩ := hs
    refine ⟨m, e - 1, le_trans h1 (by norm_num), by omega, ?_⟩
    rw [h3, zpow_sub₀ (by norm_num)]; ring
  rw [if_neg (by linarith), if_neg (by linarith), h64]
  have hem : eps * M ≤ 1 / 4 * M := mul_le_mul_of_nonneg_right heps hM.le
  have e2 := rnd32_abs_err (q := s / 2) (B := 2 * M) small
    (by rw [abs_le]; constructor <;> linarith)
  have e2' := abs_le.1 e2
  have hep : 0 < eps * M := mul_pos eps_pos hM
  constructor <;> linarith

theorem separable_spaced {k : ℕ} {xs : List Sample} (h : Spaced k xs) :
    Separable threshold k xs := by
  intro i hi x hx y hy hlt
  obtain ⟨h1, h2, h3⟩ := h i hi x hx y hy hlt
  exact threshold_spaced (le_max_left _ _) (le_max_right _ _) h1 h2 h3

theorem separable_int {k : ℕ} {xs : List Sample} (h : SmallIntegers xs) : Separable threshold k xs := by
  have hget : ∀ x ∈ xs, ∀ i, ∃ a : ℤ, x.1.getD i 0 = a ∧ |a| ≤ 2 ^ 22 := by
    intro x hx i
    rw [List.getD_eq_getElem?_getD]
    cases hi : x.1[i]? with
    | none => exact ⟨0, by simp, by norm_num⟩
    | some v => exact h x hx v (List.mem_of_getElem? hi)
  intro i _ x hx y hy hlt
  obtain ⟨a, ea, ha⟩ := hget x hx i
  obtain ⟨b, eb, hb⟩ := hget y hy i
  rw [ea, eb] at hlt ⊢
  rw [threshold_int ha hb]
  constructor <;> linarith

end Apollo
