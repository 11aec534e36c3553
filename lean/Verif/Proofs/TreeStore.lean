import Verif.Proofs.TreeRT
import Verif.Proofs.TreeReach

/-! Helper lemmas: the numbers of trained trees, predictions of reloaded trees, generated code. -/

namespace Apollo

open Spec

/-! ## Ranges -/

theorem float_mult {S : ℚ} (h : Float32 S) {j : ℤ} (hs : (2 : ℚ) ^ (j + 24) ≤ |S|) :
    ∃ n : ℤ, S = n * (2 : ℚ) ^ j := by
  obtain ⟨m, e, h1, h2, rfl⟩ := h
  have hm : |(m : ℚ)| ≤ 2 ^ (24 : ℤ) := by
    have : ((|m| : ℤ) : ℚ) ≤ ((2 ^ 24 : ℤ) : ℚ) := by exact_mod_cast h1
    rw [Int.cast_abs] at this
    exact le_trans this (by norm_num)
  have he : j ≤ e := by
    rw [abs_mul, abs_of_pos (two_zpow_pos e)] at hs
    have h3 : (2 : ℚ) ^ (j + 24) ≤ 2 ^ (24 + e) := by
      rw [zpow_add₀ (by norm_num) 24 e]
      exact le_trans hs (mul_le_mul_of_nonneg_right hm (two_zpow_pos e).le)
    have := (zpow_le_zpow_iff_right₀ (by norm_num : (1 : ℚ) < 2)).1 h3
    omega
  refine ⟨m * 2 ^ (e - j).toNat, ?_⟩
  have : e = ((e - j).toNat : ℤ) + j := by omega
  conv_lhs => rw [this, zpow_add₀ (by norm_num), zpow_natCast]
  push_cast
  ring

theorem abs_rnd_ge {p : ℕ} {emin : ℤ} (hp : 1 ≤ p) {q y : ℚ} (hy : Representable p emin y)
    (h : y ≤ |q|) : y ≤ |rnd p emin q| := by
  rcases le_total 0 q with hq | hq
  · rw [abs_of_nonneg hq] at h
    exact le_trans (le_rnd_of_le hp hy h) (le_abs_self _)
  · rw [abs_of_nonpos hq] at h
    have := rnd_le_of_le (x := q) hp (representable_neg hy) (by linarith)
    exact le_trans (by linarith) (neg_le_abs _)

theorem representable_two_zpow {p : ℕ} {emin e : ℤ} (h : emin ≤ e) :
    Representable p emin ((2 : ℚ) ^ e) :=
  ⟨1, e, by rw [abs_one]; exact one_le_pow₀ (by norm_num), h, by simp⟩

theorem rangeFloat_gini {S : ℚ} (h : Float32 S) (h1 : |rnd32 (1 - S)| ≤ 1) :
    RangeFloat (rnd32 (1 - S)) := by
  by_cases h0 : 1 - S = 0
  · left
    rw [h0]
    exact rnd_of_representable (by norm_num) representable_zero
  · right
    refine ⟨?_, le_trans h1 (by norm_num)⟩
    have hlow : (2 : ℚ) ^ (-25 : ℤ) ≤ |1 - S| := by
      by_cases hs : (1 : ℚ) / 2 ≤ S
      · obtain ⟨n, hn⟩ := float_mult h (j := -25) (by
          rw [abs_of_nonneg (by linarith)]
          refine le_trans ?_ hs
          norm_num)
        have e : 1 - S = ((2 ^ 25 - n : ℤ) : ℚ) * 2 ^ (-25 : ℤ) := by
          rw [hn]; push_cast
          rw [sub_mul]
          norm_num
        have hz : (2 ^ 25 - n : ℤ) ≠ 0 := by
          intro hz; rw [e, hz] at h0; simp at h0
        have hz1 : (1 : ℚ) ≤ |((2 ^ 25 - n : ℤ) : ℚ)| := by
          exact_mod_cast Int.one_le_abs hz
        rw [e, abs_mul, abs_of_pos (two_zpow_pos _)]
        nlinarith [two_zpow_pos (-25)]
      · rw [abs_of_pos (by linarith)]
        refine le_trans (show (2 : ℚ) ^ (-25 : ℤ) ≤ 1 / 2 by norm_num) (by linarith)
    have := abs_rnd_ge (p := 24) (emin := -149) (by norm_num) (representable_two_zpow (by norm_num)) hlow
    exact le_trans (by norm_num) this

theorem float32_fold (xs : List Sample) (cs : List ℤ) : ∀ {g : ℚ}, Float32 g →
    Float32 (cs.foldl (giniStep xs) g) := by
  induction cs with
  | nil => intro g hg; exact hg
  | cons c cs ih =>
    intro g _
    exact ih (representable_rnd _)

theorem Spec.StorableFloat.range {v : ℚ} (h : StorableFloat v) : RangeFloat v := by
  obtain ⟨-, h1 | h1, h2⟩ := h
  · exact Or.inl h1
  · exact Or.inr ⟨le_trans (by norm_num) h1, h2⟩

theorem Spec.StorableFloat.mult {v : ℚ} (h : StorableFloat v) : ∃ n : ℤ, v = n * (2 : ℚ) ^ (-121 : ℤ) := by
  obtain ⟨hf, h1 | h1, h2⟩ := h
  · exact ⟨0, by simp [h1]⟩
  · exact float_mult hf (le_trans (by norm_num) h1)

theorem rangeFloat_threshold {l r : ℚ} (hl : StorableFloat l) (hr : StorableFloat r) (h : l ≤ r) :
    RangeFloat (threshold l r) := by
  have hmax : (10 : ℚ) ^ (38 : ℤ) ≤ maxFloat / 2 := by unfold maxFloat; norm_num
  obtain ⟨b1, b2⟩ := threshold_between hl.1 hr.1 h (le_trans hl.2.2 hmax) (le_trans hr.2.2 hmax)
  have hup : |threshold l r| ≤ 10 ^ (38 : ℤ) := by
    have := abs_le.1 hl.2.2
    have := abs_le.1 hr.2.2
    rw [abs_le]; constructor <;> linarith
  by_cases h0 : l + r = 0
  · left
    have hz : ∀ p emin, 1 ≤ p → rnd p emin 0 = 0 := fun p emin hp =>
      rnd_of_representable hp representable_zero
    unfold threshold rnd32 rnd64
    simp only [h0, hz 24 (-149) (by norm_num), zero_div, hz 53 (-1074) (by norm_num)]
    rw [if_neg (by unfold maxFloat; norm_num), if_neg (by unfold maxFloat; norm_num)]
  · right
    refine ⟨?_, hup⟩
    obtain ⟨n, hn⟩ := hl.mult
    obtain ⟨m, hm⟩ := hr.mult
    have hlow : (2 : ℚ) ^ (-121 : ℤ) ≤ |l + r| := by
      have e : l + r = ((n + m : ℤ) : ℚ) * 2 ^ (-121 : ℤ) := by rw [hn, hm]; push_cast; ring
      have hz : (n + m : ℤ) ≠ 0 := by
        intro hz; rw [e, hz] at h0; simp at h0
      have hz1 : (1 : ℚ) ≤ |((n + m : ℤ) : ℚ)| := by exact_mod_cast Int.one_le_abs hz
      rw [e, abs_mul, abs_of_pos (two_zpow_pos _)]
      have := two_zpow_pos (-121)
      nlinarith
    have s1 := abs_rnd_ge (p := 24) (emin := -149) (by norm_num)
      (representable_two_zpow (by norm_num)) hlow
    have hinf : (10 : ℚ) ^ (-37 : ℤ) ≤ infFloat := by unfold infFloat; norm_num
    unfold threshold
    simp only
    split
    · rw [abs_of_pos (by unfold infFloat; norm_num)]; exact hinf
    split
    · rw [abs_neg, abs_of_pos (by unfold infFloat; norm_num)]; exact hinf
    · have s2 : (2 : ℚ) ^ (-122 : ℤ) ≤ |rnd32 (l + r) / 2| := by
        rw [abs_div, abs_of_pos (by norm_num : (0 : ℚ) < 2), le_div_iff₀ (by norm_num)]
        refine le_trans (le_of_eq ?_) s1
        norm_num
      have s3 := abs_rnd_ge (p := 53) (emin := -1074) (by norm_num)
        (representable_two_zpow (by norm_num)) s2
      have s4 := abs_rnd_ge (p := 24) (emin := -149) (by norm_num)
        (representable_two_zpow (by norm_num)) s3
      exact le_trans (by norm_num) s4

/-! ## Trained trees -/

theorem Tree.forall_iff {p : NodeInfo → Prop} {t : Tree} :
    t.Forall p ↔ ∀ q n l r, subtreeAt t q = .node n l r → p n := by
  induction t with
  | nil =>
    refine ⟨fun _ q n l r h => ?_, fun _ => trivial⟩
    cases q <;> simp [subtreeAt] at h
  | node m tl tr ihl ihr =>
    constructor
    · rintro ⟨h1, h2, h3⟩ q n l r h
      cases q with
      | nil => simp only [subtreeAt, Tree.node.injEq] at h; rw [← h.1]; exact h1
      | cons b q =>
        cases b with
        | false => exact ihl.1 h2 q n l r h
        | true => exact ihr.1 h3 q n l r h
    · intro h
      exact ⟨h [] m tl tr rfl, ihl.2 fun q n l r hq => h (false :: q) n l r hq,
        ihr.2 fun q n l r hq => h (true :: q) n l r hq⟩

theorem Tree.Forall.and {p q : NodeInfo → Prop} : ∀ {t : Tree}, t.Forall p → t.Forall q →
    t.Forall (fun n => p n ∧ q n)
  | .nil, _, _ => trivial
  | .node _ _ _, ⟨h1, h2, h3⟩, ⟨k1, k2, k3⟩ => ⟨⟨h1, k1⟩, h2.and k2, h3.and k3⟩

/-- Leaves have threshold 0. -/
theorem buildTree_leaf {σ : SortFn} (classes : List ℤ) (d : ℕ) :
    ∀ {xs ys : List Sample} {t : Tree}, buildTree σ classes d xs = .ok (t, ys) →
      t.Forall (fun n => n.featureIdx = -1 → n.threshold = 0) := by
  induction d with
  | zero =>
    intro xs ys t h
    unfold buildTree at h
    obtain ⟨g, h1, h2⟩ := (Res.bind_eq_ok _ _ _).1 h
    obtain ⟨n, h3, h4⟩ := (Res.bind_eq_ok _ _ _).1 h2
    simp only [Except.ok.injEq, Prod.mk.injEq] at h4
    obtain ⟨rfl, rfl⟩ := h4
    obtain ⟨c, rest, -, rfl⟩ := newNode_ok_iff.1 h3
    exact ⟨fun _ => rfl, trivial, trivial⟩
  | succ d ih =>
    intro xs ys t h
    unfold buildTree at h
    obtain ⟨g, h1, h2⟩ := (Res.bind_eq_ok _ _ _).1 h
    obtain ⟨n, h3, h4⟩ := (Res.bind_eq_ok _ _ _).1 h2
    obtain ⟨c, rest, -, hn⟩ := newNode_ok_iff.1 h3
    split at h4
    · simp only [Except.ok.injEq, Prod.mk.injEq] at h4
      rw [← h4.1, hn]; exact ⟨fun _ => rfl, trivial, trivial⟩
    split at h4
    · simp only [Except.ok.injEq, Prod.mk.injEq] at h4
      rw [← h4.1, hn]; exact ⟨fun _ => rfl, trivial, trivial⟩
    obtain ⟨⟨zs, pos, fidx, thr⟩, h5, h6⟩ := (Res.bind_eq_ok _ _ _).1 h4
    obtain ⟨⟨tl, ys1⟩, h7, h8⟩ := (Res.bind_eq_ok _ _ _).1 h6
    obtain ⟨⟨tr, ys2⟩, h9, h10⟩ := (Res.bind_eq_ok _ _ _).1 h8
    simp only [Except.ok.injEq, Prod.mk.injEq] at h10
    obtain ⟨rfl, rfl⟩ := h10
    refine ⟨fun h => ?_, ih h7, ih h9⟩
    simp only at h
    omega

theorem numOf_le (xs : List Sample) (c : ℤ) : numOf xs c ≤ xs.length := by
  unfold numOf; exact List.length_filter_le _ _

theorem grown_ranges {classes : List ℤ} (hnd : classes.Nodup) (hK : classes.length ≤ 2 ^ 20) {k d : ℕ}
    (hk31 : k < 2 ^ 31) {xs : List Sample} {t : Tree} (h : GrownM classes k d xs t) (hne : xs ≠ [])
    (hlen : xs.length ≤ 2 ^ 20) (hcls : ∀ x ∈ xs, x.2 ∈ classes) (hs : ∀ x ∈ xs, StorableSample x)
    (hkx : ∀ x ∈ xs, x.1.length = k) :
    t.Forall (fun n => RangeFloat n.gini ∧ n.numSamples < 2 ^ 64 ∧
      (-2 ^ 31 ≤ n.featureIdx ∧ n.featureIdx < 2 ^ 31) ∧
      (n.featureIdx ≠ -1 → RangeFloat n.threshold) ∧ ∀ c ∈ n.counts, c < 2 ^ 64) := by
  have hgini : ∀ xs : List Sample, xs ≠ [] → xs.length ≤ 2 ^ 20 → (∀ x ∈ xs, x.2 ∈ classes) →
      RangeFloat (gini classes xs) := fun xs h1 h2 h3 =>
    rangeFloat_gini (float32_fold xs classes representable_zero)
      (gini_err hnd (hK.trans (by norm_num)) h1 h3 (h2.trans (by norm_num))).2
  have hcounts : ∀ xs : List Sample, xs.length ≤ 2 ^ 20 → ∀ c ∈ classes.map (numOf xs), c < 2 ^ 64 := by
    intro xs h c hc
    obtain ⟨a, -, rfl⟩ := List.mem_map.1 hc
    exact lt_of_le_of_lt (numOf_le xs a) (lt_of_le_of_lt h (by norm_num))
  induction h with
  | leaf d xs n hd hg hn hc hi =>
    refine ⟨⟨?_, ?_, ?_, ?_, ?_⟩, trivial, trivial⟩
    · rw [hg]; exact hgini xs hne hlen hcls
    · rw [hn]; exact lt_of_le_of_lt hlen (by norm_num)
    · rw [hi]; norm_num
    · intro h; exact absurd hi h
    · rw [hc]; exact hcounts xs hlen
  | inner d xs n i l r tl tr himp hg hn hc hbest hi ht hl hr ihl ihr =>
    have hsum := (below_above_perm xs i l).length_eq
    rw [List.length_append] at hsum
    refine ⟨⟨?_, ?_, ?_, ?_, ?_⟩, ?_, ?_⟩
    · rw [hg]; exact hgini xs hne hlen hcls
    · rw [hn]; exact lt_of_le_of_lt hlen (by norm_num)
    · rw [hi]
      have := hbest.feature
      constructor <;> omega
    · intro _
      rw [ht]
      obtain ⟨a, ha, rfl⟩ := hbest.cut.left
      obtain ⟨b, hb, rfl⟩ := hbest.cut.right
      have get : ∀ x ∈ xs, StorableFloat (x.1.getD i 0) := by
        intro x hx
        have hi' : i < x.1.length := by rw [hkx x hx]; exact hbest.feature
        rw [List.getD_eq_getElem?_getD, List.getElem?_eq_getElem hi']
        exact (hs x hx).feat _ (List.getElem_mem hi')
      exact rangeFloat_threshold (get a ha) (get b hb) hbest.cut.lt.le
    · rw [hc]; exact hcounts xs hlen
    · exact ihl (List.ne_nil_of_length_pos (below_length_pos hbest.cut)) (by omega)
        (fun x hx => hcls x (mem_of_below hx)) (fun x hx => hs x (mem_of_below hx))
        (fun x hx => hkx x (mem_of_below hx))
    · exact ihr (List.ne_nil_of_length_pos (above_length_pos hbest.cut)) (by omega)
        (fun x hx => hcls x (mem_of_above hx)) (fun x hx => hs x (mem_of_above hx))
        (fun x hx => hkx x (mem_of_above hx))

theorem trained_treeOk {σ : SortFn} (hσ : SortSpec σ) {t0 t : TreeImpl}
    (h0 : t0.classes.Pairwise (· < ·)) {xs : List Sample} (ht : t0.train σ xs = .ok t) {k : ℕ}
    (hk : ∀ x ∈ xs, x.1.length = k) (hk31 : k < 2 ^ 31) (hlen : xs.length ≤ 2 ^ 20)
    (hK : t.classes.length ≤ 2 ^ 20) (hs : ∀ x ∈ xs, StorableSample x)
    (hc0 : ∀ c ∈ t0.classes, -2 ^ 31 ≤ c ∧ c < 2 ^ 31) (hd : t0.maxDepth < 2 ^ 32) :
    TreeOk t ∧ t.data.length ≤ 2 ^ 64 := by
  obtain ⟨x, rest, root, data, hx, hb, rfl⟩ := TreeImpl.train_ok_iff.1 ht
  have hcl : ∀ c ∈ setInsertAll (xs.map Prod.snd) t0.classes, -2 ^ 31 ≤ c ∧ c < 2 ^ 31 := by
    intro c hc
    rcases mem_setInsertAll.1 hc with h | h
    · obtain ⟨y, hy, rfl⟩ := List.mem_map.1 h
      exact (hs y hy).cls
    · exact hc0 c h
  obtain ⟨hgrown, hp⟩ := buildTree_grown hσ _ _ hk hb
  have hnd := sorted_nodup (setInsertAll_sorted (cs := xs.map Prod.snd) h0)
  have hr := grown_ranges hnd hK hk31 hgrown (by rw [hx]; simp) hlen mem_classes_of_train hs hk
  have hl := buildTree_leaf _ _ hb
  have hpred : root.Forall (fun n => -2 ^ 31 ≤ n.predicted ∧ n.predicted < 2 ^ 31) := by
    have hx' : x.2 ∈ setInsertAll (xs.map Prod.snd) t0.classes :=
      mem_classes_of_train x (by rw [hx]; simp)
    revert hb hcl hx'
    generalize setInsertAll (xs.map Prod.snd) t0.classes = cl
    intro hb hcl hx'
    cases cl with
    | nil => simp at hx'
    | cons c cl =>
      rw [Tree.forall_iff]
      intro q n l r hq
      rw [buildTree_predicted c cl _ hb q n l r hq]
      exact hcl c (by simp)
  refine ⟨⟨?_, ?_, hcl, hd, ?_⟩, ?_⟩
  · refine ((hr.and hl).and hpred).imp fun n h => ?_
    obtain ⟨⟨⟨g1, g2, g3, g4, g5⟩, g6⟩, g7⟩ := h
    refine ⟨g1, g2, g7, g3, ?_, g5⟩
    by_cases hi : n.featureIdx = -1
    · exact Or.inl (g6 hi)
    · exact g4 hi
  · intro y hy
    have := hs y (hp.mem_iff.1 hy)
    exact ⟨fun v hv => (this.feat v hv).range, this.cls⟩
  · have := hk x (by rw [hx]; simp)
    simp only at this ⊢
    omega
  · have := hp.length_eq
    simp only
    omega

theorem grown_counts {classes : List ℤ} {k d : ℕ} {xs : List Sample} {t : Tree}
    (h : GrownM classes k d xs t) : t.Forall (fun n => classes.length ≤ n.counts.length) := by
  induction h with
  | leaf d xs n hd hg hn hc hi => exact ⟨by simp [hc], trivial, trivial⟩
  | inner d xs n i l r tl tr himp hg hn hc hbest hi ht hl hr ihl ihr =>
    exact ⟨by simp [hc], ihl, ihr⟩

theorem trained_saves {σ : SortFn} (hσ : SortSpec σ) {t0 t : TreeImpl} {xs : List Sample}
    (ht : t0.train σ xs = .ok t) {k : ℕ} (hk : ∀ x ∈ xs, x.1.length = k) (hok : TreeOk t) :
    ∃ s, t.save = .ok s := by
  obtain ⟨x, rest, root, data, hx, hb, rfl⟩ := TreeImpl.train_ok_iff.1 ht
  obtain ⟨hgrown, hp⟩ := buildTree_grown hσ _ _ hk hb
  refine ⟨_, save_ok_iff.2 ⟨?_, ?_, ?_, rfl⟩⟩
  · obtain ⟨n, l, r, h, -⟩ := grown_node hgrown
    simp only [h]; exact fun h => by cases h
  · rw [Tree.all_iff]
    refine hok.root.imp fun n hn => decide_eq_true ?_
    rcases hn.thr with h | h
    · rw [h]; unfold maxFloat; norm_num
    · exact le_trans h.2 (by unfold maxFloat; norm_num)
  · rw [Tree.all_iff]
    exact (grown_counts hgrown).imp fun n hn => decide_eq_true hn

/-! ## Predictions -/

theorem rereadTree_forall {k : ℕ} {p : NodeInfo → Prop} : ∀ {t : Tree},
    (rereadTree k t).Forall p ↔ t.Forall (fun n => p (rereadNode k n))
  | .nil => Iff.rfl
  | .node n l r => by
    unfold rereadTree Tree.Forall
    rw [rereadTree_forall, rereadTree_forall]

/-- Where all nodes agree, so does the prediction. -/
theorem eval_const {c : ℤ} {f : Features} : ∀ {t : Tree}, t ≠ .nil →
    t.Forall (fun n => n.predicted = c ∧
      (n.featureIdx = -1 ∨ (0 ≤ n.featureIdx ∧ n.featureIdx.toNat < f.length))) →
    evaluateTree t f = .ok c
  | .nil, h, _ => absurd rfl h
  | .node n l r, _, ⟨⟨h1, h2⟩, h3, h4⟩ => by
    unfold evaluateTree
    by_cases hi : n.featureIdx = -1
    · rw [if_pos hi, h1]
    · obtain h2 | ⟨h2, h2'⟩ := h2
      · exact absurd h2 hi
      rw [if_neg hi, if_neg (by omega), List.getElem?_eq_getElem h2']
      simp only [h1]
      split
      · split
        · rfl
        · rename_i hl; exact eval_const hl h3
      · split
        · rfl
        · rename_i hr; exact eval_const hr h4

/-- The reloaded tree predicts the same where its thresholds divide the same. -/
theorem eval_reread {k : ℕ} {f : Features} : ∀ {t : Tree},
    t.Forall (fun n => n.featureIdx ≠ -1 → ∀ v, f[n.featureIdx.toNat]? = some v →
      (v < rnd32 (round6 n.threshold) ↔ v < n.threshold)) →
    evaluateTree (rereadTree k t) f = evaluateTree t f
  | .nil, _ => rfl
  | .node n l r, ⟨h1, h2, h3⟩ => by
    have e1 := eval_reread (k := k) h2
    have e2 := eval_reread (k := k) h3
    unfold rereadTree evaluateTree rereadNode
    simp only [rereadTree_eq_nil, e1, e2]
    split
    · rfl
    rename_i hi
    split
    · rfl
    cases hv : f[n.featureIdx.toNat]? with
    | none => rfl
    | some v =>
      simp only
      rw [if_congr (h1 hi v hv) rfl rfl]

/-! ## Generated code -/

theorem literalValue_fmtG6 (q : ℚ) : literalValue (fmtG6 q) = some (rnd64 (round6 q)) := by
  have := readDecimal_fmtG6 q [] (by simp [Stops])
  rw [List.append_nil] at this
  unfold literalValue
  rw [this]

/-- Nodes as training builds them: leaves without children and index, others with both. -/
def Tree.Proper : Tree → Prop
  | .nil => False
  | .node n l r =>
    (l = .nil ∧ r = .nil ∧ n.featureIdx = -1) ∨ (0 ≤ n.featureIdx ∧ l.Proper ∧ r.Proper)

theorem Tree.Proper.ne_nil {t : Tree} (h : t.Proper) : t ≠ .nil := by
  rintro rfl; exact h

/-- Generated code returns what interpretation does where the literals divide as the thresholds. -/
theorem run_generate {f : Features} : ∀ {t : Tree}, t.Proper →
    t.Forall (fun n => n.featureIdx ≠ -1 → ∀ v, f[n.featureIdx.toNat]? = some v →
      (v < rnd64 (round6 n.threshold) ↔ v < n.threshold)) →
    (generateSource t).run f = evaluateTree t f
  | .nil, h, _ => absurd h (by simp [Tree.Proper])
  | .node n l r, h, ⟨h1, h2, h3⟩ => by
    rcases h with ⟨rfl, rfl, hi⟩ | ⟨hi, pl, pr⟩
    · simp [generateSource, Code.run, evaluateTree, hi]
    · have e1 := run_generate pl h2
      have e2 := run_generate pr h3
      unfold generateSource evaluateTree
      rw [if_neg (fun h => pl.ne_nil h.1), if_neg (by omega), if_neg (by omega)]
      unfold Code.run
      rw [if_neg (by omega), literalValue_fmtG6]
      cases hv : f[n.featureIdx.toNat]? with
      | none => rfl
      | some v =>
        simp only [if_neg pl.ne_nil, if_neg pr.ne_nil, e1, e2]
        rw [if_congr (h1 (by omega) v hv) rfl rfl]

/-- Where all nodes agree, the generated code returns that. -/
theorem run_const {c : ℤ} {f : Features} : ∀ {t : Tree}, t.Proper →
    t.Forall (fun n => n.predicted = c ∧
      (n.featureIdx = -1 ∨ (0 ≤ n.featureIdx ∧ n.featureIdx.toNat < f.length))) →
    (generateSource t).run f = .ok c
  | .nil, h, _ => absurd h (by simp [Tree.Proper])
  | .node n l r, h, ⟨⟨h1, h2⟩, h3, h4⟩ => by
    rcases h with ⟨rfl, rfl, hi⟩ | ⟨hi, pl, pr⟩
    · simp [generateSource, Code.run, h1]
    · have e1 := run_const pl h3
      have e2 := run_const pr h4
      obtain h2 | ⟨h2, h2'⟩ := h2
      · omega
      unfold generateSource
      rw [if_neg (fun h => pl.ne_nil h.1)]
      unfold Code.run
      rw [if_neg (by omega), literalValue_fmtG6, List.getElem?_eq_getElem h2']
      simp only [e1, e2, ite_self]

/-! ## Trained trees predict one class -/

theorem grown_proper {classes : List ℤ} {k d : ℕ} {xs : List Sample} {t : Tree}
    (h : GrownM classes k d xs t) : t.Proper := by
  induction h with
  | leaf d xs n hd hg hn hc hi => exact Or.inl ⟨rfl, rfl, hi⟩
  | inner d xs n i l r tl tr himp hg hn hc hbest hi ht hl hr ihl ihr =>
    exact Or.inr ⟨by omega, ihl, ihr⟩

theorem grown_idx {classes : List ℤ} {k d : ℕ} {xs : List Sample} {t : Tree}
    (h : GrownM classes k d xs t) :
    t.Forall (fun n => n.featureIdx = -1 ∨ (0 ≤ n.featureIdx ∧ n.featureIdx.toNat < k)) := by
  induction h with
  | leaf d xs n hd hg hn hc hi => exact ⟨Or.inl hi, trivial, trivial⟩
  | inner d xs n i l r tl tr himp hg hn hc hbest hi ht hl hr ihl ihr =>
    have := hbest.feature
    exact ⟨Or.inr ⟨by omega, by omega⟩, ihl, ihr⟩

/-- A trained tree: proper, with indices in range, all nodes predicting the first class. -/
theorem trained_const {σ : SortFn} (hσ : SortSpec σ) {t0 t : TreeImpl} {xs : List Sample}
    (ht : t0.train σ xs = .ok t) {k : ℕ} (hk : ∀ x ∈ xs, x.1.length = k) :
    t.root.Proper ∧ ∃ c, t.root.Forall (fun n => n.predicted = c ∧
      (n.featureIdx = -1 ∨ (0 ≤ n.featureIdx ∧ n.featureIdx.toNat < k))) := by
  obtain ⟨x, rest, root, data, hx, hb, rfl⟩ := TreeImpl.train_ok_iff.1 ht
  obtain ⟨hgrown, -⟩ := buildTree_grown hσ _ _ hk hb
  refine ⟨grown_proper hgrown, ?_⟩
  have hi := grown_idx hgrown
  have hx' : x.2 ∈ setInsertAll (xs.map Prod.snd) t0.classes :=
    mem_classes_of_train x (by rw [hx]; simp)
  revert hb hx' hgrown ht
  generalize setInsertAll (xs.map Prod.snd) t0.classes = cl
  intro hb _ _ hx'
  cases cl with
  | nil => simp at hx'
  | cons c cl =>
    refine ⟨c, Tree.Forall.and ?_ hi⟩
    rw [Tree.forall_iff]
    exact buildTree_predicted c cl _ hb

/-- A new tree, once trained, predicts a class of its samples, always the same. -/
theorem trained_predict {σ : SortFn} (hσ : SortSpec σ) {n : ℤ} {d : ℕ} {t : TreeImpl}
    {xs : List Sample} (ht : TreeImpl.newTrained σ n d xs = .ok t) {k : ℕ}
    (hk : ∀ x ∈ xs, x.1.length = k) :
    ∃ c, (∃ x ∈ xs, x.2 = c) ∧ ∀ f, f.length = k → t.predict f = .ok c := by
  obtain ⟨x, rest, root, data, hx, hb, rfl⟩ := TreeImpl.train_ok_iff.1 ht
  obtain ⟨hgrown, -⟩ := buildTree_grown hσ _ _ hk hb
  have hx' : x.2 ∈ setInsertAll (xs.map Prod.snd) (TreeImpl.new n d).classes :=
    mem_classes_of_train x (by rw [hx]; simp)
  have hmem : ∀ c ∈ setInsertAll (xs.map Prod.snd) (TreeImpl.new n d).classes, ∃ x ∈ xs, x.2 = c := by
    intro c hc
    rw [mem_setInsertAll, List.mem_map] at hc
    exact hc.resolve_right (by simp [TreeImpl.new])
  revert hb hx' hmem hgrown ht
  generalize setInsertAll (xs.map Prod.snd) (TreeImpl.new n d).classes = cl
  intro hb _ hgrown hx' hmem
  cases cl with
  | nil => simp at hx'
  | cons c cl =>
    refine ⟨c, hmem c (by simp), fun f hf => ?_⟩
    obtain ⟨p, nd, e1, -, e3⟩ := grown_eval hgrown hf
    rw [TreeImpl.predict, e3, buildTree_predicted c cl _ hb p nd _ _ e1]

end Apollo
