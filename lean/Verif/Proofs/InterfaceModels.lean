import Verif.Proofs.InterfaceStep
import Verif.Proofs.Answers
import Verif.Props.Factory
import Verif.Props.Forest

/-!
# The state of the library while it is used as specified: the policy models
-/

namespace Apollo

open Spec Props

/-! ## Samples of a dataset -/

theorem bestPolicies_all {Q : Features → ℤ → Prop} {ds : Dataset}
    (h : ∀ e ∈ ds, Q (ofLex e.1).1 (ofLex e.1).2) : ∀ e ∈ Dataset.bestPolicies ds, Q e.1 e.2.1 := by
  unfold Dataset.bestPolicies
  induction ds using List.reverseRecOn with
  | nil => simp
  | append_singleton pre d ih =>
    have ih := ih fun e he => h e (by simp [he])
    have hd := h d (by simp)
    rw [List.foldl_append]
    simp only [List.foldl_cons, List.foldl_nil]
    generalize pre.foldl Dataset.bestStep [] = best at ih
    intro e he
    unfold Dataset.bestStep at he
    dsimp only at he
    split at he
    · rcases OMap.mem_upsert_val he with he | ⟨hk, o, he, ho⟩
      · exact ih e he
      · cases o with
        | none => rw [hk, he]; exact hd
        | some v => rw [hk, he]; exact ih _ (ho v rfl)
    · split at he
      · rcases OMap.mem_upsert_val he with he | ⟨hk, o, he, ho⟩
        · exact ih e he
        · rw [hk, he]; exact hd
      · exact ih e he

theorem bestPolicies_shape (ds : Dataset) : OMap.Sorted (Dataset.bestPolicies ds) ∧
    (Dataset.bestPolicies ds).length ≤ ds.length ∧ (ds ≠ [] → Dataset.bestPolicies ds ≠ []) := by
  unfold Dataset.bestPolicies
  induction ds using List.reverseRecOn with
  | nil => exact ⟨OMap.sorted_nil, le_rfl, fun h => absurd rfl h⟩
  | append_singleton pre d ih =>
    obtain ⟨h1, h2, h3⟩ := ih
    rw [List.foldl_append]
    simp only [List.foldl_cons, List.foldl_nil, List.length_append, List.length_singleton]
    generalize pre.foldl Dataset.bestStep [] = best at h1 h2 h3
    have hne : ∀ (f : Option (ℤ × ℚ) → ℤ × ℚ) k, OMap.upsert f k best ≠ [] := by
      intro f k he
      have := (OMap.mem_upsert_key f k best k).2 (.inl rfl)
      rw [he] at this
      simp at this
    unfold Dataset.bestStep
    dsimp only
    split
    · exact ⟨h1.upsert _ _, le_trans (OMap.length_upsert _ _ _) (by omega), fun _ => hne _ _⟩
    next prev hp =>
      split
      · exact ⟨h1.upsert _ _, le_trans (OMap.length_upsert _ _ _) (by omega), fun _ => hne _ _⟩
      · refine ⟨h1, by omega, fun _ hb => ?_⟩
        rw [hb] at hp
        simp [OMap.find] at hp

theorem trainingSamples_eq (ds : Dataset) : PolicyModel.trainingSamples ds =
    (Dataset.bestPolicies ds).map fun b => (b.1, b.2.1) := by
  unfold PolicyModel.trainingSamples Dataset.findMinMetricPolicyByFeatures
  dsimp only
  rw [List.zip_map']

/-- Samples for training: of `k` features, without contradictions, their policies from `ds`. -/
structure SamplesOk (fits : ℚ → Prop) (k : ℕ) (n : ℤ) (ds : Dataset) (xs : List Sample) : Prop where
  ne : xs ≠ []
  len : xs.length ≤ ds.length
  feats : ∀ x ∈ xs, x.1.length = k
  range : ∀ x ∈ xs, 0 ≤ x.2 ∧ x.2 < n
  from_ : ∀ x ∈ xs, ∃ e ∈ ds, (ofLex e.1).2 = x.2
  func : ∀ x ∈ xs, ∀ y ∈ xs, x.1 = y.1 → x.2 = y.2
  values : ∀ x ∈ xs, ∀ v ∈ x.1, fits v

theorem trainingSamples_ok {fits : ℚ → Prop} {k : ℕ} {n : ℤ} {ds : Dataset} (hd : DataOk fits k n ds)
    (h0 : ds.length ≠ 0) : SamplesOk fits k n ds (PolicyModel.trainingSamples ds) := by
  obtain ⟨h1, h2, h3⟩ := bestPolicies_shape ds
  have hall : ∀ e ∈ Dataset.bestPolicies ds, e.1.length = k ∧ (0 ≤ e.2.1 ∧ e.2.1 < n) ∧
      ∀ v ∈ e.1, fits v :=
    bestPolicies_all (Q := fun f p => f.length = k ∧ (0 ≤ p ∧ p < n) ∧ ∀ v ∈ f, fits v) hd
  have hfrom : ∀ e ∈ Dataset.bestPolicies ds, ∃ e' ∈ ds, (ofLex e'.1).2 = e.2.1 :=
    bestPolicies_all (Q := fun _ p => ∃ e' ∈ ds, (ofLex e'.1).2 = p) fun e he => ⟨e, he, rfl⟩
  rw [trainingSamples_eq]
  refine ⟨?_, by simpa using h2, ?_, ?_, ?_, ?_, ?_⟩
  · simp only [ne_eq, List.map_eq_nil_iff]
    exact h3 fun h => h0 (by rw [h]; rfl)
  · intro x hx
    obtain ⟨e, he, rfl⟩ := List.mem_map.1 hx
    exact (hall e he).1
  · intro x hx
    obtain ⟨e, he, rfl⟩ := List.mem_map.1 hx
    exact (hall e he).2.1
  · intro x hx
    obtain ⟨e, he, rfl⟩ := List.mem_map.1 hx
    exact hfrom e he
  · intro x hx y hy hxy
    obtain ⟨e, he, rfl⟩ := List.mem_map.1 hx
    obtain ⟨e', he', rfl⟩ := List.mem_map.1 hy
    have hxy : e.1 = e'.1 := hxy
    have f1 := (h1.find_eq_some_iff e.1 e.2).2 he
    have f2 := (h1.find_eq_some_iff e'.1 e'.2).2 he'
    rw [hxy, f2] at f1
    exact congrArg Prod.fst (Option.some.inj f1).symm
  · intro x hx
    obtain ⟨e, he, rfl⟩ := List.mem_map.1 hx
    exact (hall e he).2.2

theorem SamplesOk.sub {fits : ℚ → Prop} {k : ℕ} {n : ℤ} {ds : Dataset} {xs ys : List Sample}
    (h : SamplesOk fits k n ds xs) (hl : ys.length = xs.length) (hs : ∀ y ∈ ys, y ∈ xs) :
    SamplesOk fits k n ds ys :=
  ⟨fun he => h.ne (List.length_eq_zero_iff.1 (by rw [← hl, he]; rfl)), hl ▸ h.len,
    fun x hx => h.feats x (hs x hx), fun x hx => h.range x (hs x hx), fun x hx => h.from_ x (hs x hx),
    fun x hx y hy => h.func x (hs x hx) y (hs y hy), fun x hx => h.values x (hs x hx)⟩

/-! ## Trees -/

theorem abs_rnd_le {p : ℕ} {emin : ℤ} (hp : 1 ≤ p) {x b : ℚ} (hb : Representable p emin b)
    (h : |x| ≤ b) : |rnd p emin x| ≤ b := by
  obtain ⟨h1, h2⟩ := abs_le.1 h
  refine abs_le.2 ⟨?_, rnd_le_of_le hp hb h2⟩
  have := rnd_le_of_le (x := -x) hp hb (by linarith)
  rw [rnd_neg] at this
  linarith

theorem threshold_small {l r : ℚ} (hl : FitsInt l) (hr : FitsInt r) : |threshold l r| ≤ maxFloat := by
  have hb : |l + r| ≤ (2 : ℚ) ^ (33 : ℤ) := by
    obtain ⟨a, b⟩ := hl
    obtain ⟨c, d⟩ := hr
    rw [abs_le]
    constructor <;> norm_num at * <;> linarith
  have h1 : |rnd32 (l + r)| ≤ (2 : ℚ) ^ (33 : ℤ) :=
    abs_rnd_le (by norm_num) (representable_two_zpow (by norm_num)) hb
  have hm : (2 : ℚ) ^ (33 : ℤ) ≤ maxFloat := by unfold maxFloat; norm_num
  obtain ⟨a, b⟩ := abs_le.1 h1
  unfold threshold
  dsimp only
  rw [if_neg (by linarith), if_neg (by linarith)]
  have h2 : |rnd32 (l + r) / 2| ≤ (2 : ℚ) ^ (33 : ℤ) := by
    rw [abs_div, abs_two]
    have := abs_nonneg (rnd32 (l + r))
    linarith
  refine le_trans ?_ hm
  exact abs_rnd_le (by norm_num) (representable_two_zpow (by norm_num))
    (abs_rnd_le (by norm_num) (representable_two_zpow (by norm_num)) h2)

theorem grown_small {classes : List ℤ} {k d : ℕ} {xs : List Sample} {t : Tree}
    (h : GrownM classes k d xs t) (hk : ∀ x ∈ xs, x.1.length = k)
    (hf : ∀ x ∈ xs, ∀ v ∈ x.1, FitsInt v) :
    t.Forall (fun n => n.featureIdx ≠ -1 → |n.threshold| ≤ maxFloat) := by
  induction h with
  | leaf d xs n hd hg hn hc hi => exact ⟨fun h => absurd hi h, trivial, trivial⟩
  | inner d xs n i l r tl tr himp hg hn hc hbest hi ht hl hr ihl ihr =>
    have get : ∀ x ∈ xs, FitsInt (x.1.getD i 0) := by
      intro x hx
      have hi' : i < x.1.length := by rw [hk x hx]; exact hbest.feature
      rw [List.getD_eq_getElem?_getD, List.getElem?_eq_getElem hi']
      exact hf x hx _ (List.getElem_mem hi')
    obtain ⟨a, ha, ea⟩ := hbest.cut.left
    obtain ⟨b, hb, eb⟩ := hbest.cut.right
    refine ⟨fun _ => ?_, ihl (fun x hx => hk x (mem_of_below hx)) (fun x hx => hf x (mem_of_below hx)),
      ihr (fun x hx => hk x (mem_of_above hx)) (fun x hx => hf x (mem_of_above hx))⟩
    rw [ht]
    exact threshold_small (ea ▸ get a ha) (eb ▸ get b hb)

/-- A tree that answers with a policy below `n` for `k` features, and can be saved. -/
def TreeSound (fits : ℚ → Prop) (k : ℕ) (n : ℤ) (t : TreeImpl) : Prop :=
  (∀ f : Features, f.length = k → ∃ c, t.predict f = .ok c ∧ 0 ≤ c ∧ c < n) ∧
    ((∀ v, fits v → FitsInt v) → ∀ level, ∃ s, outputTree level t = .ok s)

theorem train_safe {σ : SortFn} (hσ : SortSpec σ) {fits : ℚ → Prop} {k : ℕ} {n : ℤ} {ds : Dataset}
    {xs : List Sample} (h : SamplesOk fits k n ds xs) {t : TreeImpl} (hc : t.classes.Pairwise (· < ·))
    (hcn : ∀ c ∈ t.classes, 0 ≤ c ∧ c < n) (hlen : xs.length + t.classes.length ≤ 2 ^ 20) :
    ∃ t', t.train σ xs = .ok t' ∧ t'.classes = setInsertAll (xs.map Prod.snd) t.classes ∧
      TreeSound fits k n t' := by
  obtain ⟨x, rest, hx⟩ := List.exists_cons_of_ne_nil h.ne
  have hs : (setInsertAll (xs.map Prod.snd) t.classes).Pairwise (· < ·) := setInsertAll_sorted hc
  have hK := setInsertAll_length_le (xs.map Prod.snd) t.classes
  rw [List.length_map] at hK
  obtain ⟨root, ys, hb⟩ := buildTree_ok hσ (sorted_nodup hs) (by omega) t.maxDepth
    ⟨h.ne, by omega, h.feats, mem_classes_of_train, h.func⟩
  have ht : t.train σ xs = .ok { t with
      data := ys, classes := setInsertAll (xs.map Prod.snd) t.classes, root := root,
      numFeatures := x.1.length } := TreeImpl.train_ok_iff.2 ⟨x, rest, root, ys, hx, hb, rfl⟩
  refine ⟨_, ht, rfl, fun f hf => ?_, fun hw level => ?_⟩
  · obtain ⟨hp, c, hall⟩ := trained_const hσ ht h.feats
    have he : evaluateTree root f = .ok c := eval_const hp.ne_nil (by rw [hf]; exact hall)
    exact ⟨c, he, evaluateTree_in (TreeImpl.train_in hcn h.range ht).2 he⟩
  · obtain ⟨hg, -⟩ := buildTree_grown hσ _ _ h.feats hb
    refine ⟨treeText level { t with
      data := ys, classes := setInsertAll (xs.map Prod.snd) t.classes, root := root,
      numFeatures := x.1.length }, ?_⟩
    unfold outputTree
    rw [if_neg (grown_proper hg).ne_nil, if_neg, if_pos]
    · rw [Tree.all_iff]
      exact (grown_counts hg).imp fun n hn => decide_eq_true hn
    · rw [not_not, Tree.all_iff]
      refine ((grown_small hg h.feats (fun x hx v hv => hw v (h.values x hx v hv))).and (buildTree_leaf _ _ hb)).imp fun n hn => ?_
      refine decide_eq_true ?_
      by_cases hi : n.featureIdx = -1
      · rw [hn.2 hi, abs_zero]; unfold maxFloat; norm_num
      · exact hn.1 hi

theorem forest_sound {f : ForestImpl} {fits : ℚ → Prop} {k : ℕ} {n : ℤ} (hn : 1 ≤ n) (hc : f.numClasses = n)
    (h : ∀ t ∈ f.trees, TreeSound fits k n t) (x : Features) (hx : x.length = k) :
    ∃ c, f.predict x = .ok c ∧ 0 ≤ c ∧ c < n := by
  have hp : ∀ ts : List TreeImpl, (∀ t ∈ ts, TreeSound fits k n t) → ∃ preds : List ℤ,
      List.Forall₂ (fun t c => TreeImpl.predict t x = .ok c) ts preds ∧ ∀ p ∈ preds, 0 ≤ p ∧ p < n := by
    intro ts
    induction ts with
    | nil => intro _; exact ⟨[], .nil, by simp⟩
    | cons t ts ih =>
      intro h
      obtain ⟨ps, h1, h2⟩ := ih fun t ht => h t (List.mem_cons_of_mem _ ht)
      obtain ⟨c, h3, h4⟩ := (h t List.mem_cons_self).1 x hx
      exact ⟨c :: ps, .cons h3 h1, by simpa using ⟨h4, h2⟩⟩
  obtain ⟨ps, h1, h2⟩ := hp f.trees h
  obtain ⟨w, h3, h4⟩ := predict_wins (by omega) h1 (by rw [hc]; exact h2)
  exact ⟨w, h3, h4.nonneg, hc ▸ h4.lt⟩

theorem treesText_ok {ts : List TreeImpl} {k : ℕ} {n : ℤ} {fits : ℚ → Prop} (hw : ∀ v, fits v → FitsInt v)
    (h : ∀ t ∈ ts, TreeSound fits k n t) (level : ℕ) : ∃ s, ForestImpl.treesText level ts = .ok s := by
  induction ts with
  | nil => exact ⟨[], rfl⟩
  | cons t ts ih =>
    obtain ⟨s, hs⟩ := ih fun t ht => h t (List.mem_cons_of_mem _ ht)
    obtain ⟨s', hs'⟩ := (h t List.mem_cons_self).2 hw (level + 1)
    unfold ForestImpl.treesText
    rw [hs', Res.bind_ok, hs, Res.bind_ok]
    exact ⟨_, rfl⟩

/-! ## The models -/

/-- The models that are not trained. -/
def SimpleModel (n : ℤ) : PolicyModel → Prop
  | .static _ c => 0 ≤ c ∧ c < n
  | .roundRobin k last => k = n ∧ -1 ≤ last ∧ last < n
  | .random k _ => k = n
  | _ => False

/-- Models for `k` features and `n` policies whose region has the data `ds`. -/
def GoodModel (fits : ℚ → Prop) (k : ℕ) (n : ℤ) (ds : Dataset) : PolicyModel → Prop
  | .tree _ trainable e t => SimpleModel n e ∧ t.classes.Pairwise (· < ·) ∧
      (∀ c ∈ t.classes, ∃ e ∈ ds, (ofLex e.1).2 = c) ∧ (trainable = false → TreeSound fits k n t)
  | .forest _ _ e f => SimpleModel n e ∧ f.numClasses = n ∧ ∀ t ∈ f.trees, TreeSound fits k n t
  | m => SimpleModel n m

theorem SimpleModel.good {n : ℤ} {m : PolicyModel} (h : SimpleModel n m) (fits : ℚ → Prop) (k : ℕ)
    (ds : Dataset) : GoodModel fits k n ds m := by
  cases m <;> first | exact h | cases h

theorem GoodModel.simple {fits : ℚ → Prop} {k : ℕ} {n : ℤ} {ds : Dataset} {m : PolicyModel}
    (h : GoodModel fits k n ds m) (h1 : ∀ a b e t, m ≠ .tree a b e t) (h2 : ∀ a b e f, m ≠ .forest a b e f) :
    SimpleModel n m := by
  cases m <;> first | exact h | exact absurd rfl (h1 _ _ _ _) | exact absurd rfl (h2 _ _ _ _)

theorem SimpleModel.index {n : ℤ} (hn : 1 ≤ n) {m : PolicyModel} (h : SimpleModel n m) (f : Features) :
    ∃ p m', m.getIndex f = .ok (p, m') ∧ (0 ≤ p ∧ p < n) ∧ SimpleModel n m' := by
  cases m with
  | static k c => exact ⟨c, _, rfl, h, h⟩
  | roundRobin k last =>
    obtain ⟨rfl, h1, h2⟩ := h
    unfold PolicyModel.getIndex
    rw [if_neg (by omega)]
    have a := Int.tmod_nonneg k (show 0 ≤ last + 1 by omega)
    have b := Int.tmod_lt_of_pos (last + 1) (show 0 < k by omega)
    exact ⟨_, _, rfl, ⟨a, b⟩, rfl, by omega, b⟩
  | random k gen =>
    obtain rfl : k = n := h
    unfold PolicyModel.getIndex
    split
    · refine ⟨_, _, rfl, ⟨by positivity, ?_⟩, rfl⟩
      have := Nat.mod_lt (gen 0) (show 0 < k.toNat by omega)
      omega
    · exact ⟨0, _, rfl, ⟨le_rfl, by omega⟩, rfl⟩
  | _ => cases h

theorem GoodModel.grow {fits : ℚ → Prop} {k : ℕ} {n : ℤ} {ds : Dataset} {m : PolicyModel}
    (h : GoodModel fits k n ds m) (f : Features) (p : ℤ) (x : ℚ) :
    GoodModel fits k n (ds.insert f p x) m := by
  cases m with
  | tree a b e t =>
    refine ⟨h.1, h.2.1, fun c hc => ?_, h.2.2.2⟩
    obtain ⟨e, he, rfl⟩ := h.2.2.1 c hc
    have : e.1 ∈ (ds.insert f p x).map Prod.fst :=
      (OMap.mem_upsert_key _ _ _ _).2 (.inr (List.mem_map_of_mem he))
    obtain ⟨e', he', h'⟩ := List.mem_map.1 this
    exact ⟨e', he', by rw [h']⟩
  | _ => exact h

theorem GoodModel.index {fits : ℚ → Prop} {k : ℕ} {n : ℤ} {ds : Dataset} {m : PolicyModel} {f : Features}
    (hn : 1 ≤ n) (h : GoodModel fits k n ds m) (hf : f.length = k) :
    ∃ p m', m.getIndex f = .ok (p, m') ∧ (0 ≤ p ∧ p < n) ∧ GoodModel fits k n ds m' := by
  cases m with
  | tree a b e t =>
    unfold PolicyModel.getIndex
    cases b with
    | false =>
      obtain ⟨c, h1, h2⟩ := (h.2.2.2 rfl).1 f hf
      simp only [Bool.not_false, if_true, h1, Res.bind_ok]
      exact ⟨c, _, rfl, h2, h⟩
    | true =>
      obtain ⟨p, e', h1, h2, h3⟩ := h.1.index hn f
      simp only [Bool.not_true, Bool.false_eq_true, if_false, h1, Res.bind_ok]
      exact ⟨p, _, rfl, h2, h3, h.2⟩
  | forest a b e t =>
    unfold PolicyModel.getIndex
    cases b with
    | false =>
      obtain ⟨c, h1, h2⟩ := forest_sound hn h.2.1 h.2.2 f hf
      simp only [Bool.not_false, if_true, h1, Res.bind_ok]
      exact ⟨c, _, rfl, h2, h⟩
    | true =>
      obtain ⟨p, e', h1, h2, h3⟩ := h.1.index hn f
      simp only [Bool.not_true, Bool.false_eq_true, if_false, h1, Res.bind_ok]
      exact ⟨p, _, rfl, h2, h3, h.2⟩
  | _ =>
    obtain ⟨p, m', h1, h2, h3⟩ := (h.simple (by intros; simp) (by intros; simp)).index hn f
    exact ⟨p, m', h1, h2, h3.good fits k ds⟩

theorem GoodModel.train {fits : ℚ → Prop} {k : ℕ} {n : ℤ} {ds : Dataset} {m : PolicyModel} {env : TrainEnv}
    (hσ : SortSpec env.sort) (h : GoodModel fits k n ds m) (hd : DataOk fits k n ds)
    (h0 : ds.length ≠ 0) (hlen : ds.length ≤ 2 ^ 19) :
    ∃ m', m.train env ds = .ok m' ∧ GoodModel fits k n ds m' ∧
      ((∀ v, fits v → FitsInt v) → ∃ s, m'.store = .ok s) := by
  have hs := trainingSamples_ok hd h0
  cases m with
  | tree a b e t =>
    obtain ⟨g1, g2, g3, g4⟩ := h
    have hcl : t.classes.length ≤ ds.length := by
      have hsub : t.classes ⊆ ds.map fun e => (ofLex e.1).2 := fun c hc => by
        obtain ⟨e, he, rfl⟩ := g3 c hc
        exact List.mem_map_of_mem (f := fun e : Key × ℚ => (ofLex e.1).2) he
      have := (List.subperm_of_subset (sorted_nodup g2) hsub).length_le
      simpa using this
    have hcn : ∀ c ∈ t.classes, 0 ≤ c ∧ c < n := fun c hc => by
      obtain ⟨e, he, rfl⟩ := g3 c hc
      exact (hd e he).2.1
    have hl := hs.len
    obtain ⟨t', h1, h2, h3⟩ := train_safe hσ hs g2 hcn (by omega)
    simp only [PolicyModel.train, h1, Res.bind_ok]
    refine ⟨_, rfl, ⟨g1, ?_, ?_, fun _ => h3⟩, fun hw => ?_⟩
    · rw [h2]; exact setInsertAll_sorted g2
    · rw [h2]
      intro c hc
      rcases mem_setInsertAll.1 hc with hc | hc
      · obtain ⟨x, hx, rfl⟩ := List.mem_map.1 hc
        exact hs.from_ x hx
      · exact g3 c hc
    · obtain ⟨s, hs⟩ := h3.2 hw 0
      simp only [PolicyModel.store, TreeImpl.save, hs, Res.bind_ok]
      exact ⟨_, rfl⟩
  | forest a b e f =>
    obtain ⟨g1, g2, g3⟩ := h
    have hone : ∀ ys, IsBootstrap (PolicyModel.trainingSamples ds) ys →
        ∃ t, TreeImpl.newTrained env.sort f.numClasses f.maxDepth ys = .ok t ∧ TreeSound fits k n t := by
      intro ys hys
      have hl := hs.len
      have hl' := hys.1
      obtain ⟨t', h1, -, h3⟩ := train_safe hσ (hs.sub hys.1 hys.2)
        (t := TreeImpl.new f.numClasses f.maxDepth) List.Pairwise.nil (by simp [TreeImpl.new])
        (by simp only [TreeImpl.new, List.length_nil]; omega)
      exact ⟨t', h1, h3⟩
    obtain ⟨ts, hts⟩ := trainLoop_total (σ := env.sort) (xs := PolicyModel.trainingSamples ds)
      (draws := env.draws) (n := f.numClasses) (d := f.maxDepth) (fun start => by
        obtain ⟨t, h1, -⟩ := hone _ (bootstrap_isBootstrap _ env.draws start)
        exact ⟨t, h1⟩) f.numTrees 0 f.trees
    have htr : f.train env.sort env.draws (PolicyModel.trainingSamples ds) = .ok { f with trees := ts } := by
      unfold ForestImpl.train
      rw [hts, Res.bind_ok]
    obtain ⟨-, -, -, new, h1, -, h2⟩ := forest_train_spec htr
    have hall : ∀ t ∈ ts, TreeSound fits k n t := by
      intro t ht
      have h1 : ts = f.trees ++ new := h1
      rw [h1] at ht
      rcases List.mem_append.1 ht with ht | ht
      · exact g3 t ht
      · obtain ⟨ys, h3, h4⟩ := h2 t ht
        obtain ⟨t', h5, h6⟩ := hone ys h3
        rw [h4] at h5
        cases h5
        exact h6
    simp only [PolicyModel.train, htr, Res.bind_ok]
    refine ⟨_, rfl, ⟨g1, g2, hall⟩, fun hw => ?_⟩
    obtain ⟨s, hs⟩ := treesText_ok hw hall 1
    simp only [PolicyModel.store, ForestImpl.save, hs, Res.bind_ok]
    exact ⟨_, rfl⟩
  | null => cases h
  | optimal q => cases h
  | datasetMap a b => cases h
  | static a b => exact ⟨_, rfl, h, fun _ => ⟨_, rfl⟩⟩
  | roundRobin a b => exact ⟨_, rfl, h, fun _ => ⟨_, rfl⟩⟩
  | random a b => exact ⟨_, rfl, h, fun _ => ⟨_, rfl⟩⟩

/-! ## Their creation -/

theorem firstValue_none {items : List Item} {key : Str} (h : ∀ x ∈ items, x.key ≠ key) :
    firstValue items key = none := by
  induction items with
  | nil => rfl
  | cons i is ih =>
    unfold firstValue
    rw [if_neg (h i List.mem_cons_self)]
    exact ih fun x hx => h x (List.mem_cons_of_mem _ hx)

theorem UnsignedItem.is {items : List Item} {key : Str} (h : UnsignedItem items key) (dflt : ℕ) :
    ∃ v, UnsignedIs items key dflt v := by
  rcases h with h | ⟨v, hv, h⟩
  · exact ⟨dflt, .inl ⟨h, rfl⟩⟩
  · exact ⟨v, .inr ⟨h, hv⟩⟩

theorem ExplorerItem.is {items : List Item} (h : ExplorerItem items) (gen : ℕ → ℕ) {n : ℤ} (hn : 1 ≤ n) :
    ∃ e, ExplorerIs gen n items e ∧ SimpleModel n e := by
  unfold ExplorerItem at h
  simp only [List.mem_cons, List.not_mem_nil, or_false] at h
  rcases h with h | h | h | h
  · exact ⟨_, .inl ⟨h, .roundRobin⟩, rfl, le_rfl, by omega⟩
  · exact ⟨_, .inr ⟨_, h, .static⟩, le_rfl, by omega⟩
  · exact ⟨_, .inr ⟨_, h, .roundRobin⟩, rfl, le_rfl, by omega⟩
  · exact ⟨_, .inr ⟨_, h, .random hn⟩, rfl⟩

/-- What the creation of a model needs of its parsed name and parameters. -/
def MadeBy (gen : ℕ → ℕ) (fits : ℚ → Prop) (nf n : ℤ) (info : Str) : Prop :=
  ∃ mn ps m, parsePolicyModel info = .ok (mn, ps) ∧ mn ≠ "StaticRegion".toList ∧
    createModel gen mn nf n ps = .ok (.model m) ∧ ps.find "load".toList = none ∧
    ps.find "load-dataset".toList = none ∧ mn ≠ "Optimal".toList ∧ mn ≠ "DatasetMap".toList ∧
    GoodModel fits nf.toNat n [] m

theorem made_bare {gen : ℕ → ℕ} {n : ℤ} {name : Str} {m : PolicyModel} (h : Bare gen n name m)
    (hs : SimpleModel n m) (hc : ',' ∉ name) (h1 : name ≠ "StaticRegion".toList)
    (h2 : name ≠ "Optimal".toList) (h3 : name ≠ "DatasetMap".toList) (fits : ℚ → Prop) (nf : ℤ) :
    MadeBy gen fits nf n name :=
  ⟨name, [], m, by simpa [modelString] using C30_name_only name hc, h1, create_bare gen n nf name m h 2, rfl, rfl, h2, h3,
    hs.good _ _ _⟩

theorem staticPolicy_string (k : ℕ) : "Static,policy=".toList ++ fmtInt k =
    modelString "Static".toList [⟨"policy".toList, some (fmtInt k)⟩] := by
  simp [modelString, Item.text]

/-- The model a region of this name gets. -/
def MadeFor (gen : ℕ → ℕ) (fits : ℚ → Prop) (nf n : ℤ) (region info : Str) : Prop :=
  ∃ mn ps mn' ps' info' m, parsePolicyModel info = .ok (mn, ps) ∧
    resolveStaticRegion (truncName region) mn ps info = .ok (mn', ps', info') ∧
    createModel gen mn' nf n ps' = .ok (.model m) ∧ ps'.find "load".toList = none ∧
    ps'.find "load-dataset".toList = none ∧ mn' ≠ "Optimal".toList ∧ mn' ≠ "DatasetMap".toList ∧
    GoodModel fits nf.toNat n [] m

theorem MadeBy.resolved {gen : ℕ → ℕ} {fits : ℚ → Prop} {nf n : ℤ} {info : Str} (h : MadeBy gen fits nf n info)
    (region : Str) : MadeFor gen fits nf n region info := by
  obtain ⟨mn, ps, m, h1, h2, h3⟩ := h
  refine ⟨mn, ps, mn, ps, info, m, h1, ?_, h3⟩
  unfold resolveStaticRegion
  rw [if_neg h2]

/-- A static model of this policy. -/
theorem static_made (gen : ℕ → ℕ) (fits : ℚ → Prop) (nf : ℤ) {n : ℤ} (hn : 1 ≤ n) {ps : Params} {k : ℕ}
    (hk : k < 2 ^ 31) (hp : ps.find "policy".toList = some (fmtInt k)) :
    ∃ m, createModel gen "Static".toList nf n ps = .ok (.model m) ∧ GoodModel fits nf.toNat n [] m := by
  have hr : readInt' (fmtInt k) = .ok (k : ℤ) := by
    have := stoi_fmtInt (n := (k : ℤ)) (by omega) [] (by simp)
    rw [List.append_nil] at this
    simp only [readInt', this, Res.bind_ok]
  have hp : paramOr ps "policy".toList readInt' 0 = .ok (k : ℤ) := by
    unfold paramOr
    rw [hp]
    exact hr
  refine ⟨.static n (if n ≤ k then 0 else k), ?_, ?_⟩
  · unfold createModel createPolicyModel
    rw [if_pos rfl]
    simp only [createStatic, hp, Res.bind_ok]
    rw [if_neg (by omega)]
    split <;> rfl
  · show 0 ≤ (if n ≤ (k : ℤ) then 0 else (k : ℤ)) ∧ (if n ≤ (k : ℤ) then 0 else (k : ℤ)) < n
    split <;> omega

theorem known_made {region info : Str} (h : KnownModel region info) (gen : ℕ → ℕ) (fits : ℚ → Prop) (nf : ℤ)
    {n : ℤ} (hn : 1 ≤ n) : MadeFor gen fits nf n region info := by
  cases h with
  | staticRegion items hwf k hk h =>
    obtain ⟨ps, h1, h2⟩ := parse_documented "StaticRegion".toList items (by decide) hwf
      (fun x hx => by unfold documented; simp)
    obtain ⟨m, h3, h4⟩ := static_made gen fits nf hn (ps := [("policy".toList, fmtInt k)]) hk rfl
    refine ⟨_, ps, "Static".toList, [("policy".toList, fmtInt k)], "Static,policy=".toList ++ fmtInt k, m, h1, ?_, h3,
      rfl, rfl, by decide, by decide, h4⟩
    unfold resolveStaticRegion
    rw [if_pos rfl, h2, show firstValue items (truncName region) = some (fmtInt k) from h]
  | static =>
    exact (made_bare .static ⟨le_rfl, by omega⟩ (by decide) (by decide) (by decide) (by decide) _ _).resolved _
  | roundRobin =>
    exact (made_bare .roundRobin ⟨rfl, le_rfl, by omega⟩ (by decide) (by decide) (by decide) (by decide) _ _).resolved _
  | random =>
    exact (made_bare (.random hn) rfl (by decide) (by decide) (by decide) (by decide) _ _).resolved _
  | staticPolicy k hk =>
    rw [staticPolicy_string]
    have hx : ∀ x ∈ ([⟨"policy".toList, some (fmtInt k)⟩] : List Item), x.WF := by
      intro x hx
      rw [List.mem_singleton.1 hx]
      refine ⟨show ',' ∉ "policy".toList by decide, show '=' ∉ "policy".toList by decide, fun v hv => ?_⟩
      cases hv
      exact PolicyModel.comma_not_mem_fmtInt _
    obtain ⟨ps, h1, h2⟩ := parse_documented "Static".toList [⟨"policy".toList, some (fmtInt k)⟩]
      (by decide) hx (fun x hx => by rw [List.mem_singleton.1 hx]; exact .inl ⟨rfl, rfl⟩)
    obtain ⟨m, h3, h4⟩ := static_made gen fits nf hn (ps := ps) hk (h2 _)
    refine MadeBy.resolved ⟨_, ps, m, h1, by decide, h3, ?_, ?_, by decide, by decide, h4⟩ _
    · rw [h2]; exact firstValue_none fun x hx => by rw [List.mem_singleton.1 hx]; exact (by decide : "policy".toList ≠ "load".toList)
    · rw [h2]; exact firstValue_none fun x hx => by rw [List.mem_singleton.1 hx]; exact (by decide : "policy".toList ≠ "load-dataset".toList)
  | tree items hwf hkeys hd he =>
    obtain ⟨d, hd⟩ := UnsignedItem.is hd 2
    obtain ⟨e, he, hs⟩ := ExplorerItem.is he gen hn
    have hdoc : ∀ x ∈ items, documented "DecisionTree".toList x.key := by
      intro x hx
      have := hkeys x hx
      simp only [List.mem_cons, List.not_mem_nil, or_false] at this
      exact .inr (.inl ⟨rfl, this.elim .inl fun h => .inr (.inl h)⟩)
    obtain ⟨ps, h1, h2⟩ := parse_documented "DecisionTree".toList items (by decide) hwf hdoc
    have hno : ∀ key : Str, key ∉ ["max_depth".toList, "explore".toList] → ps.find key = none := by
      intro key hk
      rw [h2]
      exact firstValue_none fun x hx hxk => hk (hxk ▸ hkeys x hx)
    refine MadeBy.resolved ⟨_, ps, .tree n true e (.new n d), h1, by decide, ?_, hno _ (by decide),
      hno _ (by decide), by decide, by decide, hs, List.Pairwise.nil,
      fun c hc => by simp [TreeImpl.new] at hc, fun h => by cases h⟩ _
    rw [← C31_decisionTree gen [] nf n items (fun x hx => ⟨hwf x hx, hdoc x hx⟩) d hd e he]
    exact (regionModel_eq gen [] _ items nf n ps (by decide) h1).symm
  | forest items hwf hkeys ht hd he =>
    obtain ⟨trees, ht⟩ := UnsignedItem.is ht 10
    obtain ⟨d, hd⟩ := UnsignedItem.is hd 2
    obtain ⟨e, he, hs⟩ := ExplorerItem.is he gen hn
    have hdoc : ∀ x ∈ items, documented "RandomForest".toList x.key := by
      intro x hx
      have := hkeys x hx
      simp only [List.mem_cons, List.not_mem_nil, or_false] at this
      exact .inr (.inr (.inl ⟨rfl, this.elim .inl fun h => .inr (h.elim .inl fun h => .inr (.inl h))⟩))
    obtain ⟨ps, h1, h2⟩ := parse_documented "RandomForest".toList items (by decide) hwf hdoc
    have hno : ∀ key : Str, key ∉ ["num_trees".toList, "max_depth".toList, "explore".toList] →
        ps.find key = none := by
      intro key hk
      rw [h2]
      exact firstValue_none fun x hx hxk => hk (hxk ▸ hkeys x hx)
    refine MadeBy.resolved ⟨_, ps, .forest n true e (.new n trees d), h1, by decide, ?_, hno _ (by decide),
      hno _ (by decide), by decide, by decide, hs, rfl, fun t ht => by simp [ForestImpl.new] at ht⟩ _
    rw [← C31_randomForest gen [] nf n items (fun x hx => ⟨hwf x hx, hdoc x hx⟩) trees d ht hd e he]
    exact (regionModel_eq gen [] _ items nf n ps (by decide) h1).symm

/-- The policy models keep to what the regions need of them. -/
theorem policyOps_safe {env : Env PolicyModel} {gen : ℕ → ℕ → ℕ} {tenv : ℕ → TrainEnv} {ρ : UseRules}
    {pm : Str} (hops : env.ops = policyOps gen tenv) (hσ : ∀ t, SortSpec (tenv t).sort)
    (hmost : ρ.most ≤ 2 ^ 19) (hknown : ∀ name info n, ρ.known name info n →
      KnownModel name (if info = [] then pm else info))
    (hpoll : ∀ t l i, env.poll t l i ≠ .failed) (hasync : ρ.async → env.async) :
    Safe env (fun s => GoodModel (ρ.fits s)) ρ pm where
  grow := fun h f p x => h.grow f p x
  index := fun hn h hf _ => by rw [hops]; exact h.index hn hf
  train := fun hn h hd h0 hl t => by
    rw [hops]
    obtain ⟨m', h1, h2, h3⟩ := h.train (hσ t) hd h0 (le_trans hl hmost)
    exact ⟨m', h1, h2, fun hw => h3 (hw _)⟩
  makes := fun {name info n nf} hk hn hnf t => by
    obtain ⟨mn, ps, mn', ps', info', m, h1, h2, h3, h4⟩ :=
      known_made (hknown name info n hk) (gen t) (ρ.fits info) nf hn
    refine ⟨mn, ps, mn', ps', info', m, h1, h2, ?_, h4⟩
    rw [hops]
    simp only [policyOps, h3]
  poll := hpoll
  async := hasync

end Apollo
