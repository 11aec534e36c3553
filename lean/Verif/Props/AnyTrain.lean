import Mathlib.Data.List.Permutation
import Verif.Proofs.AnyTrain
import Verif.Props.Tree

/-!
# C102: decision trees trained with features that are any floats
-/

namespace Apollo.Props

open Spec

theorem trainAny_eq {σ : AnySortFn} {cl : List ℤ} {d : ℕ} {xs : List AnySample} (hne : xs ≠ []) :
    trainAny σ cl d xs =
      (buildAny σ (setInsertAll (xs.map Prod.snd) cl) d xs).map
        fun p => (setInsertAll (xs.map Prod.snd) cl, p.1) := by
  unfold trainAny
  rw [if_neg hne]
  simp only
  cases buildAny σ (setInsertAll (xs.map Prod.snd) cl) d xs <;> rfl

theorem trainAny_ok_iff {σ : AnySortFn} {cl cl' : List ℤ} {d : ℕ} {xs : List AnySample} {t : AnyTree} :
    trainAny σ cl d xs = .ok (cl', t) ↔ xs ≠ [] ∧ cl' = setInsertAll (xs.map Prod.snd) cl ∧
      ∃ ys, buildAny σ cl' d xs = .ok (t, ys) := by
  by_cases hne : xs = []
  · subst hne
    simp [trainAny]
  · rw [trainAny_eq hne]
    cases h : buildAny σ (setInsertAll (xs.map Prod.snd) cl) d xs with
    | error e =>
      simp only [Except.map, reduceCtorEq, false_iff, not_and, not_exists]
      rintro - rfl ys
      rw [h]
      simp
    | ok p =>
      simp only [Except.map, Except.ok.injEq, Prod.mk.injEq, hne, not_false_eq_true, ne_eq, true_and]
      constructor
      · rintro ⟨rfl, rfl⟩
        exact ⟨rfl, p.2, h⟩
      · rintro ⟨rfl, ys, h'⟩
        rw [h] at h'
        simp only [Except.ok.injEq] at h'
        rw [h']
        exact ⟨rfl, rfl⟩

theorem snd_emb (xs : List AnySample) : (standInSamples xs).map Prod.snd = xs.map Prod.snd := by
  simp [standInSamples]

/-- C102 (infinities are numbers beyond all others): training with features without NaN succeeds
exactly if training with the numbers `±2^128` in the places of infinities does, and builds the same
tree apart from thresholds; without infinities also the thresholds are the same. -/
theorem C102_same (σ : AnySortFn) (hσ : AnySortSpec σ) (σ' : SortFn) (hσ' : SortSpec σ')
    (t0 : TreeImpl) (k : ℕ) (xs : List AnySample) (hn : Numeric xs) (hk : ∀ x ∈ xs, x.1.length = k) :
    (∀ t', t0.train σ' (standInSamples xs) = .ok t' →
      ∃ t, trainAny σ t0.classes t0.maxDepth xs = .ok (t'.classes, t) ∧
        SameButThresholds t t'.root ∧ (NoInfinity xs → SameThresholds t t'.root)) ∧
    (∀ e, t0.train σ' (standInSamples xs) = .error e →
      trainAny σ t0.classes t0.maxDepth xs = .error e) := by
  by_cases hne : xs = []
  · subst hne
    constructor
    · intro t' h; simp [standInSamples, TreeImpl.train] at h
    · intro e h
      simp only [standInSamples, List.map_nil, TreeImpl.train, Except.error.injEq] at h
      subst h
      rfl
  have hal := buildAny_alike hσ hσ' (setInsertAll (xs.map Prod.snd) t0.classes) t0.maxDepth hn hk
    (List.Perm.refl _)
  obtain ⟨x, rest, hx⟩ := List.exists_cons_of_ne_nil (emb_nil.not.2 hne)
  rw [trainAny_eq hne]
  constructor
  · intro t' h
    obtain ⟨x', rest', root, data, -, hb, rfl⟩ := TreeImpl.train_ok_iff.1 h
    rw [snd_emb] at hb
    rw [hb] at hal
    cases ha : buildAny σ (setInsertAll (xs.map Prod.snd) t0.classes) t0.maxDepth xs with
    | error e => rw [ha] at hal; exact hal.elim
    | ok p =>
      rw [ha] at hal
      refine ⟨p.1, ?_, hal⟩
      simp only [Except.map, snd_emb]
  · intro e h
    have hb : buildTree σ' (setInsertAll (xs.map Prod.snd) t0.classes) t0.maxDepth
        (standInSamples xs) = .error e := by
      cases hb : buildTree σ' (setInsertAll (xs.map Prod.snd) t0.classes) t0.maxDepth
        (standInSamples xs) with
      | error e' =>
        rw [← snd_emb, hx] at hb
        rw [hx] at h
        simp only [TreeImpl.train, hb, Res.bind_error, Except.error.injEq] at h
        rw [h]
      | ok p =>
        exfalso
        rw [← snd_emb, hx] at hb
        rw [hx] at h
        simp only [TreeImpl.train, hb, Res.bind_ok, reduceCtorEq] at h
    rw [hb] at hal
    cases ha : buildAny σ (setInsertAll (xs.map Prod.snd) t0.classes) t0.maxDepth xs with
    | error e' => rw [ha] at hal; rw [show e' = e from hal]; rfl
    | ok p => rw [ha] at hal; exact hal.elim

/-- Samples with a positive infinity and both zeros. -/
def infSamples : List AnySample :=
  [([.negZero], 0), ([.posInf], 1), ([.fin 0], 0), ([.fin 5], 2)]

theorem infSamples_numeric : Numeric infSamples := by
  intro x hx v hv
  simp only [infSamples, List.mem_cons, List.not_mem_nil, or_false] at hx
  rcases hx with rfl | rfl | rfl | rfl <;> simp only [List.mem_cons, List.not_mem_nil, or_false] at hv <;>
    subst hv <;> refine ⟨by simp, fun q hq => ?_⟩ <;>
    simp only [AnyFloat.fin.injEq, reduceCtorEq] at hq <;> subst hq <;> unfold maxFloat <;>
    norm_num [abs_of_pos]

example : Numeric infSamples ∧ (∀ x ∈ infSamples, x.1.length = 1) ∧ AnySortSpec anySort ∧
    (match trainAny anySort [] 2 infSamples with
      | .ok (c, .node n thr l r) => decide (c = [0, 1, 2] ∧ n.featureIdx = 0 ∧ thr = .fin (5 / 2) ∧
          l ≠ .nil ∧ r ≠ .nil)
      | _ => false) = true :=
  ⟨infSamples_numeric, by decide, anySort_spec, by decide +kernel⟩

/-- C102 (training succeeds): features without NaN, of one length, with one class for the same
features. -/
theorem C102_succeeds (σ : AnySortFn) (hσ : AnySortSpec σ) (d k : ℕ) (xs : List AnySample)
    (hne : xs ≠ []) (hlen : xs.length ≤ 2 ^ 20) (hn : Numeric xs) (hk : ∀ x ∈ xs, x.1.length = k)
    (hf : ∀ x ∈ xs, ∀ y ∈ xs, SameFeatures x.1 y.1 → x.2 = y.2) :
    ∃ c t, trainAny σ [] d xs = .ok (c, t) := by
  have key : ∀ f g : List AnyFloat, (∀ v ∈ f, Good v) → (∀ v ∈ g, Good v) →
      f.map standIn = g.map standIn → SameFeatures f g := by
    intro f
    induction f with
    | nil => intro g _ _ h; cases g with
      | nil => rfl
      | cons b g => simp at h
    | cons a f ih =>
      intro g hf hg h
      cases g with
      | nil => simp at h
      | cons b g =>
        simp only [List.map_cons, List.cons.injEq] at h
        have h1 := ih g (fun v hv => hf v (by simp [hv])) (fun v hv => hg v (by simp [hv])) h.2
        have ga := hf a (by simp)
        have gb := hg b (by simp)
        have e1 := lt_standIn ga gb
        have e2 := lt_standIn gb ga
        rw [h.1] at e1 e2
        simp only [lt_irrefl, decide_false] at e1 e2
        rw [lt_eq ga.1 gb.1, decide_eq_false_iff_not, not_lt] at e1
        rw [lt_eq gb.1 ga.1, decide_eq_false_iff_not, not_lt] at e2
        have e3 := le_antisymm e2 e1
        have : num a = num b := by
          have na := ga.1
          have nb := gb.1
          cases a <;> cases b <;> simp_all [num]
        unfold SameFeatures at h1 ⊢
        rw [List.map_cons, List.map_cons, this, h1]
  obtain ⟨t', ht'⟩ := C21_train_succeeds isort isort_spec 0 d k (standInSamples xs)
    (emb_nil.not.2 hne) (by rw [length_emb]; exact hlen) (emb_length_eq hk) (by
      intro x hx y hy e
      obtain ⟨x', hx', rfl⟩ := List.mem_map.1 hx
      obtain ⟨y', hy', rfl⟩ := List.mem_map.1 hy
      exact hf x' hx' y' hy' (key _ _ (hn x' hx') (hn y' hy') e))
  obtain ⟨t, ht, -⟩ := (C102_same σ hσ isort isort_spec (.new 0 d) k xs hn hk).1 t' ht'
  exact ⟨_, t, ht⟩

example : infSamples ≠ [] ∧ infSamples.length ≤ 2 ^ 20 ∧
    (∀ x ∈ infSamples, ∀ y ∈ infSamples, SameFeatures x.1 y.1 → x.2 = y.2) :=
  ⟨by decide, by decide, by decide +kernel⟩

/-- C102 for features without NaN and negative infinity whose finite values are well separated: the
samples that evaluation routes to a node are the ones the node was built from.  (It is false with a
negative infinity, see `C102_neg_inf_fails`, and with a NaN, see `C102_nan_fails`.) -/
theorem C102_routed_partial (σ : AnySortFn) (hσ : AnySortSpec σ) (cl cl' : List ℤ) (d k : ℕ)
    (xs : List AnySample) (hn : Numeric xs) (hk : ∀ x ∈ xs, x.1.length = k) (hs : AnySpaced k xs)
    (t : AnyTree) (ht : trainAny σ cl d xs = .ok (cl', t)) (p : List Bool) (n : NodeInfo)
    (thr : AnyFloat) (l r : AnyTree) (hp : anySubtreeAt t p = .node n thr l r) :
    n.numSamples = (xs.filter fun x => anyGoes t p x.1).length ∧
    n.counts = cl'.map (anyNumOf (xs.filter fun x => anyGoes t p x.1)) := by
  obtain ⟨-, -, ys, hb⟩ := trainAny_ok_iff.1 ht
  obtain ⟨hg, -, hsm⟩ := buildAny_grown hσ cl' d hn hk hb
  obtain ⟨h1, h2⟩ := grown_routed hg (separable_any hn hs) p _ _ _ (subtree_enc hp)
  have hfe : (standInSamples xs).filter (fun x => goes (encTree t) p x.1) =
      standInSamples (xs.filter fun x => anyGoes t p x.1) :=
    filter_emb (P := fun x => goes (encTree t) p x.1) (Q := fun x => anyGoes t p x.1)
      fun x hx => goes_enc (hn x hx) hsm p
  rw [hfe] at h1 h2
  rw [length_emb] at h1
  rw [numOf_emb] at h2
  exact ⟨h1, h2⟩

example : AnySpaced 1 infSamples ∧
    (match trainAny anySort [] 2 infSamples with
      | .ok (_, t) => decide ((infSamples.filter fun x => anyGoes t [true, true] x.1).length = 1 ∧
          anyGoes t [true, true] [.posInf])
      | _ => false) = true := by
  constructor
  · unfold AnySpaced
    decide +kernel
  · decide +kernel

/-- Training with two samples of one feature. -/
theorem train_two {σ : AnySortFn} {L M M' : List AnySample} {g : ℚ} {l r : AnyFloat}
    {nl nr : NodeInfo} (h1 : sortAny σ 0 L = .ok M) (h2 : sortAny σ 0 M = .ok M')
    (hsf : scanFeatureAny [0, 1] 0 M ⟨1, none⟩ = ⟨g, some (1, 0, l, r)⟩)
    (hg : computeGini [0, 1] (classesOnly L) = .ok (1 / 2)) (hl : L.length = 2)
    (hh : (L.headD ([], 0)).1.length = 1) (hc : setInsertAll (L.map Prod.snd) [] = [0, 1])
    (b1 : (buildAny anySort [0, 1] 0 (M'.take 1)).map Prod.fst = .ok (.node nl (.fin 0) .nil .nil))
    (b2 : (buildAny anySort [0, 1] 0 (M'.drop 1)).map Prod.fst = .ok (.node nr (.fin 0) .nil .nil)) :
    ∃ n, trainAny σ [] 1 L =
        .ok ([0, 1], .node n (anyThreshold l r) (.node nl (.fin 0) .nil .nil)
          (.node nr (.fin 0) .nil .nil)) ∧ n.featureIdx = 0 := by
  have hne : L ≠ [] := by rintro rfl; simp at hl
  have hs : splitAny σ [0, 1] L = .ok (M', 1, 0, anyThreshold l r) := by
    unfold splitAny
    rw [if_neg (by omega), hh]
    simp only [List.range_one, List.foldlM_cons, List.foldlM_nil, scanStepAny, h1, Res.bind_ok, hsf,
      Res.pure_eq, h2]
  have f1 : ∀ zs, buildAny σ [0, 1] 0 zs = buildAny anySort [0, 1] 0 zs := fun zs => rfl
  refine ⟨{ (⟨1 / 2, L.length, 0, -1, 0, getCountPerClass [0, 1] (classesOnly L)⟩ : NodeInfo) with
    featureIdx := 0 }, ?_, rfl⟩
  rw [trainAny_eq hne, hc]
  unfold buildAny
  rw [hg]
  simp only [Res.bind_ok]
  rw [newNode_cons]
  simp only [Res.bind_ok]
  rw [if_neg hne, if_neg (by norm_num), hs]
  simp only [Res.bind_ok, f1]
  cases e1 : buildAny anySort [0, 1] 0 (M'.take 1) with
  | error e => rw [e1] at b1; simp [Except.map] at b1
  | ok p1 =>
    rw [e1] at b1
    cases e2 : buildAny anySort [0, 1] 0 (M'.drop 1) with
    | error e => rw [e2] at b2; simp [Except.map] at b2
    | ok p2 =>
      rw [e2] at b2
      simp only [Except.map, Except.ok.injEq] at b1 b2
      simp only [Res.bind_ok, Except.map, b1, b2]
      rfl

/-- A range of two. -/
theorem sort_two {σ : AnySortFn} (hσ : AnySortSpec σ) {x y : AnySample}
    (hw : strictWeak 0 [x, y] = true) (hx : 0 < x.1.length) (hy : 0 < y.1.length) :
    (sortAny σ 0 [x, y] = .ok [x, y] ∧ (anyFeat y 0).lt (anyFeat x 0) = false) ∨
    (sortAny σ 0 [x, y] = .ok [y, x] ∧ (anyFeat x 0).lt (anyFeat y 0) = false) := by
  obtain ⟨h1, h2⟩ := hσ 0 [x, y] hw
  have e : sortAny σ 0 [x, y] = .ok (σ 0 [x, y]) := by
    unfold sortAny
    rw [if_pos, if_pos hw]
    simp only [List.all_cons, List.all_nil, Bool.and_true, Bool.and_eq_true, decide_eq_true_eq]
    exact ⟨hx, hy⟩
  rw [e]
  have h3 := List.perm_pair.1 h1
  rcases h3 with h | h
  · rw [h] at h2 ⊢
    simp only [List.pairwise_cons, List.mem_cons, List.not_mem_nil, or_false, forall_eq] at h2
    exact .inl ⟨rfl, h2.1⟩
  · rw [h] at h2 ⊢
    simp only [List.pairwise_cons, List.mem_cons, List.not_mem_nil, or_false, forall_eq] at h2
    exact .inr ⟨rfl, h2.1⟩

/-- C102 fails with a negative infinity, whatever the sort: the threshold between `-inf` and 3 is
`-inf`, and all features go right though the left child was built from one sample.  Between `-inf` and
`inf` it is NaN. -/
theorem C102_neg_inf_fails (σ : AnySortFn) (hσ : AnySortSpec σ) :
    (∃ n nl nr, trainAny σ [] 1 [([.fin 3], 1), ([.negInf], 0)] =
        .ok ([0, 1], .node n .negInf (.node nl (.fin 0) .nil .nil) (.node nr (.fin 0) .nil .nil)) ∧
      nl.numSamples = 1 ∧ n.featureIdx = 0) ∧
    (∀ n l r f, ¬ anyGoes (.node n .negInf l r) [false] f) ∧
    (∃ n nl nr, trainAny σ [] 1 [([.posInf], 1), ([.negInf], 0)] =
        .ok ([0, 1], .node n .nan (.node nl (.fin 0) .nil .nil) (.node nr (.fin 0) .nil .nil)) ∧
      nl.numSamples = 1 ∧ n.featureIdx = 0) := by
  have sorted : ∀ v : AnyFloat, AnyFloat.negInf.lt v = true → v.lt .negInf = false →
      strictWeak 0 [([v], 1), ([.negInf], 0)] = true → strictWeak 0 [([.negInf], 0), ([v], 1)] = true →
      sortAny σ 0 [([v], 1), ([.negInf], 0)] = .ok [([.negInf], 0), ([v], 1)] ∧
      sortAny σ 0 [([.negInf], 0), ([v], 1)] = .ok [([.negInf], 0), ([v], 1)] := by
    intro v h h' w1 w2
    constructor
    · rcases sort_two hσ w1 (by simp) (by simp) with ⟨-, e⟩ | ⟨e, -⟩
      · have e' : AnyFloat.negInf.lt v = false := e
        rw [h] at e'
        simp at e'
      · exact e
    · rcases sort_two hσ w2 (by simp) (by simp) with ⟨e, -⟩ | ⟨-, e⟩
      · exact e
      · have e' : AnyFloat.negInf.lt v = false := e
        rw [h] at e'
        simp at e'
  refine ⟨?_, ?_, ?_⟩
  · obtain ⟨s1, s2⟩ := sorted (.fin 3) rfl rfl (by decide +kernel) (by decide +kernel)
    obtain ⟨n, h, hn⟩ := train_two (g := 0) (l := .negInf) (r := .fin 3) (nl := ⟨0, 1, 0, -1, 0, [1, 0]⟩)
      (nr := ⟨0, 1, 0, -1, 0, [0, 1]⟩) s1 s2 (by decide +kernel) (by decide +kernel) rfl rfl
      (by decide +kernel) (by decide +kernel) (by decide +kernel)
    exact ⟨n, _, _, h, rfl, hn⟩
  · intro n l r f h
    have h1 := h.2.1.1 rfl
    rw [less_iff] at h1
    cases hv : f.getD n.featureIdx.toNat (.fin 0) <;> rw [hv] at h1 <;> simp [AnyFloat.lt] at h1
  · obtain ⟨s1, s2⟩ := sorted .posInf rfl rfl (by decide +kernel) (by decide +kernel)
    obtain ⟨n, h, hn⟩ := train_two (g := 0) (l := .negInf) (r := .posInf) (nl := ⟨0, 1, 0, -1, 0, [1, 0]⟩)
      (nr := ⟨0, 1, 0, -1, 0, [0, 1]⟩) s1 s2 (by decide +kernel) (by decide +kernel) rfl rfl
      (by decide +kernel) (by decide +kernel) (by decide +kernel)
    exact ⟨n, _, _, h, rfl, hn⟩

/-- C102 (NaN beside two different numbers): if a feature of samples of two classes has a NaN and two
different numbers, the comparison does not order it, and training has undefined behaviour. -/
theorem C102_nan_ub (σ : AnySortFn) (hσ : AnySortSpec σ) (cl : List ℤ) (hcl : cl.Pairwise (· < ·))
    (d k : ℕ) (xs : List AnySample) (hlen : xs.length ≤ 2 ^ 20) (hk : ∀ x ∈ xs, x.1.length = k)
    (hd : 0 < d) (i : ℕ) (hi : i < k) (hu : Unordered i xs)
    (hc : ∃ x ∈ xs, ∃ y ∈ xs, x.2 ≠ y.2) :
    trainAny σ cl d xs = .error (.ub .badOrder) := by
  obtain ⟨x, hx, y, hy, hxy⟩ := hc
  have hne : xs ≠ [] := List.ne_nil_of_mem hx
  have hnd := sorted_nodup (setInsertAll_sorted (cs := xs.map Prod.snd) hcl)
  have hcls : ∀ z ∈ xs, z.2 ∈ setInsertAll (xs.map Prod.snd) cl := fun z hz =>
    mem_setInsertAll.2 (.inl (List.mem_map.2 ⟨z, hz, rfl⟩))
  have hg := impure_only hnd hcls hlen hx hy hxy
  have hlen1 : 1 < xs.length := by
    rcases Nat.lt_or_ge 1 xs.length with h1 | h1
    · exact h1
    · have h2 := List.length_pos_of_ne_nil hne
      obtain ⟨a, ha⟩ := List.length_eq_one_iff.1 (show xs.length = 1 by omega)
      rw [ha] at hx hy
      simp only [List.mem_cons, List.not_mem_nil, or_false] at hx hy
      subst hx; subst hy
      exact absurd rfl hxy
  obtain ⟨d, rfl⟩ := Nat.exists_eq_succ_of_ne_zero (by omega : d ≠ 0)
  rw [trainAny_eq hne]
  obtain ⟨c, rest, hcr⟩ := List.exists_cons_of_ne_nil (List.ne_nil_of_mem (hcls x hx))
  have hne' : classesOnly xs ≠ [] := by
    rw [← List.length_pos_iff, length_only]; omega
  unfold buildAny computeGini
  rw [if_neg hne']
  simp only [Res.bind_ok]
  rw [newNode_ok_iff.2 ⟨c, rest, hcr, rfl⟩]
  simp only [Res.bind_ok]
  rw [if_neg hne, if_neg (not_le.2 hg), splitAny_unordered hσ _ hk hi hu hlen1]
  rfl

example : Unordered 0 [([.nan], 0), ([.fin 1], 1), ([.fin 2], 0)] ∧
    trainAny anySort [] 1 [([.nan], 0), ([.fin 1], 1), ([.fin 2], 0)] = .error (.ub .badOrder) := by
  refine ⟨⟨⟨([.nan], 0), by simp, rfl⟩, ([.fin 1], 1), by simp, ([.fin 2], 0), by simp, ?_⟩,
    by decide +kernel⟩
  decide +kernel

/-- C102 fails with a NaN beside one number, whatever the sort: the threshold is NaN, and all features
go right though the left child was built from one sample. -/
theorem C102_nan_fails (σ : AnySortFn) (hσ : AnySortSpec σ) :
    (∃ n nl nr, trainAny σ [] 1 [([.nan], 0), ([.fin 3], 1)] =
        .ok ([0, 1], .node n .nan (.node nl (.fin 0) .nil .nil) (.node nr (.fin 0) .nil .nil)) ∧
      nl.numSamples = 1 ∧ n.featureIdx = 0) ∧
    (∀ n l r f, ¬ anyGoes (.node n .nan l r) [false] f) := by
  constructor
  · have w1 : strictWeak 0 [([.nan], 0), ([.fin 3], 1)] = true := by decide +kernel
    have w2 : strictWeak 0 [([.fin 3], 1), ([.nan], 0)] = true := by decide +kernel
    have t := sort_two hσ w1 (by simp) (by simp)
    have t' := sort_two hσ w2 (by simp) (by simp)
    rcases t with ⟨s1, -⟩ | ⟨s1, -⟩
    · obtain ⟨n, h, hn⟩ := train_two (g := 0) (l := .nan) (r := .fin 3)
        (nl := ⟨0, 1, 0, -1, 0, [1, 0]⟩) (nr := ⟨0, 1, 0, -1, 0, [0, 1]⟩) s1 s1 (by decide +kernel)
        (by decide +kernel) rfl rfl (by decide +kernel) (by decide +kernel) (by decide +kernel)
      exact ⟨n, _, _, h, rfl, hn⟩
    · rcases t' with ⟨s2, -⟩ | ⟨s2, -⟩
      · obtain ⟨n, h, hn⟩ := train_two (g := 0) (l := .fin 3) (r := .nan)
          (nl := ⟨0, 1, 0, -1, 0, [0, 1]⟩) (nr := ⟨0, 1, 0, -1, 0, [1, 0]⟩) s1 s2 (by decide +kernel)
          (by decide +kernel) rfl rfl (by decide +kernel) (by decide +kernel) (by decide +kernel)
        exact ⟨n, _, _, h, rfl, hn⟩
      · obtain ⟨n, h, hn⟩ := train_two (g := 0) (l := .fin 3) (r := .nan)
          (nl := ⟨0, 1, 0, -1, 0, [1, 0]⟩) (nr := ⟨0, 1, 0, -1, 0, [0, 1]⟩) s1 s2 (by decide +kernel)
          (by decide +kernel) rfl rfl (by decide +kernel) (by decide +kernel) (by decide +kernel)
        exact ⟨n, _, _, h, rfl, hn⟩
  · intro n l r f h
    have h1 := h.2.1.1 rfl
    rw [less_iff] at h1
    cases hv : f.getD n.featureIdx.toNat (.fin 0) <;> rw [hv] at h1 <;> simp [AnyFloat.lt] at h1

/-- C102 (answers): whenever training succeeds, whatever the floats it was given, the tree answers every
features of the right length, whatever the floats in them; the answer is the least class, which is the
class of a sample if there are no classes of earlier trainings. -/
theorem C102_answers (σ : AnySortFn) (hσ : AnySortSpec σ) (cl cl' : List ℤ) (hcl : cl.Pairwise (· < ·))
    (d k : ℕ) (xs : List AnySample) (hk : ∀ x ∈ xs, x.1.length = k) (t : AnyTree)
    (ht : trainAny σ cl d xs = .ok (cl', t)) :
    ∃ c, (c ∈ cl ∨ ∃ x ∈ xs, x.2 = c) ∧ (∀ c' ∈ cl, c ≤ c') ∧ (∀ x ∈ xs, c ≤ x.2) ∧
      ∀ f : List AnyFloat, f.length = k → t.evaluate f = .ok c := by
  obtain ⟨hne, rfl, ys, hb⟩ := trainAny_ok_iff.1 ht
  obtain ⟨x, hx⟩ := List.exists_mem_of_ne_nil xs hne
  have hsort := setInsertAll_sorted (cs := xs.map Prod.snd) hcl
  have hmem : ∀ {a}, a ∈ setInsertAll (xs.map Prod.snd) cl ↔ a ∈ xs.map Prod.snd ∨ a ∈ cl :=
    mem_setInsertAll
  have hin : x.2 ∈ setInsertAll (xs.map Prod.snd) cl :=
    hmem.2 (.inl (List.mem_map.2 ⟨x, hx, rfl⟩))
  obtain ⟨c, rest, hc⟩ := List.exists_cons_of_ne_nil (List.ne_nil_of_mem hin)
  rw [hc] at hsort hmem hb
  have hle : ∀ a ∈ c :: rest, c ≤ a := by
    intro a ha
    rcases List.mem_cons.1 ha with rfl | ha
    · exact le_refl _
    · exact ((List.pairwise_cons.1 hsort).1 a ha).le
  refine ⟨c, ?_, fun c' h => hle c' (hmem.2 (.inr h)),
    fun y hy => hle y.2 (hmem.2 (.inl (List.mem_map.2 ⟨y, hy, rfl⟩))),
    (buildAny_const hσ c rest d hk hb).2⟩
  rcases hmem.1 (List.mem_cons_self) with h | h
  · obtain ⟨y, hy, e⟩ := List.mem_map.1 h
    exact .inr ⟨y, hy, e⟩
  · exact .inl h

example : (match trainAny anySort [] 1 [([.nan], 5), ([.fin 3], 4)] with
    | .ok (_, t) => decide (t.evaluate [.nan] = .ok 4 ∧ t.evaluate [.fin 3] = .ok 4)
    | _ => false) = true := by decide +kernel

end Apollo.Props
