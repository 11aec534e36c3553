import Verif.Proofs.AnyForest
import Verif.Props.AnyTrain
import Verif.Props.Forest

/-!
# C122: random forests trained with features that are any floats
-/

namespace Apollo.Props

open Spec

/-- What C122 says of a tree and the one trained with numbers in the places of infinities. -/
theorem tree_same {σ : AnySortFn} (hσ : AnySortSpec σ) {σ' : SortFn} (hσ' : SortSpec σ') {n : ℤ} {d k : ℕ}
    {ys : List AnySample} (hn : Numeric ys) (hk : ∀ x ∈ ys, x.1.length = k) {t' : TreeImpl}
    (h : TreeImpl.newTrained σ' n d (standInSamples ys) = .ok t') :
    ∃ cl t, trainAny σ [] d ys = .ok (cl, t) ∧ SameButThresholds t t'.root ∧
      (NoInfinity ys → SameThresholds t t'.root) ∧
      ∀ f : List AnyFloat, f.length = k → t.evaluate f = t'.predict (f.map standIn) := by
  obtain ⟨t, h1, h2, h3⟩ := (C102_same σ hσ σ' hσ' (TreeImpl.new n d) k ys hn hk).1 t' h
  refine ⟨_, t, h1, h2, h3, fun f hf => ?_⟩
  obtain ⟨hp, c, hc⟩ := trained_const hσ' h (k := k) (fun x hx => by
    obtain ⟨y, hy, rfl⟩ := List.mem_map.1 hx
    simpa using hk y hy)
  have e1 : t'.predict (f.map standIn) = .ok c := eval_const hp.ne_nil (by simpa [hf] using hc)
  have hne : t ≠ .nil := by
    rintro rfl
    have := hp.ne_nil
    cases ht : t'.root with
    | nil => exact this ht
    | node _ _ _ => rw [ht] at h2; exact h2.elim
  rw [e1, evaluate_same hne h2 (by rw [hf]; exact hc)]

theorem numeric_of {xs ys : List AnySample} (h : IsBootstrap xs ys) (hn : Numeric xs) : Numeric ys :=
  fun x hx => hn x (h.2 x hx)

theorem loop_same {σ : AnySortFn} (hσ : AnySortSpec σ) {σ' : SortFn} (hσ' : SortSpec σ') {n : ℤ} {d k : ℕ}
    (draws : ℕ → ℕ) {xs : List AnySample} (hn : Numeric xs) (hk : ∀ x ∈ xs, x.1.length = k) :
    ∀ (m start : ℕ) (acc : List AnyTree) (acc' : List TreeImpl),
    (∀ ts', ForestImpl.trainLoop σ' (standInSamples xs) draws n d m start acc' = .ok ts' →
      ∃ new new', AnyForest.trainLoop σ xs draws d m start acc = .ok (acc ++ new) ∧ ts' = acc' ++ new' ∧
        List.Forall₂ (fun t t' => SameButThresholds t (TreeImpl.root t') ∧
          (NoInfinity xs → SameThresholds t (TreeImpl.root t')) ∧
          ∀ f : List AnyFloat, f.length = k → t.evaluate f = t'.predict (f.map standIn)) new new') ∧
    (∀ e, ForestImpl.trainLoop σ' (standInSamples xs) draws n d m start acc' = .error e →
      AnyForest.trainLoop σ xs draws d m start acc = .error e) := by
  intro m
  induction m with
  | zero =>
    intro start acc acc'
    constructor
    · intro ts' h
      cases h
      exact ⟨[], [], by simp [AnyForest.trainLoop], by simp, .nil⟩
    · intro e h; cases h
  | succ m ih =>
    intro start acc acc'
    have hb := anyBootstrap_is xs draws start
    have hn' := numeric_of hb hn
    have hk' : ∀ x ∈ AnyForest.bootstrap xs draws start, x.1.length = k := fun x hx => hk x (hb.2 x hx)
    have hlen : (standInSamples xs).length = xs.length := by simp [standInSamples]
    simp only [AnyForest.trainLoop, ForestImpl.trainLoop, ← standIn_bootstrap, hlen]
    cases ht : TreeImpl.newTrained σ' n d (standInSamples (AnyForest.bootstrap xs draws start)) with
    | error e0 =>
      have := (C102_same σ hσ σ' hσ' (TreeImpl.new n d) k _ hn' hk').2 e0 ht
      have this : trainAny σ [] d (AnyForest.bootstrap xs draws start) = .error e0 := this
      rw [this]
      exact ⟨fun ts' h => (by cases h), fun e h => (by cases h; rfl)⟩
    | ok t' =>
      obtain ⟨cl, t, h1, h2, h3, h4⟩ := tree_same hσ hσ' hn' hk' ht
      rw [h1]
      simp only [Res.bind_ok]
      obtain ⟨i1, i2⟩ := ih (start + xs.length) (acc ++ [t]) (acc' ++ [t'])
      refine ⟨fun ts' h => ?_, fun e h => i2 e h⟩
      obtain ⟨new, new', j1, j2, j3⟩ := i1 ts' h
      exact ⟨t :: new, t' :: new', by simpa using j1, by simpa using j2,
        .cons ⟨h2, fun hi => h3 fun x hx => hi x (hb.2 x hx), h4⟩ j3⟩

/-- C122 (infinities are numbers beyond all others): training a forest with features without NaN succeeds exactly if
training with the numbers `±2^128` in the places of infinities does, whatever numbers are drawn.  Its trees are the same
apart from thresholds, without infinities also in their thresholds, and the forests give the same answers. -/
theorem C122_same (σ : AnySortFn) (hσ : AnySortSpec σ) (σ' : SortFn) (hσ' : SortSpec σ') (draws : ℕ → ℕ)
    (n : ℤ) (m d k : ℕ) (xs : List AnySample) (hn : Numeric xs) (hk : ∀ x ∈ xs, x.1.length = k) :
    (∀ G, (ForestImpl.new n m d).train σ' draws (standInSamples xs) = .ok G →
      ∃ F, (AnyForest.new n m d).train σ draws xs = .ok F ∧
        List.Forall₂ (fun t t' => SameButThresholds t (TreeImpl.root t') ∧
          (NoInfinity xs → SameThresholds t (TreeImpl.root t'))) F.trees G.trees ∧
        ∀ f : List AnyFloat, f.length = k → F.predict f = G.predict (f.map standIn)) ∧
    (∀ e, (ForestImpl.new n m d).train σ' draws (standInSamples xs) = .error e →
      (AnyForest.new n m d).train σ draws xs = .error e) := by
  obtain ⟨h1, h2⟩ := loop_same hσ hσ' (n := n) (d := d) draws hn hk m 0 [] []
  constructor
  · intro G hG
    obtain ⟨ts, hts, hG⟩ := (Res.bind_eq_ok _ _ _).1 hG
    cases hG
    obtain ⟨new, new', h3, h4, h5⟩ := h1 ts hts
    refine ⟨⟨new, n, m, d⟩, ?_, ?_, fun f hf => ?_⟩
    · show (do let trees ← AnyForest.trainLoop σ xs draws d m 0 []; _) = _
      rw [h3]
      rfl
    · rw [h4]
      exact h5.imp fun t t' h => ⟨h.1, h.2.1⟩
    · refine anyPredict_eq rfl ?_
      rw [h4]
      exact h5.imp fun t t' h => h.2.2 f hf
  · intro e he
    cases hl : ForestImpl.trainLoop σ' (standInSamples xs) draws n d m 0 [] with
    | error e' =>
      have e1 : (ForestImpl.new n m d).train σ' draws (standInSamples xs) = .error e' := by
        show (do let trees ← ForestImpl.trainLoop σ' (standInSamples xs) draws n d m 0 []; _) = _
        rw [hl]; rfl
      rw [e1] at he
      cases he
      show (do let trees ← AnyForest.trainLoop σ xs draws d m 0 []; _) = _
      rw [h2 _ hl]; rfl
    | ok ts =>
      have e1 : (ForestImpl.new n m d).train σ' draws (standInSamples xs) = .ok ⟨ts, n, m, d⟩ := by
        show (do let trees ← ForestImpl.trainLoop σ' (standInSamples xs) draws n d m 0 []; _) = _
        rw [hl]; rfl
      rw [e1] at he
      cases he

/-- Three trees from samples with an infinity. -/
example : Numeric infSamples ∧ (∀ x ∈ infSamples, x.1.length = 1) ∧ AnySortSpec anySort ∧ SortSpec isort ∧
    (match (AnyForest.new 3 3 2).train anySort (fun i => i * i + 1) infSamples with
      | .ok F => decide (F.trees.length = 3 ∧ F.predict [.posInf] = .ok 0)
      | _ => false) = true :=
  ⟨infSamples_numeric, by decide, anySort_spec, isort_spec, by decide +kernel⟩

/-- C122 (training succeeds): features without NaN, of one length, with one class for the same features. -/
theorem C122_succeeds (σ : AnySortFn) (hσ : AnySortSpec σ) (draws : ℕ → ℕ) (n : ℤ) (m d k : ℕ)
    (xs : List AnySample) (hne : xs ≠ []) (hlen : xs.length ≤ 2 ^ 20) (hn : Numeric xs)
    (hk : ∀ x ∈ xs, x.1.length = k) (hf : ∀ x ∈ xs, ∀ y ∈ xs, SameFeatures x.1 y.1 → x.2 = y.2) :
    ∃ F, (AnyForest.new n m d).train σ draws xs = .ok F ∧ F.trees.length = m := by
  obtain ⟨ts, hts⟩ := anyLoop_total (σ := σ) (xs := xs) (draws := draws) (d := d) (fun start => by
    have hb := anyBootstrap_is xs draws start
    obtain ⟨c, t, h⟩ := C102_succeeds σ hσ d k (AnyForest.bootstrap xs draws start)
      (by rw [← List.length_pos_iff, hb.1]; exact List.length_pos_iff.2 hne) (by rw [hb.1]; exact hlen)
      (numeric_of hb hn) (fun x hx => hk x (hb.2 x hx)) fun x hx y hy => hf x (hb.2 x hx) y (hb.2 y hy)
    exact ⟨_, h⟩) m 0 []
  obtain ⟨new, h1, h2, -⟩ := anyLoop_ok hts
  refine ⟨⟨ts, n, m, d⟩, ?_, by simpa [h1] using h2⟩
  show (do let trees ← AnyForest.trainLoop σ xs draws d m 0 []; _) = _
  rw [hts]; rfl

example : infSamples ≠ [] ∧ infSamples.length ≤ 2 ^ 20 ∧
    (∀ x ∈ infSamples, ∀ y ∈ infSamples, SameFeatures x.1 y.1 → x.2 = y.2) :=
  ⟨by decide, by decide, by decide +kernel⟩

/-- C122 (answers): whenever training succeeds, whatever the floats it was given, and the classes are in range, the
forest answers all features of the right length, whatever the floats in them, by a vote of its trees.  Each tree
votes for the least class of its bootstrap sample, so that the answer is always the same. -/
theorem C122_answers (σ : AnySortFn) (hσ : AnySortSpec σ) (draws : ℕ → ℕ) (n : ℤ) (m d k : ℕ)
    (xs : List AnySample) (hk : ∀ x ∈ xs, x.1.length = k) (hc : ∀ x ∈ xs, 0 ≤ x.2 ∧ x.2 < n) (hn : 1 ≤ n)
    (F : AnyForest) (hF : (AnyForest.new n m d).train σ draws xs = .ok F) :
    ∃ ballots : List ℤ, ballots.length = m ∧
      (∀ b ∈ ballots, ∃ ys, IsBootstrap xs ys ∧ (∃ y ∈ ys, y.2 = b) ∧ ∀ y ∈ ys, b ≤ y.2) ∧
      ∃ w, Wins n ballots w ∧ ∀ f : List AnyFloat, f.length = k → F.predict f = .ok w := by
  obtain ⟨ts, hts, hF⟩ := (Res.bind_eq_ok _ _ _).1 hF
  cases hF
  obtain ⟨new, h1, h2, h3⟩ := anyLoop_ok hts
  have h1 : ts = new := h1
  subst h1
  have h2 : ts.length = m := h2
  have key : ∀ l : List AnyTree, (∀ t ∈ l, t ∈ ts) → ∃ bs : List ℤ,
      (∀ b ∈ bs, ∃ ys, IsBootstrap xs ys ∧ (∃ y ∈ ys, y.2 = b) ∧ ∀ y ∈ ys, b ≤ y.2) ∧
      List.Forall₂ (fun t b => ∀ f : List AnyFloat, f.length = k → AnyTree.evaluate t f = .ok b) l bs := by
    intro l
    induction l with
    | nil => intro _; exact ⟨[], by simp, .nil⟩
    | cons t l ih =>
      intro hl
      obtain ⟨bs, g1, g2⟩ := ih fun u hu => hl u (List.mem_cons_of_mem _ hu)
      obtain ⟨ys, cl, i1, i2⟩ := h3 t (hl t List.mem_cons_self)
      obtain ⟨c, j1, -, j3, j4⟩ := C102_answers σ hσ [] cl List.Pairwise.nil d k ys
        (fun x hx => hk x (i1.2 x hx)) t i2
      refine ⟨c :: bs, fun b hb => ?_, .cons j4 g2⟩
      rcases List.mem_cons.1 hb with rfl | hb
      · exact ⟨ys, i1, j1.resolve_left (by simp), j3⟩
      · exact g1 b hb
  obtain ⟨bs, g1, g2⟩ := key ts fun t ht => ht
  have hr : ∀ b ∈ bs, 0 ≤ b ∧ b < n := by
    intro b hb
    obtain ⟨ys, i1, ⟨y, hy, rfl⟩, -⟩ := g1 b hb
    exact hc y (i1.2 y hy)
  have hall : ∀ f : List AnyFloat, f.length = k →
      ∃ w, AnyForest.predict ⟨ts, n, m, d⟩ f = .ok w ∧ Wins n bs w := fun f hf =>
    anyPredict_wins (F := ⟨ts, n, m, d⟩) (by show 0 < n; omega) (g2.imp fun t b h => h f hf) hr
  obtain ⟨w, w1, w2⟩ := hall (List.replicate k .nan) (by simp)
  refine ⟨bs, by rw [← g2.length_eq, h2], g1, w, w2, fun f hf => ?_⟩
  obtain ⟨w', w3, w4⟩ := hall f hf
  rw [Wins.unique w4 w2] at w3
  exact w3

/-- Training with a NaN can succeed. -/
example : (∀ x ∈ ([([.nan], 1), ([.fin 3], 0)] : List AnySample), 0 ≤ x.2 ∧ x.2 < 2) ∧
    (match (AnyForest.new 2 2 1).train anySort (fun i => i / 2) [([.nan], 1), ([.fin 3], 0)] with
      | .ok F => decide (F.trees.length = 2 ∧ F.predict [.nan] = .ok 0)
      | _ => false) = true := ⟨by decide, by decide +kernel⟩

/-- The class with the most votes wins, also if it is not the least one, and if it is the only one. -/
example :
    (match (AnyForest.new 3 3 1).train anySort (fun i => if i < 4 then 0 else 1)
        [([.nan], 2), ([.posInf], 1)] with
      | .ok F => decide (F.predict [.nan] = .ok 2)
      | _ => false) = true ∧
    (match (AnyForest.new 1 2 1).train anySort id [([.nan], 0), ([.negZero], 0)] with
      | .ok F => decide (F.predict [.posInf] = .ok 0)
      | _ => false) = true := ⟨by decide +kernel, by decide +kernel⟩

/-- C122 (NaN beside two different numbers): with samples of two classes whether training a forest has undefined
behaviour depends on the numbers drawn. -/
theorem C122_nan (σ : AnySortFn) (hσ : AnySortSpec σ) (n : ℤ) (m d k : ℕ) (hm : 0 < m) (hd : 0 < d)
    (xs : List AnySample) (hlen : xs.length ≤ 2 ^ 20) (hk : ∀ x ∈ xs, x.1.length = k)
    (i : ℕ) (hi : i < k) (hu : Unordered i xs) (hc : ∃ x ∈ xs, ∃ y ∈ xs, x.2 ≠ y.2) :
    (∃ draws, (AnyForest.new n m d).train σ draws xs = .error (.ub .badOrder)) ∧
    ∃ draws F, (AnyForest.new n m d).train σ draws xs = .ok F := by
  constructor
  · refine ⟨id, ?_⟩
    obtain ⟨m, rfl⟩ := Nat.exists_eq_succ_of_ne_zero (by omega : m ≠ 0)
    have h := C102_nan_ub σ hσ [] List.Pairwise.nil d k xs hlen hk hd i hi hu hc
    have hl : AnyForest.trainLoop σ xs id d (m + 1) 0 [] = .error (.ub .badOrder) := by
      unfold AnyForest.trainLoop
      rw [anyBootstrap_id, h]
      rfl
    show (do let trees ← AnyForest.trainLoop σ xs id d (m + 1) 0 []; _) = _
    rw [hl]; rfl
  · obtain ⟨x0, hx0, -⟩ := hc
    have hne : xs ≠ [] := List.ne_nil_of_mem hx0
    have hpos : 0 < xs.length := List.length_pos_iff.2 hne
    obtain ⟨ts, hts⟩ := anyLoop_total (σ := σ) (xs := xs) (draws := fun _ => 0) (d := d) (fun start => by
      have hb := anyBootstrap_is xs (fun _ => 0) start
      have hall : ∀ y ∈ AnyForest.bootstrap xs (fun _ => 0) start, y.2 = (xs.getD 0 ([], 0)).2 := by
        intro y hy
        simp only [AnyForest.bootstrap, List.mem_map] at hy
        obtain ⟨j, -, rfl⟩ := hy
        simp
      generalize AnyForest.bootstrap xs (fun _ => 0) start = ys at hb hall
      have hy : ys ≠ [] := by rw [← List.length_pos_iff, hb.1]; exact hpos
      obtain ⟨y, hy0⟩ := List.exists_mem_of_ne_nil ys hy
      rw [trainAny_eq hy]
      have hnd := sorted_nodup (setInsertAll_sorted (cs := ys.map Prod.snd) List.Pairwise.nil)
      have hin : (xs.getD 0 ([], 0)).2 ∈ setInsertAll (ys.map Prod.snd) [] :=
        mem_setInsertAll.2 (.inl (List.mem_map.2 ⟨y, hy0, hall y hy0⟩))
      obtain ⟨c, rest, hcr⟩ := List.exists_cons_of_ne_nil (List.ne_nil_of_mem hin)
      have hne' : classesOnly ys ≠ [] := by
        rw [← List.length_pos_iff, length_only, hb.1]; exact hpos
      have hg : gini (setInsertAll (ys.map Prod.snd) []) (classesOnly ys) = 0 := by
        refine gini_pure _ hnd hne' hin (fun z hz => ?_) (by rw [length_only, hb.1]; omega)
        obtain ⟨u, hu, rfl⟩ := List.mem_map.1 hz
        exact hall u hu
      cases d with
      | zero => omega
      | succ d =>
        unfold buildAny computeGini
        rw [if_neg hne']
        simp only [Res.bind_ok]
        rw [newNode_ok_iff.2 ⟨c, rest, hcr, rfl⟩]
        simp only [Res.bind_ok]
        rw [if_neg hy, if_pos hg.le]
        exact ⟨_, rfl⟩) m 0 []
    refine ⟨fun _ => 0, ⟨ts, n, m, d⟩, ?_⟩
    show (do let trees ← AnyForest.trainLoop σ xs (fun _ => 0) d m 0 []; _) = _
    rw [hts]; rfl

example : Unordered 0 [([.nan], 0), ([.fin 1], 1), ([.fin 2], 0)] ∧
    (AnyForest.new 2 1 1).train anySort id [([.nan], 0), ([.fin 1], 1), ([.fin 2], 0)] =
      .error (.ub .badOrder) ∧
    (match (AnyForest.new 2 1 1).train anySort (· / 2) [([.nan], 0), ([.fin 1], 1), ([.fin 2], 0)] with
      | .ok _ => true
      | _ => false) = true := by
  refine ⟨⟨⟨([.nan], 0), by simp, rfl⟩, ([.fin 1], 1), by simp, ([.fin 2], 0), by simp, ?_⟩,
    by decide +kernel, by decide +kernel⟩
  decide +kernel

end Apollo.Props
