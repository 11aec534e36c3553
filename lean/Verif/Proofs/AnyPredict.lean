import Verif.Model.AnyPredict
import Verif.Spec.AnyPredict
import Verif.Proofs.AnyFloat
import Verif.Proofs.InterfaceModels
import Verif.Proofs.TreeStore

/-!
# Predictions for any floats: lemmas
-/

namespace Apollo

open Spec

theorem lt_threshold {q : ℚ} (hq : |q| ≤ infFloat) (v : AnyFloat) (hv : ∀ x, v = .fin x → |x| < infFloat) :
    v.lt (thresholdFloat q) = decide (standIn v < q) := by
  have h0 : (0 : ℚ) < infFloat := by unfold infFloat; positivity
  obtain ⟨h1, h2⟩ := abs_le.1 hq
  have e : (2 : ℚ) ^ 128 = infFloat := rfl
  unfold thresholdFloat
  split
  · next h =>
    subst h
    cases v with
    | fin x =>
      have := abs_lt.1 (hv x rfl)
      simp [AnyFloat.lt, standIn, this.2]
    | negInf =>
      simp only [AnyFloat.lt, standIn, e]
      exact (decide_eq_true (by linarith)).symm
    | _ => simp [AnyFloat.lt, standIn, e, h0]
  split
  · next h =>
    subst h
    cases v with
    | fin x =>
      have := abs_lt.1 (hv x rfl)
      simp only [AnyFloat.lt, standIn]
      exact (decide_eq_false (by linarith)).symm
    | negInf => simp [AnyFloat.lt, standIn, e]
    | _ =>
      simp only [AnyFloat.lt, standIn, e]
      exact (decide_eq_false (by linarith)).symm
  · next h3 h4 =>
    have h5 : q < infFloat := lt_of_le_of_ne h2 h3
    have h6 : -infFloat < q := lt_of_le_of_ne h1 (Ne.symm h4)
    cases v with
    | negInf => simp [AnyFloat.lt, standIn, e, h6]
    | posInf => simp [AnyFloat.lt, standIn, e, h5.le]
    | nan => simp [AnyFloat.lt, standIn, e, h5.le]
    | _ =>
      simp only [AnyFloat.lt, standIn]
      exact decide_eq_decide.2 Iff.rfl

theorem lt_threshold_fin (q : ℚ) {x : ℚ} (hx : |x| < infFloat) :
    (AnyFloat.fin x).lt (thresholdFloat q) = decide (x < q) := by
  obtain ⟨h1, h2⟩ := abs_lt.1 hx
  unfold thresholdFloat
  split
  · next h => subst h; simp [AnyFloat.lt, h2]
  split
  · next h => subst h; simp [AnyFloat.lt, h1.le]
  · simp [AnyFloat.lt]

/-- What is needed of the features: finite ones are within the range of floats. -/
def InRange (f : List AnyFloat) : Prop := ∀ x, AnyFloat.fin x ∈ f → |x| < infFloat

theorem evaluateAny_standIn {f : List AnyFloat} (hf : InRange f) : ∀ {t : Tree},
    t.Forall (fun n => |n.threshold| ≤ infFloat) → evaluateAny t f = evaluateTree t (f.map standIn)
  | .nil, _ => rfl
  | .node n l r, ⟨h1, h2, h3⟩ => by
    have e1 := evaluateAny_standIn hf h2
    have e2 := evaluateAny_standIn hf h3
    unfold evaluateAny evaluateTree
    rw [List.getElem?_map]
    split
    · rfl
    split
    · rfl
    cases hv : f[n.featureIdx.toNat]? with
    | none => rfl
    | some v =>
      have hm := List.mem_of_getElem? hv
      simp only [Option.map_some]
      rw [lt_threshold h1 v (fun x hx => hf x (hx ▸ hm)), e1, e2]
      simp only [decide_eq_true_eq]

theorem evaluateAny_fin {f : Features} (hf : ∀ x ∈ f, |x| < infFloat) : ∀ t : Tree,
    evaluateAny t (f.map .fin) = evaluateTree t f
  | .nil => rfl
  | .node n l r => by
    have e1 := evaluateAny_fin hf l
    have e2 := evaluateAny_fin hf r
    unfold evaluateAny evaluateTree
    rw [List.getElem?_map]
    split
    · rfl
    split
    · rfl
    cases hv : f[n.featureIdx.toNat]? with
    | none => rfl
    | some v =>
      have hm := List.mem_of_getElem? hv
      simp only [Option.map_some]
      rw [lt_threshold_fin _ (hf v hm), e1, e2]
      simp only [decide_eq_true_eq]

theorem lt_nanAsInf (v : AnyFloat) (w : AnyFloat) :
    (if v = .nan then AnyFloat.posInf else v).lt w = v.lt w := by
  cases v <;> cases w <;> rfl

theorem evaluateAny_nan (f : List AnyFloat) : ∀ t : Tree,
    evaluateAny t (nanAsInf f) = evaluateAny t f
  | .nil => rfl
  | .node n l r => by
    have e1 := evaluateAny_nan f l
    have e2 := evaluateAny_nan f r
    unfold evaluateAny
    rw [e1, e2, nanAsInf, List.getElem?_map]
    cases hv : f[n.featureIdx.toNat]? with
    | none => rfl
    | some v =>
      simp only [Option.map_some]
      rw [lt_nanAsInf]

/-- Where all nodes agree, the prediction is that. -/
theorem evaluateAny_const {c : ℤ} {f : List AnyFloat} : ∀ {t : Tree}, t ≠ .nil →
    t.Forall (fun n => n.predicted = c ∧
      (n.featureIdx = -1 ∨ (0 ≤ n.featureIdx ∧ n.featureIdx.toNat < f.length))) →
    evaluateAny t f = .ok c
  | .nil, h, _ => absurd rfl h
  | .node n l r, _, ⟨⟨h1, h2⟩, h3, h4⟩ => by
    unfold evaluateAny
    split
    · rw [h1]
    · next hi =>
      obtain h2 | ⟨h2, h2'⟩ := h2
      · exact absurd h2 hi
      rw [if_neg (by omega), List.getElem?_eq_getElem h2']
      simp only
      split
      · split
        · rw [h1]
        · next hl => exact evaluateAny_const hl h3
      · split
        · rw [h1]
        · next hr => exact evaluateAny_const hr h4

/-- Where all nodes agree, the generated code returns that. -/
theorem runAny_const {c : ℤ} {f : List AnyFloat} : ∀ {t : Tree}, t.Proper →
    t.Forall (fun n => n.predicted = c ∧
      (n.featureIdx = -1 ∨ (0 ≤ n.featureIdx ∧ n.featureIdx.toNat < f.length))) →
    (generateSource t).runAny f = .ok c
  | .nil, h, _ => absurd h (by simp [Tree.Proper])
  | .node n l r, h, ⟨⟨h1, h2⟩, h3, h4⟩ => by
    have hrun := run_const (f := f.map standIn) h
      (Tree.Forall.imp (fun _ hn => by simpa using hn) (show (Tree.node n l r).Forall _ from ⟨⟨h1, h2⟩, h3, h4⟩))
    rcases h with ⟨rfl, rfl, hi⟩ | ⟨hi, pl, pr⟩
    · simp [generateSource, Code.runAny, h1]
    · have e1 := runAny_const pl h3
      have e2 := runAny_const pr h4
      obtain h2 | ⟨h2, h2'⟩ := h2
      · omega
      have hl : ¬ (l = .nil ∧ r = .nil) := by
        rintro ⟨rfl, -⟩
        exact absurd pl (by simp [Tree.Proper])
      unfold generateSource at hrun ⊢
      rw [if_neg hl] at hrun ⊢
      unfold Code.run at hrun
      unfold Code.runAny
      rw [if_neg (by omega)] at hrun ⊢
      rw [List.getElem?_map] at hrun
      rw [List.getElem?_eq_getElem h2'] at hrun ⊢
      cases hw : literalValue (fmtG6 n.threshold) with
      | none => rw [hw] at hrun; simp at hrun
      | some w =>
        simp only
        rw [e1, e2]
        simp

theorem votesAny_congr {n : ℤ} {f : List AnyFloat} {g : Features} : ∀ (ts : List TreeImpl) (cs : List ℕ),
    (∀ t ∈ ts, t.predictAny f = t.predict g) →
    ForestImpl.votesAny n f ts cs = ForestImpl.votes n g ts cs
  | [], _, _ => rfl
  | t :: ts, cs, h => by
    unfold ForestImpl.votesAny ForestImpl.votes
    rw [h t (by simp)]
    congr 1
    funext c
    split
    · exact votesAny_congr ts _ fun t ht => h t (by simp [ht])
    · rfl

theorem forest_predictAny_congr {F : ForestImpl} {f : List AnyFloat} {g : Features}
    (h : ∀ t ∈ F.trees, t.predictAny f = t.predict g) : F.predictAny f = F.predict g := by
  unfold ForestImpl.predictAny ForestImpl.predict
  rw [votesAny_congr _ _ h]

theorem votesAny_nan (n : ℤ) (f : List AnyFloat) : ∀ (ts : List TreeImpl) (cs : List ℕ),
    ForestImpl.votesAny n (nanAsInf f) ts cs = ForestImpl.votesAny n f ts cs
  | [], _ => rfl
  | t :: ts, cs => by
    unfold ForestImpl.votesAny
    rw [show t.predictAny (nanAsInf f) = t.predictAny f from evaluateAny_nan f t.root]
    congr 1
    funext c
    split
    · exact votesAny_nan n f ts _
    · rfl

theorem abs_threshold_le (l r : ℚ) : |threshold l r| ≤ infFloat := by
  have h0 : (0 : ℚ) < infFloat := by unfold infFloat; positivity
  unfold threshold
  simp only
  split
  · rw [abs_of_pos h0]
  split
  · rw [abs_neg, abs_of_pos h0]
  · next h1 h2 =>
    have hmax : maxFloat ≤ infFloat := by unfold maxFloat infFloat; norm_num
    have h3 : |rnd32 (l + r) / 2| ≤ (2 : ℚ) ^ (128 : ℤ) := by
      have : |rnd32 (l + r)| ≤ infFloat := abs_le.2 ⟨by linarith, by linarith⟩
      rw [abs_div, abs_of_pos (by norm_num : (0 : ℚ) < 2)]
      have e : (2 : ℚ) ^ (128 : ℤ) = infFloat := by unfold infFloat; norm_num
      rw [e]
      linarith
    have h4 := abs_rnd_le (p := 53) (emin := -1074) (by norm_num)
      (representable_two_zpow (by norm_num)) h3
    have h5 := abs_rnd_le (p := 24) (emin := -149) (by norm_num)
      (representable_two_zpow (by norm_num)) h4
    exact le_trans h5 (by unfold infFloat; norm_num)

theorem grown_bounded {classes : List ℤ} {k d : ℕ} {xs : List Sample} {t : Tree}
    (h : GrownM classes k d xs t) :
    t.Forall (fun n => n.featureIdx = -1 ∨ |n.threshold| ≤ infFloat) := by
  induction h with
  | leaf d xs n hd hg hn hc hi => exact ⟨Or.inl hi, trivial, trivial⟩
  | inner d xs n i l r tl tr himp hg hn hc hbest hi ht hl hr ihl ihr =>
    exact ⟨Or.inr (by rw [ht]; exact abs_threshold_le l r), ihl, ihr⟩

theorem trained_bounded {σ : SortFn} (hσ : SortSpec σ) {t0 t : TreeImpl} {xs : List Sample}
    (ht : t0.train σ xs = .ok t) {k : ℕ} (hk : ∀ x ∈ xs, x.1.length = k) :
    t.root.Forall (fun n => |n.threshold| ≤ infFloat) := by
  obtain ⟨x, rest, root, data, hx, hb, rfl⟩ := TreeImpl.train_ok_iff.1 ht
  obtain ⟨hgrown, -⟩ := buildTree_grown hσ _ _ hk hb
  have h1 := grown_bounded hgrown
  have h2 := buildTree_leaf _ _ hb
  have hand : ∀ {p q : NodeInfo → Prop} {t : Tree}, t.Forall p → t.Forall q →
      t.Forall (fun n => p n ∧ q n) := fun h h' => Tree.Forall.and h h'
  refine (hand h1 h2).imp fun n hn => ?_
  rcases hn.1 with h | h
  · rw [hn.2 h, abs_zero]; unfold infFloat; positivity
  · exact h

/-! ## The map of the best policies -/

theorem SearchTree.find_eq {κ α L : Type} [LinearOrder L] {num : κ → L} {lt : κ → κ → Bool}
    {P : κ → Prop} (hlt : ∀ a b, P a → P b → lt a b = decide (num a < num b))
    {t : SearchTree κ α} (ht : ∀ e ∈ t.toList, P e.1) (hs : (t.view num).Sorted) {k : κ} (hk : P k) :
    ((t.find lt k).bind fun i => (t.toList[i]?).map Prod.snd) = OMap.find (t.view num) (num k) := by
  unfold SearchTree.find
  rw [SearchTree.lowerBound_eq hlt ht hs hk]
  obtain ⟨a, b, hab, ha, hb⟩ := SearchTree.split_sorted hs (num k)
  have hc : ((t.view num).countP fun e => decide (e.1 < num k)) = a.length := by
    rw [hab, List.countP_append, List.countP_eq_length.2 fun e he => decide_eq_true (ha e he),
      List.countP_eq_zero.2 fun e he => by simpa using hb e he, add_zero]
  rw [hc]
  have hget : (t.view num)[a.length]? = b.head? := by
    rw [hab]
    refine (List.getElem?_append_right (l₁ := a) (l₂ := b) (le_refl a.length)).trans ?_
    rw [Nat.sub_self, List.head?_eq_getElem?]
  have hview : (t.view num)[a.length]? = (t.toList[a.length]?).map fun e => (num e.1, e.2) := by
    rw [SearchTree.view, List.getElem?_map]
  cases hg : t.toList[a.length]? with
  | none =>
    rw [hg] at hview
    have hbn : b = [] := by
      rw [← List.head?_eq_none_iff, ← hget, hview]; rfl
    symm
    show _ = none
    rw [← Option.not_isSome_iff_eq_none, OMap.find_isSome_iff, hab, hbn, List.append_nil]
    intro hm
    obtain ⟨e, he, hk'⟩ := List.mem_map.1 hm
    exact absurd (ha e he) (by rw [hk']; exact lt_irrefl _)
  | some e =>
    rw [hg] at hview
    rw [hview] at hget
    obtain ⟨b', hb'⟩ : ∃ b', b = (num e.1, e.2) :: b' := by
      cases b with
      | nil => simp at hget
      | cons x b' =>
        simp only [Option.map_some, List.head?_cons, Option.some.injEq] at hget
        exact ⟨b', by rw [hget]⟩
    have hPe := ht e (List.mem_of_getElem? hg)
    simp only
    rw [hlt k e.1 hk hPe]
    by_cases h : num k < num e.1
    · rw [decide_eq_true h, if_pos rfl]
      symm
      show _ = none
      rw [← Option.not_isSome_iff_eq_none, OMap.find_isSome_iff]
      intro hm
      obtain ⟨x, hx, hk'⟩ := List.mem_map.1 hm
      rw [hab] at hx hs
      rcases List.mem_append.1 hx with hx | hx
      · exact absurd (ha x hx) (by rw [hk']; exact lt_irrefl _)
      · rw [hb'] at hx hs
        rcases List.mem_cons.1 hx with rfl | hx
        · exact absurd h (by rw [← hk']; exact lt_irrefl _)
        · have := (SearchTree.Sorted_cons.1 (SearchTree.Sorted_append.1 hs).2.1).1 x hx
          exact absurd (h.trans this) (by rw [hk']; exact lt_irrefl _)
    · rw [decide_eq_false h]
      simp only [Bool.false_eq_true, if_false, Option.bind_some, hg, Option.map_some]
      symm
      rw [hs.find_eq_some_iff, hab, hb']
      have hle := hb (num e.1, e.2) (by rw [hb']; simp)
      have : num k = num e.1 := le_antisymm hle (not_lt.1 h)
      rw [this]
      simp

end Apollo
