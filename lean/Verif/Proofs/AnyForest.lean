import Verif.Model.AnyForest
import Verif.Proofs.AnyTrain
import Verif.Proofs.AnyPredict
import Verif.Proofs.Forest
import Verif.Spec.Forest

/-!
# Random forests trained with any floats: lemmas
-/

namespace Apollo

open Spec

theorem anyBootstrap_is (xs : List AnySample) (draws : ℕ → ℕ) (start : ℕ) :
    IsBootstrap xs (AnyForest.bootstrap xs draws start) := by
  refine ⟨by simp [AnyForest.bootstrap], ?_⟩
  intro y hy
  simp only [AnyForest.bootstrap, List.mem_map, List.mem_range] at hy
  obtain ⟨i, hi, rfl⟩ := hy
  have : draws (start + i) % xs.length < xs.length := Nat.mod_lt _ (by omega)
  rw [List.getD_eq_getElem?_getD, List.getElem?_eq_getElem this]
  exact List.getElem_mem _

theorem standIn_bootstrap (xs : List AnySample) (draws : ℕ → ℕ) (start : ℕ) :
    standInSamples (AnyForest.bootstrap xs draws start) =
      ForestImpl.bootstrap (standInSamples xs) draws start := by
  unfold AnyForest.bootstrap ForestImpl.bootstrap standInSamples
  rw [List.map_map, List.length_map]
  refine List.map_congr_left fun i _ => ?_
  simp only [Function.comp_apply, List.getD_eq_getElem?_getD, List.getElem?_map]
  cases xs[draws (start + i) % xs.length]? <;> rfl

/-- Without randomness the bootstrap is the samples. -/
theorem anyBootstrap_id (xs : List AnySample) : AnyForest.bootstrap xs id 0 = xs := by
  unfold AnyForest.bootstrap
  refine List.ext_getElem (by simp) fun i h1 h2 => ?_
  simp only [List.getElem_map, List.getElem_range, Nat.zero_add, id]
  rw [Nat.mod_eq_of_lt h2, List.getD_eq_getElem?_getD, List.getElem?_eq_getElem h2]
  rfl

/-- The trees are those of consecutive parts of the stream of draws. -/
theorem anyLoop_ok {σ : AnySortFn} {xs : List AnySample} {draws : ℕ → ℕ} {d : ℕ} :
    ∀ {k start : ℕ} {acc ts : List AnyTree}, AnyForest.trainLoop σ xs draws d k start acc = .ok ts →
    ∃ new, ts = acc ++ new ∧ new.length = k ∧
      ∀ t ∈ new, ∃ ys cl, IsBootstrap xs ys ∧ trainAny σ [] d ys = .ok (cl, t) := by
  intro k
  induction k with
  | zero => intro start acc ts h; cases h; exact ⟨[], by simp, rfl, by simp⟩
  | succ k ih =>
    intro start acc ts h
    simp only [AnyForest.trainLoop] at h
    obtain ⟨t, ht, h⟩ := (Res.bind_eq_ok _ _ _).1 h
    obtain ⟨new, h1, h2, h3⟩ := ih h
    refine ⟨t.2 :: new, by simp [h1], by simp [h2], fun u hu => ?_⟩
    rcases List.mem_cons.1 hu with rfl | hu
    · exact ⟨_, t.1, anyBootstrap_is xs draws start, ht⟩
    · exact h3 u hu

theorem anyLoop_total {σ : AnySortFn} {xs : List AnySample} {draws : ℕ → ℕ} {d : ℕ}
    (h : ∀ start, ∃ t, trainAny σ [] d (AnyForest.bootstrap xs draws start) = .ok t) :
    ∀ (k start : ℕ) (acc : List AnyTree), ∃ ts, AnyForest.trainLoop σ xs draws d k start acc = .ok ts := by
  intro k
  induction k with
  | zero => intro start acc; exact ⟨acc, rfl⟩
  | succ k ih =>
    intro start acc
    obtain ⟨t, ht⟩ := h start
    simp only [AnyForest.trainLoop, ht, Res.bind_ok]
    exact ih _ _

/-- A tree that is the same apart from thresholds as one whose nodes agree answers with that. -/
theorem evaluate_same {c : ℤ} {f : List AnyFloat} : ∀ {t : AnyTree} {t' : Tree}, t ≠ .nil →
    SameButThresholds t t' →
    t'.Forall (fun n => n.predicted = c ∧
      (n.featureIdx = -1 ∨ (0 ≤ n.featureIdx ∧ n.featureIdx.toNat < f.length))) →
    t.evaluate f = .ok c
  | .nil, _, h, _, _ => absurd rfl h
  | .node _ _ _ _, .nil, _, h, _ => h.elim
  | .node n thr l r, .node n' l' r', _, ⟨_, _, e1, e2, _, hl, hr⟩, ⟨⟨h1, h2⟩, h3, h4⟩ => by
    rw [← e1] at h1
    rw [← e2] at h2
    unfold AnyTree.evaluate
    split
    · rw [h1]
    · next hi =>
      obtain h2 | ⟨h2, h2'⟩ := h2
      · exact absurd h2 hi
      rw [if_neg (by omega), List.getElem?_eq_getElem h2']
      simp only
      split
      · split
        · rw [h1]
        · next hl0 => exact evaluate_same hl0 hl h3
      · split
        · rw [h1]
        · next hr0 => exact evaluate_same hr0 hr h4

/-- Forests whose trees give the same answers vote alike. -/
theorem anyVotes_eq {n : ℤ} {f : List AnyFloat} {g : Features} {ts : List AnyTree} {us : List TreeImpl}
    (h : List.Forall₂ (fun t u => t.evaluate f = TreeImpl.predict u g) ts us) :
    ∀ c, AnyForest.votes n f ts c = ForestImpl.votes n g us c := by
  induction h with
  | nil => intro c; rfl
  | cons h _ ih =>
    intro c
    simp only [AnyForest.votes, ForestImpl.votes, h, ih]

theorem anyPredict_eq {F : AnyForest} {G : ForestImpl} {f : List AnyFloat} {g : Features}
    (hn : F.numClasses = G.numClasses)
    (h : List.Forall₂ (fun t u => t.evaluate f = TreeImpl.predict u g) F.trees G.trees) :
    F.predict f = G.predict g := by
  unfold AnyForest.predict ForestImpl.predict
  rw [hn, anyVotes_eq h]

/-- A tree that always answers `c`. -/
def leafOnly (c : ℤ) : TreeImpl := ⟨[], [], .node ⟨0, 0, c, -1, 0, []⟩ .nil .nil, 0, 0, 0⟩

theorem leafOnly_predict (c : ℤ) (f : Features) : (leafOnly c).predict f = .ok c := rfl

theorem anyPredict_wins {F : AnyForest} {f : List AnyFloat} {bs : List ℤ} (hn : 0 < F.numClasses)
    (hp : List.Forall₂ (fun t c => AnyTree.evaluate t f = .ok c) F.trees bs)
    (hr : ∀ b ∈ bs, 0 ≤ b ∧ b < F.numClasses) :
    ∃ w, F.predict f = .ok w ∧ Wins F.numClasses bs w := by
  have h2 : List.Forall₂ (fun t c => TreeImpl.predict t [] = .ok c) (bs.map leafOnly) bs := by
    rw [List.forall₂_map_left_iff, List.forall₂_same]
    exact fun c _ => rfl
  obtain ⟨w, h3, h4⟩ := predict_wins (f := ⟨bs.map leafOnly, F.numClasses, 0, 0⟩) (x := []) hn h2 hr
  refine ⟨w, ?_, h4⟩
  rw [← h3]
  refine anyPredict_eq rfl ?_
  show List.Forall₂ _ F.trees (bs.map leafOnly)
  rw [List.forall₂_map_right_iff]
  exact hp.imp fun t c h => h

end Apollo
