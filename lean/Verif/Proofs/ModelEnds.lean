import Verif.Proofs.RegionCount
import Verif.Model.RegionPolicy

/-!
# Training and storing policy models end
-/

namespace Apollo

theorem sortBy_ends (σ : SortFn) (i : ℕ) (xs : List Sample) : sortBy σ i xs ≠ .error .diverge := by
  unfold sortBy; split <;> simp

theorem foldlM_ends {α β : Type} {f : β → α → Res β} (h : ∀ b a, f b a ≠ .error .diverge) (l : List α) :
    ∀ b, l.foldlM f b ≠ .error .diverge := by
  induction l with
  | nil => intro b; exact fun h => by cases h
  | cons a l ih =>
    intro b
    rw [List.foldlM_cons]
    exact Res.bind_ne_diverge (h b a) ih

theorem split_ends (σ : SortFn) (classes : List ℤ) (xs : List Sample) :
    split σ classes xs ≠ .error .diverge := by
  unfold split
  split
  · simp
  · refine Res.bind_ne_diverge (foldlM_ends (fun b a => ?_) _ _) fun x => ?_
    · exact Res.bind_ne_diverge (sortBy_ends _ _ _) fun _ => by simp
    · dsimp only
      split
      · exact Res.bind_ne_diverge (sortBy_ends _ _ _) fun _ => by simp
      · exact Res.bind_ne_diverge (sortBy_ends _ _ _) fun _ => by simp

theorem computeGini_ends (classes : List ℤ) (xs : List Sample) :
    computeGini classes xs ≠ .error .diverge := by
  unfold computeGini; split <;> simp

theorem newNode_ends (classes : List ℤ) (g : ℚ) (k : ℕ) (c : List ℕ) :
    newNode classes g k c ≠ .error .diverge := by
  unfold newNode; dsimp only; split <;> simp

theorem buildTree_ends (σ : SortFn) (classes : List ℤ) (d : ℕ) :
    ∀ xs, buildTree σ classes d xs ≠ .error .diverge := by
  induction d with
  | zero =>
    intro xs
    unfold buildTree
    exact Res.bind_ne_diverge (computeGini_ends _ _) fun _ =>
      Res.bind_ne_diverge (newNode_ends _ _ _ _) fun _ => by simp
  | succ d ih =>
    intro xs
    unfold buildTree
    refine Res.bind_ne_diverge (computeGini_ends _ _) fun _ =>
      Res.bind_ne_diverge (newNode_ends _ _ _ _) fun _ => ?_
    split
    · simp
    · split
      · simp
      · exact Res.bind_ne_diverge (split_ends _ _ _) fun _ => Res.bind_ne_diverge (ih _) fun _ =>
          Res.bind_ne_diverge (ih _) fun _ => by simp

theorem TreeImpl.train_ends (σ : SortFn) (t : TreeImpl) (xs : List Sample) :
    t.train σ xs ≠ .error .diverge := by
  unfold TreeImpl.train
  split
  · simp
  · exact Res.bind_ne_diverge (buildTree_ends _ _ _ _) fun _ => by simp

theorem trainLoop_ends (σ : SortFn) (xs : List Sample) (draws : ℕ → ℕ) (n : ℤ) (d k : ℕ) :
    ∀ start acc, ForestImpl.trainLoop σ xs draws n d k start acc ≠ .error .diverge := by
  induction k with
  | zero => intro _ _; simp [ForestImpl.trainLoop]
  | succ k ih =>
    intro start acc
    unfold ForestImpl.trainLoop
    exact Res.bind_ne_diverge (TreeImpl.train_ends _ _ _) fun _ => ih _ _

theorem outputTree_ends (level : ℕ) (t : TreeImpl) : outputTree level t ≠ .error .diverge := by
  unfold outputTree
  split
  · simp
  · split
    · simp
    · split <;> simp

theorem treesText_ends (level : ℕ) (ts : List TreeImpl) :
    ForestImpl.treesText level ts ≠ .error .diverge := by
  induction ts with
  | nil => simp [ForestImpl.treesText]
  | cons t ts ih =>
    unfold ForestImpl.treesText
    exact Res.bind_ne_diverge (outputTree_ends _ _) fun _ => Res.bind_ne_diverge ih fun _ => by simp

theorem policyOps_ends (gen : ℕ → ℕ → ℕ) (tenv : ℕ → TrainEnv) : Ends (policyOps gen tenv) where
  train := fun t ds m => by
    show PolicyModel.train (tenv t) ds m ≠ _
    unfold PolicyModel.train
    split
    · simp
    · simp
    · exact Res.bind_ne_diverge (TreeImpl.train_ends _ _ _) fun _ => by simp
    · refine Res.bind_ne_diverge ?_ fun _ => by simp
      exact Res.bind_ne_diverge (trainLoop_ends _ _ _ _ _ _ _ _) fun _ => by simp
    · simp
  store := fun m => by
    show PolicyModel.store m ≠ _
    unfold PolicyModel.store
    split
    · simp
    · refine Res.bind_ne_diverge ?_ fun _ => by simp
      exact Res.bind_ne_diverge (outputTree_ends _ _) fun _ => by simp
    · refine Res.bind_ne_diverge ?_ fun _ => by simp
      exact Res.bind_ne_diverge (treesText_ends _ _) fun _ => by simp
    · simp

end Apollo
