import Verif.Proofs.ModelEnds
import Verif.Model.RegionNet

/-!
# Training and storing ends, PolicyNet included
-/

namespace Apollo

open Arith Net

variable {α : Type} [Arith α]

theorem forN_ends {σ : Type} {f : ℕ → σ → Res σ} (h : ∀ i s, f i s ≠ .error .diverge) (n : ℕ) :
    ∀ s, forN n f s ≠ .error .diverge := by
  induction n with
  | zero => intro s; simp [forN]
  | succ n ih =>
    intro s
    unfold forN
    exact Res.bind_ne_diverge (ih s) fun s => h n s

omit [Arith α] in
theorem Buf.read_ends (b : Buf α) (i : ℕ) : b.read i ≠ .error .diverge := by
  unfold Buf.read; split <;> simp

omit [Arith α] in
theorem Buf.write_ends (b : Buf α) (i : ℕ) (v : α) : b.write i v ≠ .error .diverge := by
  unfold Buf.write; split <;> simp

/-- Functions built from reading and writing arrays, and loops over such functions. -/
macro "net_ends" : tactic => `(tactic| repeat' first
  | exact Buf.read_ends _ _
  | exact Buf.write_ends _ _ _
  | (intro h; cases h; done)
  | (refine Res.bind_ne_diverge ?_ fun _ => ?_)
  | (refine forN_ends (fun _ _ => ?_) _ _)
  | (dsimp only))

namespace Net

theorem FC.prepare_ends (L : FC α) (B : ℕ) : L.prepare B ≠ .error .diverge := by
  unfold FC.prepare
  split
  · simp
  · net_ends

theorem FC.forward_ends (L : FC α) (x : Buf α) (B : ℕ) : L.forward x B ≠ .error .diverge := by
  unfold FC.forward
  refine Res.bind_ne_diverge (FC.prepare_ends L B) fun L => ?_
  unfold FC.forwardCell
  net_ends

theorem FC.backward_ends (L : FC α) (x c : Buf α) (B : ℕ) : L.backward x c B ≠ .error .diverge := by
  unfold FC.backward FC.backwardCell
  net_ends

theorem FC.step_ends (L : FC α) (lr b1 b2 : α) : L.step lr b1 b2 ≠ .error .diverge := by
  unfold FC.step FC.adamAt
  net_ends

theorem Act.reluForward_ends (A : Act α) (x : Buf α) (B n : ℕ) :
    A.reluForward x B n ≠ .error .diverge := by
  unfold Act.reluForward
  net_ends

theorem Act.reluBackward_ends (A : Act α) (x c : Buf α) (B n : ℕ) :
    A.reluBackward x c B n ≠ .error .diverge := by
  unfold Act.reluBackward
  net_ends

theorem Act.softmaxForward_ends (A : Act α) (x : Buf α) (B n : ℕ) :
    A.softmaxForward x B n ≠ .error .diverge := by
  unfold Act.softmaxForward Act.rowMax Act.softmaxRow
  net_ends

theorem Act.lossGrad_ends (A : Act α) (a : List ℤ) (p r : Buf α) (B n : ℕ) :
    A.lossGrad a p r B n ≠ .error .diverge := by
  unfold Act.lossGrad
  refine Res.bind_ne_diverge (forN_ends (fun i g => Res.bind_ne_diverge ?_ fun g => ?_) _ _) fun _ => by simp
  · net_ends
  · unfold Act.lossAction
    split
    · simp
    · refine Res.bind_ne_diverge ?_ fun _ => ?_
      · unfold Act.index; split <;> simp
      · net_ends

end Net

theorem Network.forward_ends (N : Network α) (x : Buf α) (B : ℕ) : N.forward x B ≠ .error .diverge := by
  unfold Network.forward
  refine Res.bind_ne_diverge (FC.forward_ends _ _ _) fun _ =>
    Res.bind_ne_diverge (Act.reluForward_ends _ _ _ _) fun _ =>
    Res.bind_ne_diverge (FC.forward_ends _ _ _) fun _ =>
    Res.bind_ne_diverge (Act.reluForward_ends _ _ _ _) fun _ =>
    Res.bind_ne_diverge (FC.forward_ends _ _ _) fun _ =>
    Res.bind_ne_diverge (Act.softmaxForward_ends _ _ _ _) fun _ => ?_
  simp

theorem Network.trainStep_ends (N : Network α) (x : Buf α) (a : List ℤ) (r : Buf α) (B : ℕ) :
    N.trainStep x a r B ≠ .error .diverge := by
  unfold Network.trainStep
  refine Res.bind_ne_diverge (N.forward_ends x B) fun N => Res.bind_ne_diverge ?_ fun N => ?_
  · unfold Network.backward
    refine Res.bind_ne_diverge (Act.lossGrad_ends _ _ _ _ _ _) fun _ =>
      Res.bind_ne_diverge (FC.backward_ends _ _ _ _) fun _ =>
      Res.bind_ne_diverge (Act.reluBackward_ends _ _ _ _ _) fun _ =>
      Res.bind_ne_diverge (FC.backward_ends _ _ _ _) fun _ =>
      Res.bind_ne_diverge (Act.reluBackward_ends _ _ _ _ _) fun _ =>
      Res.bind_ne_diverge (FC.backward_ends _ _ _ _) fun _ => ?_
    simp
  · unfold Network.step
    refine Res.bind_ne_diverge (FC.step_ends _ _ _ _) fun _ =>
      Res.bind_ne_diverge (FC.step_ends _ _ _ _) fun _ =>
      Res.bind_ne_diverge (FC.step_ends _ _ _ _) fun _ => ?_
    simp

namespace PolicyNet

theorem mapM_ends {β γ : Type} {f : β → Res γ} (h : ∀ x, f x ≠ .error .diverge) (l : List β) :
    l.mapM f ≠ .error .diverge := by
  induction l with
  | nil => exact fun h => by cases h
  | cons x l ih =>
    rw [List.mapM_cons]
    exact Res.bind_ne_diverge (h x) fun _ => Res.bind_ne_diverge ih fun _ => fun h => by cases h

theorem encode_ends (f : List ℚ) : encode f ≠ .error .diverge := by
  induction f with
  | nil => exact fun h => by cases h
  | cons v f ih =>
    unfold encode
    refine Res.bind_ne_diverge ?_ fun _ => Res.bind_ne_diverge ih fun _ => by simp
    unfold toU64; split <;> simp

theorem train_ends (P : PolicyNet α) (ds : Dataset) : P.train ds ≠ .error .diverge := by
  unfold train
  refine Res.bind_ne_diverge (mapM_ends (fun _ => encode_ends _) _) fun states =>
    Res.bind_ne_diverge ?_ fun _ => by simp
  unfold trainNet
  split
  · simp
  · dsimp only
    split
    · simp
    · refine Res.bind_ne_diverge (mapM_ends (fun _ => ?_) _) fun _ =>
        Res.bind_ne_diverge (Network.trainStep_ends _ _ _ _ _) fun _ => by simp
      unfold stateRow; split <;> simp

omit [Arith α] in
theorem bytesOf_ends [Stored α] (b : Buf α) : bytesOf b ≠ .error .diverge := by
  induction b with
  | nil => exact fun h => by cases h
  | cons v b ih =>
    cases v with
    | none => exact fun h => by cases h
    | some v =>
      unfold bytesOf
      exact Res.bind_ne_diverge ih fun _ => by simp

omit [Arith α] in
theorem store_ends [Stored α] (P : PolicyNet α) : P.store ≠ .error .diverge := by
  unfold store
  refine Res.bind_ne_diverge (bytesOf_ends _) fun _ => Res.bind_ne_diverge (bytesOf_ends _) fun _ =>
    Res.bind_ne_diverge (bytesOf_ends _) fun _ => Res.bind_ne_diverge (bytesOf_ends _) fun _ =>
    Res.bind_ne_diverge (bytesOf_ends _) fun _ => Res.bind_ne_diverge (bytesOf_ends _) fun _ => ?_
  simp

end PolicyNet

/-- Training and storing ends, whatever the model. -/
theorem netOps_ends [Stored α] (gen : ℕ → ℕ → ℕ) (tenv : ℕ → TrainEnv) (d : NetDraws α) :
    Ends (netOps gen tenv d) where
  train := fun t ds m => by
    cases m with
    | plain m => exact Res.bind_ne_diverge ((policyOps_ends gen tenv).train t ds m) fun _ => by simp
    | net P => exact Res.bind_ne_diverge (P.train_ends ds) fun _ => by simp
  store := fun m => by
    cases m with
    | plain m => exact (policyOps_ends gen tenv).store m
    | net P => exact Res.bind_ne_diverge P.store_ends fun _ => by simp

end Apollo
