import Verif.Model.Jit

/-!
# Histories of processes with compiled trees
-/

namespace Apollo.Spec

/-- The steps that write a library. -/
def _root_.Apollo.JitOp.Compiles : JitOp → Prop
  | .newTrained .. => True
  | .newLoaded .. => True
  | .train .. => True
  | _ => False

instance : DecidablePred JitOp.Compiles := fun op => by
  cases op <;> unfold JitOp.Compiles <;> infer_instance

/-- The steps that write the library of the object at an address. -/
def _root_.Apollo.JitOp.CompilesAt (a : ℕ) : JitOp → Prop
  | .newTrained b .. => a = b
  | .newLoaded b .. => a = b
  | .train b _ => a = b
  | _ => False

/-- In a history the object of process `p` at address `a` was constructed without a tree, and has not
been trained since. -/
def Blank (ops : List (ℕ × JitOp)) (p a : ℕ) : Prop :=
  ∃ pre n d post, ops = pre ++ (p, .new a n d) :: post ∧ ∀ op, (p, op) ∈ post → ¬ op.CompilesAt a

/-- Between writing a library and opening it no other process does anything. -/
def Undisturbed (ops : List (ℕ × JitOp)) : Prop :=
  ops.IsChain fun x y => x.2.Compiles → y.1 = x.1

/-- Only objects constructed without a tree are trained, and only once. -/
def TrainedOnce (ops : List (ℕ × JitOp)) : Prop :=
  ∀ pre p a xs post, ops = pre ++ (p, .train a xs) :: post → Blank pre p a

/-- Files are read by constructors only. -/
def NeverLoaded (ops : List (ℕ × JitOp)) : Prop := ∀ p a s, (p, .load a s) ∉ ops

/-- The samples of a step. -/
def _root_.Apollo.JitOp.samples : JitOp → List Sample
  | .newTrained _ _ _ xs => xs
  | .train _ xs => xs
  | _ => []

end Apollo.Spec
