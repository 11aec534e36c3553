import Verif.Spec.Net
import Verif.Model.NetReal
import Mathlib.Analysis.SpecialFunctions.Log.Basic

/-!
# Specification of the policy gradient

What a training step should increase, and changes of single parameters.
-/

namespace Apollo.Spec.Net

open Finset

/-- The mean of reward times the logarithm of the probability of the action taken. -/
noncomputable def objective (s : Shape) (b : Batch ℝ) (W : Weights ℝ) : ℝ :=
  (∑ i ∈ range b.size, b.reward i * Real.log (probs s W (b.x i) (b.action i).toNat)) / b.size

/-- The layer with weight `j k` replaced. -/
def Layer.setW (L : Layer ℝ) (j k : ℕ) (t : ℝ) : Layer ℝ :=
  ⟨fun j' k' => if j' = j ∧ k' = k then t else L.w j' k', L.b⟩

/-- The layer with bias `j` replaced. -/
def Layer.setB (L : Layer ℝ) (j : ℕ) (t : ℝ) : Layer ℝ :=
  ⟨L.w, fun j' => if j' = j then t else L.b j'⟩

/-- The activations are differentiable for the batch: none of their inputs is zero. -/
def Smooth (s : Shape) (W : Weights ℝ) (b : Batch ℝ) : Prop :=
  ∀ i < b.size, ∀ j < s.hidden, pre1 s W (b.x i) j ≠ 0 ∧ pre2 s W (b.x i) j ≠ 0

end Apollo.Spec.Net
