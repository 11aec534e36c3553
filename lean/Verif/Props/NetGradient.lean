import Verif.Props.Net
import Verif.Proofs.NetGradient

/-!
# C57: a training step computes the policy gradient

In exact real arithmetic.
-/

namespace Apollo.Props

open Apollo Apollo.Net Apollo.Spec.Net

/-- The gradient arrays of a training step, after any history, hold the partial derivatives of the
mean of reward times logarithm of the probability of the action taken, with respect to each weight and
each bias, at the parameters before the step. -/
theorem C57_gradient (s : Shape) (hs : 0 < s.output) (lr beta1 beta2 : ℝ) (init : ℕ → ℕ → ℝ)
    (cs : List (NetCall ℝ)) (hv : ∀ c ∈ cs, c.Valid s) (b : Batch ℝ)
    (hb : (NetCall.train b).Valid s)
    (hsm : Smooth s (trained s cs (.fresh s lr beta1 beta2 init)).weights b) :
    ∃ N N', netAfter s lr beta1 beta2 init cs = .ok N ∧ (NetCall.train b).run N = .ok N' ∧
      let W := (trained s cs (.fresh s lr beta1 beta2 init)).weights
      (∀ j < s.hidden, ∀ k < s.input, ∃ d,
        N'.layer1.weightsGrad[j * s.input + k]? = some (some d) ∧
        HasDerivAt (fun u => objective s b { W with l1 := W.l1.setW j k u }) d (W.l1.w j k)) ∧
      (∀ j < s.hidden, ∃ d, N'.layer1.biasGrad[j]? = some (some d) ∧
        HasDerivAt (fun u => objective s b { W with l1 := W.l1.setB j u }) d (W.l1.b j)) ∧
      (∀ j < s.hidden, ∀ k < s.hidden, ∃ d,
        N'.layer2.weightsGrad[j * s.hidden + k]? = some (some d) ∧
        HasDerivAt (fun u => objective s b { W with l2 := W.l2.setW j k u }) d (W.l2.w j k)) ∧
      (∀ j < s.hidden, ∃ d, N'.layer2.biasGrad[j]? = some (some d) ∧
        HasDerivAt (fun u => objective s b { W with l2 := W.l2.setB j u }) d (W.l2.b j)) ∧
      (∀ j < s.output, ∀ k < s.hidden, ∃ d,
        N'.layer3.weightsGrad[j * s.hidden + k]? = some (some d) ∧
        HasDerivAt (fun u => objective s b { W with l3 := W.l3.setW j k u }) d (W.l3.w j k)) ∧
      (∀ j < s.output, ∃ d, N'.layer3.biasGrad[j]? = some (some d) ∧
        HasDerivAt (fun u => objective s b { W with l3 := W.l3.setB j u }) d (W.l3.b j)) := by
  obtain ⟨N, N', e, e', w1, b1, w2, b2, w3, b3⟩ :=
    C56_backward s hs lr beta1 beta2 init cs hv b hb
  obtain ⟨g1, g2, g3, g4, g5, g6⟩ := grads_partial hsm hb
  exact ⟨N, N', e, e', fun j hj k hk => ⟨_, (w1 j hj k hk).1, g1 j hj k hk⟩,
    fun j hj => ⟨_, (b1 j hj).1, g2 j hj⟩, fun j hj k hk => ⟨_, (w2 j hj k hk).1, g3 j hj k hk⟩,
    fun j hj => ⟨_, (b2 j hj).1, g4 j hj⟩, fun j hj k hk => ⟨_, (w3 j hj k hk).1, g5 j hj k hk⟩,
    fun j hj => ⟨_, (b3 j hj).1, g6 j hj⟩⟩

/-- The objective changes along any curve of parameters by the scalar product with the gradients;
in particular along the gradients it grows. -/
theorem C57_directional {s : Shape} {W : ℝ → Weights ℝ} {D : Weights ℝ} {t : ℝ} (h : Moves W D t)
    {b : Batch ℝ} (hsm : Smooth s (W t) b)
    (ha : ∀ i < b.size, 0 ≤ b.action i ∧ b.action i < s.output) :
    HasDerivAt (fun u => objective s b (W u))
      (dot s.hidden s.input (grads s (W t) b).l1 D.l1 +
       dot s.hidden s.hidden (grads s (W t) b).l2 D.l2 +
       dot s.output s.hidden (grads s (W t) b).l3 D.l3) t :=
  objective_deriv h hsm ha

/-- The first step of training moves every parameter in the direction of its gradient, by the rate of
learning times a factor below one. -/
theorem C57_first_step (lr beta1 beta2 p g : ℝ) (h1 : beta1 ≠ 1) (h2 : beta2 ≠ 1) :
    Arith.add p (adamStep lr beta1 beta2 (blend beta1 0 g) (blend beta2 0 (Arith.pow g 2)) 1) =
      p + lr * (g / (|g| + 1 / 100000000)) := by
  have h1' : 1 - beta1 ≠ 0 := sub_ne_zero.2 (Ne.symm h1)
  have h2' : 1 - beta2 ≠ 0 := sub_ne_zero.2 (Ne.symm h2)
  have e1 : (1 - beta1) * g / (1 - beta1) = g := by field_simp
  have e2 : (1 - beta2) * g ^ 2 / (1 - beta2) = g ^ 2 := by field_simp
  simp only [adamStep, blend, real_add, real_sub, real_mul, real_div, real_ofRat, real_pow,
    real_sqrt, Rat.cast_one, zpow_one, mul_zero, zero_add]
  rw [show g ^ (2 : ℤ) = g ^ 2 from rfl, e1, e2, Real.sqrt_sq_eq_abs]
  push_cast
  rw [mul_div_assoc]

/-- The parameters after the first step, in terms of the gradients. -/
theorem C57_first_update (s : Shape) (lr beta1 beta2 : ℝ) (h1 : beta1 ≠ 1) (h2 : beta2 ≠ 1)
    (init : ℕ → ℕ → ℝ) (b : Batch ℝ) :
    let S : NetState ℝ := .fresh s lr beta1 beta2 init
    let G := grads s S.weights b
    let W := (S.train s b).weights
    ∀ j k, W.l1.w j k = S.weights.l1.w j k + lr * (G.l1.w j k / (|G.l1.w j k| + 1 / 100000000)) ∧
      W.l2.w j k = S.weights.l2.w j k + lr * (G.l2.w j k / (|G.l2.w j k| + 1 / 100000000)) ∧
      W.l3.w j k = S.weights.l3.w j k + lr * (G.l3.w j k / (|G.l3.w j k| + 1 / 100000000)) ∧
      W.l1.b j = S.weights.l1.b j + lr * (G.l1.b j / (|G.l1.b j| + 1 / 100000000)) ∧
      W.l2.b j = S.weights.l2.b j + lr * (G.l2.b j / (|G.l2.b j| + 1 / 100000000)) ∧
      W.l3.b j = S.weights.l3.b j + lr * (G.l3.b j / (|G.l3.b j| + 1 / 100000000)) := by
  intro S G W j k
  have z : (Arith.ofRat 0 : ℝ) = 0 := by simp
  have key : ∀ p g : ℝ, Arith.add p (adamStep lr beta1 beta2 (blend beta1 (Arith.ofRat 0) g)
      (blend beta2 (Arith.ofRat 0) (Arith.pow g 2)) (0 + 1)) =
      p + lr * (g / (|g| + 1 / 100000000)) := fun p g => by
    rw [z, zero_add]
    exact C57_first_step lr beta1 beta2 p g h1 h2
  exact ⟨key _ _, key _ _, key _ _, key _ _, key _ _, key _ _⟩

/-- A network and a batch for which no input of an activation is zero. -/
example : Smooth ⟨1, 1, 2⟩
    (NetState.fresh ⟨1, 1, 2⟩ (1 / 100) (1 / 2) (9 / 10) (fun _ _ => 1) : NetState ℝ).weights
    ⟨1, fun _ _ => 1, fun _ => 0, fun _ => 1⟩ := by
  intro i hi j hj
  simp only [pre1, pre2, affine_eq, NetState.fresh, LayerState.fresh, NetState.weights,
    Finset.sum_range_one, relu_eq, real_ofRat]
  norm_num

end Apollo.Props
