import Verif.Proofs.NetReal
import Verif.Spec.Gradient
import Mathlib.Analysis.SpecialFunctions.Log.Deriv
import Mathlib.Analysis.SpecialFunctions.ExpDeriv

/-!
# The gradients of the specification are derivatives
-/

namespace Apollo.Spec.Net

open Finset Arith

/-- The rate of change of the parameters along a curve. -/
structure Moves (W : ℝ → Weights ℝ) (D : Weights ℝ) (t : ℝ) : Prop where
  w1 : ∀ j k, HasDerivAt (fun u => (W u).l1.w j k) (D.l1.w j k) t
  b1 : ∀ j, HasDerivAt (fun u => (W u).l1.b j) (D.l1.b j) t
  w2 : ∀ j k, HasDerivAt (fun u => (W u).l2.w j k) (D.l2.w j k) t
  b2 : ∀ j, HasDerivAt (fun u => (W u).l2.b j) (D.l2.b j) t
  w3 : ∀ j k, HasDerivAt (fun u => (W u).l3.w j k) (D.l3.w j k) t
  b3 : ∀ j, HasDerivAt (fun u => (W u).l3.b j) (D.l3.b j) t

/-- Scalar product for a layer. -/
def dot (m n : ℕ) (G D : Layer ℝ) : ℝ :=
  ∑ j ∈ range m, ∑ k ∈ range n, G.w j k * D.w j k + ∑ j ∈ range m, G.b j * D.b j

/-- Change of an affine map. -/
theorem affine_deriv {n : ℕ} {L : ℝ → Layer ℝ} {D : Layer ℝ} {x : ℝ → ℕ → ℝ} {x' : ℕ → ℝ} {t : ℝ}
    {j : ℕ} (hw : ∀ k, HasDerivAt (fun u => (L u).w j k) (D.w j k) t)
    (hb : HasDerivAt (fun u => (L u).b j) (D.b j) t)
    (hx : ∀ k < n, HasDerivAt (fun u => x u k) (x' k) t) :
    HasDerivAt (fun u => affine n (L u) (x u) j)
      (∑ k ∈ range n, (D.w j k * x t k + (L t).w j k * x' k) + D.b j) t := by
  simp only [affine_eq]
  apply HasDerivAt.add _ hb
  apply HasDerivAt.fun_sum
  intro k hk
  exact (hw k).mul (hx k (mem_range.1 hk))

theorem relu_deriv {x : ℝ → ℕ → ℝ} {x' : ℝ} {t : ℝ} {j : ℕ} (hx : HasDerivAt (fun u => x u j) x' t)
    (h0 : x t j ≠ 0) :
    HasDerivAt (fun u => relu (x u) j) (x' * if 0 ≤ x t j then 1 else 0) t := by
  simp only [relu_eq]
  rcases lt_or_gt_of_ne h0 with h | h
  · rw [if_neg (not_le.2 h), mul_zero]
    apply (hasDerivAt_const t (0 : ℝ)).congr_of_eventuallyEq
    filter_upwards [hx.continuousAt.eventually_lt continuousAt_const h] with u hu
    exact max_eq_left hu.le
  · rw [if_pos h.le, mul_one]
    apply hx.congr_of_eventuallyEq
    filter_upwards [continuousAt_const.eventually_lt hx.continuousAt h] with u hu
    exact max_eq_right hu.le

theorem logSoftmax_deriv {n : ℕ} {z : ℝ → ℕ → ℝ} {z' : ℕ → ℝ} {t : ℝ}
    (hz : ∀ j < n, HasDerivAt (fun u => z u j) (z' j) t) {a : ℕ} (ha : a < n) :
    HasDerivAt (fun u => Real.log (softmax n (z u) a))
      (∑ j ∈ range n, ((if j = a then 1 else 0) - softmax n (z t) j) * z' j) t := by
  have hn : 0 < n := by omega
  have hpos : ∀ u, 0 < ∑ k ∈ range n, Real.exp (z u k) := fun u =>
    sum_pos (fun _ _ => Real.exp_pos _) ⟨0, mem_range.2 hn⟩
  have e : ∀ u, Real.log (softmax n (z u) a) =
      z u a - Real.log (∑ k ∈ range n, Real.exp (z u k)) := fun u => by
    rw [softmax_eq, Real.log_div (Real.exp_ne_zero _) (hpos u).ne', Real.log_exp]
  rw [funext e]
  have hsum : HasDerivAt (fun u => ∑ k ∈ range n, Real.exp (z u k))
      (∑ k ∈ range n, Real.exp (z t k) * z' k) t := by
    apply HasDerivAt.fun_sum
    intro k hk
    exact (hz k (mem_range.1 hk)).exp
  refine ((hz a ha).fun_sub (hsum.log (hpos t).ne')).congr_deriv ?_
  simp only [sub_mul, sum_sub_distrib, ite_mul, one_mul, zero_mul, sum_ite_eq', mem_range, ha,
    if_true, softmax_eq, sum_div]
  congr 1
  apply sum_congr rfl
  intro k _
  ring

/-- Passing a gradient through a layer. -/
theorem back_layer (m n : ℕ) (c : ℕ → ℝ) (W D : Layer ℝ) (x x' : ℕ → ℝ) :
    ∑ j ∈ range m, c j * (∑ k ∈ range n, (D.w j k * x k + W.w j k * x' k) + D.b j) =
      dot m n ⟨fun j k => c j * x k, c⟩ D +
        ∑ k ∈ range n, (∑ j ∈ range m, c j * W.w j k) * x' k := by
  unfold dot
  have h : ∑ k ∈ range n, (∑ j ∈ range m, c j * W.w j k) * x' k =
      ∑ j ∈ range m, ∑ k ∈ range n, c j * W.w j k * x' k := by
    rw [sum_comm]
    exact sum_congr rfl fun k _ => sum_mul _ _ _
  rw [h, ← sum_add_distrib, ← sum_add_distrib]
  apply sum_congr rfl
  intro j _
  rw [mul_add, mul_sum, add_right_comm, ← sum_add_distrib]
  congr 1
  apply sum_congr rfl
  intro k _
  ring

theorem back3_eq (s : Shape) (W : Weights ℝ) (b : Batch ℝ) (i j : ℕ) :
    back3 s W b i j = b.reward i / b.size *
      ((if (j : ℤ) = b.action i then 1 else 0) - probs s W (b.x i) j) := by
  unfold back3 lossGrad
  dsimp only
  split <;> simp <;> ring

theorem gate_eq (x c : ℕ → ℕ → ℝ) (i j : ℕ) :
    gate x c i j = c i j * if 0 ≤ x i j then 1 else 0 := by
  unfold gate
  by_cases h : 0 ≤ x i j
  · rw [if_pos ((real_signbit _).2 (by simpa using h)), if_pos h]
    simp
  · rw [if_neg (fun h' => h (by simpa using (real_signbit _).1 h')), if_neg h]
    simp

theorem gradX_eq (n : ℕ) (L : Layer ℝ) (c : ℕ → ℕ → ℝ) (i k : ℕ) :
    gradX n L c i k = ∑ j ∈ range n, c i j * L.w j k := sumTo_eq _ _

/-- For one sample: the change of its term is the product of its gradients with the changes of the
parameters. -/
theorem sample_deriv {s : Shape} {W : ℝ → Weights ℝ} {D : Weights ℝ} {t : ℝ} (h : Moves W D t)
    {b : Batch ℝ} {i : ℕ} (hi : i < b.size) (hsm : Smooth s (W t) b)
    (ha : 0 ≤ b.action i ∧ b.action i < s.output) :
    HasDerivAt (fun u => b.reward i / b.size *
        Real.log (probs s (W u) (b.x i) (b.action i).toNat))
      (dot s.hidden s.input ⟨fun j k => back1 s (W t) b i j * b.x i k, back1 s (W t) b i⟩ D.l1 +
       dot s.hidden s.hidden ⟨fun j k => back2 s (W t) b i j * relu (pre1 s (W t) (b.x i)) k,
        back2 s (W t) b i⟩ D.l2 +
       dot s.output s.hidden ⟨fun j k => back3 s (W t) b i j * relu (pre2 s (W t) (b.x i)) k,
        back3 s (W t) b i⟩ D.l3) t := by
  set x := b.x i with hx
  -- first layer
  have d1 : ∀ j, HasDerivAt (fun u => pre1 s (W u) x j)
      (∑ k ∈ range s.input, (D.l1.w j k * x k + (W t).l1.w j k * 0) + D.l1.b j) t := fun j =>
    affine_deriv (L := fun u => (W u).l1) (x := fun _ => x) (x' := fun _ => 0) (h.w1 j) (h.b1 j)
      fun k _ => hasDerivAt_const t (x k)
  set p1 : ℕ → ℝ := fun j =>
    ∑ k ∈ range s.input, (D.l1.w j k * x k + (W t).l1.w j k * 0) + D.l1.b j with hp1
  have r1 : ∀ j < s.hidden, HasDerivAt (fun u => relu (pre1 s (W u) x) j)
      (p1 j * if 0 ≤ pre1 s (W t) x j then 1 else 0) t := fun j hj =>
    relu_deriv (x := fun u => pre1 s (W u) x) (d1 j) (hsm i hi j hj).1
  -- second layer
  set h1 : ℕ → ℝ := fun j => p1 j * if 0 ≤ pre1 s (W t) x j then 1 else 0 with hh1
  have d2 : ∀ j, HasDerivAt (fun u => pre2 s (W u) x j)
      (∑ k ∈ range s.hidden, (D.l2.w j k * relu (pre1 s (W t) x) k + (W t).l2.w j k * h1 k) +
        D.l2.b j) t := fun j =>
    affine_deriv (L := fun u => (W u).l2) (x := fun u => relu (pre1 s (W u) x)) (h.w2 j) (h.b2 j) r1
  set p2 : ℕ → ℝ := fun j => ∑ k ∈ range s.hidden,
    (D.l2.w j k * relu (pre1 s (W t) x) k + (W t).l2.w j k * h1 k) + D.l2.b j with hp2
  have r2 : ∀ j < s.hidden, HasDerivAt (fun u => relu (pre2 s (W u) x) j)
      (p2 j * if 0 ≤ pre2 s (W t) x j then 1 else 0) t := fun j hj =>
    relu_deriv (x := fun u => pre2 s (W u) x) (d2 j) (hsm i hi j hj).2
  -- third layer
  set h2 : ℕ → ℝ := fun j => p2 j * if 0 ≤ pre2 s (W t) x j then 1 else 0 with hh2
  have d3 : ∀ j, HasDerivAt (fun u => pre3 s (W u) x j)
      (∑ k ∈ range s.hidden, (D.l3.w j k * relu (pre2 s (W t) x) k + (W t).l3.w j k * h2 k) +
        D.l3.b j) t := fun j =>
    affine_deriv (L := fun u => (W u).l3) (x := fun u => relu (pre2 s (W u) x)) (h.w3 j) (h.b3 j) r2
  set p3 : ℕ → ℝ := fun j => ∑ k ∈ range s.hidden,
    (D.l3.w j k * relu (pre2 s (W t) x) k + (W t).l3.w j k * h2 k) + D.l3.b j with hp3
  have hlog := (logSoftmax_deriv (n := s.output) (z := fun u => pre3 s (W u) x)
    (fun j _ => d3 j) (a := (b.action i).toNat) (by omega)).const_mul (b.reward i / b.size)
  have hval : b.reward i / b.size * ∑ j ∈ range s.output,
      ((if j = (b.action i).toNat then 1 else 0) - softmax s.output (pre3 s (W t) x) j) * p3 j =
      ∑ j ∈ range s.output, back3 s (W t) b i j * p3 j := by
    rw [mul_sum]
    apply sum_congr rfl
    intro j _
    rw [back3_eq, ← mul_assoc]
    have : ((j : ℤ) = b.action i) ↔ j = (b.action i).toNat := by omega
    simp only [this]
    rfl
  rw [hval] at hlog
  refine hlog.congr_deriv ?_
  -- backwards
  have k3 := back_layer s.output s.hidden (back3 s (W t) b i) (W t).l3 D.l3
    (relu (pre2 s (W t) x)) h2
  have k2 := back_layer s.hidden s.hidden (back2 s (W t) b i) (W t).l2 D.l2
    (relu (pre1 s (W t) x)) h1
  have k1 := back_layer s.hidden s.input (back1 s (W t) b i) (W t).l1 D.l1 x fun _ => 0
  have e2 : ∑ k ∈ range s.hidden, (∑ j ∈ range s.output, back3 s (W t) b i j * (W t).l3.w j k) *
      h2 k = ∑ k ∈ range s.hidden, back2 s (W t) b i k * p2 k := by
    apply sum_congr rfl
    intro k _
    rw [back2, gate_eq, gradX_eq, hh2]
    ring
  have e1 : ∑ k ∈ range s.hidden, (∑ j ∈ range s.hidden, back2 s (W t) b i j * (W t).l2.w j k) *
      h1 k = ∑ k ∈ range s.hidden, back1 s (W t) b i k * p1 k := by
    apply sum_congr rfl
    intro k _
    rw [back1, gate_eq, gradX_eq, hh1]
    ring
  rw [e2] at k3
  rw [e1] at k2
  simp only [mul_zero, sum_const_zero, add_zero] at k1
  change _ = _ at k3
  have e0 : ∑ k ∈ range s.hidden, back1 s (W t) b i k * p1 k =
      dot s.hidden s.input ⟨fun j k => back1 s (W t) b i j * x k, back1 s (W t) b i⟩ D.l1 := by
    rw [← k1]
    apply sum_congr rfl
    intro j _
    simp only [hp1, mul_zero, add_zero]
  rw [k3, k2, e0]
  ring

theorem dot_sum {ι : Type} (I : Finset ι) (m n : ℕ) (G : ι → Layer ℝ) (D : Layer ℝ) :
    ∑ i ∈ I, dot m n (G i) D =
      dot m n ⟨fun j k => ∑ i ∈ I, (G i).w j k, fun j => ∑ i ∈ I, (G i).b j⟩ D := by
  unfold dot
  rw [sum_add_distrib]
  congr 1
  · rw [sum_comm]
    apply sum_congr rfl
    intro j _
    rw [sum_comm]
    apply sum_congr rfl
    intro k _
    rw [sum_mul]
  · rw [sum_comm]
    apply sum_congr rfl
    intro j _
    rw [sum_mul]

/-- The change of the objective along any curve of parameters. -/
theorem objective_deriv {s : Shape} {W : ℝ → Weights ℝ} {D : Weights ℝ} {t : ℝ} (h : Moves W D t)
    {b : Batch ℝ} (hsm : Smooth s (W t) b)
    (ha : ∀ i < b.size, 0 ≤ b.action i ∧ b.action i < s.output) :
    HasDerivAt (fun u => objective s b (W u))
      (dot s.hidden s.input (grads s (W t) b).l1 D.l1 +
       dot s.hidden s.hidden (grads s (W t) b).l2 D.l2 +
       dot s.output s.hidden (grads s (W t) b).l3 D.l3) t := by
  have hs := HasDerivAt.fun_sum (u := range b.size) fun i hi =>
    sample_deriv h (mem_range.1 hi) hsm (ha i (mem_range.1 hi))
  have e : (fun u => objective s b (W u)) = fun u => ∑ i ∈ range b.size, b.reward i / b.size *
      Real.log (probs s (W u) (b.x i) (b.action i).toNat) := by
    funext u
    unfold objective
    rw [sum_div]
    apply sum_congr rfl
    intro i _
    ring
  rw [e]
  refine hs.congr_deriv ?_
  rw [sum_add_distrib, sum_add_distrib, dot_sum, dot_sum, dot_sum]
  have gW : ∀ c x : ℕ → ℕ → ℝ, gradW b.size c x =
      fun j k => ∑ i ∈ range b.size, c i j * x i k := fun c x => by
    funext j k
    exact sumTo_eq _ _
  have gB : ∀ c : ℕ → ℕ → ℝ, gradB b.size c = fun j => ∑ i ∈ range b.size, c i j := fun c => by
    funext j
    exact sumTo_eq _ _
  simp only [grads, gW, gB]

/-! ## Single parameters -/

/-- The layer with one weight changing. -/
def unitW (j k : ℕ) : Layer ℝ := ⟨fun j' k' => if j' = j ∧ k' = k then 1 else 0, fun _ => 0⟩

/-- The layer with one bias changing. -/
def unitB (j : ℕ) : Layer ℝ := ⟨fun _ _ => 0, fun j' => if j' = j then 1 else 0⟩

/-- Nothing changes. -/
def unit0 : Layer ℝ := ⟨fun _ _ => 0, fun _ => 0⟩

theorem dot_unit0 (m n : ℕ) (G : Layer ℝ) : dot m n G unit0 = 0 := by simp [dot, unit0]

theorem dot_unitW {m n j k : ℕ} (hj : j < m) (hk : k < n) (G : Layer ℝ) :
    dot m n G (unitW j k) = G.w j k := by
  unfold dot unitW
  simp only [mul_zero, sum_const_zero, add_zero, mul_ite, mul_one]
  rw [sum_eq_single j, sum_eq_single k]
  · simp
  · intro k' _ h; simp [h]
  · intro h; exact absurd (mem_range.2 hk) h
  · intro j' _ h; simp [h]
  · intro h; exact absurd (mem_range.2 hj) h

theorem dot_unitB {m n j : ℕ} (hj : j < m) (G : Layer ℝ) : dot m n G (unitB j) = G.b j := by
  unfold dot unitB
  simp [hj]

theorem setW_moves (L : Layer ℝ) (j k : ℕ) (t : ℝ) :
    (∀ j' k', HasDerivAt (fun u => (L.setW j k u).w j' k') ((unitW j k).w j' k') t) ∧
    ∀ j', HasDerivAt (fun u => (L.setW j k u).b j') ((unitW j k).b j') t := by
  refine ⟨fun j' k' => ?_, fun j' => hasDerivAt_const t _⟩
  unfold Layer.setW unitW
  dsimp only
  split
  · exact hasDerivAt_id t
  · exact hasDerivAt_const t _

theorem setB_moves (L : Layer ℝ) (j : ℕ) (t : ℝ) :
    (∀ j' k', HasDerivAt (fun u => (L.setB j u).w j' k') ((unitB j).w j' k') t) ∧
    ∀ j', HasDerivAt (fun u => (L.setB j u).b j') ((unitB j).b j') t := by
  refine ⟨fun j' k' => hasDerivAt_const t _, fun j' => ?_⟩
  unfold Layer.setB unitB
  dsimp only
  split
  · exact hasDerivAt_id t
  · exact hasDerivAt_const t _

theorem setW_self (L : Layer ℝ) (j k : ℕ) : L.setW j k (L.w j k) = L := by
  unfold Layer.setW
  congr 1
  funext j' k'
  split
  next h => rw [h.1, h.2]
  next => rfl

theorem setB_self (L : Layer ℝ) (j : ℕ) : L.setB j (L.b j) = L := by
  unfold Layer.setB
  congr 1
  funext j'
  split
  next h => rw [h]
  next => rfl

theorem still (L : Layer ℝ) (t : ℝ) :
    (∀ j k, HasDerivAt (fun _ : ℝ => L.w j k) (unit0.w j k) t) ∧
    ∀ j, HasDerivAt (fun _ : ℝ => L.b j) (unit0.b j) t :=
  ⟨fun _ _ => hasDerivAt_const t _, fun _ => hasDerivAt_const t _⟩

/-- Each gradient is the partial derivative of the objective. -/
theorem grads_partial {s : Shape} {W : Weights ℝ} {b : Batch ℝ} (hsm : Smooth s W b)
    (ha : ∀ i < b.size, 0 ≤ b.action i ∧ b.action i < s.output) :
    (∀ j < s.hidden, ∀ k < s.input,
      HasDerivAt (fun u => objective s b { W with l1 := W.l1.setW j k u })
        ((grads s W b).l1.w j k) (W.l1.w j k)) ∧
    (∀ j < s.hidden, HasDerivAt (fun u => objective s b { W with l1 := W.l1.setB j u })
        ((grads s W b).l1.b j) (W.l1.b j)) ∧
    (∀ j < s.hidden, ∀ k < s.hidden,
      HasDerivAt (fun u => objective s b { W with l2 := W.l2.setW j k u })
        ((grads s W b).l2.w j k) (W.l2.w j k)) ∧
    (∀ j < s.hidden, HasDerivAt (fun u => objective s b { W with l2 := W.l2.setB j u })
        ((grads s W b).l2.b j) (W.l2.b j)) ∧
    (∀ j < s.output, ∀ k < s.hidden,
      HasDerivAt (fun u => objective s b { W with l3 := W.l3.setW j k u })
        ((grads s W b).l3.w j k) (W.l3.w j k)) ∧
    (∀ j < s.output, HasDerivAt (fun u => objective s b { W with l3 := W.l3.setB j u })
        ((grads s W b).l3.b j) (W.l3.b j)) := by
  refine ⟨fun j hj k hk => ?_, fun j hj => ?_, fun j hj k hk => ?_, fun j hj => ?_,
    fun j hj k hk => ?_, fun j hj => ?_⟩
  · have hm : Moves (fun u => { W with l1 := W.l1.setW j k u }) ⟨unitW j k, unit0, unit0⟩
        (W.l1.w j k) := ⟨(setW_moves _ _ _ _).1, (setW_moves _ _ _ _).2, (still _ _).1,
          (still _ _).2, (still _ _).1, (still _ _).2⟩
    have := objective_deriv hm (s := s) (b := b) (by rw [setW_self]; exact hsm) ha
    rwa [setW_self, dot_unitW hj hk, dot_unit0, dot_unit0, add_zero, add_zero] at this
  · have hm : Moves (fun u => { W with l1 := W.l1.setB j u }) ⟨unitB j, unit0, unit0⟩
        (W.l1.b j) := ⟨(setB_moves _ _ _).1, (setB_moves _ _ _).2, (still _ _).1,
          (still _ _).2, (still _ _).1, (still _ _).2⟩
    have := objective_deriv hm (s := s) (b := b) (by rw [setB_self]; exact hsm) ha
    rwa [setB_self, dot_unitB hj, dot_unit0, dot_unit0, add_zero, add_zero] at this
  · have hm : Moves (fun u => { W with l2 := W.l2.setW j k u }) ⟨unit0, unitW j k, unit0⟩
        (W.l2.w j k) := ⟨(still _ _).1, (still _ _).2, (setW_moves _ _ _ _).1,
          (setW_moves _ _ _ _).2, (still _ _).1, (still _ _).2⟩
    have := objective_deriv hm (s := s) (b := b) (by rw [setW_self]; exact hsm) ha
    rwa [setW_self, dot_unitW hj hk, dot_unit0, dot_unit0, add_zero, zero_add] at this
  · have hm : Moves (fun u => { W with l2 := W.l2.setB j u }) ⟨unit0, unitB j, unit0⟩
        (W.l2.b j) := ⟨(still _ _).1, (still _ _).2, (setB_moves _ _ _).1,
          (setB_moves _ _ _).2, (still _ _).1, (still _ _).2⟩
    have := objective_deriv hm (s := s) (b := b) (by rw [setB_self]; exact hsm) ha
    rwa [setB_self, dot_unitB hj, dot_unit0, dot_unit0, add_zero, zero_add] at this
  · have hm : Moves (fun u => { W with l3 := W.l3.setW j k u }) ⟨unit0, unit0, unitW j k⟩
        (W.l3.w j k) := ⟨(still _ _).1, (still _ _).2, (still _ _).1, (still _ _).2,
          (setW_moves _ _ _ _).1, (setW_moves _ _ _ _).2⟩
    have := objective_deriv hm (s := s) (b := b) (by rw [setW_self]; exact hsm) ha
    rwa [setW_self, dot_unitW hj hk, dot_unit0, dot_unit0, zero_add, zero_add] at this
  · have hm : Moves (fun u => { W with l3 := W.l3.setB j u }) ⟨unit0, unit0, unitB j⟩
        (W.l3.b j) := ⟨(still _ _).1, (still _ _).2, (still _ _).1, (still _ _).2,
          (setB_moves _ _ _).1, (setB_moves _ _ _).2⟩
    have := objective_deriv hm (s := s) (b := b) (by rw [setB_self]; exact hsm) ha
    rwa [setB_self, dot_unitB hj, dot_unit0, dot_unit0, zero_add, zero_add] at this

end Apollo.Spec.Net
