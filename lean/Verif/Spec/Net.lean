import Verif.Model.Net

/-!
# Specification of the network of PolicyNet

Pure functions of the parameters and the input, without arrays, batches or memory.  They use the
operations of the arithmetic only.
-/

namespace Apollo.Spec.Net

open Apollo.Arith

variable {α : Type} [Arith α]

/-- `0 + f 0 + f 1 + ... + f (n - 1)`, added from the left. -/
def sumTo : ℕ → (ℕ → α) → α
  | 0, _ => ofRat 0
  | n + 1, f => add (sumTo n f) (f n)

/-- The parameters of a layer: `w j k` is the weight of input `k` for output `j`. -/
structure Layer (α : Type) where
  w : ℕ → ℕ → α
  b : ℕ → α

/-- `M x + b` for inputs of length `n`. -/
def affine (n : ℕ) (L : Layer α) (x : ℕ → α) (j : ℕ) : α :=
  add (sumTo n fun k => mul (L.w j k) (x k)) (L.b j)

/-- Negative numbers become zero. -/
def relu (x : ℕ → α) (j : ℕ) : α := if lt (x j) (ofRat 0) then ofRat 0 else x j

/-- The greatest of `x 0, ..., x (n - 1)`, for `n > 0`. -/
def maxTo : ℕ → (ℕ → α) → α
  | 0, x => x 0
  | n + 1, x => if lt (maxTo n x) (x n) then x n else maxTo n x

/-- The exponential of the distance to the greatest. -/
def expo (n : ℕ) (x : ℕ → α) (j : ℕ) : α := exp (sub (x j) (maxTo n x))

/-- Shares of the exponentials. -/
def softmax (n : ℕ) (x : ℕ → α) (j : ℕ) : α := div (expo n x j) (sumTo n (expo n x))

/-- The sizes and the parameters of the three layers. -/
structure Weights (α : Type) where
  l1 : Layer α
  l2 : Layer α
  l3 : Layer α

/-- The sizes of a network. -/
structure Shape where
  input : ℕ
  hidden : ℕ
  output : ℕ

/-- Inputs of the first activation. -/
def pre1 (s : Shape) (W : Weights α) (x : ℕ → α) : ℕ → α := affine s.input W.l1 x

/-- Inputs of the second activation. -/
def pre2 (s : Shape) (W : Weights α) (x : ℕ → α) : ℕ → α :=
  affine s.hidden W.l2 (relu (pre1 s W x))

/-- Inputs of the softmax. -/
def pre3 (s : Shape) (W : Weights α) (x : ℕ → α) : ℕ → α :=
  affine s.hidden W.l3 (relu (pre2 s W x))

/-- The probabilities of the actions for an input. -/
def probs (s : Shape) (W : Weights α) (x : ℕ → α) : ℕ → α := softmax s.output (pre3 s W x)

/-! ## Gradients

For a batch of `B` inputs `x i` with actions `a i` and rewards `r i`. -/

/-- Gradient at the inputs of the softmax. -/
def lossGrad (B : ℕ) (p : ℕ → ℕ → α) (a : ℕ → ℤ) (r : ℕ → α) (i j : ℕ) : α :=
  let g := div (mul (neg (r i)) (p i j)) (ofRat B)
  if (j : ℤ) = a i then add g (div (r i) (ofRat B)) else g

/-- Gradient at the weights of a layer with inputs `x`, when that at its outputs is `c`. -/
def gradW (B : ℕ) (c x : ℕ → ℕ → α) (j k : ℕ) : α := sumTo B fun i => mul (c i j) (x i k)

/-- Gradient at the biases. -/
def gradB (B : ℕ) (c : ℕ → ℕ → α) (j : ℕ) : α := sumTo B fun i => c i j

/-- Gradient at the inputs of a layer with `n` outputs. -/
def gradX (n : ℕ) (L : Layer α) (c : ℕ → ℕ → α) (i k : ℕ) : α :=
  sumTo n fun j => mul (c i j) (L.w j k)

/-- Gradient at the inputs `x` of an activation. -/
def gate (x c : ℕ → ℕ → α) (i j : ℕ) : α :=
  mul (c i j) (ofRat (if signbit (neg (x i j)) then 1 else 0))

/-- A batch. -/
structure Batch (α : Type) where
  size : ℕ
  x : ℕ → ℕ → α
  action : ℕ → ℤ
  reward : ℕ → α

/-- Gradient at the outputs of the third layer. -/
def back3 (s : Shape) (W : Weights α) (b : Batch α) : ℕ → ℕ → α :=
  lossGrad b.size (fun i => probs s W (b.x i)) b.action b.reward

/-- Gradient at the outputs of the second layer. -/
def back2 (s : Shape) (W : Weights α) (b : Batch α) : ℕ → ℕ → α :=
  gate (fun i => pre2 s W (b.x i)) (gradX s.output W.l3 (back3 s W b))

/-- Gradient at the outputs of the first layer. -/
def back1 (s : Shape) (W : Weights α) (b : Batch α) : ℕ → ℕ → α :=
  gate (fun i => pre1 s W (b.x i)) (gradX s.hidden W.l2 (back2 s W b))

/-- The gradients of the parameters. -/
def grads (s : Shape) (W : Weights α) (b : Batch α) : Weights α where
  l1 := ⟨gradW b.size (back1 s W b) b.x, gradB b.size (back1 s W b)⟩
  l2 := ⟨gradW b.size (back2 s W b) (fun i => relu (pre1 s W (b.x i))), gradB b.size (back2 s W b)⟩
  l3 := ⟨gradW b.size (back3 s W b) (fun i => relu (pre2 s W (b.x i))), gradB b.size (back3 s W b)⟩

/-! ## Updates -/

/-- A layer during training: parameters, the moving averages of their gradients and of the squares of
their gradients, and the number of updates. -/
structure LayerState (α : Type) where
  p : Layer α
  m : Layer α
  v : Layer α
  t : ℤ

/-- Moving average. -/
def blend (beta a b : α) : α := add (mul beta a) (mul (sub (ofRat 1) beta) b)

/-- The step of Adam for averages `m` and `v` after `t` updates. -/
def adamStep (lr beta1 beta2 m v : α) (t : ℤ) : α :=
  div (mul lr (div m (sub (ofRat 1) (pow beta1 t))))
    (add (sqrt (div v (sub (ofRat 1) (pow beta2 t)))) (ofRat (1 / 100000000)))

/-- A layer after an update with gradients `g`. -/
def LayerState.update (lr beta1 beta2 : α) (S : LayerState α) (g : Layer α) : LayerState α :=
  let m : Layer α := ⟨fun j k => blend beta1 (S.m.w j k) (g.w j k),
    fun j => blend beta1 (S.m.b j) (g.b j)⟩
  let v : Layer α := ⟨fun j k => blend beta2 (S.v.w j k) (pow (g.w j k) 2),
    fun j => blend beta2 (S.v.b j) (pow (g.b j) 2)⟩
  { p := ⟨fun j k => add (S.p.w j k) (adamStep lr beta1 beta2 (m.w j k) (v.w j k) (S.t + 1)),
      fun j => add (S.p.b j) (adamStep lr beta1 beta2 (m.b j) (v.b j) (S.t + 1))⟩
    m := m
    v := v
    t := S.t + 1 }

/-- The three layers during training, and the constants of the optimizer. -/
structure NetState (α : Type) where
  l1 : LayerState α
  l2 : LayerState α
  l3 : LayerState α
  lr : α
  beta1 : α
  beta2 : α

/-- The parameters. -/
def NetState.weights (S : NetState α) : Weights α := ⟨S.l1.p, S.l2.p, S.l3.p⟩

/-- A training step. -/
def NetState.train (s : Shape) (S : NetState α) (b : Batch α) : NetState α :=
  let g := grads s S.weights b
  { S with
    l1 := S.l1.update S.lr S.beta1 S.beta2 g.l1
    l2 := S.l2.update S.lr S.beta1 S.beta2 g.l2
    l3 := S.l3.update S.lr S.beta1 S.beta2 g.l3 }

end Apollo.Spec.Net
