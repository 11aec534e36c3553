import Verif.Base.Res
import Mathlib.Data.Rat.Defs

/-!
# Model of the neural network of PolicyNet

Source: src/models/PolicyNet.cpp:20-413.

The arithmetic of `double` is a parameter (`Arith`): the network can be run in exact real arithmetic
or in any model of floating point.  Arrays from `new` are lists of cells; a cell is `none` until it is
written, reading it before and every access outside an array is undefined behaviour.  A null pointer
is the empty array.  Sizes are natural numbers; overflow of `int` is not modelled.
-/

namespace Apollo

/-- The operations on `double` which PolicyNet uses.  Literals and integers are converted by
`ofRat`. -/
class Arith (α : Type) where
  ofRat : ℚ → α
  add : α → α → α
  sub : α → α → α
  mul : α → α → α
  div : α → α → α
  neg : α → α
  lt : α → α → Bool
  exp : α → α
  sqrt : α → α
  pow : α → ℤ → α
  signbit : α → Bool

namespace Net

open Arith

variable {α : Type} [Arith α]

/-- `std::max(a, b)`. -/
def max' (a b : α) : α := if lt a b then b else a

/-- An array of `double`s on the heap. -/
abbrev Buf (α : Type) := List (Option α)

namespace Buf

/-- `new double[n]`. -/
def new (n : ℕ) : Buf α := List.replicate n none

/-- `new double[n]()`. -/
def zeros (n : ℕ) : Buf α := List.replicate n (some (ofRat 0))

/-- `b[i]` as a value. -/
def read (b : Buf α) (i : ℕ) : Res α :=
  match b[i]? with
  | none => .error (.ub .outOfBounds)
  | some none => .error (.ub .uninit)
  | some (some v) => .ok v

/-- `b[i] = v`. -/
def write (b : Buf α) (i : ℕ) (v : α) : Res (Buf α) :=
  if i < b.length then .ok (b.set i (some v)) else .error (.ub .outOfBounds)

end Buf

/-- `for (int i = 0; i < n; ++i)`. -/
def forN {σ : Type} : ℕ → (ℕ → σ → Res σ) → σ → Res σ
  | 0, _, s => .ok s
  | n + 1, f, s => do
    let s ← forN n f s
    f n s

/-! ## Fully connected layers -/

/-- src/models/PolicyNet.cpp:183-201: the members of `FCLayer`. -/
structure FC (α : Type) where
  inputSize : ℕ
  outputSize : ℕ
  weights : Buf α
  bias : Buf α
  stepNum : ℤ
  weightsM : Buf α
  weightsV : Buf α
  weightsGrad : Buf α
  biasM : Buf α
  biasV : Buf α
  biasGrad : Buf α
  outputs : Buf α
  inputGrad : Buf α
  maxBatchSize : ℕ

namespace FC

/-- src/models/PolicyNet.cpp:23-51.  `init i` is the number drawn for weight `i`. -/
def new (inputSize outputSize : ℕ) (init : ℕ → α) : FC α where
  inputSize := inputSize
  outputSize := outputSize
  weights := (List.range (outputSize * inputSize)).map fun i => some (init i)
  bias := Buf.zeros outputSize
  stepNum := 0
  weightsM := Buf.zeros (outputSize * inputSize)
  weightsV := Buf.zeros (outputSize * inputSize)
  weightsGrad := Buf.zeros (outputSize * inputSize)
  biasM := Buf.zeros outputSize
  biasV := Buf.zeros outputSize
  biasGrad := Buf.zeros outputSize
  outputs := []
  inputGrad := []
  maxBatchSize := 0

/-- src/models/PolicyNet.cpp:74-93: arrays for the batch, the outputs zeroed. -/
def prepare (L : FC α) (batchSize : ℕ) : Res (FC α) :=
  if L.maxBatchSize < batchSize then
    .ok { L with
      outputs := Buf.zeros (batchSize * L.outputSize)
      inputGrad := Buf.new (batchSize * L.inputSize)
      maxBatchSize := batchSize }
  else do
    let o ← forN (batchSize * L.outputSize) (fun i (o : Buf α) => o.write i (ofRat 0)) L.outputs
    .ok { L with outputs := o }

/-- src/models/PolicyNet.cpp:98-101: the innermost loop. -/
def forwardCell (L : FC α) (inputs : Buf α) (i j : ℕ) (o : Buf α) : Res (Buf α) :=
  forN L.inputSize (fun k o => do
    let w ← L.weights.read (j * L.inputSize + k)
    let x ← inputs.read (i * L.inputSize + k)
    let y ← Buf.read o (i * L.outputSize + j)
    Buf.write o (i * L.outputSize + j) (add y (mul w x))) o

/-- src/models/PolicyNet.cpp:72-107.  The pointer returned is `outputs`. -/
def forward (L : FC α) (inputs : Buf α) (batchSize : ℕ) : Res (FC α) := do
  let L ← L.prepare batchSize
  let o ← forN batchSize (fun i o => forN L.outputSize (fun j o => do
    let o ← L.forwardCell inputs i j o
    let y ← Buf.read o (i * L.outputSize + j)
    let b ← L.bias.read j
    Buf.write o (i * L.outputSize + j) (add y b)) o) L.outputs
  .ok { L with outputs := o }

/-- The gradient arrays. -/
structure Grads (α : Type) where
  input : Buf α
  weights : Buf α
  bias : Buf α

/-- src/models/PolicyNet.cpp:128-133: the body of the innermost loop. -/
def backwardCell (L : FC α) (inputs chain : Buf α) (i j k : ℕ) (g : Grads α) : Res (Grads α) := do
  let c ← chain.read (i * L.outputSize + j)
  let x ← inputs.read (i * L.inputSize + k)
  let y ← g.weights.read (j * L.inputSize + k)
  let wg ← g.weights.write (j * L.inputSize + k) (add y (mul c x))
  let w ← L.weights.read (j * L.inputSize + k)
  let z ← g.input.read (i * L.inputSize + k)
  let ig ← g.input.write (i * L.inputSize + k) (add z (mul c w))
  .ok { g with input := ig, weights := wg }

/-- src/models/PolicyNet.cpp:109-140.  The pointer returned is `inputGrad`. -/
def backward (L : FC α) (inputs chain : Buf α) (batchSize : ℕ) : Res (FC α) := do
  let ig ← forN (batchSize * L.inputSize) (fun i (b : Buf α) => b.write i (ofRat 0)) L.inputGrad
  let wg ← forN (L.outputSize * L.inputSize) (fun i (b : Buf α) => b.write i (ofRat 0))
    L.weightsGrad
  let bg ← forN L.outputSize (fun i (b : Buf α) => b.write i (ofRat 0)) L.biasGrad
  let g ← forN batchSize (fun i g => forN L.outputSize (fun j g => do
    let g ← forN L.inputSize (fun k g => L.backwardCell inputs chain i j k g) g
    let c ← chain.read (i * L.outputSize + j)
    let y ← g.bias.read j
    let bg ← g.bias.write j (add y c)
    .ok { g with bias := bg }) g) (⟨ig, wg, bg⟩ : Grads α)
  .ok { L with inputGrad := g.input, weightsGrad := g.weights, biasGrad := g.bias }

/-- src/models/PolicyNet.cpp:155-168 and 171-179: a parameter with its moments and gradient is
updated.  Returns the first moment, the second moment and the parameter. -/
def adam (learnRate beta1 beta2 epsilon : α) (stepNum : ℤ) (m v g w : α) : α × α × α :=
  let m := add (mul beta1 m) (mul (sub (ofRat 1) beta1) g)
  let v := add (mul beta2 v) (mul (sub (ofRat 1) beta2) (pow g 2))
  let mHat := div m (sub (ofRat 1) (pow beta1 stepNum))
  let vHat := div v (sub (ofRat 1) (pow beta2 stepNum))
  (m, v, add w (div (mul learnRate mHat) (add (sqrt vHat) epsilon)))

/-- The arrays of parameters with their moments. -/
structure Params (α : Type) where
  m : Buf α
  v : Buf α
  w : Buf α

/-- Update of the parameter with the given index. -/
def adamAt (learnRate beta1 beta2 epsilon : α) (stepNum : ℤ) (g : Buf α) (index : ℕ)
    (p : Params α) : Res (Params α) := do
  let m ← p.m.read index
  let v ← p.v.read index
  let gr ← g.read index
  let w ← p.w.read index
  let r := adam learnRate beta1 beta2 epsilon stepNum m v gr w
  let bm ← p.m.write index r.1
  let bv ← p.v.write index r.2.1
  let bw ← p.w.write index r.2.2
  .ok ⟨bm, bv, bw⟩

/-- src/models/PolicyNet.cpp:142-181.  `epsilon` has its default. -/
def step (L : FC α) (learnRate beta1 beta2 : α) : Res (FC α) := do
  let epsilon : α := ofRat (1 / 100000000)
  let n := L.stepNum + 1
  let s ← forN L.outputSize (fun i (s : Params α × Params α) => do
    let ps ← forN L.inputSize (fun j p =>
      adamAt learnRate beta1 beta2 epsilon n L.weightsGrad (i * L.inputSize + j) p) s.1
    let bs ← adamAt learnRate beta1 beta2 epsilon n L.biasGrad i s.2
    .ok (ps, bs)) (⟨L.weightsM, L.weightsV, L.weights⟩, ⟨L.biasM, L.biasV, L.bias⟩)
  .ok { L with
    stepNum := n
    weightsM := s.1.m, weightsV := s.1.v, weights := s.1.w
    biasM := s.2.m, biasV := s.2.v, bias := s.2.w }

end FC

/-! ## Activations -/

/-- src/models/PolicyNet.cpp:253-257 and 334-338: the members of `ReLU` and of `Softmax`. -/
structure Act (α : Type) where
  outputs : Buf α
  inputGrad : Buf α
  maxArraySize : ℕ

namespace Act

/-- A new object. -/
def new : Act α := ⟨[], [], 0⟩

/-- src/models/PolicyNet.cpp:218-230 and 274-286. -/
def prepare (A : Act α) (n : ℕ) : Act α :=
  if A.maxArraySize < n then ⟨Buf.new n, Buf.new n, n⟩ else A

/-- src/models/PolicyNet.cpp:215-238: `ReLU::forward`. -/
def reluForward (A : Act α) (inputs : Buf α) (batchSize outputSize : ℕ) : Res (Act α) := do
  let A := A.prepare (batchSize * outputSize)
  let o ← forN (batchSize * outputSize) (fun i o => do
    let x ← inputs.read i
    Buf.write o i (max' x (ofRat 0))) A.outputs
  .ok { A with outputs := o }

/-- src/models/PolicyNet.cpp:240-252: `ReLU::backward`.  The `bool` is converted to 0 or 1. -/
def reluBackward (A : Act α) (inputs chain : Buf α) (batchSize inputSize : ℕ) : Res (Act α) := do
  let g ← forN (batchSize * inputSize) (fun i g => do
    let c ← chain.read i
    let x ← inputs.read i
    Buf.write g i (mul c (ofRat (if signbit (neg x) then 1 else 0)))) A.inputGrad
  .ok { A with inputGrad := g }

/-- src/models/PolicyNet.cpp:291-296: the maximum of a row. -/
def rowMax (inputs : Buf α) (outputSize i : ℕ) : Res α := do
  let a ← inputs.read (i * outputSize)
  forN outputSize (fun j a => do
    let x ← inputs.read (i * outputSize + j)
    .ok (max' a x)) a

/-- src/models/PolicyNet.cpp:300-312: one row of probabilities. -/
def softmaxRow (inputs alpha : Buf α) (outputSize i : ℕ) (o : Buf α) : Res (Buf α) := do
  let s ← forN outputSize (fun j (s : Buf α × α) => do
    let x ← inputs.read (i * outputSize + j)
    let a ← alpha.read i
    let o ← s.1.write (i * outputSize + j) (exp (sub x a))
    let y ← o.read (i * outputSize + j)
    .ok (o, add s.2 y)) (o, ofRat 0)
  forN outputSize (fun j o => do
    let y ← Buf.read o (i * outputSize + j)
    Buf.write o (i * outputSize + j) (div y s.2)) s.1

/-- src/models/PolicyNet.cpp:271-316: `Softmax::forward`. -/
def softmaxForward (A : Act α) (inputs : Buf α) (batchSize outputSize : ℕ) : Res (Act α) := do
  let A := A.prepare (batchSize * outputSize)
  let alpha ← forN batchSize (fun i a => do
    let m ← rowMax inputs outputSize i
    Buf.write a i m) (Buf.new batchSize)
  let o ← forN batchSize (fun i o => softmaxRow inputs alpha outputSize i o) A.outputs
  .ok { A with outputs := o }

/-- Access with an index which may be negative. -/
def index (i : ℤ) : Res ℕ := if i < 0 then .error (.ub .outOfBounds) else .ok i.toNat

/-- src/models/PolicyNet.cpp:331: the taken action. -/
def lossAction (action : List ℤ) (reward : Buf α) (batchSize inputSize i : ℕ) (g : Buf α) :
    Res (Buf α) :=
  match action[i]? with
  | none => .error (.ub .outOfBounds)
  | some a => do
    let k ← index (i * inputSize + a)
    let r ← reward.read i
    let y ← g.read k
    g.write k (add y (div r (ofRat batchSize)))

/-- src/models/PolicyNet.cpp:318-337: `Softmax::lossGrad`. -/
def lossGrad (A : Act α) (action : List ℤ) (probs reward : Buf α) (batchSize inputSize : ℕ) :
    Res (Act α) := do
  let g ← forN batchSize (fun i g => do
    let g ← forN inputSize (fun j g => do
      let r ← reward.read i
      let p ← probs.read (i * inputSize + j)
      Buf.write g (i * inputSize + j) (div (mul (neg r) p) (ofRat batchSize))) g
    lossAction action reward batchSize inputSize i g) A.inputGrad
  .ok { A with inputGrad := g }

end Act

end Net

open Net in
/-- src/models/PolicyNet.cpp:399-412: the members of `Net`. -/
structure Network (α : Type) where
  inputSize : ℕ
  hiddenSize : ℕ
  outputSize : ℕ
  learnRate : α
  beta1 : α
  beta2 : α
  layer1 : FC α
  layer2 : FC α
  layer3 : FC α
  relu1 : Act α
  relu2 : Act α
  softmax : Act α

namespace Network

open Arith Net

variable {α : Type} [Arith α]

/-- src/models/PolicyNet.cpp:343-359.  `init l i` is the number drawn for weight `i` of layer `l`. -/
def new (inputSize hiddenSize outputSize : ℕ) (learnRate beta1 beta2 : α) (init : ℕ → ℕ → α) :
    Network α where
  inputSize := inputSize
  hiddenSize := hiddenSize
  outputSize := outputSize
  learnRate := learnRate
  beta1 := beta1
  beta2 := beta2
  layer1 := FC.new inputSize hiddenSize (init 1)
  layer2 := FC.new hiddenSize hiddenSize (init 2)
  layer3 := FC.new hiddenSize outputSize (init 3)
  relu1 := Act.new
  relu2 := Act.new
  softmax := Act.new

/-- src/models/PolicyNet.cpp:361-372.  The pointer returned is that of the outputs of `softmax`;
likewise `out1` is the array of outputs of `layer1`, and so on. -/
def forward (N : Network α) (state : Buf α) (batchSize : ℕ) : Res (Network α) := do
  let l1 ← N.layer1.forward state batchSize
  let r1 ← N.relu1.reluForward l1.outputs batchSize N.hiddenSize
  let l2 ← N.layer2.forward r1.outputs batchSize
  let r2 ← N.relu2.reluForward l2.outputs batchSize N.hiddenSize
  let l3 ← N.layer3.forward r2.outputs batchSize
  let s ← N.softmax.softmaxForward l3.outputs batchSize N.outputSize
  .ok { N with layer1 := l1, layer2 := l2, layer3 := l3, relu1 := r1, relu2 := r2, softmax := s }

/-- src/models/PolicyNet.cpp:384-392: the backward pass, after `forward`. -/
def backward (N : Network α) (state : Buf α) (action : List ℤ) (reward : Buf α) (batchSize : ℕ) :
    Res (Network α) := do
  let s ← N.softmax.lossGrad action N.softmax.outputs reward batchSize N.outputSize
  let l3 ← N.layer3.backward N.relu2.outputs s.inputGrad batchSize
  let r2 ← N.relu2.reluBackward N.layer2.outputs l3.inputGrad batchSize N.hiddenSize
  let l2 ← N.layer2.backward N.relu1.outputs r2.inputGrad batchSize
  let r1 ← N.relu1.reluBackward N.layer1.outputs l2.inputGrad batchSize N.hiddenSize
  let l1 ← N.layer1.backward state r1.inputGrad batchSize
  .ok { N with layer1 := l1, layer2 := l2, layer3 := l3, relu1 := r1, relu2 := r2, softmax := s }

/-- src/models/PolicyNet.cpp:394-397. -/
def step (N : Network α) : Res (Network α) := do
  let l1 ← N.layer1.step N.learnRate N.beta1 N.beta2
  let l2 ← N.layer2.step N.learnRate N.beta1 N.beta2
  let l3 ← N.layer3.step N.learnRate N.beta1 N.beta2
  .ok { N with layer1 := l1, layer2 := l2, layer3 := l3 }

/-- src/models/PolicyNet.cpp:374-398: `trainStep`. -/
def trainStep (N : Network α) (state : Buf α) (action : List ℤ) (reward : Buf α)
    (batchSize : ℕ) : Res (Network α) := do
  let N ← N.forward state batchSize
  let N ← N.backward state action reward batchSize
  N.step

end Network

end Apollo
