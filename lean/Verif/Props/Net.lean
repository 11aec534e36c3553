import Verif.Proofs.NetTrain

/-!
# C56: network evaluation does not depend on earlier calls

For every arithmetic, in particular also for rounded arithmetic: all equalities are exact.
-/

namespace Apollo.Props

open Apollo Apollo.Net Apollo.Spec.Net

variable {α : Type} [Arith α]

/-- The array of a matrix with `m` rows and `n` columns. -/
def matrix (m n : ℕ) (x : ℕ → ℕ → α) : Buf α :=
  (List.range (m * n)).map fun p => some (x (p / n) (p % n))

/-- A call of a method of the network. -/
inductive NetCall (α : Type)
  | forward (B : ℕ) (x : ℕ → ℕ → α)
  | train (b : Batch α)

/-- The call. -/
def NetCall.run (c : NetCall α) (N : Network α) : Res (Network α) :=
  match c with
  | .forward B x => N.forward (matrix B N.inputSize x) B
  | .train b => N.trainStep (matrix b.size N.inputSize b.x) ((List.range b.size).map b.action)
      ((List.range b.size).map fun i => some (b.reward i)) b.size

/-- A sequence of calls. -/
def runCalls : List (NetCall α) → Network α → Res (Network α)
  | [], N => .ok N
  | c :: cs, N => do
    let N ← c.run N
    runCalls cs N

/-- The actions trained with are outputs of the network. -/
def NetCall.Valid (s : Shape) : NetCall α → Prop
  | .forward _ _ => True
  | .train b => ∀ i < b.size, 0 ≤ b.action i ∧ b.action i < s.output

/-- What the calls do to the parameters: only training counts. -/
def trained (s : Shape) : List (NetCall α) → NetState α → NetState α
  | [], S => S
  | .forward _ _ :: cs, S => trained s cs S
  | .train b :: cs, S => trained s cs (S.train s b)

omit [Arith α] in
theorem matrix_has (m n : ℕ) (x : ℕ → ℕ → α) : (matrix m n x).Has2 m n x := by
  apply Buf.Has2.of_flat
  intro p hp
  unfold Buf.At matrix
  rw [List.getElem?_map, List.getElem?_range hp]
  rfl

omit [Arith α] in
theorem given_batch {s : Shape} {b : Batch α} (h : (NetCall.train b).Valid s) :
    Network.Given s b (matrix b.size s.input b.x) ((List.range b.size).map b.action)
      ((List.range b.size).map fun i => some (b.reward i)) := by
  refine ⟨matrix_has _ _ _, fun i hi => ⟨?_, h i hi⟩, fun i hi => ?_⟩
  · rw [List.getElem?_map, List.getElem?_range hi]; rfl
  · unfold Buf.At
    rw [List.getElem?_map, List.getElem?_range hi]; rfl

theorem runCalls_rep {s : Shape} (hs : 0 < s.output) (cs : List (NetCall α))
    (hv : ∀ c ∈ cs, c.Valid s) {N : Network α} {S : NetState α} (h : N.Rep s S) :
    ∃ N', runCalls cs N = .ok N' ∧ N'.Rep s (trained s cs S) := by
  induction cs generalizing N S with
  | nil => exact ⟨N, rfl, h⟩
  | cons c cs ih =>
    have hv' : ∀ c ∈ cs, c.Valid s := fun x hx => hv x (List.mem_cons_of_mem _ hx)
    cases c with
    | forward B x =>
      obtain ⟨N1, e1, h1, -⟩ := h.forward (matrix_has B s.input x) (Or.inl hs)
      obtain ⟨N2, e2, h2⟩ := ih hv' h1
      refine ⟨N2, ?_, h2⟩
      simp only [runCalls, NetCall.run]
      rw [h.wf.shape.1, e1, Res.bind_ok, e2]
    | train b =>
      obtain ⟨N1, e1, h1, -⟩ := h.trainStep (given_batch (hv _ List.mem_cons_self))
      obtain ⟨N2, e2, h2⟩ := ih hv' h1
      refine ⟨N2, ?_, h2⟩
      simp only [runCalls, NetCall.run]
      rw [h.wf.shape.1, e1, Res.bind_ok, e2]

/-- The network of the given shape after construction and a sequence of calls. -/
def netAfter (s : Shape) (lr beta1 beta2 : α) (init : ℕ → ℕ → α) (cs : List (NetCall α)) :
    Res (Network α) :=
  runCalls cs (Network.new s.input s.hidden s.output lr beta1 beta2 init)

/-- Any sequence of batches of any sizes is processed without leaving an array or reading what was
not written, and then the evaluation of a batch gives for each of its rows the probabilities which the
network function has for that row alone.  The parameters depend on the initial ones and on the
batches trained with, not on what was evaluated in between. -/
theorem C56_forward (s : Shape) (hs : 0 < s.output) (lr beta1 beta2 : α) (init : ℕ → ℕ → α)
    (cs : List (NetCall α)) (hv : ∀ c ∈ cs, c.Valid s) (B : ℕ) (x : ℕ → ℕ → α) :
    ∃ N N', netAfter s lr beta1 beta2 init cs = .ok N ∧
      (NetCall.forward B x).run N = .ok N' ∧
      ∀ i < B, ∀ j < s.output, N'.softmax.outputs[i * s.output + j]? =
        some (some (probs s (trained s cs (.fresh s lr beta1 beta2 init)).weights (x i) j)) := by
  obtain ⟨N, e, h⟩ := runCalls_rep hs cs hv (Network.rep_new s lr beta1 beta2 init)
  obtain ⟨N', e', -, h'⟩ := h.forward (matrix_has B s.input x) (Or.inl hs)
  refine ⟨N, N', e, ?_, h'.a3⟩
  simp only [NetCall.run]
  rw [h.wf.shape.1, e']

/-- Likewise for training: the gradient arrays hold the gradients of the batch at the current
parameters, and the parameters become the updated ones. -/
theorem C56_backward (s : Shape) (hs : 0 < s.output) (lr beta1 beta2 : α) (init : ℕ → ℕ → α)
    (cs : List (NetCall α)) (hv : ∀ c ∈ cs, c.Valid s) (b : Batch α)
    (hb : (NetCall.train b).Valid s) :
    ∃ N N', netAfter s lr beta1 beta2 init cs = .ok N ∧ (NetCall.train b).run N = .ok N' ∧
      let S := trained s cs (.fresh s lr beta1 beta2 init)
      let G := grads s S.weights b
      let W := (S.train s b).weights
      (∀ j < s.hidden, ∀ k < s.input,
        N'.layer1.weightsGrad[j * s.input + k]? = some (some (G.l1.w j k)) ∧
        N'.layer1.weights[j * s.input + k]? = some (some (W.l1.w j k))) ∧
      (∀ j < s.hidden, N'.layer1.biasGrad[j]? = some (some (G.l1.b j)) ∧
        N'.layer1.bias[j]? = some (some (W.l1.b j))) ∧
      (∀ j < s.hidden, ∀ k < s.hidden,
        N'.layer2.weightsGrad[j * s.hidden + k]? = some (some (G.l2.w j k)) ∧
        N'.layer2.weights[j * s.hidden + k]? = some (some (W.l2.w j k))) ∧
      (∀ j < s.hidden, N'.layer2.biasGrad[j]? = some (some (G.l2.b j)) ∧
        N'.layer2.bias[j]? = some (some (W.l2.b j))) ∧
      (∀ j < s.output, ∀ k < s.hidden,
        N'.layer3.weightsGrad[j * s.hidden + k]? = some (some (G.l3.w j k)) ∧
        N'.layer3.weights[j * s.hidden + k]? = some (some (W.l3.w j k))) ∧
      (∀ j < s.output, N'.layer3.biasGrad[j]? = some (some (G.l3.b j)) ∧
        N'.layer3.bias[j]? = some (some (W.l3.b j))) := by
  obtain ⟨N, e, h⟩ := runCalls_rep hs cs hv (Network.rep_new s lr beta1 beta2 init)
  obtain ⟨N', e', h', g⟩ := h.trainStep (given_batch hb)
  refine ⟨N, N', e, ?_, ?_⟩
  · simp only [NetCall.run]
    rw [h.wf.shape.1, e']
  · have w1 := h'.wf.l1.w
    have b1 := h'.wf.l1.b
    have w2 := h'.wf.l2.w
    have b2 := h'.wf.l2.b
    have w3 := h'.wf.l3.w
    have b3 := h'.wf.l3.b
    rw [h'.wf.s1.1, h'.wf.s1.2] at w1
    rw [h'.wf.s2.1, h'.wf.s2.2] at w2
    rw [h'.wf.s3.1, h'.wf.s3.2] at w3
    rw [h'.wf.s1.2] at b1
    rw [h'.wf.s2.2] at b2
    rw [h'.wf.s3.2] at b3
    exact ⟨fun j hj k hk => ⟨g.w1 j hj k hk, w1 j hj k hk⟩, fun j hj => ⟨g.b1 j hj, b1 j hj⟩,
      fun j hj k hk => ⟨g.w2 j hj k hk, w2 j hj k hk⟩, fun j hj => ⟨g.b2 j hj, b2 j hj⟩,
      fun j hj k hk => ⟨g.w3 j hj k hk, w3 j hj k hk⟩, fun j hj => ⟨g.b3 j hj, b3 j hj⟩⟩

/-- An action which is not an output of the network is not noticed: it may go to the gradient of
another sample, or outside the array. -/
theorem C56_needs_actions (s : Shape) (hs : s = ⟨0, 0, 1⟩) (lr beta1 beta2 : α)
    (init : ℕ → ℕ → α) :
    ((NetCall.train ⟨1, fun _ _ => lr, fun _ => 1, fun _ => lr⟩).run
      (Network.new s.input s.hidden s.output lr beta1 beta2 init)) =
        .error (.ub .outOfBounds) := by
  subst hs
  rfl

/-- Batches of different sizes, growing and shrinking, with training in between. -/
example : ∀ c ∈ ([.forward 3 fun _ _ => Arith.ofRat 1, .train ⟨2, fun _ _ => Arith.ofRat 1,
    fun i => i, fun _ => Arith.ofRat 1⟩, .forward 1 fun _ _ => Arith.ofRat 0,
    .forward 5 fun _ _ => Arith.ofRat 0] : List (NetCall α)), c.Valid ⟨4, 3, 2⟩ := by
  intro c hc
  simp only [List.mem_cons, List.not_mem_nil, or_false] at hc
  rcases hc with rfl | rfl | rfl | rfl
  · trivial
  · intro i hi
    simp only at hi ⊢
    omega
  · trivial
  · trivial

end Apollo.Props
