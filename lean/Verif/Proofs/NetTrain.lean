import Verif.Proofs.NetBackward

/-!
# Helpers: the network as a whole
-/

namespace Apollo.Net

open Apollo Arith Spec.Net

variable {α : Type} [Arith α]

/-- The layer object holds the abstract layer. -/
structure FC.Rep (L : FC α) (S : LayerState α) : Prop where
  wf : L.WF S.p
  t : L.stepNum = S.t
  mlen : L.weightsM.length = L.outputSize * L.inputSize
  vlen : L.weightsV.length = L.outputSize * L.inputSize
  bmlen : L.biasM.length = L.outputSize
  bvlen : L.biasV.length = L.outputSize
  mw : L.weightsM.Has2 L.outputSize L.inputSize S.m.w
  vw : L.weightsV.Has2 L.outputSize L.inputSize S.v.w
  mb : L.biasM.Has L.outputSize S.m.b
  vb : L.biasV.Has L.outputSize S.v.b

omit [Arith α] in
theorem FC.Rep.setBuffers {L : FC α} {S : LayerState α} (h : L.Rep S) {o g : Buf α} {n : ℕ}
    (ho : o.length = n * L.outputSize) (hg : g.length = n * L.inputSize) :
    FC.Rep { L with outputs := o, inputGrad := g, maxBatchSize := n } S :=
  ⟨h.wf.setBuffers ho hg, h.t, h.mlen, h.vlen, h.bmlen, h.bvlen, h.mw, h.vw, h.mb, h.vb⟩

omit [Arith α] in
theorem FC.Rep.setGrads {L : FC α} {S : LayerState α} (h : L.Rep S) {ig wg bg : Buf α}
    (hi : ig.length = L.inputGrad.length) (hw : wg.length = L.weightsGrad.length)
    (hb : bg.length = L.biasGrad.length) :
    FC.Rep { L with inputGrad := ig, weightsGrad := wg, biasGrad := bg } S :=
  ⟨⟨h.wf.w, h.wf.b, h.wf.wlen, h.wf.blen, hw.trans h.wf.wg, hb.trans h.wf.bg, h.wf.out,
    hi.trans h.wf.ig⟩, h.t, h.mlen, h.vlen, h.bmlen, h.bvlen, h.mw, h.vw, h.mb, h.vb⟩

theorem FC.Rep.step {L : FC α} {S : LayerState α} (h : L.Rep S) {G : Layer α}
    (hw : L.weightsGrad.Has2 L.outputSize L.inputSize G.w) (hb : L.biasGrad.Has L.outputSize G.b)
    (lr b1 b2 : α) :
    ∃ wm wv w bm bv b, L.step lr b1 b2 = .ok { L with
        stepNum := L.stepNum + 1
        weightsM := wm, weightsV := wv, weights := w
        biasM := bm, biasV := bv, bias := b } ∧
      FC.Rep { L with
        stepNum := L.stepNum + 1
        weightsM := wm, weightsV := wv, weights := w
        biasM := bm, biasV := bv, bias := b } (S.update lr b1 b2 G) := by
  obtain ⟨ps, bs, h1, h2, h3⟩ := FC.step_spec (L := L)
    (W := ⟨fun p => S.m.w (p / L.inputSize) (p % L.inputSize),
      fun p => S.v.w (p / L.inputSize) (p % L.inputSize),
      fun p => G.w (p / L.inputSize) (p % L.inputSize),
      fun p => S.p.w (p / L.inputSize) (p % L.inputSize)⟩)
    (Bi := ⟨S.m.b, S.v.b, G.b, S.p.b⟩)
    ⟨⟨h.mlen, h.vlen, h.wf.wlen⟩, ⟨h.bmlen, h.bvlen, h.wf.blen⟩, h.mw.flat, h.vw.flat, hw.flat,
      h.wf.w.flat, h.mb, h.vb, hb, h.wf.b⟩ lr b1 b2
  refine ⟨_, _, _, _, _, _, h1, ?_⟩
  rw [h.t] at h2 h3
  refine ⟨⟨Buf.Has2.of_flat fun p hp => (h2.done p hp).2.2, fun j hj => (h3.done j hj).2.2,
    h2.len.2.2, h3.len.2.2, h.wf.wg, h.wf.bg, h.wf.out, h.wf.ig⟩, by simp only; rw [h.t]; rfl,
    h2.len.1, h2.len.2.1, h3.len.1, h3.len.2.1, Buf.Has2.of_flat fun p hp => (h2.done p hp).1,
    Buf.Has2.of_flat fun p hp => (h2.done p hp).2.1, fun j hj => (h3.done j hj).1,
    fun j hj => (h3.done j hj).2.1⟩

end Apollo.Net

namespace Apollo.Network

open Apollo Arith Net Spec.Net

variable {α : Type} [Arith α]

/-- The network object holds the abstract network of the given shape. -/
structure Rep (N : Network α) (s : Shape) (S : NetState α) : Prop where
  wf : N.WF s S.weights
  l1 : N.layer1.Rep S.l1
  l2 : N.layer2.Rep S.l2
  l3 : N.layer3.Rep S.l3
  lr : N.learnRate = S.lr
  b1 : N.beta1 = S.beta1
  b2 : N.beta2 = S.beta2

theorem Rep.forward {N : Network α} {s : Shape} {S : NetState α} (h : N.Rep s S) {state : Buf α}
    {B : ℕ} {x : ℕ → ℕ → α} (hx : state.Has2 B s.input x) (hs : 0 < s.output ∨ B = 0) :
    ∃ N', N.forward state B = .ok N' ∧ N'.Rep s S ∧ N'.After s S.weights B x := by
  obtain ⟨N', h1, h2, h3, h4⟩ := forward_spec h.wf hx hs
  obtain ⟨o1, g1, n1, e1⟩ := h4.p1
  obtain ⟨o2, g2, n2, e2⟩ := h4.p2
  obtain ⟨o3, g3, n3, e3⟩ := h4.p3
  refine ⟨N', h1, ⟨h2, ?_, ?_, ?_, by rw [h4.lr, h.lr], by rw [h4.b1, h.b1], by rw [h4.b2, h.b2]⟩,
    h3⟩
  · have := h2.l1; rw [e1] at this ⊢; exact h.l1.setBuffers this.out this.ig
  · have := h2.l2; rw [e2] at this ⊢; exact h.l2.setBuffers this.out this.ig
  · have := h2.l3; rw [e3] at this ⊢; exact h.l3.setBuffers this.out this.ig

/-- The gradient arrays hold the given gradients. -/
structure HasGrads (N : Network α) (s : Shape) (G : Weights α) : Prop where
  w1 : N.layer1.weightsGrad.Has2 s.hidden s.input G.l1.w
  b1 : N.layer1.biasGrad.Has s.hidden G.l1.b
  w2 : N.layer2.weightsGrad.Has2 s.hidden s.hidden G.l2.w
  b2 : N.layer2.biasGrad.Has s.hidden G.l2.b
  w3 : N.layer3.weightsGrad.Has2 s.output s.hidden G.l3.w
  b3 : N.layer3.biasGrad.Has s.output G.l3.b

omit [Arith α] in
theorem _root_.Apollo.Net.Act.WF.setGrad {A : Act α} (h : A.WF) {g : Buf α}
    (hg : g.length = A.inputGrad.length) : Act.WF { A with inputGrad := g } :=
  ⟨h.out, hg.trans h.ig⟩

theorem Rep.backward {N : Network α} {s : Shape} {S : NetState α} (h : N.Rep s S) {b : Batch α}
    (ha : N.After s S.weights b.size b.x) {state reward : Buf α} {action : List ℤ}
    (hx : state.Has2 b.size s.input b.x)
    (hact : ∀ i < b.size, action[i]? = some (b.action i) ∧ 0 ≤ b.action i ∧ b.action i < s.output)
    (hr : reward.Has b.size b.reward) :
    ∃ N', N.backward state action reward b.size = .ok N' ∧ N'.Rep s S ∧
      N'.HasGrads s (grads s S.weights b) := by
  unfold Network.backward
  rw [h.wf.shape.2.2, h.wf.shape.2.1]
  obtain ⟨g0, e0, k0, v0⟩ := Act.lossGrad_spec h.wf.sm ha.a3 hact hr ha.n3
  rw [e0, Res.bind_ok]
  obtain ⟨i3, w3, c3, e3, p3, q3, r3, x3, y3, z3⟩ := FC.backward_spec h.wf.l3
    (inputs := N.relu2.outputs) (chain := g0) (B := b.size)
    (by rw [h.wf.s3.1]; exact ha.a2) (by rw [h.wf.s3.2]; exact v0) ha.m3
  rw [e3, Res.bind_ok]
  rw [h.wf.s3.1, h.wf.s3.2] at x3 z3
  rw [h.wf.s3.2] at y3
  obtain ⟨g2, f2, k2, v2⟩ := Act.reluBackward_spec h.wf.r2 ha.o2 z3 ha.n2
  rw [f2, Res.bind_ok]
  obtain ⟨i2, w2, c2, e2, p2, q2, r2, x2, y2, z2⟩ := FC.backward_spec h.wf.l2
    (inputs := N.relu1.outputs) (chain := g2) (B := b.size)
    (by rw [h.wf.s2.1]; exact ha.a1) (by rw [h.wf.s2.2]; exact v2) ha.m2
  rw [e2, Res.bind_ok]
  rw [h.wf.s2.1, h.wf.s2.2] at x2 z2
  rw [h.wf.s2.2] at y2
  obtain ⟨g1, f1, k1, v1⟩ := Act.reluBackward_spec h.wf.r1 ha.o1 z2 ha.n1
  rw [f1, Res.bind_ok]
  obtain ⟨i1, w1, c1, e1, p1, q1, r1, x1, y1, z1⟩ := FC.backward_spec h.wf.l1
    (inputs := state) (chain := g1) (B := b.size)
    (by rw [h.wf.s1.1]; exact hx) (by rw [h.wf.s1.2]; exact v1) ha.m1
  rw [e1, Res.bind_ok]
  rw [h.wf.s1.1, h.wf.s1.2] at x1
  rw [h.wf.s1.2] at y1
  have R1 := h.l1.setGrads p1 q1 r1
  have R2 := h.l2.setGrads p2 q2 r2
  have R3 := h.l3.setGrads p3 q3 r3
  refine ⟨_, rfl, ⟨⟨⟨h.wf.shape.1, rfl, rfl⟩, h.wf.s1, h.wf.s2, h.wf.s3, R1.wf, R2.wf, R3.wf,
    h.wf.r1.setGrad k1, h.wf.r2.setGrad k2, h.wf.sm.setGrad k0⟩, R1, R2, R3, h.lr, h.b1, h.b2⟩, ?_⟩
  exact ⟨x1, y1, x2, y2, x3, y3⟩

theorem Rep.step {N : Network α} {s : Shape} {S : NetState α} (h : N.Rep s S) {G : Weights α}
    (hg : N.HasGrads s G) :
    ∃ N', N.step = .ok N' ∧ N'.HasGrads s G ∧ N'.Rep s { S with
      l1 := S.l1.update S.lr S.beta1 S.beta2 G.l1
      l2 := S.l2.update S.lr S.beta1 S.beta2 G.l2
      l3 := S.l3.update S.lr S.beta1 S.beta2 G.l3 } := by
  unfold Network.step
  obtain ⟨_, _, _, _, _, _, e1, R1⟩ := h.l1.step (G := G.l1)
    (by rw [h.wf.s1.1, h.wf.s1.2]; exact hg.w1) (by rw [h.wf.s1.2]; exact hg.b1)
    N.learnRate N.beta1 N.beta2
  obtain ⟨_, _, _, _, _, _, e2, R2⟩ := h.l2.step (G := G.l2)
    (by rw [h.wf.s2.1, h.wf.s2.2]; exact hg.w2) (by rw [h.wf.s2.2]; exact hg.b2)
    N.learnRate N.beta1 N.beta2
  obtain ⟨_, _, _, _, _, _, e3, R3⟩ := h.l3.step (G := G.l3)
    (by rw [h.wf.s3.1, h.wf.s3.2]; exact hg.w3) (by rw [h.wf.s3.2]; exact hg.b3)
    N.learnRate N.beta1 N.beta2
  rw [e1, Res.bind_ok, e2, Res.bind_ok, e3, Res.bind_ok]
  rw [h.lr, h.b1, h.b2] at R1 R2 R3
  refine ⟨_, rfl, ⟨hg.w1, hg.b1, hg.w2, hg.b2, hg.w3, hg.b3⟩, ?_⟩
  exact ⟨⟨h.wf.shape, h.wf.s1, h.wf.s2, h.wf.s3, R1.wf, R2.wf, R3.wf, h.wf.r1, h.wf.r2, h.wf.sm⟩,
    R1, R2, R3, h.lr, h.b1, h.b2⟩

/-- The arrays given to `trainStep` hold the batch, with actions of the network. -/
structure Given (s : Shape) (b : Batch α) (state : Buf α) (action : List ℤ) (reward : Buf α) :
    Prop where
  x : state.Has2 b.size s.input b.x
  a : ∀ i < b.size, action[i]? = some (b.action i) ∧ 0 ≤ b.action i ∧ b.action i < s.output
  r : reward.Has b.size b.reward

theorem Rep.trainStep {N : Network α} {s : Shape} {S : NetState α} (h : N.Rep s S) {b : Batch α}
    {state reward : Buf α} {action : List ℤ} (hb : Given s b state action reward) :
    ∃ N', N.trainStep state action reward b.size = .ok N' ∧ N'.Rep s (S.train s b) ∧
      N'.HasGrads s (grads s S.weights b) := by
  have hs : 0 < s.output ∨ b.size = 0 := by
    by_cases h0 : b.size = 0
    · exact Or.inr h0
    · have := hb.a 0 (by omega)
      left; omega
  obtain ⟨N1, e1, h1, a1⟩ := h.forward hb.x hs
  obtain ⟨N2, e2, h2, g2⟩ := h1.backward a1 hb.x hb.a hb.r
  obtain ⟨N3, e3, g3, h3⟩ := h2.step g2
  refine ⟨N3, ?_, h3, g3⟩
  unfold Network.trainStep
  rw [e1, Res.bind_ok, e2, Res.bind_ok, e3]

/-! ## New networks -/

/-- A layer after construction. -/
def _root_.Apollo.Spec.Net.LayerState.fresh (nin : ℕ) (init : ℕ → α) : LayerState α where
  p := ⟨fun j k => init (j * nin + k), fun _ => ofRat 0⟩
  m := ⟨fun _ _ => ofRat 0, fun _ => ofRat 0⟩
  v := ⟨fun _ _ => ofRat 0, fun _ => ofRat 0⟩
  t := 0

/-- A network after construction. -/
def _root_.Apollo.Spec.Net.NetState.fresh (s : Shape) (lr beta1 beta2 : α) (init : ℕ → ℕ → α) :
    NetState α where
  l1 := .fresh s.input (init 1)
  l2 := .fresh s.hidden (init 2)
  l3 := .fresh s.hidden (init 3)
  lr := lr
  beta1 := beta1
  beta2 := beta2

theorem _root_.Apollo.Net.FC.rep_new (nin nout : ℕ) (init : ℕ → α) :
    (FC.new nin nout init).Rep (.fresh nin init) := by
  refine ⟨⟨?_, fun j hj => zeros_at hj, by simp [FC.new], by simp [FC.new, Buf.zeros],
    by simp [FC.new, Buf.zeros], by simp [FC.new, Buf.zeros], by simp [FC.new], by simp [FC.new]⟩,
    rfl, by simp [FC.new, Buf.zeros], by simp [FC.new, Buf.zeros], by simp [FC.new, Buf.zeros],
    by simp [FC.new, Buf.zeros], fun i hi j hj => zeros_at (flat_lt hi hj),
    fun i hi j hj => zeros_at (flat_lt hi hj), fun j hj => zeros_at hj, fun j hj => zeros_at hj⟩
  intro j hj k hk
  have hj : j < nout := hj
  have hk : k < nin := hk
  unfold Buf.At FC.new
  simp only
  rw [List.getElem?_map, List.getElem?_range (flat_lt hj hk)]
  rfl

theorem rep_new (s : Shape) (lr beta1 beta2 : α) (init : ℕ → ℕ → α) :
    (Network.new s.input s.hidden s.output lr beta1 beta2 init).Rep s
      (.fresh s lr beta1 beta2 init) := by
  have h1 := FC.rep_new s.input s.hidden (init 1)
  have h2 := FC.rep_new s.hidden s.hidden (init 2)
  have h3 := FC.rep_new s.hidden s.output (init 3)
  have ha : (Act.new : Act α).WF := ⟨rfl, rfl⟩
  exact ⟨⟨⟨rfl, rfl, rfl⟩, ⟨rfl, rfl⟩, ⟨rfl, rfl⟩, ⟨rfl, rfl⟩, h1.wf, h2.wf, h3.wf, ha, ha, ha⟩,
    h1, h2, h3, rfl, rfl, rfl⟩

end Apollo.Network
