import Verif.Proofs.NetLoops

/-!
# Helpers: the forward pass
-/

namespace Apollo.Net

open Apollo Arith Spec.Net

variable {α : Type} [Arith α]

/-- The arrays of a layer have the sizes they were allocated with, and the parameters are set. -/
structure FC.WF (L : FC α) (P : Layer α) : Prop where
  w : L.weights.Has2 L.outputSize L.inputSize P.w
  b : L.bias.Has L.outputSize P.b
  wlen : L.weights.length = L.outputSize * L.inputSize
  blen : L.bias.length = L.outputSize
  wg : L.weightsGrad.length = L.outputSize * L.inputSize
  bg : L.biasGrad.length = L.outputSize
  out : L.outputs.length = L.maxBatchSize * L.outputSize
  ig : L.inputGrad.length = L.maxBatchSize * L.inputSize

theorem FC.prepare_spec {L : FC α} (ho : L.outputs.length = L.maxBatchSize * L.outputSize)
    (hi : L.inputGrad.length = L.maxBatchSize * L.inputSize) (B : ℕ) :
    ∃ o g n, L.prepare B = .ok { L with outputs := o, inputGrad := g, maxBatchSize := n } ∧
      B ≤ n ∧ o.length = n * L.outputSize ∧ g.length = n * L.inputSize ∧
      o.Has (B * L.outputSize) (fun _ => ofRat 0) := by
  unfold FC.prepare
  split
  next h =>
    refine ⟨_, _, B, rfl, le_rfl, by simp [Buf.zeros], by simp [Buf.new], fun i hi => zeros_at hi⟩
  next h =>
    obtain ⟨o, h1, h2, h3, -⟩ := zero_spec (b := L.outputs) (n := B * L.outputSize)
      (by rw [ho]; exact Nat.mul_le_mul_right _ (by omega))
    rw [h1, Res.bind_ok]
    exact ⟨o, L.inputGrad, L.maxBatchSize, rfl, by omega, by rw [h2, ho], hi, h3⟩

theorem FC.forwardCell_spec {L : FC α} {inputs o : Buf α} {i j : ℕ} {w : ℕ → α} {x : ℕ → α}
    (hw : ∀ k < L.inputSize, L.weights.At (j * L.inputSize + k) (w k))
    (hx : ∀ k < L.inputSize, inputs.At (i * L.inputSize + k) (x k))
    (ho : o.At (i * L.outputSize + j) (ofRat 0)) :
    ∃ o', L.forwardCell inputs i j o = .ok o' ∧ o'.length = o.length ∧
      o'.At (i * L.outputSize + j) (sumTo L.inputSize fun k => mul (w k) (x k)) ∧
      ∀ p, p ≠ i * L.outputSize + j → o'[p]? = o[p]? := by
  unfold FC.forwardCell
  refine forN_inv (P := fun n (u : Buf α) => u.length = o.length ∧
      u.At (i * L.outputSize + j) (sumTo n fun k => mul (w k) (x k)) ∧
      ∀ p, p ≠ i * L.outputSize + j → u[p]? = o[p]?) ⟨rfl, ho, fun _ _ => rfl⟩ ?_
  rintro k hk u ⟨hl, ha, hr⟩
  obtain ⟨u', hu, hl', ha', hr'⟩ := u.write_spec
    (add (sumTo k fun k => mul (w k) (x k)) (mul (w k) (x k))) ha.lt
  refine ⟨u', ?_, by omega, ha', fun p hp => by rw [hr' p hp, hr p hp]⟩
  rw [(hw k hk).read, Res.bind_ok, (hx k hk).read, Res.bind_ok, ha.read, Res.bind_ok, hu]

theorem FC.forward_spec {L : FC α} {P : Layer α} (h : L.WF P) {inputs : Buf α} {B : ℕ}
    {x : ℕ → ℕ → α} (hx : inputs.Has2 B L.inputSize x) :
    ∃ o g n, L.forward inputs B = .ok { L with outputs := o, inputGrad := g, maxBatchSize := n } ∧
      B ≤ n ∧ o.length = n * L.outputSize ∧ g.length = n * L.inputSize ∧
      o.Has2 B L.outputSize (fun i => affine L.inputSize P (x i)) := by
  obtain ⟨o, g, n, h1, hB, h2, h3, h4⟩ := FC.prepare_spec h.out h.ig B
  unfold FC.forward
  rw [h1, Res.bind_ok]
  simp only
  obtain ⟨o', h5, h6, h7, -⟩ := fill2_spec (m := B) (n := L.outputSize) (b := o)
    (v := fun i => affine L.inputSize P (x i))
    (body := fun i j o => do
      let o ← FC.forwardCell { L with outputs := o, inputGrad := g, maxBatchSize := n } inputs i j o
      let y ← Buf.read o (i * L.outputSize + j)
      let b ← L.bias.read j
      Buf.write o (i * L.outputSize + j) (add y b)) (by
    intro i hi j hj u hl hu
    obtain ⟨u1, g1, g2, g3, g4⟩ := FC.forwardCell_spec
      (L := { L with outputs := u, inputGrad := g, maxBatchSize := n }) (inputs := inputs) (o := u)
      (i := i) (j := j) (w := P.w j) (x := x i) (fun k hk => h.w j hj k hk)
      (fun k hk => hx i hi k hk) ((h4 _ (flat_lt hi hj)).of_eq hu)
    obtain ⟨u2, f1, f2, f3, f4⟩ := u1.write_spec
      (add (sumTo L.inputSize fun k => mul (P.w j k) (x i k)) (P.b j)) g3.lt
    refine ⟨u2, ?_, by omega, f3, fun p hp => by rw [f4 p hp, g4 p hp]⟩
    rw [g1, Res.bind_ok, g3.read, Res.bind_ok, (h.b j hj).read, Res.bind_ok, f1])
  refine ⟨o', g, n, ?_, hB, by rw [h6, h2], h3, h7⟩
  have : (fun i o_1 => forN L.outputSize (fun j o_2 => do
      let o_3 ← FC.forwardCell { L with outputs := o, inputGrad := g, maxBatchSize := n } inputs i j o_2
      let y ← Buf.read o_3 (i * L.outputSize + j)
      let b ← L.bias.read j
      Buf.write o_3 (i * L.outputSize + j) (add y b)) o_1) = (fun i o =>
      forN L.outputSize (fun j o => do
      let o ← FC.forwardCell { L with outputs := o, inputGrad := g, maxBatchSize := n } inputs i j o
      let y ← Buf.read o (i * L.outputSize + j)
      let b ← L.bias.read j
      Buf.write o (i * L.outputSize + j) (add y b)) o) := by
    rfl
  rw [this, h5, Res.bind_ok]

/-- The arrays of an activation have the size they were allocated with. -/
structure Act.WF (A : Act α) : Prop where
  out : A.outputs.length = A.maxArraySize
  ig : A.inputGrad.length = A.maxArraySize

omit [Arith α] in
theorem Act.prepare_spec {A : Act α} (h : A.WF) (n : ℕ) :
    (A.prepare n).WF ∧ n ≤ (A.prepare n).maxArraySize := by
  unfold Act.prepare
  split
  next hn => exact ⟨⟨by simp [Buf.new], by simp [Buf.new]⟩, le_rfl⟩
  next hn => exact ⟨h, by omega⟩

theorem Act.reluForward_spec {A : Act α} (h : A.WF) {inputs : Buf α} {B n : ℕ} {x : ℕ → ℕ → α}
    (hx : inputs.Has2 B n x) :
    ∃ A', A.reluForward inputs B n = .ok A' ∧ A'.WF ∧ B * n ≤ A'.maxArraySize ∧
      A'.outputs.Has2 B n (fun i => relu (x i)) := by
  obtain ⟨hw, hn⟩ := A.prepare_spec h (B * n)
  unfold Act.reluForward
  simp only
  obtain ⟨o, h1, h2, h3, -⟩ := fill_spec (n := B * n) (b := (A.prepare (B * n)).outputs)
    (body := fun i o => do
      let x ← inputs.read i
      Buf.write o i (max' x (ofRat 0)))
    (v := fun p => relu (x (p / n)) (p % n)) (by rw [hw.out]; exact hn) (by
    intro p hp o _ _
    rw [(hx.flat p hp).read, Res.bind_ok]
    rfl)
  refine ⟨{ A.prepare (B * n) with outputs := o }, by rw [h1, Res.bind_ok],
    ⟨by simp only; rw [h2, hw.out], hw.ig⟩, hn, ?_⟩
  exact Buf.Has2.of_flat h3

theorem maxTo_succ (n : ℕ) (x : ℕ → α) : maxTo (n + 1) x = max' (maxTo n x) (x n) := rfl

theorem Act.rowMax_spec {inputs : Buf α} {B n i : ℕ} {x : ℕ → ℕ → α} (hx : inputs.Has2 B n x)
    (hi : i < B) (hn : 0 < n) : Act.rowMax inputs n i = .ok (maxTo n (x i)) := by
  unfold Act.rowMax
  have h0 := hx i hi 0 hn
  rw [Nat.add_zero] at h0
  rw [h0.read, Res.bind_ok]
  obtain ⟨s, h1, h2⟩ := forN_inv (n := n) (s := x i 0) (f := fun j a => do
      let y ← inputs.read (i * n + j)
      .ok (max' a y)) (fun j a => a = maxTo j (x i)) rfl (by
    rintro j hj a rfl
    exact ⟨max' (maxTo j (x i)) (x i j), by rw [(hx i hi j hj).read, Res.bind_ok], rfl⟩)
  rw [h1, h2]

theorem Act.softmaxRow_spec {inputs alpha o : Buf α} {B n i : ℕ} {x : ℕ → ℕ → α}
    (hx : inputs.Has2 B n x) (hi : i < B) (ha : alpha.At i (maxTo n (x i)))
    (hl : B * n ≤ o.length) :
    ∃ o', Act.softmaxRow inputs alpha n i o = .ok o' ∧ o'.length = o.length ∧
      (∀ j < n, o'.At (i * n + j) (softmax n (x i) j)) ∧
      ∀ p, p < i * n ∨ (i + 1) * n ≤ p → o'[p]? = o[p]? := by
  unfold Act.softmaxRow
  obtain ⟨s, h1, h2, h3, h4, h5⟩ := forN_inv (n := n) (s := ((o, ofRat 0) : Buf α × α))
    (f := fun j (s : Buf α × α) => do
      let y ← inputs.read (i * n + j)
      let a ← alpha.read i
      let o ← s.1.write (i * n + j) (exp (sub y a))
      let y ← o.read (i * n + j)
      .ok (o, add s.2 y))
    (fun j s => s.1.length = o.length ∧ s.2 = sumTo j (expo n (x i)) ∧
      (∀ k < j, s.1.At (i * n + k) (expo n (x i) k)) ∧
      ∀ p, p < i * n ∨ i * n + j ≤ p → s.1[p]? = o[p]?)
    ⟨rfl, rfl, by intro k hk; omega, fun _ _ => rfl⟩ (by
    rintro j hj s ⟨g1, g2, g3, g4⟩
    have hlt := flat_lt hi hj
    obtain ⟨b, f1, f2, f3, f4⟩ := s.1.write_spec (i := i * n + j) (expo n (x i) j) (by omega)
    refine ⟨(b, add s.2 (expo n (x i) j)), ?_, by simp only; omega, by simp only; rw [g2]; rfl,
      ?_, ?_⟩
    · rw [(hx i hi j hj).read, Res.bind_ok, ha.read, Res.bind_ok]
      rw [show exp (sub (x i j) (maxTo n (x i))) = expo n (x i) j from rfl, f1, Res.bind_ok,
        f3.read, Res.bind_ok]
    · intro k hk
      by_cases he : k = j
      · subst he; exact f3
      · exact (g3 k (by omega)).of_eq (f4 _ (by omega))
    · intro p hp
      simp only
      rw [f4 p (by omega), g4 p (by omega)])
  rw [h1, Res.bind_ok]
  obtain ⟨b, k1, k2, k3, k4, k5⟩ := forN_inv (n := n) (s := s.1)
    (f := fun j (o : Buf α) => do
      let y ← Buf.read o (i * n + j)
      Buf.write o (i * n + j) (div y s.2))
    (fun j (u : Buf α) => u.length = o.length ∧
      (∀ k < j, u.At (i * n + k) (softmax n (x i) k)) ∧
      (∀ k, j ≤ k → k < n → u.At (i * n + k) (expo n (x i) k)) ∧
      ∀ p, p < i * n ∨ (i + 1) * n ≤ p → u[p]? = o[p]?)
    ⟨h2, by intro k hk; omega, fun k _ hk => h4 k hk, fun p hp => h5 p (by
      rwa [Nat.add_mul, one_mul] at hp)⟩ (by
    rintro j hj u ⟨g1, g2, g3, g4⟩
    have hlt := flat_lt hi hj
    obtain ⟨b, f1, f2, f3, f4⟩ := u.write_spec (i := i * n + j) (softmax n (x i) j) (by omega)
    refine ⟨b, ?_, by omega, ?_, ?_, ?_⟩
    · rw [(g3 j le_rfl hj).read, Res.bind_ok, h3]
      exact f1
    · intro k hk
      by_cases he : k = j
      · subst he; exact f3
      · exact (g2 k (by omega)).of_eq (f4 _ (by omega))
    · intro k hk hk'
      exact (g3 k (by omega) hk').of_eq (f4 _ (by omega))
    · intro p hp
      rw [f4 p (by
        rw [Nat.add_mul, one_mul] at hp
        omega), g4 p hp])
  exact ⟨b, k1, k2, k3, k5⟩

theorem Act.softmaxForward_spec {A : Act α} (h : A.WF) {inputs : Buf α} {B n : ℕ}
    {x : ℕ → ℕ → α} (hx : inputs.Has2 B n x) (hn : 0 < n ∨ B = 0) :
    ∃ A', A.softmaxForward inputs B n = .ok A' ∧ A'.WF ∧ B * n ≤ A'.maxArraySize ∧
      A'.outputs.Has2 B n (fun i => softmax n (x i)) := by
  obtain ⟨hw, hn'⟩ := A.prepare_spec h (B * n)
  unfold Act.softmaxForward
  simp only
  obtain ⟨alpha, h1, -, h3, -⟩ := fill_spec (n := B) (b := (Buf.new B : Buf α))
    (body := fun i a => do
      let m ← Act.rowMax inputs n i
      Buf.write a i m)
    (v := fun i => maxTo n (x i)) (by simp [Buf.new]) (by
    intro i hi o _ _
    rw [Act.rowMax_spec hx hi (by omega), Res.bind_ok])
  rw [h1, Res.bind_ok]
  obtain ⟨o, k1, k2, k3⟩ := forN_inv (n := B) (s := (A.prepare (B * n)).outputs)
    (f := fun i o => Act.softmaxRow inputs alpha n i o)
    (fun i (u : Buf α) => u.length = (A.prepare (B * n)).outputs.length ∧
      u.Has2 i n (fun i => softmax n (x i))) ⟨rfl, by intro i hi; omega⟩ (by
    rintro i hi u ⟨g1, g2⟩
    obtain ⟨u', f1, f2, f3, f4⟩ := Act.softmaxRow_spec (o := u) hx hi (h3 i hi)
      (by rw [g1, hw.out]; exact hn')
    refine ⟨u', f1, by omega, ?_⟩
    intro i' hi' j hj
    by_cases he : i' = i
    · subst he; exact f3 j hj
    · refine (g2 i' (by omega) j hj).of_eq (f4 _ (Or.inl ?_))
      calc i' * n + j < (i' + 1) * n := by rw [Nat.add_mul]; omega
        _ ≤ i * n := Nat.mul_le_mul_right n (by omega))
  rw [k1, Res.bind_ok]
  exact ⟨_, rfl, ⟨by simp only; rw [k2, hw.out], hw.ig⟩, hn', k3⟩

end Apollo.Net

namespace Apollo.Network

open Apollo Arith Net Spec.Net

variable {α : Type} [Arith α]

/-- The sizes of the layers match, and the arrays have their sizes. -/
structure WF (N : Network α) (s : Shape) (W : Weights α) : Prop where
  shape : N.inputSize = s.input ∧ N.hiddenSize = s.hidden ∧ N.outputSize = s.output
  s1 : N.layer1.inputSize = s.input ∧ N.layer1.outputSize = s.hidden
  s2 : N.layer2.inputSize = s.hidden ∧ N.layer2.outputSize = s.hidden
  s3 : N.layer3.inputSize = s.hidden ∧ N.layer3.outputSize = s.output
  l1 : N.layer1.WF W.l1
  l2 : N.layer2.WF W.l2
  l3 : N.layer3.WF W.l3
  r1 : N.relu1.WF
  r2 : N.relu2.WF
  sm : N.softmax.WF

/-- The state after a forward pass of a batch `x`. -/
structure After (N : Network α) (s : Shape) (W : Weights α) (B : ℕ) (x : ℕ → ℕ → α) : Prop where
  o1 : N.layer1.outputs.Has2 B s.hidden (fun i => pre1 s W (x i))
  a1 : N.relu1.outputs.Has2 B s.hidden (fun i => relu (pre1 s W (x i)))
  o2 : N.layer2.outputs.Has2 B s.hidden (fun i => pre2 s W (x i))
  a2 : N.relu2.outputs.Has2 B s.hidden (fun i => relu (pre2 s W (x i)))
  o3 : N.layer3.outputs.Has2 B s.output (fun i => pre3 s W (x i))
  a3 : N.softmax.outputs.Has2 B s.output (fun i => probs s W (x i))
  m1 : B ≤ N.layer1.maxBatchSize
  m2 : B ≤ N.layer2.maxBatchSize
  m3 : B ≤ N.layer3.maxBatchSize
  n1 : B * s.hidden ≤ N.relu1.maxArraySize
  n2 : B * s.hidden ≤ N.relu2.maxArraySize
  n3 : B * s.output ≤ N.softmax.maxArraySize

/-- What a forward pass leaves as it was. -/
structure SameParams (N N' : Network α) : Prop where
  lr : N'.learnRate = N.learnRate
  b1 : N'.beta1 = N.beta1
  b2 : N'.beta2 = N.beta2
  p1 : ∃ o g n, N'.layer1 = { N.layer1 with outputs := o, inputGrad := g, maxBatchSize := n }
  p2 : ∃ o g n, N'.layer2 = { N.layer2 with outputs := o, inputGrad := g, maxBatchSize := n }
  p3 : ∃ o g n, N'.layer3 = { N.layer3 with outputs := o, inputGrad := g, maxBatchSize := n }

omit [Arith α] in
theorem _root_.Apollo.Net.FC.WF.setBuffers {L : FC α} {P : Layer α} (h : L.WF P) {o g : Buf α} {n : ℕ}
    (ho : o.length = n * L.outputSize) (hg : g.length = n * L.inputSize) :
    FC.WF { L with outputs := o, inputGrad := g, maxBatchSize := n } P :=
  ⟨h.w, h.b, h.wlen, h.blen, h.wg, h.bg, ho, hg⟩

theorem forward_spec {N : Network α} {s : Shape} {W : Weights α} (h : N.WF s W) {state : Buf α}
    {B : ℕ} {x : ℕ → ℕ → α} (hx : state.Has2 B s.input x) (hs : 0 < s.output ∨ B = 0) :
    ∃ N', N.forward state B = .ok N' ∧ N'.WF s W ∧ N'.After s W B x ∧ N.SameParams N' := by
  unfold Network.forward
  obtain ⟨o1, g1, n1, e1, b1, lo1, lg1, v1⟩ := FC.forward_spec (inputs := state) (B := B) (x := x)
    h.l1 (by rw [h.s1.1]; exact hx)
  rw [e1, Res.bind_ok, h.shape.2.1]
  rw [h.s1.1, h.s1.2] at v1
  obtain ⟨r1, f1, w1, k1, u1⟩ := Act.reluForward_spec h.r1 v1
  rw [f1, Res.bind_ok]
  obtain ⟨o2, g2, n2, e2, b2, lo2, lg2, v2⟩ := FC.forward_spec (inputs := r1.outputs) (B := B)
    (x := fun i => relu (affine s.input W.l1 (x i))) h.l2 (by rw [h.s2.1]; exact u1)
  rw [e2, Res.bind_ok]
  rw [h.s2.1, h.s2.2] at v2
  obtain ⟨r2, f2, w2, k2, u2⟩ := Act.reluForward_spec h.r2 v2
  rw [f2, Res.bind_ok]
  obtain ⟨o3, g3, n3, e3, b3, lo3, lg3, v3⟩ := FC.forward_spec (inputs := r2.outputs) (B := B)
    (x := fun i => relu (affine s.hidden W.l2 (relu (affine s.input W.l1 (x i))))) h.l3
    (by rw [h.s3.1]; exact u2)
  rw [e3, Res.bind_ok, h.shape.2.2]
  rw [h.s3.1, h.s3.2] at v3
  obtain ⟨sm, f3, w3, k3, u3⟩ := Act.softmaxForward_spec h.sm v3 hs
  rw [f3, Res.bind_ok]
  refine ⟨_, rfl, ?_, ?_, ?_⟩
  · exact ⟨⟨h.shape.1, rfl, rfl⟩, h.s1, h.s2, h.s3, h.l1.setBuffers lo1 lg1, h.l2.setBuffers lo2 lg2,
      h.l3.setBuffers lo3 lg3, w1, w2, w3⟩
  · exact ⟨v1, u1, v2, u2, v3, u3, b1, b2, b3, k1, k2, k3⟩
  · exact ⟨rfl, rfl, rfl, ⟨_, _, _, rfl⟩, ⟨_, _, _, rfl⟩, ⟨_, _, _, rfl⟩⟩

end Apollo.Network
