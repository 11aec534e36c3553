import Verif.Proofs.NetForward

/-!
# Helpers: the backward pass and the update
-/

namespace Apollo.Net

open Apollo Arith Spec.Net

variable {α : Type} [Arith α]

/-- The state of the backward loops of a layer before the step `i, j, k`: sums up to there. -/
structure Partial (nin nout B : ℕ) (P : Layer α) (c x : ℕ → ℕ → α) (i j k : ℕ)
    (g0 g : FC.Grads α) : Prop where
  il : g.input.length = g0.input.length
  wl : g.weights.length = g0.weights.length
  bl : g.bias.length = g0.bias.length
  w : ∀ j' < nout, ∀ k' < nin, g.weights.At (j' * nin + k')
    (sumTo (if j' < j ∨ (j' = j ∧ k' < k) then i + 1 else i) fun i => mul (c i j') (x i k'))
  b : ∀ j' < nout, g.bias.At j' (sumTo (if j' < j then i + 1 else i) fun i => c i j')
  x : ∀ i' < B, ∀ k' < nin, g.input.At (i' * nin + k')
    (sumTo (if i' < i then nout else if i' = i then (if k' < k then j + 1 else j) else 0)
      fun j => mul (c i' j) (P.w j k'))

theorem Partial.cell {L : FC α} {P : Layer α} {B : ℕ} {c x : ℕ → ℕ → α} {i j k : ℕ}
    {g0 g : FC.Grads α} {inputs chain : Buf α}
    (hw : L.weights.Has2 L.outputSize L.inputSize P.w)
    (hx : inputs.Has2 B L.inputSize x) (hc : chain.Has2 B L.outputSize c) (hi : i < B)
    (hj : j < L.outputSize) (hk : k < L.inputSize)
    (h : Partial L.inputSize L.outputSize B P c x i j k g0 g) :
    ∃ g', L.backwardCell inputs chain i j k g = .ok g' ∧
      Partial L.inputSize L.outputSize B P c x i j (k + 1) g0 g' := by
  unfold FC.backwardCell
  have h1 := h.w j hj k hk
  have h2 := h.x i hi k hk
  rw [if_neg (by omega)] at h1
  rw [if_neg (by omega), if_pos rfl, if_neg (by omega)] at h2
  obtain ⟨wg, a1, a2, a3, a4⟩ := g.weights.write_spec (i := j * L.inputSize + k)
    (add (sumTo i fun i => mul (c i j) (x i k)) (mul (c i j) (x i k))) h1.lt
  obtain ⟨ig, b1, b2, b3, b4⟩ := g.input.write_spec (i := i * L.inputSize + k)
    (add (sumTo j fun j => mul (c i j) (P.w j k)) (mul (c i j) (P.w j k))) h2.lt
  refine ⟨{ g with input := ig, weights := wg }, ?_, ?_⟩
  · rw [(hc i hi j hj).read, Res.bind_ok, (hx i hi k hk).read, Res.bind_ok, h1.read, Res.bind_ok,
      a1, Res.bind_ok, (hw j hj k hk).read, Res.bind_ok, h2.read, Res.bind_ok, b1, Res.bind_ok]
  · refine ⟨b2.trans h.il, a2.trans h.wl, h.bl, ?_, h.b, ?_⟩
    · intro j' hj' k' hk'
      by_cases he : j' = j ∧ k' = k
      · obtain ⟨rfl, rfl⟩ := he
        rw [if_pos (by omega)]
        exact a3
      · have := (h.w j' hj' k' hk').of_eq (a4 _ fun e => he (flat_inj hk' hk e))
        simp only
        rwa [if_congr (show (j' < j ∨ j' = j ∧ k' < k + 1) ↔ (j' < j ∨ j' = j ∧ k' < k) by
            omega) rfl rfl]
    · intro i' hi' k' hk'
      by_cases he : i' = i ∧ k' = k
      · obtain ⟨rfl, rfl⟩ := he
        rw [if_neg (by omega), if_pos rfl, if_pos (by omega)]
        exact b3
      · have := (h.x i' hi' k' hk').of_eq (b4 _ fun e => he (flat_inj hk' hk e))
        simp only
        by_cases hii : i' = i
        · subst hii
          have hne : k' ≠ k := fun e => he ⟨rfl, e⟩
          rw [if_neg (by omega), if_pos rfl] at this ⊢
          rwa [if_congr (show k' < k + 1 ↔ k' < k by
            omega) rfl rfl]
        · by_cases hlt : i' < i
          · rw [if_pos hlt] at this ⊢; exact this
          · rw [if_neg hlt, if_neg hii] at this ⊢; exact this

theorem FC.backward_spec {L : FC α} {P : Layer α} (h : L.WF P) {inputs chain : Buf α} {B : ℕ}
    {x c : ℕ → ℕ → α} (hx : inputs.Has2 B L.inputSize x) (hc : chain.Has2 B L.outputSize c)
    (hB : B ≤ L.maxBatchSize) :
    ∃ ig wg bg, L.backward inputs chain B =
        .ok { L with inputGrad := ig, weightsGrad := wg, biasGrad := bg } ∧
      ig.length = L.inputGrad.length ∧ wg.length = L.weightsGrad.length ∧
      bg.length = L.biasGrad.length ∧
      wg.Has2 L.outputSize L.inputSize (gradW B c x) ∧ bg.Has L.outputSize (gradB B c) ∧
      ig.Has2 B L.inputSize (gradX L.outputSize P c) := by
  unfold FC.backward
  obtain ⟨ig, a1, a2, a3, -⟩ := zero_spec (b := L.inputGrad) (n := B * L.inputSize)
    (by rw [h.ig]; exact Nat.mul_le_mul_right _ hB)
  obtain ⟨wg, b1, b2, b3, -⟩ := zero_spec (b := L.weightsGrad) (n := L.outputSize * L.inputSize)
    (by rw [h.wg])
  obtain ⟨bg, c1, c2, c3, -⟩ := zero_spec (b := L.biasGrad) (n := L.outputSize) (by rw [h.bg])
  rw [a1, Res.bind_ok, b1, Res.bind_ok, c1, Res.bind_ok]
  have h0 : Partial L.inputSize L.outputSize B P c x 0 0 0 ⟨ig, wg, bg⟩ ⟨ig, wg, bg⟩ := by
    refine ⟨rfl, rfl, rfl, ?_, ?_, ?_⟩
    · intro j hj k hk
      rw [if_neg (by omega)]
      exact b3 _ (flat_lt hj hk)
    · intro j hj
      rw [if_neg (by omega)]
      exact c3 _ hj
    · intro i hi k hk
      have : (if i < 0 then L.outputSize else if i = 0 then (if k < 0 then 0 + 1 else 0) else 0) = 0 := by
        split_ifs <;> omega
      rw [this]
      exact a3 _ (flat_lt hi hk)
  obtain ⟨g, e, hg⟩ := forN_inv (n := B) (s := (⟨ig, wg, bg⟩ : Grads α))
    (f := fun i g => forN L.outputSize (fun j g => do
      let g ← forN L.inputSize (fun k g => L.backwardCell inputs chain i j k g) g
      let c ← chain.read (i * L.outputSize + j)
      let y ← g.bias.read j
      let bg ← g.bias.write j (add y c)
      .ok { g with bias := bg }) g)
    (fun i g => Partial L.inputSize L.outputSize B P c x i 0 0 ⟨ig, wg, bg⟩ g) h0 (by
    intro i hi g hg
    obtain ⟨g1, e1, hg1⟩ := forN_inv (n := L.outputSize) (s := g)
      (f := fun j g => do
        let g ← forN L.inputSize (fun k g => L.backwardCell inputs chain i j k g) g
        let c ← chain.read (i * L.outputSize + j)
        let y ← g.bias.read j
        let bg ← g.bias.write j (add y c)
        .ok { g with bias := bg })
      (fun j g => Partial L.inputSize L.outputSize B P c x i j 0 ⟨ig, wg, bg⟩ g) hg (by
      intro j hj g hg
      obtain ⟨g2, e2, hg2⟩ := forN_inv (n := L.inputSize) (s := g)
        (f := fun k g => L.backwardCell inputs chain i j k g)
        (fun k g => Partial L.inputSize L.outputSize B P c x i j k ⟨ig, wg, bg⟩ g) hg (by
        intro k hk g hg
        exact hg.cell h.w hx hc hi hj hk)
      have hb := hg2.b j hj
      rw [if_neg (by omega)] at hb
      obtain ⟨bb, d1, d2, d3, d4⟩ := g2.bias.write_spec (i := j)
        (add (sumTo i fun i => c i j) (c i j)) hb.lt
      refine ⟨{ g2 with bias := bb }, ?_, ?_⟩
      · rw [e2, Res.bind_ok, (hc i hi j hj).read, Res.bind_ok, hb.read, Res.bind_ok, d1, Res.bind_ok]
      · refine ⟨hg2.il, hg2.wl, d2.trans hg2.bl, ?_, ?_, ?_⟩
        · intro j' hj' k' hk'
          have := hg2.w j' hj' k' hk'
          simp only
          rwa [if_congr (show (j' < j + 1 ∨ j' = j + 1 ∧ k' < 0) ↔ (j' < j ∨ j' = j ∧ k' < L.inputSize) by
            omega) rfl rfl]
        · intro j' hj'
          by_cases he : j' = j
          · subst he
            rw [if_pos (by omega)]
            exact d3
          · have := (hg2.b j' hj').of_eq (d4 _ he)
            simp only
            rwa [if_congr (show j' < j + 1 ↔ j' < j by
            omega) rfl rfl]
        · intro i' hi' k' hk'
          have := hg2.x i' hi' k' hk'
          simp only
          rw [if_pos hk'] at this
          rwa [if_neg (by omega : ¬ k' < 0)])
    refine ⟨g1, e1, hg1.il, hg1.wl, hg1.bl, ?_, ?_, ?_⟩
    · intro j' hj' k' hk'
      have := hg1.w j' hj' k' hk'
      rw [if_pos (by omega)] at this
      rwa [if_neg (by omega)]
    · intro j' hj'
      have := hg1.b j' hj'
      rw [if_pos (by omega)] at this
      rwa [if_neg (by omega)]
    · intro i' hi' k' hk'
      have := hg1.x i' hi' k' hk'
      rw [if_neg (by omega : ¬ k' < 0)] at this ⊢
      by_cases hlt : i' < i
      · rw [if_pos hlt] at this
        rwa [if_pos (by omega)]
      · by_cases heq : i' = i
        · rw [if_neg hlt, if_pos heq] at this
          rwa [if_pos (by omega)]
        · rw [if_neg hlt, if_neg heq] at this
          rw [if_neg (by omega)]
          split_ifs <;> exact this)
  rw [e, Res.bind_ok]
  refine ⟨g.input, g.weights, g.bias, rfl, hg.il.trans a2, hg.wl.trans b2, hg.bl.trans c2, ?_, ?_, ?_⟩
  · intro j hj k hk
    have := hg.w j hj k hk
    rwa [if_neg (by omega)] at this
  · intro j hj
    have := hg.b j hj
    rwa [if_neg (by omega)] at this
  · intro i hi k hk
    have := hg.x i hi k hk
    rwa [if_pos hi] at this

theorem Act.reluBackward_spec {A : Act α} (h : A.WF) {inputs chain : Buf α} {B n : ℕ}
    {x c : ℕ → ℕ → α} (hx : inputs.Has2 B n x) (hc : chain.Has2 B n c)
    (hn : B * n ≤ A.maxArraySize) :
    ∃ g, A.reluBackward inputs chain B n = .ok { A with inputGrad := g } ∧
      g.length = A.inputGrad.length ∧ g.Has2 B n (gate x c) := by
  unfold Act.reluBackward
  obtain ⟨g, h1, h2, h3, -⟩ := fill_spec (n := B * n) (b := A.inputGrad)
    (body := fun i g => do
      let c ← chain.read i
      let x ← inputs.read i
      Buf.write g i (mul c (ofRat (if signbit (neg x) then 1 else 0))))
    (v := fun p => gate x c (p / n) (p % n)) (by rw [h.ig]; exact hn) (by
    intro p hp o _ _
    rw [(hc.flat p hp).read, Res.bind_ok, (hx.flat p hp).read, Res.bind_ok]
    rfl)
  rw [h1, Res.bind_ok]
  exact ⟨g, rfl, h2, Buf.Has2.of_flat h3⟩

theorem Act.lossGrad_spec {A : Act α} (h : A.WF) {action : List ℤ} {probs reward : Buf α}
    {B n : ℕ} {p : ℕ → ℕ → α} {a : ℕ → ℤ} {r : ℕ → α} (hp : probs.Has2 B n p)
    (ha : ∀ i < B, action[i]? = some (a i) ∧ 0 ≤ a i ∧ a i < n) (hr : reward.Has B r)
    (hn : B * n ≤ A.maxArraySize) :
    ∃ g, A.lossGrad action probs reward B n = .ok { A with inputGrad := g } ∧
      g.length = A.inputGrad.length ∧ g.Has2 B n (Spec.Net.lossGrad B p a r) := by
  unfold Act.lossGrad
  obtain ⟨g, h1, h2, h3⟩ := forN_inv (n := B) (s := A.inputGrad)
    (f := fun i g => do
      let g ← forN n (fun j g => do
        let r ← reward.read i
        let p ← probs.read (i * n + j)
        Buf.write g (i * n + j) (div (mul (neg r) p) (ofRat B))) g
      Act.lossAction action reward B n i g)
    (fun i (g : Buf α) => g.length = A.inputGrad.length ∧ g.Has2 i n (Spec.Net.lossGrad B p a r))
    ⟨rfl, by intro i hi; omega⟩ (by
    rintro i hi g ⟨g1, g2⟩
    obtain ⟨u, e1, e2, e3, e4⟩ := forN_inv (n := n) (s := g)
      (f := fun j g => do
        let r ← reward.read i
        let p ← probs.read (i * n + j)
        Buf.write g (i * n + j) (div (mul (neg r) p) (ofRat B)))
      (fun j (u : Buf α) => u.length = g.length ∧
        (∀ k < j, u.At (i * n + k) (div (mul (neg (r i)) (p i k)) (ofRat B))) ∧
        ∀ q, q < i * n → u[q]? = g[q]?)
      ⟨rfl, by intro k hk; omega, fun _ _ => rfl⟩ (by
      rintro j hj u ⟨f1, f2, f3⟩
      have hlt := flat_lt hi hj
      obtain ⟨u', d1, d2, d3, d4⟩ := u.write_spec (i := i * n + j)
        (div (mul (neg (r i)) (p i j)) (ofRat B)) (by rw [f1, g1, h.ig]; omega)
      refine ⟨u', ?_, by omega, ?_, ?_⟩
      · rw [(hr i hi).read, Res.bind_ok, (hp i hi j hj).read, Res.bind_ok, d1]
      · intro k hk
        by_cases he : k = j
        · subst he; exact d3
        · exact (f2 k (by omega)).of_eq (d4 _ (by omega))
      · intro q hq
        rw [d4 q (by omega), f3 q hq])
    obtain ⟨ha1, ha2, ha3⟩ := ha i hi
    obtain ⟨m, hm⟩ := Int.eq_ofNat_of_zero_le ha2
    have hmn : m < n := by omega
    obtain ⟨u', d1, d2, d3, d4⟩ := u.write_spec (i := i * n + m)
      (add (div (mul (neg (r i)) (p i m)) (ofRat B)) (div (r i) (ofRat B))) (e3 m hmn).lt
    refine ⟨u', ?_, by omega, ?_⟩
    · rw [e1, Res.bind_ok]
      unfold Act.lossAction
      rw [ha1]
      simp only
      have hidx : Act.index (i * n + a i) = .ok (i * n + m) := by
        unfold Act.index
        rw [hm]
        have h0 : (0 : ℤ) ≤ i * n := by positivity
        rw [if_neg (by omega)]
        congr 1
      rw [hidx, Res.bind_ok, (hr i hi).read, Res.bind_ok, (e3 m hmn).read, Res.bind_ok, d1]
    · intro i' hi' j hj
      by_cases he : i' = i
      · subst he
        unfold Spec.Net.lossGrad
        simp only
        rw [hm]
        by_cases hjm : j = m
        · subst hjm
          rw [if_pos rfl]
          exact d3
        · rw [if_neg (by omega)]
          exact (e3 j hj).of_eq (d4 _ (by omega))
      · have hlt : i' * n + j < i * n := by
          calc i' * n + j < (i' + 1) * n := by rw [Nat.add_mul]; omega
            _ ≤ i * n := Nat.mul_le_mul_right n (by omega)
        exact ((g2 i' (by omega) j hj).of_eq (e4 _ hlt)).of_eq (d4 _ (by omega)))
  rw [h1, Res.bind_ok]
  exact ⟨g, rfl, h2, h3⟩

/-! ## The update -/

/-- Every element of an array is set. -/
def Buf.Full (b : Buf α) (n : ℕ) : Prop := b.length = n ∧ ∀ i < n, ∃ v, b.At i v

omit [Arith α] in
theorem Buf.Full.has {b : Buf α} {n : ℕ} (h : b.Full n) (d : α) :
    ∃ f : ℕ → α, b.Has n f := by
  classical
  refine ⟨fun i => if hi : ∃ v, b.At i v then hi.choose else d, fun i hi => ?_⟩
  have := h.2 i hi
  simp only [dif_pos this]
  exact this.choose_spec

omit [Arith α] in
theorem Buf.Has.full {b : Buf α} {n : ℕ} {f : ℕ → α} (h : b.Has n f) (hl : b.length = n) :
    b.Full n := ⟨hl, fun i hi => ⟨_, h i hi⟩⟩

/-- An update sets its own elements only. -/
theorem adamAt_spec {lr b1 b2 eps : α} {n : ℤ} {g : Buf α} {i : ℕ} {p : FC.Params α}
    {m v gr w : α} (hm : p.m.At i m) (hv : p.v.At i v) (hg : g.At i gr) (hw : p.w.At i w) :
    ∃ p', FC.adamAt lr b1 b2 eps n g i p = .ok p' ∧
      (p'.m.length = p.m.length ∧ p'.v.length = p.v.length ∧ p'.w.length = p.w.length) ∧
      p'.m.At i (FC.adam lr b1 b2 eps n m v gr w).1 ∧
      p'.v.At i (FC.adam lr b1 b2 eps n m v gr w).2.1 ∧
      p'.w.At i (FC.adam lr b1 b2 eps n m v gr w).2.2 ∧
      ∀ j, j ≠ i → p'.m[j]? = p.m[j]? ∧ p'.v[j]? = p.v[j]? ∧ p'.w[j]? = p.w[j]? := by
  unfold FC.adamAt
  rw [hm.read, Res.bind_ok, hv.read, Res.bind_ok, hg.read, Res.bind_ok, hw.read, Res.bind_ok]
  obtain ⟨bm, a1, a2, a3, a4⟩ := p.m.write_spec (FC.adam lr b1 b2 eps n m v gr w).1 hm.lt
  obtain ⟨bv, c1, c2, c3, c4⟩ := p.v.write_spec (FC.adam lr b1 b2 eps n m v gr w).2.1 hv.lt
  obtain ⟨bw, d1, d2, d3, d4⟩ := p.w.write_spec (FC.adam lr b1 b2 eps n m v gr w).2.2 hw.lt
  simp only
  rw [a1, Res.bind_ok, c1, Res.bind_ok, d1, Res.bind_ok]
  exact ⟨_, rfl, ⟨a2, c2, d2⟩, a3, c3, d3, fun j hj => ⟨a4 j hj, c4 j hj, d4 j hj⟩⟩

/-- The values before an update. -/
structure Moments (α : Type) where
  m : ℕ → α
  v : ℕ → α
  g : ℕ → α
  w : ℕ → α

/-- The elements below `k` are updated, the others are as before. -/
structure Stepped (lr b1 b2 eps : α) (n : ℤ) (M : Moments α) (N k : ℕ) (p : FC.Params α) :
    Prop where
  len : p.m.length = N ∧ p.v.length = N ∧ p.w.length = N
  done : ∀ i < k, p.m.At i (FC.adam lr b1 b2 eps n (M.m i) (M.v i) (M.g i) (M.w i)).1 ∧
    p.v.At i (FC.adam lr b1 b2 eps n (M.m i) (M.v i) (M.g i) (M.w i)).2.1 ∧
    p.w.At i (FC.adam lr b1 b2 eps n (M.m i) (M.v i) (M.g i) (M.w i)).2.2
  todo : ∀ i, k ≤ i → i < N → p.m.At i (M.m i) ∧ p.v.At i (M.v i) ∧ p.w.At i (M.w i)

theorem Stepped.next {lr b1 b2 eps : α} {n : ℤ} {M : Moments α} {N k : ℕ} {p : FC.Params α}
    {g : Buf α} (h : Stepped lr b1 b2 eps n M N k p) (hg : g.Has N M.g) (hk : k < N) :
    ∃ p', FC.adamAt lr b1 b2 eps n g k p = .ok p' ∧ Stepped lr b1 b2 eps n M N (k + 1) p' := by
  obtain ⟨hm, hv, hw⟩ := h.todo k le_rfl hk
  obtain ⟨p', h1, h2, h3, h4, h5, h6⟩ := adamAt_spec (lr := lr) (b1 := b1) (b2 := b2) (eps := eps)
    (n := n) hm hv (hg k hk) hw
  refine ⟨p', h1, ⟨by rw [h2.1, h.len.1], by rw [h2.2.1, h.len.2.1], by rw [h2.2.2, h.len.2.2]⟩,
    ?_, ?_⟩
  · intro i hi
    by_cases he : i = k
    · subst he; exact ⟨h3, h4, h5⟩
    · obtain ⟨q1, q2, q3⟩ := h.done i (by omega)
      obtain ⟨r1, r2, r3⟩ := h6 i he
      exact ⟨q1.of_eq r1, q2.of_eq r2, q3.of_eq r3⟩
  · intro i hi hi'
    obtain ⟨q1, q2, q3⟩ := h.todo i (by omega) hi'
    obtain ⟨r1, r2, r3⟩ := h6 i (by omega)
    exact ⟨q1.of_eq r1, q2.of_eq r2, q3.of_eq r3⟩

/-- The parameters and moments of a layer before an update. -/
structure FC.Ready (L : FC α) (W Bi : Moments α) : Prop where
  wlen : L.weightsM.length = L.outputSize * L.inputSize ∧
    L.weightsV.length = L.outputSize * L.inputSize ∧
    L.weights.length = L.outputSize * L.inputSize
  blen : L.biasM.length = L.outputSize ∧ L.biasV.length = L.outputSize ∧
    L.bias.length = L.outputSize
  wm : L.weightsM.Has (L.outputSize * L.inputSize) W.m
  wv : L.weightsV.Has (L.outputSize * L.inputSize) W.v
  wg : L.weightsGrad.Has (L.outputSize * L.inputSize) W.g
  ww : L.weights.Has (L.outputSize * L.inputSize) W.w
  bm : L.biasM.Has L.outputSize Bi.m
  bv : L.biasV.Has L.outputSize Bi.v
  bg : L.biasGrad.Has L.outputSize Bi.g
  bw : L.bias.Has L.outputSize Bi.w

theorem FC.step_spec {L : FC α} {W Bi : Moments α} (h : L.Ready W Bi) (lr b1 b2 : α) :
    ∃ ps bs, L.step lr b1 b2 = .ok { L with
        stepNum := L.stepNum + 1
        weightsM := ps.m, weightsV := ps.v, weights := ps.w
        biasM := bs.m, biasV := bs.v, bias := bs.w } ∧
      Stepped lr b1 b2 (ofRat (1 / 100000000)) (L.stepNum + 1) W (L.outputSize * L.inputSize)
        (L.outputSize * L.inputSize) ps ∧
      Stepped lr b1 b2 (ofRat (1 / 100000000)) (L.stepNum + 1) Bi L.outputSize L.outputSize bs := by
  unfold FC.step
  simp only
  obtain ⟨s, e, h1, h2⟩ := forN_inv (n := L.outputSize)
    (s := ((⟨L.weightsM, L.weightsV, L.weights⟩, ⟨L.biasM, L.biasV, L.bias⟩) :
      FC.Params α × FC.Params α))
    (f := fun i (s : FC.Params α × FC.Params α) => do
      let ps ← forN L.inputSize (fun j p => FC.adamAt lr b1 b2 (ofRat (1 / 100000000))
        (L.stepNum + 1) L.weightsGrad (i * L.inputSize + j) p) s.1
      let bs ← FC.adamAt lr b1 b2 (ofRat (1 / 100000000)) (L.stepNum + 1) L.biasGrad i s.2
      .ok (ps, bs))
    (fun i s => Stepped lr b1 b2 (ofRat (1 / 100000000)) (L.stepNum + 1) W
        (L.outputSize * L.inputSize) (i * L.inputSize) s.1 ∧
      Stepped lr b1 b2 (ofRat (1 / 100000000)) (L.stepNum + 1) Bi L.outputSize i s.2)
    ⟨⟨h.wlen, by intro i hi; omega, fun i _ hi => ⟨h.wm i hi, h.wv i hi, h.ww i hi⟩⟩,
      ⟨h.blen, by intro i hi; omega, fun i _ hi => ⟨h.bm i hi, h.bv i hi, h.bw i hi⟩⟩⟩ (by
    rintro i hi ⟨p, b⟩ ⟨g1, g2⟩
    obtain ⟨p', f1, f2⟩ := forN_inv (n := L.inputSize) (s := p)
      (f := fun j p => FC.adamAt lr b1 b2 (ofRat (1 / 100000000))
        (L.stepNum + 1) L.weightsGrad (i * L.inputSize + j) p)
      (fun j p => Stepped lr b1 b2 (ofRat (1 / 100000000)) (L.stepNum + 1) W
        (L.outputSize * L.inputSize) (i * L.inputSize + j) p) g1 (by
      intro j hj p hp
      exact hp.next h.wg (flat_lt hi hj))
    obtain ⟨b', f3, f4⟩ := g2.next h.bg hi
    refine ⟨(p', b'), ?_, ?_, f4⟩
    · simp only
      rw [f1, Res.bind_ok, f3, Res.bind_ok]
    · rw [Nat.add_mul, one_mul]; exact f2)
  rw [e, Res.bind_ok]
  exact ⟨s.1, s.2, rfl, h1, h2⟩

end Apollo.Net
