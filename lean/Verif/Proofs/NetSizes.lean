import Verif.Proofs.PolicyNetLoad

/-!
# What successful calls leave unchanged

No assumption is made on the arrays: whenever a call succeeds, the parameters are as stated.
-/

namespace Apollo.Net

open Apollo Arith

variable {α : Type} [Arith α]

theorem forN_keeps {σ : Type} {f : ℕ → σ → Res σ} (Q : σ → Prop)
    (hf : ∀ i s s', f i s = .ok s' → Q s → Q s') {n : ℕ} {s s' : σ} (h : forN n f s = .ok s')
    (hs : Q s) : Q s' := by
  induction n generalizing s' with
  | zero => cases h; exact hs
  | succ n ih =>
    simp only [forN] at h
    obtain ⟨t, ht, h⟩ := (Res.bind_eq_ok _ _ _).1 h
    exact hf _ _ _ h (ih ht)

omit [Arith α] in
theorem Buf.length_write {b b' : Buf α} {i : ℕ} {v : α} (h : b.write i v = .ok b') :
    b'.length = b.length := by
  unfold Buf.write at h
  split at h
  · cases h; exact List.length_set
  · cases h

namespace FC

theorem prepare_params {L L' : FC α} {n : ℕ} (h : L.prepare n = .ok L') :
    L'.weights = L.weights ∧ L'.bias = L.bias := by
  unfold prepare at h
  split at h
  · cases h; exact ⟨rfl, rfl⟩
  · obtain ⟨o, -, h⟩ := (Res.bind_eq_ok _ _ _).1 h
    cases h; exact ⟨rfl, rfl⟩

theorem forward_params {L L' : FC α} {x : Buf α} {n : ℕ} (h : L.forward x n = .ok L') :
    L'.weights = L.weights ∧ L'.bias = L.bias := by
  unfold forward at h
  obtain ⟨L₁, h1, h⟩ := (Res.bind_eq_ok _ _ _).1 h
  obtain ⟨o, -, h⟩ := (Res.bind_eq_ok _ _ _).1 h
  cases h
  have := prepare_params h1
  exact ⟨this.1, this.2⟩

theorem backward_params {L L' : FC α} {x c : Buf α} {n : ℕ} (h : L.backward x c n = .ok L') :
    L'.weights = L.weights ∧ L'.bias = L.bias := by
  unfold backward at h
  obtain ⟨a, -, h⟩ := (Res.bind_eq_ok _ _ _).1 h
  obtain ⟨b, -, h⟩ := (Res.bind_eq_ok _ _ _).1 h
  obtain ⟨c, -, h⟩ := (Res.bind_eq_ok _ _ _).1 h
  obtain ⟨g, -, h⟩ := (Res.bind_eq_ok _ _ _).1 h
  cases h
  exact ⟨rfl, rfl⟩

theorem adamAt_length {lr b1 b2 e : α} {n : ℤ} {g : Buf α} {i : ℕ} {p p' : Params α}
    (h : adamAt lr b1 b2 e n g i p = .ok p') : p'.w.length = p.w.length := by
  unfold adamAt at h
  obtain ⟨_, -, h⟩ := (Res.bind_eq_ok _ _ _).1 h
  obtain ⟨_, -, h⟩ := (Res.bind_eq_ok _ _ _).1 h
  obtain ⟨_, -, h⟩ := (Res.bind_eq_ok _ _ _).1 h
  obtain ⟨_, -, h⟩ := (Res.bind_eq_ok _ _ _).1 h
  dsimp only at h
  obtain ⟨_, -, h⟩ := (Res.bind_eq_ok _ _ _).1 h
  obtain ⟨_, -, h⟩ := (Res.bind_eq_ok _ _ _).1 h
  obtain ⟨w, hw, h⟩ := (Res.bind_eq_ok _ _ _).1 h
  cases h
  exact Buf.length_write hw

theorem step_length {L L' : FC α} {lr b1 b2 : α} (h : L.step lr b1 b2 = .ok L') :
    L'.weights.length = L.weights.length ∧ L'.bias.length = L.bias.length := by
  unfold step at h
  dsimp only at h
  obtain ⟨s, hs, h⟩ := (Res.bind_eq_ok _ _ _).1 h
  cases h
  refine forN_keeps (fun s : Params α × Params α =>
    s.1.w.length = L.weights.length ∧ s.2.w.length = L.bias.length) ?_ hs ⟨rfl, rfl⟩
  intro i s s' h hq
  obtain ⟨ps, h1, h⟩ := (Res.bind_eq_ok _ _ _).1 h
  obtain ⟨bs, h2, h⟩ := (Res.bind_eq_ok _ _ _).1 h
  cases h
  exact ⟨forN_keeps (fun p : Params α => p.w.length = L.weights.length)
    (fun _ _ _ h hp => (adamAt_length h).trans hp) h1 hq.1, (adamAt_length h2).trans hq.2⟩

end FC

end Apollo.Net

namespace Apollo.Network

open Apollo Arith Net

variable {α : Type} [Arith α]

/-- The same parameters. -/
structure EqParams (N N' : Network α) : Prop where
  w1 : N'.layer1.weights = N.layer1.weights
  b1 : N'.layer1.bias = N.layer1.bias
  w2 : N'.layer2.weights = N.layer2.weights
  b2 : N'.layer2.bias = N.layer2.bias
  w3 : N'.layer3.weights = N.layer3.weights
  b3 : N'.layer3.bias = N.layer3.bias

omit [Arith α] in
theorem EqParams.trans {N N' N'' : Network α} (h : EqParams N N') (h' : EqParams N' N'') :
    EqParams N N'' :=
  ⟨h'.w1.trans h.w1, h'.b1.trans h.b1, h'.w2.trans h.w2, h'.b2.trans h.b2, h'.w3.trans h.w3,
    h'.b3.trans h.b3⟩

theorem forward_params {N N' : Network α} {x : Buf α} {n : ℕ} (h : N.forward x n = .ok N') :
    EqParams N N' := by
  unfold forward at h
  obtain ⟨l1, h1, h⟩ := (Res.bind_eq_ok _ _ _).1 h
  obtain ⟨r1, -, h⟩ := (Res.bind_eq_ok _ _ _).1 h
  obtain ⟨l2, h2, h⟩ := (Res.bind_eq_ok _ _ _).1 h
  obtain ⟨r2, -, h⟩ := (Res.bind_eq_ok _ _ _).1 h
  obtain ⟨l3, h3, h⟩ := (Res.bind_eq_ok _ _ _).1 h
  obtain ⟨s, -, h⟩ := (Res.bind_eq_ok _ _ _).1 h
  cases h
  obtain ⟨a, b⟩ := FC.forward_params h1
  obtain ⟨c, d⟩ := FC.forward_params h2
  obtain ⟨e, f⟩ := FC.forward_params h3
  exact ⟨a, b, c, d, e, f⟩

theorem backward_params {N N' : Network α} {x r : Buf α} {a : List ℤ} {n : ℕ}
    (h : N.backward x a r n = .ok N') : EqParams N N' := by
  unfold backward at h
  obtain ⟨s, -, h⟩ := (Res.bind_eq_ok _ _ _).1 h
  obtain ⟨l3, h3, h⟩ := (Res.bind_eq_ok _ _ _).1 h
  obtain ⟨r2, -, h⟩ := (Res.bind_eq_ok _ _ _).1 h
  obtain ⟨l2, h2, h⟩ := (Res.bind_eq_ok _ _ _).1 h
  obtain ⟨r1, -, h⟩ := (Res.bind_eq_ok _ _ _).1 h
  obtain ⟨l1, h1, h⟩ := (Res.bind_eq_ok _ _ _).1 h
  cases h
  obtain ⟨a, b⟩ := FC.backward_params h1
  obtain ⟨c, d⟩ := FC.backward_params h2
  obtain ⟨e, f⟩ := FC.backward_params h3
  exact ⟨a, b, c, d, e, f⟩

/-- The lengths of the arrays of parameters. -/
def sizes (N : Network α) : List ℕ :=
  [N.layer1.weights.length, N.layer1.bias.length, N.layer2.weights.length, N.layer2.bias.length,
    N.layer3.weights.length, N.layer3.bias.length]

omit [Arith α] in
theorem EqParams.sizes {N N' : Network α} (h : EqParams N N') : N'.sizes = N.sizes := by
  unfold Network.sizes
  rw [h.w1, h.b1, h.w2, h.b2, h.w3, h.b3]

theorem trainStep_sizes {N N' : Network α} {x r : Buf α} {a : List ℤ} {n : ℕ}
    (h : N.trainStep x a r n = .ok N') : N'.sizes = N.sizes := by
  unfold trainStep at h
  obtain ⟨N₁, h1, h⟩ := (Res.bind_eq_ok _ _ _).1 h
  obtain ⟨N₂, h2, h⟩ := (Res.bind_eq_ok _ _ _).1 h
  rw [← (forward_params h1).sizes, ← (backward_params h2).sizes]
  unfold step at h
  obtain ⟨l1, h1, h⟩ := (Res.bind_eq_ok _ _ _).1 h
  obtain ⟨l2, h2, h⟩ := (Res.bind_eq_ok _ _ _).1 h
  obtain ⟨l3, h3, h⟩ := (Res.bind_eq_ok _ _ _).1 h
  cases h
  unfold sizes
  dsimp only
  rw [(FC.step_length h1).1, (FC.step_length h1).2, (FC.step_length h2).1, (FC.step_length h2).2,
    (FC.step_length h3).1, (FC.step_length h3).2]

end Apollo.Network

namespace Apollo.PolicyNet

open Apollo Arith Net

variable {α : Type} [Arith α]

omit [Arith α] in
theorem readProbs_length {b : Buf α} {n : ℕ} {ps : List α} (h : readProbs b n = .ok ps) :
    ps.length = n := by
  induction n generalizing ps with
  | zero => cases h; rfl
  | succ n ih =>
    unfold readProbs at h
    obtain ⟨qs, h1, h⟩ := (Res.bind_eq_ok _ _ _).1 h
    obtain ⟨p, -, h⟩ := (Res.bind_eq_ok _ _ _).1 h
    cases h
    simp [ih h1]

/-- The object has `n` policies and so have the entries of its cache; its generator delivers numbers
up to one; its arrays have the sizes of a new network. -/
structure In (n nf : ℕ) (P : PolicyNet α) : Prop where
  num : P.numPolicies = n
  cache : ∀ e ∈ P.cache, e.2.length = n
  gen : ∀ k, lt (ofRat 1) (P.gen k) = false
  sizes : P.net.sizes = [(64 * nf + n) / 2 * (64 * nf), (64 * nf + n) / 2,
    (64 * nf + n) / 2 * ((64 * nf + n) / 2), (64 * nf + n) / 2, n * ((64 * nf + n) / 2), n]

theorem in_new (n nf : ℕ) (lr beta beta1 beta2 th : α) (init : ℕ → ℕ → α) {gen : ℕ → α}
    (hg : ∀ k, lt (ofRat 1) (gen k) = false) :
    In n nf (PolicyNet.new n nf lr beta beta1 beta2 th init gen) := by
  refine ⟨rfl, by simp [PolicyNet.new], hg, ?_⟩
  simp [PolicyNet.new, Network.new, Network.sizes, FC.new, Buf.zeros]

/-- What asking for a policy changes. -/
structure Asked (P P' : PolicyNet α) : Prop where
  params : Network.EqParams P.net P'.net
  num : P'.numPolicies = P.numPolicies
  avg : P'.rewardMovingAvg = P.rewardMovingAvg
  count : P'.trainCount = P.trainCount

theorem evaluate_ok {P P' : PolicyNet α} {f : List ℚ} {ps : List α}
    (h : P.evaluate f = .ok (ps, P')) :
    ps.length = P.numPolicies ∧ ∃ N, Network.EqParams P.net N ∧ P' = { P with net := N } := by
  unfold evaluate at h
  obtain ⟨bs, -, h⟩ := (Res.bind_eq_ok _ _ _).1 h
  obtain ⟨N, hN, h⟩ := (Res.bind_eq_ok _ _ _).1 h
  obtain ⟨qs, hq, h⟩ := (Res.bind_eq_ok _ _ _).1 h
  cases h
  exact ⟨readProbs_length hq, N, Network.forward_params hN, rfl⟩

theorem getIndex_ok {P P' : PolicyNet α} {f : List ℚ} {i : ℤ} (h : P.getIndex f = .ok (i, P')) :
    Asked P P' ∧ ∀ n nf, 0 < n → In n nf P → (0 ≤ i ∧ i < n) ∧ In n nf P' := by
  unfold PolicyNet.getIndex at h
  split at h
  · cases h
    exact ⟨⟨⟨rfl, rfl, rfl, rfl, rfl, rfl⟩, rfl, rfl, rfl⟩,
      fun n nf hn hi => ⟨⟨le_refl _, by exact_mod_cast hn⟩, hi⟩⟩
  · obtain ⟨⟨ps, P₁⟩, h1, h⟩ := (Res.bind_eq_ok _ _ _).1 h
    obtain ⟨⟨j, gen⟩, h2, h⟩ := (Res.bind_eq_ok _ _ _).1 h
    cases h
    have key : Asked P P₁ ∧ P₁.gen = P.gen ∧ ∀ n, P.numPolicies = n →
        (∀ e ∈ P.cache, e.2.length = n) → ps.length = n ∧ ∀ e ∈ P₁.cache, e.2.length = n := by
      unfold PolicyNet.probabilities at h1
      obtain ⟨k, -, h1⟩ := (Res.bind_eq_ok _ _ _).1 h1
      cases hc : P.cached k with
      | some qs =>
        rw [hc] at h1
        cases h1
        exact ⟨⟨⟨rfl, rfl, rfl, rfl, rfl, rfl⟩, rfl, rfl, rfl⟩, rfl,
          fun n _ hca => ⟨hca _ (cached_some hc), hca⟩⟩
      | none =>
        rw [hc] at h1
        obtain ⟨⟨qs, P₂⟩, h3, h1⟩ := (Res.bind_eq_ok _ _ _).1 h1
        cases h1
        obtain ⟨hl, N, hN, rfl⟩ := evaluate_ok h3
        refine ⟨⟨hN, rfl, rfl, rfl⟩, rfl, fun n hn hca => ⟨hl.trans hn, fun e he => ?_⟩⟩
        rcases List.mem_append.1 he with he | he
        · exact hca e he
        · rw [List.mem_singleton.1 he]
          exact hl.trans hn
    obtain ⟨ha, hgen, hlen⟩ := key
    refine ⟨⟨ha.params, ha.num, ha.avg, ha.count⟩, fun n nf hn hi => ?_⟩
    obtain ⟨hps, hca⟩ := hlen n hi.num hi.cache
    obtain ⟨j', gen', hs, -, hg', -⟩ := sample_ok ps P₁.gen
    rw [h2] at hs
    cases hs
    have hlt := sample_lt (by rw [hps]; exact hn) (by rw [hgen]; exact hi.gen 0) h2
    rw [hps] at hlt
    refine ⟨⟨by omega, by exact_mod_cast hlt⟩, ha.num.trans hi.num, hca, fun k => ?_,
      ha.params.sizes.trans hi.sizes⟩
    rcases hg' with hg' | hg'
    · change lt _ (gen k) = false
      rw [hg', hgen]
      exact hi.gen k
    · change lt _ (gen k) = false
      rw [hg', hgen]
      exact hi.gen (k + 1)

theorem train_in {P P' : PolicyNet α} {ds : Dataset} (h : P.train ds = .ok P') {n nf : ℕ}
    (hi : In n nf P) : In n nf P' := by
  unfold train at h
  obtain ⟨st, -, h⟩ := (Res.bind_eq_ok _ _ _).1 h
  obtain ⟨P₁, h1, h⟩ := (Res.bind_eq_ok _ _ _).1 h
  cases h
  have h2 : P₁.numPolicies = P.numPolicies ∧ P₁.gen = P.gen ∧ P₁.net.sizes = P.net.sizes := by
    unfold trainNet at h1
    cases st with
    | nil => cases h1; exact ⟨rfl, rfl, rfl⟩
    | cons a st =>
      dsimp only at h1
      split at h1
      · cases h1; exact ⟨rfl, rfl, rfl⟩
      · obtain ⟨rows, -, h1⟩ := (Res.bind_eq_ok _ _ _).1 h1
        obtain ⟨N, hN, h1⟩ := (Res.bind_eq_ok _ _ _).1 h1
        cases h1
        exact ⟨rfl, rfl, Network.trainStep_sizes hN⟩
  exact ⟨h2.1.trans hi.num, by simp, fun k => by rw [h2.2.1]; exact hi.gen k,
    h2.2.2.trans hi.sizes⟩

theorem load_in [Stored α] {P P' : PolicyNet α} {file : Option (List Char)}
    (h : P.load file = .ok P') {n nf : ℕ} (hi : In n nf P) : In n nf P' := by
  unfold PolicyNet.load at h
  cases file with
  | none => cases h; exact hi
  | some txt =>
    dsimp only at h
    obtain ⟨⟨w1, f1⟩, e1, h⟩ := (Res.bind_eq_ok _ _ _).1 h
    obtain ⟨⟨b1, f2⟩, e2, h⟩ := (Res.bind_eq_ok _ _ _).1 h
    obtain ⟨⟨w2, f3⟩, e3, h⟩ := (Res.bind_eq_ok _ _ _).1 h
    obtain ⟨⟨b2, f4⟩, e4, h⟩ := (Res.bind_eq_ok _ _ _).1 h
    obtain ⟨⟨w3, f5⟩, e5, h⟩ := (Res.bind_eq_ok _ _ _).1 h
    obtain ⟨⟨b3, f6⟩, e6, h⟩ := (Res.bind_eq_ok _ _ _).1 h
    dsimp only at h
    obtain ⟨avg, e7, h⟩ := (Res.bind_eq_ok _ _ _).1 h
    cases h
    refine ⟨hi.num, hi.cache, hi.gen, ?_⟩
    rw [← hi.sizes]
    unfold Network.sizes
    dsimp only
    rw [(readArray_fullBuf e1).1, (readArray_fullBuf e2).1, (readArray_fullBuf e3).1,
      (readArray_fullBuf e4).1, (readArray_fullBuf e5).1, (readArray_fullBuf e6).1]

end Apollo.PolicyNet
