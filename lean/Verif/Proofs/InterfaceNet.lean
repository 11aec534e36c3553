import Verif.Proofs.InterfaceModels
import Verif.Proofs.PolicyNetRun
import Verif.Proofs.PolicyNetFile
import Verif.Proofs.NetEnds

/-!
# The state of the library while it is used as specified: PolicyNet
-/

namespace Apollo

open Spec Props Arith Net

variable {α : Type} [Arith α]

/-- A PolicyNet for `k` features and `n` policies whose region has features that satisfy `fits`. -/
structure GoodNet (fits : ℚ → Prop) (k : ℕ) (n : ℤ) (P : PolicyNet α) : Prop where
  fits : ∀ v, fits v → FitsUnsigned v
  net : ∃ S, P.Good (PolicyNet.shape n.toNat k) S
  gen : ∀ i, lt (ofRat 1) (P.gen i) = false

theorem GoodNet.index {fits : ℚ → Prop} {k : ℕ} {n : ℤ} {P : PolicyNet α} (h : GoodNet fits k n P)
    (hn : 1 ≤ n) {f : Features} (hl : f.length = k) (hf : ∀ v ∈ f, fits v) :
    ∃ p P', P.getIndex f = .ok (p, P') ∧ (0 ≤ p ∧ p < n) ∧ GoodNet fits k n P' := by
  obtain ⟨S, hS⟩ := h.net
  obtain ⟨bs, hb, hbl⟩ := PolicyNet.encode_total fun v hv => h.fits v (hf v hv)
  have ho : 0 < (PolicyNet.shape n.toNat k).output := by simp only [PolicyNet.shape]; omega
  obtain ⟨i, P', h1, h2, -, -, -, -, h3, h4⟩ := hS.getIndex ho hb
    (by rw [hbl, hl]; exact le_rfl)
  have h5 := h4 (h.gen 0)
  refine ⟨i, P', h1, ⟨h5.1, ?_⟩, h.fits, ⟨S, h2⟩, fun j => ?_⟩
  · have := h5.2
    simp only [PolicyNet.shape] at this
    omega
  · rcases h3 with h3 | h3 <;> rw [h3]
    · exact h.gen j
    · exact h.gen (j + 1)

theorem GoodNet.train {fits : ℚ → Prop} {k : ℕ} {n : ℤ} {P : PolicyNet α} (h : GoodNet fits k n P)
    {ds : Dataset} (hd : DataOk fits k n ds) (h0 : ds.length ≠ 0) :
    ∃ P', P.train ds = .ok P' ∧ GoodNet fits k n P' := by
  obtain ⟨S, hS⟩ := h.net
  have ht : PolicyNet.Trainable k (PolicyNet.shape n.toNat k).output ds := by
    intro m hm
    obtain ⟨e, he, rfl⟩ := List.mem_map.1 hm
    obtain ⟨h1, h2, h3⟩ := hd e he
    refine ⟨h1, fun v hv => h.fits v (h3 v hv), h2.1, ?_⟩
    have := h2.2
    simp only [PolicyNet.shape]
    omega
  obtain ⟨N, S', h1, h2, -⟩ := hS.train rfl ht (by rintro rfl; exact h0 rfl)
  exact ⟨_, h1, h.fits, ⟨S', h2⟩, h.gen⟩

omit [Arith α] in
theorem bytesOf_full [Stored α] {b : Buf α} {n : ℕ} (h : b.Full n) : ∃ s, PolicyNet.bytesOf b = .ok s := by
  have : ∀ x ∈ b, ∃ v, x = some v := by
    intro x hx
    obtain ⟨i, hi, rfl⟩ := List.mem_iff_getElem.1 hx
    obtain ⟨v, hv⟩ := h.2 i (h.1 ▸ hi)
    unfold Buf.At at hv
    rw [List.getElem?_eq_getElem hi] at hv
    exact ⟨v, Option.some.inj hv⟩
  clear h
  induction b with
  | nil => exact ⟨[], rfl⟩
  | cons x b ih =>
    obtain ⟨v, rfl⟩ := this x List.mem_cons_self
    obtain ⟨s, hs⟩ := ih fun y hy => this y (List.mem_cons_of_mem _ hy)
    exact ⟨Stored.enc v ++ s, by unfold PolicyNet.bytesOf; rw [hs, Res.bind_ok]⟩

omit [Arith α] in
theorem FC.WF.stored [Stored α] {L : FC α} {P : Spec.Net.Layer α} (h : L.WF P) :
    (∃ s, PolicyNet.bytesOf L.weights = .ok s) ∧ ∃ s, PolicyNet.bytesOf L.bias = .ok s := by
  refine ⟨bytesOf_full ⟨h.wlen, fun i hi => ?_⟩, bytesOf_full (h.b.full h.blen)⟩
  have hpos : 0 < L.inputSize := Nat.pos_of_ne_zero fun h0 => by rw [h0] at hi; simp at hi
  refine ⟨P.w (i / L.inputSize) (i % L.inputSize), ?_⟩
  · have := h.w (i / L.inputSize) (Nat.div_lt_of_lt_mul (by rw [Nat.mul_comm]; exact hi)) (i % L.inputSize)
      (Nat.mod_lt _ hpos)
    rwa [Nat.mul_comm, Nat.div_add_mod] at this

theorem GoodNet.store [Stored α] {fits : ℚ → Prop} {k : ℕ} {n : ℤ} {P : PolicyNet α}
    (h : GoodNet fits k n P) : ∃ s, P.store = .ok s := by
  obtain ⟨S, hS⟩ := h.net
  obtain ⟨⟨s1, e1⟩, s2, e2⟩ := FC.WF.stored hS.net.l1.wf
  obtain ⟨⟨s3, e3⟩, s4, e4⟩ := FC.WF.stored hS.net.l2.wf
  obtain ⟨⟨s5, e5⟩, s6, e6⟩ := FC.WF.stored hS.net.l3.wf
  unfold PolicyNet.store
  rw [e1, Res.bind_ok, e2, Res.bind_ok, e3, Res.bind_ok, e4, Res.bind_ok, e5, Res.bind_ok, e6, Res.bind_ok]
  exact ⟨_, rfl⟩

/-- The models of all kinds. -/
def GoodAny (fits : ℚ → Prop) (k : ℕ) (n : ℤ) (ds : Dataset) : AnyModel α → Prop
  | .plain m => GoodModel fits k n ds m
  | .net P => GoodNet fits k n P

theorem RealItem.is {items : List Item} (h : ∀ key, RealItem items key) (key : Str) (dflt : ℚ) :
    ∃ v, RealIs items key dflt v := by
  rcases h key with h | ⟨q, hq, h⟩
  · exact ⟨dflt, .inl ⟨h, rfl⟩⟩
  · exact ⟨_, .inr ⟨q, hq, h, rfl⟩⟩

theorem net_made {info : Str} (h : NetModel info) (gen : ℕ → ℕ) (nf n : ℤ) :
    ∃ ps lr beta beta1 beta2 th, parsePolicyModel info = .ok ("PolicyNet".toList, ps) ∧
      createModel gen "PolicyNet".toList nf n ps = .ok (.policyNet n nf lr beta beta1 beta2 th) ∧
      ps.find "load".toList = none ∧ ps.find "load-dataset".toList = none := by
  cases h with
  | net items hwf hkeys hreal =>
    have hdoc : ∀ x ∈ items, documented "PolicyNet".toList x.key := by
      intro x hx
      have := hkeys x hx
      simp only [List.mem_cons, List.not_mem_nil, or_false] at this
      rcases this with h | h | h | h | h <;> rw [h] <;> unfold documented <;> decide
    obtain ⟨ps, h1, h2⟩ := parse_documented "PolicyNet".toList items (by decide) hwf hdoc
    have hno : ∀ key : Str, key ∉ ["lr".toList, "beta".toList, "beta1".toList, "beta2".toList,
        "threshold".toList] → ps.find key = none := by
      intro key hk
      rw [h2]
      exact firstValue_none fun x hx hxk => hk (hxk ▸ hkeys x hx)
    obtain ⟨lr, e1⟩ := RealItem.is hreal "lr".toList (rnd64 (1 / 100))
    obtain ⟨b, e2⟩ := RealItem.is hreal "beta".toList (1 / 2)
    obtain ⟨b1, e3⟩ := RealItem.is hreal "beta1".toList (1 / 2)
    obtain ⟨b2, e4⟩ := RealItem.is hreal "beta2".toList (rnd64 (9 / 10))
    obtain ⟨th, e5⟩ := RealItem.is hreal "threshold".toList 0
    refine ⟨ps, lr, b, b1, b2, th, h1, ?_, hno _ (by decide), hno _ (by decide)⟩
    rw [← C31_policyNet gen [] nf n items (fun x hx => ⟨hwf x hx, hdoc x hx⟩) lr b b1 b2 th e1 e2 e3 e4 e5]
    exact (regionModel_eq gen [] _ items nf n ps (by decide) h1).symm

/-- The policy models keep to what the regions need of them, PolicyNet included. -/
theorem netOps_safe [Stored α] {env : Env (AnyModel α)} {gen : ℕ → ℕ → ℕ} {tenv : ℕ → TrainEnv}
    {d : NetDraws α} {ρ : UseRules} {pm : Str} (hops : env.ops = netOps gen tenv d)
    (hσ : ∀ t, SortSpec (tenv t).sort) (hd : ∀ t k, lt (ofRat 1) (d.gen t k) = false)
    (hmost : ρ.most ≤ 2 ^ 19)
    (hknown : ∀ name info n, ρ.known name info n → KnownModel name (if info = [] then pm else info) ∨
      NetModel (if info = [] then pm else info) ∧ ∀ v, ρ.fits info v → FitsUnsigned v)
    (hpoll : ∀ t l i, env.poll t l i ≠ .failed) (hasync : ρ.async → env.async) :
    Safe env (fun s => GoodAny (ρ.fits s)) ρ pm where
  grow := fun {s k n ds m} h f p x => by
    cases m with
    | plain m => exact GoodModel.grow h f p x
    | net P => exact h
  index := fun {s k n ds m f} hn h hl hf => by
    rw [hops]
    cases m with
    | plain m =>
      obtain ⟨p, m', h1, h2, h3⟩ := GoodModel.index hn h hl
      exact ⟨p, .plain m', by simp only [netOps, h1, Res.bind_ok], h2, h3⟩
    | net P =>
      obtain ⟨p, P', h1, h2, h3⟩ := GoodNet.index h hn hl hf
      exact ⟨p, .net P', by simp only [netOps, h1, Res.bind_ok], h2, h3⟩
  train := fun {s k n ds m} hn h hd h0 hl t => by
    rw [hops]
    cases m with
    | plain m =>
      obtain ⟨m', h1, h2, h3⟩ := GoodModel.train (hσ t) h hd h0 (le_trans hl hmost)
      exact ⟨.plain m', by simp only [netOps, h1, Res.bind_ok], h2, fun hw => h3 (hw _)⟩
    | net P =>
      obtain ⟨P', h1, h2⟩ := GoodNet.train h hd h0
      obtain ⟨s, h3⟩ := h2.store
      exact ⟨.net P', by simp only [netOps, h1, Res.bind_ok], h2, fun _ =>
        ⟨some s, by simp only [netOps, h3, Res.bind_ok]⟩⟩
  makes := fun {name info n nf} hk hn hnf t => by
    rcases hknown name info n hk with hk | ⟨hk, hf⟩
    · obtain ⟨mn, ps, mn', ps', info', m, h1, h2, h3, h4⟩ := known_made hk (gen t) (ρ.fits info) nf hn
      refine ⟨mn, ps, mn', ps', info', .plain m, h1, h2, ?_, h4⟩
      rw [hops]
      simp only [netOps, h3]
    · obtain ⟨ps, lr, b, b1, b2, th, h1, h2, h3, h4⟩ := net_made hk (gen t) nf n
      refine ⟨_, ps, "PolicyNet".toList, ps, (if info = [] then pm else info), .net (.new n.toNat nf.toNat
        (ofRat lr) (ofRat b) (ofRat b1) (ofRat b2) (ofRat th) (d.weights t) (d.gen t)), h1, ?_, ?_, h3, h4,
        by decide, by decide, hf, ⟨_, PolicyNet.good_new ..⟩, fun i => hd t i⟩
      · unfold resolveStaticRegion
        rw [if_neg (by decide)]
      · rw [hops]
        simp only [netOps, h2]
        rw [if_neg (by omega)]
  poll := hpoll
  async := hasync

end Apollo
