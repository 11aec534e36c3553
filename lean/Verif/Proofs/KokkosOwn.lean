import Verif.Spec.KokkosOwn
import Verif.Proofs.KokkosFrom

/-!
# The context of a region between a request and its end
-/

namespace Apollo.Spec

open Kokkos

theorem AskedFor.snoc {ops : List KOp} {c : ℕ} {k : List ℕ} (h : AskedFor ops c k) {o : KOp}
    (h1 : o ≠ .endContext c) (h2 : ¬ Asks o c) : AskedFor (ops ++ [o]) c k := by
  obtain ⟨pre, ctx, t, suf, rfl, a, b, d⟩ := h
  refine ⟨pre, ctx, t, suf ++ [o], by simp, a, b, fun x hx => ?_⟩
  rcases List.mem_append.1 hx with hx | hx
  · exact d x hx
  · rw [List.mem_singleton.1 hx]; exact ⟨h1, h2⟩

end Apollo.Spec

namespace Apollo.Kokkos

open Spec

variable {M : Type} {e : KEnv M}

/-- Every open context belongs to the region of the problem it was last asked for. -/
def OpenFor (ops : List KOp) (s : State M) : Prop :=
  ∀ c r p, s.contexts c = some (r, p) → ∃ k, AskedFor ops c k ∧ (k, r) ∈ s.regions

theorem OpenFor.step {ops : List KOp} {s s' : State M} (hi : KInv s) (hs : OpenFor ops s) {o : KOp}
    {x : Ret} (h : kstep e s o = .ok (x, s')) : OpenFor (ops ++ [o]) s' := by
  cases o with
  | declareOutput id name c =>
    obtain ⟨s₁, h1, h⟩ := (Res.bind_eq_ok _ _ _).1 h
    cases h
    obtain ⟨-, n, vs, -, rfl⟩ := declareOutput_ok h1
    intro c r p hc
    obtain ⟨k, a, b⟩ := hs c r p hc
    exact ⟨k, a.snoc (by simp) (by simp [Asks]), b⟩
  | declareInput id name =>
    obtain ⟨s₁, h1, h⟩ := (Res.bind_eq_ok _ _ _).1 h
    cases h
    obtain ⟨-, rfl⟩ := declareInput_ok h1
    intro c r p hc
    obtain ⟨k, a, b⟩ := hs c r p hc
    exact ⟨k, a.snoc (by simp) (by simp [Asks]), b⟩
  | request cid ctx tuning =>
    rcases request_ok h with
      ⟨ht, rfl, rfl⟩ | ⟨ht, n, r₀, s₁, w₁, w₂, p₀, w₃, vs, h0, -, h2, -, -, -, -, rfl, rfl⟩
    · intro c r p hc
      obtain ⟨k, a, b⟩ := hs c r p hc
      refine ⟨k, a.snoc (by simp) ?_, b⟩
      rintro ⟨_, _, h1, h2⟩
      cases h1
      exact h2 ht
    · obtain ⟨-, b2, b3, -, b5, -⟩ := hi.problem (ctx := ctx.map Prod.fst) h0 ht (by simp) h2
      intro c r p hc
      change Function.update s₁.contexts cid _ c = _ at hc
      by_cases hcc : c = cid
      · subst hcc
        rw [Function.update_self] at hc
        cases hc
        exact ⟨_, ⟨ops, ctx, tuning, [], rfl, ht, rfl, by simp⟩, b2⟩
      · rw [Function.update_of_ne hcc, b5] at hc
        obtain ⟨k, a, b⟩ := hs c r p hc
        refine ⟨k, a.snoc (by simp) ?_, b3 _ b⟩
        rintro ⟨_, _, h1, -⟩
        cases h1
        exact hcc rfl
  | endContext cid =>
    have h' : endContext e s cid = .ok (x, s') := h
    rcases endContext_ok h' with ⟨hn, rfl, rfl⟩ | ⟨r₀, p₀, w, hc₀, -, -, -, h2⟩
    · intro c r p hc
      obtain ⟨k, a, b⟩ := hs c r p hc
      refine ⟨k, a.snoc ?_ (by simp [Asks]), b⟩
      intro hcc
      cases hcc
      rw [hn] at hc
      cases hc
    · have key : ∀ c r p, Function.update s.contexts cid none c = some (r, p) →
          ∃ k, AskedFor (ops ++ [.endContext cid]) c k ∧ (k, r) ∈ s.regions := by
        intro c r p hc
        by_cases hcc : c = cid
        · subst hcc
          rw [Function.update_self] at hc
          cases hc
        · rw [Function.update_of_ne hcc] at hc
          obtain ⟨k, a, b⟩ := hs c r p hc
          refine ⟨k, a.snoc ?_ (by simp [Asks]), b⟩
          intro h
          cases h
          exact hcc rfl
      rcases h2 with ⟨-, w', -, -, rfl⟩ | ⟨-, -, rfl⟩
      · exact key
      · exact key

theorem OpenFor.exec {pre ops : List KOp} {s s' : State M} {xs : List Ret} (hi : KInv s)
    (hs : OpenFor pre s) (h : kexec e ops s = .ok (xs, s')) : OpenFor (pre ++ ops) s' := by
  induction ops generalizing pre s xs with
  | nil => simp only [kexec] at h; cases h; simpa using hs
  | cons o ops ih =>
    obtain ⟨x, s₁, ys, h1, h2, rfl⟩ := kexec_cons h
    simpa using ih (hi.step h1).1 (hs.step hi h1) h2

/-! ## No pending contexts -/

/-- No region waits for asynchronous executions. -/
def NoPending (w : World M) : Prop := ∀ r R, w.regions r = some R → R.pending = []

theorem NoPending.update {w w' : World M} (h : NoPending w) {r : ℕ} {R : Region}
    (hr : w'.regions = Function.update w.regions r (some R)) (hp : R.pending = []) :
    NoPending w' := by
  intro r' R' hR'
  rw [hr] at hR'
  by_cases heq : r' = r
  · subst heq
    rw [Function.update_self] at hR'
    cases hR'
    exact hp
  · rw [Function.update_of_ne heq] at hR'
    exact h r' R' hR'

/-- Without pending contexts, training changes no context. -/
theorem holds_kept (env : Env M) (c : CtxPtr) (C : Ctx) :
    Kept env (fun _ => False) fun w => NoPending w ∧ w.ctxs c = some C := by
  refine Kept.of ?_ ?_
  · rintro w l w' ht ⟨h1, h2⟩
    exact ⟨fun r R hR => h1 r R (by rw [← ht.regions]; exact hR), by rw [ht.ctxs]; exact h2⟩
  · rintro w r w' ⟨h1, h2⟩ h
    unfold collectPending at h
    obtain ⟨R, hR, h⟩ := (Res.bind_eq_ok _ _ _).1 h
    rw [h1 r R (World.region_ok.1 hR)] at h
    simp only [collectLoop, Res.bind_ok] at h
    obtain ⟨R', hR', h⟩ := (Res.bind_eq_ok _ _ _).1 h
    cases h
    exact ⟨NoPending.update h1 (r := r) (R := { R' with pending := [] }) rfl rfl, h2⟩

theorem setFeatures_ctx {hash : Str → ℕ} {c : CtxPtr} : ∀ {vs : List (ℕ × Value)} {w w' : World M}
    {C : Ctx}, w.ctxs c = some C → setFeatures hash c vs w = .ok w' →
    w'.ctxs c = some { C with features := C.features ++ vs.map fun v => toFloat hash v.2 } ∧
    (∀ c', c' ≠ c → w'.ctxs c' = w.ctxs c') ∧ w'.regions = w.regions ∧ w'.tick = w.tick
  | [], w, w', C, hC, h => by
    simp only [setFeatures] at h; cases h; exact ⟨by simpa using hC, fun _ _ => rfl, rfl, rfl⟩
  | v :: vs, w, w', C, hC, h => by
    unfold setFeatures at h
    obtain ⟨w₁, h1, h⟩ := (Res.bind_eq_ok _ _ _).1 h
    obtain ⟨C', hC', rfl⟩ := setFeature_ok h1
    rw [hC] at hC'
    cases hC'
    obtain ⟨a, b, d, t⟩ := setFeatures_ctx (C := { C with features := C.features ++ [toFloat hash v.2] })
      (by simp [World.emit, World.setCtx]) h
    refine ⟨by rw [a]; simp, fun c' hc' => ?_, d, t⟩
    rw [b c' hc']
    simp [World.emit, World.setCtx, Function.update_of_ne hc']

/-- What an answered request leaves in the context of its region. -/
theorem request_ctx {s s' : State M} {cid : ℕ} {ctx : List (ℕ × Value)} {tuning : List ℕ} {r : ℕ}
    {vs : List Value} (hn : NoPending s.world)
    (h : request e s cid ctx tuning = .ok (.values r vs, s')) :
    NoPending s'.world ∧ s'.contexts cid = some (r, .sync r) ∧
    (∃ C t, s'.world.ctxs (.sync r) = some C ∧ C.features = ctx.map (fun v => toFloat e.hash v.2) ∧
      decode s' tuning C.policy = .ok vs ∧ C.start = some (seconds (e.env.clock t)) ∧
      s.world.tick ≤ t ∧ t < s'.world.tick) ∧
    ∀ r', r' ≠ r → r' < s.world.nextRegion → s'.world.ctxs (.sync r') = s.world.ctxs (.sync r') := by
  rcases request_ok h with
    ⟨-, hx, -⟩ | ⟨ht, n, r', s₁, w₁, w₂, p, w₃, vs', h0, -, h2, h3, h4, h5, h6, hx, rfl⟩
  · cases hx
  cases hx
  have hp : NoPending s₁.world ∧ s.world.tick ≤ s₁.world.tick ∧
      ∀ r', r' ≠ r → r' < s.world.nextRegion → s₁.world.ctxs (.sync r') = s.world.ctxs (.sync r') := by
    rcases problemRegion_ok h2 with ⟨-, rfl⟩ | ⟨-, name, info, u, w, -, -, h1, rfl⟩
    · exact ⟨hn, le_rfl, fun _ _ _ => rfl⟩
    · obtain ⟨R, m, l, h6⟩ := createRegion_ok h1
      refine ⟨NoPending.update hn h6.regions h6.pending, h6.tick, fun r' hr' _ => ?_⟩
      change w.ctxs _ = _
      rw [h6.ctxs, Function.update_of_ne (by simpa using hr')]
  obtain ⟨hp1, hp2, hp3⟩ := hp
  obtain ⟨R, C, hb⟩ := begin_ok h3
  have hc1 : w₁.ctxs (.sync r) = some { C with
      features := [], idx := R.idx.toNat, start := some (seconds (e.env.clock s₁.world.tick)) } := by
    rw [hb.ctxs, Function.update_self]
  obtain ⟨f1, f2, f3, f4⟩ := setFeatures_ctx hc1 h4
  obtain ⟨R', m, C', m', F, g1, g2, g3, g4, rfl⟩ := getPolicyIndex_ok h5
  rw [f1] at g3
  cases g3
  have hnp₁ : NoPending w₁ := hp1.update hb.regions (hp1 r R hb.region)
  refine ⟨?_, Function.update_self .., ⟨_, s₁.world.tick, Function.update_self .., by simp, ?_, rfl,
    hp2, ?_⟩, ?_⟩
  · intro r'' R'' hR''
    change w₂.regions r'' = some R'' at hR''
    rw [f3] at hR''
    exact hnp₁ r'' R'' hR''
  · rw [← h6]
    have hdec : ∀ (s₁ s₂ : State M) (ids : List ℕ) (p : ℤ), s₁.decls = s₂.decls →
        decode s₁ ids p = decode s₂ ids p := by
      intro s₁ s₂ ids
      induction ids with
      | nil => intros; rfl
      | cons id ids ih =>
        intro p hd
        simp only [decode, State.decl, hd, fun q => ih q hd]
    exact hdec _ _ _ _ rfl
  · change s₁.world.tick < w₂.tick
    rw [f4, hb.tick]
    omega
  · intro r'' hr'' hlt
    have hne : CtxPtr.sync r'' ≠ .sync r := by simpa using hr''
    change Function.update w₂.ctxs (.sync r) _ (.sync r'') = _
    rw [Function.update_of_ne hne, f2 _ hne, hb.ctxs, Function.update_of_ne hne]
    exact hp3 r'' hr'' hlt

/-- What the end of a context of region `r` leaves in the contexts of other regions. -/
theorem endContext_ctx {s s' : State M} (hi : KInv s) {cid : ℕ} {x : Ret} (hn : NoPending s.world)
    (h : endContext e s cid = .ok (x, s')) :
    NoPending s'.world ∧ ∀ r C, (∀ r' p, s.contexts cid = some (r', p) → r' ≠ r) →
      s.world.ctxs (.sync r) = some C → s'.world.ctxs (.sync r) = some C := by
  rcases endContext_ok h with ⟨-, -, rfl⟩ | ⟨r₀, c, w, hc, h1, -, -, h2⟩
  · exact ⟨hn, fun _ _ _ h => h⟩
  obtain ⟨rfl, -⟩ := hi.ctxs cid r₀ c hc
  obtain ⟨R, C, hR, hC, ⟨m, -, -, h3⟩ | ⟨h3, -⟩⟩ := endCtx_ok h1
  swap
  · exact absurd rfl h3
  obtain ⟨R₁, m₁, C₁, l, h4⟩ := collectContext_ok h3
  have hnw : NoPending w := by
    have hR₁ : s.world.regions r₀ = some R₁ := h4.region
    refine NoPending.update (w := s.world) hn h4.regions ?_
    have := hn r₀ R₁ hR₁
    unfold recRegion
    split <;> simpa using this
  have hcw : ∀ r C, r₀ ≠ r → s.world.ctxs (.sync r) = some C → w.ctxs (.sync r) = some C := by
    intro r C hr hC
    have hne : CtxPtr.sync r ≠ .sync r₀ := by simpa using fun h => hr h.symm
    rw [h4.ctxs, Function.update_of_ne hne]
    change Function.update s.world.ctxs (.sync r₀) _ (.sync r) = _
    rw [Function.update_of_ne hne]
    exact hC
  rcases h2 with ⟨-, w', h5, -, rfl⟩ | ⟨-, -, rfl⟩
  · refine ⟨((holds_kept e.env (.sync r₀) _).apolloTrain (w := w) (w' := w')
      ⟨hnw, by rw [h4.ctxs, Function.update_self, if_pos rfl]⟩ h5).1, fun r C hr hC => ?_⟩
    exact ((holds_kept e.env (.sync r) C).apolloTrain (w := w) (w' := w')
      ⟨hnw, hcw r C (hr r₀ _ hc) hC⟩ h5).2
  · exact ⟨hnw, fun r C hr hC => hcw r C (hr r₀ _ hc) hC⟩

theorem NoPending.step {s s' : State M} (hi : KInv s) (hn : NoPending s.world) {o : KOp} {x : Ret}
    (h : kstep e s o = .ok (x, s')) : NoPending s'.world := by
  cases o with
  | declareOutput id name c =>
    obtain ⟨s₁, h1, h⟩ := (Res.bind_eq_ok _ _ _).1 h
    cases h
    obtain ⟨-, n, vs, -, rfl⟩ := declareOutput_ok h1
    exact hn
  | declareInput id name =>
    obtain ⟨s₁, h1, h⟩ := (Res.bind_eq_ok _ _ _).1 h
    cases h
    obtain ⟨-, rfl⟩ := declareInput_ok h1
    exact hn
  | request cid ctx tuning =>
    have h' : request e s cid ctx tuning = .ok (x, s') := h
    rcases request_ok h' with ⟨-, -, rfl⟩ | ⟨-, n, r, s₁, w₁, w₂, p, w₃, vs, -, -, -, -, -, -, -, rfl, -⟩
    · exact hn
    · exact (request_ctx hn h').1
  | endContext cid => exact (endContext_ctx hi hn h).1

theorem NoPending.exec {ops : List KOp} {s s' : State M} {xs : List Ret} (hi : KInv s)
    (hn : NoPending s.world) (h : kexec e ops s = .ok (xs, s')) : NoPending s'.world := by
  induction ops generalizing s xs with
  | nil => simp only [kexec] at h; cases h; exact hn
  | cons o ops ih =>
    obtain ⟨x, s₁, ys, h1, h2, rfl⟩ := kexec_cons h
    exact ih (hi.step h1).1 (hn.step hi h1) h2

/-- While no other request for the problem is made and no other context of it is open, its context
keeps what the request left there. -/
theorem ctx_kept {pre mid : List KOp} {s s' : State M} {xs : List Ret} {c r : ℕ} {k : List ℕ} {C : Ctx}
    (hi : KInv s) (ho : OpenFor pre s) (hn : NoPending s.world) (hk : (k, r) ∈ s.regions)
    (hC : s.world.ctxs (.sync r) = some C) (hother : ∀ c', c' ≠ c → ¬ AskedFor pre c' k)
    (hmid : ∀ o ∈ mid, o ≠ .endContext c ∧ ¬ AsksFor o k)
    (h : kexec e mid s = .ok (xs, s')) : s'.world.ctxs (.sync r) = some C := by
  induction mid generalizing pre s xs with
  | nil => simp only [kexec] at h; cases h; exact hC
  | cons o mid ih =>
    obtain ⟨x, s₁, ys, h1, h2, rfl⟩ := kexec_cons h
    obtain ⟨m1, m2⟩ := hmid o (by simp)
    have hmono : (k, r) ∈ s₁.regions ∧ s₁.world.ctxs (.sync r) = some C := by
      cases o with
      | declareOutput id name cs =>
        obtain ⟨s₂, h3, h1⟩ := (Res.bind_eq_ok _ _ _).1 h1
        cases h1
        obtain ⟨-, n, vs, -, rfl⟩ := declareOutput_ok h3
        exact ⟨hk, hC⟩
      | declareInput id name =>
        obtain ⟨s₂, h3, h1⟩ := (Res.bind_eq_ok _ _ _).1 h1
        cases h1
        obtain ⟨-, rfl⟩ := declareInput_ok h3
        exact ⟨hk, hC⟩
      | request cid ctx tuning =>
        have h' : request e s cid ctx tuning = .ok (x, s₁) := h1
        rcases request_ok h' with
          ⟨-, -, rfl⟩ | ⟨ht, n, r', s₂, w₁, w₂, p, w₃, vs, h0, -, h3, -, -, -, -, rfl, heq⟩
        · exact ⟨hk, hC⟩
        · obtain ⟨b1, b2, b3, -⟩ := hi.problem (ctx := ctx.map Prod.fst) h0 ht (by simp) h3
          have hkr : (k, r) ∈ s₁.regions := by rw [heq]; exact b3 _ hk
          have hne : r ≠ r' := by
            rintro rfl
            exact m2 ⟨cid, ctx, tuning, rfl, ht, b1.inj _ _ _ (b3 _ hk) b2⟩
          exact ⟨hkr, by rw [(request_ctx hn h').2.2.2 r hne (hi.fresh k r hk)]; exact hC⟩
      | endContext cid =>
        have h' : endContext e s cid = .ok (x, s₁) := h1
        refine ⟨by rw [(hi.endContext h').2.1]; exact hk,
          (endContext_ctx hi hn h').2 r C (fun r' p hc => ?_) hC⟩
        rintro rfl
        obtain ⟨k', a, b⟩ := ho cid r' p hc
        have := hi.inj _ _ _ b hk
        subst this
        exact hother cid (fun h => m1 (by rw [h])) a
    refine ih (pre := pre ++ [o]) (hi.step h1).1 (ho.step hi h1) (hn.step hi h1) hmono.1 hmono.2 ?_
      (fun o ho => hmid o (by simp [ho])) h2
    rintro c' hc' ⟨p', ctx, t, suf, heq, ht, hkk, hs⟩
    rcases List.eq_nil_or_concat suf with rfl | ⟨suf', o', rfl⟩
    · have := List.append_inj_right' heq rfl
      cases this
      exact m2 ⟨_, _, _, rfl, ht, hkk⟩
    · have heq' : pre ++ [o] = (p' ++ .request c' ctx t :: suf') ++ [o'] := by simpa using heq
      obtain ⟨rfl, -⟩ := List.append_inj' heq' rfl
      exact hother c' hc' ⟨p', ctx, t, suf', rfl, ht, hkk, fun x hx => hs x (by simp [hx])⟩

end Apollo.Kokkos
