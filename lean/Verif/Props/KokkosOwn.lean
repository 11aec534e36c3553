import Verif.Proofs.KokkosOwn
import Verif.Props.KokkosRun

/-!
# C66: the measurement of a context of the Kokkos connector
-/

namespace Apollo.Props

open Kokkos Spec

variable {M : Type} {e : KEnv M} {cfg : Cfg} {files : Str → Option Str}

/-- What was measured in a region: features and policy. -/
def demoKRows (s : State PolicyModel) (r : ℕ) : Option (List (List ℚ × ℤ)) :=
  (s.world.regions r).map fun R => R.dataset.map fun x => ofLex x.1

/-- **C66** is false: two contexts of the same problem that are open at the same time share the context
of the region.  Sizes 100 and 200 were asked for; the first end records the measurement of the first
context under 200, and the second end records one without features. -/
theorem C66_nested : ∃ xs s, kexec { demoK with flush := 500 } (demoKDecls ++
      [demoKAsk 7 100, demoKAsk 8 200, .endContext 7, .endContext 8])
      (initState demoKCfg fun _ => none) = .ok (xs, s) ∧
    (xs.drop 3 = [.values 0 [.int 4, .int 5], .values 0 [.int 8, .int 5], .ended false, .ended false] ∧
      demoKRows s 0 = some [([], 1), ([200], 1)]) :=
  krun_ok (by decide +kernel)

/-- What is left of **C66**: in any history, if no other context of the same problem is open from a
request for context `c` to its end, and `c` is not asked for again, then the end adds to the dataset of
the region (if it takes data) exactly one measurement, with the values of the context variables of that
request, the policy whose combination was the answer, and the time from the request to the end.
Missing: contexts of the same problem that overlap, for which it is false (`C66_nested`). -/
theorem C66_own_partial {pre mid : List KOp} {ys zs : List Kokkos.Ret} {s₀ s₁ s s' : State M}
    {c r : ℕ} {ctx : List (ℕ × Value)} {tuning : List ℕ} {vs : List Value} {x : Kokkos.Ret}
    (hpre : kexec e pre (initState cfg files) = .ok (ys, s₀))
    (hreq : kstep e s₀ (.request c ctx tuning) = .ok (.values r vs, s₁))
    (hmid : kexec e mid s₁ = .ok (zs, s))
    (hend : kstep e s (.endContext c) = .ok (x, s'))
    (hopen : ∀ c', c' ≠ c → ¬ AskedFor pre c' (ctx.map Prod.fst ++ tuning))
    (hsame : ∀ o ∈ mid, ¬ AsksFor o (ctx.map Prod.fst ++ tuning))
    (hc : ∀ o ∈ mid, o ≠ .endContext c ∧ ¬ Asks o c) :
    ∃ w R m p t, endCtx e.env s.world r (.sync r) = .ok w ∧
      s.world.regions r = some R ∧ s.world.models r = some m ∧
      decode s₁ tuning p = .ok vs ∧ s₀.world.tick ≤ t ∧ t < s₁.world.tick ∧
      (w.regions r).map Region.dataset =
        some (if s.world.cfg.persistent || e.env.ops.isTrainable m then
          R.dataset.insert (ctx.map fun v => toFloat e.hash v.2) p
            (rnd64 (seconds (e.env.clock s.world.tick) - seconds (e.env.clock t)))
        else R.dataset) ∧
      (∀ r', r' ≠ r → w.regions r' = s.world.regions r') ∧
      (x = .ended false → s'.world = w) ∧
      (x = .ended true → apolloTrain e.env w 0 true = .ok s'.world) := by
  have hi₀ := ((KInv.init cfg files).exec hpre).1
  have hn₀ : NoPending s₀.world := NoPending.exec (KInv.init cfg files)
    (fun r R h => by cases h) hpre
  have ho₀ : OpenFor pre s₀ := by
    simpa using OpenFor.exec (pre := []) (KInv.init cfg files)
      (fun c r p h => by cases h) hpre
  have hreq' : request e s₀ c ctx tuning = .ok (.values r vs, s₁) := hreq
  obtain ⟨hn₁, hc₁, ⟨C, t, a1, a2, a3, a4, a5, a6⟩, -⟩ := request_ctx hn₀ hreq'
  have hi₁ := (hi₀.step hreq).1
  have ho₁ := ho₀.step hi₀ hreq
  have ht : tuning ≠ [] := by
    rintro rfl
    simp [request] at hreq'
  obtain ⟨k, b1, b2⟩ := ho₁ c r _ hc₁
  have hk : k = ctx.map Prod.fst ++ tuning := by
    obtain ⟨p', ctx', t', suf, heq, -, rfl, hs⟩ := b1
    rcases List.eq_nil_or_concat suf with rfl | ⟨suf', o', rfl⟩
    · have := List.append_inj_right' heq rfl
      cases this
      rfl
    · have heq' : pre ++ [.request c ctx tuning] = (p' ++ .request c ctx' t' :: suf') ++ [o'] := by
        simpa using heq
      obtain ⟨-, h2⟩ := List.append_inj' heq' rfl
      cases h2
      exact absurd ⟨ctx, tuning, rfl, ht⟩ (hs (.request c ctx tuning) (by simp)).2
  subst hk
  have hCs : s.world.ctxs (.sync r) = some C := by
    refine ctx_kept (c := c) hi₁ ho₁ hn₁ b2 a1 ?_ (fun o ho => ⟨(hc o ho).1, hsame o ho⟩) hmid
    rintro c' hc' ⟨p', ctx', t', suf, heq, h1, h2, hs⟩
    rcases List.eq_nil_or_concat suf with rfl | ⟨suf', o', rfl⟩
    · have := List.append_inj_right' heq rfl
      cases this
      exact hc' rfl
    · have heq' : pre ++ [.request c ctx tuning] = (p' ++ .request c' ctx' t' :: suf') ++ [o'] := by
        simpa using heq
      obtain ⟨rfl, -⟩ := List.append_inj' heq' rfl
      exact hopen c' hc' ⟨p', ctx', t', suf', rfl, h1, h2, fun y hy => hs y (by simp [hy])⟩
  have hctx : s.contexts c = some (r, .sync r) := by
    have key : ∀ (mid : List KOp) (s₁ s : State M) (zs : List Kokkos.Ret), KInv s₁ →
        s₁.contexts c = some (r, .sync r) → (∀ o ∈ mid, o ≠ .endContext c ∧ ¬ Asks o c) →
        kexec e mid s₁ = .ok (zs, s) → s.contexts c = some (r, .sync r) := by
      intro mid
      induction mid with
      | nil => intro s₁ s zs _ h _ h'; simp only [kexec] at h'; cases h'; exact h
      | cons o mid ih =>
        intro s₁ s zs hi h hm h'
        obtain ⟨y, s₂, ys, h1, h2, rfl⟩ := kexec_cons h'
        refine ih s₂ s ys (hi.step h1).1 ?_ (fun o ho => hm o (by simp [ho])) h2
        obtain ⟨m1, m2⟩ := hm o (by simp)
        cases o with
        | declareOutput id name cs =>
          obtain ⟨s₃, h3, h1⟩ := (Res.bind_eq_ok _ _ _).1 h1
          cases h1
          obtain ⟨-, n, us, -, rfl⟩ := declareOutput_ok h3
          exact h
        | declareInput id name =>
          obtain ⟨s₃, h3, h1⟩ := (Res.bind_eq_ok _ _ _).1 h1
          cases h1
          obtain ⟨-, rfl⟩ := declareInput_ok h3
          exact h
        | request cid ctx' t' =>
          rcases request_ok h1 with
            ⟨-, -, rfl⟩ | ⟨ht', n, r', s₃, w₁, w₂, p, w₃, us, h0, -, h3, -, -, -, -, -, rfl⟩
          · exact h
          · obtain ⟨-, -, -, -, b5, -⟩ := hi.problem (ctx := ctx'.map Prod.fst) h0 ht' (by simp) h3
            have hne : c ≠ cid := by
              rintro rfl
              exact m2 ⟨ctx', t', rfl, ht'⟩
            change Function.update s₃.contexts cid _ c = _
            rw [Function.update_of_ne hne, b5]
            exact h
        | endContext cid =>
          have hne : c ≠ cid := by
            rintro rfl
            exact m1 rfl
          rcases endContext_ok h1 with ⟨-, -, rfl⟩ | ⟨_, _, w, -, -, -, -, ⟨-, w', -, -, rfl⟩ | ⟨-, -, rfl⟩⟩
          · exact h
          · exact (Function.update_of_ne hne ..).trans h
          · exact (Function.update_of_ne hne ..).trans h
    exact key mid s₁ s zs hi₁ hc₁ hc hmid
  rcases endContext_ok (show endContext e s c = .ok (x, s') from hend) with
    ⟨h1, -⟩ | ⟨r', q, w, h1, h2, -, -, h3⟩
  · rw [hctx] at h1
    cases h1
  rw [hctx] at h1
  cases h1
  obtain ⟨R, C', hR, hC', ⟨metric, -, h5, h6⟩ | ⟨h5, -⟩⟩ := endCtx_ok h2
  swap
  · exact absurd rfl h5
  rw [hCs] at hC'
  cases hC'
  have hmet : metric = rnd64 (seconds (e.env.clock s.world.tick) - seconds (e.env.clock t)) := by
    simp only [syncMetric, a4] at h5
    exact (Except.ok.inj h5).symm
  obtain ⟨R₁, m, C₁, l, hcol⟩ := collectContext_ok h6
  have hm : s.world.models r = some m := hcol.model
  obtain ⟨g1, g2⟩ := C35_one e.env (((s.world.setCtx (.sync r) { C with
      stop := some (seconds (e.env.clock s.world.tick)) }).advance).emit (.finished r (.sync r) metric))
    w r (.sync r) metric R m { C with stop := some (seconds (e.env.clock s.world.tick)) } hR hm
    (Function.update_self ..) h6
  refine ⟨w, R, m, C.policy, t, h2, hR, hm, a3, a5, a6, ?_, g2, ?_, ?_⟩
  · rw [g1, hmet, ← a2]
    rfl
  · rintro rfl
    rcases h3 with ⟨-, w', -, h, -⟩ | ⟨-, -, rfl⟩
    · cases h
    · rfl
  · rintro rfl
    rcases h3 with ⟨-, w', h, -, rfl⟩ | ⟨-, h, -⟩
    · exact h
    · cases h

/-- A history as in `C66_own_partial`, with another problem asked for and ended in between, and a
training. -/
example : ∃ xs s, kexec demoK (demoKDecls ++ [.request 9 [] [1], .endContext 9] ++
      demoKAsk 7 100 :: [.request 9 [] [1], .endContext 9] ++ [.endContext 7])
      (initState demoKCfg fun _ => none) = .ok (xs, s) ∧
    (xs.drop 5 = [.values 1 [.int 4, .int 5], .values 0 [.int 8], .ended true, .ended false] ∧
      demoKRows s 1 = some [([100], 0)]) :=
  krun_ok (by decide +kernel)

/-- Its hypotheses on the calls. -/
example : (∀ c', c' ≠ 7 → ¬ AskedFor (demoKDecls ++ [.request 9 [] [1], .endContext 9]) c' [3, 1, 2]) ∧
    (∀ o ∈ [KOp.request 9 [] [1], .endContext 9], ¬ AsksFor o [3, 1, 2]) ∧
    (∀ o ∈ [KOp.request 9 [] [1], .endContext 9], o ≠ .endContext 7 ∧ ¬ Asks o 7) := by
  refine ⟨?_, ?_, ?_⟩
  · rintro c' - ⟨p, ctx, t, suf, heq, -, hk, -⟩
    have hm : KOp.request c' ctx t ∈ demoKDecls ++ [.request 9 [] [1], .endContext 9] := by
      rw [heq]; simp
    simp [demoKDecls] at hm
    obtain ⟨-, rfl, rfl⟩ := hm
    simp at hk
  · intro o ho
    rintro ⟨c, ctx, t, rfl, -, hk⟩
    simp at ho
    obtain ⟨-, rfl, rfl⟩ := ho
    simp at hk
  · intro o ho
    simp at ho
    rcases ho with rfl | rfl <;> simp [Asks]

end Apollo.Props
