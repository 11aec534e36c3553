import Verif.Proofs.KokkosSpec
import Verif.Proofs.Factory

/-!
# Where the regions of the connector come from
-/

namespace Apollo.Kokkos

variable {M : Type} {e : KEnv M}

/-- Region `r` of the problem `k` was made for one of the requests in `ops`. -/
def MadeFor (ops : List KOp) (s : State M) (k : List ℕ) (r : ℕ) : Prop :=
  ∃ cid ctx tuning n, KOp.request cid ctx tuning ∈ ops ∧ k = ctx.map Prod.fst ++ tuning ∧
    spaceSize s tuning 1 = .ok n ∧ ∀ R, s.world.regions r = some R →
      R.numPolicies = wrap32 n ∧ R.numFeatures = ctx.length

theorem MadeFor.mono {ops ops' : List KOp} {s s' : State M} {k : List ℕ} {r : ℕ}
    (h : MadeFor ops s k r) (ho : ∀ o ∈ ops, o ∈ ops') (hlt : r < s.world.nextRegion)
    (hd : ∀ id d, s.decls id = some d → s'.decls id = some d) (hw : Since s.world s'.world) :
    MadeFor ops' s' k r := by
  obtain ⟨cid, ctx, tuning, n, h1, h2, h3, h4⟩ := h
  refine ⟨cid, ctx, tuning, n, ho _ h1, h2, spaceSize_mono hd h3, fun R hR => ?_⟩
  obtain ⟨R₀, h5, h6⟩ := hw.2 r R hlt hR
  obtain ⟨h7, h8⟩ := h4 R₀ h5
  exact ⟨h6.numPolicies.trans h7, h6.numFeatures.trans h8⟩

theorem MadeFor.step {ops : List KOp} {s s' : State M} (hs : KInv s)
    (hm : ∀ k r, (k, r) ∈ s.regions → MadeFor ops s k r) {o : KOp} {x : Ret}
    (h : kstep e s o = .ok (x, s')) : ∀ k r, (k, r) ∈ s'.regions → MadeFor (ops ++ [o]) s' k r := by
  intro k r hk
  have hgrow := (hs.step h).2.2
  have hold : (k, r) ∈ s.regions → MadeFor (ops ++ [o]) s' k r := fun hk' =>
    (hm k r hk').mono (fun _ h => List.mem_append_left _ h) (hs.fresh k r hk') hgrow
      (kstep_runs h).since
  cases o with
  | declareOutput id name c =>
    obtain ⟨s₁, h1, h⟩ := (Res.bind_eq_ok _ _ _).1 h
    cases h
    obtain ⟨hn, n, vs, -, rfl⟩ := declareOutput_ok h1
    exact hold hk
  | declareInput id name =>
    obtain ⟨s₁, h1, h⟩ := (Res.bind_eq_ok _ _ _).1 h
    cases h
    obtain ⟨hn, rfl⟩ := declareInput_ok h1
    exact hold hk
  | request cid ctx tuning =>
    rcases request_ok h with
      ⟨-, rfl, rfl⟩ | ⟨ht, n, r', s₁, w₁, w₂, p, w₃, vs, h0, -, h2, h3, h4, h5, -, rfl, rfl⟩
    · exact hold hk
    · rcases problemRegion_ok h2 with ⟨-, rfl⟩ | ⟨hf, name, info, u, w, -, -, h1, rfl⟩
      · exact hold hk
      · rcases mem_insert.1 hk with hk | hk
        · cases hk
          obtain ⟨R, m, l, h6⟩ := createRegion_ok h1
          have hr : Runs e.env w w₃ := by
            refine Runs.trans (Runs.one (op := .begin r .sync) (x := .ctx (.sync r)) (w' := w₁) ?_ ?_) ?_
            · simp only [Apollo.step]
              change (do let (c, w) ← begin e.env w r .sync; Except.ok (Apollo.Ret.ctx c, w)) = _
              rw [h3]; rfl
            · exact ⟨by simp, by simp⟩
            refine (setFeatures_runs r h4).trans ?_
            refine Runs.one (op := .getPolicyIndex r (.sync r)) (x := .policy p) ?_ ?_
            · simp [Apollo.step, h5]
            · exact ⟨by simp, by simp⟩
          refine ⟨cid, ctx, tuning, n, by simp, rfl, spaceSize_mono hgrow h0, fun R' hR' => ?_⟩
          obtain ⟨R₀, h7, h8⟩ := hr.since.2 r R' (by rw [h6.nextRegion]; omega) hR'
          rw [h6.regions, Function.update_self] at h7
          cases h7
          exact ⟨h8.numPolicies.trans h6.numPolicies, h8.numFeatures.trans h6.numFeatures⟩
        · exact hold hk
  | endContext cid =>
    have h' : endContext e s cid = .ok (x, s') := h
    rw [(hs.endContext h').2.1] at hk
    exact hold hk

theorem MadeFor.exec {pre ops : List KOp} {s s' : State M} {xs : List Ret} (hs : KInv s)
    (hm : ∀ k r, (k, r) ∈ s.regions → MadeFor pre s k r)
    (h : kexec e ops s = .ok (xs, s')) : ∀ k r, (k, r) ∈ s'.regions → MadeFor (pre ++ ops) s' k r := by
  induction ops generalizing pre s xs with
  | nil =>
    simp only [kexec] at h
    cases h
    simpa using hm
  | cons o ops ih =>
    obtain ⟨x, s₁, ys, h1, h2, rfl⟩ := kexec_cons h
    have := ih (hs.step h1).1 (MadeFor.step hs hm h1) h2
    simpa using this

/-- The number of combinations is what is computed. -/
theorem spaceSize_combos {s : State M} {ids : List ℕ} {ds : List Decl} (h : GoodVars s ids ds)
    {a n : ℤ} (hn : spaceSize s ids a = .ok n) : n = a * combos ds := by
  induction h generalizing a with
  | nil => simp only [spaceSize] at hn; cases hn; simp [combos]
  | @cons id d ids ds h _ ih =>
    simp only [spaceSize] at hn
    obtain ⟨d', h1, hn⟩ := (Res.bind_eq_ok _ _ _).1 hn
    have : d' = d := by
      unfold State.decl at h1
      rw [h.1] at h1
      exact (Except.ok.inj h1).symm
    subst this
    split at hn
    · cases hn
    · obtain ⟨b, h2, hn⟩ := (Res.bind_eq_ok _ _ _).1 hn
      have hb : b = a * d'.setSize := by
        unfold i64 at h2
        split at h2
        · exact (Except.ok.inj h2).symm
        · cases h2
      rw [ih hn, hb, h.2.size]
      simp only [combos, List.map_cons, List.prod_cons]
      ring

/-! ## No region goes away -/

/-- Every region made so far is still there. -/
def AllLive (w : World M) : Prop := ∀ r < w.nextRegion, (w.regions r).isSome

theorem AllLive.update {w w' : World M} (h : AllLive w) {r : ℕ} {R : Region}
    (hr : w'.regions = Function.update w.regions r (some R)) (hn : w'.nextRegion = w.nextRegion) :
    AllLive w' := by
  intro r' hr'
  rw [hr]
  by_cases heq : r' = r
  · subst heq; simp
  · rw [Function.update_of_ne heq]; exact h r' (by rw [← hn]; exact hr')

theorem AllLive.stable (env : Env M) (F : ℕ → Prop) : Stable env F AllLive := by
  refine Stable.of ?_ ?_ ?_ ?_
  · intro w l w' ht hw r hr
    rw [ht.regions]
    exact hw r (by rw [← ht.nextRegion]; exact hr)
  · intro w c hw; exact hw
  · intro w r c m w' hw h
    obtain ⟨R, m, C, l, h1⟩ := collectContext_ok h
    exact AllLive.update (w := w) hw h1.regions h1.nextRegion
  · intro w r R cs hw _
    exact AllLive.update (w := w) hw (R := { R with pending := cs }) rfl rfl

theorem AllLive.features {hash : Str → ℕ} {c : CtxPtr} : ∀ {vs : List (ℕ × Value)} {w w' : World M},
    AllLive w → setFeatures hash c vs w = .ok w' → AllLive w'
  | [], w, w', hw, h => by simp only [setFeatures] at h; cases h; exact hw
  | v :: vs, w, w', hw, h => by
    unfold setFeatures at h
    obtain ⟨w₁, h1, h⟩ := (Res.bind_eq_ok _ _ _).1 h
    obtain ⟨C, -, rfl⟩ := setFeature_ok h1
    exact AllLive.features (w := _) (by exact hw) h

theorem AllLive.step {s s' : State M} (hs : KInv s) (hw : AllLive s.world) {o : KOp} {x : Ret}
    (h : kstep e s o = .ok (x, s')) : AllLive s'.world := by
  cases o with
  | declareOutput id name c =>
    obtain ⟨s₁, h1, h⟩ := (Res.bind_eq_ok _ _ _).1 h
    cases h
    obtain ⟨hn, n, vs, -, rfl⟩ := declareOutput_ok h1
    exact hw
  | declareInput id name =>
    obtain ⟨s₁, h1, h⟩ := (Res.bind_eq_ok _ _ _).1 h
    cases h
    obtain ⟨hn, rfl⟩ := declareInput_ok h1
    exact hw
  | request cid ctx tuning =>
    rcases request_ok h with
      ⟨-, rfl, rfl⟩ | ⟨ht, n, r', s₁, w₁, w₂, p, w₃, vs, h0, -, h2, h3, h4, h5, -, rfl, rfl⟩
    · exact hw
    · have hw₁ : AllLive s₁.world := by
        rcases problemRegion_ok h2 with ⟨-, rfl⟩ | ⟨hf, name, info, u, w, -, -, h1, rfl⟩
        · exact hw
        · obtain ⟨R, m, l, h6⟩ := createRegion_ok h1
          intro r hr
          change (w.regions r).isSome
          change r < w.nextRegion at hr
          rw [h6.nextRegion] at hr
          rw [h6.regions]
          by_cases heq : r = r'
          · subst heq; simp
          · rw [Function.update_of_ne heq]
            have := h6.id
            exact hw r (by omega)
      obtain ⟨R, C, hb⟩ := begin_ok h3
      have hw₂ := AllLive.features (hw₁.update hb.regions hb.nextRegion) h4
      obtain ⟨R, m, C, m', F, -, -, -, -, rfl⟩ := getPolicyIndex_ok h5
      exact hw₂
  | endContext cid =>
    have h' : endContext e s cid = .ok (x, s') := h
    rcases endContext_ok h' with ⟨-, -, rfl⟩ | ⟨r, c, w, hc, h1, -, -, h2⟩
    · exact hw
    · obtain ⟨rfl, -⟩ := hs.ctxs cid r c hc
      have hw₁ : AllLive w := by
        obtain ⟨R, C, -, -, ⟨m, -, -, h3⟩ | ⟨h3, -⟩⟩ := endCtx_ok h1
        · exact (AllLive.stable e.env fun _ => False).finish _ _ _ _ _ (by exact hw) h3
        · exact absurd rfl h3
      rcases h2 with ⟨-, w', h3, -, rfl⟩ | ⟨-, -, rfl⟩
      · exact (AllLive.stable e.env fun _ => False).kept.apolloTrain hw₁ h3
      · exact hw₁

theorem AllLive.exec {ops : List KOp} {s s' : State M} {xs : List Ret} (hs : KInv s)
    (hw : AllLive s.world) (h : kexec e ops s = .ok (xs, s')) : AllLive s'.world := by
  induction ops generalizing s xs with
  | nil => simp only [kexec] at h; cases h; exact hw
  | cons o ops ih =>
    obtain ⟨x, s₁, ys, h1, h2, rfl⟩ := kexec_cons h
    exact ih (hs.step h1).1 (hw.step hs h1) h2

theorem AllLive.init (cfg : Cfg) (files : Str → Option Str) :
    AllLive (initState cfg files : State M).world := by
  intro r hr
  exact absurd hr (Nat.not_lt_zero _)

/-- Executions one call longer. -/
theorem kexec_snoc {ops : List KOp} {s₀ s s' : State M} {xs : List Ret} {o : KOp} {x : Ret}
    (h : kexec e ops s₀ = .ok (xs, s)) (h' : kstep e s o = .ok (x, s')) :
    kexec e (ops ++ [o]) s₀ = .ok (xs ++ [x], s') ∧ xs.length = ops.length := by
  induction ops generalizing s₀ xs with
  | nil =>
    simp only [kexec] at h
    cases h
    simp [kexec, h']
  | cons o' ops ih =>
    obtain ⟨y, s₁, ys, h3, h4, rfl⟩ := kexec_cons h
    obtain ⟨h5, h6⟩ := ih h4
    refine ⟨?_, by simp [h6]⟩
    simp only [List.cons_append, kexec, h3, Res.bind_ok, h5]

/-- The parts of the configuration that no call changes. -/
def CfgIs (cfg : Cfg) (w : World M) : Prop := ∃ p, w.cfg = { cfg with globalPeriod := p }

theorem CfgIs.invariant (env : Env M) (F : ℕ → Prop) (cfg : Cfg) : Invariant env F (CfgIs cfg) := by
  have hst : Stable env F (CfgIs cfg) := by
    refine Stable.of ?_ ?_ ?_ ?_
    · intro w l w' ht ⟨p, hw⟩
      exact ⟨p, ht.cfg.trans hw⟩
    · intro w c hw; exact hw
    · intro w r c m w' ⟨p, hw⟩ h
      obtain ⟨R, m, C, l, h1⟩ := collectContext_ok h
      exact ⟨p, h1.cfg.trans hw⟩
    · intro w r R cs hw _; exact hw
  exact {
    toKept := hst.kept
    finish := hst.finish
    began := fun w r c R C w' ⟨p, hw⟩ h => ⟨p, h.cfg.trans hw⟩
    assigned := fun _ _ _ _ hw _ => hw
    feature := fun _ _ _ _ hw _ => hw
    chose := fun _ _ _ _ _ _ _ _ hw _ _ _ _ => hw
    stop := fun _ _ _ _ hw _ => hw
    ended := fun _ _ c R hw hR _ _ => hw
    period := fun w ⟨p, hw⟩ => ⟨0, by change { w.cfg with globalPeriod := 0 } = _; rw [hw]⟩
    destroyed := by
      intro w r R ⟨p, hw⟩ _ _
      refine ⟨p, ?_⟩
      rw [← hw]
      obtain ⟨f, hf⟩ := afterDestroy_eq env w r R
      rw [hf]
      rfl
    created := by
      intro w nf name n mt info yaml r w' ⟨p, hw⟩ h
      obtain ⟨R, m, l, h1⟩ := createRegion_ok h
      exact ⟨p, h1.cfg.trans hw⟩ }

/-! ## Model strings that are paths -/

theorem parseParams_total : ∀ (fuel : ℕ) (m : Params) (s : Str), s.length < fuel →
    ∃ m', parseParams fuel m s = .ok m'
  | 0, _, _, h => absurd h (Nat.not_lt_zero _)
  | fuel + 1, m, s, h => by
    unfold parseParams
    cases hf : findChar ',' s with
    | none => exact ⟨_, rfl⟩
    | some p =>
      have hp : p < s.length := by
        have := List.findIdx?_eq_some_iff_findIdx_eq.1 hf
        exact this.1
      exact parseParams_total fuel _ _ (by rw [List.length_drop]; omega)

/-- Creating models under names starting with a dot aborts. -/
def DotAborts (env : Env M) : Prop :=
  ∀ t name nf n params, env.ops.create t ('.' :: name) nf n params = .error .abort

theorem createModel_dot (gen : ℕ → ℕ) (name : Str) (nf n : ℤ) (params : Params) :
    createModel gen ('.' :: name) nf n params = .error .abort := by
  unfold createModel createPolicyModel
  rfl

theorem validate_dot (name : Str) (params : Params) :
    validate ('.' :: name) params = .error .abort := by
  unfold validate
  rfl

/-- A model string that is a path starting with a dot is refused. -/
theorem create_dot {env : Env M} (he : DotAborts env) (w : World M) (nf : ℤ) (name : Str) (n mt : ℤ)
    (info yaml : Str) : createRegion env w nf name n mt ('.' :: info) yaml = .error .abort := by
  unfold createRegion constructRegion
  simp only [reduceCtorEq, if_false]
  have hd : '.' ≠ ',' := by decide
  cases hf : findChar ',' ('.' :: info) with
  | none =>
    have hp : parsePolicyModel ('.' :: info) = .ok ('.' :: info, []) := by
      unfold parsePolicyModel; rw [hf]
    have hr : resolveStaticRegion (truncName name) ('.' :: info) [] ('.' :: info) =
        .ok ('.' :: info, [], '.' :: info) := by
      unfold resolveStaticRegion; rfl
    rw [hp, Res.bind_ok, hr, Res.bind_ok, he]
    rfl
  | some p =>
    have hp : parsePolicyModel ('.' :: info) = .error .abort := by
      unfold parsePolicyModel
      rw [hf]
      obtain ⟨m', hm⟩ := parseParams_total (('.' :: info).length + 1) []
        (('.' :: info).drop (p + 1)) (by rw [List.length_drop]; omega)
      simp only [hm, Res.bind_ok]
      have : p ≠ 0 := by
        rintro rfl
        have := (List.findIdx?_eq_some_iff_findIdx_eq.1 hf).2
        simp [List.findIdx_cons] at this
      obtain ⟨q, rfl⟩ := Nat.exists_eq_succ_of_ne_zero this
      rw [List.take_succ_cons, validate_dot]
      rfl
    rw [hp]
    rfl

end Apollo.Kokkos
