import Verif.Proofs.KokkosFrom
import Verif.Props.Kokkos
import Verif.Props.Region
import Verif.Props.RegionRange
import Verif.Props.RegionTrain
import Verif.Model.RegionNet

/-!
# C58, C60, C61, C62: histories of calls to the Kokkos connector
-/

namespace Apollo.Props

open Kokkos Spec

variable {M : Type} {e : KEnv M} {cfg : Cfg} {files : Str → Option Str}

/-! ## Histories to try things on -/

/-- The library of `demoEnv`, with a training every second end of a context. -/
def demoK : KEnv PolicyModel where
  env := demoEnv
  flush := 2

/-- Forests that explore round robin, stored when trained. -/
def demoKCfg : Cfg := { policyModel := "RandomForest,explore=RoundRobin".toList, storeModels := true }

/-- Two tuning variables, one with candidates from a range, and a context variable. -/
def demoKDecls : List KOp :=
  [.declareOutput 1 "tile".toList (.set [.int 4, .int 8]),
   .declareOutput 2 "team".toList (.intRange ⟨0, 10, 5, false, false⟩),
   .declareInput 3 "size".toList]

/-- A request for both in context `c`, for a problem of size `v`. -/
def demoKAsk (c : ℕ) (v : ℤ) : KOp := .request c [(3, .int v)] [1, 2]

/-- Two nested contexts, ended twice; another problem. -/
def demoKOps : List KOp := demoKDecls ++
  [demoKAsk 7 100, .endContext 7, .endContext 7, demoKAsk 8 100, .request 9 [] [1], .endContext 9,
    .endContext 8, .endContext 5]

theorem krun_ok {P : List Kokkos.Ret → State M → Prop} [∀ xs s, Decidable (P xs s)]
    {x : Res (List Kokkos.Ret × State M)}
    (h : (match x with | .ok w => decide (P w.1 w.2) | .error _ => false) = true) :
    ∃ xs s, x = .ok (xs, s) ∧ P xs s := by
  cases x with
  | ok w => exact ⟨w.1, w.2, rfl, of_decide_eq_true h⟩
  | error e => cases h

/-- What the history returns. -/
theorem demoK_ok : ∃ xs s, kexec demoK demoKOps (initState demoKCfg fun _ => none) = .ok (xs, s) ∧
    (xs = [.unit, .unit, .unit, .values 0 [.int 4, .int 5], .ended false, .ignored,
        .values 0 [.int 8, .int 5], .values 1 [.int 4], .ended true, .ended false, .ignored] ∧
      (s.world.regions 0).map Region.numPolicies = some 6 ∧
      (s.world.regions 1).map Region.numPolicies = some 2 ∧
      (s.world.regions 0).map Region.modelName = some "RandomForest".toList ∧
      (s.world.regions 0).map Region.name = some "size_tile_team.yaml".toList ∧
      (s.world.files (modelPath "size_tile_team.yaml".toList)).isSome) :=
  krun_ok (by decide +kernel)

/-! ## C58: the policies of the region are the combinations -/

/-- In any history in which the same variables are never asked for with another division into
context and tuning variables, the region that answers a request has as many policies as the tuning
variables have combinations of candidates. -/
theorem C58_policies {ops : List KOp} {xs : List Kokkos.Ret} {s : State M}
    (h : kexec e ops (initState cfg files) = .ok (xs, s))
    (hsplit : ∀ (c c' : ℕ) (ctx ctx' : List (ℕ × Value)) (t t' : List ℕ),
      KOp.request c ctx t ∈ ops → KOp.request c' ctx' t' ∈ ops →
      ctx.map Prod.fst ++ t = ctx'.map Prod.fst ++ t' → t = t')
    {i cid : ℕ} {ctx : List (ℕ × Value)} {tuning : List ℕ} {r : ℕ} {vs : List Value}
    (hi : ops[i]? = some (.request cid ctx tuning)) (hx : xs[i]? = some (.values r vs))
    {ds : List Decl} (hg : GoodVars s tuning ds) (hc : combos ds < 2 ^ 31)
    {R : Region} (hR : s.world.regions r = some R) :
    R.numPolicies = combos ds ∧ R.numFeatures = ctx.length := by
  obtain ⟨-, -, -, h4⟩ := (KInv.init cfg files).exec h
  have hmem := h4 i cid ctx tuning r vs hi hx
  obtain ⟨cid', ctx', tuning', n, a1, a2, a3, a4⟩ :=
    MadeFor.exec (pre := []) (KInv.init cfg files) (by simp [initState]) h _ _ hmem
  obtain ⟨b1, b2⟩ := a4 R hR
  have ht := hsplit cid cid' ctx ctx' tuning tuning' (List.mem_of_getElem? hi) (by simpa using a1) a2
  subst ht
  have hlen := congrArg List.length a2
  simp only [List.length_append, List.length_map] at hlen
  have hn := spaceSize_combos hg a3
  have hpos : 1 ≤ combos ds := combos_pos fun d hd => by
    have hg' : List.Forall₂ (fun id d => s.decls id = some d ∧ d.Good) tuning ds := hg
    obtain ⟨k, hk, rfl⟩ := List.mem_iff_getElem.1 hd
    exact ((List.forall₂_iff_get.1 hg').2 k (by rw [hg'.length_eq]; exact hk) hk).2
  rw [one_mul] at hn
  subst hn
  exact ⟨by rw [b1, wrap32_of_range (by omega) hc], by rw [b2]; omega⟩

/-- The hypotheses of `C58_policies` hold in `demoKOps`, for the request at place 3. -/
example : ∃ xs s, kexec demoK demoKOps (initState demoKCfg fun _ => none) = .ok (xs, s) ∧
    (demoKOps[3]? = some (.request 7 [(3, .int 100)] [1, 2]) ∧
      xs[3]? = some (.values 0 [.int 4, .int 5])) ∧
    ∃ ds R, GoodVars s [1, 2] ds ∧ combos ds < 2 ^ 31 ∧ s.world.regions 0 = some R := by
  have h : ∃ xs s, kexec demoK demoKOps (initState demoKCfg fun _ => none) = .ok (xs, s) ∧
      (xs[3]? = some (.values 0 [.int 4, .int 5]) ∧
        ((s.decls 1).map fun d => (d.setSize, d.values)) = some (2, [.int 4, .int 8]) ∧
        ((s.decls 2).map fun d => (d.setSize, d.values)) = some (3, [.int 5, .int 10, .int 15]) ∧
        (s.world.regions 0).isSome) := krun_ok (by decide +kernel)
  obtain ⟨xs, s, h, h1, h2, h3, h4⟩ := h
  obtain ⟨d, e1, e2⟩ := Option.map_eq_some_iff.1 h2
  obtain ⟨d', e3, e4⟩ := Option.map_eq_some_iff.1 h3
  obtain ⟨R, hR⟩ := Option.isSome_iff_exists.1 h4
  obtain ⟨e5, e6⟩ := Prod.mk.inj e2
  obtain ⟨e7, e8⟩ := Prod.mk.inj e4
  refine ⟨xs, s, h, ⟨rfl, h1⟩, [d, d'], R, .cons ⟨e1, ⟨?_, ?_, ?_⟩⟩ (.cons ⟨e3, ⟨?_, ?_, ?_⟩⟩ .nil), ?_, hR⟩
  all_goals simp [e5, e6, e7, e8, combos]

/-- Without the hypothesis on the division it is false: asking for variable 1 as a context variable
and then as a tuning variable uses a region with 3 instead of 6 policies, so half of the combinations
are never chosen. -/
theorem C58_split : ∃ xs s, kexec demoK (demoKDecls ++
    [.request 7 [(1, .int 4)] [2], .endContext 7, .request 8 [] [1, 2]])
      (initState demoKCfg fun _ => none) = .ok (xs, s) ∧
    (xs = [.unit, .unit, .unit, .values 0 [.int 5], .ended false, .values 0 [.int 8, .int 5]] ∧
      (s.world.regions 0).map Region.numPolicies = some 3) :=
  krun_ok (by decide +kernel)

/-- The values of an answered request are candidates of the variables asked for. -/
theorem C58_answer {s s' : State M} {cid : ℕ} {ctx : List (ℕ × Value)} {tuning : List ℕ} {r : ℕ}
    {vs : List Value} (h : request e s cid ctx tuning = .ok (.values r vs, s')) :
    List.Forall₂ (fun v id => ∃ d, s.decls id = some d ∧ v ∈ d.values) vs tuning := by
  have key : ∀ (s : State M) (ids : List ℕ) (p : ℤ) (vs : List Value), decode s ids p = .ok vs →
      List.Forall₂ (fun v id => ∃ d, s.decls id = some d ∧ v ∈ d.values) vs ids := by
    intro s ids
    induction ids with
    | nil => intro p vs h; simp only [decode] at h; cases h; exact .nil
    | cons id ids ih =>
      intro p vs h
      simp only [decode] at h
      obtain ⟨d, h1, h⟩ := (Res.bind_eq_ok _ _ _).1 h
      obtain ⟨⟨j, q⟩, -, h⟩ := (Res.bind_eq_ok _ _ _).1 h
      dsimp only at h
      split at h
      · cases h
      · split at h
        · cases h
        · rename_i v hv
          obtain ⟨us, h3, h⟩ := (Res.bind_eq_ok _ _ _).1 h
          cases h
          refine .cons ⟨d, ?_, List.mem_of_getElem? hv⟩ (ih q us h3)
          unfold State.decl at h1
          split at h1
          · rename_i d' hd'; cases h1; exact hd'
          · cases h1
  rcases request_ok h with
    ⟨-, hx, -⟩ | ⟨ht, n, r', s₁, w₁, w₂, p, w₃, vs', h0, -, h2, h3, h4, h5, h6, hx, rfl⟩
  · cases hx
  · cases hx
    have hd : s₁.decls = s.decls := by
      rcases problemRegion_ok h2 with ⟨-, rfl⟩ | ⟨-, name, info, u, w, -, -, h1, rfl⟩ <;> rfl
    have := key s₁ tuning p vs h6
    rwa [hd] at this

/-- With the models Static, RoundRobin, Random and RandomForest, every answer is the combination of
one of the policies `0, …, s₁⋯s_k - 1` (so `C58_bijection` applies to it). -/
theorem C58_chosen {gen : ℕ → ℕ → ℕ} {tenv : ℕ → TrainEnv} {e : KEnv PolicyModel}
    (he : e.env.ops = policyOps gen tenv)
    {ops : List KOp} {xs : List Kokkos.Ret} {s s' : State PolicyModel}
    {cid : ℕ} {ctx : List (ℕ × Value)} {tuning : List ℕ} {r : ℕ} {vs : List Value}
    (h : kexec e ops (initState cfg files) = .ok (xs, s))
    (hreq : request e s cid ctx tuning = .ok (.values r vs, s'))
    (hsplit : ∀ (c c' : ℕ) (ctx₁ ctx' : List (ℕ × Value)) (t t' : List ℕ),
      KOp.request c ctx₁ t ∈ ops ++ [.request cid ctx tuning] →
      KOp.request c' ctx' t' ∈ ops ++ [.request cid ctx tuning] →
      ctx₁.map Prod.fst ++ t = ctx'.map Prod.fst ++ t' → t = t')
    {ds : List Decl} (hg : GoodVars s' tuning ds) (hc : combos ds < 2 ^ 31)
    {R : Region} (hR : s'.world.regions r = some R)
    (hk : R.modelName ∈ ["Static".toList, "RoundRobin".toList, "Random".toList,
      "RandomForest".toList]) :
    ∃ p, 0 ≤ p ∧ p < combos ds ∧ decode s' tuning p = .ok vs := by
  obtain ⟨hex, hlen⟩ := kexec_snoc (o := .request cid ctx tuning) h hreq
  obtain ⟨hn, -⟩ := C58_policies hex hsplit (i := ops.length) (cid := cid) (ctx := ctx) (vs := vs)
    (by simp) (by simp [← hlen]) hg hc hR
  obtain ⟨-, hx, -⟩ | ⟨ht, n, r', s₁, w₁, w₂, p, w₃, vs', h0, -, h2, h3, h4, h5, h6, hx, rfl⟩ :=
    request_ok hreq
  · cases hx
  · cases hx
    have hrun : Runs e.env s.world w₂ := by
      refine (problemRegion_runs h2).trans ?_
      refine Runs.trans (Runs.one (op := .begin r .sync) (x := .ctx (.sync r)) (w' := w₁) ?_ ?_) ?_
      · simp [step, h3]
      · exact ⟨by simp, by simp⟩
      exact setFeatures_runs r h4
    obtain ⟨lops, -, hl⟩ := (kexec_runs h).trans hrun
    obtain ⟨R', m, C, m', F, g1, -⟩ := getPolicyIndex_ok h5
    have hlast : Runs e.env w₂ w₃ := by
      refine Runs.one (op := .getPolicyIndex r (.sync r)) (x := .policy p) ?_ ?_
      · simp [step, h5]
      · exact ⟨by simp, by simp⟩
    have hlt : r < w₂.nextRegion := by
      obtain ⟨b1, b2, -⟩ := ((KInv.init cfg files).exec h).1.problem (ctx := ctx.map Prod.fst) h0 ht
        (by simp) h2
      have hrun' : Runs e.env s₁.world w₂ := by
        refine Runs.trans (Runs.one (op := .begin r .sync) (x := .ctx (.sync r)) (w' := w₁) ?_ ?_) ?_
        · simp [step, h3]
        · exact ⟨by simp, by simp⟩
        exact setFeatures_runs r h4
      exact lt_of_lt_of_le (b1.fresh _ _ b2) hrun'.since.1
    obtain ⟨R₀, c1, c2⟩ := hlast.since.2 r R hlt hR
    have hp := combos_pos (ds := ds) fun d hd => by
      have hg' : List.Forall₂ (fun id d => _ ∧ d.Good) tuning ds := hg
      obtain ⟨k, hk, rfl⟩ := List.mem_iff_getElem.1 hd
      exact ((List.forall₂_iff_get.1 hg').2 k (by rw [hg'.length_eq]; exact hk) hk).2
    obtain ⟨d1, d2⟩ := C16_models e.env he cfg files lops w₂ hl r R₀ c1 (by rw [← c2.modelName]; exact hk)
      (by rw [← c2.numPolicies, hn]; exact hp) (.sync r) p w₃ h5
    refine ⟨p, d1, by rw [← c2.numPolicies, hn] at d2; exact d2, ?_⟩
    have hdec : ∀ (s₁ s₂ : State PolicyModel) (ids : List ℕ) (p : ℤ), s₁.decls = s₂.decls →
        decode s₁ ids p = decode s₂ ids p := by
      intro s₁ s₂ ids
      induction ids with
      | nil => intros; rfl
      | cons id ids ih =>
        intro p hd
        simp only [decode, State.decl, hd, fun q => ih q hd]
    rw [← h6]
    exact hdec _ _ _ _ rfl

/-- A request as in `C58_chosen`. -/
example : ∃ xs s, kexec demoK demoKDecls (initState demoKCfg fun _ => none) = .ok (xs, s) ∧
    (match request demoK s 7 [(3, .int 100)] [1, 2] with
      | .ok (x, s') => decide (x = .values 0 [.int 4, .int 5] ∧
          (s'.world.regions 0).map Region.modelName = some "RandomForest".toList)
      | .error _ => false) = true :=
  krun_ok (by decide +kernel)

/-! ## C60 -/

/-- **C60.** The order on variable sets of the map is a strict total order (in particular a strict
weak order). -/
theorem C60_order : (∀ a, less a a = false) ∧
    (∀ a b c, less a b = true → less b c = true → less a c = true) ∧
    (∀ a b, less a b = true ∨ a = b ∨ less b a = true) :=
  ⟨less_irrefl, fun _ _ _ => less_trans, fun a b => by
    by_cases h : a = b
    · exact .inr (.inl h)
    · rcases less_total h with h | h
      · exact .inl h
      · exact .inr (.inr h)⟩

/-- **C60.** In any history, two answered requests used the same region iff they had the same
sequence of variable ids. -/
theorem C60_region {ops : List KOp} {xs : List Kokkos.Ret} {s : State M}
    (h : kexec e ops (initState cfg files) = .ok (xs, s))
    {i j c c' : ℕ} {ctx ctx' : List (ℕ × Value)} {t t' : List ℕ} {r r' : ℕ} {vs vs' : List Value}
    (hi : ops[i]? = some (.request c ctx t)) (hx : xs[i]? = some (.values r vs))
    (hj : ops[j]? = some (.request c' ctx' t')) (hy : xs[j]? = some (.values r' vs')) :
    r = r' ↔ ctx.map Prod.fst ++ t = ctx'.map Prod.fst ++ t' := by
  obtain ⟨h1, -, -, h4⟩ := (KInv.init cfg files).exec h
  have a := h4 i c ctx t r vs hi hx
  have b := h4 j c' ctx' t' r' vs' hj hy
  constructor
  · rintro rfl
    exact h1.inj _ _ _ a b
  · intro heq
    rw [heq] at a
    have a' := (find_some_iff h1.sorted).2 a
    rw [(find_some_iff h1.sorted).2 b] at a'
    exact (Option.some.inj a').symm

/-- Requests that share a region and requests that do not: `demoK_ok`, places 3, 6 and 7. -/
example : demoKOps[3]? = some (.request 7 [(3, .int 100)] [1, 2]) ∧
    demoKOps[6]? = some (.request 8 [(3, .int 100)] [1, 2]) ∧
    demoKOps[7]? = some (.request 9 [] [1]) := ⟨rfl, rfl, rfl⟩

/-! ## C61 -/

/-- **C61.** In any history, ending a context that was not asked for since it was last ended has no
effect; ending one that was ends it, and trains iff it is a multiple of `flush_interval` among the
endings that had an effect. -/
theorem C61_history {ops : List KOp} {xs : List Kokkos.Ret} {s : State M}
    (h : kexec e ops (initState cfg files) = .ok (xs, s)) {i c : ℕ}
    (hi : ops[i]? = some (.endContext c)) :
    (¬ Live (ops.take i) c → xs[i]? = some .ignored) ∧
    (Live (ops.take i) c → ∃ b, xs[i]? = some (.ended b) ∧
      (b = true ↔ e.flush ∣ (endings (ops.take (i + 1)) : ℤ))) := by
  simpa using (CtxInv.exec (CtxInv.init cfg files) h).2 i c hi

/-- What the returned values mean: an ignored end changes nothing; an ended context is measured and
forgotten; a flush trains all regions, with collection of measurements. -/
theorem C61_step {ops : List KOp} {xs : List Kokkos.Ret} {s s' : State M} {c : ℕ} {x : Kokkos.Ret}
    (hex : kexec e ops (initState cfg files) = .ok (xs, s))
    (h : kstep e s (.endContext c) = .ok (x, s')) :
    (x = .ignored ∧ s' = s) ∨
    ∃ b r w, x = .ended b ∧ s.contexts c = some (r, .sync r) ∧
      endCtx e.env s.world r (.sync r) = .ok w ∧ s'.contexts c = none ∧
      (∀ c', c' ≠ c → s'.contexts c' = s.contexts c') ∧
      s'.regions = s.regions ∧ s'.decls = s.decls ∧
      (b = false → s'.world = w) ∧ (b = true → apolloTrain e.env w 0 true = .ok s'.world) := by
  have h' : endContext e s c = .ok (x, s') := h
  rcases endContext_ok h' with ⟨-, rfl, rfl⟩ | ⟨r, p, w, hc, h1, -, -, h2⟩
  · exact .inl ⟨rfl, rfl⟩
  · obtain ⟨rfl, -⟩ := ((KInv.init cfg files).exec hex).1.ctxs c r p hc
    refine .inr ?_
    rcases h2 with ⟨-, w', h3, rfl, rfl⟩ | ⟨-, rfl, rfl⟩
    · exact ⟨true, r, w, rfl, hc, h1, Function.update_self .., fun c' hc' =>
        Function.update_of_ne hc' .., rfl, rfl, by simp, fun _ => h3⟩
    · exact ⟨false, r, w, rfl, hc, h1, Function.update_self .., fun c' hc' =>
        Function.update_of_ne hc' .., rfl, rfl, fun _ => rfl, by simp⟩

/-- **C61.** Each request is ended at most once: between two ends of the same context that had an
effect, the context was asked for. -/
theorem C61_once {ops : List KOp} {xs : List Kokkos.Ret} {s : State M}
    (h : kexec e ops (initState cfg files) = .ok (xs, s)) {i j c : ℕ} {b b' : Bool} (hij : i < j)
    (hi : ops[i]? = some (.endContext c)) (hj : ops[j]? = some (.endContext c))
    (hx : xs[i]? = some (.ended b)) (hy : xs[j]? = some (.ended b')) :
    ∃ k o, i < k ∧ k < j ∧ ops[k]? = some o ∧ Asks o c := by
  have hl : Live (ops.take j) c := by
    by_contra hn
    rw [(C61_history h hj).1 hn] at hy
    cases hy
  obtain ⟨pre, q, suf, heq, hq, hs⟩ := hl
  have hjl : j < ops.length := (List.getElem?_eq_some_iff.1 hj).1
  have hlen := congrArg List.length heq
  simp only [List.length_take, List.length_append, List.length_cons] at hlen
  have hat : ∀ k < j, ops[k]? = (pre ++ q :: suf)[k]? := by
    intro k hk
    rw [← heq, List.getElem?_take_of_lt hk]
  refine ⟨pre.length, q, ?_, by omega, by rw [hat _ (by omega)]; simp, hq⟩
  by_contra hle
  have hi' := hi
  rw [hat i hij] at hi'
  by_cases he : i = pre.length
  · subst he
    simp only [List.getElem?_append_right le_rfl, Nat.sub_self, List.getElem?_cons_zero,
      Option.some.injEq] at hi'
    subst hi'
    obtain ⟨_, _, h, -⟩ := hq
    cases h
  · have hgt : pre.length + 1 ≤ i := by omega
    have hi'' : (pre ++ q :: suf)[i]? = suf[i - pre.length - 1]? := by
      rw [List.getElem?_append_right (by omega)]
      have : i - pre.length = (i - pre.length - 1) + 1 := by omega
      rw [this, List.getElem?_cons_succ]
      simp
    rw [hi''] at hi'
    exact hs _ (List.mem_of_getElem? hi') rfl

/-- **C61.** A flush trains every region that has a trainable model and measurements, if the regions
have different names (names are cut to 63 characters) and are trained one by one. -/
theorem C61_trains {ops : List KOp} {xs : List Kokkos.Ret} {s s' : State M} {c : ℕ}
    (hex : kexec e ops (initState cfg files) = .ok (xs, s)) (hsingle : cfg.single = false)
    (h : kstep e s (.endContext c) = .ok (.ended true, s'))
    (hnames : ∀ r₁ R₁ r₂ R₂, s.world.regions r₁ = some R₁ → s.world.regions r₂ = some R₂ →
      R₁.name = R₂.name → r₁ = r₂) :
    ∃ w r, s.contexts c = some (r, .sync r) ∧ endCtx e.env s.world r (.sync r) = .ok w ∧
      ∀ r R m, w.regions r = some R → w.models r = some m → e.env.ops.isTrainable m = true →
        R.dataset.size ≠ 0 → ∃ l ds, s'.world.log = w.log ++ l ∧ Ev.trained r ds ∈ l := by
  rcases C61_step hex h with ⟨h1, -⟩ | ⟨b, r₀, w, hb, hc, he, -, -, -, -, -, ht⟩
  · cases h1
  · cases hb
    have hI := ((KInv.init cfg files).exec hex).1
    have hrun : Runs e.env s.world w := by
      refine Runs.one (op := .endCtx r₀ (.sync r₀)) (x := .unit) ?_ ?_
      · simp [step, he]
      · exact ⟨by simp, by simp⟩
    obtain ⟨lops, -, hl⟩ := (kexec_runs hex).trans hrun
    obtain ⟨R, C, hR, hC, ⟨m, -, -, h3⟩ | ⟨h3, -⟩⟩ := endCtx_ok he
    swap
    · exact absurd rfl h3
    have hlive : AllLive w := (AllLive.stable e.env fun _ => False).finish _ _ _ _ _
      (by exact AllLive.exec (KInv.init cfg files) (AllLive.init cfg files) hex) h3
    refine ⟨w, r₀, hc, he, fun r R m hR hm hmt hd => ?_⟩
    obtain ⟨R₁, m₁, C₁, l, h4⟩ := collectContext_ok h3
    have hreg : ∀ r R, w.regions r = some R → ∃ R', s.world.regions r = some R' ∧ R.name = R'.name := by
      intro r R hR
      rw [h4.regions] at hR
      by_cases heq : r = r₀
      · subst heq
        rw [Function.update_self, Option.some.injEq] at hR
        subst hR
        exact ⟨R₁, h4.region, rfl⟩
      · rw [Function.update_of_ne heq] at hR
        exact ⟨R, hR, rfl⟩
    obtain ⟨p, hcfg⟩ := (CfgIs.invariant e.env (fun _ => True) cfg).exec (fun _ _ _ _ => trivial)
      ⟨cfg.globalPeriod, rfl⟩ hl
    refine C40_distinct_partial e.env cfg files lops w s'.world 0 true hl (ht rfl)
      (by rw [hcfg]; exact hsingle) hlive ?_ r R m hR hm hmt hd
    intro r₁ R₁ r₂ R₂ a1 a2 a3
    obtain ⟨R₁', b1, b2⟩ := hreg r₁ R₁ a1
    obtain ⟨R₂', c1, c2⟩ := hreg r₂ R₂ a2
    exact hnames r₁ R₁' r₂ R₂' b1 c1 (by rw [← b2, ← c2, a3])

/-- An end that flushes, with two regions of different names, one with a trainable model and data: the
last but two of `demoKOps`. -/
example : ∃ xs s, kexec demoK (demoKOps.take 8) (initState demoKCfg fun _ => none) = .ok (xs, s) ∧
    (demoKCfg.single = false ∧ s.world.nextRegion = 2 ∧
      (s.world.regions 0).map Region.name = some "size_tile_team.yaml".toList ∧
      (s.world.regions 1).map Region.name = some "tile.yaml".toList ∧
      (match kstep demoK s (.endContext 9) with
        | .ok (x, _) => decide (x = .ended true)
        | .error _ => false) = true ∧
      (match endCtx demoK.env s.world 1 (.sync 1) with
        | .ok w => decide ((w.models 0).map demoEnv.ops.isTrainable = some true ∧
            (w.regions 0).map (fun R => R.dataset.size) = some 1)
        | .error _ => false) = true) :=
  krun_ok (by decide +kernel)

/-! ## C62 -/

/-- **C62** is false, for every tuning problem and every content of the file: if the file looked for
exists, the first request for the problem ends the program.  Its path is passed where the name of a
model is expected. -/
theorem C62_fails (he : DotAborts e.env) {s : State M} {cid : ℕ} {ctx : List (ℕ × Value)}
    {tuning : List ℕ} (ht : tuning ≠ []) {n : ℤ} (hn : spaceSize s tuning 1 = .ok n)
    (hl : (ctx.map Prod.fst ++ tuning).length ≤ 50)
    (hf : s.regions.find (ctx.map Prod.fst ++ tuning) = none) {name : Str}
    (hname : regionName s (ctx.map Prod.fst ++ tuning) = .ok name)
    (hfile : (s.world.files (modelPath (name.take 63))).isSome) :
    request e s cid ctx tuning = .error .abort := by
  have hp : ∃ t, modelPath (name.take 63) = '.' :: t := ⟨_, rfl⟩
  obtain ⟨t, hp⟩ := hp
  unfold request
  rw [if_neg ht, hn, Res.bind_ok]
  dsimp only
  rw [if_neg (by omega)]
  unfold problemRegion
  rw [hf]
  unfold newRegion
  simp only [hname, Res.bind_ok, hfile, if_true]
  rw [hp, create_dot he]
  rfl

/-- A run of the program of `demoKOps`, and the same program after it: the model stored in the first
run makes the first request of the second one abort. -/
theorem C62_second_run : ∃ xs s, kexec demoK demoKOps (initState demoKCfg fun _ => none) =
      .ok (xs, s) ∧
    (s.world.files (modelPath "size_tile_team.yaml".toList)).isSome ∧
    (match kexec demoK demoKDecls (initState demoKCfg s.world.files) with
      | .ok (_, s') => (match request demoK s' 7 [(3, .int 100)] [1, 2] with
        | .error .abort => true
        | _ => false)
      | .error _ => false) = true :=
  krun_ok (by decide +kernel)

/-- The models of the library are among those of `C62_fails`. -/
theorem C62_models (gen : ℕ → ℕ → ℕ) (tenv : ℕ → TrainEnv) :
    (∀ env : Env PolicyModel, env.ops = policyOps gen tenv → DotAborts env) ∧
    (∀ (α : Type) [Arith α] [Stored α] (d : NetDraws α) (env : Env (AnyModel α)),
      env.ops = netOps gen tenv d → DotAborts env) := by
  constructor
  · intro env he t name nf n params
    rw [he]
    simp only [policyOps, createModel_dot]
  · intro α _ _ d env he t name nf n params
    rw [he]
    simp only [netOps, createModel_dot]

/-- What is left of **C62**: the path looked for is the one under which the training at a flush
(step 0) stores a RandomForest of the region, in the default directories on rank 0; and without the
file the region is made with the model configured.  Missing: that the file is used, which is false
(`C62_fails`). -/
theorem C62_partial : (∀ (cfg : Cfg) (name : Str), cfg.outputDir = ".apollo".toList →
      cfg.modelsDir = "models".toList →
      modelPath name = stepPath cfg 0 "RandomForest".toList 0 name) ∧
    ∀ (s : State M) (ids : List ℕ) (nctx : ℕ) (n : ℤ) (name : Str), regionName s ids = .ok name →
      s.world.files (modelPath (name.take 63)) = none →
      newRegion e s ids nctx n = (do
        let (r, w) ← createRegion e.env s.world nctx (name.take 63) (wrap32 n) 0 [] []
        .ok (r, { s with world := w, regions := s.regions.insert ids r,
                         unconverged := s.unconverged + 1 })) := by
  refine ⟨fun cfg name h1 h2 => ?_, fun s ids nctx n name h1 h2 => ?_⟩
  · have h0 : ".apollo/models/".toList ++ "RandomForest-step-0-rank-0-".toList =
        ".apollo".toList ++ "/".toList ++ "models".toList ++ "/".toList ++ "RandomForest".toList ++
          "-step-".toList ++ fmtInt 0 ++ "-rank-".toList ++ fmtInt 0 ++ "-".toList := by
      decide +kernel
    unfold modelPath stepPath
    rw [h1, h2, h0]
  · unfold newRegion
    simp only [h1, Res.bind_ok, h2, Option.isSome_none, Bool.false_eq_true, if_false]

end Apollo.Props
