import Verif.Proofs.KokkosFrom
import Verif.Proofs.KokkosInv
import Verif.Proofs.TestRuns
import Verif.Spec.KokkosTuning

/-!
# A tuning problem that is used again and again
-/

namespace Apollo.Kokkos

open Spec

variable {M : Type}

/-- The settings of the connector when nothing but the model is configured. -/
def kcfg (model : Str) : Cfg := { policyModel := model, storeModels := true, traceBest := true }

/-- Between two uses of the only tuning problem. -/
structure Idle (model : Str) (D : ℕ → Option Decl) (ids : List ℕ) (s : State M) (R : Region) (m : M) (t : ℕ)
    (enc : ℤ) : Prop where
  decls : s.decls = D
  regions : s.regions = [(ids, 0)]
  cfg : s.world.cfg = kcfg model
  region : s.world.regions 0 = some R
  model : s.world.models 0 = some m
  ctx : ∃ C, s.world.ctxs (.sync 0) = some C
  idle : R.minTraining = 0
  pending : R.pending = []
  registry : s.world.registry.map Prod.snd = [0]
  tick : s.world.tick = t
  encounter : s.encounter = enc

theorem find_self (ids : List ℕ) (r : ℕ) : TuningMap.find [(ids, r)] ids = some r := by
  have h : ∀ l : List ℕ, lessLoop l l = false := by
    intro l
    induction l with
    | nil => rfl
    | cons a l ih => simp [lessLoop, ih]
  simp [TuningMap.find, less, h]

theorem setFeatures_all (hash : Str → ℕ) : ∀ {vs : List (ℕ × Value)} {w : World M} {C : Ctx},
    w.ctxs (.sync 0) = some C →
    ∃ w', setFeatures hash (.sync 0) vs w = .ok w' ∧ w'.regions = w.regions ∧ w'.models = w.models ∧
      w'.cfg = w.cfg ∧ w'.registry = w.registry ∧ w'.tick = w.tick ∧
      w'.ctxs (.sync 0) = some { C with features := C.features ++ vs.map fun v => toFloat hash v.2 } := by
  intro vs
  induction vs with
  | nil =>
    intro w C hC
    exact ⟨w, rfl, rfl, rfl, rfl, rfl, rfl, by simpa using hC⟩
  | cons v vs ih =>
    intro w C hC
    obtain ⟨w', h1, h2, h3, h4, h5, h6, h7⟩ := ih (w := (w.setCtx (.sync 0)
      { C with features := C.features ++ [toFloat hash v.2] }).emit (.feature (.sync 0) (toFloat hash v.2)))
      (C := { C with features := C.features ++ [toFloat hash v.2] }) (by simp [World.setCtx, World.emit])
    refine ⟨w', ?_, h2, h3, h4, h5, h6, by simpa using h7⟩
    simp only [setFeatures, setFeature, World.ctx, hC, Res.bind_ok, h1]

/-- A use of the problem up to the end of its context. -/
theorem use_once {model : Str} {D : ℕ → Option Decl} {ids : List ℕ} {e : KEnv M} {s : State M} {R : Region}
    {m m' : M} {t : ℕ} {enc : ℤ} (hs : Idle model D ids s R m t enc) {ctx : List (ℕ × Value)} {tuning : List ℕ}
    (hne : tuning ≠ []) (hids : ctx.map Prod.fst ++ tuning = ids) (hlen : ids.length ≤ 50) {n : ℤ}
    (hsp : ∀ s : State M, s.decls = D → spaceSize s tuning 1 = .ok n) (hi : R.idx + 1 < 2 ^ 31) {c : ℤ}
    {vs : List Value} (hm : e.env.ops.getIndex m (ctx.map fun v => toFloat e.hash v.2) = .ok (c, m'))
    (hdec : ∀ s : State M, s.decls = D → decode s tuning c = .ok vs) (cid : ℕ) (henc : enc + 1 < 2 ^ 31)
    (hfl : e.flush ≠ 0) :
    ∃ s1 s2, kstep e s (.request cid ctx tuning) = .ok (.values 0 vs, s1) ∧
      Idle model D ids s2 (afterRun R (e.env.ops.isTrainable m') (ctx.map fun v => toFloat e.hash v.2) c
        (rnd64 (seconds (e.env.clock (t + 1)) - seconds (e.env.clock t)))) m' (t + 2) (enc + 1) ∧
      kstep e s1 (.endContext cid) =
        if (enc + 1).tmod e.flush = 0 then
          apolloTrain e.env s2.world 0 true >>= fun w => .ok (.ended true, { s2 with world := w, unconverged := 0 })
        else .ok (.ended false, s2) := by
  obtain ⟨C, hC⟩ := hs.ctx
  have hidle := hs.idle
  have hcfg := hs.cfg
  have ht := hs.tick
  obtain ⟨w1, h1, h2, h3, h4, h5, h6, h7⟩ := setFeatures_all e.hash (vs := ctx)
    (w := ((((s.world.setCtx (.sync 0) { C with features := [] }).setRegion 0
      { R with current := some (.sync 0), idx := R.idx + 1 }).setCtx (.sync 0)
      { C with features := [], idx := R.idx.toNat, start := some (seconds (e.env.clock s.world.tick)) }).advance).emit
      (.began 0 (.sync 0)))
    (C := { C with features := [], idx := R.idx.toNat, start := some (seconds (e.env.clock s.world.tick)) })
    (by simp [World.setCtx, World.setRegion, World.advance, World.emit])
  have hb : begin e.env s.world 0 .sync = .ok (.sync 0, ((((s.world.setCtx (.sync 0)
      { C with features := [] }).setRegion 0
      { R with current := some (.sync 0), idx := R.idx + 1 }).setCtx (.sync 0)
      { C with features := [], idx := R.idx.toNat, start := some (seconds (e.env.clock s.world.tick)) }).advance).emit
      (.began 0 (.sync 0))) := by
    simp only [begin, createContext, World.region, World.ctx, World.setRegion, World.setCtx, hs.region, hC,
      Res.bind_ok, hi, if_true, Function.update_self]
  have hR1 : w1.regions 0 = some { R with current := some (.sync 0), idx := R.idx + 1 } := by
    rw [h2]; simp [World.setCtx, World.setRegion, World.advance, World.emit]
  have hm1 : w1.models 0 = some m := by rw [h3]; exact hs.model
  have hcfg1 : w1.cfg = kcfg model := by rw [h4]; exact hcfg
  have hreg1 : w1.registry = s.world.registry := h5
  have ht1 : w1.tick = t + 1 := by rw [h6, ← ht]; rfl
  simp only [List.nil_append] at h7
  generalize hfs : ctx.map (fun v => toFloat e.hash v.2) = fs at h7 hm
  have hget : getPolicyIndex e.env w1 0 (.sync 0) = .ok (c, ((w1.setModel 0 m').setCtx (.sync 0)
      { C with features := fs, idx := R.idx.toNat, start := some (seconds (e.env.clock s.world.tick)), policy := c }).emit
      (.chose 0 (.sync 0) c)) := by
    simp only [getPolicyIndex, World.region, World.model, World.ctx, hR1, hm1, h7, Res.bind_ok, hm, tracePolicy, hcfg1,
      kcfg, Bool.false_eq_true, if_false]
  have hprob : problemRegion e s ids ctx.length n = .ok (0, s) := by
    rw [problemRegion, hs.regions, find_self]
  have hend : ∃ w2, endCtx e.env (((w1.setModel 0 m').setCtx (.sync 0)
        { C with features := fs, idx := R.idx.toNat, start := some (seconds (e.env.clock s.world.tick)), policy := c }).emit
        (.chose 0 (.sync 0) c)) 0 (.sync 0) = .ok w2 ∧ w2.cfg = kcfg model ∧
      w2.regions 0 = some (afterRun R (e.env.ops.isTrainable m') fs c
        (rnd64 (seconds (e.env.clock (t + 1)) - seconds (e.env.clock t)))) ∧ w2.models 0 = some m' ∧
      (∃ C, w2.ctxs (.sync 0) = some C) ∧ w2.registry = s.world.registry ∧ w2.tick = t + 2 := by
    cases hT : e.env.ops.isTrainable m' <;>
    simp only [endCtx, World.region, World.ctx, World.model,
      World.setRegion, World.setCtx, World.setModel, World.advance, World.emit, hR1,
      Res.bind_ok, if_true, Function.update_self, hcfg1, kcfg,
      syncMetric, collectContext, record, autoTrain, destroyContext,
      Bool.false_eq_true, if_false, Bool.false_or, hT, Bool.not_true, Bool.not_false, ne_eq,
      not_true_eq_false, false_and, hidle, lt_irrefl, ht, ht1]
    all_goals
      refine ⟨_, rfl, rfl, ?_, ?_, ?_, hreg1, rfl⟩
      · simp [afterRun, hidle]
      · simp
      · exact ⟨_, rfl⟩
  have hreq : kstep e s (.request cid ctx tuning) = .ok (.values 0 vs, { s with
      world := ((w1.setModel 0 m').setCtx (.sync 0)
        { C with features := fs, idx := R.idx.toNat, start := some (seconds (e.env.clock s.world.tick)), policy := c }).emit
        (.chose 0 (.sync 0) c)
      contexts := Function.update s.contexts cid (some (0, .sync 0)) }) := by
    have hl : ¬ 50 < ids.length := by omega
    simp only [kstep, request, if_neg hne, hsp s hs.decls, Res.bind_ok, hids, if_neg hl, hprob, hb, h1, hget,
      hdec s hs.decls]
  obtain ⟨w2, hend, g1, g2, g3, g4, g5, g6⟩ := hend
  refine ⟨_, { s with world := w2, encounter := enc + 1
                      contexts := Function.update (Function.update s.contexts cid (some (0, .sync 0))) cid none },
    hreq, ⟨hs.decls, hs.regions, g1, hfs ▸ g2, g3, g4, hidle, hs.pending, by rw [← hs.registry]; exact congrArg _ g5, g6,
      rfl⟩, ?_⟩
  simp only [kstep, endContext, Function.update_self, hend, Res.bind_ok, hs.encounter, henc, if_true, hfl, if_false]

theorem write_fields (env : Env M) (w : World M) (p : Str) (o : Option Str) :
    (w.write env p o).cfg = w.cfg ∧ (w.write env p o).regions = w.regions ∧ (w.write env p o).models = w.models ∧
      (w.write env p o).ctxs = w.ctxs ∧ (w.write env p o).registry = w.registry ∧ (w.write env p o).tick = w.tick := by
  obtain ⟨f, hf⟩ := write_same env w p o
  rw [hf]
  exact ⟨rfl, rfl, rfl, rfl, rfl, rfl⟩

/-- The training at a flush. -/
theorem flush_trains {model : Str} {D : ℕ → Option Decl} {ids : List ℕ} {e : KEnv M} {s : State M} {R : Region}
    {m m' : M} {t : ℕ} {enc : ℤ} (hs : Idle model D ids s R m t enc) (hm : e.env.ops.isTrainable m = true)
    (hd : R.dataset.size ≠ 0) {txt : Str} (hb : bestText e.env.rank R.name R.dataset = .ok txt)
    (ht : e.env.ops.train t R.dataset m = .ok m') {o : Option Str} (ho : e.env.ops.store m' = .ok o) :
    ∃ w, apolloTrain e.env s.world 0 true = .ok w ∧
      Idle model D ids { s with world := w, unconverged := 0 } R m' (t + 1) enc := by
  have hcfg := hs.cfg
  have htick := hs.tick
  have hp := hs.pending
  have hR : ({ R with pending := [] } : Region) = R := by
    cases R
    simp only at hp
    simp [hp]
  have hu : Function.update s.world.regions 0 (some R) = s.world.regions := by
    rw [← hs.region, Function.update_eq_self]
  have hcl : collectPending e.env s.world 0 = .ok s.world := by
    simp only [collectPending, World.region, hs.region, Res.bind_ok, hp, collectLoop, World.setRegion, hR, hu]
  have hkey : ∃ w, regionTrain e.env s.world 0 0 true false = .ok w ∧ w.cfg = kcfg model ∧
      w.regions = s.world.regions ∧ w.models 0 = some m' ∧ w.ctxs = s.world.ctxs ∧ w.registry = s.world.registry ∧
      w.tick = t + 1 := by
    obtain ⟨f1, hf1⟩ := write_same e.env s.world (bestPath e.env.rank 0 R.name) (some txt)
    have htb : traceBest e.env s.world R 0 = .ok { s.world with files := f1 } := by
      rw [traceBest, if_pos (by rw [hcfg]; rfl), hb, Res.bind_ok, hf1]
    have hM : ({ s.world with files := f1 } : World M).model 0 = .ok m := by simp only [World.model, hs.model]
    have hreg : s.world.region 0 = .ok R := by simp only [World.region, hs.region]
    have hM' : s.world.model 0 = .ok m := by simp only [World.model, hs.model]
    have htr : e.env.ops.train ({ s.world with files := f1 } : World M).tick R.dataset m = .ok m' := by
      rw [← ht, ← htick]
    have hbody : ∃ w, trainBody e.env s.world 0 0 = .ok w ∧ w.cfg = kcfg model ∧
        w.regions = s.world.regions ∧ w.models 0 = some m' ∧ w.ctxs = s.world.ctxs ∧
        w.registry = s.world.registry ∧ w.tick = t + 1 := by
      unfold trainBody
      rw [hreg, Res.bind_ok, if_neg hd, if_neg (by rw [hcfg]; simp [kcfg]), htb, Res.bind_ok, hM, Res.bind_ok, htr,
        Res.bind_ok]
      dsimp only
      rw [if_neg (by simp [World.setModel, World.advance, World.emit, hcfg, kcfg]),
        if_pos (by simp [World.setModel, World.advance, World.emit, hcfg, kcfg]), ho, Res.bind_ok]
      refine ⟨_, rfl, ?_⟩
      simp only [write_fields, World.setModel, World.advance, World.emit, htick, Function.update_self, hcfg, and_self]
    unfold regionTrain
    rw [hreg, Res.bind_ok, hM', Res.bind_ok, if_neg (by simp [hm]), if_pos rfl, hcl, Res.bind_ok]
    exact hbody
  obtain ⟨w, h1, h2, h3, h4, h5, h6, h7⟩ := hkey
  refine ⟨w, ?_, hs.decls, hs.regions, h2, by rw [← hs.region, ← h3], h4, by rw [h5]; exact hs.ctx, hs.idle, hp,
    by rw [← hs.registry, ← h6], h7, hs.encounter⟩
  simp only [apolloTrain, apolloTrainWith, hcfg, kcfg, Bool.false_eq_true, if_false, hs.registry, forRegions, h1,
    Res.bind_ok]

/-- A flush leaves a model that is not trainable. -/
theorem flush_rests {model : Str} {D : ℕ → Option Decl} {ids : List ℕ} {e : KEnv M} {s : State M} {R : Region}
    {m : M} {t : ℕ} {enc : ℤ} (hs : Idle model D ids s R m t enc) (hm : e.env.ops.isTrainable m = false) :
    apolloTrain e.env s.world 0 true = .ok s.world := by
  simp only [apolloTrain, apolloTrainWith, hs.cfg, kcfg, Bool.false_eq_true, if_false, hs.registry, forRegions,
    regionTrain, World.region, World.model, hs.region, hs.model, Res.bind_ok, hm, Bool.not_false, Bool.and_self, if_true]

theorem kexec_append (e : KEnv M) (a b : List KOp) (s : State M) : kexec e (a ++ b) s =
    (kexec e a s >>= fun x => kexec e b x.2 >>= fun y => .ok (x.1 ++ y.1, y.2)) := by
  induction a generalizing s with
  | nil =>
    rw [List.nil_append, kexec, Res.bind_ok]
    rcases kexec e b s with e | y <;> rfl
  | cons op a ih =>
    rw [List.cons_append, kexec, kexec]
    rcases kstep e s op with _ | ⟨x, s1⟩
    · rfl
    · simp only [Res.bind_ok, ih]
      rcases kexec e a s1 with _ | ⟨xs, s2⟩
      · rfl
      · simp only [Res.bind_ok]
        rcases kexec e b s2 with _ | y <;> rfl

theorem chosenValues_append (a b : List Ret) : chosenValues (a ++ b) = chosenValues a ++ chosenValues b := by
  simp [chosenValues]

/-- The features of a use. -/
def feats (e : KEnv M) (ctx : List (ℕ × Value)) : Features := ctx.map fun v => toFloat e.hash v.2

/-- A row of uses in which nothing is trained. -/
theorem uses_list {model : Str} {D : ℕ → Option Decl} {ids : List ℕ} {e : KEnv M} {tuning : List ℕ} (hne : tuning ≠ [])
    (hlen : ids.length ≤ 50) {n : ℤ} (hsp : ∀ s : State M, s.decls = D → spaceSize s tuning 1 = .ok n)
    (hfl : e.flush ≠ 0) (cid : ℕ) {b : Bool} : ∀ {ctxs : List (List (ℕ × Value))} {s : State M} {R : Region}
    {t : ℕ} {enc : ℤ} {ms : ℕ → M} {cs : ℕ → ℤ} {vs : ℕ → List Value} {h : List Meas},
    Idle model D ids s R (ms 0) t enc →
    (∀ ctx ∈ ctxs, ctx.map Prod.fst ++ tuning = ids) → R.idx + ctxs.length < 2 ^ 31 →
    enc + ctxs.length < 2 ^ 31 → R.dataset = run h →
    (∀ j (hj : j < ctxs.length), e.env.ops.getIndex (ms j) (feats e ctxs[j]) = .ok (cs j, ms (j + 1)) ∧
      e.env.ops.isTrainable (ms (j + 1)) = b ∧ (∀ s : State M, s.decls = D → decode s tuning (cs j) = .ok (vs j)) ∧
      ((enc + j + 1).tmod e.flush = 0 → b = false)) →
    ∃ rets s' R', kexec e (kernelRuns cid tuning ctxs) s = .ok (rets, s') ∧
      chosenValues rets = (List.range ctxs.length).map vs ∧
      Idle model D ids s' R' (ms ctxs.length) (t + 2 * ctxs.length) (enc + ctxs.length) ∧
      R'.idx = R.idx + ctxs.length ∧
      R'.dataset = run (h ++ if b then measured e.env.clock t (ctxs.map (feats e)) cs else []) ∧ R'.name = R.name := by
  intro ctxs
  induction ctxs with
  | nil =>
    intro s R t enc ms cs vs h hs _ _ _ hR _
    exact ⟨[], s, R, rfl, rfl, by simpa using hs, by simp, by cases b <;> simp [measured, hR], rfl⟩
  | cons ctx ctxs ih =>
    intro s R t enc ms cs vs h hs hids hi henc hR hm
    obtain ⟨hm0, hb, hdec, hmod⟩ := hm 0 (by simp)
    simp only [List.length_cons, Nat.cast_add, Nat.cast_one] at hi henc
    simp only [Nat.cast_zero, add_zero] at hmod
    obtain ⟨s1, s2, e1, i1, e2⟩ := use_once hs hne (hids ctx (by simp)) hlen hsp (by omega) hm0 hdec cid (by omega) hfl
    have hend : ∃ x s3, kstep e s1 (.endContext cid) = .ok (.ended x, s3) ∧
        Idle model D ids s3 (afterRun R (e.env.ops.isTrainable (ms 1)) (feats e ctx) (cs 0)
          (rnd64 (seconds (e.env.clock (t + 1)) - seconds (e.env.clock t)))) (ms 1) (t + 2) (enc + 1) := by
      by_cases hz : (enc + 1).tmod e.flush = 0
      · have hf : e.env.ops.isTrainable (ms 1) = false := hb.trans (hmod hz)
        rw [if_pos hz, flush_rests i1 hf, Res.bind_ok] at e2
        exact ⟨_, _, e2, i1.decls, i1.regions, i1.cfg, i1.region, i1.model, i1.ctx, i1.idle, i1.pending, i1.registry,
          i1.tick, i1.encounter⟩
      · rw [if_neg hz] at e2
        exact ⟨_, _, e2, i1⟩
    obtain ⟨x, s3, e3, i3⟩ := hend
    obtain ⟨r2, s4, R2, e4, p4, i4, x4, d4, n4⟩ := ih (ms := fun j => ms (j + 1)) (cs := fun j => cs (j + 1))
      (vs := fun j => vs (j + 1))
      (h := h ++ if b then [⟨feats e ctx, cs 0, rnd64 (seconds (e.env.clock (t + 1)) - seconds (e.env.clock t))⟩] else [])
      i3 (fun c hc => hids c (by simp [hc])) (by simp only [afterRun]; omega) (by omega)
      (by
        rw [hb]
        cases b
        · simp [afterRun, hR]
        · simp [afterRun, hR, run])
      (fun j hj => by
        obtain ⟨a1, a2, a3, a4⟩ := hm (j + 1) (by simpa using hj)
        refine ⟨a1, a2, a3, fun hz => a4 ?_⟩
        rw [← hz]
        congr 1
        push_cast
        ring)
    refine ⟨.values 0 (vs 0) :: .ended x :: r2, s4, R2, ?_, ?_, ?_, ?_, ?_, n4⟩
    · have : kernelRuns cid tuning (ctx :: ctxs) =
          .request cid ctx tuning :: .endContext cid :: kernelRuns cid tuning ctxs := rfl
      rw [this, kexec, e1, Res.bind_ok]
      simp only
      rw [kexec, e3, Res.bind_ok]
      simp only
      rw [e4]
      rfl
    · rw [List.length_cons, List.range_succ_eq_map, List.map_cons, List.map_map]
      change vs 0 :: chosenValues r2 = _
      rw [p4]
      rfl
    · rw [List.length_cons, show t + 2 * (ctxs.length + 1) = t + 2 + 2 * ctxs.length by ring]
      have : enc + ((ctxs.length + 1 : ℕ) : ℤ) = enc + 1 + ctxs.length := by push_cast; ring
      rw [this]
      exact i4
    · rw [x4, List.length_cons]
      simp only [afterRun]
      push_cast
      ring
    · rw [d4]
      cases b
      · simp
      · simp [measured]

/-- The first request makes the region. -/
theorem first_request {e : KEnv PolicyModel} {gen : ℕ → ℕ → ℕ} {tenv : ℕ → TrainEnv}
    (ho : e.env.ops = policyOps gen tenv) {model : Str} {files : Str → Option Str} {s : State PolicyModel}
    (hw : s.world = initWorld (kcfg model) files) (hr : s.regions = []) (henc : s.encounter = 0) {ids : List ℕ}
    {name : Str} (hname : regionName s ids = .ok name) (hfile : files (modelPath (name.take 63)) = none) {nctx : ℕ}
    {n : ℤ} (hn : 0 ≤ n ∧ n < 2 ^ 31) {m : PolicyModel} (hm : Made (gen 0) model nctx n m) :
    ∃ s1 R, problemRegion e s ids nctx n = .ok (0, s1) ∧ Idle model s.decls ids s1 R m 1 0 ∧ R.idx = 0 ∧
      R.dataset = [] ∧ s1.contexts = s.contexts := by
  obtain ⟨mn, ps, h1, h2, h3, h4, h5, h6, h7⟩ := hm.ex
  have hc : (policyOps gen tenv).create 0 mn nctx n ps = .ok m := by simp only [policyOps, h3]
  have hrs : ∀ (nm : Str) (s : Str), resolveStaticRegion nm mn ps s = .ok (mn, ps, s) := by
    intro nm s
    unfold resolveStaticRegion
    rw [if_neg h2]
  let R : Region := ⟨truncName (name.take 63), nctx, n, 0, model, mn, ps, [], 0, none, [], []⟩
  let w1 : World PolicyModel := ((((({ initWorld (kcfg model) files with nextRegion := 1 } : World PolicyModel).setRegion 0
    R).setModel 0 m).setCtx (.sync 0) {}).advance)
  have hcons : constructRegion e.env (initWorld (kcfg model) files) nctx (name.take 63) n 0 [] [] = .ok (0, w1) := by
    unfold constructRegion
    have e1 : (initWorld (kcfg model) files : World PolicyModel).cfg.policyModel = model := rfl
    have e2 : (initWorld (kcfg model) files : World PolicyModel).tick = 0 := rfl
    have e3 : (initWorld (kcfg model) files : World PolicyModel).nextRegion = 0 := rfl
    simp only [e1, e2, e3, h1, Res.bind_ok, hrs, ho, hc, loadYaml, if_true, loadModel, h4]
    rfl
  have hR : w1.region 0 = .ok R := rfl
  have hM : w1.model 0 = .ok m := rfl
  have hcfg : w1.cfg = kcfg model := rfl
  have h6' : R.modelName ≠ "Optimal".toList := h6
  have h7' : R.modelName ≠ "DatasetMap".toList := h7
  have h5' : R.params.find "load-dataset".toList = none := h5
  have hcr : createRegion e.env (initWorld (kcfg model) files) nctx (name.take 63) n 0 [] [] = .ok (0,
      ({ w1 with registry := OMap.insertNew R.name 0 w1.registry } : World PolicyModel).emit
        (.created 0 [] (e.env.ops.isTrainable m))) := by
    have hp : (kcfg model).persistent = false := rfl
    have ht : (kcfg model).traceCsv = false := rfl
    simp only [createRegion, hcons, Res.bind_ok, loadPersistent, hcfg, hp, ht, Bool.not_false, if_true,
      loadDatasetParam, hR, h5', loadOptimalFile, h6', if_false, loadDatasetMap, h7', startTrace,
      Bool.false_eq_true, hM]
    rfl
  have hwr : wrap32 n = n := wrap32_of_range (by omega) hn.2
  have hf : (s.world.files (modelPath (name.take 63))).isSome = false := by
    rw [hw]
    change (files _).isSome = false
    rw [hfile]
    rfl
  have hfind : TuningMap.find s.regions ids = none := by rw [hr]; rfl
  have hp : problemRegion e s ids nctx n = .ok (0, { s with
      world := ({ w1 with registry := OMap.insertNew R.name 0 w1.registry } : World PolicyModel).emit
        (.created 0 [] (e.env.ops.isTrainable m))
      regions := TuningMap.insert s.regions ids 0, unconverged := s.unconverged + 1 }) := by
    rw [problemRegion, hfind]
    simp only [newRegion, hname, Res.bind_ok, hf, Bool.false_eq_true, if_false, hwr]
    rw [hw, hcr, Res.bind_ok]
  refine ⟨_, R, hp, ⟨rfl, ?_, rfl, rfl, rfl, ⟨_, rfl⟩, rfl, rfl, rfl, rfl, henc⟩, rfl, rfl, rfl⟩
  rw [hr]
  rfl

/-- A tree (`none`) or a forest of so many trees after `j` answers of its explorer. -/
def exploring (k : Option ℕ) (n : ℤ) (d j : ℕ) : PolicyModel :=
  match k with
  | none => .newTree n d (.roundRobin n (lastOf n j))
  | some k => .newForest n k d (.roundRobin n (lastOf n j))

theorem exploring_step {n : ℤ} (hn : 0 < n) (k : Option ℕ) (d j : ℕ) (f : Features) :
    (exploring k n d j).getIndex f = .ok ((j : ℤ) % n, exploring k n d (j + 1)) ∧
      (exploring k n d j).isTrainable = true := by
  cases k with
  | none => exact ⟨explore_step hn d j f, rfl⟩
  | some k =>
    refine ⟨?_, rfl⟩
    have h0 : n ≠ 0 := by omega
    have hc : Int.tmod (lastOf n j + 1) n = (j : ℤ) % n := by
      unfold lastOf
      split
      next h => subst h; simp
      next h =>
        rw [Int.tmod_eq_emod_of_nonneg (by have := Int.emod_nonneg ((j : ℤ) - 1) h0; omega), Int.emod_add_emod]
        congr 1
        ring
    have hl : lastOf n (j + 1) = (j : ℤ) % n := by simp [lastOf]
    simp only [exploring, PolicyModel.newForest, PolicyModel.getIndex, Bool.not_true, Bool.false_eq_true, if_false, h0,
      Res.bind_ok, hc, hl]

theorem exploring_good {n : ℤ} (hn : 0 < n) (fits : ℚ → Prop) (nf : ℕ) (ds : Dataset) (k : Option ℕ) (d j : ℕ) :
    GoodModel fits nf n ds (exploring k n d j) := by
  have hl : -1 ≤ lastOf n j ∧ lastOf n j < n := by
    unfold lastOf
    split
    · omega
    · have := Int.emod_nonneg ((j : ℤ) - 1) (show n ≠ 0 by omega)
      have := Int.emod_lt_of_pos ((j : ℤ) - 1) hn
      omega
  cases k with
  | none => exact ⟨⟨rfl, hl⟩, List.Pairwise.nil, by simp [TreeImpl.new], by simp⟩
  | some k => exact ⟨⟨rfl, hl⟩, rfl, by simp [ForestImpl.new]⟩

/-- A trained model answers by itself and stays as it is. -/
theorem exploring_trained {k : Option ℕ} {n : ℤ} {d j : ℕ} {env : TrainEnv} {ds : Dataset} {m : PolicyModel}
    (h : (exploring k n d j).train env ds = .ok m) :
    m.isTrainable = false ∧ ∀ f c m', m.getIndex f = .ok (c, m') → m' = m := by
  cases k with
  | none =>
    simp only [exploring, PolicyModel.newTree, PolicyModel.train] at h
    obtain ⟨t, -, h⟩ := (Res.bind_eq_ok _ _ _).1 h
    cases h
    refine ⟨rfl, fun f c m' h => ?_⟩
    simp only [PolicyModel.getIndex, Bool.not_false, if_true] at h
    obtain ⟨t, -, h⟩ := (Res.bind_eq_ok _ _ _).1 h
    cases h
    rfl
  | some k =>
    simp only [exploring, PolicyModel.newForest, PolicyModel.train] at h
    obtain ⟨t, -, h⟩ := (Res.bind_eq_ok _ _ _).1 h
    cases h
    refine ⟨rfl, fun f c m' h => ?_⟩
    simp only [PolicyModel.getIndex, Bool.not_false, if_true] at h
    obtain ⟨t, -, h⟩ := (Res.bind_eq_ok _ _ _).1 h
    cases h
    rfl

theorem measured_append (clock : ℕ → ℤ × ℤ) : ∀ (a b : List Features) (t : ℕ) (cs : ℕ → ℤ),
    measured clock t (a ++ b) cs = measured clock t a cs ++
      measured clock (t + 2 * a.length) b fun j => cs (a.length + j) := by
  intro a
  induction a with
  | nil => intro b t cs; simp [measured]
  | cons f a ih =>
    intro b t cs
    rw [List.cons_append, measured, measured, ih, List.cons_append]
    congr 2
    · rw [List.length_cons]
      congr 1
      · ring
      · funext j
        congr 1
        ring

theorem data_ok {fits : ℚ → Prop} {k : ℕ} {n : ℤ} : ∀ {l : List Meas},
    (∀ x ∈ l, x.features.length = k ∧ (0 ≤ x.policy ∧ x.policy < n) ∧ ∀ v ∈ x.features, fits v) →
    DataOk fits k n (run l) ∧ (run l).length ≤ l.length ∧ (l ≠ [] → (run l).length ≠ 0) := by
  intro l
  induction l using List.reverseRecOn with
  | nil => intro _; exact ⟨fun e he => (by cases he), le_rfl, fun h => absurd rfl h⟩
  | append_singleton l x ih =>
    intro h
    obtain ⟨h1, h2, -⟩ := ih fun y hy => h y (by simp [hy])
    obtain ⟨a, b, c⟩ := h x (by simp)
    have he : run (l ++ [x]) = (run l).insert x.features x.policy x.metric := by simp [run]
    rw [he]
    refine ⟨h1.insert a b c _, ?_, fun _ hz => ?_⟩
    · have : ((run l).insert x.features x.policy x.metric).length ≤ (run l).length + 1 := OMap.length_upsert _ _ _
      simp only [List.length_append, List.length_singleton]
      omega
    · have hk : mkKey x.features x.policy ∈ ((run l).insert x.features x.policy x.metric).map Prod.fst :=
        (OMap.mem_upsert_key _ _ _ _).2 (.inl rfl)
      rw [List.length_eq_zero_iff.1 hz] at hk
      cases hk

/-- What is needed before the first use of a tuning problem. -/
structure Fresh (e : KEnv PolicyModel) (gen : ℕ → ℕ → ℕ) (tenv : ℕ → TrainEnv) (model : Str)
    (files : Str → Option Str) (s : State PolicyModel) (ids tuning : List ℕ) (nctx : ℕ) (n : ℤ) (val : ℤ → List Value)
    (k : Option ℕ) (d : ℕ) : Prop where
  ops : e.env.ops = policyOps gen tenv
  world : s.world = initWorld (kcfg model) files
  regions : s.regions = []
  encounter : s.encounter = 0
  ne : tuning ≠ []
  length : ids.length ≤ 50
  name : ∃ name, regionName s ids = .ok name ∧ files (modelPath (name.take 63)) = none
  pos : 0 < n
  small : n < 2 ^ 31
  space : ∀ s' : State PolicyModel, s'.decls = s.decls → spaceSize s' tuning 1 = .ok n
  dec : ∀ c, 0 ≤ c → c < n → ∀ s' : State PolicyModel, s'.decls = s.decls → decode s' tuning c = .ok (val c)
  made : Made (gen 0) model nctx n (exploring k n d 0)

/-- The first request is as one with the region made before. -/
theorem Fresh.first {e : KEnv PolicyModel} {gen : ℕ → ℕ → ℕ} {tenv : ℕ → TrainEnv} {model : Str}
    {files : Str → Option Str} {s : State PolicyModel} {ids tuning : List ℕ} {nctx : ℕ} {n : ℤ} {val : ℤ → List Value}
    {k : Option ℕ} {d : ℕ} (h : Fresh e gen tenv model files s ids tuning nctx n val k d) :
    ∃ s1 R, Idle model s.decls ids s1 R (exploring k n d 0) 1 0 ∧ R.idx = 0 ∧ R.dataset = [] ∧
      ∀ (cid : ℕ) (ctx : List (ℕ × Value)) (ops : List KOp), ctx.map Prod.fst ++ tuning = ids → ctx.length = nctx →
        kexec e (.request cid ctx tuning :: ops) s = kexec e (.request cid ctx tuning :: ops) s1 := by
  obtain ⟨name, hname, hfile⟩ := h.name
  obtain ⟨s1, R, h1, h2, h3, h4, h5⟩ := first_request h.ops h.world h.regions h.encounter hname hfile
    ⟨h.pos.le, h.small⟩ h.made
  refine ⟨s1, R, h2, h3, h4, fun cid ctx ops hi hl => ?_⟩
  subst hl
  have hp : problemRegion e s1 ids ctx.length n = .ok (0, s1) := by
    rw [problemRegion, h2.regions, find_self]
  rw [kexec, kexec]
  simp only [kstep, request, if_neg h.ne, h.space s rfl, h.space s1 h2.decls, Res.bind_ok, hi,
    if_neg (by have := h.length; omega : ¬ 50 < ids.length), h1, hp]

/-- The uses before the first flush. -/
theorem Fresh.explored {e : KEnv PolicyModel} {gen : ℕ → ℕ → ℕ} {tenv : ℕ → TrainEnv} {model : Str}
    {files : Str → Option Str} {s : State PolicyModel} {ids tuning : List ℕ} {nctx : ℕ} {n : ℤ} {val : ℤ → List Value}
    {k : Option ℕ} {d : ℕ} (h : Fresh e gen tenv model files s ids tuning nctx n val k d) {s1 : State PolicyModel}
    {R : Region} (hs : Idle model s.decls ids s1 R (exploring k n d 0) 1 0) (hi : R.idx = 0) (hd : R.dataset = [])
    (cid : ℕ) {ctxs : List (List (ℕ × Value))} (hids : ∀ ctx ∈ ctxs, ctx.map Prod.fst ++ tuning = ids)
    (hl : (ctxs.length : ℤ) < e.flush) (hl' : ctxs.length < 2 ^ 31) :
    ∃ rets s' R', kexec e (kernelRuns cid tuning ctxs) s1 = .ok (rets, s') ∧
      chosenValues rets = (List.range ctxs.length).map (fun j : ℕ => val ((j : ℤ) % n)) ∧
      Idle model s.decls ids s' R' (exploring k n d ctxs.length) (1 + 2 * ctxs.length) ctxs.length ∧
      R'.idx = ctxs.length ∧
      R'.dataset = run (measured e.env.clock 1 (ctxs.map (feats e)) fun j => (j : ℤ) % n) ∧ R'.name = R.name := by
  have hpos := h.pos
  have hf0 : e.flush ≠ 0 := by omega
  obtain ⟨rets, s', R', h1, h2, h3, h4, h5, h6⟩ := uses_list h.ne h.length h.space hf0 cid (b := true)
    (ctxs := ctxs) (ms := exploring k n d) (cs := fun j : ℕ => (j : ℤ) % n) (vs := fun j : ℕ => val ((j : ℤ) % n))
    (h := []) hs hids (by omega) (by omega) hd (fun j hj => by
      rw [h.ops]
      refine ⟨(exploring_step hpos k d j _).1, (exploring_step hpos k d (j + 1) []).2,
        h.dec _ (Int.emod_nonneg _ (by omega)) (Int.emod_lt_of_pos _ hpos), fun hz => ?_⟩
      exfalso
      rw [Int.tmod_eq_of_lt (by omega) (by omega)] at hz
      omega)
  exact ⟨rets, s', R', h1, h2, by simpa using h3, by omega, by simpa using h5, h6⟩

/-- The uses up to the first flush and after it. -/
theorem Fresh.tuned {e : KEnv PolicyModel} {gen : ℕ → ℕ → ℕ} {tenv : ℕ → TrainEnv} {model : Str}
    {files : Str → Option Str} {s : State PolicyModel} {ids tuning : List ℕ} {nctx : ℕ} {n : ℤ} {val : ℤ → List Value}
    {k : Option ℕ} {d : ℕ} (h : Fresh e gen tenv model files s ids tuning nctx n val k d)
    (hσ : ∀ t, SortSpec (tenv t).sort) (cid : ℕ) {first rest : List (List (ℕ × Value))}
    (hids : ∀ ctx ∈ first ++ rest, ctx.map Prod.fst ++ tuning = ids)
    (hctx : ∀ ctx ∈ first ++ rest, ctx.length = nctx)
    (hfit : ∀ ctx ∈ first, ∀ v ∈ feats e ctx, FitsInt v) (hl : (first.length : ℤ) = e.flush) (hp : 0 < first.length)
    (hmax : first.length ≤ 2 ^ 19) (hl' : first.length + rest.length < 2 ^ 31) :
    ∃ rets s' m', kexec e (kernelRuns cid tuning (first ++ rest)) s = .ok (rets, s') ∧
      (exploring k n d first.length).train (tenv (1 + 2 * first.length))
        (run (measured e.env.clock 1 (first.map (feats e)) fun j => (j : ℤ) % n)) = .ok m' ∧
      ∃ ans : List (ℕ × Value) → ℤ, (∀ ctx ∈ rest, m'.getIndex (feats e ctx) = .ok (ans ctx, m') ∧
          0 ≤ ans ctx ∧ ans ctx < n) ∧
        chosenValues rets = (List.range first.length).map (fun j : ℕ => val ((j : ℤ) % n)) ++
          rest.map fun ctx => val (ans ctx) := by
  have hpos := h.pos
  have hf0 : e.flush ≠ 0 := by omega
  obtain ⟨s1, R, i1, x1, d1, hfirst⟩ := h.first
  have hrw : kexec e (kernelRuns cid tuning (first ++ rest)) s = kexec e (kernelRuns cid tuning (first ++ rest)) s1 := by
    obtain ⟨c, cs, hc⟩ := List.exists_cons_of_length_pos (l := first ++ rest) (by simp; omega)
    rw [hc] at hids hctx ⊢
    exact hfirst cid c _ (hids c (by simp)) (hctx c (by simp))
  obtain ⟨pre, last, hfl⟩ := List.eq_nil_or_concat first |>.resolve_left (by rintro rfl; simp at hp)
  rw [List.concat_eq_append] at hfl
  have hlen : first.length = pre.length + 1 := by rw [hfl]; simp
  obtain ⟨r2, s2, R2, e2, p2, i2, x2, d2, n2⟩ := h.explored i1 x1 d1 cid (ctxs := pre)
    (fun c hc => hids c (by simp [hfl, hc])) (by omega) (by omega)
  have hans := exploring_step hpos k d pre.length (feats e last)
  have hdec := h.dec (pre.length % n) (Int.emod_nonneg _ (by omega)) (Int.emod_lt_of_pos _ hpos)
  obtain ⟨s3, s4, e3, i4, e4⟩ := use_once i2 h.ne (hids last (by simp [hfl])) h.length h.space (by omega)
    (ctx := last) (c := pre.length % n) (m' := exploring k n d (pre.length + 1)) (by rw [h.ops]; exact hans.1)
    hdec cid (by omega) (by omega)
  have htr : e.env.ops.isTrainable (exploring k n d (pre.length + 1)) = true := by
    rw [h.ops]
    exact (exploring_step hpos k d (pre.length + 1) []).2
  rw [htr] at i4
  have hz : ((pre.length : ℤ) + 1).tmod e.flush = 0 := by
    rw [show ((pre.length : ℤ) + 1) = e.flush by omega]
    exact Int.tmod_self
  rw [if_pos hz] at e4
  have hds : (afterRun R2 true (feats e last) (pre.length % n)
      (rnd64 (seconds (e.env.clock (1 + 2 * pre.length + 1)) - seconds (e.env.clock (1 + 2 * pre.length))))).dataset =
      run (measured e.env.clock 1 (first.map (feats e)) fun j => (j : ℤ) % n) := by
    rw [hfl, List.map_append, measured_append]
    simp [afterRun, d2, run, measured]
  have hmeas : ∀ x ∈ measured e.env.clock 1 (first.map (feats e)) (fun j => (j : ℤ) % n),
      x.features.length = nctx ∧ (0 ≤ x.policy ∧ x.policy < n) ∧ ∀ v ∈ x.features, FitsInt v := by
    intro x hx
    obtain ⟨j, hj, rfl⟩ := mem_measured.1 hx
    rw [List.length_map] at hj
    simp only [List.getElem_map]
    refine ⟨?_, ⟨Int.emod_nonneg _ (by omega), Int.emod_lt_of_pos _ hpos⟩, hfit _ (List.getElem_mem hj)⟩
    rw [feats, List.length_map]
    exact hctx _ (by simp)
  obtain ⟨hdata, hle, hnz⟩ := data_ok hmeas
  have hml : ∀ (fs : List Features) (t : ℕ) (cs : ℕ → ℤ), (measured e.env.clock t fs cs).length = fs.length := by
    intro fs
    induction fs with
    | nil => intro t cs; rfl
    | cons f fs ih => intro t cs; simp [measured, ih]
  rw [hml, List.length_map] at hle
  have hnz := hnz (by
    intro h0
    have := hml (first.map (feats e)) 1 fun j => (j : ℤ) % n
    rw [h0] at this
    simp only [List.length_nil, List.length_map] at this
    omega)
  obtain ⟨m', t1, g1, o1⟩ := (exploring_good hpos FitsInt nctx _ k d (pre.length + 1)).train
    (hσ (1 + 2 * first.length)) hdata hnz (by omega)
  obtain ⟨o, ho⟩ := o1 fun v hv => hv
  obtain ⟨txt, hb⟩ := bestText_safe hdata (fun v hv => hv) e.env.rank (afterRun R2 true (feats e last) (pre.length % n)
      (rnd64 (seconds (e.env.clock (1 + 2 * pre.length + 1)) - seconds (e.env.clock (1 + 2 * pre.length))))).name
  have hd0 : (afterRun R2 true (feats e last) (pre.length % n)
      (rnd64 (seconds (e.env.clock (1 + 2 * pre.length + 1)) - seconds (e.env.clock (1 + 2 * pre.length))))).dataset.size
        ≠ 0 := by
    rw [hds]
    exact hnz
  obtain ⟨w, ht, i5⟩ := flush_trains i4 htr hd0 (hds ▸ hb) (m' := m') (o := o)
    (by
      rw [h.ops]
      change PolicyModel.train _ _ _ = _
      rw [show 1 + 2 * pre.length + 2 = 1 + 2 * first.length by omega]
      rw [← t1]
      congr 1) (by rw [h.ops]; exact ho)
  rw [ht, Res.bind_ok] at e4
  rw [← hlen] at t1
  obtain ⟨hf, hself⟩ := exploring_trained t1
  have hchoose : ∀ ctx : List (ℕ × Value), ∃ c, ctx.length = nctx →
      m'.getIndex (feats e ctx) = .ok (c, m') ∧ 0 ≤ c ∧ c < n := by
    intro ctx
    by_cases hc : ctx.length = nctx
    · obtain ⟨c, m'', h1, h2, -⟩ := g1.index (f := feats e ctx) (by omega) (by rw [feats, List.length_map]; exact hc)
      have := hself _ _ _ h1
      subst this
      exact ⟨c, fun _ => ⟨h1, h2⟩⟩
    · exact ⟨0, fun h => absurd h hc⟩
  choose ans hans' using hchoose
  obtain ⟨r6, s6, R6, e6, p6, -⟩ := uses_list h.ne h.length h.space hf0 cid (b := false)
    (ctxs := rest) (ms := fun _ => m') (cs := fun j : ℕ => ans (rest.getD j [])) (vs := fun j : ℕ => val (ans (rest.getD j [])))
    (h := measured e.env.clock 1 (first.map (feats e)) fun j => (j : ℤ) % n) i5
    (fun c hc => hids c (by simp [hc])) (by simp only [afterRun]; omega) (by omega) hds (fun j hj => by
      rw [h.ops]
      have hg : rest.getD j [] = rest[j] := by simp [List.getD_eq_getElem?_getD, hj]
      obtain ⟨a1, a2, a3⟩ := hans' rest[j] (hctx _ (by simp))
      simp only [hg]
      exact ⟨a1, hf, h.dec _ a2 a3, by simp⟩)
  refine ⟨r2 ++ (.values 0 (val (pre.length % n)) :: .ended true :: r6), s6, m', ?_, t1, ans,
    fun ctx hc => hans' ctx (hctx ctx (by simp [hc])), ?_⟩
  · rw [hrw, hfl]
    have : kernelRuns cid tuning (pre ++ [last] ++ rest) = kernelRuns cid tuning pre ++
        (.request cid last tuning :: .endContext cid :: kernelRuns cid tuning rest) := by
      simp [kernelRuns]
    rw [this, kexec_append, e2, Res.bind_ok]
    simp only
    rw [kexec, e3, Res.bind_ok]
    simp only
    rw [kexec, e4, Res.bind_ok]
    simp only
    rw [e6]
    rfl
  · rw [chosenValues_append, p2, hlen, List.range_succ, List.map_append, List.append_assoc]
    congr 1
    change val (pre.length % n) :: chosenValues r6 = _
    rw [p6]
    simp only [List.map_cons, List.map_nil, List.singleton_append, List.cons.injEq, true_and]
    apply List.ext_getElem
    · simp
    · intro i h1 h2
      simp only [List.length_map, List.length_range] at h1
      simp [List.getD_eq_getElem?_getD, h1]

end Apollo.Kokkos
