import Verif.Proofs.RegionTrain
import Verif.Model.RegionPolicy
import Verif.Props.Region

/-!
# Properties C38–C42: when models are trained

`exec env ops w` runs the calls `ops` in the world `w` for any surroundings `env`.
-/

namespace Apollo.Props

open Apollo Apollo.Spec

variable {M : Type}

/-! ## C38 -/

/-- Which regions are trained at the end of an execution of region `r`: `G` and `P` are the global and
the per-region period, `mt` the minimal size of the training data, `executions` the number of finished
executions, `begins` the number of executions begun by `r`, `size` the size of its dataset, `all` the
regions known to Apollo. -/
def trainees (trainable : Bool) (G P mt : ℤ) (executions begins size : ℕ) (r : ℕ) (all : List ℕ) :
    List ℕ :=
  if trainable = false then []
  else if 0 < G ∧ G ∣ executions then all
  else if 0 < P ∧ P ∣ begins then [r]
  else if 0 < mt ∧ mt ≤ size then [r]
  else []

theorem due_iff {env : Env M} {models : ℕ → Option M} {data : ℕ → Option Dataset} {r r' : ℕ}
    {ds : Dataset} : Ev.trained r' ds ∈ due env models data r ↔
      r' = r ∧ data r = some ds ∧ ds.size ≠ 0 ∧
        ∃ m, models r = some m ∧ env.ops.isTrainable m = true := by
  unfold due
  cases hm : models r with
  | none => simp
  | some m =>
    cases hd : data r with
    | none => simp
    | some ds' =>
      dsimp only
      by_cases h : env.ops.isTrainable m = true ∧ ds'.size ≠ 0
      · rw [if_pos h]
        simp only [List.mem_singleton, Ev.trained.injEq, Option.some.injEq]
        constructor
        · rintro ⟨rfl, rfl⟩; exact ⟨rfl, rfl, h.2, m, rfl, h.1⟩
        · rintro ⟨rfl, rfl, -⟩; exact ⟨rfl, rfl⟩
      · rw [if_neg h]
        simp only [List.not_mem_nil, Option.some.injEq, false_iff]
        rintro ⟨-, rfl, h1, m', rfl, h2⟩
        exact h ⟨h2, h1⟩

theorem due_nodup (env : Env M) (models : ℕ → Option M) (data : ℕ → Option Dataset) {rs : List ℕ}
    (h : rs.Nodup) : (rs.flatMap (due env models data)).Nodup := by
  rw [List.nodup_flatMap]
  refine ⟨fun r _ => ?_, ?_⟩
  · unfold due
    split
    · split <;> simp
    · simp
  · refine h.imp fun {a b} hab => ?_
    intro e h1 h2
    have h3 : ∀ r, e ∈ due env models data r → ∃ ds, e = .trained r ds := by
      intro r he
      unfold due at he
      split at he
      · split at he
        · exact ⟨_, List.mem_singleton.1 he⟩
        · cases he
      · cases he
    obtain ⟨ds, rfl⟩ := h3 a h1
    exact hab (due_mem h2)

theorem period_iff {G : ℤ} (hG : 0 ≤ G) (hG' : G < 2 ^ 64) (n : ℕ) :
    (G ≠ 0 ∧ n % (G % 2 ^ 64).toNat = 0) ↔ (0 < G ∧ G ∣ (n : ℤ)) := by
  rw [Int.emod_eq_of_lt hG hG']
  constructor
  · rintro ⟨h, h1⟩
    refine ⟨by omega, ?_⟩
    have : (G.toNat : ℤ) ∣ n := Int.natCast_dvd_natCast.2 (Nat.dvd_of_mod_eq_zero h1)
    rwa [Int.toNat_of_nonneg hG] at this
  · rintro ⟨h, h1⟩
    refine ⟨by omega, Nat.mod_eq_zero_of_dvd ?_⟩
    rw [← Int.toNat_of_nonneg hG] at h1
    exact Int.natCast_dvd_natCast.1 h1

/-- C38: in any execution, without collective training and in region model mode, the trainings at the
end of an execution of region `r` are these: among the regions `trainees` says, each one whose model
is trainable and which has data is trained once, on its dataset including the new measurement.  The
other models stay as they were. -/
theorem C38_fires (env : Env M) (cfg : Cfg) (files : Str → Option Str) (ops : List Op)
    (w w' : World M) (h : exec env ops (initWorld cfg files) = .ok w)
    (hs : w.cfg.single = false) (hG : 0 ≤ w.cfg.globalPeriod) (hG' : w.cfg.globalPeriod < 2 ^ 64)
    (hP : 0 ≤ w.cfg.perRegionPeriod) (r : ℕ) (c : CtxPtr) (metric : ℚ) (R : Region) (m : M) (C : Ctx)
    (hR : w.regions r = some R) (hm : w.models r = some m) (hC : w.ctxs c = some C)
    (hc : collectContext env w r c metric = .ok w') :
    let data : ℕ → Option Dataset := Function.update (fun r => (w.regions r).map Region.dataset) r
      (some (if w.cfg.persistent || env.ops.isTrainable m then
        R.dataset.insert C.features C.policy metric else R.dataset))
    let rs := trainees (env.ops.isTrainable m) w.cfg.globalPeriod w.cfg.perRegionPeriod R.minTraining
      (w.executions + 1) ((observe w.log).begins r) (((data r).map Dataset.size).getD 0) r
      (w.registry.map Prod.snd)
    ∃ l, w'.log = w.log ++ l ∧ l.Nodup ∧
      (∀ e ∈ l, ∃ r' ds, e = .trained r' ds) ∧
      (∀ r' ds, Ev.trained r' ds ∈ l ↔ r' ∈ rs ∧ data r' = some ds ∧ ds.size ≠ 0 ∧
        ∃ m', w.models r' = some m' ∧ env.ops.isTrainable m' = true) ∧
      (∀ r' ds, Ev.trained r' ds ∈ l → ∃ m₁ m₂ t, w.models r' = some m₁ ∧
        env.ops.train t ds m₁ = .ok m₂ ∧ w'.models r' = some m₂) ∧
      (∀ r', (∀ ds, Ev.trained r' ds ∉ l) → w'.models r' = w.models r') := by
  intro data rs
  have hI := (RegInv.invariant env fun _ => True).exec (fun _ _ _ _ => trivial)
    ⟨logInv_init cfg files, regInv_init cfg files⟩ h
  obtain ⟨R₀, m₀, C₀, w₁, w₂, R₂, h1, h2, h3, h4, h5, h6, rfl⟩ := collectContext_steps hc
  rw [hR] at h1
  rw [hm] at h2
  rw [hC] at h3
  cases h1; cases h2; cases h3
  obtain ⟨f1, f2, f3, f4, f5, f6, f7, f8⟩ := record_frame env w r R m c C metric
  have f9 := record_regions env w r R m c C metric
  have hlog : (record env w r R m c C metric).log = w.log := by
    unfold record
    by_cases ht : w.cfg.traceCsv <;>
      cases hl : (w.cfg.persistent || env.ops.isTrainable m) <;>
      simp [ht, World.setRegion, World.setCtx, hl]
  have hdata : (record env w r R m c C metric).data = data := by
    funext r'
    unfold World.data
    rw [f9]
    by_cases heq : r' = r
    · subst heq
      simp [data, recRegion, learns]
    · simp [data, heq]
  have hf := autoTrain_fired (R := { recRegion env w R m C metric with current := R.current })
    (by rw [f9, Function.update_self]) (by rw [f2]; exact hm) (by rw [f1]; exact hs)
    (by rw [f5]; exact hI.2.nodup) h4
  have hrs : (if env.ops.isTrainable m = false then []
        else if (record env w r R m c C metric).cfg.globalPeriod ≠ 0 ∧
          (record env w r R m c C metric).executions %
            ((record env w r R m c C metric).cfg.globalPeriod % 2 ^ 64).toNat = 0 then
          (record env w r R m c C metric).registry.map Prod.snd
        else if (record env w r R m c C metric).cfg.perRegionPeriod ≠ 0 ∧
          R.idx.tmod (record env w r R m c C metric).cfg.perRegionPeriod = 0 then [r]
        else if 0 < R.minTraining ∧
          R.minTraining ≤ (recRegion env w R m C metric).dataset.size then [r]
        else []) = rs := by
    rw [f1, f5, f6]
    simp only [period_iff hG hG']
    have hidx : R.idx = (observe w.log).begins r := hI.1.idx r R hR
    have hper : (w.cfg.perRegionPeriod ≠ 0 ∧ R.idx.tmod w.cfg.perRegionPeriod = 0) ↔
        (0 < w.cfg.perRegionPeriod ∧ w.cfg.perRegionPeriod ∣ ((observe w.log).begins r : ℤ)) := by
      rw [← hidx, Int.dvd_iff_tmod_eq_zero]
      constructor
      · rintro ⟨h1, h2⟩; exact ⟨by omega, h2⟩
      · rintro ⟨h1, h2⟩; exact ⟨by omega, h2⟩
    simp only [hper]
    simp only [rs, trainees, data, Function.update_self, Option.map_some, Option.getD_some, recRegion,
      learns]
    congr
  have hf' : Fired env rs (record env w r R m c C metric) w₁ := by rw [← hrs]; exact hf
  have hnd : rs.Nodup := by
    simp only [rs, trainees]
    split
    · simp
    · split
      · exact hI.2.nodup
      · split
        · simp
        · split <;> simp
  have hm' : (w₂.setRegion r { R₂ with current := none }).models = w₁.models := by
    rcases destroyContext_ok h5 with ⟨-, rfl⟩ | ⟨n, -, -, rfl⟩ <;> rfl
  have hl' : (w₂.setRegion r { R₂ with current := none }).log = w₁.log := by
    rcases destroyContext_ok h5 with ⟨-, rfl⟩ | ⟨n, -, -, rfl⟩ <;> rfl
  have ht := hf'.trained
  rw [f2, hdata] at ht
  have hmem : ∀ r' ds, Ev.trained r' ds ∈ rs.flatMap (due env w.models data) ↔
      r' ∈ rs ∧ Ev.trained r' ds ∈ due env w.models data r' := by
    intro r' ds
    rw [List.mem_flatMap]
    constructor
    · rintro ⟨a, h1, h2⟩
      have := due_mem h2
      subst this
      exact ⟨h1, h2⟩
    · rintro ⟨h1, h2⟩; exact ⟨r', h1, h2⟩
  refine ⟨rs.flatMap (due env w.models data), by rw [hl', ht.log, hlog], due_nodup _ _ _ hnd,
    ht.events, ?_, ?_, ?_⟩
  · intro r' ds
    rw [hmem, due_iff]
    simp
  · intro r' ds hd
    obtain ⟨h1, h2⟩ := (hmem r' ds).1 hd
    obtain ⟨m₁, m₂, t, h3, h4, h5⟩ := hf'.model r' h1 ds (by rw [f2, hdata]; exact h2)
    exact ⟨m₁, m₂, t, by rw [← f2]; exact h3, h4, by rw [hm']; exact h5⟩
  · intro r' hd
    rw [hm', ht.models r' hd, f2]

/-- C38: a region with a trainable model has data at the end of its execution, so if `trainees` says
so it is trained. -/
theorem C38_has_data (ds : Dataset) (f : Features) (p : ℤ) (x : ℚ) : (ds.insert f p x).size ≠ 0 :=
  insert_size_ne_zero ds f p x

/-- C38 for persistent data: when a region is created, its data is loaded from its file and the same rule is
applied once, as at the end of an execution of a region that began none.  The new region is not known to
Apollo yet, so a training of all regions leaves it out. -/
theorem C38_restored (env : Env M) (cfg : Cfg) (files : Str → Option Str) (ops : List Op)
    (w w₁ w₂ : World M) (h : exec env ops (initWorld cfg files) = .ok w)
    (hs : w.cfg.single = false) (hG : 0 ≤ w.cfg.globalPeriod) (hG' : w.cfg.globalPeriod < 2 ^ 64)
    (hP : 0 ≤ w.cfg.perRegionPeriod) (nf n mt : ℤ) (name info yaml : Str) (r : ℕ)
    (h1 : constructRegion env w nf name n mt info yaml = .ok (r, w₁)) (m : M)
    (hm : w₁.models r = some m) (hp : w.cfg.persistent = true)
    (h2 : loadPersistent env w₁ r = .ok w₂) (ds : Dataset)
    (hd : match w.files (datasetPath w.cfg (truncName name)) with
      | none => ds = []
      | some s => Dataset.load [] s = .ok ds) :
    let data : ℕ → Option Dataset := Function.update (fun r => (w.regions r).map Region.dataset) r
      (some ds)
    let rs := trainees (env.ops.isTrainable m) w.cfg.globalPeriod w.cfg.perRegionPeriod mt
      w.executions 0 ds.size r (w.registry.map Prod.snd)
    ∃ l, w₂.log = w.log ++ l ∧ l.Nodup ∧
      (∀ e ∈ l, ∃ r' ds, e = .trained r' ds) ∧
      (∀ r' ds, Ev.trained r' ds ∈ l ↔ r' ∈ rs ∧ data r' = some ds ∧ ds.size ≠ 0 ∧
        ∃ m', w₁.models r' = some m' ∧ env.ops.isTrainable m' = true) ∧
      (∀ r' ds, Ev.trained r' ds ∈ l → ∃ m₁ m₂ t, w₁.models r' = some m₁ ∧
        env.ops.train t ds m₁ = .ok m₂ ∧ w₂.models r' = some m₂) ∧
      (∀ r', (∀ ds, Ev.trained r' ds ∉ l) → w₂.models r' = w₁.models r') := by
  intro data rs
  have hI := (RegInv.invariant env fun _ => True).exec (fun _ _ _ _ => trivial)
    ⟨logInv_init cfg files, regInv_init cfg files⟩ h
  obtain ⟨R, m', rfl, -, a1, a2, a3, a4, a5, a6, a7, a8, a9, rfl⟩ := constructRegion_ok h1
  have hm' : m' = m := by
    change Function.update w.models w.nextRegion (some m') w.nextRegion = some m at hm
    rw [Function.update_self] at hm
    cases hm; rfl
  subst hm'
  unfold loadPersistent at h2
  rw [if_neg (by change ¬ (!w.cfg.persistent) = true; rw [hp]; simp)] at h2
  obtain ⟨R', hR', h2⟩ := (Res.bind_eq_ok _ _ _).1 h2
  have hR' := World.region_ok.1 hR'
  change Function.update w.regions w.nextRegion (some R) w.nextRegion = some R' at hR'
  rw [Function.update_self] at hR'
  cases hR'
  obtain ⟨ds', hds, h2⟩ := (Res.bind_eq_ok _ _ _).1 h2
  have hds' : ds' = ds := by
    change loadIfExists R.dataset (w.files (datasetPath w.cfg R.name)) = _ at hds
    rw [a1, a5] at hds
    cases hf : w.files (datasetPath w.cfg (truncName name)) with
    | none =>
      rw [hf] at hd hds
      cases hds
      exact hd.symm
    | some s =>
      rw [hf] at hd hds
      change Dataset.load [] s = _ at hds
      rw [hd] at hds
      cases hds
      rfl
  subst hds'
  have hf := fun a b c d => autoTrain_fired (R := { R with dataset := ds' }) (m := m') a b c d h2
  replace hf := hf (Function.update_self ..) (Function.update_self ..) hs hI.2.nodup
  obtain ⟨W, hW⟩ : ∃ W, W = ((((({ w with nextRegion := w.nextRegion + 1 } : World M).setRegion
      w.nextRegion R).setModel w.nextRegion m').setCtx (.sync w.nextRegion) {}).advance).setRegion
        w.nextRegion { R with dataset := ds' } := ⟨_, rfl⟩
  have hdata : W.data = data := by
    subst hW
    funext r'
    unfold World.data
    change Option.map _ (Function.update (Function.update w.regions w.nextRegion (some R))
      w.nextRegion _ r') = _
    by_cases heq : r' = w.nextRegion
    · subst heq
      simp [data]
    · simp [data, heq]
  have hrs : rs = (if env.ops.isTrainable m' = false then []
        else if w.cfg.globalPeriod ≠ 0 ∧
          w.executions % (w.cfg.globalPeriod % 2 ^ 64).toNat = 0 then
          w.registry.map Prod.snd
        else if w.cfg.perRegionPeriod ≠ 0 ∧ R.idx.tmod w.cfg.perRegionPeriod = 0 then [w.nextRegion]
        else if 0 < R.minTraining ∧ R.minTraining ≤ ds'.size then [w.nextRegion]
        else []) := by
    simp only [period_iff hG hG', a4, a6, rs, trainees]
    have : (w.cfg.perRegionPeriod ≠ 0 ∧ (0 : ℤ).tmod w.cfg.perRegionPeriod = 0) ↔
        0 < w.cfg.perRegionPeriod ∧ w.cfg.perRegionPeriod ∣ ((0 : ℕ) : ℤ) := by
      simp; omega
    simp only [this]
  have hf' : Fired env rs W w₂ := by rw [hrs, hW]; exact hf
  have hmodels : W.models = Function.update w.models w.nextRegion (some m') := by rw [hW]; rfl
  have hnd : rs.Nodup := by
    simp only [rs, trainees]
    split
    · simp
    · split
      · exact hI.2.nodup
      · split
        · simp
        · split <;> simp
  have ht := hf'.trained
  rw [hdata, hmodels] at ht
  have hmem : ∀ r' ds, Ev.trained r' ds ∈
      rs.flatMap (due env (Function.update w.models w.nextRegion (some m')) data) ↔
      r' ∈ rs ∧ Ev.trained r' ds ∈ due env (Function.update w.models w.nextRegion (some m')) data r' := by
    intro r' ds
    rw [List.mem_flatMap]
    constructor
    · rintro ⟨a, h1, h2⟩
      have := due_mem h2
      subst this
      exact ⟨h1, h2⟩
    · rintro ⟨h1, h2⟩; exact ⟨r', h1, h2⟩
  refine ⟨rs.flatMap (due env (Function.update w.models w.nextRegion (some m')) data),
    by rw [ht.log, hW]; rfl, due_nodup _ _ _ hnd, ht.events, ?_, ?_, ?_⟩
  · intro r' ds
    rw [hmem, due_iff]
    simp [World.advance, World.setCtx, World.setModel, World.setRegion]
  · intro r' ds hd
    obtain ⟨h1, h2⟩ := (hmem r' ds).1 hd
    have := hf'.model r' h1 ds (by rw [hdata, hmodels]; exact h2)
    rw [hmodels] at this
    exact this
  · intro r' hd
    have := ht.models r' hd
    rw [hmodels] at this
    exact this

/-- Two regions, global period 4: the fourth end trains both. -/
example : ∃ w, exec demoEnv
    ([demoCreate "a", demoCreate "b"] ++ demoRun 0 3 1 ++ demoRun 0 4 2 ++ demoRun 1 3 1 ++
      demoRun 1 4 2) (initWorld { globalPeriod := 4 } fun _ => none) = .ok w ∧
    (w.log.filterMap fun e => match e with | .trained r ds => some (r, ds.size) | _ => none) =
      [(0, 2), (1, 2)] :=
  run_ok (by decide +kernel)

/-- Per-region period 2: the second execution trains. -/
example : ∃ w, exec demoEnv
    ([demoCreate "a", demoCreate "b"] ++ demoRun 0 3 1 ++ demoRun 1 3 1 ++ demoRun 0 4 2)
    (initWorld { perRegionPeriod := 2 } fun _ => none) = .ok w ∧
    (w.log.filterMap fun e => match e with | .trained r ds => some (r, ds.size) | _ => none) =
      [(0, 2)] :=
  run_ok (by decide +kernel)

/-- The hypotheses of `C38_fires` at the moment before the fourth end above. -/
example : ∃ w, exec demoEnv
    ([demoCreate "a", demoCreate "b"] ++ demoRun 0 3 1 ++ demoRun 0 4 2 ++ demoRun 1 3 1 ++
      [.begin 1 .sync, .setFeature 1 (.sync 1) 4, .getPolicyIndex 1 (.sync 1)])
    (initWorld { globalPeriod := 4 } fun _ => none) = .ok w ∧
    (w.cfg.single = false ∧ w.cfg.globalPeriod = 4 ∧ w.cfg.perRegionPeriod = 0 ∧
      (w.regions 1).isSome ∧ (w.models 1).isSome ∧ (w.ctxs (.sync 1)).isSome ∧
      (collectContext demoEnv w 1 (.sync 1) 2).isOk) :=
  run_ok (by decide +kernel)

/-- The hypotheses of `C38_restored`, with data in the file of the region: it is trained on it. -/
example : ∃ w, exec demoEnv [demoCreate "a"]
    (initWorld { persistent := true, perRegionPeriod := 2 } fun p =>
      if p = datasetPath {} "a".toList then some (Dataset.store [(([3], 0), 1)]) else none) = .ok w ∧
    (w.log.filterMap fun e => match e with | .trained r ds => some (r, ds.map Prod.snd) | _ => none) =
      [(0, [1])] :=
  run_ok (by decide +kernel)

/-! ## C39 -/

/-- C39: once the model of a region is not trainable and asking it does not change it, it does not
change any more in any later execution without forced training of the region, in region model mode;
without persistent datasets its dataset does not change either. -/
theorem C39_stops (env : Env M) (cfg : Cfg) (files : Str → Option Str) (ops later : List Op)
    (w w' : World M) (h : exec env ops (initWorld cfg files) = .ok w)
    (hl : exec env later w = .ok w') (hs : w.cfg.single = false) (r : ℕ) (R R' : Region) (m : M)
    (hR : w.regions r = some R) (hm : w.models r = some m) (ht : env.ops.isTrainable m = false)
    (hi : ∀ f p m', env.ops.getIndex m f = .ok (p, m') → m' = m)
    (hf : ∀ s c, Op.train r s c true ∉ later) (hR' : w'.regions r = some R') :
    w'.models r = some m ∧ (w.cfg.persistent = false → R'.dataset = R.dataset) := by
  have hlog := reachable_log h
  have h0 : Settled w r m R.dataset := by
    refine ⟨hs, hlog.region_lt hR, fun m' h' => ?_, fun _ R₁ h₁ => ?_⟩
    · rw [hm] at h'; cases h'; rfl
    · rw [hR] at h₁; cases h₁; rfl
  have hF : ∀ r' s c, Op.train r' s c true ∈ later → r' ≠ r := by
    intro r' s c hin he
    subst he
    exact hf s c hin
  have h1 := (Settled.invariant (ds := R.dataset) ⟨ht, hi⟩).exec hF h0 hl
  have h2 := (LogInv.invariant env fun r' => r' ≠ r).exec hF hlog hl
  obtain ⟨G, h3⟩ := (CfgIs.invariant env (fun r' => r' ≠ r) w.cfg).exec hF ⟨w.cfg.globalPeriod, rfl⟩ hl
  refine ⟨?_, fun hp => h1.data (by rw [h3]; exact hp) R' hR'⟩
  have h4 := h2.liveM r
  rw [hR'] at h4
  cases hm' : w'.models r with
  | none => rw [hm'] at h4; cases h4
  | some m' => rw [h1.model m' hm']

/-- C39: a DecisionTree or RandomForest is settled once it is trained. -/
theorem C39_trained (gen : ℕ → ℕ → ℕ) (tenv : ℕ → TrainEnv) (t : ℕ) (ds : Dataset)
    (m m' : PolicyModel) (hm : (∃ n b e i, m = .tree n b e i) ∨ ∃ n b e i, m = .forest n b e i)
    (h : (policyOps gen tenv).train t ds m = .ok m') :
    (policyOps gen tenv).isTrainable m' = false ∧
      ∀ f p m'', (policyOps gen tenv).getIndex m' f = .ok (p, m'') → m'' = m' := by
  have key : Frozen (policyOps gen tenv) m' := by
    rcases hm with ⟨n, b, e, i, rfl⟩ | ⟨n, b, e, i, rfl⟩
    · obtain ⟨i', _, h⟩ := (Res.bind_eq_ok _ _ _).1 h
      cases h
      exact frozen_tree ..
    · obtain ⟨i', _, h⟩ := (Res.bind_eq_ok _ _ _).1 h
      cases h
      exact frozen_forest ..
  exact ⟨key.trainable, key.index⟩

/-- C39: a DecisionTree or RandomForest is settled once it is loaded. -/
theorem C39_loaded (gen : ℕ → ℕ → ℕ) (tenv : ℕ → TrainEnv) (s : Option Str)
    (m m' : PolicyModel) (hm : (∃ n b e i, m = .tree n b e i) ∨ ∃ n b e i, m = .forest n b e i)
    (h : (policyOps gen tenv).load s m = .ok m') :
    (policyOps gen tenv).isTrainable m' = false ∧
      ∀ f p m'', (policyOps gen tenv).getIndex m' f = .ok (p, m'') → m'' = m' := by
  have key : Frozen (policyOps gen tenv) m' := by
    rcases hm with ⟨n, b, e, i, rfl⟩ | ⟨n, b, e, i, rfl⟩ <;> cases s <;>
      simp only [policyOps, PolicyModel.load] at h <;> try cases h
    · obtain ⟨i', _, h⟩ := (Res.bind_eq_ok _ _ _).1 h
      cases h
      exact frozen_tree ..
    · obtain ⟨i', _, h⟩ := (Res.bind_eq_ok _ _ _).1 h
      cases h
      exact frozen_forest ..
  exact ⟨key.trainable, key.index⟩

/-- In a program: two executions and a training leave a tree that is not trainable; two more
executions and a training of all regions succeed and leave it as it is. -/
example : ∃ w, exec demoEnv ([demoCreate "a"] ++ demoRun 0 3 1 ++ demoRun 0 4 2 ++
      [.train 0 0 true false]) (initWorld {} fun _ => none) = .ok w ∧
    (w.cfg.single = false ∧ (w.regions 0).isSome ∧
      (match w.models 0 with | some (.tree _ false _ _) => true | _ => false) = true ∧
      (match exec demoEnv (demoRun 0 5 7 ++ demoRun 0 6 8 ++ [.trainAll 1 true]) w with
        | .ok w' => (w'.regions 0).map (fun R => R.dataset.size) == some 2
        | .error _ => false) = true) :=
  run_ok (by decide +kernel)

/-! ## C40 -/

/-- C40 is false: of two regions whose names agree in the first 63 characters only the first is known
to Apollo, and a training of all regions does not train the second. -/
theorem C40_fails : ∃ w, exec demoEnv
    ([demoCreate "aaaaaaaaaabbbbbbbbbbccccccccccddddddddddeeeeeeeeeeffffffffff1234",
      demoCreate "aaaaaaaaaabbbbbbbbbbccccccccccddddddddddeeeeeeeeeeffffffffff1235"] ++
      demoRun 0 3 1 ++ demoRun 1 3 1 ++ [.trainAll 0 true]) (initWorld {} fun _ => none) = .ok w ∧
    ((w.models 1).map demoEnv.ops.isTrainable = some true ∧
      (w.regions 1).map (fun R => R.dataset.size) = some 1 ∧
      (∀ ds, Ev.trained 1 ds ∉ w.log)) := by
  obtain ⟨w, hw, h1, h2, h3⟩ : ∃ w, exec demoEnv
    ([demoCreate "aaaaaaaaaabbbbbbbbbbccccccccccddddddddddeeeeeeeeeeffffffffff1234",
      demoCreate "aaaaaaaaaabbbbbbbbbbccccccccccddddddddddeeeeeeeeeeffffffffff1235"] ++
      demoRun 0 3 1 ++ demoRun 1 3 1 ++ [.trainAll 0 true]) (initWorld {} fun _ => none) = .ok w ∧
    ((w.models 1).map demoEnv.ops.isTrainable = some true ∧
      (w.regions 1).map (fun R => R.dataset.size) = some 1 ∧
      (w.log.filterMap fun e => match e with | .trained r _ => some r | _ => none) = [0]) :=
    run_ok (by decide +kernel)
  refine ⟨w, hw, h1, h2, fun ds hd => ?_⟩
  have : 1 ∈ (w.log.filterMap fun e => match e with | .trained r _ => some r | _ => none) :=
    List.mem_filterMap.2 ⟨_, hd, rfl⟩
  rw [h3] at this
  simp at this

/-- C40, what holds: a region known to Apollo with a trainable model and measurements is trained. -/
theorem C40_registered_partial (env : Env M) (w w' : World M) (s : ℤ) (collect : Bool)
    (h : apolloTrain env w s collect = .ok w') (hs : w.cfg.single = false) (r : ℕ) (R : Region) (m : M)
    (hreg : r ∈ w.registry.map Prod.snd) (hR : w.regions r = some R) (hm : w.models r = some m)
    (ht : env.ops.isTrainable m = true) (hd : R.dataset.size ≠ 0) :
    ∃ l ds, w'.log = w.log ++ l ∧ Ev.trained r ds ∈ l := by
  unfold apolloTrain apolloTrainWith at h
  split at h
  · cases h
  · rw [hs] at h
    simp only [Bool.false_eq_true, if_false] at h
    exact forRegions_served ht hreg ⟨[], by simp, .inr ⟨hm, R, hR, hd⟩⟩ h

/-- C40, what holds: in any execution in which no region was destroyed and the names of all regions
differ in their first 63 characters, a training of all regions trains every region that has a
trainable model and measurements. -/
theorem C40_distinct_partial (env : Env M) (cfg : Cfg) (files : Str → Option Str) (ops : List Op)
    (w w' : World M) (s : ℤ) (collect : Bool) (h : exec env ops (initWorld cfg files) = .ok w)
    (h' : apolloTrain env w s collect = .ok w') (hs : w.cfg.single = false)
    (hlive : ∀ r < w.nextRegion, (w.regions r).isSome)
    (hnames : ∀ r₁ R₁ r₂ R₂, w.regions r₁ = some R₁ → w.regions r₂ = some R₂ → R₁.name = R₂.name →
      r₁ = r₂)
    (r : ℕ) (R : Region) (m : M) (hR : w.regions r = some R) (hm : w.models r = some m)
    (ht : env.ops.isTrainable m = true) (hd : R.dataset.size ≠ 0) :
    ∃ l ds, w'.log = w.log ++ l ∧ Ev.trained r ds ∈ l := by
  have hI := ((RegInv.invariant env fun _ => True).exec (fun _ _ _ _ => trivial)
    ⟨logInv_init cfg files, regInv_init cfg files⟩ h).2
  obtain ⟨r', h1, h2⟩ := hI.first r R hR
  have hmem := OMap.mem_of_find_eq_some h1
  obtain ⟨R', hR'⟩ := Option.isSome_iff_exists.1 (hlive r' (hI.fresh _ _ hmem))
  have he := hnames r' R' r R hR' hR (hI.name _ _ _ hmem hR')
  subst he
  exact C40_registered_partial env w w' s collect h' hs r' R m
    (List.mem_map.2 ⟨_, hmem, rfl⟩) hR hm ht hd

example : ∃ w, exec demoEnv ([demoCreate "a", demoCreate "b"] ++ demoRun 0 3 1 ++ demoRun 1 3 1)
    (initWorld {} fun _ => none) = .ok w ∧
    (w.nextRegion = 2 ∧ w.cfg.single = false ∧ (w.regions 0).map Region.name = some ['a'] ∧
      (w.regions 1).map Region.name = some ['b'] ∧
      (w.models 1).map demoEnv.ops.isTrainable = some true ∧
      (w.regions 1).map (fun R => R.dataset.size) = some 1 ∧
      (apolloTrain demoEnv w 0 true).isOk) :=
  run_ok (by decide +kernel)

/-! ## C41 -/

/-- C41 is false: training all regions after one was destroyed uses the destroyed object; without the
destruction it succeeds. -/
theorem C41_fails_train_all :
    (exec demoEnv ([demoCreate "a", demoCreate "b"] ++ demoRun 0 3 1 ++ [.trainAll 0 true])
      (initWorld {} fun _ => none)).isOk ∧
    (match exec demoEnv ([demoCreate "a", demoCreate "b"] ++ demoRun 0 3 1 ++
        [.destroy 1 5, .trainAll 0 true]) (initWorld {} fun _ => none) with
      | .error (.ub .dangling) => true
      | _ => false) = true := by
  constructor <;> decide +kernel

/-- C41 is false: destroying a region switches off the global period: the second region is not trained
any more. -/
theorem C41_fails_period :
    (∃ w, exec demoEnv ([demoCreate "a", demoCreate "b"] ++ demoRun 0 3 1 ++ demoRun 0 4 2)
      (initWorld { globalPeriod := 2 } fun _ => none) = .ok w ∧
      (w.log.filterMap fun e => match e with | .trained r _ => some r | _ => none) = [0]) ∧
    ∃ w, exec demoEnv ([demoCreate "a", demoCreate "b", .destroy 1 5] ++ demoRun 0 3 1 ++ demoRun 0 4 2)
      (initWorld { globalPeriod := 2 } fun _ => none) = .ok w ∧
      (w.log.filterMap fun e => match e with | .trained r _ => some r | _ => none) = [] :=
  ⟨run_ok (by decide +kernel), run_ok (by decide +kernel)⟩

/-- C41 is false: when the process ends the region is destroyed a second time. -/
theorem C41_fails_double_delete :
    (match exec demoEnv ([demoCreate "a", demoCreate "b", .destroy 1 5]) (initWorld {} fun _ => none) with
      | .ok w => (match shutdown demoEnv w 5 with
        | .error (.ub .dangling) => true
        | _ => false)
      | _ => false) = true := by decide +kernel

/-- C41, what holds: destroying a region leaves the other regions, their models, their contexts and
the configuration as they are, except that the global period becomes zero. -/
theorem C41_others_partial (env : Env M) (w w' : World M) (r fuel : ℕ) (R : Region)
    (hR : w.regions r = some R) (h : destroyRegion env w r fuel = .ok w') :
    (∀ r', r' ≠ r → w'.regions r' = w.regions r' ∧ w'.models r' = w.models r') ∧
    (∀ c, c ≠ .sync r → c ∉ R.pending → w'.ctxs c = w.ctxs c) ∧
    w'.cfg = { w.cfg with globalPeriod := 0 } ∧ w'.registry = w.registry ∧ w'.regions r = none := by
  obtain ⟨w₁, R₁, h1, h2, h3, rfl⟩ := destroyRegion_ok h
  have a := drain_apart (w := { w with cfg := { w.cfg with globalPeriod := 0 } }) (R := R) hR
    (fun _ => id) rfl h1
  obtain ⟨f1, f2, f3, f4, f5, f6, f7, f8, f9⟩ := afterDestroy_frame env w₁ r R₁
  refine ⟨fun r' hr => ⟨?_, ?_⟩, fun c hc hp => ?_, ?_, ?_, ?_⟩
  · rw [f1, Function.update_of_ne hr, a.regions r' hr]
  · rw [f2, Function.update_of_ne hr, a.models r' hr]
  · rw [f3, Function.update_of_ne hc, a.ctxs c hc hp]
  · rw [f8, a.cfg]
  · rw [f9, a.registry]
  · rw [f1, Function.update_self]

example : ∃ w, exec demoEnv ([demoCreate "b"] ++ demoOps) (initWorld {} fun _ => none) = .ok w ∧
    ((w.regions 0).isSome ∧ (destroyRegion demoEnv w 0 20).isOk) :=
  run_ok (by decide +kernel)

/-! ## C42 -/

/-- C42: with a single model, a training of all regions trains the model of every region known to
Apollo once, each on the merge (in the order of the names) of the datasets of these regions. -/
theorem C42_merged_partial (env : Env M) (cfg : Cfg) (files : Str → Option Str) (ops : List Op)
    (w w' : World M) (s : ℤ) (collect : Bool) (h : exec env ops (initWorld cfg files) = .ok w)
    (h' : apolloTrain env w s collect = .ok w') (hs : w.cfg.single = true) :
    ∃ Rs : List Region, (w.registry.map Prod.snd).map w.regions = Rs.map some ∧
      let ds := (Rs.map Region.dataset).foldl Dataset.merge []
      w'.log = w.log ++ (w.registry.map Prod.snd).map (fun r => Ev.trained r ds) ∧
      w'.regions = w.regions ∧
      (∀ r ∈ w.registry.map Prod.snd, ∃ m m' t, w.models r = some m ∧
        env.ops.train t ds m = .ok m' ∧ w'.models r = some m') ∧
      ∀ r, r ∉ w.registry.map Prod.snd → w'.models r = w.models r := by
  have hI := ((RegInv.invariant env fun _ => True).exec (fun _ _ _ _ => trivial)
    ⟨logInv_init cfg files, regInv_init cfg files⟩ h).2
  unfold apolloTrain apolloTrainWith at h'
  rw [hs] at h'
  split at h'
  · cases h'
  · obtain ⟨ds, h1, h2⟩ := (Res.bind_eq_ok _ _ _).1 h'
    obtain ⟨Rs, h3, rfl⟩ := mergeDatasets_ok h1
    exact ⟨Rs, h3, trainAllWith_ok hI.nodup h2⟩

/-- C42: if the names of the live regions differ in their first 63 characters and none was destroyed,
these are all regions. -/
theorem C42_all_registered_partial (env : Env M) (cfg : Cfg) (files : Str → Option Str)
    (ops : List Op) (w : World M) (h : exec env ops (initWorld cfg files) = .ok w)
    (hlive : ∀ r < w.nextRegion, (w.regions r).isSome)
    (hnames : ∀ r₁ R₁ r₂ R₂, w.regions r₁ = some R₁ → w.regions r₂ = some R₂ → R₁.name = R₂.name →
      r₁ = r₂) (r : ℕ) : r ∈ w.registry.map Prod.snd ↔ (w.regions r).isSome := by
  have hI := ((RegInv.invariant env fun _ => True).exec (fun _ _ _ _ => trivial)
    ⟨logInv_init cfg files, regInv_init cfg files⟩ h).2
  constructor
  · intro hr
    obtain ⟨⟨k, r'⟩, h1, rfl⟩ := List.mem_map.1 hr
    exact hlive r' (hI.fresh _ _ h1)
  · intro hr
    obtain ⟨R, hR⟩ := Option.isSome_iff_exists.1 hr
    obtain ⟨r', h1, h2⟩ := hI.first r R hR
    have hmem := OMap.mem_of_find_eq_some h1
    obtain ⟨R', hR'⟩ := Option.isSome_iff_exists.1 (hlive r' (hI.fresh _ _ hmem))
    have he := hnames r' R' r R hR' hR (hI.name _ _ _ hmem hR')
    subst he
    exact List.mem_map.2 ⟨_, hmem, rfl⟩

/-- C42 is false in general: a second region of the same name is left out, its data is not merged and
its model is not trained. -/
theorem C42_fails : ∃ w, exec demoEnv ([demoCreate "a", demoCreate "a"] ++
      demoRun 0 3 1 ++ demoRun 1 4 1 ++ [.trainAll 0 true])
      (initWorld { single := true, regionModel := false } fun _ => none) = .ok w ∧
    ((w.models 1).map demoEnv.ops.isTrainable = some true ∧
      (w.log.filterMap fun e => match e with | .trained r ds => some (r, ds.size) | _ => none) =
        [(0, 1)]) :=
  run_ok (by decide +kernel)

example : ∃ w, exec demoEnv ([demoCreate "a", demoCreate "b"] ++ demoRun 0 3 1 ++ demoRun 1 4 1)
      (initWorld { single := true, regionModel := false } fun _ => none) = .ok w ∧
    (w.cfg.single = true ∧ (apolloTrain demoEnv w 0 true).isOk) :=
  run_ok (by decide +kernel)

end Apollo.Props
