import Verif.Proofs.RegionTrain
import Verif.Proofs.RegionTrace
import Verif.Spec.Files

/-!
# Executions without traces

`quiet` forgets the traces and switches tracing off.  Every function commutes with it, except the
opening of the trace of a new region, which may fail.
-/

namespace Apollo

variable {M : Type}

/-- A region without its trace. -/
def Region.quiet (R : Region) : Region := { R with trace := [] }

/-- The state of a process that does not trace. -/
def quiet (w : World M) : World M :=
  { w with
    cfg := { w.cfg with traceCsv := false }
    regions := fun r => (w.regions r).map Region.quiet
    gtrace := [] }

theorem quiet_quiet (w : World M) : quiet (quiet w) = quiet w := by
  unfold quiet
  congr 1
  funext r
  dsimp only
  cases w.regions r <;> rfl

theorem quiet_region (w : World M) (r : ℕ) : (quiet w).region r = Region.quiet <$> w.region r := by
  unfold World.region quiet
  dsimp only
  cases w.regions r <;> rfl

theorem quiet_model (w : World M) (r : ℕ) : (quiet w).model r = w.model r := rfl

theorem quiet_ctx (w : World M) (c : CtxPtr) : (quiet w).ctx c = w.ctx c := rfl

theorem quiet_setRegion (w : World M) (r : ℕ) (R : Region) :
    quiet (w.setRegion r R) = (quiet w).setRegion r R.quiet := by
  unfold quiet World.setRegion
  congr 1
  funext r'
  by_cases h : r' = r
  · subst h; simp
  · simp [h]

theorem quiet_setModel (w : World M) (r : ℕ) (m : M) :
    quiet (w.setModel r m) = (quiet w).setModel r m := rfl

theorem quiet_setCtx (w : World M) (c : CtxPtr) (C : Ctx) :
    quiet (w.setCtx c C) = (quiet w).setCtx c C := rfl

theorem quiet_emit (w : World M) (e : Ev) : quiet (w.emit e) = (quiet w).emit e := rfl

theorem quiet_advance (w : World M) : quiet w.advance = (quiet w).advance := rfl

theorem quiet_write (env : Env M) (w : World M) (p : Str) (s : Option Str) :
    quiet (w.write env p s) = (quiet w).write env p s := by
  unfold World.write
  cases s with
  | none => rfl
  | some s => dsimp only; split <;> rfl

theorem map_ok {α β : Type} (f : α → β) (a : α) : f <$> (.ok a : Res α) = .ok (f a) := rfl

theorem map_error {α β : Type} (f : α → β) (e : Err) : f <$> (.error e : Res α) = .error e := rfl

theorem quiet_append (env : Env M) (w : World M) (p : Str) (s : Str) :
    quiet (w.append env p s) = (quiet w).append env p s := quiet_write env w p _

/-! ## Training -/

theorem traceBest_quiet (env : Env M) (w : World M) (R : Region) (s : ℤ) :
    traceBest env (quiet w) R.quiet s = quiet <$> traceBest env w R s := by
  unfold traceBest
  change (if w.cfg.traceBest then _ else _) = _
  split
  · rw [map_bind]
    refine bind_congr fun t => ?_
    rw [map_ok, quiet_write]
    rfl
  · rfl

theorem tracePolicy_quiet (env : Env M) (w : World M) (R : Region) (m : M) (f : Features) (p : ℤ) :
    tracePolicy env (quiet w) R.quiet m f p = quiet <$> tracePolicy env w R m f p := by
  unfold tracePolicy
  change (if w.cfg.tracePolicy then _ else _) = _
  split
  · rw [map_bind]
    refine bind_congr fun t => ?_
    rw [map_ok, quiet_append]
  · rfl

theorem trainBody_quiet (env : Env M) (w : World M) (r : ℕ) (s : ℤ) :
    trainBody env (quiet w) r s = quiet <$> trainBody env w r s := by
  unfold trainBody
  rw [quiet_region, bind_map_left, map_bind]
  refine bind_congr fun R => ?_
  change (if R.dataset.size = 0 then Except.ok (quiet w) else if !w.cfg.regionModel then _ else _) = _
  split
  · rfl
  · split
    · rfl
    · rw [traceBest_quiet, bind_map_left, map_bind]
      refine bind_congr fun w => ?_
      rw [map_bind, quiet_model]
      refine bind_congr fun m => ?_
      rw [map_bind]
      refine bind_congr fun m' => ?_
      dsimp only
      change (if w.cfg.retrain then _ else if w.cfg.storeModels then _ else _) = _ <$>
        (if w.cfg.retrain then _ else if w.cfg.storeModels then _ else _)
      split
      · rfl
      · split
        · rw [map_bind]
          refine bind_congr fun t => ?_
          rw [map_ok, quiet_write, quiet_write, write_cfg, write_cfg]
          rfl
        · rfl

theorem trainNoCollect_quiet (env : Env M) (w : World M) (r : ℕ) (s : ℤ) (f : Bool) :
    trainNoCollect env (quiet w) r s f = quiet <$> trainNoCollect env w r s f := by
  unfold trainNoCollect
  rw [map_bind, quiet_model]
  refine bind_congr fun m => ?_
  split
  · rfl
  · exact trainBody_quiet env w r s

theorem mergeDatasets_quiet (w : World M) (rs : List ℕ) (acc : Dataset) :
    mergeDatasets (quiet w) rs acc = mergeDatasets w rs acc := by
  induction rs generalizing acc with
  | nil => rfl
  | cons r rs ih =>
    simp only [mergeDatasets]
    rw [quiet_region, bind_map_left]
    exact bind_congr fun R => ih _

theorem trainAllWith_quiet (env : Env M) (ds : Dataset) (rs : List ℕ) (w : World M) :
    trainAllWith env ds rs (quiet w) = quiet <$> trainAllWith env ds rs w := by
  induction rs generalizing w with
  | nil => rfl
  | cons r rs ih =>
    simp only [trainAllWith]
    rw [quiet_region, bind_map_left, map_bind]
    refine bind_congr fun R => ?_
    rw [quiet_model, map_bind]
    refine bind_congr fun m => ?_
    rw [map_bind]
    refine bind_congr fun m' => ?_
    rw [← ih]
    rfl

theorem forRegions_quiet {body : World M → ℕ → Res (World M)}
    (hb : ∀ w r, body (quiet w) r = quiet <$> body w r) (rs : List ℕ) (w : World M) :
    forRegions body rs (quiet w) = quiet <$> forRegions body rs w := by
  induction rs generalizing w with
  | nil => rfl
  | cons r rs ih =>
    simp only [forRegions]
    rw [hb, bind_map_left, map_bind]
    exact bind_congr fun w' => ih w'

theorem apolloTrainWith_quiet (env : Env M) {one : World M → ℕ → Res (World M)}
    (hb : ∀ w r, one (quiet w) r = quiet <$> one w r) (w : World M) :
    apolloTrainWith env one (quiet w) = quiet <$> apolloTrainWith env one w := by
  unfold apolloTrainWith
  change (if w.cfg.collective then _ else if w.cfg.single then _ else _) = _
  split
  · rfl
  · split
    · rw [map_bind, mergeDatasets_quiet]
      exact bind_congr fun ds => trainAllWith_quiet env ds _ w
    · exact forRegions_quiet hb _ w

theorem apolloTrainNoCollect_quiet (env : Env M) (w : World M) (s : ℤ) :
    apolloTrainNoCollect env (quiet w) s = quiet <$> apolloTrainNoCollect env w s := by
  refine apolloTrainWith_quiet env (fun w r => ?_) w
  unfold trainNoCollectOf
  rw [quiet_region, bind_map_left, map_bind]
  exact bind_congr fun _ => trainNoCollect_quiet env w r s false

theorem autoTrain_quiet (env : Env M) (w : World M) (r : ℕ) :
    autoTrain env (quiet w) r = quiet <$> autoTrain env w r := by
  unfold autoTrain
  rw [quiet_region, bind_map_left, map_bind]
  refine bind_congr fun R => ?_
  rw [quiet_model, map_bind]
  refine bind_congr fun m => ?_
  change (if !env.ops.isTrainable m then _ else
    if w.cfg.globalPeriod ≠ 0 ∧ w.executions % (w.cfg.globalPeriod % 2 ^ 64).toNat = 0 then _ else
    if w.cfg.perRegionPeriod ≠ 0 ∧ R.idx.tmod w.cfg.perRegionPeriod = 0 then _ else
    if 0 < R.minTraining ∧ R.minTraining ≤ R.dataset.size then _ else _) = _
  split
  · rfl
  · split
    · exact apolloTrainNoCollect_quiet env w _
    · split
      · exact trainNoCollect_quiet env w r _ _
      · split
        · exact trainNoCollect_quiet env w r _ _
        · rfl

/-! ## Executions -/

/-- The part of `record` that does not trace. -/
def recordRest (env : Env M) (w : World M) (r : ℕ) (R : Region) (m : M) (c : CtxPtr) (C : Ctx)
    (x : ℚ) : World M :=
  let w := if w.cfg.persistent || env.ops.isTrainable m then
      (w.setRegion r { R with dataset := R.dataset.insert C.features C.policy x }).setCtx c
        { C with features := [] }
    else w.setRegion r R
  { w with executions := w.executions + 1 }

theorem record_eq_rest (env : Env M) (w : World M) (r : ℕ) (R : Region) (m : M) (c : CtxPtr) (C : Ctx)
    (x : ℚ) : ∃ g tr, record env w r R m c C x =
      recordRest env ({ w with gtrace := g } : World M) r { R with trace := tr } m c C x := by
  by_cases ht : w.cfg.traceCsv = true
  · refine ⟨w.gtrace ++ gtraceRow (env.wall w.tick) R C,
      R.trace ++ traceRow env.rank (env.ops.name m) R C x, ?_⟩
    unfold record
    rw [if_pos ht]
    dsimp only
    rw [if_pos ht]
    rfl
  · refine ⟨w.gtrace, R.trace, ?_⟩
    unfold record
    rw [if_neg ht]
    dsimp only
    rw [if_neg ht]
    rfl

theorem recordRest_quiet (env : Env M) (w : World M) (r : ℕ) (R : Region) (m : M) (c : CtxPtr)
    (C : Ctx) (x : ℚ) :
    recordRest env (quiet w) r R.quiet m c C x = quiet (recordRest env w r R m c C x) := by
  unfold recordRest
  dsimp only
  by_cases h : (w.cfg.persistent || env.ops.isTrainable m) = true
  · rw [if_pos h, if_pos (show ((quiet w).cfg.persistent || env.ops.isTrainable m) = true from h)]
    have := quiet_setRegion w r { R with dataset := R.dataset.insert C.features C.policy x }
    exact (congrArg (fun v : World M => ({ v.setCtx c { C with features := [] } with
        executions := w.executions + 1 } : World M)) this).symm
  · rw [if_neg h, if_neg (show ¬ ((quiet w).cfg.persistent || env.ops.isTrainable m) = true from h)]
    exact (congrArg (fun v : World M => ({ v with executions := w.executions + 1 } : World M))
      (quiet_setRegion w r R)).symm

theorem record_quiet (env : Env M) (w : World M) (r : ℕ) (R : Region) (m : M) (c : CtxPtr) (C : Ctx)
    (x : ℚ) :
    record env (quiet w) r R.quiet m c C x = quiet (record env w r R m c C x) := by
  obtain ⟨g, tr, h⟩ := record_eq_rest env w r R m c C x
  rw [h, ← recordRest_quiet]
  unfold record
  rw [if_neg (show ¬ (quiet w).cfg.traceCsv = true from Bool.false_ne_true)]
  dsimp only
  rw [if_neg (show ¬ (quiet w).cfg.traceCsv = true from Bool.false_ne_true)]
  rfl

theorem destroyContext_quiet (w : World M) (r : ℕ) (c : CtxPtr) :
    destroyContext (quiet w) r c = quiet <$> destroyContext w r c := by
  unfold destroyContext
  split
  · rfl
  · cases c with
    | sync _ => rfl
    | heap n =>
      dsimp only
      rw [map_bind, quiet_ctx]
      exact bind_congr fun _ => rfl

theorem collectContext_quiet (env : Env M) (w : World M) (r : ℕ) (c : CtxPtr) (x : ℚ) :
    collectContext env (quiet w) r c x = quiet <$> collectContext env w r c x := by
  unfold collectContext
  rw [quiet_region, bind_map_left, map_bind]
  refine bind_congr fun R => ?_
  rw [quiet_model, map_bind]
  refine bind_congr fun m => ?_
  rw [quiet_ctx, map_bind]
  refine bind_congr fun C => ?_
  dsimp only
  rw [record_quiet, autoTrain_quiet, bind_map_left, map_bind]
  refine bind_congr fun w₁ => ?_
  rw [destroyContext_quiet, bind_map_left, map_bind]
  refine bind_congr fun w₂ => ?_
  rw [quiet_region, bind_map_left, map_bind]
  refine bind_congr fun R₂ => ?_
  rw [map_ok, quiet_setRegion]
  rfl

/-- `quiet` on the second component. -/
def quiet2 {α : Type} (x : α × World M) : α × World M := (x.1, quiet x.2)

theorem tryCollect_quiet (env : Env M) (w : World M) (r : ℕ) (c : CtxPtr) :
    tryCollect env (quiet w) r c = quiet2 <$> tryCollect env w r c := by
  unfold tryCollect
  rw [quiet_ctx, map_bind]
  refine bind_congr fun C => ?_
  cases c with
  | sync r' =>
    dsimp only
    rw [map_bind]
    refine bind_congr fun x => ?_
    rw [← quiet_emit, collectContext_quiet, bind_map_left, map_bind]
    exact bind_congr fun _ => rfl
  | heap n =>
    dsimp only
    change (match env.poll w.tick w.log n with | .waiting => _ | .done x => _ | .failed => _) = _
    cases env.poll w.tick w.log n with
    | waiting => rfl
    | failed => rfl
    | done x =>
      dsimp only
      rw [← quiet_advance, ← quiet_emit, collectContext_quiet, bind_map_left, map_bind]
      exact bind_congr fun _ => rfl

theorem collectLoop_quiet (env : Env M) (r : ℕ) (cs : List CtxPtr) (w : World M) :
    collectLoop env r cs (quiet w) = quiet2 <$> collectLoop env r cs w := by
  induction cs generalizing w with
  | nil => rfl
  | cons c cs ih =>
    simp only [collectLoop]
    rw [tryCollect_quiet, bind_map_left, map_bind]
    refine bind_congr fun x => ?_
    obtain ⟨d, w₁⟩ := x
    dsimp only [quiet2]
    rw [ih, bind_map_left, map_bind]
    exact bind_congr fun x => rfl

theorem collectPending_quiet (env : Env M) (w : World M) (r : ℕ) :
    collectPending env (quiet w) r = quiet <$> collectPending env w r := by
  unfold collectPending
  rw [quiet_region, bind_map_left, map_bind]
  refine bind_congr fun R => ?_
  change (collectLoop env r R.pending (quiet w) >>= _) = _
  rw [collectLoop_quiet, bind_map_left, map_bind]
  refine bind_congr fun x => ?_
  obtain ⟨kept, w₁⟩ := x
  dsimp only [quiet2]
  rw [quiet_region, bind_map_left, map_bind]
  refine bind_congr fun R => ?_
  rw [map_ok, quiet_setRegion]
  rfl

theorem regionTrain_quiet (env : Env M) (w : World M) (r : ℕ) (s : ℤ) (c f : Bool) :
    regionTrain env (quiet w) r s c f = quiet <$> regionTrain env w r s c f := by
  unfold regionTrain
  rw [quiet_region, bind_map_left, map_bind]
  refine bind_congr fun R => ?_
  rw [quiet_model, map_bind]
  refine bind_congr fun m => ?_
  split
  · rfl
  · cases c with
    | false => exact trainBody_quiet env w r s
    | true =>
      simp only [if_true]
      rw [collectPending_quiet, bind_map_left, map_bind]
      exact bind_congr fun w' => trainBody_quiet env w' r s

theorem apolloTrain_quiet (env : Env M) (w : World M) (s : ℤ) (c : Bool) :
    apolloTrain env (quiet w) s c = quiet <$> apolloTrain env w s c :=
  apolloTrainWith_quiet env (fun w r => regionTrain_quiet env w r s c false) w

/-! ## The interface -/

theorem createContext_quiet (env : Env M) (w : World M) (r : ℕ) (k : TimingKind) :
    createContext env (quiet w) r k = quiet2 <$> createContext env w r k := by
  unfold createContext
  cases k with
  | sync =>
    dsimp only
    rw [quiet_ctx, map_bind]
    exact bind_congr fun _ => rfl
  | async =>
    dsimp only
    split <;> rfl

theorem begin_quiet (env : Env M) (w : World M) (r : ℕ) (k : TimingKind) :
    begin env (quiet w) r k = quiet2 <$> begin env w r k := by
  unfold begin
  rw [quiet_region, bind_map_left, map_bind]
  refine bind_congr fun R => ?_
  rw [createContext_quiet, bind_map_left, map_bind]
  refine bind_congr fun x => ?_
  obtain ⟨c, w₁⟩ := x
  dsimp only [quiet2]
  rw [quiet_region, bind_map_left, map_bind]
  refine bind_congr fun R => ?_
  rw [quiet_ctx, map_bind]
  refine bind_congr fun C => ?_
  change (if R.idx + 1 < 2 ^ 31 then _ else _) = _
  split
  · rw [map_ok]
    dsimp only [quiet2]
    rw [quiet_emit, quiet_advance, quiet_setCtx, quiet_setRegion]
    rfl
  · rfl

theorem beginWith_quiet (env : Env M) (w : World M) (r : ℕ) (f : Features) :
    beginWith env (quiet w) r f = quiet2 <$> beginWith env w r f := by
  unfold beginWith
  rw [begin_quiet, bind_map_left, map_bind]
  refine bind_congr fun x => ?_
  obtain ⟨c, w₁⟩ := x
  dsimp only [quiet2]
  rw [quiet_ctx, map_bind]
  exact bind_congr fun _ => rfl

theorem setFeature_quiet (w : World M) (c : CtxPtr) (v : ℚ) :
    setFeature (quiet w) c v = quiet <$> setFeature w c v := by
  unfold setFeature
  rw [quiet_ctx, map_bind]
  exact bind_congr fun _ => rfl

theorem getPolicyIndex_quiet (env : Env M) (w : World M) (r : ℕ) (c : CtxPtr) :
    getPolicyIndex env (quiet w) r c = quiet2 <$> getPolicyIndex env w r c := by
  unfold getPolicyIndex
  rw [quiet_region, bind_map_left, map_bind]
  refine bind_congr fun R => ?_
  rw [quiet_model, map_bind]
  refine bind_congr fun m => ?_
  rw [quiet_ctx, map_bind]
  refine bind_congr fun C => ?_
  rw [map_bind]
  refine bind_congr fun x => ?_
  obtain ⟨p, m'⟩ := x
  dsimp only
  rw [tracePolicy_quiet, bind_map_left, map_bind]
  exact bind_congr fun _ => rfl

theorem endMetric_quiet (env : Env M) (w : World M) (r : ℕ) (c : CtxPtr) (x : ℚ) :
    endMetric env (quiet w) r c x = quiet <$> endMetric env w r c x := by
  unfold endMetric
  rw [← quiet_emit, collectContext_quiet, bind_map_left, map_bind]
  exact bind_congr fun w' => collectPending_quiet env w' r

theorem endCtx_quiet (env : Env M) (w : World M) (r : ℕ) (c : CtxPtr) :
    endCtx env (quiet w) r c = quiet <$> endCtx env w r c := by
  unfold endCtx
  rw [quiet_region, bind_map_left, map_bind]
  refine bind_congr fun R => ?_
  rw [quiet_ctx, map_bind]
  refine bind_congr fun C => ?_
  dsimp only
  split
  · rw [map_bind]
    refine bind_congr fun x => ?_
    exact collectContext_quiet env ((((w.setCtx c
      { C with stop := some (seconds (env.clock w.tick)) }).advance)).emit (.finished r c x)) r c x
  · rw [← collectPending_quiet, quiet_emit, quiet_setRegion]
    rfl

theorem currentCtx_quiet (w : World M) (r : ℕ) : currentCtx (quiet w) r = currentCtx w r := by
  unfold currentCtx
  rw [quiet_region, bind_map_left]
  exact bind_congr fun _ => rfl

/-! ## Construction and destruction -/

theorem constructRegion_quiet (env : Env M) (w : World M) (nf : ℤ) (name : Str) (n mt : ℤ)
    (info yaml : Str) :
    constructRegion env (quiet w) nf name n mt info yaml =
      quiet2 <$> constructRegion env w nf name n mt info yaml := by
  unfold constructRegion
  dsimp only
  change ((parsePolicyModel (if info = [] then w.cfg.policyModel else info)) >>= _) = _
  rw [map_bind]
  refine bind_congr fun x => ?_
  obtain ⟨mn, ps⟩ := x
  dsimp only
  rw [map_bind]
  refine bind_congr fun x => ?_
  obtain ⟨mn, ps, info'⟩ := x
  dsimp only
  rw [map_bind]
  refine bind_congr fun m => ?_
  rw [map_bind]
  refine bind_congr fun m' => ?_
  rw [map_bind]
  refine bind_congr fun m'' => ?_
  rw [map_ok]
  dsimp only [quiet2]
  rw [quiet_advance, quiet_setCtx, quiet_setModel, quiet_setRegion]
  rfl

theorem loadPersistent_quiet (env : Env M) (w : World M) (r : ℕ) :
    loadPersistent env (quiet w) r = quiet <$> loadPersistent env w r := by
  unfold loadPersistent
  change (if !w.cfg.persistent then _ else _) = _
  split
  · rfl
  · rw [quiet_region, bind_map_left, map_bind]
    refine bind_congr fun R => ?_
    rw [map_bind]
    refine bind_congr fun ds => ?_
    rw [← autoTrain_quiet, quiet_setRegion]
    rfl

theorem loadDatasetParam_quiet (env : Env M) (w : World M) (r : ℕ) :
    loadDatasetParam env (quiet w) r = quiet <$> loadDatasetParam env w r := by
  unfold loadDatasetParam
  rw [quiet_region, bind_map_left, map_bind]
  refine bind_congr fun R => ?_
  change (match R.params.find "load-dataset".toList with | none => _ | some _ => _) = _
  cases R.params.find "load-dataset".toList with
  | none => rfl
  | some v =>
    dsimp only
    change (match w.files (datasetPath w.cfg R.name) with | none => _ | some _ => _) = _
    cases w.files (datasetPath w.cfg R.name) with
    | none => rfl
    | some s =>
      dsimp only
      rw [map_bind]
      refine bind_congr fun ds => ?_
      split
      · rfl
      · rw [← regionTrain_quiet, quiet_setRegion]
        rfl

theorem loadOptimalFile_quiet (env : Env M) (w : World M) (r : ℕ) :
    loadOptimalFile env (quiet w) r = quiet <$> loadOptimalFile env w r := by
  unfold loadOptimalFile
  rw [quiet_region, bind_map_left, map_bind]
  refine bind_congr fun R => ?_
  change (if R.modelName = "Optimal".toList then _ else _) = _
  split
  · change (match w.files (optimalPath env.rank R.name) with | none => _ | some _ => _) = _
    cases w.files (optimalPath env.rank R.name) with
    | none => rfl
    | some s =>
      dsimp only
      rw [map_bind, quiet_model]
      refine bind_congr fun m => ?_
      rw [map_bind]
      exact bind_congr fun m => rfl
  · rfl

theorem loadDatasetMap_quiet (env : Env M) (w : World M) (r : ℕ) :
    loadDatasetMap env (quiet w) r = quiet <$> loadDatasetMap env w r := by
  unfold loadDatasetMap
  rw [quiet_region, bind_map_left, map_bind]
  refine bind_congr fun R => ?_
  change (if R.modelName = "DatasetMap".toList then _ else _) = _
  split
  · change (match w.files (datasetPath w.cfg R.name) with | none => _ | some _ => _) = _
    cases w.files (datasetPath w.cfg R.name) with
    | none => rfl
    | some s =>
      dsimp only
      rw [map_bind]
      refine bind_congr fun ds => ?_
      split
      · rfl
      · rw [map_bind, quiet_model]
        refine bind_congr fun m => ?_
        rw [map_bind]
        refine bind_congr fun m => ?_
        rw [map_ok, quiet_emit, quiet_advance, quiet_setModel, quiet_setRegion]
        rfl
  · rfl

theorem drain_quiet (env : Env M) (r : ℕ) (fuel : ℕ) (w : World M) :
    drain env r fuel (quiet w) = quiet <$> drain env r fuel w := by
  induction fuel generalizing w with
  | zero =>
    simp only [drain]
    rw [quiet_region, bind_map_left, map_bind]
    refine bind_congr fun R => ?_
    change (if R.pending = [] then _ else _) = _
    split <;> rfl
  | succ fuel ih =>
    simp only [drain]
    rw [quiet_region, bind_map_left, map_bind]
    refine bind_congr fun R => ?_
    change (if R.pending = [] then _ else _) = _
    split
    · rfl
    · rw [collectPending_quiet, bind_map_left, map_bind]
      exact bind_congr fun w' => ih w'

theorem destroyRegion_quiet (env : Env M) (w : World M) (r : ℕ) (fuel : ℕ) :
    destroyRegion env (quiet w) r fuel = quiet <$> destroyRegion env w r fuel := by
  unfold destroyRegion
  rw [quiet_region, bind_map_left, map_bind]
  refine bind_congr fun R => ?_
  dsimp only
  have e : ({ quiet w with cfg := { (quiet w).cfg with globalPeriod := 0 } } : World M) =
      quiet { w with cfg := { w.cfg with globalPeriod := 0 } } := rfl
  rw [e, drain_quiet, bind_map_left, map_bind]
  refine bind_congr fun w₁ => ?_
  rw [quiet_region, bind_map_left, map_bind]
  refine bind_congr fun R => ?_
  rw [map_ok]
  congr 1
  have e2 : (if (quiet w₁).cfg.persistent then (quiet w₁).write env
      (datasetPath (quiet w₁).cfg R.quiet.name) (some R.quiet.dataset.store) else quiet w₁) =
      quiet (if w₁.cfg.persistent then w₁.write env (datasetPath w₁.cfg R.name)
        (some R.dataset.store) else w₁) := by
    change (if w₁.cfg.persistent then _ else _) = _
    split
    · rw [quiet_write]; rfl
    · rfl
  rw [e2]
  generalize (if w₁.cfg.persistent then w₁.write env (datasetPath w₁.cfg R.name)
        (some R.dataset.store) else w₁) = v
  rw [quiet_emit]
  unfold quiet World.emit
  dsimp only
  congr 1
  funext r'
  by_cases h : r' = r
  · subst h; simp
  · simp [h]

/-- Before the trace is opened. -/
def createBefore (env : Env M) (w : World M) (nf : ℤ) (name : Str) (n mt : ℤ) (info yaml : Str) :
    Res (ℕ × World M) := do
  let (r, w) ← constructRegion env w nf name n mt info yaml
  let w ← loadPersistent env w r
  let w ← loadDatasetParam env w r
  let w ← loadOptimalFile env w r
  let w ← loadDatasetMap env w r
  .ok (r, w)

/-- After the trace is opened. -/
def createAfter (env : Env M) (r : ℕ) (w : World M) : Res (ℕ × World M) := do
  let R ← w.region r
  let m ← w.model r
  .ok (r, ({ w with registry := OMap.insertNew R.name r w.registry } : World M).emit
    (.created r R.dataset (env.ops.isTrainable m)))

theorem createRegion_split (env : Env M) (w : World M) (nf : ℤ) (name : Str) (n mt : ℤ)
    (info yaml : Str) : createRegion env w nf name n mt info yaml =
      (do let x ← createBefore env w nf name n mt info yaml
          let w ← startTrace env x.2 x.1
          createAfter env x.1 w) := by
  unfold createRegion createBefore createAfter
  simp only [bind_assoc]
  refine bind_congr fun x => ?_
  refine bind_congr fun w₁ => ?_
  refine bind_congr fun w₂ => ?_
  refine bind_congr fun w₃ => ?_
  refine bind_congr fun w₄ => ?_
  rfl

theorem createBefore_quiet (env : Env M) (w : World M) (nf : ℤ) (name : Str) (n mt : ℤ)
    (info yaml : Str) : createBefore env (quiet w) nf name n mt info yaml =
      quiet2 <$> createBefore env w nf name n mt info yaml := by
  unfold createBefore
  rw [constructRegion_quiet, bind_map_left, map_bind]
  refine bind_congr fun x => ?_
  obtain ⟨r, w₁⟩ := x
  dsimp only [quiet2]
  rw [loadPersistent_quiet, bind_map_left, map_bind]
  refine bind_congr fun w₂ => ?_
  rw [loadDatasetParam_quiet, bind_map_left, map_bind]
  refine bind_congr fun w₃ => ?_
  rw [loadOptimalFile_quiet, bind_map_left, map_bind]
  refine bind_congr fun w₄ => ?_
  rw [loadDatasetMap_quiet, bind_map_left, map_bind]
  exact bind_congr fun w₅ => rfl

theorem createAfter_quiet (env : Env M) (r : ℕ) (w : World M) :
    createAfter env r (quiet w) = quiet2 <$> createAfter env r w := by
  unfold createAfter
  rw [quiet_region, bind_map_left, map_bind]
  refine bind_congr fun R => ?_
  rw [quiet_model, map_bind]
  exact bind_congr fun m => rfl

theorem startTrace_quiet (env : Env M) (w : World M) (r : ℕ) :
    startTrace env (quiet w) r = (fun _ => quiet w) <$> w.region r := by
  unfold startTrace
  rw [quiet_region, bind_map_left]
  cases w.region r with
  | error e => rfl
  | ok R => rfl

/-- Opening the trace changes nothing else, if it is opened. -/
theorem startTrace_quiet_ok {env : Env M} {w w' : World M} {r : ℕ} (h : startTrace env w r = .ok w') :
    startTrace env (quiet w) r = .ok (quiet w') := by
  obtain ⟨R, hR, ⟨-, -, rfl⟩ | ⟨-, rfl⟩⟩ := startTrace_cases h
  · rw [startTrace_quiet, hR, map_ok, quiet_setRegion]
    congr 1
    unfold World.setRegion
    have hR := World.region_ok.1 hR
    have : (quiet w).regions r = some R.quiet := by simp [quiet, hR]
    rw [show ({ R with trace := traceHeader R.numFeatures } : Region).quiet = R.quiet from rfl, ← this,
      Function.update_eq_self]
  · rw [startTrace_quiet, hR, map_ok]

/-! ## Programs -/

theorem createRegion_quiet_ok {env : Env M} {w w' : World M} {nf n mt : ℤ} {name info yaml : Str}
    {r : ℕ} (h : createRegion env w nf name n mt info yaml = .ok (r, w')) :
    createRegion env (quiet w) nf name n mt info yaml = .ok (r, quiet w') := by
  rw [createRegion_split] at h ⊢
  obtain ⟨⟨r₀, w₀⟩, h0, h⟩ := (Res.bind_eq_ok _ _ _).1 h
  obtain ⟨w₁, h1, h⟩ := (Res.bind_eq_ok _ _ _).1 h
  rw [createBefore_quiet, h0, map_ok]
  refine (Res.bind_eq_ok _ _ _).2 ⟨_, rfl, (Res.bind_eq_ok _ _ _).2 ⟨_, startTrace_quiet_ok h1, ?_⟩⟩
  show createAfter env r₀ (quiet w₁) = _
  rw [createAfter_quiet]
  dsimp only at h
  rw [h]
  rfl

/-- The trace of the new region can be opened. -/
def Opens (env : Env M) (w : World M) : Op → Prop
  | .create nf name n mt info yaml => ∀ r w' R, createBefore env w nf name n mt info yaml = .ok (r, w') →
      w'.regions r = some R → env.canWrite (tracePath w'.cfg env.rank R.modelInfo R.name) = true
  | _ => True

theorem createRegion_untraced {env : Env M} {w : World M} {nf n mt : ℤ} {name info yaml : Str}
    (ho : Opens env w (.create nf name n mt info yaml)) :
    createRegion env (quiet w) nf name n mt info yaml =
      quiet2 <$> createRegion env w nf name n mt info yaml := by
  rw [createRegion_split, createRegion_split, createBefore_quiet, bind_map_left, map_bind]
  cases hb : createBefore env w nf name n mt info yaml with
  | error e => rfl
  | ok x =>
    obtain ⟨r, w'⟩ := x
    show (startTrace env (quiet w') r >>= fun v => createAfter env r v) =
      quiet2 <$> (startTrace env w' r >>= fun v => createAfter env r v)
    cases hs : startTrace env w' r with
    | ok v =>
      rw [startTrace_quiet_ok hs]
      exact createAfter_quiet env r v
    | error e =>
      rw [startTrace_quiet]
      unfold startTrace at hs
      cases hR : w'.region r with
      | error e' => rw [hR] at hs; cases hs; rfl
      | ok R =>
        rw [hR] at hs
        exfalso
        change (if w'.cfg.traceCsv then (if env.canWrite _ then _ else _) else _) = _ at hs
        rw [ho r w' R hb (World.region_ok.1 hR)] at hs
        split at hs <;> cases hs

theorem step_quiet {env : Env M} {w : World M} {op : Op} (ho : Opens env w op) :
    step env (quiet w) op = quiet2 <$> step env w op := by
  cases op with
  | create nf name n mt info yaml =>
    simp only [step]
    rw [createRegion_untraced ho, bind_map_left, map_bind]
    exact bind_congr fun _ => rfl
  | destroy r fuel =>
    simp only [step]
    rw [destroyRegion_quiet, bind_map_left, map_bind]
    exact bind_congr fun _ => rfl
  | begin r kind =>
    simp only [step]
    rw [begin_quiet, bind_map_left, map_bind]
    exact bind_congr fun _ => rfl
  | beginWith r f =>
    simp only [step]
    rw [beginWith_quiet, bind_map_left, map_bind]
    exact bind_congr fun _ => rfl
  | setFeature r c v =>
    simp only [step]
    rw [setFeature_quiet, bind_map_left, map_bind]
    exact bind_congr fun _ => rfl
  | getPolicyIndex r c =>
    simp only [step]
    rw [getPolicyIndex_quiet, bind_map_left, map_bind]
    exact bind_congr fun _ => rfl
  | endMetric r c m =>
    simp only [step]
    rw [endMetric_quiet, bind_map_left, map_bind]
    exact bind_congr fun _ => rfl
  | endCtx r c =>
    simp only [step]
    rw [endCtx_quiet, bind_map_left, map_bind]
    exact bind_congr fun _ => rfl
  | setFeatureCur r v =>
    simp only [step]
    rw [currentCtx_quiet, map_bind]
    refine bind_congr fun c => ?_
    rw [setFeature_quiet, bind_map_left, map_bind]
    exact bind_congr fun _ => rfl
  | getPolicyIndexCur r =>
    simp only [step]
    rw [currentCtx_quiet, map_bind]
    refine bind_congr fun c => ?_
    rw [getPolicyIndex_quiet, bind_map_left, map_bind]
    exact bind_congr fun _ => rfl
  | endMetricCur r m =>
    simp only [step]
    rw [currentCtx_quiet, map_bind]
    refine bind_congr fun c => ?_
    rw [endMetric_quiet, bind_map_left, map_bind]
    exact bind_congr fun _ => rfl
  | endCur r =>
    simp only [step]
    rw [currentCtx_quiet, map_bind]
    refine bind_congr fun c => ?_
    rw [endCtx_quiet, bind_map_left, map_bind]
    exact bind_congr fun _ => rfl
  | collect r =>
    simp only [step]
    rw [collectPending_quiet, bind_map_left, map_bind]
    exact bind_congr fun _ => rfl
  | train r s c f =>
    simp only [step]
    rw [regionTrain_quiet, bind_map_left, map_bind]
    exact bind_congr fun _ => rfl
  | trainAll s c =>
    simp only [step]
    rw [apolloTrain_quiet, bind_map_left, map_bind]
    exact bind_congr fun _ => rfl

theorem step_quiet_ok {env : Env M} {w w' : World M} {op : Op} {x : Ret}
    (h : step env w op = .ok (x, w')) : step env (quiet w) op = .ok (x, quiet w') := by
  by_cases hc : ∃ nf name n mt info yaml, op = .create nf name n mt info yaml
  · obtain ⟨nf, name, n, mt, info, yaml, rfl⟩ := hc
    simp only [step] at h ⊢
    obtain ⟨⟨r, v⟩, h0, h⟩ := (Res.bind_eq_ok _ _ _).1 h
    cases h
    rw [createRegion_quiet_ok h0]
    rfl
  · have ho : Opens env w op := by
      cases op with
      | create nf name n mt info yaml => exact absurd ⟨_, _, _, _, _, _, rfl⟩ hc
      | _ => trivial
    rw [step_quiet ho, h]
    rfl

open Spec in
theorem results_quiet_ok {env : Env M} {w w' : World M} {ops : List Op} {xs : List Ret}
    (h : results env ops w = .ok (xs, w')) : results env ops (quiet w) = .ok (xs, quiet w') := by
  induction ops generalizing w w' xs with
  | nil => simp only [results] at h ⊢; cases h; rfl
  | cons op ops ih =>
    simp only [results] at h ⊢
    obtain ⟨⟨x, v⟩, h0, h⟩ := (Res.bind_eq_ok _ _ _).1 h
    obtain ⟨⟨ys, v'⟩, h1, h⟩ := (Res.bind_eq_ok _ _ _).1 h
    cases h
    rw [step_quiet_ok h0]
    refine (Res.bind_eq_ok _ _ _).2 ⟨_, rfl, ?_⟩
    dsimp only
    rw [ih h1]
    rfl

theorem step_exec {env : Env M} {w w' : World M} {op : Op} {x : Ret}
    (h : step env w op = .ok (x, w')) : exec env [op] w = .ok w' := by
  simp only [exec]
  rw [h]
  rfl

/-! ## Names and model strings without a slash -/

theorem find_emplace_cases {ps : Params} {k v k' v' : Str} (h : (ps.emplace k v).find k' = some v') :
    ps.find k' = some v' ∨ v' = v := by
  unfold Params.emplace at h
  split at h
  · exact .inl h
  · unfold Params.find at h ⊢
    rw [List.find?_append] at h
    cases hf : List.find? (fun e => decide (e.1 = k')) ps with
    | some y => rw [hf] at h; exact .inl h
    | none =>
      rw [hf, Option.none_or, List.find?_singleton] at h
      right
      split at h
      · simpa using h.symm
      · simp at h

theorem parseItem_slash {ps : Params} {kv k v : Str} (hkv : '/' ∉ kv)
    (hps : ∀ k v, ps.find k = some v → '/' ∉ v) (h : (parseItem ps kv).find k = some v) : '/' ∉ v := by
  unfold parseItem at h
  split at h
  · rcases find_emplace_cases h with h | rfl
    · exact hps _ _ h
    · simp
  · rcases find_emplace_cases h with h | rfl
    · exact hps _ _ h
    · exact fun hm => hkv (List.mem_of_mem_drop hm)

theorem parseParams_slash {fuel : ℕ} {ps qs : Params} {s k v : Str} (hs : '/' ∉ s)
    (hps : ∀ k v, ps.find k = some v → '/' ∉ v) (h : parseParams fuel ps s = .ok qs)
    (hv : qs.find k = some v) : '/' ∉ v := by
  induction fuel generalizing ps s with
  | zero => simp only [parseParams] at h; cases h
  | succ fuel ih =>
    simp only [parseParams] at h
    split at h
    · cases h; exact parseItem_slash hs hps hv
    · exact ih (fun hm => hs (List.mem_of_mem_drop hm))
        (fun k v hk => parseItem_slash (fun hm => hs (List.mem_of_mem_take hm)) hps hk) h

theorem parsePolicyModel_slash {info mn k v : Str} {ps : Params} (hs : '/' ∉ info)
    (h : parsePolicyModel info = .ok (mn, ps)) (hv : ps.find k = some v) : '/' ∉ v := by
  unfold parsePolicyModel at h
  split at h
  · cases h; simp [Params.find] at hv
  · obtain ⟨qs, h1, h⟩ := (Res.bind_eq_ok _ _ _).1 h
    obtain ⟨-, -, h⟩ := (Res.bind_eq_ok _ _ _).1 h
    cases h
    exact parseParams_slash (fun hm => hs (List.mem_of_mem_drop hm)) (by simp [Params.find]) h1 hv

theorem resolveStaticRegion_slash {r mn info mn' info' : Str} {ps ps' : Params} (hs : '/' ∉ info)
    (hps : ∀ k v, ps.find k = some v → '/' ∉ v)
    (h : resolveStaticRegion r mn ps info = .ok (mn', ps', info')) : '/' ∉ info' := by
  unfold resolveStaticRegion at h
  split at h
  · split at h
    · cases h
    next p hp =>
      cases h
      have := hps _ _ hp
      rw [List.mem_append]
      rintro (h | h)
      · exact absurd h (by decide)
      · exact this h
  · cases h; exact hs

/-- The new region before the trace is opened. -/
theorem createBefore_kind {env : Env M} {w w' : World M} {nf n mt : ℤ} {name info yaml : Str}
    {r : ℕ} {R : Region} (h : createBefore env w nf name n mt info yaml = .ok (r, w'))
    (hR : w'.regions r = some R) :
    w'.cfg = w.cfg ∧ R.name = truncName name ∧ ∃ mn ps,
      parsePolicyModel (if info = [] then w.cfg.policyModel else info) = .ok (mn, ps) ∧
      resolveStaticRegion (truncName name) mn ps (if info = [] then w.cfg.policyModel else info) =
        .ok (R.modelName, R.params, R.modelInfo) := by
  unfold createBefore at h
  obtain ⟨⟨r₀, w₀⟩, h0, h⟩ := (Res.bind_eq_ok _ _ _).1 h
  obtain ⟨w₁, h1, h⟩ := (Res.bind_eq_ok _ _ _).1 h
  obtain ⟨w₂, h2, h⟩ := (Res.bind_eq_ok _ _ _).1 h
  obtain ⟨w₃, h3, h⟩ := (Res.bind_eq_ok _ _ _).1 h
  obtain ⟨w₄, h4, h⟩ := (Res.bind_eq_ok _ _ _).1 h
  cases h
  unfold constructRegion at h0
  obtain ⟨⟨mn, ps⟩, p1, h0⟩ := (Res.bind_eq_ok _ _ _).1 h0
  obtain ⟨⟨mn', ps', info'⟩, p2, h0⟩ := (Res.bind_eq_ok _ _ _).1 h0
  obtain ⟨m₀, p3, h0⟩ := (Res.bind_eq_ok _ _ _).1 h0
  obtain ⟨m₁, p4, h0⟩ := (Res.bind_eq_ok _ _ _).1 h0
  obtain ⟨m, p5, h0⟩ := (Res.bind_eq_ok _ _ _).1 h0
  generalize hR₀ : ({ name := truncName name, numFeatures := nf, numPolicies := n, minTraining := mt, modelInfo := info', modelName := mn', params := ps' } : Region) = R₀ at h0
  dsimp only at h0
  simp only [Except.ok.injEq, Prod.mk.injEq] at h0
  obtain ⟨hr, hw0⟩ := h0
  have hR0 : w₀.regions r = some R₀ := by
    rw [← hw0, ← hr]; simp [World.setRegion, World.setModel, World.setCtx, World.advance, ← hR₀]
  have hpend : R₀.pending = [] := by rw [← hR₀]
  obtain ⟨l1, b1⟩ := loadPersistent_built hR0 h1
  obtain ⟨R₁, e1, e2, e3, e4⟩ := b1.regions
  rw [hR0] at e3
  cases e3
  have hR1 : w₁.regions r = some { R₀ with dataset := e1, trace := e2 } := by
    rw [e4, Function.update_self]
  obtain ⟨l2, b2⟩ := loadDatasetParam_built hR1 hpend h2
  have b12 := b1.trans b2
  obtain ⟨R₂, hR2⟩ := b12.region
  obtain ⟨l3, b3⟩ := loadOptimalFile_built hR2 h3
  have b13 := b12.trans b3
  obtain ⟨R₃, hR3⟩ := b13.region
  obtain ⟨l4, b4⟩ := loadDatasetMap_built hR3 h4
  have b := b13.trans b4
  obtain ⟨R₄, ds, tr, c1, c2⟩ := b.regions
  rw [hR0] at c1
  cases c1
  rw [c2, Function.update_self] at hR
  cases hR
  refine ⟨by rw [b.cfg, ← hw0]; rfl, by rw [← hR₀], mn, ps, p1, ?_⟩
  rw [← hR₀]
  exact p2

theorem createBefore_region {env : Env M} {w w' : World M} {nf n mt : ℤ} {name info yaml : Str}
    {r : ℕ} {R : Region} (h : createBefore env w nf name n mt info yaml = .ok (r, w'))
    (hR : w'.regions r = some R) :
    w'.cfg = w.cfg ∧ R.name = truncName name ∧ ∃ mn ps mn' ps',
      parsePolicyModel (if info = [] then w.cfg.policyModel else info) = .ok (mn, ps) ∧
      resolveStaticRegion (truncName name) mn ps (if info = [] then w.cfg.policyModel else info) =
        .ok (mn', ps', R.modelInfo) := by
  obtain ⟨h1, h2, mn, ps, h3, h4⟩ := createBefore_kind h hR
  exact ⟨h1, h2, mn, ps, _, _, h3, h4⟩

/-! ## The directory of a path -/

open Spec in
theorem parent_append {d s : Str} (hd : d ≠ []) (hs : '/' ∉ s) : parent (d ++ '/' :: s) = d := by
  unfold parent
  have h1 : (d ++ '/' :: s).reverse.dropWhile (· ≠ '/') = '/' :: d.reverse := by
    rw [List.reverse_append, List.reverse_cons, List.append_assoc,
      List.dropWhile_append_of_pos (fun c hc => by
        rw [List.mem_reverse] at hc
        simp only [ne_eq, decide_eq_true_eq]
        rintro rfl
        exact hs hc)]
    rfl
  rw [h1]
  cases hr : d.reverse with
  | nil => rw [List.reverse_eq_nil_iff] at hr; exact absurd hr hd
  | cons a l => dsimp only; rw [← hr, List.reverse_reverse]

open Spec in
/-- If there is a slash in the last part, the directory begins with what precedes it. -/
theorem parent_prefix {d s : Str} (hd : d ≠ []) (hs : '/' ∈ s) : d <+: parent (d ++ s) := by
  obtain ⟨a, b, rfl, hb⟩ : ∃ a b, s = a ++ '/' :: b ∧ '/' ∉ b := by
    induction s with
    | nil => simp at hs
    | cons c s ih =>
      by_cases h : '/' ∈ s
      · obtain ⟨a, b, rfl, hb⟩ := ih h
        exact ⟨c :: a, b, rfl, hb⟩
      · rw [List.mem_cons] at hs
        rcases hs with rfl | hs
        · exact ⟨[], s, rfl, h⟩
        · exact absurd hs h
  rw [← List.append_assoc, parent_append (by simp [hd]) hb]
  exact List.prefix_append _ _

theorem slash_not_mem_fmtInt (n : ℤ) : '/' ∉ fmtInt n := by
  intro h
  exact ((fmtInt_spec n).1 _ h).ne (by decide) rfl

end Apollo
