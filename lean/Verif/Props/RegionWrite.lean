import Verif.Proofs.RegionWrite
import Verif.Props.RegionPersist

/-!
# Properties C70 and C71: tracing only observes, and datasets reach their files

The specification in `Spec.Files` speaks of directories: a file can only be opened in a directory that
exists, and `Granted` says that this is the only obstacle.  At start-up the library creates the
directories of datasets, traces and models (C62); no other ones.
-/

namespace Apollo.Props

open Apollo Apollo.Spec

variable {M : Type}

theorem quiet_init (cfg : Cfg) (files : Str → Option Str) :
    quiet (initWorld cfg files : World M) = initWorld { cfg with traceCsv := false } files := rfl

/-- C70: whatever the program and the file system, if a run with APOLLO_TRACE_CSV returns then so does
the run without it; each call returns the same, and all models, datasets, contexts and files are the
same.  In particular the same policies are chosen. -/
theorem C70_observes (env : Env M) (cfg : Cfg) (files : Str → Option Str) (ops : List Op)
    (xs : List Ret) (w : World M) (h : results env ops (initWorld cfg files) = .ok (xs, w)) :
    ∃ w', results env ops (initWorld { cfg with traceCsv := false } files) = .ok (xs, w') ∧
      SameButTraces w' w := by
  have := results_quiet_ok h
  rw [quiet_init] at this
  exact ⟨quiet w, this, sameButTraces_of (quiet_quiet w)⟩

/-- The full claim of C70: switching tracing on does not change the outcome of any program, when the
directory of the traces exists. -/
def C70 : Prop :=
  ∀ (M : Type) (env : Env M) (isDir : Str → Bool) (cfg : Cfg) (files : Str → Option Str)
    (ops : List Op), NeedsDirectory env.canWrite isDir → Granted env.canWrite isDir →
    isDir (tracesDirectory cfg) = true →
    SameOutcome (results env ops (initWorld { cfg with traceCsv := true } files))
      (results env ops (initWorld { cfg with traceCsv := false } files))

/-- C70 for programs whose names and model strings contain no `/`: the outcome with tracing is the
outcome without, including all failures. -/
theorem C70_partial (env : Env M) (isDir : Str → Bool) (cfg : Cfg) (files : Str → Option Str)
    (ops : List Op) (hg : Granted env.canWrite isDir) (hd : isDir (tracesDirectory cfg) = true)
    (hp : '/' ∉ cfg.policyModel) (ho : ∀ op ∈ ops, NoSlash op) :
    SameOutcome (results env ops (initWorld { cfg with traceCsv := true } files))
      (results env ops (initWorld { cfg with traceCsv := false } files)) := by
  have := results_quiet (M := M) hg (cfg := { cfg with traceCsv := true }) hd hp ho
    (w := initWorld { cfg with traceCsv := true } files) ⟨cfg.globalPeriod, rfl⟩
  rw [quiet_init] at this
  rw [show ({ cfg with traceCsv := false } : Cfg) =
    { ({ cfg with traceCsv := true } : Cfg) with traceCsv := false } from rfl, this]
  cases results env ops (initWorld { cfg with traceCsv := true } files) with
  | error e => rfl
  | ok x => exact ⟨rfl, sameButTraces_of (quiet_quiet _).symm⟩

/-- With tracing, a region whose name or model string contains a `/` is never created, unless there are
directories in the directory of the traces whose names begin with `trace-`.  (The model string of
StaticRegion is replaced.) -/
theorem C70_slash (env : Env M) (isDir : Str → Bool) (hn : NeedsDirectory env.canWrite isDir)
    (w : World M) (ht : w.cfg.traceCsv = true)
    (hd : ∀ d, isDir d = true → ¬ (tracesDirectory w.cfg ++ "/trace-".toList <+: d))
    (nf n mt : ℤ) (name info yaml : Str) (hi : info ≠ [])
    (hs : '/' ∈ name.take 63 ∨ ('/' ∈ info ∧ ¬ "StaticRegion".toList <+: info)) :
    ¬ ∃ x, createRegion env w nf name n mt info yaml = .ok x := by
  rintro ⟨⟨r, w'⟩, h⟩
  rw [createRegion_split] at h
  obtain ⟨⟨r₀, w₀⟩, h0, h⟩ := (Res.bind_eq_ok _ _ _).1 h
  obtain ⟨w₁, h1, h⟩ := (Res.bind_eq_ok _ _ _).1 h
  obtain ⟨R, hR, ⟨-, hc, -⟩ | ⟨hc, -⟩⟩ := startTrace_cases h1
  · obtain ⟨e1, e2, mn, ps, mn', ps', e3, e4⟩ := createBefore_region h0 (World.region_ok.1 hR)
    rw [if_neg hi] at e3 e4
    refine hd _ (hn _ hc) ?_
    rw [e1]
    refine parent_tracePath_slash ?_
    rcases hs with hs | ⟨hs, hst⟩
    · right; rw [e2]; exact hs
    · left
      unfold resolveStaticRegion at e4
      split at e4
      next hmn =>
        exfalso
        apply hst
        unfold parsePolicyModel at e3
        split at e3
        · cases e3; rw [hmn]
        next p hp =>
          obtain ⟨_, _, e3⟩ := (Res.bind_eq_ok _ _ _).1 e3
          obtain ⟨_, _, e3⟩ := (Res.bind_eq_ok _ _ _).1 e3
          cases e3
          rw [← hmn]
          exact List.take_prefix _ _
      · cases e4; exact hs
  · obtain ⟨e1, -⟩ := createBefore_region h0 (World.region_ok.1 hR)
    rw [show w₀.cfg = w.cfg from e1, ht] at hc
    cases hc

/-! ## A file system with the directories created at start-up -/

/-- The directories. -/
def demoDirs : List Str :=
  [".apollo".toList, ".apollo/datasets".toList, ".apollo/traces".toList, ".apollo/models".toList]

/-- Files can be opened in them. -/
def dirEnv : Env PolicyModel := { demoEnv with canWrite := fun p => decide (parent p ∈ demoDirs) }

theorem dirEnv_needs : NeedsDirectory dirEnv.canWrite (fun d => decide (d ∈ demoDirs)) := fun _ h => h

theorem dirEnv_granted : Granted dirEnv.canWrite (fun d => decide (d ∈ demoDirs)) := fun _ h => h

/-- The stored tree of a run. -/
def demoTree : Option Str :=
  match exec demoEnv ([demoCreate "a"] ++ demoRun 0 3 (1 / 2) ++ demoRun 0 4 (1 / 4) ++
    [.train 0 0 false false]) (initWorld { storeModels := true } fun _ => none) with
  | .ok w => w.files (storePath w.cfg 0 "DecisionTree".toList "a".toList)
  | .error _ => none

/-- A file from which a model is loaded. -/
def modelFiles : Str → Option Str := fun p => if p = "./a.yaml".toList then demoTree else none

/-- A program that loads a model from a path with a `/`. -/
def loadOps : List Op := [.create 1 "a".toList 2 0 "DecisionTree,load=./a.yaml".toList []]

theorem load_quiet : ∃ w, exec dirEnv loadOps (initWorld { traceCsv := false } modelFiles) = .ok w ∧
    w.nextRegion = 1 := run_ok (by decide +kernel)

theorem load_traced : (match exec dirEnv loadOps (initWorld { traceCsv := true } modelFiles) with
    | .ok _ => false
    | .error e => decide (e = .abort)) = true := by decide +kernel

theorem results_exec {env : Env M} {ops : List Op} {w : World M} :
    exec env ops w = Prod.snd <$> results env ops w := by
  induction ops generalizing w with
  | nil => rfl
  | cons op ops ih =>
    simp only [exec, results]
    rw [map_bind]
    refine bind_congr fun x => ?_
    rw [ih, map_bind]
    cases results env ops x.2 <;> rfl

/-- C70 is false: a run that loads a tree from a file given with its directory works without tracing
and aborts with it, though the directory of the traces exists. -/
theorem C70_fails : ¬ C70 := by
  intro h
  have h := h PolicyModel dirEnv _ {} modelFiles loadOps dirEnv_needs dirEnv_granted
    (by decide +kernel)
  obtain ⟨w, hw, -⟩ := load_quiet
  have ht := load_traced
  rw [results_exec] at hw ht
  cases hq : results dirEnv loadOps (initWorld { traceCsv := false } modelFiles) with
  | error e => rw [hq] at hw; cases hw
  | ok x =>
    cases hr : results dirEnv loadOps (initWorld { traceCsv := true } modelFiles) with
    | ok y => rw [hr] at ht; cases ht
    | error e =>
      change SameOutcome (results dirEnv loadOps (initWorld { traceCsv := true } modelFiles))
        (results dirEnv loadOps (initWorld { traceCsv := false } modelFiles)) at h
      rw [hq, hr] at h
      exact h

/-- The hypotheses of `C70_partial` are met, and the traced run does write rows. -/
example : Granted dirEnv.canWrite (fun d => decide (d ∈ demoDirs)) ∧
    (tracesDirectory ({} : Cfg)) ∈ demoDirs ∧ '/' ∉ ({} : Cfg).policyModel ∧
    (∀ op ∈ demoOps, NoSlash op) ∧
    ∃ w, exec dirEnv demoOps (initWorld { traceCsv := true } fun _ => none) = .ok w ∧
      ((w.regions 0).map (fun R => decide (30 < R.trace.length)) = some true ∧ w.executions = 2) := by
  exact ⟨dirEnv_granted, by decide +kernel, by decide +kernel, by decide +kernel,
    run_ok (by decide +kernel)⟩

/-- The hypotheses of `C70_slash` are met by the program above. -/
example : NeedsDirectory dirEnv.canWrite (fun d => decide (d ∈ demoDirs)) ∧
    (∀ d, decide (d ∈ demoDirs) = true →
      ¬ (tracesDirectory ({} : Cfg) ++ "/trace-".toList <+: d)) ∧
    '/' ∈ "DecisionTree,load=./a.yaml".toList ∧
    ¬ "StaticRegion".toList <+: "DecisionTree,load=./a.yaml".toList := by
  refine ⟨dirEnv_needs, ?_, by decide +kernel, by decide +kernel⟩
  intro d hd
  have key : ∀ d ∈ demoDirs, ¬ (tracesDirectory ({} : Cfg) ++ "/trace-".toList <+: d) := by
    decide +kernel
  exact key d (of_decide_eq_true hd)

/-! ## Datasets reach their files -/

/-- The full claim of C71: with persistent datasets, after a region is destroyed its file holds its
dataset, whatever its name, when the directory of the datasets exists. -/
def C71 : Prop :=
  ∀ (M : Type) (env : Env M) (isDir : Str → Bool) (w w' : World M) (r fuel : ℕ) (R : Region),
    NeedsDirectory env.canWrite isDir → Granted env.canWrite isDir →
    isDir (datasetsDirectory w.cfg) = true → w.cfg.persistent = true → w.regions r = some R →
    R.pending = [] → destroyRegion env w r fuel = .ok w' →
    w'.files (datasetPath w.cfg R.name) = some R.dataset.store

theorem destroy_now {env : Env M} {w : World M} {r : ℕ} (fuel : ℕ) {R : Region}
    (hR : w.regions r = some R) (he : R.pending = []) :
    destroyRegion env w r fuel =
      .ok (afterDestroy env { w with cfg := { w.cfg with globalPeriod := 0 } } r R) := by
  have hreg : ({ w with cfg := { w.cfg with globalPeriod := 0 } } : World M).region r = .ok R :=
    World.region_ok.2 hR
  have hd : drain env r fuel { w with cfg := { w.cfg with globalPeriod := 0 } } =
      .ok { w with cfg := { w.cfg with globalPeriod := 0 } } := by
    cases fuel with
    | zero =>
      simp only [drain]
      rw [hreg]
      show (if R.pending = [] then _ else _) = _
      rw [if_pos he]
    | succ fuel =>
      simp only [drain]
      rw [hreg]
      show (if R.pending = [] then _ else _) = _
      rw [if_pos he]
  unfold destroyRegion
  rw [World.region_ok.2 hR]
  refine (Res.bind_eq_ok _ _ _).2 ⟨_, rfl, (Res.bind_eq_ok _ _ _).2 ⟨_, hd, ?_⟩⟩
  rw [hreg]
  rfl

theorem destroyed_now {env : Env M} {w w' : World M} {r fuel : ℕ} {R : Region}
    (hp : w.cfg.persistent = true) (hR : w.regions r = some R) (he : R.pending = [])
    (h : destroyRegion env w r fuel = .ok w') :
    w'.files = (w.write env (datasetPath w.cfg R.name) (some R.dataset.store)).files := by
  rw [destroy_now fuel hR he] at h
  cases h
  unfold afterDestroy
  dsimp only
  rw [if_pos hp]
  unfold World.write
  dsimp only [World.emit]
  split <;> split <;> first | rfl | contradiction

/-- C71 for names without `/`. -/
theorem C71_partial (env : Env M) (isDir : Str → Bool) (w w' : World M) (r fuel : ℕ) (R : Region)
    (hg : Granted env.canWrite isDir) (hd : isDir (datasetsDirectory w.cfg) = true)
    (hp : w.cfg.persistent = true) (hR : w.regions r = some R) (he : R.pending = [])
    (hn : '/' ∉ R.name) (h : destroyRegion env w r fuel = .ok w') :
    w'.files (datasetPath w.cfg R.name) = some R.dataset.store := by
  rw [destroyed_now hp hR he h]
  have hc : env.canWrite (datasetPath w.cfg R.name) = true := hg _ (by rw [parent_datasetPath hn]; exact hd)
  unfold World.write
  dsimp only
  rw [if_pos hc]
  exact Function.update_self ..

/-- When the directories exist, the files of datasets and models of regions without `/` in their names
can be written; this is the hypothesis of C33 and C43. -/
theorem C71_writable (canWrite isDir : Str → Bool) (hg : Granted canWrite isDir) (cfg : Cfg) (name : Str)
    (hn : '/' ∉ name) :
    (isDir (datasetsDirectory cfg) = true → canWrite (datasetPath cfg name) = true) ∧
    (isDir (modelsDirectory cfg) = true → ∀ kind, '/' ∉ kind → ∀ rank s,
      canWrite (storePath cfg rank kind name) = true ∧
      canWrite (stepPath cfg rank kind s name) = true) :=
  ⟨fun hd => hg _ (by rw [parent_datasetPath hn]; exact hd), fun hd kind hk rank s =>
    ⟨hg _ (by rw [parent_storePath hk hn]; exact hd), hg _ (by rw [parent_stepPath hk hn]; exact hd)⟩⟩

example : Granted dirEnv.canWrite (fun d => decide (d ∈ demoDirs)) ∧
    decide (modelsDirectory ({} : Cfg) ∈ demoDirs) = true ∧ '/' ∉ "DecisionTree".toList :=
  ⟨dirEnv_granted, by decide +kernel, by decide +kernel⟩

/-- If there are no directories whose names begin with `Dataset-`, no execution ever changes the file
of the dataset of a region whose name contains a `/`: its measurements are lost, with a message on
standard error, and no call fails for that reason (`C71_returns`). -/
theorem C71_lost (env : Env M) (isDir : Str → Bool) (hn : NeedsDirectory env.canWrite isDir) (cfg : Cfg)
    (hd : ∀ d, isDir d = true → ¬ (datasetsDirectory cfg ++ "/Dataset-".toList <+: d))
    (name : Str) (hs : '/' ∈ name) (w w' : World M) (ops : List Op) (h : exec env ops w = .ok w') :
    w'.files (datasetPath cfg name) = w.files (datasetPath cfg name) := by
  have hc : env.canWrite (datasetPath cfg name) = false := by
    by_contra hc
    rw [Bool.not_eq_false] at hc
    exact hd _ (hn _ hc) (parent_datasetPath_slash hs)
  exact (FileHolds.invariant (fun _ => True) _ hc).exec (fun _ _ _ _ => trivial) rfl h

/-- No call fails for that reason: the destructor returns whatever the file system says. -/
theorem C71_returns (env : Env M) (w : World M) (r fuel : ℕ) (R : Region) (hR : w.regions r = some R)
    (he : R.pending = []) : ∃ w', destroyRegion env w r fuel = .ok w' :=
  ⟨_, destroy_now fuel hR he⟩

/-- A region named `a/b` with one measurement. -/
theorem slash_region : ∃ w, exec dirEnv ([demoCreate "a/b"] ++ demoRun 0 3 1)
      (initWorld persistCfg fun _ => none) = .ok w ∧
    ((w.regions 0).map Region.name = some "a/b".toList ∧ (w.regions 0).map Region.pending = some [] ∧
      held w.log 0 = run [⟨[3], 0, 1⟩] ∧
      w.files (datasetPath persistCfg "a/b".toList) = none) :=
  run_ok (by decide +kernel)

/-- C71 is false: the region named `a/b` is destroyed, and its data is nowhere. -/
theorem C71_fails : ¬ C71 := by
  intro h
  obtain ⟨w, hw, h1, h1', -, h3⟩ := slash_region
  obtain ⟨G, h2⟩ : CfgIs persistCfg w := (CfgIs.invariant dirEnv (fun _ => True) persistCfg).exec
    (fun _ _ _ _ => trivial) ⟨0, rfl⟩ hw
  obtain ⟨R, hR, hn⟩ := Option.map_eq_some_iff.1 h1
  obtain ⟨R', hR', he⟩ := Option.map_eq_some_iff.1 h1'
  rw [hR] at hR'
  cases hR'
  obtain ⟨w', hd⟩ := C71_returns dirEnv w 0 5 R hR he
  have hf := h PolicyModel dirEnv _ w w' 0 5 R dirEnv_needs dirEnv_granted
    (by rw [h2]; show decide (datasetsDirectory persistCfg ∈ demoDirs) = true; decide +kernel)
    (by rw [h2]; rfl) hR he hd
  have hx : exec dirEnv [.destroy 0 5] w = .ok w' := by
    simp only [exec, step]
    rw [hd]
    rfl
  have key : ∀ d ∈ demoDirs, ¬ (datasetsDirectory persistCfg ++ "/Dataset-".toList <+: d) := by
    decide +kernel
  have hl := C71_lost dirEnv _ dirEnv_needs persistCfg
    (fun d hd => key d (of_decide_eq_true hd)) "a/b".toList (by decide +kernel) w w' _ hx
  rw [hn, h2] at hf
  change w'.files (datasetPath persistCfg "a/b".toList) = _ at hf
  rw [hl, h3] at hf
  cases hf

/-- The hypotheses of `C71_partial` are met by a region with a measurement. -/
example : Granted dirEnv.canWrite (fun d => decide (d ∈ demoDirs)) ∧
    decide (datasetsDirectory persistCfg ∈ demoDirs) = true ∧
    ∃ w, exec dirEnv ([demoCreate "a"] ++ demoRun 0 3 1) (initWorld persistCfg fun _ => none) = .ok w ∧
      (w.cfg.persistent = true ∧ (w.regions 0).map (fun R => (decide ('/' ∈ R.name), R.pending)) =
        some (false, [])) :=
  ⟨dirEnv_granted, by decide +kernel, run_ok (by decide +kernel)⟩

end Apollo.Props
