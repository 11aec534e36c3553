import Verif.Proofs.RegionFiles
import Verif.Proofs.RegionTrain
import Verif.Props.Region

/-!
# Property C33: models stored by one run are found by the next

A run is `exec env ops (initWorld cfg files)`.  The next run starts with the files of the first.
-/

namespace Apollo.Props

open Apollo Apollo.Spec

variable {M : Type}

/-! ## The policy models store what they are -/

theorem policyOps_storing (gen : ℕ → ℕ → ℕ) (tenv : ℕ → TrainEnv) : Storing (policyOps gen tenv) where
  index := by
    intro m f p m' h
    change PolicyModel.getIndex m f = .ok (p, m') at h
    change PolicyModel.store m' = PolicyModel.store m ∧ PolicyModel.name m' = PolicyModel.name m
    cases m with
    | null => simp [PolicyModel.getIndex] at h
    | static n c => simp only [PolicyModel.getIndex] at h; cases h; exact ⟨rfl, rfl⟩
    | roundRobin n c =>
      simp only [PolicyModel.getIndex] at h
      split at h
      · cases h
      · cases h; exact ⟨rfl, rfl⟩
    | random n g =>
      simp only [PolicyModel.getIndex] at h
      split at h <;> (cases h; exact ⟨rfl, rfl⟩)
    | optimal q =>
      cases q with
      | nil => simp [PolicyModel.getIndex] at h
      | cons p q => simp only [PolicyModel.getIndex] at h; cases h; exact ⟨rfl, rfl⟩
    | datasetMap n b =>
      simp only [PolicyModel.getIndex] at h
      split at h
      · cases h
      · cases h; exact ⟨rfl, rfl⟩
    | tree n tr e t =>
      simp only [PolicyModel.getIndex] at h
      split at h
      · obtain ⟨c, -, h⟩ := (Res.bind_eq_ok _ _ _).1 h
        cases h; exact ⟨rfl, rfl⟩
      · obtain ⟨c, -, h⟩ := (Res.bind_eq_ok _ _ _).1 h
        cases h; exact ⟨rfl, rfl⟩
    | forest n tr e t =>
      simp only [PolicyModel.getIndex] at h
      split at h
      · obtain ⟨c, -, h⟩ := (Res.bind_eq_ok _ _ _).1 h
        cases h; exact ⟨rfl, rfl⟩
      · obtain ⟨c, -, h⟩ := (Res.bind_eq_ok _ _ _).1 h
        cases h; exact ⟨rfl, rfl⟩
  dash := by
    intro m t h
    change PolicyModel.store m = .ok (some t) at h
    change '-' ∉ PolicyModel.name m
    cases m with
    | tree n tr e t => exact (by decide : '-' ∉ "DecisionTree".toList)
    | forest n tr e t => exact (by decide : '-' ∉ "RandomForest".toList)
    | null => cases h
    | static _ _ => cases h
    | roundRobin _ _ => cases h
    | random _ _ => cases h
    | optimal _ => cases h
    | datasetMap _ _ => cases h

theorem storeInv_init (env : Env M) (cfg : Cfg) (files : Str → Option Str) :
    StoreInv env (initWorld cfg files) := by
  have hr : (initWorld cfg files : World M).regions = fun _ => none := rfl
  have hl : (initWorld cfg files : World M).log = [] := rfl
  refine ⟨?_, ?_, ?_, ?_⟩
  · intro r R h; rw [hr] at h; cases h
  · intro r ds h; rw [hl] at h; cases h
  · intro r R r' R' h; rw [hr] at h; cases h
  · intro _ _ _ r R m h; rw [hr] at h; cases h

/-- The names of the regions a program creates, as far as the code keeps them. -/
def createdNames (ops : List Op) : List Str := ops.filterMap Op.created

/-- C33, first half: with APOLLO_STORE_MODELS, whenever the model of a region has been trained, the
file of the region holds what storing its present model gives, provided that this file can be written
(C71 says when). -/
theorem C33_stored (env : Env M) (hs : Storing env.ops) (cfg : Cfg) (files : Str → Option Str)
    (ops : List Op) (hd : (createdNames ops).Nodup) {w : World M}
    (h : exec env ops (initWorld cfg files) = .ok w)
    (hst : w.cfg.storeModels = true) (h1 : w.cfg.single = false) (hc : w.cfg.Separate)
    {r : ℕ} {R : Region} {m : M} (hR : w.regions r = some R) (hm : w.models r = some m)
    (hn : ¬ R.reads) (ht : ∃ ds, Ev.trained r ds ∈ w.log) :
    ∃ s, env.ops.store m = .ok s ∧
      ∀ t, s = some t → env.canWrite (storePath w.cfg env.rank (env.ops.name m) R.name) = true →
        w.files (storePath w.cfg env.rank (env.ops.name m) R.name) = some t :=
  ((storeInv_init env cfg files).exec (N := []) hs (fun r R h => by cases h) (by rw [List.nil_append]; exact hd)
    h).stored hst h1 hc r R m hR hm hn ht

/-- C33, second half: a region created with the bare parameter `load` read the file of its name,
rank and kind, and its model is the model read, unless that is trained anew with a dataset read. -/
theorem C33_loads {env : Env M} {w w' : World M} {nf n mt : ℤ} {name info : Str} {r : ℕ} {R : Region}
    (h : createRegion env w nf name n mt info [] = .ok (r, w')) (hR : w'.regions r = some R)
    (hl : R.params.find "load".toList = some []) :
    ∃ t m₀ m₁, w.files (storePath w.cfg env.rank R.modelName R.name) = some t ∧
      env.ops.create w.tick R.modelName nf n R.params = .ok m₀ ∧
      env.ops.load (some t) m₀ = .ok m₁ ∧
      (env.ops.isTrainable m₁ = false ∨
        w.cfg.persistent = false ∧ R.params.find "load-dataset".toList = none →
        ¬ R.reads → w'.models r = some m₁) := by
  rw [← loadPath_eq]
  exact createRegion_loads h hR hl

/-- C33: a region created in a later run, in any state whose file of that name is the one the first
run left, loads exactly the text of the model that the region of the first run has. -/
theorem C33_next_run (env env' : Env M) (hs : Storing env.ops) (cfg : Cfg)
    (files : Str → Option Str) (ops : List Op) (hd : (createdNames ops).Nodup) {w : World M}
    (h : exec env ops (initWorld cfg files) = .ok w)
    (hst : w.cfg.storeModels = true) (h1 : w.cfg.single = false) (hc : w.cfg.Separate)
    {r : ℕ} {R : Region} {m : M} {t : Str} (hR : w.regions r = some R) (hm : w.models r = some m)
    (hn : ¬ R.reads) (ht : ∃ ds, Ev.trained r ds ∈ w.log) (hmt : env.ops.store m = .ok (some t))
    (hcw : env.canWrite (storePath w.cfg env.rank (env.ops.name m) R.name) = true)
    -- the second run
    {w₂ w₂' : World M} {nf n mt : ℤ} {name info : Str} {r₂ : ℕ} {R₂ : Region}
    (h' : createRegion env' w₂ nf name n mt info [] = .ok (r₂, w₂'))
    (hR₂ : w₂'.regions r₂ = some R₂) (hl : R₂.params.find "load".toList = some [])
    -- same name, kind, rank and directories, and nobody touched the file
    (hname : R₂.name = R.name) (hkind : R₂.modelName = env.ops.name m) (hrank : env'.rank = env.rank)
    (hdirs : w₂.cfg.outputDir = w.cfg.outputDir ∧ w₂.cfg.modelsDir = w.cfg.modelsDir)
    (hfile : w₂.files (storePath w₂.cfg env'.rank R₂.modelName R₂.name) =
      w.files (storePath w₂.cfg env'.rank R₂.modelName R₂.name)) :
    ∃ m₀ m₁, env'.ops.create w₂.tick R₂.modelName nf n R₂.params = .ok m₀ ∧
      env'.ops.load (some t) m₀ = .ok m₁ ∧
      (env'.ops.isTrainable m₁ = false ∨
        w₂.cfg.persistent = false ∧ R₂.params.find "load-dataset".toList = none →
        ¬ R₂.reads → w₂'.models r₂ = some m₁) := by
  obtain ⟨t', m₀, m₁, hf, hcr, hld, hfin⟩ := C33_loads h' hR₂ hl
  obtain ⟨s, hs', hp⟩ := C33_stored env hs cfg files ops hd h hst h1 hc hR hm hn ht
  rw [hmt] at hs'
  cases hs'
  have hpath : storePath w₂.cfg env'.rank R₂.modelName R₂.name =
      storePath w.cfg env.rank (env.ops.name m) R.name := by
    rw [hname, hkind, hrank]
    simp only [storePath, hdirs.1, hdirs.2]
  rw [hfile, hpath, hp t rfl hcw] at hf
  cases hf
  exact ⟨m₀, m₁, hcr, hld, hfin⟩

/-- When a region is destroyed, its last waiting executions may train it once more; the file then
holds the model it had at the end. -/
theorem C33_destroyed (env : Env M) (hs : Storing env.ops) (cfg : Cfg) (files : Str → Option Str)
    (ops : List Op) (hd : (createdNames ops).Nodup) {w w' : World M}
    (h : exec env ops (initWorld cfg files) = .ok w)
    (hst : w.cfg.storeModels = true) (h1 : w.cfg.single = false) (hc : w.cfg.Separate)
    {r fuel : ℕ} (hdes : destroyRegion env w r fuel = .ok w') :
    ∃ w₁ R, drain env r fuel { w with cfg := { w.cfg with globalPeriod := 0 } } = .ok w₁ ∧
      w₁.regions r = some R ∧ ∀ m, w₁.models r = some m → ¬ R.reads →
      (∃ ds, Ev.trained r ds ∈ w₁.log) →
      ∃ s, env.ops.store m = .ok s ∧
        ∀ t, s = some t → env.canWrite (storePath w.cfg env.rank (env.ops.name m) R.name) = true →
          w'.files (storePath w.cfg env.rank (env.ops.name m) R.name) = some t := by
  have hI := (storeInv_init env cfg files).exec (N := []) hs (fun r R h => by cases h)
    (by rw [List.nil_append]; exact hd) h
  have hI0 : StoreInv env { w with cfg := { w.cfg with globalPeriod := 0 } } :=
    hI.frame ⟨0, rfl⟩ (le_refl _) (fun r R h => ⟨R, h, rfl, rfl⟩)
      (fun r R m _ h _ => ⟨m, h, rfl, rfl⟩)
      (fun r ds h => ⟨hI.ev _ _ h, fun _ _ _ => ⟨ds, h⟩⟩) (fun _ _ _ => rfl)
  obtain ⟨w₁, R, hdr, hR, -, rfl⟩ := destroyRegion_ok hdes
  have hI1 : StoreInv env w₁ := (StoreInv.stable hs (fun _ => True)).kept.drain hI0 hdr
  obtain ⟨G, hG⟩ : CfgIs w.cfg w₁ :=
    (CfgIs.stable env (fun _ => True) w.cfg).kept.drain
      (w := { w with cfg := { w.cfg with globalPeriod := 0 } }) ⟨0, rfl⟩ hdr
  refine ⟨w₁, R, hdr, hR, fun m hm hn ht => ?_⟩
  obtain ⟨s, h2, h3⟩ := hI1.stored (by rw [hG]; exact hst) (by rw [hG]; exact h1)
    (by rw [hG]; exact hc) r R m hR hm hn ht
  refine ⟨s, h2, fun t hts hcw => ?_⟩
  have h4 := h3 t hts
  have hp : storePath w₁.cfg env.rank (env.ops.name m) R.name =
      storePath w.cfg env.rank (env.ops.name m) R.name := by rw [hG]; rfl
  rw [hp] at h4
  have h4 := h4 hcw
  have hdp : storePath w.cfg env.rank (env.ops.name m) R.name ≠ datasetPath w₁.cfg R.name := by
    have : datasetPath w₁.cfg R.name = datasetPath w.cfg R.name := by rw [hG]; rfl
    rw [this]
    exact (datasetPath_ne hc).symm
  unfold afterDestroy
  dsimp only
  split
  · exact (write_files_ne (w := w₁) (some R.dataset.store) hdp).trans h4
  · exact h4

/-! ## Examples -/

/-- The directories of the default configuration are separate. -/
theorem separate_default : ({} : Cfg).Separate := by
  refine ⟨by decide, ?_, ?_⟩ <;> decide

/-- A configuration that stores models. -/
def storeCfg : Cfg := { storeModels := true }

/-- The first run: two executions with different best policies, then training. -/
def storeOps : List Op :=
  [demoCreate "a", demoCreate "b"] ++ demoRun 0 3 1 ++ demoRun 0 4 2 ++ demoRun 0 4 (1 / 2) ++
    demoRun 0 4 2 ++ [.train 0 7 true true]

/-- The path of the model of the region `a`. -/
def pathA : Str := ".apollo/models/DecisionTree-latest-rank-0-a.yaml".toList

/-- The first run meets the hypotheses of `C33_stored`, and the file is there. -/
example : (createdNames storeOps).Nodup ∧
    ∃ w, exec demoEnv storeOps (initWorld storeCfg fun _ => none) = .ok w ∧
      ((w.regions 0).isSome ∧ (w.models 0).isSome ∧
        (w.regions 0).map (fun R => (R.name, R.modelName)) = some ("a".toList, "DecisionTree".toList) ∧
        (w.log.any fun e => match e with | .trained 0 _ => true | _ => false) = true ∧
        (w.files pathA).isSome) :=
  ⟨by decide +kernel, run_ok (by decide +kernel)⟩

/-- The second run, in the files left by the first: the region loads the tree, and predicts with
it. -/
example : ∃ w, exec demoEnv storeOps (initWorld storeCfg fun _ => none) = .ok w ∧
    (match createRegion demoEnv (initWorld storeCfg w.files) 1 "a".toList 2 0
        "DecisionTree,load".toList [] with
      | .ok (r, w') => (match w'.models r, w.models 0 with
        | some m, some m' => decide (m.store = m'.store ∧ m.isTrainable = false ∧
          m.store = .ok (w.files pathA))
        | _, _ => false)
      | .error _ => false) = true := run_ok (by decide +kernel)

/-- Without a stored file the second run does not start. -/
example : (match createRegion demoEnv (initWorld storeCfg fun _ => none) 1 "a".toList 2 0
    "DecisionTree,load".toList [] with
    | .ok _ => false
    | .error _ => true) = true := by decide +kernel

/-- Distinct names are needed: two regions with one name share one file, which then holds the model
of the region trained last. -/
theorem C33_shared_name : ∃ w, exec demoEnv ([demoCreate "a", demoCreate "a"] ++ demoRun 0 3 1 ++
    demoRun 1 3 2 ++ demoRun 1 3 1 ++ [.train 0 7 true true, .train 1 8 true true])
      (initWorld storeCfg fun _ => none) = .ok w ∧
    (match w.models 0, w.models 1 with
      | some m, some m' => decide (m.store ≠ m'.store ∧ .ok (w.files pathA) = m'.store)
      | _, _ => false) = true := run_ok (by decide +kernel)

end Apollo.Props
