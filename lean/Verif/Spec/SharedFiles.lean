import Verif.Model.Ranks

/-!
# Specification: which files a rank writes and reads
-/

namespace Apollo.Spec

open Apollo Apollo.Ranks

variable {M : Type}

/-- The files the calls of a rank may write: models at a step and the latest ones, the best policies, the
chosen policies, the trace of what is exchanged, and the datasets if they are to persist. -/
inductive Written (env : Env M) (cfg : Cfg) : Str → Prop
  | step {m : M} {t : Str} (s : ℤ) (n : Str) : env.ops.store m = .ok (some t) →
      Written env cfg (stepPath cfg env.rank (env.ops.name m) s n)
  | latest {m : M} {t : Str} (n : Str) : env.ops.store m = .ok (some t) →
      Written env cfg (storePath cfg env.rank (env.ops.name m) n)
  | best (s : ℤ) (n : Str) : Written env cfg (bestPath env.rank s n)
  | policies : Written env cfg (policiesPath env.rank)
  | gathered (s : ℤ) : Written env cfg (gatherPath s env.rank)
  | dataset (n : Str) : cfg.persistent = true → Written env cfg (datasetPath cfg n)

/-- The files a call may read: only the construction of a region reads any (files named by the program, the
latest model, datasets, and what the model Optimal is given). -/
inductive Read (env : Env M) (cfg : Cfg) : Op → Str → Prop
  | yaml {nf n mt : ℤ} {name info yaml : Str} : yaml ≠ [] →
      Read env cfg (.create nf name n mt info yaml) yaml
  | given {nf n mt : ℤ} {name info yaml mn v : Str} {ps : Params} :
      parsePolicyModel (if info = [] then cfg.policyModel else info) = .ok (mn, ps) →
      ps.find "load".toList = some v → v ≠ [] → Read env cfg (.create nf name n mt info yaml) v
  | latest {nf n mt : ℤ} {name info yaml mn region : Str} {ps : Params} {t : ℕ} {m : M} :
      env.ops.create t mn nf n ps = .ok m →
      Read env cfg (.create nf name n mt info yaml) (loadPath cfg env.rank mn region)
  | dataset {nf n mt : ℤ} {name info yaml region : Str} :
      Read env cfg (.create nf name n mt info yaml) (datasetPath cfg region)
  | optimal {nf n mt : ℤ} {name info yaml region : Str} :
      Read env cfg (.create nf name n mt info yaml) (optimalPath env.rank region)

/-- The files the program names itself, as the argument or in the model string. -/
inductive Mentioned (cfg : Cfg) : Op → Str → Prop
  | yaml {nf n mt : ℤ} {name info yaml : Str} : yaml ≠ [] → Mentioned cfg (.create nf name n mt info yaml) yaml
  | given {nf n mt : ℤ} {name info yaml mn v : Str} {ps : Params} :
      parsePolicyModel (if info = [] then cfg.policyModel else info) = .ok (mn, ps) →
      ps.find "load".toList = some v → v ≠ [] → Mentioned cfg (.create nf name n mt info yaml) v

/-- The names of models are such that names of files can be read: those of the models that can be stored,
and those in model strings. -/
structure PlainNames (ops : ModelOps M) : Prop where
  stored : ∀ m t, ops.store m = .ok (some t) →
    '-' ∉ ops.name m ∧ ops.name m ≠ "Dataset".toList
  created : ∀ t mn nf n ps m, ops.create t mn nf n ps = .ok m → '-' ∉ mn

/-- What all ranks have in common: the places of files, and that datasets do not persist. -/
structure SamePlaces (cfg : ℕ → Cfg) (n : ℕ) : Prop where
  output : ∀ i j, i < n → j < n → (cfg i).outputDir = (cfg j).outputDir
  models : ∀ i j, i < n → j < n → (cfg i).modelsDir = (cfg j).modelsDir
  plain : ∀ i, i < n → '/' ∉ (cfg i).modelsDir ∧ '/' ∉ (cfg i).datasetsDir
  fresh : ∀ i, i < n → (cfg i).persistent = false

end Apollo.Spec
