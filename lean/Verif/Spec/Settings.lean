import Verif.Spec.Startup
import Verif.Spec.Files

/-!
# Which variable a setting comes from
-/

namespace Apollo.Spec

open Apollo

/-- The variable, with the given default, is a number and the setting says whether it is not zero. -/
def IsFlag (getenv : List Char → Option (List Char)) (name default : String) (b : Bool) : Prop :=
  ∃ n, IsInt getenv name default n ∧ (b = true ↔ n ≠ 0)

/-- The value of the variable, or the default. -/
def textOf (getenv : List Char → Option (List Char)) (name default : String) : Str :=
  (getenv name.toList).getD default.toList

/-- Every setting comes from its own variable, with the documented default. -/
structure FromEnv (getenv : List Char → Option (List Char)) (cfg : Cfg) : Prop where
  policyModel : cfg.policyModel = textOf getenv "APOLLO_POLICY_MODEL" "Static,policy=0"
  collective : IsFlag getenv "APOLLO_COLLECTIVE_TRAINING" "0" cfg.collective
  localTraining : IsFlag getenv "APOLLO_LOCAL_TRAINING" "1" cfg.localTraining
  single : IsFlag getenv "APOLLO_SINGLE_MODEL" "0" cfg.single
  regionModel : IsFlag getenv "APOLLO_REGION_MODEL" "1" cfg.regionModel
  globalPeriod : IsInt getenv "APOLLO_GLOBAL_TRAIN_PERIOD" "0" cfg.globalPeriod
  perRegionPeriod : IsInt getenv "APOLLO_PER_REGION_TRAIN_PERIOD" "0" cfg.perRegionPeriod
  storeModels : IsFlag getenv "APOLLO_STORE_MODELS" "0" cfg.storeModels
  retrain : IsFlag getenv "APOLLO_RETRAIN_ENABLE" "0" cfg.retrain
  traceCsv : IsFlag getenv "APOLLO_TRACE_CSV" "0" cfg.traceCsv
  persistent : IsFlag getenv "APOLLO_PERSISTENT_DATASETS" "0" cfg.persistent
  storeExecInfo : IsFlag getenv "APOLLO_STORE_EXEC_INFO" "0" cfg.storeExecInfo
  tracePolicy : IsFlag getenv "APOLLO_TRACE_POLICY" "0" cfg.tracePolicy
  traceBest : IsFlag getenv "APOLLO_TRACE_BEST_POLICIES" "0" cfg.traceBest
  traceAllgather : IsFlag getenv "APOLLO_TRACE_ALLGATHER" "0" cfg.traceAllgather
  outputDir : cfg.outputDir = textOf getenv "APOLLO_OUTPUT_DIR" ".apollo"
  datasetsDir : cfg.datasetsDir = textOf getenv "APOLLO_DATASETS_DIR" "datasets"
  tracesDir : cfg.tracesDir = textOf getenv "APOLLO_TRACES_DIR" "traces"
  modelsDir : cfg.modelsDir = textOf getenv "APOLLO_MODELS_DIR" "models"

/-- The settings that nothing else uses are numbers, too. -/
structure OthersRead (getenv : List Char → Option (List Char)) : Prop where
  traceRetrain : ∃ n, IsInt getenv "APOLLO_TRACE_RETRAIN" "0" n
  retrainTime : IsFloat getenv "APOLLO_RETRAIN_TIME_THRESHOLD" "2.0"
  retrainRegion : IsFloat getenv "APOLLO_RETRAIN_REGION_THRESHOLD" "0.5"

/-- One kind of training, one kind of model, and MPI if it is needed. -/
structure CfgConsistent (mpi : Bool) (cfg : Cfg) : Prop where
  training : cfg.collective = !cfg.localTraining
  models : cfg.single = !cfg.regionModel
  mpi : cfg.collective = true → mpi = true

/-- The directories that are used could be made, and the global trace opened. -/
structure Prepared (mkdir canWrite : Str → Bool) (rank : ℤ) (cfg : Cfg) : Prop where
  output : mkdir cfg.outputDir = true
  datasets : cfg.persistent = true → mkdir (datasetsDirectory cfg) = true
  traces : cfg.traceCsv = true → mkdir (tracesDirectory cfg) = true
  models : cfg.storeModels = true → mkdir (modelsDirectory cfg) = true
  trace : cfg.traceCsv = true →
    canWrite (tracesDirectory cfg ++ "/trace-rank-".toList ++ fmtInt rank ++ ".csv".toList) = true

/-- The variables the library reads. -/
def readVariables : List String :=
  intVariables.map Prod.fst ++ floatVariables.map Prod.fst ++
    ["APOLLO_POLICY_MODEL", "APOLLO_OUTPUT_DIR", "APOLLO_DATASETS_DIR", "APOLLO_TRACES_DIR",
      "APOLLO_MODELS_DIR"]

end Apollo.Spec
