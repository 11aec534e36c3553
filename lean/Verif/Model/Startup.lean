import Verif.Model.Region

/-!
# Model of the start of the library

Source: src/Apollo.cpp:67-92 and 120-238, include/apollo/Config.h.

Output on standard output and standard error is not modelled.
-/

namespace Apollo

/-- What the constructor asks of its surroundings. -/
structure Os where
  /-- the environment -/
  getenv : Str → Option Str
  /-- whether `mkdir` succeeds or finds that the name exists already -/
  mkdir : Str → Bool := fun _ => true
  /-- whether a file can be opened for writing -/
  canWrite : Str → Bool := fun _ => true
  /-- built with ENABLE_MPI -/
  mpi : Bool := false
  /-- rank of the process (0 without MPI) -/
  rank : ℤ := 0

/-- Apollo.cpp:67-82: `safeGetEnv`. -/
def safeGetEnv (os : Os) (name default : String) : Str := (os.getenv name.toList).getD default.toList

/-- `std::stoi(apolloUtils::safeGetEnv(name, default))`. -/
def getInt (os : Os) (name default : String) : Res ℤ := do
  let (v, _) ← stoi (safeGetEnv os name default)
  .ok v

/-- `std::stof(apolloUtils::safeGetEnv(name, default))`. -/
def getFloat (os : Os) (name default : String) : Res ℚ := do
  let (v, _) ← stof (safeGetEnv os name default)
  .ok v

/-- include/apollo/Config.h: the static members. -/
structure Settings where
  policyModel : Str
  collective : ℤ
  localTraining : ℤ
  single : ℤ
  regionModel : ℤ
  globalPeriod : ℤ
  perRegionPeriod : ℤ
  tracePolicy : ℤ
  storeModels : ℤ
  traceRetrain : ℤ
  traceAllgather : ℤ
  traceBest : ℤ
  retrain : ℤ
  retrainTime : ℚ
  retrainRegion : ℚ
  traceCsv : ℤ
  persistent : ℤ
  storeExecInfo : ℤ
  outputDir : Str
  datasetsDir : Str
  tracesDir : Str
  modelsDir : Str
  deriving DecidableEq

/-- Apollo.cpp:124-168: read the environment. -/
def readSettings (os : Os) : Res Settings := do
  let collective ← getInt os "APOLLO_COLLECTIVE_TRAINING" "0"
  let localTraining ← getInt os "APOLLO_LOCAL_TRAINING" "1"
  let single ← getInt os "APOLLO_SINGLE_MODEL" "0"
  let regionModel ← getInt os "APOLLO_REGION_MODEL" "1"
  let globalPeriod ← getInt os "APOLLO_GLOBAL_TRAIN_PERIOD" "0"
  let perRegionPeriod ← getInt os "APOLLO_PER_REGION_TRAIN_PERIOD" "0"
  let tracePolicy ← getInt os "APOLLO_TRACE_POLICY" "0"
  let storeModels ← getInt os "APOLLO_STORE_MODELS" "0"
  let traceRetrain ← getInt os "APOLLO_TRACE_RETRAIN" "0"
  let traceAllgather ← getInt os "APOLLO_TRACE_ALLGATHER" "0"
  let traceBest ← getInt os "APOLLO_TRACE_BEST_POLICIES" "0"
  let retrain ← getInt os "APOLLO_RETRAIN_ENABLE" "0"
  let retrainTime ← getFloat os "APOLLO_RETRAIN_TIME_THRESHOLD" "2.0"
  let retrainRegion ← getFloat os "APOLLO_RETRAIN_REGION_THRESHOLD" "0.5"
  let traceCsv ← getInt os "APOLLO_TRACE_CSV" "0"
  let persistent ← getInt os "APOLLO_PERSISTENT_DATASETS" "0"
  let storeExecInfo ← getInt os "APOLLO_STORE_EXEC_INFO" "0"
  .ok {
    policyModel := safeGetEnv os "APOLLO_POLICY_MODEL" "Static,policy=0"
    collective, localTraining, single, regionModel, globalPeriod, perRegionPeriod, tracePolicy
    storeModels, traceRetrain, traceAllgather, traceBest, retrain, retrainTime, retrainRegion
    traceCsv, persistent, storeExecInfo
    outputDir := safeGetEnv os "APOLLO_OUTPUT_DIR" ".apollo"
    datasetsDir := safeGetEnv os "APOLLO_DATASETS_DIR" "datasets"
    tracesDir := safeGetEnv os "APOLLO_TRACES_DIR" "traces"
    modelsDir := safeGetEnv os "APOLLO_MODELS_DIR" "models" }

/-- Apollo.cpp:170-202: the checks. -/
def checkSettings (mpi : Bool) (s : Settings) : Res Unit :=
  if s.collective ≠ 0 ∧ mpi = false then .error .abort
  else if s.collective ≠ 0 ∧ s.localTraining ≠ 0 then .error .abort
  else if ¬(s.collective ≠ 0 ∨ s.localTraining ≠ 0) then .error .abort
  else if s.single ≠ 0 ∧ s.regionModel ≠ 0 then .error .abort
  else if ¬(s.single ≠ 0 ∨ s.regionModel ≠ 0) then .error .abort
  else .ok ()

/-- Apollo.cpp:84-91. -/
def createDir (os : Os) (dir : Str) : Res Unit :=
  if os.mkdir dir then .ok () else .error .throw

/-- `if (flag) createDir(dir)`. -/
def createDirIf (os : Os) (flag : ℤ) (dir : Str) : Res Unit :=
  if flag ≠ 0 then createDir os dir else .ok ()

/-- Apollo.cpp:204-216. -/
def createDirs (os : Os) (s : Settings) : Res Unit := do
  createDir os s.outputDir
  createDirIf os s.persistent (s.outputDir ++ "/".toList ++ s.datasetsDir)
  createDirIf os s.traceCsv (s.outputDir ++ "/".toList ++ s.tracesDir)
  createDirIf os s.storeModels (s.outputDir ++ "/".toList ++ s.modelsDir)

/-- Apollo.cpp:228-230: name of the global trace. -/
def gtracePath (s : Settings) (rank : ℤ) : Str :=
  s.outputDir ++ "/".toList ++ s.tracesDir ++ "/trace-rank-".toList ++ fmtInt rank ++ ".csv".toList

/-- Apollo.cpp:227-236: open the global trace; `fatal_error` aborts (helpers/ErrorHandling.h:9-15). -/
def openGtrace (os : Os) (s : Settings) : Res Unit :=
  if s.traceCsv ≠ 0 ∧ os.canWrite (gtracePath s os.rank) = false then .error .abort else .ok ()

/-- The configuration seen by the rest of the code. -/
def Settings.cfg (s : Settings) : Cfg where
  policyModel := s.policyModel
  collective := decide (s.collective ≠ 0)
  localTraining := decide (s.localTraining ≠ 0)
  single := decide (s.single ≠ 0)
  regionModel := decide (s.regionModel ≠ 0)
  globalPeriod := s.globalPeriod
  perRegionPeriod := s.perRegionPeriod
  storeModels := decide (s.storeModels ≠ 0)
  retrain := decide (s.retrain ≠ 0)
  traceCsv := decide (s.traceCsv ≠ 0)
  persistent := decide (s.persistent ≠ 0)
  storeExecInfo := decide (s.storeExecInfo ≠ 0)
  tracePolicy := decide (s.tracePolicy ≠ 0)
  traceBest := decide (s.traceBest ≠ 0)
  traceAllgather := decide (s.traceAllgather ≠ 0)
  outputDir := s.outputDir
  datasetsDir := s.datasetsDir
  tracesDir := s.tracesDir
  modelsDir := s.modelsDir

/-- Apollo.cpp:120-238: the constructor. -/
def startup (os : Os) : Res Cfg := do
  let s ← readSettings os
  checkSettings os.mpi s
  createDirs os s
  openGtrace os s
  .ok s.cfg

end Apollo
