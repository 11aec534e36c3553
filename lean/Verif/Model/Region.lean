import Verif.Model.Factory
import Verif.Model.DatasetIO
import Verif.Spec.Region
import Mathlib.Data.Char

/-!
# Model of regions, contexts and the Apollo singleton

Source: src/Region.cpp, src/Apollo.cpp:240-262 and 475-556, src/timers/TimerSync.cpp.

The state of the process is a `World`.  Objects are referred to by number (in order of allocation;
numbers are not reused).  The model classes are a parameter (`ModelOps`), so that everything here
holds for every implementation of `PolicyModel`; `Verif.Model.RegionPolicy` gives the concrete one.
Answers of clocks, asynchronous timers and random generators are arbitrary functions of the tick, a
counter of such requests.

Not modelled: messages on standard output (so that of APOLLO_TRACE_POLICY and
APOLLO_TRACE_BEST_POLICIES only the files), OpenCV, threads.  The state after an exception
has left a function is not modelled.  An MPI build is modelled separately (Verif.Model.Collective).
-/

namespace Apollo

/-- The configuration (include/apollo/Config.h); flags are the truth values of the ints. -/
structure Cfg where
  policyModel : Str := "Static,policy=0".toList
  collective : Bool := false
  localTraining : Bool := true
  single : Bool := false
  regionModel : Bool := true
  globalPeriod : ℤ := 0
  perRegionPeriod : ℤ := 0
  storeModels : Bool := false
  retrain : Bool := false
  traceCsv : Bool := false
  persistent : Bool := false
  storeExecInfo : Bool := false
  tracePolicy : Bool := false
  traceBest : Bool := false
  traceAllgather : Bool := false
  outputDir : Str := ".apollo".toList
  datasetsDir : Str := "datasets".toList
  tracesDir : Str := "traces".toList
  modelsDir : Str := "models".toList
  deriving DecidableEq

/-- include/apollo/Region.h:25-30 with the two readings of the synchronous timer
(src/timers/TimerSync.h: not initialised by the constructor).  `policy` is zero at first since the
contexts are value-initialised (Region.cpp:259, 448). -/
structure Ctx where
  features : Features := []
  policy : ℤ := 0
  idx : ℕ := 0
  start : Option ℚ := none
  stop : Option ℚ := none
  deriving DecidableEq

/-- include/apollo/Region.h:32-101 without `model` and the features of the embedded context, which are
in `World.models` and `World.ctxs`. -/
structure Region where
  name : Str
  numFeatures : ℤ
  numPolicies : ℤ
  minTraining : ℤ
  modelInfo : Str
  modelName : Str
  params : Params
  dataset : Dataset := []
  idx : ℤ := 0
  current : Option CtxPtr := none
  pending : List CtxPtr := []
  /-- contents of the trace file -/
  trace : Str := []
  deriving DecidableEq

/-- The virtual functions of `PolicyModel` and the factory.  The first argument of `create` and
`train` is the tick. -/
structure ModelOps (M : Type) where
  create : ℕ → Str → ℤ → ℤ → Params → Res M
  name : M → Str
  isTrainable : M → Bool
  getIndex : M → Features → Res (ℤ × M)
  train : ℕ → Dataset → M → Res M
  load : Option Str → M → Res M
  store : M → Res (Option Str)

/-- What `isDone` of an asynchronous timer answers (src/timers/TimerCudaAsync.cpp:49-64): not yet, done
with a metric, or the call of the runtime failed. -/
inductive TimerAns
  | waiting
  | done (metric : ℚ)
  | failed
  deriving DecidableEq

/-- What surrounds the library. -/
structure Env (M : Type) where
  ops : ModelOps M
  /-- `apollo->mpiRank` -/
  rank : ℤ := 0
  /-- asynchronous timing is available (ENABLE_CUDA or ENABLE_HIP) -/
  async : Bool := true
  /-- CLOCK_MONOTONIC: seconds and nanoseconds -/
  clock : ℕ → ℤ × ℤ := fun _ => (0, 0)
  /-- system clock in microseconds -/
  wall : ℕ → ℤ := fun _ => 0
  /-- answer of the asynchronous timer of a context, given the tick, the events so far and the number
  of the context -/
  poll : ℕ → List Ev → ℕ → TimerAns := fun _ _ _ => .waiting
  /-- whether a file can be opened for writing -/
  canWrite : Str → Bool := fun _ => true

/-- The state of the process. -/
structure World (M : Type) where
  cfg : Cfg
  /-- live `Region` objects -/
  regions : ℕ → Option Region := fun _ => none
  /-- the objects owned by the members `model` -/
  models : ℕ → Option M := fun _ => none
  nextRegion : ℕ := 0
  /-- live contexts -/
  ctxs : CtxPtr → Option Ctx := fun _ => none
  nextCtx : ℕ := 0
  /-- `Apollo::regions` -/
  registry : OMap Str ℕ := []
  /-- `Apollo::region_executions` (its wrap-around at 2^64 is not modelled) -/
  executions : ℕ := 0
  /-- number of requests to clocks, timers and generators so far -/
  tick : ℕ := 0
  /-- the file system -/
  files : Str → Option Str := fun _ => none
  /-- contents of `gtrace_file` -/
  gtrace : Str := []
  /-- observable events so far -/
  log : List Ev := []

variable {M : Type}

namespace World

/-- Access to a region object. -/
def region (w : World M) (r : ℕ) : Res Region :=
  match w.regions r with
  | some R => .ok R
  | none => .error (.ub .dangling)

/-- Access to the model of a region. -/
def model (w : World M) (r : ℕ) : Res M :=
  match w.models r with
  | some m => .ok m
  | none => .error (.ub .dangling)

/-- Access to a context. -/
def ctx (w : World M) (c : CtxPtr) : Res Ctx :=
  match w.ctxs c with
  | some C => .ok C
  | none => .error (.ub .dangling)

/-- Assignment to a region object. -/
def setRegion (w : World M) (r : ℕ) (R : Region) : World M :=
  { w with regions := Function.update w.regions r (some R) }

/-- Assignment to a model object. -/
def setModel (w : World M) (r : ℕ) (m : M) : World M :=
  { w with models := Function.update w.models r (some m) }

/-- Assignment to a context. -/
def setCtx (w : World M) (c : CtxPtr) (C : Ctx) : World M :=
  { w with ctxs := Function.update w.ctxs c (some C) }

/-- Append an event. -/
def emit (w : World M) (e : Ev) : World M := { w with log := w.log ++ [e] }

/-- One more request to the surroundings. -/
def advance (w : World M) : World M := { w with tick := w.tick + 1 }

/-- Write a file through a `std::ofstream`; nothing happens if it cannot be opened. -/
def write (w : World M) (env : Env M) (path : Str) (s : Option Str) : World M :=
  match s with
  | none => w
  | some s =>
    if env.canWrite path then { w with files := Function.update w.files path (some s) } else w

/-- Append to a file through a `std::ofstream` opened with `std::ofstream::app`. -/
def append (w : World M) (env : Env M) (path : Str) (s : Str) : World M :=
  w.write env path (some ((w.files path).getD [] ++ s))

end World

/-- `int` conversion of an `unsigned long long` (Region.cpp:498). -/
def toInt32 (n : ℕ) : ℤ := if n % 2 ^ 32 < 2 ^ 31 then n % 2 ^ 32 else n % 2 ^ 32 - 2 ^ 32

/-- Region.cpp:92-95: path of the model stored at a step. -/
def stepPath (cfg : Cfg) (rank : ℤ) (modelName : Str) (step : ℤ) (region : Str) : Str :=
  cfg.outputDir ++ "/".toList ++ cfg.modelsDir ++ "/".toList ++ modelName ++ "-step-".toList ++
    fmtInt step ++ "-rank-".toList ++ fmtInt rank ++ "-".toList ++ region ++ ".yaml".toList

/-- Region.cpp:96-100: path of the model stored last. -/
def storePath (cfg : Cfg) (rank : ℤ) (modelName : Str) (region : Str) : Str :=
  cfg.outputDir ++ "/".toList ++ cfg.modelsDir ++ "/".toList ++ modelName ++
    ("-latest".toList ++ "-rank-".toList) ++ fmtInt rank ++ "-".toList ++ region ++ ".yaml".toList

/-- Region.cpp:299-302: path of the model to load for the bare parameter `load`. -/
def loadPath (cfg : Cfg) (rank : ℤ) (modelName : Str) (region : Str) : Str :=
  cfg.outputDir ++ "/".toList ++ cfg.modelsDir ++ "/".toList ++ modelName ++
    "-latest-rank-".toList ++ fmtInt rank ++ "-".toList ++ region ++ ".yaml".toList

/-- Region.cpp:317-319, 330-332, 365-367, 416-418: path of the dataset of a region. -/
def datasetPath (cfg : Cfg) (region : Str) : Str :=
  cfg.outputDir ++ "/".toList ++ cfg.datasetsDir ++ "/Dataset-".toList ++ region ++ ".yaml".toList

/-- Region.cpp:350-351. -/
def optimalPath (rank : ℤ) (region : Str) : Str :=
  "opt-".toList ++ region ++ "-rank-".toList ++ fmtInt rank ++ ".txt".toList

/-- Region.cpp:130-131: path of the trace of the policies. -/
def policiesPath (rank : ℤ) : Str := "rank-".toList ++ fmtInt rank ++ "-policies.txt".toList

/-- Region.cpp:72-74: path of the best policies of a region. -/
def bestPath (rank : ℤ) (step : ℤ) (region : Str) : Str :=
  "step-".toList ++ fmtInt step ++ "-rank-".toList ++ fmtInt rank ++ "-".toList ++ region ++
    "-best_policies.txt".toList

/-! ## Traces of the policies -/

/-- `(int)f`: the fraction is discarded; undefined if the result is not an int. -/
def floatToInt (x : ℚ) : Res ℤ :=
  let n := x.num.tdiv x.den
  if -2 ^ 31 ≤ n ∧ n < 2 ^ 31 then .ok n else .error (.ub .overflow)

/-- Region.cpp:66-67, 126-127: features as integers. -/
def intColumns : Features → Res Str
  | [] => .ok []
  | f :: fs => do
    let n ← floatToInt f
    let s ← intColumns fs
    .ok (fmtInt n ++ ", ".toList ++ s)

/-- Region.cpp:64-70: a line for each feature vector. -/
def bestLines : List (Features × ℤ × ℚ) → Res Str
  | [] => .ok []
  | (f, p, x) :: bs => do
    let s ← intColumns f
    let t ← bestLines bs
    .ok ("[ ".toList ++ s ++ "] P:".toList ++ fmtInt p ++ " T: ".toList ++ fmtG6 x ++ "\n".toList ++ t)

/-- Region.cpp:55-70: the text of the best policies. -/
def bestText (rank : ℤ) (region : Str) (ds : Dataset) : Res Str := do
  let s ← bestLines ds.findMinMetricPolicyByFeatures.2.2
  .ok ("=== Rank ".toList ++ fmtInt rank ++ " BEST POLICIES Region ".toList ++ region ++
    " ===\n".toList ++ s)

/-- Region.cpp:53-77: APOLLO_TRACE_BEST_POLICIES. -/
def traceBest (env : Env M) (w : World M) (R : Region) (step : ℤ) : Res (World M) :=
  if w.cfg.traceBest then do
    let s ← bestText env.rank R.name R.dataset
    .ok (w.write env (bestPath env.rank step R.name) (some s))
  else .ok w

/-- Region.cpp:124-128: a line for a chosen policy. -/
def policyLine (rank : ℤ) (region model : Str) (features : Features) (choice : ℤ) : Res Str := do
  let s ← intColumns features
  .ok ("Rank ".toList ++ fmtInt rank ++ " region ".toList ++ region ++ " model ".toList ++ model ++
    " features [ ".toList ++ s ++ "] policy ".toList ++ fmtInt choice ++ "\n".toList)

/-- Region.cpp:120-134: APOLLO_TRACE_POLICY. -/
def tracePolicy (env : Env M) (w : World M) (R : Region) (m : M) (features : Features) (choice : ℤ) :
    Res (World M) :=
  if w.cfg.tracePolicy then do
    let s ← policyLine env.rank R.name (env.ops.name m) features choice
    .ok (w.append env (policiesPath env.rank) s)
  else .ok w

/-! ## Training -/

/-- Region.cpp:48-113: `Region::train` after the checks and the collection of pending contexts. -/
def trainBody (env : Env M) (w : World M) (r : ℕ) (step : ℤ) : Res (World M) := do
  let R ← w.region r
  if R.dataset.size = 0 then .ok w
  else if !w.cfg.regionModel then .error .throw
  else do
    let w ← traceBest env w R step
    let m ← w.model r
    let m' ← env.ops.train w.tick R.dataset m
    let w := ((w.setModel r m').advance).emit (.trained r R.dataset)
    if w.cfg.retrain then .error .throw
    else if w.cfg.storeModels then do
      let s ← env.ops.store m'
      let w := w.write env (stepPath w.cfg env.rank (env.ops.name m') step R.name) s
      .ok (w.write env (storePath w.cfg env.rank (env.ops.name m') R.name) s)
    else .ok w

/-- Region.cpp:38-114 with `doCollectPendingContexts = false`. -/
def trainNoCollect (env : Env M) (w : World M) (r : ℕ) (step : ℤ) (force : Bool) :
    Res (World M) := do
  let m ← w.model r
  if !force && !env.ops.isTrainable m then .ok w else trainBody env w r step

/-- Apollo.cpp:488-494: merge the datasets of the given regions. -/
def mergeDatasets (w : World M) : List ℕ → Dataset → Res Dataset
  | [], acc => .ok acc
  | r :: rs, acc => do
    let R ← w.region r
    mergeDatasets w rs (acc.merge R.dataset)

/-- Apollo.cpp:499-504: train the model of each region with the merged data. -/
def trainAllWith (env : Env M) (ds : Dataset) : List ℕ → World M → Res (World M)
  | [], w => .ok w
  | r :: rs, w => do
    let _ ← w.region r
    let m ← w.model r
    let m' ← env.ops.train w.tick ds m
    trainAllWith env ds rs (((w.setModel r m').advance).emit (.trained r ds))

/-- A loop `for (auto &it : regions) body(it.second)`. -/
def forRegions (body : World M → ℕ → Res (World M)) : List ℕ → World M → Res (World M)
  | [], w => .ok w
  | r :: rs, w => do
    let w ← body w r
    forRegions body rs w

/-- Apollo.cpp:475-512; `trainOne` is `reg->train(step, doCollectPendingContexts)`.  Collective
training without MPI throws (Apollo.cpp:466-468). -/
def apolloTrainWith (env : Env M) (trainOne : World M → ℕ → Res (World M)) (w : World M) :
    Res (World M) :=
  if w.cfg.collective then .error .throw
  else if w.cfg.single then do
    let ds ← mergeDatasets w (w.registry.map Prod.snd) []
    trainAllWith env ds (w.registry.map Prod.snd) w
  else forRegions trainOne (w.registry.map Prod.snd) w

/-- Accessing the region through the registry, then `Region::train` without collection. -/
def trainNoCollectOf (env : Env M) (step : ℤ) (w : World M) (r : ℕ) : Res (World M) := do
  let _ ← w.region r
  trainNoCollect env w r step false

/-- Apollo.cpp:475-512 with `doCollectPendingContexts = false`. -/
def apolloTrainNoCollect (env : Env M) (w : World M) (step : ℤ) : Res (World M) :=
  apolloTrainWith env (trainNoCollectOf env step) w

/-- Region.cpp:492-505.  `region_executions % APOLLO_GLOBAL_TRAIN_PERIOD` converts the period to
`unsigned long long`; `idx % period` is the remainder of ints. -/
def autoTrain (env : Env M) (w : World M) (r : ℕ) : Res (World M) := do
  let R ← w.region r
  let m ← w.model r
  if !env.ops.isTrainable m then .ok w
  else if w.cfg.globalPeriod ≠ 0 ∧ w.executions % (w.cfg.globalPeriod % 2 ^ 64).toNat = 0 then
    apolloTrainNoCollect env w (toInt32 w.executions)
  else if w.cfg.perRegionPeriod ≠ 0 ∧ R.idx.tmod w.cfg.perRegionPeriod = 0 then
    trainNoCollect env w r R.idx false
  else if 0 < R.minTraining ∧ R.minTraining ≤ R.dataset.size then
    trainNoCollect env w r R.idx false
  else .ok w

/-! ## Collecting executions -/

/-- Region.cpp:513-515: a row of the global trace. -/
def gtraceRow (ts : ℤ) (R : Region) (C : Ctx) : Str :=
  fmtInt ts ++ " ".toList ++ R.name ++ " ".toList ++ fmtInt C.idx ++ " ".toList ++ R.modelName ++
    " ".toList ++ " ".toList ++ fmtInt C.policy ++ "\n".toList

/-- Region.cpp:517-524: a row of the trace of the region. -/
def traceRow (rank : ℤ) (modelName : Str) (R : Region) (C : Ctx) (metric : ℚ) : Str :=
  fmtInt rank ++ " ".toList ++ (modelName ++ " ".toList) ++ (R.name ++ " ".toList) ++
    (fmtInt C.idx ++ " ".toList) ++ (C.features.map fun f => fmtG6 f ++ " ".toList).flatten ++
    (fmtInt C.policy ++ " ".toList) ++ (fmtG6 metric ++ "\n".toList)

/-- Region.cpp:510-530: trace rows, insertion into the dataset (which moves the features out of the
context, Dataset.cpp:32) and the execution count. -/
def record (env : Env M) (w : World M) (r : ℕ) (R : Region) (m : M) (c : CtxPtr) (C : Ctx)
    (metric : ℚ) : World M :=
  let w := if w.cfg.traceCsv then { w with gtrace := w.gtrace ++ gtraceRow (env.wall w.tick) R C }
    else w
  let R := if w.cfg.traceCsv then
      { R with trace := R.trace ++ traceRow env.rank (env.ops.name m) R C metric }
    else R
  let w := if w.cfg.persistent || env.ops.isTrainable m then
      (w.setRegion r { R with dataset := R.dataset.insert C.features C.policy metric }).setCtx c
        { C with features := [] }
    else w.setRegion r R
  { w with executions := w.executions + 1 }

/-- Region.cpp:430-435: contexts other than the embedded one are deleted. -/
def destroyContext (w : World M) (r : ℕ) (c : CtxPtr) : Res (World M) :=
  if c = .sync r then .ok w
  else
    match c with
    | .sync _ => .error (.ub .dangling)
    | .heap n => do
      let _ ← w.ctx (.heap n)
      .ok { w with ctxs := Function.update w.ctxs (.heap n) none }

/-- Region.cpp:507-536. -/
def collectContext (env : Env M) (w : World M) (r : ℕ) (c : CtxPtr) (metric : ℚ) :
    Res (World M) := do
  let R ← w.region r
  let m ← w.model r
  let C ← w.ctx c
  let w := record env w r R m c C metric
  let w ← autoTrain env w r
  let w ← destroyContext w r c
  let R ← w.region r
  .ok (w.setRegion r { R with current := none })

/-- TimerSync.cpp:12-24: a reading of the clock as double. -/
def seconds (t : ℤ × ℤ) : ℚ := rnd64 (rnd64 t.1 + rnd64 (t.2 / 10 ^ 9))

/-- TimerSync.cpp:26-30; the members are not initialised before `start` and `stop`. -/
def syncMetric (C : Ctx) : Res ℚ :=
  match C.start, C.stop with
  | some a, some b => .ok (rnd64 (b - a))
  | _, _ => .error (.ub .uninit)

/-- Region.cpp:551-561: the predicate, applied to one pending context: whether it was collected.  A
failed call of the runtime ends the process (TimerCudaAsync.cpp:58). -/
def tryCollect (env : Env M) (w : World M) (r : ℕ) (c : CtxPtr) : Res (Bool × World M) := do
  let C ← w.ctx c
  match c with
  | .sync _ => do
    let metric ← syncMetric C
    let w ← collectContext env (w.emit (.finished r c metric)) r c metric
    .ok (true, w)
  | .heap n =>
    match env.poll w.tick w.log n with
    | .waiting => .ok (false, (w.advance).emit (.waiting c))
    | .done metric => do
      let w ← collectContext env ((w.advance).emit (.finished r c metric)) r c metric
      .ok (true, w)
    | .failed => .error .abort

/-- Region.cpp:563-566: `std::remove_if` applies the predicate once to each element in order; the
result are the elements kept. -/
def collectLoop (env : Env M) (r : ℕ) : List CtxPtr → World M → Res (List CtxPtr × World M)
  | [], w => .ok ([], w)
  | c :: cs, w => do
    let (done, w) ← tryCollect env w r c
    let (kept, w) ← collectLoop env r cs w
    .ok (if done then kept else c :: kept, w)

/-- Region.cpp:549-567. -/
def collectPending (env : Env M) (w : World M) (r : ℕ) : Res (World M) := do
  let R ← w.region r
  let (kept, w) ← collectLoop env r R.pending w
  let R ← w.region r
  .ok (w.setRegion r { R with pending := kept })

/-- Region.cpp:38-114. -/
def regionTrain (env : Env M) (w : World M) (r : ℕ) (step : ℤ) (collect force : Bool) :
    Res (World M) := do
  let _ ← w.region r
  let m ← w.model r
  if !force && !env.ops.isTrainable m then .ok w
  else (if collect then collectPending env w r else .ok w) >>= fun w => trainBody env w r step

/-- Apollo.cpp:475-512. -/
def apolloTrain (env : Env M) (w : World M) (step : ℤ) (collect : Bool) : Res (World M) :=
  apolloTrainWith env (fun w r => regionTrain env w r step collect false) w

/-! ## The interface of regions -/

/-- Region.h:35: kinds of timing. -/
inductive TimingKind
  | sync
  | async
  deriving DecidableEq

/-- Region.cpp:437-466: the context and the world in which it exists. -/
def createContext (env : Env M) (w : World M) (r : ℕ) (kind : TimingKind) :
    Res (CtxPtr × World M) :=
  match kind with
  | .sync => do
    let C ← w.ctx (.sync r)
    .ok (.sync r, w.setCtx (.sync r) { C with features := [] })
  | .async =>
    if !env.async then .error .abort
    else .ok (.heap w.nextCtx, { w.setCtx (.heap w.nextCtx) {} with nextCtx := w.nextCtx + 1 })

/-- Region.cpp:468-483. -/
def begin (env : Env M) (w : World M) (r : ℕ) (kind : TimingKind) : Res (CtxPtr × World M) := do
  let _ ← w.region r
  let (c, w) ← createContext env w r kind
  let R ← w.region r
  let C ← w.ctx c
  if R.idx + 1 < 2 ^ 31 then
    let w := w.setRegion r { R with current := some c, idx := R.idx + 1 }
    let w := (w.setCtx c { C with idx := R.idx.toNat, start := some (seconds (env.clock w.tick)) }).advance
    .ok (c, w.emit (.began r c))
  else .error (.ub .overflow)

/-- Region.cpp:485-490. -/
def beginWith (env : Env M) (w : World M) (r : ℕ) (f : Features) : Res (CtxPtr × World M) := do
  let (c, w) ← begin env w r .sync
  let C ← w.ctx c
  .ok (c, (w.setCtx c { C with features := f }).emit (.assigned c f))

/-- Region.cpp:594-598. -/
def setFeature (w : World M) (c : CtxPtr) (v : ℚ) : Res (World M) := do
  let C ← w.ctx c
  .ok ((w.setCtx c { C with features := C.features ++ [v] }).emit (.feature c v))

/-- Region.cpp:116-151. -/
def getPolicyIndex (env : Env M) (w : World M) (r : ℕ) (c : CtxPtr) : Res (ℤ × World M) := do
  let R ← w.region r
  let m ← w.model r
  let C ← w.ctx c
  let (choice, m) ← env.ops.getIndex m C.features
  let w ← tracePolicy env w R m C.features choice
  .ok (choice, ((w.setModel r m).setCtx c { C with policy := choice }).emit (.chose r c choice))

/-- Region.cpp:538-547. -/
def endMetric (env : Env M) (w : World M) (r : ℕ) (c : CtxPtr) (metric : ℚ) : Res (World M) := do
  let w ← collectContext env (w.emit (.finished r c metric)) r c metric
  collectPending env w r

/-- Region.cpp:569-580. -/
def endCtx (env : Env M) (w : World M) (r : ℕ) (c : CtxPtr) : Res (World M) := do
  let R ← w.region r
  let C ← w.ctx c
  let C := { C with stop := some (seconds (env.clock w.tick)) }
  let w := (w.setCtx c C).advance
  if c = .sync r then do
    let metric ← syncMetric C
    collectContext env (w.emit (.finished r c metric)) r c metric
  else
    collectPending env ((w.setRegion r { R with pending := R.pending ++ [c] }).emit (.ended r c)) r

/-- The context used by the functions without context argument (a null pointer otherwise). -/
def currentCtx (w : World M) (r : ℕ) : Res CtxPtr := do
  let R ← w.region r
  match R.current with
  | some c => .ok c
  | none => .error (.ub .dangling)

/-! ## Construction and destruction -/

/-- Region.cpp:294: load the model given by file name. -/
def loadYaml (env : Env M) (w : World M) (yaml : Str) (m : M) : Res M :=
  if yaml = [] then .ok m else env.ops.load (w.files yaml) m

/-- Region.cpp:296-313: load the model for the parameter `load`. -/
def loadModel (env : Env M) (w : World M) (name modelName : Str) (params : Params) (m : M) :
    Res M :=
  match params.find "load".toList with
  | none => .ok m
  | some v =>
    let path := if v = [] then loadPath w.cfg env.rank modelName name else v
    match w.files path with
    | none => .error .abort
    | some s => env.ops.load (some s) m

/-- Region.cpp:320-322: load a dataset if the file exists. -/
def loadIfExists (ds : Dataset) : Option Str → Res Dataset
  | none => .ok ds
  | some s => ds.load s

/-- Region.cpp:315-327: persistent datasets. -/
def loadPersistent (env : Env M) (w : World M) (r : ℕ) : Res (World M) :=
  if !w.cfg.persistent then .ok w
  else do
    let R ← w.region r
    let ds ← loadIfExists R.dataset (w.files (datasetPath w.cfg R.name))
    autoTrain env (w.setRegion r { R with dataset := ds }) r

/-- Region.cpp:329-347: the parameter `load-dataset`. -/
def loadDatasetParam (env : Env M) (w : World M) (r : ℕ) : Res (World M) := do
  let R ← w.region r
  match R.params.find "load-dataset".toList with
  | none => .ok w
  | some _ =>
    match w.files (datasetPath w.cfg R.name) with
    | none => .error .abort
    | some s => do
      let ds ← R.dataset.load s
      if ds.size = 0 then .error .abort
      else regionTrain env (w.setRegion r { R with dataset := ds }) r 0 true false

/-- Region.cpp:349-360: the file of the model Optimal. -/
def loadOptimalFile (env : Env M) (w : World M) (r : ℕ) : Res (World M) := do
  let R ← w.region r
  if R.modelName = "Optimal".toList then
    match w.files (optimalPath env.rank R.name) with
    | none => .error .abort
    | some s => do
      let m ← w.model r
      let m ← env.ops.load (some s) m
      .ok (w.setModel r m)
  else .ok w

/-- Region.cpp:362-381: the dataset of the model DatasetMap. -/
def loadDatasetMap (env : Env M) (w : World M) (r : ℕ) : Res (World M) := do
  let R ← w.region r
  if R.modelName = "DatasetMap".toList then
    match w.files (datasetPath w.cfg R.name) with
    | none => .error .abort
    | some s => do
      let ds ← R.dataset.load s
      if ds.size = 0 then .error .abort
      else do
        let m ← w.model r
        let m ← env.ops.train w.tick ds m
        .ok ((((w.setRegion r { R with dataset := ds }).setModel r m).advance).emit (.trained r ds))
  else .ok w

/-- Region.cpp:396-399: the names of the feature columns. -/
def headerColumns : ℕ → Str
  | 0 => []
  | n + 1 => headerColumns n ++ " f".toList ++ fmtInt n

/-- Region.cpp:394-400: the first line of the trace. -/
def traceHeader (numFeatures : ℤ) : Str :=
  "rankid training region idx".toList ++ headerColumns numFeatures.toNat ++ " policy xtime\n".toList

/-- Region.cpp:384-387: name of the trace of a region. -/
def tracePath (cfg : Cfg) (rank : ℤ) (info region : Str) : Str :=
  cfg.outputDir ++ "/".toList ++ cfg.tracesDir ++ "/trace-".toList ++ info ++ "-region-".toList ++
    region ++ "-rank-".toList ++ fmtInt rank ++ ".csv".toList

/-- Region.cpp:383-401: start the trace.  (Regions with the same trace file overwrite each other's
rows; here each has contents of its own.) -/
def startTrace (env : Env M) (w : World M) (r : ℕ) : Res (World M) := do
  let R ← w.region r
  if w.cfg.traceCsv then
    if env.canWrite (tracePath w.cfg env.rank R.modelInfo R.name) then
      .ok (w.setRegion r { R with trace := traceHeader R.numFeatures })
    else .error .abort
  else .ok w

/-- Region.cpp:247-292: the members and the model, before anything is loaded. -/
def constructRegion (env : Env M) (w : World M) (numFeatures : ℤ) (name : Str)
    (numPolicies minTraining : ℤ) (info yaml : Str) : Res (ℕ × World M) := do
  let name := truncName name
  let info := if info = [] then w.cfg.policyModel else info
  let (modelName, params) ← parsePolicyModel info
  let (modelName, params, info) ← resolveStaticRegion name modelName params info
  let m ← env.ops.create w.tick modelName numFeatures numPolicies params
  let m ← loadYaml env w yaml m
  let m ← loadModel env w name modelName params m
  let r := w.nextRegion
  let R : Region := { name, numFeatures, numPolicies, minTraining, modelInfo := info, modelName, params }
  .ok (r, (((({ w with nextRegion := r + 1 } : World M).setRegion r R).setModel r m).setCtx
    (.sync r) {}).advance)

/-- Region.cpp:247-405. -/
def createRegion (env : Env M) (w : World M) (numFeatures : ℤ) (name : Str)
    (numPolicies minTraining : ℤ) (info yaml : Str) : Res (ℕ × World M) := do
  let (r, w) ← constructRegion env w numFeatures name numPolicies minTraining info yaml
  let w ← loadPersistent env w r
  let w ← loadDatasetParam env w r
  let w ← loadOptimalFile env w r
  let w ← loadDatasetMap env w r
  let w ← startTrace env w r
  let R ← w.region r
  let m ← w.model r
  .ok (r, ({ w with registry := OMap.insertNew R.name r w.registry } : World M).emit
    (.created r R.dataset (env.ops.isTrainable m)))

/-- Region.cpp:411-412: the loop of the destructor; `fuel` bounds the number of rounds waited. -/
def drain (env : Env M) (r : ℕ) : ℕ → World M → Res (World M)
  | 0, w => do
    let R ← w.region r
    if R.pending = [] then .ok w else .error .diverge
  | fuel + 1, w => do
    let R ← w.region r
    if R.pending = [] then .ok w
    else do
      let w ← collectPending env w r
      drain env r fuel w

/-- Region.cpp:407-428.  The registry keeps its pointer to the region. -/
def destroyRegion (env : Env M) (w : World M) (r : ℕ) (fuel : ℕ) : Res (World M) := do
  let _ ← w.region r
  let w := { w with cfg := { w.cfg with globalPeriod := 0 } }
  let w ← drain env r fuel w
  let R ← w.region r
  let w := if w.cfg.persistent then
      w.write env (datasetPath w.cfg R.name) (some R.dataset.store) else w
  .ok (({ w with
      regions := Function.update w.regions r none
      models := Function.update w.models r none
      ctxs := Function.update w.ctxs (.sync r) none } : World M).emit (.destroyed r))

/-- Apollo.cpp:242-253: the lines of `apollo_exec_info.csv`. -/
def execInfo (w : World M) : List ℕ → Res Str
  | [] => .ok []
  | r :: rs => do
    let R ← w.region r
    let s ← execInfo w rs
    .ok (R.name ++ ", ".toList ++ fmtInt R.idx ++ "\n".toList ++ s)

/-- Apollo.cpp:242-253. -/
def writeExecInfo (env : Env M) (w : World M) : Res (World M) :=
  if w.cfg.storeExecInfo then do
    let s ← execInfo w (w.registry.map Prod.snd)
    .ok (w.write env (w.cfg.outputDir ++ "/".toList ++ "apollo_exec_info.csv".toList) (some s))
  else .ok w

/-- Apollo.cpp:240-262: the destructor of the singleton. -/
def shutdown (env : Env M) (w : World M) (fuel : ℕ) : Res (World M) := do
  let w ← writeExecInfo env w
  forRegions (fun w r => destroyRegion env w r fuel) (w.registry.map Prod.snd) w

/-! ## Programs -/

/-- The calls a program makes. -/
inductive Op
  | create (numFeatures : ℤ) (name : Str) (numPolicies minTraining : ℤ) (info yaml : Str)
  | destroy (r : ℕ) (fuel : ℕ)
  | begin (r : ℕ) (kind : TimingKind)
  | beginWith (r : ℕ) (f : Features)
  | setFeature (r : ℕ) (c : CtxPtr) (v : ℚ)
  | getPolicyIndex (r : ℕ) (c : CtxPtr)
  | endMetric (r : ℕ) (c : CtxPtr) (metric : ℚ)
  | endCtx (r : ℕ) (c : CtxPtr)
  /-- the functions without context argument, Region.cpp:582-604 -/
  | setFeatureCur (r : ℕ) (v : ℚ)
  | getPolicyIndexCur (r : ℕ)
  | endMetricCur (r : ℕ) (metric : ℚ)
  | endCur (r : ℕ)
  | collect (r : ℕ)
  | train (r : ℕ) (step : ℤ) (collect force : Bool)
  | trainAll (step : ℤ) (collect : Bool)

/-- What a call returns. -/
inductive Ret
  | unit
  | region (r : ℕ)
  | ctx (c : CtxPtr)
  | policy (p : ℤ)
  deriving DecidableEq

/-- One call. -/
def step (env : Env M) (w : World M) : Op → Res (Ret × World M)
  | .create nf name n mt info yaml => do
    let (r, w) ← createRegion env w nf name n mt info yaml
    .ok (.region r, w)
  | .destroy r fuel => do
    let w ← destroyRegion env w r fuel
    .ok (.unit, w)
  | .begin r kind => do
    let (c, w) ← begin env w r kind
    .ok (.ctx c, w)
  | .beginWith r f => do
    let (c, w) ← beginWith env w r f
    .ok (.ctx c, w)
  | .setFeature _ c v => do
    let w ← setFeature w c v
    .ok (.unit, w)
  | .getPolicyIndex r c => do
    let (p, w) ← getPolicyIndex env w r c
    .ok (.policy p, w)
  | .endMetric r c m => do
    let w ← endMetric env w r c m
    .ok (.unit, w)
  | .endCtx r c => do
    let w ← endCtx env w r c
    .ok (.unit, w)
  | .setFeatureCur r v => do
    let c ← currentCtx w r
    let w ← setFeature w c v
    .ok (.unit, w)
  | .getPolicyIndexCur r => do
    let c ← currentCtx w r
    let (p, w) ← getPolicyIndex env w r c
    .ok (.policy p, w)
  | .endMetricCur r m => do
    let c ← currentCtx w r
    let w ← endMetric env w r c m
    .ok (.unit, w)
  | .endCur r => do
    let c ← currentCtx w r
    let w ← endCtx env w r c
    .ok (.unit, w)
  | .collect r => do
    let w ← collectPending env w r
    .ok (.unit, w)
  | .train r s collect force => do
    let w ← regionTrain env w r s collect force
    .ok (.unit, w)
  | .trainAll s collect => do
    let w ← apolloTrain env w s collect
    .ok (.unit, w)

/-- A program: the calls one after the other. -/
def exec (env : Env M) : List Op → World M → Res (World M)
  | [], w => .ok w
  | op :: ops, w => do
    let (_, w) ← step env w op
    exec env ops w

/-- The state after start-up (Apollo.cpp:120-238) with the given configuration and files. -/
def initWorld (cfg : Cfg) (files : Str → Option Str) : World M :=
  { cfg, files, gtrace := if cfg.traceCsv then
      "# timestamp (us), region, idx, model, policy\n".toList else [] }

end Apollo
