import Verif.Model.Collective

/-!
# Several ranks with collective training

Source: src/Apollo.cpp:331-512, src/Region.cpp:492-547, 569-604 (built with ENABLE_MPI).

Every rank is a process with a `World` of its own; what they share is the collective operation in
`Apollo::train`, at which a rank waits until all ranks have come to it.  Between these operations the
ranks proceed at any speed.  The ranks have the files they read and write to themselves
(Verif.Model.SharedFiles and C97 are about ranks that share the file system).

A rank comes to a collective training when the program calls `Apollo::train`, or when an execution
ends and the global training period is over.  The latter is modelled for executions the program ends
itself; an asynchronous execution found finished that makes the period end is not (the functions of
Verif.Model.Region, which are without MPI, throw).
-/

namespace Apollo.Ranks

open Apollo Apollo.Collective

variable {M : Type}

/-! ## The rest of the training -/

/-- Apollo.cpp:486-511: what `Apollo::train` does after the gathering; `trainOne` is
`reg->train(step, doCollectPendingContexts)`. -/
def trainRest (env : Env M) (trainOne : World M → ℕ → Res (World M)) (w : World M) : Res (World M) :=
  if w.cfg.single then do
    let ds ← mergeDatasets w (w.registry.map Prod.snd) []
    trainAllWith env ds (w.registry.map Prod.snd) w
  else forRegions trainOne (w.registry.map Prod.snd) w

/-! ## The gathering -/

/-- Apollo.cpp:335-352: what is used of the registered regions. -/
def viewOf (w : World M) : List (Str × ℕ) → Res Registry
  | [] => .ok []
  | (n, r) :: rs => do
    let R ← w.region r
    let regs ← viewOf w rs
    .ok ((n, ⟨R.numFeatures, R.dataset⟩) :: regs)

/-- The views of all ranks. -/
def views : List (World M) → Res (List Registry)
  | [] => .ok []
  | w :: ws => do
    let v ← viewOf w w.registry
    let vs ← views ws
    .ok (v :: vs)

/-- Apollo.cpp:335-432: the measurements every rank receives. -/
def received (mpi : Mpi) (ranks : List Registry) : Res (List Msg) := do
  let bufs ← sendAll mpi 0 ranks
  let recv := bufs.flatten
  if 2 ^ 31 ≤ recv.length then .error .unmodelled else unpackAll recv.length recv

/-- Apollo.cpp:444-453: the datasets of the registered regions after the insertions. -/
def putBack (regs : Registry) : List (Str × ℕ) → World M → Res (World M)
  | [], w => .ok w
  | (n, r) :: rs, w => do
    let R ← w.region r
    match OMap.find regs n with
    | none => putBack regs rs w
    | some L => putBack regs rs (w.setRegion r { R with dataset := L.dataset })

/-- Apollo.cpp:434-442: the line of a measurement in the trace of APOLLO_TRACE_ALLGATHER. -/
def gatherLine (m : Msg) : Res Str := do
  let s ← intColumns m.features
  .ok (fmtInt m.rank ++ ", ".toList ++ m.name ++ ", ".toList ++ "[ ".toList ++ s ++ "], ".toList ++
    fmtInt m.policy ++ ", ".toList ++ fmtG6 m.metric ++ "\n".toList)

/-- Apollo.cpp:434-442: the lines of all measurements. -/
def gatherLines : List Msg → Res Str
  | [] => .ok []
  | m :: ms => do
    let s ← gatherLine m
    let t ← gatherLines ms
    .ok (s ++ t)

/-- Apollo.cpp:458-459: the name of the trace. -/
def gatherPath (step rank : ℤ) : Str :=
  "step-".toList ++ fmtInt step ++ "-rank-".toList ++ fmtInt rank ++ "-allgather.txt".toList

/-- Apollo.cpp:396-398, 434-442, 456-463: the trace of APOLLO_TRACE_ALLGATHER. -/
def traceGather (env : Env M) (step : ℤ) (ms : List Msg) (w : World M) : Res (World M) :=
  if w.cfg.traceAllgather then do
    let s ← gatherLines ms
    .ok (w.write env (gatherPath step env.rank)
      (some ("rank, region_name, features, policy, time_avg\n".toList ++ s)))
  else .ok w

/-! ## What a rank does -/

/-- Where in `Apollo::train` a rank waits. -/
inductive Wait
  /-- the program called `Apollo::train(step, collect)` -/
  | train (step : ℤ) (collect : Bool)
  /-- Region.cpp:498, called while the execution of region `r` with context `c` is collected; `pending`
  says whether `collectPendingContexts` follows -/
  | finish (step : ℤ) (r : ℕ) (c : CtxPtr) (pending : Bool)
  deriving DecidableEq

/-- The argument `step` of `Apollo::train`. -/
def Wait.step : Wait → ℤ
  | .train s _ => s
  | .finish s _ _ _ => s

/-- Region.cpp:494-498: whether collecting an execution of the region calls `Apollo::train`. -/
def globalDue (env : Env M) (w : World M) (r : ℕ) : Res Bool := do
  let m ← w.model r
  .ok (env.ops.isTrainable m && decide (w.cfg.globalPeriod ≠ 0 ∧
    w.executions % (w.cfg.globalPeriod % 2 ^ 64).toNat = 0))

/-- Region.cpp:507-547: `collectContext`, followed by `collectPendingContexts` if `pending`, up to a
collective training. -/
def collectCall (env : Env M) (w : World M) (r : ℕ) (c : CtxPtr) (metric : ℚ) (pending : Bool) :
    Res (World M × Option Wait) := do
  let R ← w.region r
  let m ← w.model r
  let C ← w.ctx c
  let w₁ := record env w r R m c C metric
  let due ← globalDue env w₁ r
  if w.cfg.collective && due then .ok (w₁, some (.finish (toInt32 w₁.executions) r c pending))
  else do
    let w ← collectContext env w r c metric
    let w ← if pending then collectPending env w r else .ok w
    .ok (w, none)

/-- Region.cpp:569-580 up to a collective training. -/
def endCall (env : Env M) (w : World M) (r : ℕ) (c : CtxPtr) : Res (World M × Option Wait) :=
  if c = .sync r then do
    let _ ← w.region r
    let C ← w.ctx c
    let C := { C with stop := some (seconds (env.clock w.tick)) }
    let metric ← syncMetric C
    collectCall env (((w.setCtx c C).advance).emit (.finished r c metric)) r c metric false
  else do
    let w ← endCtx env w r c
    .ok (w, none)

/-- A call of the program, up to a collective training. -/
def call (env : Env M) (w : World M) : Op → Res (World M × Option Wait)
  | .trainAll s c =>
    if w.cfg.collective then .ok (w, some (.train s c))
    else do
      let w ← apolloTrain env w s c
      .ok (w, none)
  | .endMetric r c m => collectCall env (w.emit (.finished r c m)) r c m true
  | .endMetricCur r m => do
    let c ← currentCtx w r
    collectCall env (w.emit (.finished r c m)) r c m true
  | .endCtx r c => endCall env w r c
  | .endCur r => do
    let c ← currentCtx w r
    endCall env w r c
  | op => do
    let (_, w) ← step env w op
    .ok (w, none)

/-- What follows the gathering in the call in which the rank waited. -/
def resume (env : Env M) (w : World M) : Wait → Res (World M)
  | .train s c => trainRest env (fun w r => regionTrain env w r s c false) w
  | .finish s r c pending => do
    let w ← trainRest env (trainNoCollectOf env s) w
    let w ← destroyContext w r c
    let R ← w.region r
    let w := w.setRegion r { R with current := none }
    if pending then collectPending env w r else .ok w

/-- A rank: its state, the calls it has still to make, and whether it waits in a collective
training. -/
structure Proc (M : Type) where
  world : World M
  todo : List Op
  wait : Option Wait := none

/-- All calls are made. -/
def Proc.Finished (p : Proc M) : Prop := p.todo = [] ∧ p.wait = none

/-- Apollo.cpp:434-463 and what follows, on rank `i`; `v` is the view of the rank. -/
def proceed (env : Env M) (ms : List Msg) (i : ℕ) (v : Registry) (p : Proc M) : Res (Proc M) :=
  match p.wait with
  | none => .ok p
  | some k => do
    let w ← traceGather env k.step ms p.world
    let w ← putBack (ms.foldl (absorb i) v) w.registry w
    let w ← resume env w k
    .ok { p with world := w, wait := none }

/-- All ranks from number `i` on. -/
def proceedAll (env : ℕ → Env M) (ms : List Msg) : ℕ → List Registry → List (Proc M) →
    Res (List (Proc M))
  | i, v :: vs, p :: ps => do
    let p ← proceed (env i) ms i v p
    let ps ← proceedAll env ms (i + 1) vs ps
    .ok (p :: ps)
  | _, _, _ => .ok []

/-- The collective training of all ranks. -/
def together (mpi : Mpi) (env : ℕ → Env M) (s : List (Proc M)) : Res (List (Proc M)) := do
  let vs ← views (s.map Proc.world)
  let ms ← received mpi vs
  proceedAll env ms 0 vs s

/-- What can happen next: a rank that does not wait makes its next call, or all ranks wait and train
together. -/
inductive Step (mpi : Mpi) (env : ℕ → Env M) : List (Proc M) → List (Proc M) → Prop
  | call {s : List (Proc M)} {i : ℕ} {p : Proc M} {op : Op} {ops : List Op} {w : World M}
      {k : Option Wait} : s[i]? = some p → p.wait = none → p.todo = op :: ops →
      call (env i) p.world op = .ok (w, k) → Step mpi env s (s.set i ⟨w, ops, k⟩)
  | train {s s' : List (Proc M)} : s ≠ [] → (∀ p ∈ s, p.wait ≠ none) →
      together mpi env s = .ok s' → Step mpi env s s'

/-- A run of the given length. -/
inductive Run (mpi : Mpi) (env : ℕ → Env M) : ℕ → List (Proc M) → List (Proc M) → Prop
  | refl (s : List (Proc M)) : Run mpi env 0 s s
  | step {n : ℕ} {s₁ s₂ s₃ : List (Proc M)} : Step mpi env s₁ s₂ → Run mpi env n s₂ s₃ →
      Run mpi env (n + 1) s₁ s₃

end Apollo.Ranks
