import Verif.Model.Region

/-!
# The two interfaces of regions (property C46)

A program is a list of calls that say what happens to which region, not on which context.  It can be
run in two ways: with the functions without context argument (Region.cpp:582-604, also the C
interface Apollo.cpp:514-556), or by keeping the context returned by `begin` and passing it.
-/

namespace Apollo.Spec

variable {M : Type}

/-- Calls of a program with synchronous executions only. -/
inductive Call
  | create (numFeatures : ℤ) (name : Str) (numPolicies minTraining : ℤ) (info yaml : Str)
  | destroy (r : ℕ) (fuel : ℕ)
  | start (r : ℕ)
  | startWith (r : ℕ) (f : Features)
  | feature (r : ℕ) (v : ℚ)
  | policy (r : ℕ)
  | finish (r : ℕ)
  | finishWith (r : ℕ) (metric : ℚ)
  | collect (r : ℕ)
  | train (r : ℕ) (step : ℤ) (collect force : Bool)
  | trainAll (step : ℤ) (collect : Bool)

/-- The call in the interface without contexts. -/
def Call.free : Call → Op
  | .create nf name n mt info yaml => .create nf name n mt info yaml
  | .destroy r fuel => .destroy r fuel
  | .start r => .begin r .sync
  | .startWith r f => .beginWith r f
  | .feature r v => .setFeatureCur r v
  | .policy r => .getPolicyIndexCur r
  | .finish r => .endCur r
  | .finishWith r m => .endMetricCur r m
  | .collect r => .collect r
  | .train r s c f => .train r s c f
  | .trainAll s c => .trainAll s c

/-- The call in the interface with contexts; `c` is the context the program keeps for the region. -/
def Call.withCtx (c : CtxPtr) : Call → Op
  | .feature r v => .setFeature r c v
  | .policy r => .getPolicyIndex r c
  | .finish r => .endCtx r c
  | .finishWith r m => .endMetric r c m
  | x => x.free

/-- The region on whose current execution the call acts. -/
def Call.uses : Call → Option ℕ
  | .feature r _ => some r
  | .policy r => some r
  | .finish r => some r
  | .finishWith r _ => some r
  | _ => none

/-- The region on which the call begins an execution. -/
def Call.starts : Call → Option ℕ
  | .start r => some r
  | .startWith r _ => some r
  | _ => none

/-- The region whose current execution the call ends. -/
def Call.stops : Call → Option ℕ
  | .finish r => some r
  | .finishWith r _ => some r
  | .destroy r _ => some r
  | _ => none

/-- Run a program without contexts: what the calls returned and the final state. -/
def runFree (env : Env M) : List Call → World M → Res (List Ret × World M)
  | [], w => .ok ([], w)
  | x :: xs, w => do
    let (a, w) ← step env w x.free
    let (as, w) ← runFree env xs w
    .ok (a :: as, w)

/-- What the program remembers after a call that returned `a`. -/
def remember (held : ℕ → Option CtxPtr) (x : Call) : Ret → ℕ → Option CtxPtr
  | .ctx c =>
    match x.starts with
    | some r => Function.update held r (some c)
    | none => held
  | _ => held

/-- Run a program that passes the contexts that `begin` returned last for the region. -/
def runHeld (env : Env M) : List Call → (ℕ → Option CtxPtr) → World M → Res (List Ret × World M)
  | [], _, w => .ok ([], w)
  | x :: xs, held, w => do
    let op ← match x.uses with
      | none => .ok x.free
      | some r =>
        match held r with
        | some c => .ok (x.withCtx c)
        | none => .error .unmodelled
    let (a, w) ← step env w op
    let (as, w) ← runHeld env xs (remember held x a) w
    .ok (a :: as, w)

/-- Which regions have an execution begun and not ended, after the call. -/
def Call.next (x : Call) (running : ℕ → Bool) (r : ℕ) : Bool :=
  if x.starts = some r then true else if x.stops = some r then false else running r

/-- Each call on the current execution of a region comes between the begin and the end of an
execution of this region. -/
def WellFormed : List Call → (ℕ → Bool) → Prop
  | [], _ => True
  | x :: xs, running => (∀ r, x.uses = some r → running r = true) ∧ WellFormed xs (x.next running)

/-! ## Which context the functions without context use -/

/-- The context of region `r` that the functions without context use, after one more event. -/
def latestNext (r : ℕ) (c : Option CtxPtr) : Ev → Option CtxPtr
  | .began r' c' => if r' = r then some c' else c
  | .finished r' _ _ => if r' = r then none else c
  | .created r' _ _ => if r' = r then none else c
  | _ => c

/-- It is the context that the last `begin` on the region returned, unless an execution of the region was
finished since. -/
def latest (r : ℕ) (h : List Ev) : Option CtxPtr := h.foldl (latestNext r) none

/-- The functions without context. -/
inductive FreeCall
  | setFeature (v : ℚ)
  | getPolicyIndex
  | endMetric (metric : ℚ)
  | finish

/-- The call on region `r` without a context. -/
def FreeCall.free (r : ℕ) : FreeCall → Op
  | .setFeature v => .setFeatureCur r v
  | .getPolicyIndex => .getPolicyIndexCur r
  | .endMetric m => .endMetricCur r m
  | .finish => .endCur r

/-- The same call with a context. -/
def FreeCall.held (r : ℕ) (c : CtxPtr) : FreeCall → Op
  | .setFeature v => .setFeature r c v
  | .getPolicyIndex => .getPolicyIndex r c
  | .endMetric m => .endMetric r c m
  | .finish => .endCtx r c

end Apollo.Spec
