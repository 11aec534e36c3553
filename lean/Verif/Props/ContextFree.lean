import Verif.Proofs.ContextFree
import Verif.Props.Region

/-!
# Property C46: the context-free interface is equivalent to the context interface
-/

namespace Apollo.Props

open Apollo Apollo.Spec

variable {M : Type}

/-- C46: a program with synchronous executions, each call between the begin and the end of an
execution of its region, has the same outcome (state, returned values, or error) whether it passes
the contexts returned by begin or none.  Executions of several regions may be nested or interleaved,
and regions may be created, trained and destroyed in between. -/
theorem C46_equivalent (env : Env M) (cfg : Cfg) (files : Str → Option Str) (calls : List Call)
    (h : WellFormed calls fun _ => false) :
    runHeld env calls (fun _ => none) (initWorld cfg files) =
      runFree env calls (initWorld cfg files) := by
  have hr : (initWorld cfg files : World M).regions = fun _ => none := rfl
  refine runHeld_eq (running := fun _ => false) ⟨?_, ?_, ?_⟩ ?_ h
  · intro r R h; rw [hr] at h; cases h
  · intro r R h; rw [hr] at h; cases h
  · intro r h; cases h
  · intro r h; cases h

/-- C46: it holds from any state without running executions and pending contexts, so a program may
change the interface between executions. -/
theorem C46_equivalent_from (env : Env M) (w : World M) (calls : List Call)
    (hp : ∀ r R, w.regions r = some R → R.pending = []) (hn : ∀ r R, w.regions r = some R → r < w.nextRegion)
    (h : WellFormed calls fun _ => false) :
    runHeld env calls (fun _ => none) w = runFree env calls w :=
  runHeld_eq ⟨hp, hn, by simp⟩ (by intro r h; cases h) h

/-- C46 for every program, with synchronous and asynchronous executions that may overlap: a call without
context is the call with the context that the last `begin` of the region returned, as long as no execution
of the region was finished since. -/
theorem C46_latest (env : Env M) (cfg : Cfg) (files : Str → Option Str) (ops : List Op) (w : World M)
    (h : exec env ops (initWorld cfg files) = .ok w) (r : ℕ) (R : Region) (hR : w.regions r = some R)
    (c : CtxPtr) (hc : latest r w.log = some c) (call : FreeCall) :
    step env w (call.free r) = step env w (call.held r c) := by
  have hl := (Newest.invariant env fun _ => True).exec (fun _ _ _ _ => trivial)
    (by intro r R h; cases h) h
  have h1 : currentCtx w r = .ok c := by
    unfold currentCtx
    rw [World.region_ok.2 hR]
    change (match R.current with | some c => _ | none => _) = _
    rw [hl r R hR, hc]
  cases call <;> simp [FreeCall.free, FreeCall.held, step, h1] <;> rfl

/-- C46: without such a context, the call dereferences a null pointer. -/
theorem C46_none (env : Env M) (cfg : Cfg) (files : Str → Option Str) (ops : List Op) (w : World M)
    (h : exec env ops (initWorld cfg files) = .ok w) (r : ℕ) (R : Region) (hR : w.regions r = some R)
    (hc : latest r w.log = none) (call : FreeCall) :
    step env w (call.free r) = .error (.ub .dangling) := by
  have hl := (Newest.invariant env fun _ => True).exec (fun _ _ _ _ => trivial)
    (by intro r R h; cases h) h
  have h1 : currentCtx w r = .error (.ub .dangling) := by
    unfold currentCtx
    rw [World.region_ok.2 hR]
    change (match R.current with | some c => _ | none => _) = _
    rw [hl r R hR, hc]
  cases call <;> simp [FreeCall.free, step, h1] <;> rfl

/-- The hypotheses of `C46_latest` with a pending and a running asynchronous execution of the region, and
those of `C46_none` after the collection of the former. -/
example : ∃ w, exec demoEnv [demoCreate "a", .begin 0 .async, .setFeature 0 (.heap 0) 7,
    .getPolicyIndex 0 (.heap 0), .endCtx 0 (.heap 0), .begin 0 .async]
    (initWorld {} fun _ => none) = .ok w ∧
    ((w.regions 0).isSome ∧ latest 0 w.log = some (.heap 1)) := run_ok (by decide +kernel)

example : ∃ w, exec demoEnv ([demoCreate "a", .begin 0 .async, .setFeature 0 (.heap 0) 7,
    .getPolicyIndex 0 (.heap 0), .endCtx 0 (.heap 0), .begin 0 .async] ++ List.replicate 8 (.collect 0))
    (initWorld {} fun _ => none) = .ok w ∧
    ((w.regions 0).isSome ∧ (w.ctxs (.heap 1)).isSome ∧ latest 0 w.log = none) :=
  run_ok (by decide +kernel)

/-- The calls of two interleaved executions of two regions. -/
def demoCalls : List Call :=
  [.create 1 "a".toList 2 0 "DecisionTree,explore=RoundRobin".toList [],
    .create 1 "b".toList 3 0 "RoundRobin".toList [],
    .start 0, .startWith 1 [5], .feature 0 3, .policy 0, .policy 1, .finish 1, .finishWith 0 (1 / 2),
    .trainAll 1 true, .start 0, .feature 0 3, .policy 0, .finish 0]

/-- Hypothesis of `C46_equivalent` in an example, which runs to its end. -/
example : WellFormed demoCalls fun _ => false := by
  simp [demoCalls, WellFormed, Call.uses, Call.next, Call.starts, Call.stops]

example : (match runFree demoEnv demoCalls (initWorld {} fun _ => none) with
    | .ok (as, w) => decide (as.filterMap (fun a => match a with | .policy p => some p | _ => none) =
        [0, 0, 0] ∧ w.executions = 3)
    | .error _ => false) = true := by decide +kernel

/-- C46 needs that there are no asynchronous executions: when one is collected, the current context is
forgotten, and the calls without context dereference a null pointer. -/
theorem C46_needs_synchronous :
    (match exec demoEnv ([demoCreate "a", .begin 0 .async, .setFeature 0 (.heap 0) 7,
        .getPolicyIndex 0 (.heap 0), .endCtx 0 (.heap 0)] ++ List.replicate 8 (.collect 0) ++
        [.begin 0 .sync, .setFeature 0 (.sync 0) 3, .collect 0]) (initWorld {} fun _ => none) with
    | .ok w => decide (currentCtx w 0 = .error (.ub .dangling) ∧ (w.ctxs (.sync 0)).isSome = true)
    | .error _ => false) = true := by decide +kernel

/-- C46 needs that asynchronous executions do not overlap: the calls without context act on the one
that began last. -/
theorem C46_needs_no_overlap :
    (match exec demoEnv [demoCreate "a", .begin 0 .async, .begin 0 .async, .setFeatureCur 0 7]
        (initWorld {} fun _ => none) with
    | .ok w => decide (((w.ctxs (.heap 0)).map Ctx.features = some []) ∧
        (w.ctxs (.heap 1)).map Ctx.features = some [7])
    | .error _ => false) = true := by decide +kernel

end Apollo.Props
