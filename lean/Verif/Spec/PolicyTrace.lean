import Verif.Spec.Files

/-!
# What the traces of policies may change

APOLLO_TRACE_POLICY and APOLLO_TRACE_BEST_POLICIES write files whose names end with `policies.txt`.  The
features are converted to `int`.
-/

namespace Apollo.Spec

open Apollo

/-- The files of the traces of policies. -/
def TraceFile (p : Str) : Prop := "policies.txt".toList <:+ p

instance : DecidablePred TraceFile := fun p => inferInstanceAs (Decidable ("policies.txt".toList <:+ p))

/-- The number without its fraction is an `int`. -/
def FitsInt (x : ℚ) : Prop := -2 ^ 31 - 1 < x ∧ x < 2 ^ 31

instance : DecidablePred FitsInt := fun x =>
  inferInstanceAs (Decidable (-2 ^ 31 - 1 < x ∧ x < 2 ^ 31))

/-- All features that the event is about fit. -/
def EvFits : Ev → Prop
  | .feature _ v => FitsInt v
  | .assigned _ f => ∀ v ∈ f, FitsInt v
  | .trained _ ds => ∀ e ∈ ds, ∀ v ∈ (ofLex e.1).1, FitsInt v
  | _ => True

instance : DecidablePred EvFits := fun e => by
  cases e <;> unfold EvFits <;> infer_instance

/-- No model is read from a file of these traces. -/
def NoTraceLoaded : Op → Prop
  | .create _ _ _ _ info yaml => ¬ "policies.txt".toList <:+: info ∧ ¬ TraceFile yaml
  | _ => True

instance : DecidablePred NoTraceLoaded := fun op => by
  cases op <;> unfold NoTraceLoaded <;> infer_instance

/-- Processes that differ only in the traces of policies. -/
structure SameButPolicyTraces {M : Type} (w w' : World M) : Prop where
  cfg : ∃ a b, w'.cfg = { w.cfg with tracePolicy := a, traceBest := b }
  regions : w'.regions = w.regions
  models : w'.models = w.models
  nextRegion : w'.nextRegion = w.nextRegion
  ctxs : w'.ctxs = w.ctxs
  nextCtx : w'.nextCtx = w.nextCtx
  registry : w'.registry = w.registry
  executions : w'.executions = w.executions
  files : ∀ p, ¬ TraceFile p → w'.files p = w.files p
  tick : w'.tick = w.tick
  gtrace : w'.gtrace = w.gtrace
  log : w'.log = w.log

end Apollo.Spec
