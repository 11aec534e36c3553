import Verif.Props.Region

/-!
# Further examples for C35 and C36
-/

namespace Apollo.Props

open Apollo Apollo.Spec

/-- C35: several features are recorded in the order in which they were set, whether they are set one after the
other or given to `begin`. -/
example : ∃ w, exec demoEnv
    [.create 2 "a".toList 2 0 "DecisionTree,explore=RoundRobin".toList [],
      .begin 0 .sync, .setFeature 0 (.sync 0) 3, .setFeature 0 (.sync 0) 9, .getPolicyIndex 0 (.sync 0),
      .endMetric 0 (.sync 0) 1,
      .beginWith 0 [8, 2], .getPolicyIndex 0 (.sync 0), .endMetric 0 (.sync 0) (1 / 2)]
    (initWorld {} fun _ => none) = .ok w ∧
    ((w.regions 0).map (fun R => R.dataset.map fun e => (ofLex e.1, e.2)) =
      some [(([3, 9], 0), 1), (([8, 2], 1), 1 / 2)] ∧ (observe w.log).proper 0 = true) :=
  run_ok (by decide +kernel)

/-- C36: the end of a synchronous execution is a moment at which pending executions are collected. -/
example : ∃ w, exec demoEnv (demoOps ++ demoRun 0 5 1 ++ demoRun 0 6 1) (initWorld {} fun _ => none) = .ok w ∧
    (w.executions = 6 ∧ w.pend 0 = [] ∧ timesFinished (.heap 0) w.log = 1 ∧ timesFinished (.heap 1) w.log = 1) :=
  run_ok (by decide +kernel)

/-- C36: and so is the end of an asynchronous one, whose own context is among them. -/
example : ∃ w, exec demoEnv (demoOps ++ demoRun 0 5 1 ++
      [.begin 0 .async, .getPolicyIndex 0 (.heap 2), .endCtx 0 (.heap 2)]) (initWorld {} fun _ => none) = .ok w ∧
    (w.executions = 6 ∧ w.pend 0 = [] ∧ timesFinished (.heap 2) w.log = 1) :=
  run_ok (by decide +kernel)

end Apollo.Props
