import Verif.Proofs.RegionTrace
import Verif.Props.Region

/-!
# Property C45: traces contain one well-formed row per collected execution
-/

namespace Apollo.Props

open Apollo Apollo.Spec

variable {M : Type}

/-- C45: at any point of any execution with APOLLO_TRACE_CSV, the trace of a region reads as a table:
a header, and one row for each finished execution of the region, in order, with the rank, the name of
its model, the name of the region, the index, the features, the policy and the metric.  The names must
not contain blanks or line feeds, and the executions must have begun on the region and asked for a
policy (`proper`). -/
theorem C45_trace (env : Env M) (ha : Named env.ops) (cfg : Cfg) (files : Str → Option Str)
    (ops : List Op) (w : World M) (h : exec env ops (initWorld cfg files) = .ok w)
    (ht : w.cfg.traceCsv = true) (r : ℕ) (R : Region) (m : M) (hR : w.regions r = some R)
    (hm : w.models r = some m) (hp : (observe w.log).proper r = true)
    (hn : Plain R.name) (hk : Plain (env.ops.name m)) :
    readTable R.trace = traceTable env.rank (env.ops.name m) R.name R.numFeatures.toNat
      ((observe w.log).rows r) := by
  have h1 := ((TraceInv.invariant ha fun _ => True).exec (fun _ _ _ _ => trivial)
    ⟨logInv_init cfg files, traceInv_init env cfg files⟩ h).2 ht r R m hR hm hp
  rw [h1]
  unfold traceText
  refine readTable_eq _ ?_ ?_
  · intro ws hws
    simp only [traceTable, List.mem_cons, List.mem_map] at hws
    rcases hws with rfl | ⟨x, -, rfl⟩
    · simp [Spec.headerColumns]
    · simp [rowColumns]
  · intro ws hws
    simp only [traceTable, List.mem_cons, List.mem_map] at hws
    rcases hws with rfl | ⟨x, -, rfl⟩
    · exact plain_headerColumns _
    · exact plain_rowColumns hk hn x

theorem plain_name (m : PolicyModel) : Plain m.name := by
  cases m with
  | static n c =>
    have := plain_fmtInt c
    have e : (PolicyModel.static n c).name = "Static,".toList ++ fmtInt c := rfl
    rw [e]
    generalize fmtInt c = x at this
    refine ⟨fun h => ?_, fun h => ?_⟩
    · rcases List.mem_append.1 h with h | h
      · revert h; decide
      · exact this.1 h
    · rcases List.mem_append.1 h with h | h
      · revert h; decide
      · exact this.2 h
  | null => exact ⟨by decide, by decide⟩
  | roundRobin => exact ⟨(by decide : ' ' ∉ "RoundRobin".toList), (by decide : '\n' ∉ "RoundRobin".toList)⟩
  | random => exact ⟨(by decide : ' ' ∉ "Random".toList), (by decide : '\n' ∉ "Random".toList)⟩
  | optimal => exact ⟨(by decide : ' ' ∉ "Optimal".toList), (by decide : '\n' ∉ "Optimal".toList)⟩
  | datasetMap => exact ⟨(by decide : ' ' ∉ "DatasetMap".toList), (by decide : '\n' ∉ "DatasetMap".toList)⟩
  | tree => exact ⟨(by decide : ' ' ∉ "DecisionTree".toList), (by decide : '\n' ∉ "DecisionTree".toList)⟩
  | forest => exact ⟨(by decide : ' ' ∉ "RandomForest".toList), (by decide : '\n' ∉ "RandomForest".toList)⟩

/-- C45 for the models of the library. -/
theorem C45_trace_models (gen : ℕ → ℕ → ℕ) (tenv : ℕ → TrainEnv) (env : Env PolicyModel)
    (he : env.ops = policyOps gen tenv) (cfg : Cfg) (files : Str → Option Str)
    (ops : List Op) (w : World PolicyModel) (h : exec env ops (initWorld cfg files) = .ok w)
    (ht : w.cfg.traceCsv = true) (r : ℕ) (R : Region) (m : PolicyModel)
    (hR : w.regions r = some R) (hm : w.models r = some m)
    (hp : (observe w.log).proper r = true) (hn : Plain R.name) :
    readTable R.trace = traceTable env.rank m.name R.name R.numFeatures.toNat
      ((observe w.log).rows r) := by
  have := C45_trace env (by rw [he]; exact policyOps_named gen tenv) cfg files ops w h ht r R m hR hm
    hp hn (by rw [he]; exact plain_name m)
  rw [this, he]
  rfl

/-- C45: the header has six columns more than the region has features. -/
theorem C45_header (rank : ℤ) (mn name : Str) (nf : ℕ) (rows : List Row) :
    ((traceTable rank mn name nf rows).head?).map List.length = some (6 + nf) := by
  simp [traceTable, Spec.headerColumns]
  omega

/-- C45: a row has as many columns as the header exactly if as many features were set as the region
has. -/
theorem C45_columns (rank : ℤ) (mn name : Str) (nf : ℕ) (x : Row) :
    (rowColumns rank mn name x).length = (Spec.headerColumns nf).length ↔ x.features.length = nf := by
  simp [rowColumns, Spec.headerColumns]

/-- C45 needs that the name of the region has no blanks: otherwise a row has too many columns. -/
theorem C45_blank_in_name : ∃ w, exec demoEnv
    ([demoCreate "a b"] ++ demoRun 0 3 (1 / 2)) (initWorld { traceCsv := true } fun _ => none) =
      .ok w ∧ (w.regions 0).map (fun R => (readTable R.trace).map List.length) = some [7, 8] :=
  run_ok (by decide +kernel)

/-- Rows of executions with other numbers of features have other numbers of columns. -/
theorem C45_missing_feature : ∃ w, exec demoEnv
    ([demoCreate "a"] ++ [.begin 0 .sync, .getPolicyIndex 0 (.sync 0), .endMetric 0 (.sync 0) 1])
      (initWorld { traceCsv := true } fun _ => none) =
      .ok w ∧ (w.regions 0).map (fun R => (readTable R.trace).map List.length) = some [7, 6] :=
  run_ok (by decide +kernel)

/-- Hypotheses of `C45_trace_models` in an example. -/
example : ∃ w, exec demoEnv demoOps (initWorld { traceCsv := true } fun _ => none) = .ok w ∧
    (w.cfg.traceCsv = true ∧ (observe w.log).proper 0 = true ∧
      (w.regions 0).map Region.name = some "a".toList ∧
      (w.models 0).map PolicyModel.name = some "DecisionTree".toList) :=
  run_ok (by decide +kernel)

example : ∃ w, exec demoEnv demoOps (initWorld { traceCsv := true } fun _ => none) = .ok w ∧
    (w.regions 0).map Region.trace = some ("rankid training region idx f0 policy xtime\n" ++
      "0 DecisionTree a 0 3 0 0.5\n" ++ "0 DecisionTree a 1 4 1 0.25\n").toList :=
  run_ok (by decide +kernel)

end Apollo.Props
