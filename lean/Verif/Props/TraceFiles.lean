import Verif.Proofs.TraceRuns
import Verif.Spec.PlotTrace
import Verif.Props.Trace

/-!
# Property C111: what the files of the traces of regions hold
-/

namespace Apollo.Props

open Apollo Apollo.Spec

variable {M : Type}

/-- The file of the trace of a region. -/
def fileOf (cfg : Cfg) (rank : ℤ) (R : Region) : Str :=
  cfg.outputDir ++ "/".toList ++ cfg.tracesDir ++ "/".toList ++ traceFile R.modelInfo R.name rank

theorem fileOf_eq (cfg : Cfg) (rank : ℤ) (R : Region) :
    fileOf cfg rank R = tracePath cfg rank R.modelInfo R.name := by
  have e : "/trace-".toList = "/".toList ++ "trace-".toList := rfl
  unfold fileOf tracePath traceFile
  rw [e]
  simp only [List.append_assoc]

/-- C111, the whole statement: however the streams are buffered, once the regions that Apollo knows have
been destroyed, the file of the trace of a region reads as the table with one row for each execution of
the region. -/
def C111 (env : Env M) : Prop :=
  ∀ (cfg : Cfg) (files : Str → Option Str) (e₁ e₂ : List TEv) (o₁ o₂ : List DiskOp) (w₁ w₂ : World M),
    cfg.traceCsv = true → tracedExec env e₁ (initWorld cfg files) = .ok (o₁, w₁) →
    tracedExec env e₂ w₁ = .ok (o₂, w₂) → (∀ p ∈ w₂.registry, w₂.regions p.2 = none) →
    ∀ r R m, w₁.regions r = some R → w₁.models r = some m → (observe w₂.log).proper r = true →
      Plain R.name → Plain (env.ops.name m) →
      ∃ s, (diskRun (o₁ ++ o₂)).files (fileOf cfg env.rank R) = some s ∧
        readTable s = traceTable env.rank (env.ops.name m) R.name R.numFeatures.toNat ((observe w₂.log).rows r)

/-- C111 for regions that are destroyed, when no other region has the same file: whatever is written when,
the file holds all rows, those of executions that were pending included, and keeps them.  What is missing:
regions with the name and the model of another one, and regions that are not destroyed. -/
theorem C111_file_partial (env : Env M) (ha : Named env.ops) (cfg : Cfg) (files : Str → Option Str)
    (e₁ e₂ : List TEv) (fuel : ℕ) (o₁ o₂ : List DiskOp) (w₁ w₂ : World M) (ht : cfg.traceCsv = true)
    (h1 : tracedExec env e₁ (initWorld cfg files) = .ok (o₁, w₁))
    (r : ℕ) (R : Region) (m : M) (hR : w₁.regions r = some R) (hm : w₁.models r = some m)
    (h2 : tracedExec env (.call (.destroy r fuel) :: e₂) w₁ = .ok (o₂, w₂))
    (hp : (observe w₂.log).proper r = true) (hn : Plain R.name) (hk : Plain (env.ops.name m))
    (hone : ∀ r', .opened r' (fileOf cfg env.rank R) ∈ o₁ ++ o₂ → r' = r) :
    ∃ s, (diskRun (o₁ ++ o₂)).files (fileOf cfg env.rank R) = some s ∧
      readTable s = traceTable env.rank (env.ops.name m) R.name R.numFeatures.toNat ((observe w₂.log).rows r) := by
  have hcfg : ∀ {evs : List TEv} {w w' : World M} {o : List DiskOp}, tracedExec env evs w = .ok (o, w') →
      { w'.cfg with globalPeriod := 0 } = { w.cfg with globalPeriod := 0 } := by
    intro evs w w' o h
    exact cfg_exec (tracedExec_exec h)
  obtain ⟨hc, hpath⟩ := tracePath_cfg (hcfg h1)
  have hcfg0 : (initWorld cfg files : World M).cfg = cfg := rfl
  rw [hcfg0] at hc hpath
  rw [fileOf_eq, ← hpath] at hone ⊢
  have F1 := (follows_init env cfg files).exec h1
  rw [List.nil_append] at F1
  have T1 := (TraceInv.invariant ha fun _ => True).exec (fun _ _ _ _ => trivial)
    ⟨logInv_init cfg files, traceInv_init env cfg files⟩ (tracedExec_exec h1)
  simp only [tracedExec] at h2
  obtain ⟨⟨o₃, w₃⟩, h3, h2⟩ := (Res.bind_eq_ok _ _ _).1 h2
  obtain ⟨⟨o₄, w₄⟩, h4, h2⟩ := (Res.bind_eq_ok _ _ _).1 h2
  simp only [Except.ok.injEq, Prod.mk.injEq] at h2
  obtain ⟨rfl, rfl⟩ := h2
  obtain ⟨wd, Rd, hd, hRd, rfl, rfl⟩ := tracedStep_destroy (by rw [hc]; exact ht) h3
  have hs := grown_drain hd
  have Td := (TraceInv.invariant ha fun _ => True).toKept.drain
    ((TraceInv.invariant ha fun _ => True).period _ T1) hd
  obtain ⟨md, hmd⟩ : ∃ md, wd.models r = some md := by
    have := Td.1.liveM r
    rw [hRd] at this
    exact Option.isSome_iff_exists.1 this
  have hname := names_drain ha (k := env.ops.name m) (fun m' hm' => by
    rw [hm] at hm'
    cases hm'
    rfl) hd md hmd
  obtain ⟨R₀, hR₀, hold⟩ := hs.old r Rd hRd
  rw [hR] at hR₀
  cases hR₀
  -- what comes after
  obtain ⟨f1, f2, f3, f4, f5, f6, f7, f8, f9⟩ := afterDestroy_frame env wd r Rd
  have hob : observe (afterDestroy env wd r Rd).log = observe wd.log := by
    rw [f4, observe_snoc]
    rfl
  have hlt : r < wd.nextRegion := by
    by_contra hx
    rw [Td.1.regFresh r (by omega)] at hRd
    cases hRd
  have hG : Gone r ((observe wd.log).rows r) ((observe wd.log).proper r) (afterDestroy env wd r Rd) :=
    ⟨by rw [f5]; exact hlt, by rw [f1, Function.update_self], by rw [hob], by rw [hob]⟩
  have hG2 := (Gone.invariant env (fun _ => True) r _ _).exec (fun _ _ _ _ => trivial) hG (tracedExec_exec h4)
  rw [hG2.proper] at hp
  rw [hG2.rows]
  -- the text
  have htext := Td.2 (by rw [(tracePath_cfg hs.cfg).1, hc]; exact ht) r Rd md hRd hmd hp
  rw [hname, hold.name, hold.nf] at htext
  -- the file
  have Fd := F1.puts hs Td.1
  have hown := (Fd.live (by rw [(tracePath_cfg hs.cfg).1, hc]; exact ht) r Rd hRd)
  rw [(tracePath_cfg hs.cfg).2, hold.info, hold.name] at hown
  have hO := hown.owns fun r' hr' => hone r' (by
    rcases List.mem_append.1 hr' with h | h
    · simp [h]
    · simp [h])
  have hrest := hO.close.run (ops := o₄) (by
    rintro op hop r' rfl
    have hr' := hone r' (by simp [hop])
    subst hr'
    exact not_reopened h4 (by rw [f5]; exact hlt) hop)
  refine ⟨Rd.trace, ?_, ?_⟩
  · have e : o₁ ++ (puts w₁ wd ++ [.close r] ++ o₄) = (o₁ ++ puts w₁ wd) ++ (.close r :: o₄) := by simp
    rw [e, diskRun, List.foldl_append, List.foldl_cons]
    exact hrest.file
  · rw [htext]
    exact read_traceText hk hn

/-- C111 while the region exists: the file holds a beginning of the trace. -/
theorem C111_running (env : Env M) (cfg : Cfg) (files : Str → Option Str) (evs : List TEv) (ops : List DiskOp)
    (w : World M) (ht : cfg.traceCsv = true) (h : tracedExec env evs (initWorld cfg files) = .ok (ops, w))
    (r : ℕ) (R : Region) (hR : w.regions r = some R)
    (hone : ∀ r', .opened r' (fileOf cfg env.rank R) ∈ ops → r' = r) :
    ∃ s, (diskRun ops).files (fileOf cfg env.rank R) = some s ∧ s <+: R.trace := by
  obtain ⟨hc, hpath⟩ := tracePath_cfg (cfg_exec (tracedExec_exec h))
  have hcfg0 : (initWorld cfg files : World M).cfg = cfg := rfl
  rw [hcfg0] at hc hpath
  rw [fileOf_eq, ← hpath] at hone ⊢
  have F1 := (follows_init env cfg files).exec h
  rw [List.nil_append] at F1
  obtain ⟨c, o, h1, h2, h3, h4, h5⟩ := ((F1.live (by rw [hc]; exact ht) r R hR).owns hone).stream
  exact ⟨c, h1, o.buf, h5⟩

/-- C111 for the models of the library. -/
theorem C111_models_partial (gen : ℕ → ℕ → ℕ) (tenv : ℕ → TrainEnv) (env : Env PolicyModel)
    (he : env.ops = policyOps gen tenv) (cfg : Cfg) (files : Str → Option Str)
    (e₁ e₂ : List TEv) (fuel : ℕ) (o₁ o₂ : List DiskOp) (w₁ w₂ : World PolicyModel) (ht : cfg.traceCsv = true)
    (h1 : tracedExec env e₁ (initWorld cfg files) = .ok (o₁, w₁))
    (r : ℕ) (R : Region) (m : PolicyModel) (hR : w₁.regions r = some R) (hm : w₁.models r = some m)
    (h2 : tracedExec env (.call (.destroy r fuel) :: e₂) w₁ = .ok (o₂, w₂))
    (hp : (observe w₂.log).proper r = true) (hn : Plain R.name)
    (hone : ∀ r', .opened r' (fileOf cfg env.rank R) ∈ o₁ ++ o₂ → r' = r) :
    ∃ s, (diskRun (o₁ ++ o₂)).files (fileOf cfg env.rank R) = some s ∧
      readTable s = traceTable env.rank m.name R.name R.numFeatures.toNat ((observe w₂.log).rows r) := by
  have := C111_file_partial env (by rw [he]; exact policyOps_named gen tenv) cfg files e₁ e₂ fuel o₁ o₂ w₁ w₂ ht h1
    r R m hR hm h2 hp hn (by rw [he]; exact plain_name m) hone
  rw [he] at this
  exact this

/-! ## Regions for which C111 is false -/

/-- The files of demo programs. -/
def traced (evs : List TEv) : Res (List DiskOp × World PolicyModel) :=
  tracedExec demoEnv evs (initWorld { traceCsv := true } fun _ => none)

def calls (ops : List Op) : List TEv := ops.map .call

/-- The statement of C111 fails for region `r` in a demo program. -/
def refutes (e₁ e₂ : List TEv) (r : ℕ) : Bool :=
  match traced e₁ with
  | .error _ => false
  | .ok (o₁, w₁) =>
    match tracedExec demoEnv e₂ w₁ with
    | .error _ => false
    | .ok (o₂, w₂) =>
      match w₁.regions r, w₁.models r with
      | some R, some m =>
        w₂.registry.all (fun p => (w₂.regions p.2).isNone) && (observe w₂.log).proper r &&
          decide (' ' ∉ R.name ∧ '\n' ∉ R.name) &&
          decide (((diskRun (o₁ ++ o₂)).files (fileOf { traceCsv := true } 0 R)).map readTable ≠
            some (traceTable 0 m.name R.name R.numFeatures.toNat ((observe w₂.log).rows r)))
      | _, _ => false

theorem not_of_refutes {e₁ e₂ : List TEv} {r : ℕ} (h : refutes e₁ e₂ r = true) : ¬ C111 demoEnv := by
  intro hC
  unfold refutes at h
  split at h
  · cases h
  next o₁ w₁ h1 =>
    split at h
    · cases h
    next o₂ w₂ h2 =>
      split at h
      next R m hR hm =>
        simp only [Bool.and_eq_true, List.all_eq_true, Option.isNone_iff_eq_none, decide_eq_true_eq] at h
        obtain ⟨⟨⟨h3, h4⟩, h5⟩, h6⟩ := h
        obtain ⟨s, h7, h8⟩ := hC { traceCsv := true } (fun _ => none) e₁ e₂ o₁ o₂ w₁ w₂ rfl h1 h2 h3 r R m hR hm h4
          h5 (plain_name m)
        have h7 : (diskRun (o₁ ++ o₂)).files (fileOf { traceCsv := true } 0 R) = some s := h7
        rw [h7] at h6
        exact h6 (congrArg some h8)
      · cases h

/-- What the file of a region of a demo program holds in the end. -/
def fileHeld (info name : String) (evs : List TEv) : Option Str :=
  match traced evs with
  | .error _ => none
  | .ok (ops, _) => ((diskRun ops).files (tracePath { traceCsv := true } 0 info.toList name.toList))

/-- A region with the model `Static`. -/
def staticCreate (name : String) : Op := .create 1 name.toList 2 0 "Static,policy=1".toList []

/-- Two regions with the same name and the same model, one execution each. -/
def namesakes : List TEv := calls ([demoCreate "a", demoCreate "a"] ++ demoRun 0 3 (1 / 2) ++ demoRun 1 4 (1 / 2000))

/-- The second is destroyed by the program, the first by Apollo.  The row of the first is written over the row
of the second, of which the last characters are left as a row of their own. -/
theorem C111_same_name : refutes namesakes (calls [.destroy 1 0, .destroy 0 0]) 1 = true ∧
    refutes namesakes (calls [.destroy 1 0, .destroy 0 0]) 0 = true ∧
    fileHeld "DecisionTree,explore=RoundRobin" "a" (namesakes ++ calls [.destroy 1 0, .destroy 0 0]) =
      some "rankid training region idx f0 policy xtime\n0 DecisionTree a 0 3 0 0.5\n05\n".toList := by
  refine ⟨?_, ?_, ?_⟩ <;> decide +kernel

/-- A region with the name of another one and a model of its own, which the program destroys and creates again:
the rows before are lost. -/
theorem C111_again : refutes (calls ([demoCreate "a", staticCreate "a"] ++ demoRun 1 4 (1 / 4)))
      (calls [.destroy 1 0, staticCreate "a", .destroy 2 0, .destroy 0 0]) 1 = true ∧
    fileHeld "Static,policy=1" "a" (calls ([demoCreate "a", staticCreate "a"] ++ demoRun 1 4 (1 / 4) ++
      [.destroy 1 0, staticCreate "a", .destroy 2 0, .destroy 0 0])) =
      some "rankid training region idx f0 policy xtime\n".toList := by
  refine ⟨?_, ?_⟩ <;> decide +kernel

/-- Apollo does not know a region with the name of another one, and does not destroy it when the program ends:
what is in the buffer is lost. -/
theorem C111_unknown : refutes (calls ([demoCreate "a", staticCreate "a"] ++ demoRun 1 4 (1 / 4)) ++ [.flush 1 50])
      (calls [.destroy 0 0]) 1 = true ∧
    fileHeld "Static,policy=1" "a" (calls ([demoCreate "a", staticCreate "a"] ++ demoRun 1 4 (1 / 4)) ++ [.flush 1 50] ++
      calls [.destroy 0 0]) =
      some "rankid training region idx f0 policy xtime\n0 Stati".toList := by
  refine ⟨?_, ?_⟩ <;> decide +kernel

/-- C111 is false. -/
theorem C111_false : ¬ C111 demoEnv := not_of_refutes C111_unknown.1

/-! ## Examples -/

/-- A program with one region, of which two executions are pending at the end. -/
def soloRun : List TEv := calls demoOps ++ [.flush 0 55]

/-- Hypotheses of `C111_models_partial` and `C111_running` in an example. -/
example : (match traced soloRun with
    | .error _ => false
    | .ok (o₁, w₁) =>
      decide ((w₁.regions 0).map (fun R => (R.modelInfo, R.name)) =
        some ("DecisionTree,explore=RoundRobin".toList, "a".toList)) && (w₁.models 0).isSome &&
      match tracedExec demoEnv ([.call (.destroy 0 9)] ++ calls [demoCreate "b"] ++ [.flush 1 3]) w₁ with
      | .error _ => false
      | .ok (o₂, w₂) => (observe w₂.log).proper 0 &&
        (o₁ ++ o₂).all fun op => match op with
          | .opened r p => p != tracePath { traceCsv := true } 0 "DecisionTree,explore=RoundRobin".toList "a".toList ||
            r == 0
          | _ => true) = true := by
  decide +kernel

example : fileHeld "DecisionTree,explore=RoundRobin" "a" soloRun =
    some "rankid training region idx f0 policy xtime\n0 DecisionTr".toList := by
  decide +kernel

example : fileHeld "DecisionTree,explore=RoundRobin" "a" (soloRun ++ [.call (.destroy 0 9)] ++ calls [demoCreate "b"]) =
    some ("rankid training region idx f0 policy xtime\n0 DecisionTree a 0 3 0 0.5\n0 DecisionTree a 1 4 1 0.25\n" ++
      "0 DecisionTree a 2 7 0 1\n0 DecisionTree a 3 8 1 2\n").toList := by
  decide +kernel

/-- The buffer is written when it is empty, and as a whole: nothing is left out or written twice. -/
example : fileHeld "DecisionTree,explore=RoundRobin" "a" (calls [demoCreate "a"] ++ [.flush 0 1000, .flush 0 7] ++
      calls (demoRun 0 3 (1 / 2)) ++ [.flush 0 0, .call (.destroy 0 0)]) =
    some "rankid training region idx f0 policy xtime\n0 DecisionTree a 0 3 0 0.5\n".toList := by
  decide +kernel

end Apollo.Props
