import Verif.Proofs.TimerSwap
import Verif.Props.Interface

/-!
# C110: the test programs for devices record the time of each execution on the device

False of /repo/test/test-cuda.cpp and /repo/test/test-hip.cpp with /repo/src/Region.cpp:569-580.
-/

namespace Apollo.Props

open Apollo Apollo.Spec

/-- C110: with any device, the test programs run to their end, and for each execution the time is recorded
which passed on the device from the start of the timer to its end. -/
def C110 : Prop :=
  ∀ (env : Env PolicyModel) (gen : ℕ → ℕ → ℕ) (tenv : ℕ → TrainEnv), env.ops = policyOps gen tenv →
  ∀ (files : Str → Option Str) (S : Stream) (wait : Bool), S.Sound wait →
  ∀ (name : Str) (n : ℤ) (x : ℚ) (runs : ℕ), runs < 2 ^ 31 →
    ∃ s, devExec env S (deviceProgram wait name n x runs) ⟨initWorld {} files, fun _ => none, 0⟩ = .ok s ∧
      recorded s.world.log = (List.range runs).map (onDevice S wait)

theorem made_static_any (gen : ℕ → ℕ) (nf n : ℤ) :
    Made gen "Static,policy=0".toList nf n (.static n 0) := by
  refine ⟨"Static".toList, [("policy".toList, "0".toList)], by decide +kernel, by decide, ?_, rfl, rfl, by decide,
    by decide⟩
  have h : paramOr [("policy".toList, "0".toList)] "policy".toList readInt' 0 = .ok 0 := by decide +kernel
  have hs : createStatic n [("policy".toList, "0".toList)] = .ok (.static n 0) := by
    rw [createStatic, h, Res.bind_ok, if_neg (lt_irrefl 0)]
    split <;> rfl
  rw [createModel, createPolicyModel]
  show (do .ok (.model (← createStatic n _)) : Res Created) = _
  rw [hs, Res.bind_ok]

/-- The process after the creation of the region. -/
theorem dev_created {env : Env PolicyModel} {gen : ℕ → ℕ → ℕ} {tenv : ℕ → TrainEnv}
    (ho : env.ops = policyOps gen tenv) (files : Str → Option Str) (S : Stream) (wait : Bool) (name : Str)
    (n : ℤ) : ∃ s R, devExec env S [.host (.create 1 name n 0 [] [])] ⟨initWorld {} files, fun _ => none, 0⟩ = .ok s ∧
      DevBetween S wait s R (.static n 0) 0 := by
  obtain ⟨R, w, h1, h2, h3, -⟩ := create_first ho (name := name) (info := []) (made_static_any (gen 0) 1 n) files
  have hw : step env (initWorld {} files) (.create 1 name n 0 [] []) = .ok (.region 0, w) := by
    rw [results] at h1
    obtain ⟨⟨x, w'⟩, hx, hy⟩ := (Res.bind_eq_ok _ _ _).1 h1
    simp only [results, Res.bind_ok, Except.ok.injEq, Prod.mk.injEq, List.cons.injEq] at hy
    rw [hx, hy.1.1, hy.2]
  refine ⟨⟨w, fun _ => none, 0⟩, R, ?_, ⟨h2.cfg, h2.region, h2.model, h2.ctx, h2.idle, h3, h2.registry, rfl, rfl, ?_⟩⟩
  · simp only [devExec, devStep, hw, Res.bind_ok]
  · have hc : createRegion env (initWorld {} files) 1 name n 0 [] [] = .ok (0, w) := by
      rw [step] at hw
      obtain ⟨⟨r, w'⟩, hx, hy⟩ := (Res.bind_eq_ok _ _ _).1 hw
      simp only [Except.ok.injEq, Prod.mk.injEq, Ret.region.injEq] at hy
      rw [hx, hy.1, hy.2]
    obtain ⟨R', m', l, hA⟩ := createRegion_ok hc
    have hl : recorded l = [] := by
      rw [recorded, List.filterMap_eq_nil_iff]
      intro e he
      obtain ⟨r, ds, rfl⟩ := hA.events e he
      rfl
    have happ : ∀ a b : List Ev, recorded (a ++ b) = recorded a ++ recorded b := fun a b => by simp [recorded]
    show recorded w.log = _
    rw [hA.log, happ, happ, hl]
    rfl

/-- C110 for devices that have executed the record of the end whenever they are asked: the programs run to
their end and record what the device measured, whatever the clock of the host says. -/
theorem C110_recorded_partial (env : Env PolicyModel) (gen : ℕ → ℕ → ℕ) (tenv : ℕ → TrainEnv)
    (ho : env.ops = policyOps gen tenv) (files : Str → Option Str) (S : Stream) (wait : Bool) (name : Str)
    (n : ℤ) (x : ℚ) (runs : ℕ) (hr : runs < 2 ^ 31) (hready : ∀ j < runs, Ready S wait j) :
    ∃ s, devExec env S (deviceProgram wait name n x runs) ⟨initWorld {} files, fun _ => none, 0⟩ = .ok s ∧
      recorded s.world.log = (List.range runs).map (onDevice S wait) := by
  obtain ⟨s0, R0, e0, b0⟩ := dev_created ho files S wait name n
  obtain ⟨s, R, e1, b1⟩ := (dev_runs (env := env) (S := S) (wait := wait) (x := x) (c := 0)
    (by rw [ho]; rfl) (by rw [ho]; rfl) runs 0 b0 (by omega)).1 fun j _ hj => hready j (by omega)
  refine ⟨s, ?_, by simpa using b1.recorded⟩
  rw [deviceProgram, ← List.singleton_append, devExec_append, e0, Res.bind_ok, List.range_eq_range']
  exact e1

/-- If the device has not executed the record of the end of some execution when it is asked for the time,
the value of a variable that was never set is recorded: the behaviour of the program is undefined. -/
theorem C110_unready (env : Env PolicyModel) (gen : ℕ → ℕ → ℕ) (tenv : ℕ → TrainEnv)
    (ho : env.ops = policyOps gen tenv) (files : Str → Option Str) (S : Stream) (wait : Bool) (name : Str)
    (n : ℤ) (x : ℚ) (runs : ℕ) (hr : runs < 2 ^ 31) (j : ℕ) (hj : j < runs) (hn : ¬ Ready S wait j) :
    devExec env S (deviceProgram wait name n x runs) ⟨initWorld {} files, fun _ => none, 0⟩ =
      .error (.ub .uninit) := by
  obtain ⟨s0, R0, e0, b0⟩ := dev_created ho files S wait name n
  have := (dev_runs (env := env) (S := S) (wait := wait) (x := x) (c := 0)
    (by rw [ho]; rfl) (by rw [ho]; rfl) runs 0 b0 (by omega)).2 ⟨j, by omega, by omega, hn⟩
  rw [deviceProgram, ← List.singleton_append, devExec_append, e0, Res.bind_ok, List.range_eq_range']
  exact this

/-- A device that is one command behind, except after a copy that waits. -/
def behind (wait : Bool) : Stream := ⟨fun k => if wait ∧ k % 7 = 5 then k else k - 1, fun k => k⟩

theorem behind_sound (wait : Bool) : (behind wait).Sound wait := by
  refine ⟨fun k => ?_, fun a b h => ?_, fun a b h => by
    show (a : ℚ) ≤ b
    exact_mod_cast h, fun hw j k hk => ?_⟩
  · unfold behind
    simp only
    split <;> omega
  · unfold behind
    simp only
    rcases Nat.eq_or_lt_of_le h with rfl | h
    · exact le_refl _
    · split <;> split <;> omega
  · subst hw
    unfold behind stopCmd at *
    simp only [if_true, true_and] at *
    split <;> omega

theorem behind_unready (wait : Bool) (j : ℕ) : ¬ Ready (behind wait) wait j := by
  unfold Ready behind stopCmd
  cases wait
  · simp
  · simp only [if_true, true_and]
    rw [if_neg (by omega)]
    omega

/-- C110 is false: for both programs (test-cuda.cpp: `wait`, `n = 2`; test-hip.cpp: not `wait`, `n = 3`;
`runs = 20`) there is a sound device on which their behaviour is undefined, as soon as they execute the
region once. -/
theorem C110_fails (wait : Bool) : ∃ S : Stream, S.Sound wait ∧
    ∀ (env : Env PolicyModel) (gen : ℕ → ℕ → ℕ) (tenv : ℕ → TrainEnv), env.ops = policyOps gen tenv →
    ∀ (files : Str → Option Str) (name : Str) (n : ℤ) (x : ℚ) (runs : ℕ), 1 ≤ runs → runs < 2 ^ 31 →
      devExec env S (deviceProgram wait name n x runs) ⟨initWorld {} files, fun _ => none, 0⟩ =
        .error (.ub .uninit) :=
  ⟨behind wait, behind_sound wait, fun env gen tenv ho files name n x runs h1 hr =>
    C110_unready env gen tenv ho files _ wait name n x runs hr 0 (by omega) (behind_unready wait 0)⟩

theorem C110_false : ¬ C110 := by
  intro h
  obtain ⟨S, hS, hf⟩ := C110_fails false
  obtain ⟨s, hs, -⟩ := h demoEnv _ _ rfl (fun _ => none) S false hS [] 3 0 20 (by norm_num)
  rw [hf demoEnv _ _ rfl (fun _ => none) [] 3 0 20 (by norm_num) (by norm_num)] at hs
  simp at hs

/-- A device that has executed everything when it is asked, each command in half a second. -/
def prompt : Stream := ⟨fun k => k, fun k => 500 * k⟩

theorem prompt_ready (wait : Bool) (j : ℕ) : Ready prompt wait j := Nat.lt_succ_self _

example (wait : Bool) : prompt.Sound wait :=
  ⟨fun _ => le_refl _, fun _ _ h => h, fun a b h => by
    show (500 : ℚ) * a ≤ 500 * b
    have : (a : ℚ) ≤ b := by exact_mod_cast h
    linarith, fun _ _ _ h => h⟩

/-- The kernel of test-cuda.cpp with its copy, and the kernel of test-hip.cpp alone. -/
example : (List.range 3).map (onDevice prompt true) = [3 / 2, 3 / 2, 3 / 2] ∧
    (List.range 3).map (onDevice prompt false) = [1, 1, 1] := by decide +kernel

example (files : Str → Option Str) : ∃ s, devExec demoEnv prompt
    (deviceProgram true "cuda-region".toList 2 1000 20) ⟨initWorld {} files, fun _ => none, 0⟩ = .ok s ∧
      recorded s.world.log = (List.range 20).map (onDevice prompt true) :=
  C110_recorded_partial demoEnv _ _ rfl files prompt true _ 2 1000 20 (by norm_num)
    fun j _ => prompt_ready true j

/-- A device that executes commands in ever more time. -/
def slowing : Stream := ⟨fun k => k, fun k => 100 * k * k⟩

/-- What a run of a program records, or how it fails. -/
def recordedBy (S : Stream) (wait : Bool) (runs : ℕ) : Except Err (List ℚ) :=
  match devExec demoEnv S (deviceProgram wait "r".toList 2 1000 runs) ⟨initWorld {} fun _ => none, fun _ => none, 0⟩ with
  | .ok s => .ok (recorded s.world.log)
  | .error e => .error e

/-- Evaluated runs of both programs: all runs of a device that is done in time are recorded as in
`C110_recorded_partial`, the first one of a device that is behind has no metric. -/
example : (match recordedBy slowing true 3, recordedBy slowing false 3 with
    | .ok a, .ok b => decide (a = (List.range 3).map (onDevice slowing true) ∧ b = (List.range 3).map (onDevice slowing false) ∧
        a.Pairwise (· < ·) ∧ b.Pairwise (· < ·))
    | _, _ => false) = true := by decide +kernel

example : (match recordedBy (behind true) true 1, recordedBy (behind false) false 1 with
    | .error (.ub _), .error (.ub _) => true
    | _, _ => false) = true := by decide +kernel

/-- A program that puts the timer in place once and executes the region three times, with two commands in
the first execution and one in each of the others. -/
def installOnce : List DevOp :=
  [.host (.create 1 "r".toList 2 0 [] []), .host (.begin 0 .sync), .install 0, .command, .command, .host (.endCur 0),
    .host (.begin 0 .sync), .command, .host (.endCur 0), .command, .host (.begin 0 .sync), .command, .host (.endCur 0)]

/-- The timer is started again by each `begin`: the commands 0 to 3, 4 to 6 and 8 to 10 are measured. -/
example : (match devExec demoEnv slowing installOnce ⟨initWorld {} fun _ => none, fun _ => none, 0⟩ with
    | .ok s => decide (recorded s.world.log = [(0, 3), (4, 6), (8, 10)].map fun (p : ℕ × ℕ) =>
        rnd64 (rnd32 (slowing.time p.2 - slowing.time p.1) / 1000))
    | .error _ => false) = true := by decide +kernel

end Apollo.Props
