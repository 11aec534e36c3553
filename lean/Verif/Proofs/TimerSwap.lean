import Verif.Spec.TimerSwap
import Verif.Proofs.TestRuns

/-!
# Executions of the test programs for devices
-/

namespace Apollo

open Spec

variable {M : Type}

theorem devExec_append (env : Env M) (S : Stream) (a b : List DevOp) (s : Swapped M) :
    devExec env S (a ++ b) s = (devExec env S a s >>= fun s => devExec env S b s) := by
  induction a generalizing s with
  | nil => rfl
  | cons op a ih =>
    rw [List.cons_append, devExec, devExec]
    rcases devStep env S s op with e | s1
    · rfl
    · simp only [Res.bind_ok, ih]

/-- The process between two executions, `j` of which were made. -/
structure DevBetween (S : Stream) (wait : Bool) (s : Swapped M) (R : Region) (m : M) (j : ℕ) : Prop where
  cfg : s.world.cfg = {}
  region : s.world.regions 0 = some R
  model : s.world.models 0 = some m
  ctx : ∃ C, s.world.ctxs (.sync 0) = some C
  idle : R.minTraining = 0
  idx : R.idx = j
  registry : s.world.registry.map Prod.snd = [0]
  timer : (s.timer 0).isSome = decide (0 < j)
  issued : s.issued = if j = 0 then 0 else 7 * j - 1
  recorded : recorded s.world.log = (List.range j).map (onDevice S wait)

/-- What the timer answers at the end of execution `j`. -/
theorem isDone_stop (S : Stream) (wait : Bool) (j : ℕ) (h : List Ev) :
    AsyncTimer.isDone ⟨some (startCmd j), some (stopCmd wait j)⟩ (S.device (stopCmd wait j + 1)) h =
      if stopCmd wait j < S.passed (stopCmd wait j + 1) then .done (onDevice S wait j) else .waiting := by
  have hlt : startCmd j < stopCmd wait j := by
    unfold startCmd stopCmd
    cases wait <;> simp
  unfold AsyncTimer.isDone Device.elapsed Stream.device
  simp only
  by_cases hr : stopCmd wait j < S.passed (stopCmd wait j + 1)
  · rw [if_pos ⟨by omega, hr⟩, if_pos hr]
    rfl
  · rw [if_neg (by tauto), if_neg hr]

/-- The execution up to the call of `end`. -/
theorem dev_begin {env : Env M} {S : Stream} {wait : Bool} {s : Swapped M} {R : Region} {m m' : M} {j : ℕ}
    {x : ℚ} {c : ℤ} (h : DevBetween S wait s R m j) (hj : j + 1 < 2 ^ 31)
    (hm : env.ops.getIndex m [x] = .ok (c, m')) :
    ∃ s1 : Swapped M, devExec env S [.command, .command, .host (.beginWith 0 [x]), .host (.getPolicyIndexCur 0),
        .install 0, .command] s = .ok s1 ∧
      s1.world.cfg = {} ∧ s1.world.regions 0 = some { R with current := some (.sync 0), idx := R.idx + 1 } ∧
      s1.world.models 0 = some m' ∧ (∃ C, s1.world.ctxs (.sync 0) = some C ∧ C.policy = c ∧ C.features = [x]) ∧
      s1.world.registry = s.world.registry ∧ s1.timer 0 = some ⟨some (startCmd j), none⟩ ∧
      s1.issued = startCmd j + 2 ∧ Spec.recorded s1.world.log = Spec.recorded s.world.log := by
  obtain ⟨C, hC⟩ := h.ctx
  have hi : R.idx + 1 < 2 ^ 31 := by rw [h.idx]; exact_mod_cast hj
  have hT : ∀ w : World M, ∃ T', restart (⟨w, s.timer, s.issued + 1 + 1⟩ : Swapped M) 0 = ⟨w, T', startCmd j⟩ := by
    intro w
    have ht := h.timer
    have hs := h.issued
    unfold restart startCmd
    rcases e : s.timer 0 with _ | T
    · rw [e] at ht
      have hj0 : j = 0 := by simpa using ht
      subst hj0
      simp only [if_true] at hs
      exact ⟨s.timer, by simp [hs]⟩
    · rw [e] at ht
      have hj0 : 0 < j := by simpa using ht
      rw [if_neg (by omega)] at hs
      refine ⟨Function.update s.timer 0 (some (T.start (s.issued + 1 + 1))), ?_⟩
      simp only [Swapped.mk.injEq, true_and]
      omega
  simp only [devExec, devStep, Res.bind_ok, step, beginWith, begin, createContext, World.region, World.ctx,
    World.setRegion, World.setCtx, World.advance, World.emit, h.region, hC, hi, if_true, Function.update_self]
  obtain ⟨T', hT'⟩ := hT _
  rw [hT']
  simp only [currentCtx, World.region, World.ctx, World.model, Function.update_self, Res.bind_ok, h.model,
    getPolicyIndex, tracePolicy, h.cfg, hm, Bool.false_eq_true, if_false, World.setModel, World.setCtx, World.emit]
  refine ⟨_, rfl, rfl, ?_, ?_, ⟨_, rfl, rfl, rfl⟩, rfl, ?_, rfl, ?_⟩
  · simp
  · simp
  · simp [AsyncTimer.start]
  · simp [Spec.recorded]

/-- `end` when the device has not executed the command that records the end. -/
theorem dev_end_waiting {env : Env M} {S : Stream} {wait : Bool} {s1 : Swapped M} {R : Region} {j : ℕ} {C : Ctx}
    (hR : s1.world.regions 0 = some R) (hcur : R.current = some (.sync 0)) (hC : s1.world.ctxs (.sync 0) = some C)
    (hT : s1.timer 0 = some ⟨some (startCmd j), none⟩) (hs : s1.issued = stopCmd wait j)
    (hn : ¬ Ready S wait j) : devStep env S s1 (.host (.endCur 0)) = .error (.ub .uninit) := by
  have hd := isDone_stop S wait j s1.world.log
  rw [if_neg (show ¬ stopCmd wait j < _ from hn)] at hd
  simp only [devStep, currentCtx, World.region, hR, hcur, Res.bind_ok, endSwapped, hT, if_true, World.ctx, hC,
    AsyncTimer.stop, hs, hd]

/-- `end` otherwise. -/
theorem dev_end_ready {env : Env M} {S : Stream} {wait : Bool} {s1 : Swapped M} {R : Region} {m : M} {j : ℕ}
    {C : Ctx} (hcfg : s1.world.cfg = {}) (hR : s1.world.regions 0 = some R) (hcur : R.current = some (.sync 0))
    (hidle : R.minTraining = 0) (hM : s1.world.models 0 = some m) (hC : s1.world.ctxs (.sync 0) = some C)
    (hT : s1.timer 0 = some ⟨some (startCmd j), none⟩) (hs : s1.issued = stopCmd wait j)
    (hn : Ready S wait j) :
    ∃ s2 : Swapped M, devStep env S s1 (.host (.endCur 0)) = .ok s2 ∧ s2.world.cfg = {} ∧
      s2.world.regions 0 = some { R with
        current := none
        dataset := if env.ops.isTrainable m then
          R.dataset.insert C.features C.policy (onDevice S wait j) else R.dataset } ∧
      s2.world.models 0 = some m ∧ (∃ C', s2.world.ctxs (.sync 0) = some C') ∧ s2.world.registry = s1.world.registry ∧
      s2.timer 0 ≠ none ∧ s2.issued = stopCmd wait j + 1 ∧
      Spec.recorded s2.world.log = Spec.recorded s1.world.log ++ [onDevice S wait j] := by
  have hd := isDone_stop S wait j s1.world.log
  rw [if_pos (show stopCmd wait j < _ from hn)] at hd
  cases ht : env.ops.isTrainable m <;>
  simp only [devStep, currentCtx, World.region, hR, hcur, Res.bind_ok, endSwapped, hT, if_true, World.ctx, hC,
    AsyncTimer.stop, hs, hd, collectContext, World.emit, World.model, hM, record, hcfg, Bool.false_eq_true, if_false,
    Bool.false_or, ht, autoTrain, Bool.not_true, Bool.not_false, World.setRegion, World.setCtx,
    Function.update_self, destroyContext, ne_eq, not_true_eq_false, false_and, hidle, lt_irrefl]
  all_goals
    refine ⟨_, rfl, by first | rfl | exact hcfg, ?_, ?_, ?_, rfl, ?_, ?_, ?_⟩
    · simp [hidle]
    · first | rfl | exact hM
    · first | exact ⟨_, rfl⟩ | exact ⟨_, hC⟩ | exact ⟨_, Function.update_self ..⟩
    · simp
    · simp [hs]
    · simp [Spec.recorded]

/-- One execution. -/
theorem dev_run {env : Env M} {S : Stream} {wait : Bool} {s : Swapped M} {R : Region} {m m' : M} {j : ℕ} {x : ℚ}
    {c : ℤ} (h : DevBetween S wait s R m j) (hj : j + 1 < 2 ^ 31) (hm : env.ops.getIndex m [x] = .ok (c, m')) :
    (Ready S wait j → ∃ s' R', devExec env S (deviceRun wait x) s = .ok s' ∧ DevBetween S wait s' R' m' (j + 1)) ∧
    (¬ Ready S wait j → devExec env S (deviceRun wait x) s = .error (.ub .uninit)) := by
  obtain ⟨s1, e1, c1, r1, m1, ⟨C, x1, -, -⟩, g1, t1, i1, l1⟩ := dev_begin h hj hm
  unfold deviceRun
  rw [devExec_append, e1, Res.bind_ok]
  cases wait with
  | false =>
    simp only [Bool.false_eq_true, if_false, devExec]
    have hs : s1.issued = stopCmd false j := by rw [i1]; simp [startCmd, stopCmd]
    constructor
    · intro hn
      obtain ⟨s2, e2, c2, r2, m2, x2, g2, t2, i2, l2⟩ := dev_end_ready (env := env) c1 r1 rfl h.idle m1 x1 t1 hs hn
      rw [e2]
      refine ⟨_, _, rfl, ⟨c2, r2, m2, x2, h.idle, ?_, ?_, ?_, ?_, ?_⟩⟩
      · simp [h.idx]
      · rw [g2, g1]; exact h.registry
      · simp [Option.isSome_iff_ne_none, t2]
      · simp [i2, stopCmd]; omega
      · rw [l2, l1, h.recorded, List.range_succ, List.map_append]; rfl
    · intro hn
      rw [dev_end_waiting r1 rfl x1 t1 hs hn]
      rfl
  | true =>
    simp only [if_true, devExec, devStep, Res.bind_ok]
    have hs : s1.issued + 1 = stopCmd true j := by rw [i1]; simp [startCmd, stopCmd]
    constructor
    · intro hn
      obtain ⟨s2, e2, c2, r2, m2, x2, g2, t2, i2, l2⟩ := dev_end_ready (env := env)
        (s1 := { s1 with issued := s1.issued + 1 }) c1 r1 rfl h.idle m1 x1 t1 hs hn
      simp only [devStep] at e2
      rw [e2]
      refine ⟨_, _, rfl, ⟨c2, r2, m2, x2, h.idle, ?_, ?_, ?_, ?_, ?_⟩⟩
      · simp [h.idx]
      · rw [g2, g1]; exact h.registry
      · simp [Option.isSome_iff_ne_none, t2]
      · simp [i2, stopCmd]; omega
      · rw [l2]
        simp only
        rw [l1, h.recorded, List.range_succ, List.map_append]; rfl
    · intro hn
      have := dev_end_waiting (env := env) (s1 := { s1 with issued := s1.issued + 1 }) r1 rfl x1 t1 hs hn
      simp only [devStep] at this
      rw [this]
      rfl

/-- A row of executions from the `k`-th on, with a model that does not change and is not trained. -/
theorem dev_runs {env : Env M} {S : Stream} {wait : Bool} {m : M} {x : ℚ} {c : ℤ}
    (hm : env.ops.getIndex m [x] = .ok (c, m)) (ht : env.ops.isTrainable m = false) :
    ∀ (n k : ℕ) {s : Swapped M} {R : Region}, DevBetween S wait s R m k → k + n < 2 ^ 31 →
    let ops := (List.range' k n).flatMap fun j =>
      deviceRun wait x ++ if j = 10 then [.host (.trainAll 0 true)] else []
    ((∀ j, k ≤ j → j < k + n → Ready S wait j) →
      ∃ s' R', devExec env S ops s = .ok s' ∧ DevBetween S wait s' R' m (k + n)) ∧
    ((∃ j, k ≤ j ∧ j < k + n ∧ ¬ Ready S wait j) → devExec env S ops s = .error (.ub .uninit)) := by
  intro n
  induction n with
  | zero =>
    intro k s R h _ ops
    exact ⟨fun _ => ⟨s, R, rfl, h⟩, fun ⟨j, h1, h2, _⟩ => absurd h2 (by omega)⟩
  | succ n ih =>
    intro k s R h hk ops
    have hr := dev_run (env := env) (x := x) h (by omega) hm
    have hops : ops = deviceRun wait x ++ ((if k = 10 then [.host (.trainAll 0 true)] else []) ++
        (List.range' (k + 1) n).flatMap fun j =>
          deviceRun wait x ++ if j = 10 then [.host (.trainAll 0 true)] else []) := by
      simp only [ops, List.range'_succ, List.flatMap_cons, List.append_assoc]
    rw [hops]
    by_cases hn : Ready S wait k
    · obtain ⟨s1, R1, e1, b1⟩ := hr.1 hn
      have htr : devExec env S (if k = 10 then [.host (.trainAll 0 true)] else []) s1 = .ok s1 := by
        split
        · simp only [devExec, devStep, step, apolloTrain, apolloTrainWith, b1.cfg, b1.registry, Bool.false_eq_true,
            if_false, forRegions, regionTrain, World.region, World.model, b1.region, b1.model, Res.bind_ok, ht,
            Bool.not_false, Bool.and_true, if_true]
        · rfl
      have := ih (k + 1) b1 (by omega)
      rw [devExec_append, e1, Res.bind_ok, devExec_append, htr, Res.bind_ok]
      constructor
      · intro hall
        obtain ⟨s2, R2, e2, b2⟩ := this.1 fun j h1 h2 => hall j (by omega) (by omega)
        exact ⟨s2, R2, e2, by rwa [show k + (n + 1) = k + 1 + n by omega]⟩
      · rintro ⟨j, h1, h2, h3⟩
        refine this.2 ⟨j, ?_, by omega, h3⟩
        rcases Nat.lt_or_ge k j with h | h
        · omega
        · have : j = k := by omega
          subst this
          exact absurd hn h3
    · constructor
      · intro hall
        exact absurd (hall k (le_refl _) (by omega)) hn
      · intro _
        rw [devExec_append, hr.2 hn]
        rfl

end Apollo
