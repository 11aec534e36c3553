import Verif.Proofs.RegionCount
import Verif.Proofs.RegionData
import Verif.Proofs.ModelEnds
import Verif.Proofs.TreeReach

/-!
# Properties C34–C37: executions of regions

`exec env ops w` runs the calls `ops` in the world `w` for any surroundings `env`: clocks, timers,
random numbers and implementations of the policy models.  `initWorld cfg files` is the state after
start-up.  The specification is `Spec.observe`, a fold over the observed events.
-/

namespace Apollo.Props

open Apollo Apollo.Spec

variable {M : Type}

/-! ## A concrete program for the examples -/

/-- Real models; a clock that advances by one second per request; timers that are done from the tick
12 on with time `n + 1`. -/
def demoEnv : Env PolicyModel where
  ops := policyOps (fun _ _ => 0) (fun _ => ⟨isort, id⟩)
  clock := fun t => (t, 0)
  wall := fun t => t
  poll := fun t _ n => if 12 ≤ t then .done (n + 1) else .waiting

/-- A region with two policies and one feature, explored round robin. -/
def demoCreate (name : String) : Op :=
  .create 1 name.toList 2 0 "DecisionTree,explore=RoundRobin".toList []

/-- One synchronous execution of region `r`. -/
def demoRun (r : ℕ) (f m : ℚ) : List Op :=
  [.begin r .sync, .setFeature r (.sync r) f, .getPolicyIndex r (.sync r),
    .endMetric r (.sync r) m]

/-- Two synchronous executions and two asynchronous ones, of which none is collected yet. -/
def demoOps : List Op :=
  [demoCreate "a"] ++ demoRun 0 3 (1 / 2) ++ demoRun 0 4 (1 / 4) ++
    [.begin 0 .async, .setFeature 0 (.heap 0) 7, .getPolicyIndex 0 (.heap 0), .endCtx 0 (.heap 0),
      .begin 0 .async, .setFeature 0 (.heap 1) 8, .getPolicyIndex 0 (.heap 1), .endCtx 0 (.heap 1)]

theorem run_ok {P : World M → Prop} [DecidablePred P] {x : Res (World M)}
    (h : (match x with | .ok w => decide (P w) | .error _ => false) = true) :
    ∃ w, x = .ok w ∧ P w := by
  cases x with
  | ok w => exact ⟨w, rfl, of_decide_eq_true h⟩
  | error e => cases h

theorem demo_ok : ∃ w, exec demoEnv demoOps (initWorld {} fun _ => none) = .ok w ∧
    (w.executions = 2 ∧ w.pend 0 = [.heap 0, .heap 1] ∧
      (w.regions 0).map (fun R => (R.idx, R.dataset.size)) = some (4, 2) ∧
      (w.regions 0).map (fun R => R.dataset.map fun e => ofLex e.1) = some [([3], 0), ([4], 1)]) :=
  run_ok (by decide +kernel)

/-! ## C34 -/

theorem reachable_log {env : Env M} {cfg : Cfg} {files : Str → Option Str} {ops : List Op}
    {w : World M} (h : exec env ops (initWorld cfg files) = .ok w) : LogInv w :=
  (LogInv.invariant env fun _ => True).exec (fun _ _ _ _ => trivial) (logInv_init cfg files) h

/-- C34: at any point of any execution every end call made so far is counted once in the execution
count, or its context still waits for its timer. -/
theorem C34_count (env : Env M) (cfg : Cfg) (files : Str → Option Str) (ops : List Op) (w : World M)
    (h : exec env ops (initWorld cfg files) = .ok w) :
    w.executions + w.outstanding = ops.countP Op.isEnd := by
  have h1 := exec_total (logInv_init cfg files) h
  have hx : (initWorld cfg files : World M).executions = 0 := rfl
  have ho : (initWorld cfg files : World M).outstanding = 0 := rfl
  rw [h1, hx, ho, List.countP_eq_length_filter]
  omega

/-- C34: collecting a context counts one execution. -/
theorem C34_collect (env : Env M) (w w' : World M) (r : ℕ) (c : CtxPtr) (metric : ℚ)
    (h : collectContext env w r c metric = .ok w') : w'.executions = w.executions + 1 := by
  obtain ⟨R, m, C, l, h1⟩ := collectContext_ok h
  exact h1.executions

/-- C34: the execution count is the number of executions observed to finish. -/
theorem C34_observed (env : Env M) (cfg : Cfg) (files : Str → Option Str) (ops : List Op)
    (w : World M) (h : exec env ops (initWorld cfg files) = .ok w) :
    w.executions = w.log.countP fun e => match e with
      | .finished _ _ _ => true
      | _ => false := by
  rw [(reachable_log h).count]
  generalize w.log = l
  induction l using List.reverseRecOn with
  | nil => rfl
  | append_singleton l e ih =>
    rw [observe_snoc, List.countP_append]
    cases e <;> simp [Observer.next, ih]

/-- C34: the index given to an execution is the number of earlier begins of the region. -/
theorem C34_index (env : Env M) (cfg : Cfg) (files : Str → Option Str) (ops : List Op)
    (w w' : World M) (r : ℕ) (k : TimingKind) (c : CtxPtr)
    (h : exec env ops (initWorld cfg files) = .ok w)
    (hb : step env w (.begin r k) = .ok (.ctx c, w')) :
    ∃ C, w'.ctxs c = some C ∧ C.idx = ops.countP (Op.isBegin r) := by
  obtain ⟨⟨c', w₁⟩, h1, h2⟩ := (Res.bind_eq_ok _ _ _).1 hb
  cases h2
  obtain ⟨R, C, hb⟩ := begin_ok h1
  refine ⟨_, by rw [hb.ctxs, Function.update_self], ?_⟩
  have h3 := (reachable_log h).idx r R hb.region
  have h4 := exec_begins r h
  have h5 : (observe (initWorld cfg files : World M).log).begins r = 0 := rfl
  show R.idx.toNat = _
  rw [h3, h4, h5]
  omega

/-- C34: the same for `begin(features)`. -/
theorem C34_index_with (env : Env M) (cfg : Cfg) (files : Str → Option Str) (ops : List Op)
    (w w' : World M) (r : ℕ) (f : Features) (c : CtxPtr)
    (h : exec env ops (initWorld cfg files) = .ok w)
    (hb : step env w (.beginWith r f) = .ok (.ctx c, w')) :
    ∃ C, w'.ctxs c = some C ∧ C.idx = ops.countP (Op.isBegin r) := by
  obtain ⟨⟨c', w₁⟩, h1, h2⟩ := (Res.bind_eq_ok _ _ _).1 hb
  cases h2
  obtain ⟨w₂, C₂, h3, hC₂, rfl⟩ := beginWith_ok h1
  obtain ⟨C', h4, h5⟩ := C34_index env cfg files ops w w₂ r .sync c h (by simp [step, h3])
  rw [hC₂] at h4
  cases h4
  exact ⟨{ C₂ with features := f }, by simp [World.emit, World.setCtx], h5⟩

/-- C34: a context keeps its index as long as it lives. -/
theorem C34_index_stays (env : Env M) (cfg : Cfg) (files : Str → Option Str) (ops : List Op)
    (w : World M) (c : CtxPtr) (C : Ctx) (h : exec env ops (initWorld cfg files) = .ok w)
    (hC : w.ctxs c = some C) : C.idx = (observe w.log).index c :=
  (reachable_log h).cidx c C hC

example : demoOps.countP Op.isEnd = 4 ∧ demoOps.countP (Op.isBegin 0) = 4 ∧
    ∃ w, exec demoEnv demoOps (initWorld {} fun _ => none) = .ok w ∧ w.executions = 2 ∧
      w.outstanding = 2 := by
  obtain ⟨w, hw, h1, h2, h3, h4⟩ := demo_ok
  have := C34_count _ _ _ _ _ hw
  rw [h1] at this
  exact ⟨by decide, by decide, w, hw, h1, by rw [show demoOps.countP Op.isEnd = 4 by decide] at this; omega⟩

/-! ## C35 -/

/-- C35: at any point of any execution, the dataset of a region that learns (its model is trainable or
datasets are persistent) is the dataset it started with and, inserted in order, one measurement for
each of its finished executions: the features set since `begin`, the policy that was returned, and the
metric.  The executions must have begun on the region and asked for a policy (`proper`). -/
theorem C35_recorded (env : Env M) (ha : Absorbing env.ops) (cfg : Cfg) (files : Str → Option Str)
    (ops : List Op) (w : World M) (h : exec env ops (initWorld cfg files) = .ok w)
    (r : ℕ) (R : Region) (m : M) (hR : w.regions r = some R) (hm : w.models r = some m)
    (hl : w.cfg.persistent = true ∨ env.ops.isTrainable m = true)
    (hp : (observe w.log).proper r = true) :
    R.dataset = ((observe w.log).rows r).foldl
      (fun ds x => ds.insert x.features x.policy x.metric) ((observe w.log).start r) :=
  ((DataInv.invariant ha fun _ => True).exec (fun _ _ _ _ => trivial)
    ⟨logInv_init cfg files, dataInv_init env cfg files⟩ h).2 r R m hR hm hl hp

/-- C35 for the models of the library. -/
theorem C35_recorded_models (gen : ℕ → ℕ → ℕ) (tenv : ℕ → TrainEnv) (env : Env PolicyModel)
    (he : env.ops = policyOps gen tenv) (cfg : Cfg) (files : Str → Option Str)
    (ops : List Op) (w : World PolicyModel) (h : exec env ops (initWorld cfg files) = .ok w)
    (r : ℕ) (R : Region) (m : PolicyModel) (hR : w.regions r = some R) (hm : w.models r = some m)
    (hl : w.cfg.persistent = true ∨ m.isTrainable = true)
    (hp : (observe w.log).proper r = true) :
    R.dataset = ((observe w.log).rows r).foldl
      (fun ds x => ds.insert x.features x.policy x.metric) ((observe w.log).start r) :=
  C35_recorded env (by rw [he]; exact policyOps_absorbing gen tenv) cfg files ops w h r R m hR hm
    (by rw [he]; exact hl) hp

/-- C35: one end call on the context embedded in the region adds its measurement, in any world. -/
theorem C35_one (env : Env M) (w w' : World M) (r : ℕ) (c : CtxPtr) (metric : ℚ) (R : Region) (m : M)
    (C : Ctx) (hR : w.regions r = some R) (hm : w.models r = some m) (hC : w.ctxs c = some C)
    (h : collectContext env w r c metric = .ok w') :
    (w'.regions r).map Region.dataset = some (if w.cfg.persistent || env.ops.isTrainable m then
      R.dataset.insert C.features C.policy metric else R.dataset) ∧
    ∀ r', r' ≠ r → w'.regions r' = w.regions r' := by
  obtain ⟨R', m', C', l, h1⟩ := collectContext_ok h
  have h2 := h1.region
  have h3 := h1.model
  have h4 := h1.ctx
  rw [hR] at h2
  rw [hm] at h3
  rw [hC] at h4
  cases h2; cases h3; cases h4
  refine ⟨?_, fun r' hr => by rw [h1.regions, Function.update_of_ne hr]⟩
  rw [h1.regions, Function.update_self]
  rfl

/-- C35 needs that a policy was asked for: an execution of the embedded context that does not ask is
recorded with the policy of an earlier execution. -/
theorem C35_stale_policy : ∃ w, exec demoEnv
    ([demoCreate "a"] ++ demoRun 0 3 (1 / 2) ++ demoRun 0 4 (1 / 4) ++
      [.begin 0 .sync, .setFeature 0 (.sync 0) 5, .endMetric 0 (.sync 0) 1])
    (initWorld {} fun _ => none) = .ok w ∧
    ((w.regions 0).map (fun R => R.dataset.map fun e => (ofLex e.1)) =
      some [([3], 0), ([4], 1), ([5], 1)] ∧ (observe w.log).proper 0 = false) :=
  run_ok (by decide +kernel)

example : ∃ w m, exec demoEnv demoOps (initWorld {} fun _ => none) = .ok w ∧
    w.models 0 = some m ∧ m.isTrainable = true ∧ (observe w.log).proper 0 = true ∧
    (observe w.log).rows 0 = [⟨0, [3], 0, 1 / 2⟩, ⟨1, [4], 1, 1 / 4⟩] := by
  have h : ∃ w, exec demoEnv demoOps (initWorld {} fun _ => none) = .ok w ∧
      ((w.models 0).map PolicyModel.isTrainable = some true ∧ (observe w.log).proper 0 = true ∧
        (observe w.log).rows 0 = [⟨0, [3], 0, 1 / 2⟩, ⟨1, [4], 1, 1 / 4⟩]) :=
    run_ok (by decide +kernel)
  obtain ⟨w, hw, h1, h2, h3⟩ := h
  cases hm : w.models 0 with
  | none => rw [hm] at h1; cases h1
  | some m => rw [hm] at h1; exact ⟨w, m, hw, hm, by simpa using h1, h2, h3⟩

/-! ## C36 -/

/-- C36: at any point of any execution, a context that was collected is released, and no asynchronous
context was collected twice. -/
theorem C36_once (env : Env M) (cfg : Cfg) (files : Str → Option Str) (ops : List Op) (w : World M)
    (h : exec env ops (initWorld cfg files) = .ok w) :
    (∀ n, timesFinished (.heap n) w.log ≤ 1) ∧
    ∀ r n m, Ev.finished r (.heap n) m ∈ w.log → w.ctxs (.heap n) = none := by
  have h1 := ((Released.invariant env fun _ => True).exec (fun _ _ _ _ => trivial)
    ⟨logInv_init cfg files, released_init cfg files⟩ h).2
  exact ⟨h1.once, fun r n m hm => (h1.released r n m hm).2⟩

/-- C36: a context that was ended is pending in its region or was collected for it. -/
theorem C36_not_lost (env : Env M) (cfg : Cfg) (files : Str → Option Str) (ops : List Op)
    (w : World M) (h : exec env ops (initWorld cfg files) = .ok w) (r : ℕ) (c : CtxPtr)
    (he : Ev.ended r c ∈ w.log) :
    (∃ R, w.regions r = some R ∧ c ∈ R.pending) ∨ ∃ m, Ev.finished r c m ∈ w.log := by
  have h1 := ((Tracked.invariant env fun _ => True).exec (fun _ _ _ _ => trivial)
    ⟨logInv_init cfg files, tracked_init cfg files⟩ h).2
  refine (h1.ended r c he).imp (fun hc => ?_) id
  unfold World.pend at hc
  split at hc
  · exact ⟨_, ‹_›, hc⟩
  · cases hc

/-- C36: only contexts that were ended are pending. -/
theorem C36_only_ended (env : Env M) (cfg : Cfg) (files : Str → Option Str) (ops : List Op)
    (w : World M) (h : exec env ops (initWorld cfg files) = .ok w) (r : ℕ) (R : Region) (c : CtxPtr)
    (hR : w.regions r = some R) (hc : c ∈ R.pending) : Ev.ended r c ∈ w.log ∧ c ≠ .sync r := by
  have h1 := ((Tracked.invariant env fun _ => True).exec (fun _ _ _ _ => trivial)
    ⟨logInv_init cfg files, tracked_init cfg files⟩ h).2
  exact h1.pending r c (by rw [World.pend_of hR]; exact hc)

/-- C36: `end(context)` of an asynchronous context registers it: it is pending afterwards or was
collected. -/
theorem C36_ended (env : Env M) (w w' : World M) (r n : ℕ)
    (h : endCtx env w r (.heap n) = .ok w') : Ev.ended r (.heap n) ∈ w'.log := by
  obtain ⟨R, C, hR, hC, h | h⟩ := endCtx_ok h
  · obtain ⟨m, hc, _⟩ := h
    cases hc
  · obtain ⟨-, h⟩ := h
    obtain ⟨kept, l, s, -⟩ := collectPending_swept h
    rw [s.log]
    exact List.mem_append_left _ (by simp [World.emit])

/-- C36: a collection asks the timer of each pending context once, in order; those that were not done
stay pending, in order, the others are counted. -/
theorem C36_collection (env : Env M) (w w' : World M) (r : ℕ) (R : Region)
    (hR : w.regions r = some R) (h : collectPending env w r = .ok w') :
    ∃ l R', w'.log = w.log ++ l ∧ w'.regions r = some R' ∧
      (l.filterMap polled).map Prod.fst = R.pending ∧
      R'.pending = ((l.filterMap polled).filter fun x => !x.2).map Prod.fst ∧
      w'.executions + R'.pending.length = w.executions + R.pending.length := by
  obtain ⟨R₀, kept, w₁, R₁, hR₀, h1, hR₁, rfl⟩ := collectPending_ok h
  rw [hR] at hR₀
  cases hR₀
  obtain ⟨⟨l, s⟩, hp⟩ := collectLoop_swept h1
  exact ⟨l, { R₁ with pending := kept }, s.log, by simp [World.setRegion], s.asked, s.left,
    s.executions⟩

/-- C36: a timer that is done when asked is not pending afterwards; one that is not done stays. -/
theorem C36_timer (env : Env M) (w w' : World M) (r n : ℕ) (h : collectPending env w r = .ok w') :
    ((∀ t h, w.tick ≤ t → ∃ m, env.poll t h n = .done m) → .heap n ∉ w'.pend r) ∧
    ((∀ t h, w.tick ≤ t → env.poll t h n = .waiting) → .heap n ∈ w.pend r → .heap n ∈ w'.pend r) := by
  obtain ⟨kept, l, s, hp⟩ := collectPending_swept h
  rw [hp, Function.update_self]
  exact ⟨s.done n, s.waits n⟩

/-- C36: when a region is destroyed all its contexts that were ended have been collected. -/
theorem C36_destroyed (env : Env M) (cfg : Cfg) (files : Str → Option Str) (ops : List Op)
    (r fuel : ℕ) (w w' : World M) (h : exec env ops (initWorld cfg files) = .ok w)
    (hd : destroyRegion env w r fuel = .ok w') (c : CtxPtr) (he : Ev.ended r c ∈ w'.log) :
    ∃ m, Ev.finished r c m ∈ w'.log := by
  have h1 := (Tracked.invariant env fun _ => True).exec (fun _ _ _ _ => trivial)
    ⟨logInv_init cfg files, tracked_init cfg files⟩ h
  have h2 := (Tracked.invariant env fun _ => True).destroyRegion h1 hd
  refine (h2.2.ended r c he).resolve_left ?_
  obtain ⟨w₁, R, _, _, _, rfl⟩ := destroyRegion_ok hd
  obtain ⟨f1, -⟩ := afterDestroy_frame env w₁ r R
  simp [World.pend, f1]

/-- C36: the destructor does not wait for ever: if the timers of the pending contexts are done from
tick `T` on, it is done after at most `T + 1` rounds. -/
theorem C36_destructor_ends (env : Env M) (he : Ends env.ops) (w : World M) (r T fuel : ℕ)
    (hT : ∀ n, .heap n ∈ w.pend r → ∀ t h, T ≤ t → ∃ m, env.poll t h n = .done m) (hf : T < fuel) :
    destroyRegion env w r fuel ≠ .error .diverge := by
  unfold destroyRegion
  refine Res.bind_ne_diverge (w.region_ends r) fun R => ?_
  refine Res.bind_ne_diverge ?_ fun w₁ => ?_
  · exact drain_ends he hT (by omega) (by omega)
  · exact Res.bind_ne_diverge (w₁.region_ends r) fun R => by simp

/-- C36: with the policy models of the library, training and storing do not keep the destructor from
ending. -/
theorem C36_destructor_ends_models (gen : ℕ → ℕ → ℕ) (tenv : ℕ → TrainEnv) (env : Env PolicyModel)
    (ho : env.ops = policyOps gen tenv) (w : World PolicyModel) (r T fuel : ℕ)
    (hT : ∀ n, .heap n ∈ w.pend r → ∀ t h, T ≤ t → ∃ m, env.poll t h n = .done m) (hf : T < fuel) :
    destroyRegion env w r fuel ≠ .error .diverge :=
  C36_destructor_ends env (ho ▸ policyOps_ends gen tenv) w r T fuel hT hf

/-- With the demo timers the destructor collects both contexts. -/
example : ∃ w, exec demoEnv (demoOps ++ [.destroy 0 20]) (initWorld {} fun _ => none) = .ok w ∧
    (w.executions = 4 ∧ timesFinished (.heap 0) w.log = 1 ∧ timesFinished (.heap 1) w.log = 1 ∧
      Ev.ended 0 (.heap 1) ∈ w.log ∧ w.regions 0 = none) :=
  run_ok (by decide +kernel)

example : ∃ w, exec demoEnv demoOps (initWorld {} fun _ => none) = .ok w ∧
    (∀ n, .heap n ∈ w.pend 0 → ∀ t h, 12 ≤ t → ∃ m, demoEnv.poll t h n = .done m) := by
  obtain ⟨w, hw, -⟩ := demo_ok
  refine ⟨w, hw, fun n _ t h ht => ?_⟩
  simp [demoEnv, ht]

/-! ## C37 -/

/-- What the observer knows of the features of a context does not depend on what was before its last
`begin`. -/
theorem observe_features_since (h h' : List Ev) (r r' : ℕ) (c : CtxPtr) (l : List Ev) :
    (observe (h ++ .began r c :: l)).features c = (observe (h' ++ .began r' c :: l)).features c := by
  induction l using List.reverseRecOn with
  | nil => rw [observe_snoc, observe_snoc]; simp [Observer.next]
  | append_singleton l e ih =>
    have e1 : ∀ (h : List Ev) (r : ℕ),
        h ++ .began r c :: (l ++ [e]) = (h ++ .began r c :: l) ++ [e] := by
      intro h r; simp
    rw [e1, e1, observe_snoc, observe_snoc]
    cases e with
    | began r₁ c₁ =>
      by_cases hc : c = c₁
      · subst hc; simp [Observer.next]
      · simp [Observer.next, hc, ih]
    | assigned c₁ f =>
      by_cases hc : c = c₁
      · subst hc; simp [Observer.next]
      · simp [Observer.next, hc, ih]
    | feature c₁ v =>
      by_cases hc : c = c₁
      · subst hc; simp [Observer.next, ih]
      · simp [Observer.next, hc, ih]
    | _ => exact ih

/-- C37: at any point of any execution the features of a context in use are those set on it since its
last `begin`, whatever happened before. -/
theorem C37_features (env : Env M) (cfg : Cfg) (files : Str → Option Str) (ops : List Op)
    (w : World M) (h : exec env ops (initWorld cfg files) = .ok w) (c : CtxPtr) (C : Ctx)
    (hC : w.ctxs c = some C) (ho : (observe w.log).isOpen c = true) (pre l : List Ev) (r : ℕ)
    (hl : w.log = pre ++ .began r c :: l) :
    C.features = (observe (.began r c :: l)).features c := by
  rw [(reachable_log h).feats c C hC ho, hl]
  exact observe_features_since pre [] r r c l

/-- C37: `begin` clears the features, in every state. -/
theorem C37_begin_clears (env : Env M) (w w' : World M) (r : ℕ) (k : TimingKind) (c : CtxPtr)
    (h : begin env w r k = .ok (c, w')) : ∃ C, w'.ctxs c = some C ∧ C.features = [] := by
  obtain ⟨R, C, hb⟩ := begin_ok h
  exact ⟨_, by rw [hb.ctxs, Function.update_self], rfl⟩

/-- C37: a synchronous execution in any state: the model is asked with exactly the features set, and
the measurement is recorded with exactly them. -/
theorem C37_execution (env : Env M) (w w' : World M) (r : ℕ) (vs : List ℚ)
    (h : exec env (.begin r .sync :: vs.map (.setFeature r (.sync r))) w = .ok w') :
    ∃ C, w'.ctxs (.sync r) = some C ∧ C.features = vs := by
  have key : ∀ (vs : List ℚ) (w₁ : World M) (C₁ : Ctx), w₁.ctxs (.sync r) = some C₁ →
      exec env (vs.map (.setFeature r (.sync r))) w₁ = .ok w' →
      ∃ C, w'.ctxs (.sync r) = some C ∧ C.features = C₁.features ++ vs := by
    intro vs
    induction vs with
    | nil =>
      intro w₁ C₁ hC h
      simp only [List.map_nil, exec] at h
      cases h
      exact ⟨C₁, hC, by simp⟩
    | cons v vs ih =>
      intro w₁ C₁ hC h
      simp only [List.map_cons, exec] at h
      obtain ⟨⟨x, w₂⟩, h1, h⟩ := (Res.bind_eq_ok _ _ _).1 h
      obtain ⟨w₃, h2, h1⟩ := (Res.bind_eq_ok _ _ _).1 h1
      cases h1
      obtain ⟨C₂, hC₂, rfl⟩ := setFeature_ok h2
      rw [hC] at hC₂
      cases hC₂
      obtain ⟨C, h3, h4⟩ := ih _ { C₁ with features := C₁.features ++ [v] }
        (by simp [World.emit, World.setCtx]) h
      exact ⟨C, h3, by rw [h4]; simp⟩
  simp only [exec] at h
  obtain ⟨⟨x, w₁⟩, h1, h⟩ := (Res.bind_eq_ok _ _ _).1 h
  obtain ⟨⟨c, w₂⟩, h2, h1⟩ := (Res.bind_eq_ok _ _ _).1 h1
  cases h1
  obtain ⟨R, C, hb⟩ := begin_ok h2
  have hc : c = .sync r := by
    unfold begin createContext at h2
    obtain ⟨R, hR, h2⟩ := (Res.bind_eq_ok _ _ _).1 h2
    obtain ⟨⟨c₀, w₀⟩, h0, h2⟩ := (Res.bind_eq_ok _ _ _).1 h2
    obtain ⟨C₀, hC₀, h0⟩ := (Res.bind_eq_ok _ _ _).1 h0
    cases h0
    obtain ⟨R', hR', h2⟩ := (Res.bind_eq_ok _ _ _).1 h2
    obtain ⟨C', hC', h2⟩ := (Res.bind_eq_ok _ _ _).1 h2
    dsimp only at h2
    split at h2
    · cases h2; rfl
    · cases h2
  subst hc
  obtain ⟨C', h3, h4⟩ := key vs _ _ (by rw [hb.ctxs, Function.update_self]) h
  exact ⟨C', h3, by rw [h4]; simp⟩

/-- In the demo the second execution uses the feature 4 alone although the embedded context is the one
of the first execution. -/
example : ∃ w, exec demoEnv ([demoCreate "a"] ++ demoRun 0 3 (1 / 2) ++
      [.begin 0 .sync, .setFeature 0 (.sync 0) 4]) (initWorld {} fun _ => none) = .ok w ∧
    ((w.ctxs (.sync 0)).map Ctx.features = some [4] ∧ (observe w.log).isOpen (.sync 0) = true) :=
  run_ok (by decide +kernel)

end Apollo.Props
