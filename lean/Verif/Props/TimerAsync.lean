import Verif.Proofs.TimerOrder
import Verif.Props.Region

/-!
# Properties C73 and C74: asynchronous timings
-/

namespace Apollo.Props

open Apollo Apollo.Spec

variable {M : Type}

/-! ## C73 -/

/-- C73: whatever programs do, on any device, no timer is asked that cannot answer: executions do not
depend on what would happen after such a question (replacing the failure by any other answer `x` changes
nothing). -/
theorem C73_answers (env : Env M) (D : Device) (x : TimerAns) (cfg : Cfg)
    (files : Str → Option Str) (ops : List Op) :
    exec ((env.onDevice D).unfailing x) ops (initWorld cfg files) =
      exec (env.onDevice D) ops (initWorld cfg files) :=
  exec_unfailing (asked_init cfg files)

/-- C73: if the callers pass no metrics, every asynchronous execution that finished did so after the
device had executed its end, with the time the device took from its begin to its end. -/
theorem C73_measured (env : Env M) (D : Device) (cfg : Cfg) (files : Str → Option Str)
    (ops : List Op) (hg : ∀ op ∈ ops, op.givesMetric = false) (w : World M)
    (h : exec (env.onDevice D) ops (initWorld cfg files) = .ok w) : AllMeasured D w.log :=
  ((measured_observed env D).exec hg ⟨asked_init cfg files, measured_init D cfg files⟩ h).2

/-- C73: such times are not negative. -/
theorem C73_nonneg (env : Env M) (D : Device) (hD : D.Forward) (cfg : Cfg)
    (files : Str → Option Str) (ops : List Op) (hg : ∀ op ∈ ops, op.givesMetric = false)
    (w : World M) (h : exec (env.onDevice D) ops (initWorld cfg files) = .ok w) (r n : ℕ) (m : ℚ)
    (hm : Ev.finished r (.heap n) m ∈ w.log) : 0 ≤ m := by
  obtain ⟨h₁, h₂, heq⟩ := List.append_of_mem hm
  exact (C73_measured env D cfg files ops hg w h h₁ r n m h₂ heq).nonneg hD

/-- A device that is always three commands behind, and takes 250 milliseconds for each. -/
def lateDevice : Device where
  passed := fun h => h.length - 3
  time := fun k => 250 * k

theorem lateDevice_forward : lateDevice.Forward := fun a b hab => by
  have : (a : ℚ) ≤ b := by exact_mod_cast hab
  simp only [lateDevice]
  linarith

/-- Two asynchronous executions and two more collections. -/
def asyncOps : List Op :=
  [demoCreate "a", .begin 0 .async, .endCtx 0 (.heap 0), .begin 0 .async, .setFeature 0 (.heap 1) 7,
    .endCtx 0 (.heap 1), .collect 0, .collect 0]

/-- The first execution takes one command, the second two; both are collected late. -/
theorem async_ok : ∃ w, exec (demoEnv.onDevice lateDevice) asyncOps (initWorld {} fun _ => none) = .ok w ∧
    (w.log.filter (fun e => match e with
      | .finished _ _ _ => true | .waiting _ => true | _ => false) =
      [.waiting (.heap 0), .finished 0 (.heap 0) (1 / 4), .waiting (.heap 1),
        .waiting (.heap 1), .finished 0 (.heap 1) (1 / 2)] ∧ w.executions = 2) :=
  run_ok (by decide +kernel)

example : (∀ op ∈ asyncOps, op.givesMetric = false) ∧ lateDevice.Forward ∧
    ∃ w, exec (demoEnv.onDevice lateDevice) asyncOps (initWorld {} fun _ => none) = .ok w ∧
      AllMeasured lateDevice w.log ∧ Ev.finished 0 (.heap 1) (1 / 2) ∈ w.log := by
  obtain ⟨w, hw, h1, h2⟩ := async_ok
  have hg : ∀ op ∈ asyncOps, op.givesMetric = false := by decide
  refine ⟨hg, lateDevice_forward, w, hw, C73_measured _ _ _ _ _ hg _ hw, ?_⟩
  have : Ev.finished 0 (.heap 1) (1 / 2) ∈ w.log.filter (fun e => match e with
      | .finished _ _ _ => true | .waiting _ => true | _ => false) := by rw [h1]; simp
  exact (List.mem_filter.1 this).1

/-- There are questions a timer cannot answer: before the end of its execution, and after its release. -/
example : lateDevice.poll [.began 0 (.heap 0)] 0 = .failed ∧
    lateDevice.poll [.began 0 (.heap 0), .ended 0 (.heap 0), .finished 0 (.heap 0) 1] 0 = .failed ∧
    lateDevice.poll [.began 0 (.heap 0), .ended 0 (.heap 0)] 0 = .waiting := by
  decide +kernel

/-! ## C74 -/

/-- C74: the asynchronous executions of a region, each ended once, finish in the order of their ends. -/
def C74_claim : Prop :=
  ∀ (M : Type) (env : Env M) (D : Device) (cfg : Cfg) (files : Str → Option Str) (ops : List Op)
    (w : World M), (∀ op ∈ ops, op.givesMetric = false) →
    exec (env.onDevice D) ops (initWorld cfg files) = .ok w → EndedOnce w.log → InOrder w.log

/-- C74, part: if the device makes no progress while contexts are collected.  (Missing: progress in the
middle of a collection, where the property is false, see `C74_fails`.) -/
theorem C74_partial (env : Env M) (D : Device) (hD : D.Still) (cfg : Cfg)
    (files : Str → Option Str) (ops : List Op) (hg : ∀ op ∈ ops, op.givesMetric = false)
    (w : World M) (h : exec (env.onDevice D) ops (initWorld cfg files) = .ok w)
    (ho : EndedOnce w.log) : InOrder w.log :=
  ((inOrder_observed env hD).exec hg ⟨⟨asked_init cfg files, logInv_init cfg files,
    queued_init cfg files⟩, fun _ => inOrder_init cfg files⟩ h).2 ho

/-- A device that has done nothing in histories shorter than `k`, and then everything. -/
def burstDevice (k : ℕ) : Device where
  passed := fun h => if h.length < k then 0 else h.length
  time := fun k => k

/-- Two asynchronous executions. -/
def burstOps : List Op :=
  [demoCreate "a", .begin 0 .async, .endCtx 0 (.heap 0), .begin 0 .async, .endCtx 0 (.heap 1)]

theorem burst_ok : ∃ w, exec (demoEnv.onDevice (burstDevice 7)) burstOps
    (initWorld {} fun _ => none) = .ok w ∧
    w.log = [.created 0 [] true, .began 0 (.heap 0), .ended 0 (.heap 0), .waiting (.heap 0),
      .began 0 (.heap 1), .ended 0 (.heap 1), .waiting (.heap 0),
      .finished 0 (.heap 1) (rnd64 (1 / 1000))] :=
  run_ok (by decide +kernel)

theorem burst_once {d : Dataset} {m : ℚ} : EndedOnce [.created 0 d true, .began 0 (.heap 0),
    .ended 0 (.heap 0), .waiting (.heap 0), .began 0 (.heap 1), .ended 0 (.heap 1),
    .waiting (.heap 0), .finished 0 (.heap 1) m] := by
  intro i j r r' c hi hj
  match i, j with
  | 2, 2 => rfl
  | 5, 5 => rfl
  | 2, 5 => simp at hi hj; cases hi.2.trans hj.2.symm
  | 5, 2 => simp at hi hj; cases hi.2.trans hj.2.symm
  | 0, _ | 1, _ | 3, _ | 4, _ | 6, _ | 7, _ => simp at hi
  | _, 0 | _, 1 | _, 3 | _, 4 | _, 6 | _, 7 => simp at hj
  | n + 8, _ => simp at hi
  | _, n + 8 => simp at hj

/-- C74 fails: the device makes progress between two questions of a collection. -/
theorem C74_fails : ¬ C74_claim := by
  intro H
  obtain ⟨w, hw, h1⟩ := burst_ok
  have h2 := H _ _ _ _ _ _ w (by decide) hw (by rw [h1]; exact burst_once)
  rw [h1] at h2
  obtain ⟨k, hk, m, hm⟩ := h2 0 0 1 2 5 7 _ rfl rfl (by omega) (by omega) rfl
  have : k = 0 ∨ k = 1 ∨ k = 2 ∨ k = 3 ∨ k = 4 ∨ k = 5 ∨ k = 6 := by omega
  rcases this with rfl | rfl | rfl | rfl | rfl | rfl | rfl <;> simp at hm

/-- A device that works only while the host does other things than collecting. -/
def laggingDevice : Device where
  passed := fun h => (h.reverse.dropWhile collecting).length - 1
  time := fun k => k

theorem laggingDevice_still : laggingDevice.Still := by
  intro h e he k hk
  simp [laggingDevice, he]

example : laggingDevice.Still ∧ ∃ w, exec (demoEnv.onDevice laggingDevice)
    (burstOps ++ [.begin 0 .async, .collect 0]) (initWorld {} fun _ => none) = .ok w ∧
    InOrder w.log ∧ w.log = [.created 0 [] true, .began 0 (.heap 0), .ended 0 (.heap 0),
      .waiting (.heap 0), .began 0 (.heap 1), .ended 0 (.heap 1),
      .finished 0 (.heap 0) (rnd64 (1 / 1000)), .waiting (.heap 1), .began 0 (.heap 2),
      .finished 0 (.heap 1) (rnd64 (1 / 1000))] := by
  obtain ⟨w, hw, h1⟩ : ∃ w, exec (demoEnv.onDevice laggingDevice)
      (burstOps ++ [.begin 0 .async, .collect 0]) (initWorld {} fun _ => none) = .ok w ∧
      w.log = [.created 0 [] true, .began 0 (.heap 0), .ended 0 (.heap 0),
        .waiting (.heap 0), .began 0 (.heap 1), .ended 0 (.heap 1),
        .finished 0 (.heap 0) (rnd64 (1 / 1000)), .waiting (.heap 1), .began 0 (.heap 2),
        .finished 0 (.heap 1) (rnd64 (1 / 1000))] := run_ok (by decide +kernel)
  refine ⟨laggingDevice_still, w, hw, C74_partial _ _ laggingDevice_still _ _ _ (by decide) _ hw ?_,
    h1⟩
  rw [h1]
  intro i j r r' c hi hj
  match i, j with
  | 2, 2 => rfl
  | 5, 5 => rfl
  | 2, 5 => simp at hi hj; cases hi.2.trans hj.2.symm
  | 5, 2 => simp at hi hj; cases hi.2.trans hj.2.symm
  | 0, _ | 1, _ | 3, _ | 4, _ | 6, _ | 7, _ | 8, _ | 9, _ => simp at hi
  | _, 0 | _, 1 | _, 3 | _, 4 | _, 6 | _, 7 | _, 8 | _, 9 => simp at hj
  | n + 10, _ => simp at hi
  | _, n + 10 => simp at hj

end Apollo.Props
