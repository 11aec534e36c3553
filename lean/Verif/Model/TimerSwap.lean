import Verif.Model.TimerAsync

/-!
# Model of regions whose synchronous context was given another timer

Source: test/test-cuda.cpp:92-97, test/test-hip.cpp:95-100 (the program replaces the timer of the context
which `begin` returned), src/Region.cpp:437-483 and 569-580 (what the region does with that timer).

The synchronous context belongs to the region and is used again by the next execution
(src/Region.cpp:441-446), with the timer that was put there.  Commands of the default stream (kernels,
copies, records of events) are numbered in the order in which they are issued.

Not modelled: other timers of the device in the same program (contexts of kind `async`), errors of the
device, and `end` of a synchronous context of another region whose timer was replaced.
-/

namespace Apollo

/-- The stream as the host sees it: how many of its commands the device has executed when the host asks
after having issued `k` of them, and when (in milliseconds on the clock of the device) it executed each. -/
structure Stream where
  passed : ℕ → ℕ
  time : ℕ → ℚ

/-- The device at the moment at which `k` commands have been issued. -/
def Stream.device (S : Stream) (k : ℕ) : Device := ⟨fun _ => S.passed k, S.time⟩

variable {M : Type}

/-- The state of the process, the timers put in place of the ones which the synchronous contexts had
(Region.cpp:264), by region, and the number of commands issued. -/
structure Swapped (M : Type) where
  world : World M
  timer : ℕ → Option AsyncTimer := fun _ => none
  issued : ℕ := 0

/-- What a program that uses the device does. -/
inductive DevOp
  /-- a call of the library -/
  | host (op : Op)
  /-- test-cuda.cpp:95-97: a new timer for the synchronous context of the region, which is started -/
  | install (r : ℕ)
  /-- a kernel is launched or data copied: test-cuda.cpp:85-86, 112, 114 -/
  | command

/-- Region.cpp:480 on the timer the synchronous context of the region has: a replaced timer records
another event (TimerCudaAsync.cpp:41-45). -/
def restart (s : Swapped M) (r : ℕ) : Swapped M :=
  match s.timer r with
  | none => s
  | some T => { s with timer := Function.update s.timer r (some (T.start s.issued)), issued := s.issued + 1 }

/-- Region.cpp:569-580.  The answer of `isDone` is not looked at (line 574): a timer that is not done
leaves `metric` as it was, without a value. -/
def endSwapped (env : Env M) (S : Stream) (s : Swapped M) (r : ℕ) (c : CtxPtr) : Res (Swapped M) :=
  match c with
  | .heap _ => do
    let w ← endCtx env s.world r c
    .ok { s with world := w }
  | .sync r' =>
    match s.timer r' with
    | none => do
      let w ← endCtx env s.world r c
      .ok { s with world := w }
    | some T =>
      if r' = r then do
        let _ ← s.world.region r
        let _ ← s.world.ctx c
        let T := T.stop s.issued
        match T.isDone (S.device (s.issued + 1)) s.world.log with
        | .done metric => do
          let w ← collectContext env (s.world.emit (.finished r c metric)) r c metric
          .ok ⟨w, Function.update s.timer r (some T), s.issued + 1⟩
        | .waiting => .error (.ub .uninit)
        | .failed => .error .abort
      else .error .unmodelled

/-- One step of the program. -/
def devStep (env : Env M) (S : Stream) (s : Swapped M) : DevOp → Res (Swapped M)
  | .command => .ok { s with issued := s.issued + 1 }
  | .install r => do
    let _ ← s.world.ctx (.sync r)
    .ok { s with timer := Function.update s.timer r (some (({} : AsyncTimer).start s.issued))
                 issued := s.issued + 1 }
  | .host (.begin r .sync) => do
    let (_, w) ← step env s.world (.begin r .sync)
    .ok (restart { s with world := w } r)
  | .host (.beginWith r f) => do
    let (_, w) ← step env s.world (.beginWith r f)
    .ok (restart { s with world := w } r)
  | .host (.endCtx r c) => endSwapped env S s r c
  | .host (.endCur r) => do
    let c ← currentCtx s.world r
    endSwapped env S s r c
  | .host op => do
    let (_, w) ← step env s.world op
    .ok { s with world := w }

/-- A program. -/
def devExec (env : Env M) (S : Stream) : List DevOp → Swapped M → Res (Swapped M)
  | [], s => .ok s
  | op :: ops, s => do
    let s ← devStep env S s op
    devExec env S ops s

end Apollo
