import Verif.Model.Region

/-!
# Model of the asynchronous timers

Source: src/timers/TimerCudaAsync.cpp:30-64, src/timers/TimerHipAsync.cpp:30-65 (the same text with
other names), src/Region.cpp:447-457.

A timer owns two events of the device runtime.  `start` and `stop` put a command into the default
stream which marks the event; commands of a stream are executed in order, some time after they were
issued.  The runtime itself is modelled by what its documentation says: `cudaEventElapsedTime` fails
unless both events were recorded, answers "not ready" unless the device has executed both commands,
and otherwise gives the time between them in milliseconds as a `float`.

Commands are numbered by the position of their call in the history.  Not modelled: errors of the
device which the runtime reports late (a failed kernel), the resolution of the clock of the device,
and streams other than the default one.
-/

namespace Apollo

/-- The device as the host sees it: how many commands of the stream it has executed after a history,
and when (in milliseconds on its own clock) it executed each of them. -/
structure Device where
  passed : List Ev → ℕ
  time : ℕ → ℚ

/-- TimerCudaAsync.h:23-25: the two events; what is kept is the number of the command that was last
issued to record the event. -/
structure AsyncTimer where
  eventStart : Option ℕ := none
  eventStop : Option ℕ := none
  deriving DecidableEq

/-- What `cudaEventElapsedTime` answers. -/
inductive ElapsedAns
  | success (ms : ℚ)
  | notReady
  | invalidHandle
  deriving DecidableEq

/-- `cudaEventElapsedTime` (CUDA runtime API, Event Management). -/
def Device.elapsed (D : Device) (h : List Ev) (start stop : Option ℕ) : ElapsedAns :=
  match start, stop with
  | some a, some b =>
    if a < D.passed h ∧ b < D.passed h then .success (rnd32 (D.time b - D.time a)) else .notReady
  | _, _ => .invalidHandle

namespace AsyncTimer

/-- TimerCudaAsync.cpp:41-45: the `k`-th command records the start. -/
def start (T : AsyncTimer) (k : ℕ) : AsyncTimer := { T with eventStart := some k }

/-- TimerCudaAsync.cpp:47. -/
def stop (T : AsyncTimer) (k : ℕ) : AsyncTimer := { T with eventStop := some k }

/-- TimerCudaAsync.cpp:49-64. -/
def isDone (T : AsyncTimer) (D : Device) (h : List Ev) : TimerAns :=
  match D.elapsed h T.eventStart T.eventStop with
  | .success ms => .done (rnd64 (ms / 1000))
  | .notReady => .waiting
  | .invalidHandle => .failed

end AsyncTimer

/-- What a call does to the timers of the contexts, by number of the context: `begin` creates a timer
and starts it (Region.cpp:448-449, 480), `end` stops it (Region.cpp:571), the release of the context
destroys it (Region.cpp:531, 434). -/
def nextTimers (k : ℕ) (T : ℕ → Option AsyncTimer) : Ev → ℕ → Option AsyncTimer
  | .began _ (.heap n) => Function.update T n (some (({} : AsyncTimer).start k))
  | .ended _ (.heap n) => Function.update T n ((T n).map fun x => x.stop k)
  | .finished _ (.heap n) _ => Function.update T n none
  | _ => T

/-- The timers after a history, and its length. -/
def timersFrom : List Ev → ℕ × (ℕ → Option AsyncTimer) → ℕ × (ℕ → Option AsyncTimer)
  | [], s => s
  | e :: h, s => timersFrom h (s.1 + 1, nextTimers s.1 s.2 e)

/-- The timers after a history. -/
def timers (h : List Ev) : ℕ → Option AsyncTimer := (timersFrom h (0, fun _ => none)).2

/-- What `isDone` of the timer of a context answers on the device; a timer that does not exist counts
as failed. -/
def Device.poll (D : Device) (h : List Ev) (n : ℕ) : TimerAns :=
  match timers h n with
  | some T => T.isDone D h
  | none => .failed

/-- The surroundings with the timers of the device. -/
def Env.onDevice {M : Type} (env : Env M) (D : Device) : Env M :=
  { env with poll := fun _ h n => D.poll h n }

end Apollo
