import Verif.Spec.TestPrograms
import Verif.Model.TimerSwap

/-!
# The test programs for devices

Their calls and commands, and what they are to measure.  `wait` says whether the copy that brings the
results back, which waits for the kernel, comes before the end of the execution (test-cuda.cpp) or after
it (test-hip.cpp).
-/

namespace Apollo.Spec

/-- test/test-cuda.cpp:81-118, test/test-hip.cpp:84-121: one execution; `x` is the size of the problem. -/
def deviceRun (wait : Bool) (x : ℚ) : List DevOp :=
  [.command, .command, .host (.beginWith 0 [x]), .host (.getPolicyIndexCur 0), .install 0, .command] ++
    if wait then [.command, .host (.endCur 0)] else [.host (.endCur 0), .command]

/-- test/test-cuda.cpp:76-122 (there `n = 2` and `runs = 20`), test/test-hip.cpp:79-125 (`n = 3`): the
models are trained after the eleventh execution. -/
def deviceProgram (wait : Bool) (name : Str) (n : ℤ) (x : ℚ) (runs : ℕ) : List DevOp :=
  .host (.create 1 name n 0 [] []) :: (List.range runs).flatMap fun j =>
    deviceRun wait x ++ if j = 10 then [.host (.trainAll 0 true)] else []

/-- The number of the command which records the start of execution `j`: six commands come with the first
execution and seven with each later one, whose `begin` starts the timer left by the execution before. -/
def startCmd (j : ℕ) : ℕ := 7 * j + 2

/-- The number of the command which records the end of execution `j`: after the kernel, and after the copy
if that comes before the end. -/
def stopCmd (wait : Bool) (j : ℕ) : ℕ := 7 * j + if wait then 5 else 4

/-- The device has executed the command which records the end of execution `j` when it is asked. -/
def Ready (S : Stream) (wait : Bool) (j : ℕ) : Prop := stopCmd wait j < S.passed (stopCmd wait j + 1)

/-- What the device measured for execution `j`, in seconds. -/
def onDevice (S : Stream) (wait : Bool) (j : ℕ) : ℚ :=
  rnd64 (rnd32 (S.time (stopCmd wait j) - S.time (startCmd j)) / 1000)

/-- A stream as the runtime promises it: the device executes only commands that were issued, does not take
back what it executed, and its clock does not go back; a copy that waits has been executed when the host
continues. -/
structure _root_.Apollo.Stream.Sound (S : Stream) (wait : Bool) : Prop where
  issued : ∀ k, S.passed k ≤ k
  mono : Monotone S.passed
  time : Monotone S.time
  copied : wait = true → ∀ j k, stopCmd true j ≤ k → stopCmd true j ≤ S.passed k

/-- The measurements recorded, in order. -/
def recorded (l : List Ev) : List ℚ := l.filterMap fun | .finished _ _ m => some m | _ => none

end Apollo.Spec
