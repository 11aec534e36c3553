import Verif.Model.Kokkos

/-!
# Model of the kernels seen by the Kokkos connector

Source: src/connectors/kokkos/kokkos-connector.cpp:358-420.

Simplifications:
* Kernels of the three kinds are handled by functions with the same body (lines 380-420).
* The begin and the end of a kernel change nothing in the connector, so that a kernel is one call: its begin
  and its end with the number that the begin returned.  What happens on the device is not modelled, only the
  device that is fenced.
* The names of kernels are not looked at by the connector and left out.
-/

namespace Apollo.Kokkos

variable {M : Type}

/-- Kinds of kernels, kokkos-connector.cpp:380-420. -/
inductive KernelKind
  | parallelFor
  | parallelScan
  | parallelReduce
  deriving DecidableEq

/-- The state of the connector with `helper_functions.fence != nullptr` (kokkos-connector.cpp:358; a static
object, zero at first). -/
structure Session (M : Type) where
  tool : State M
  fence : Bool := false

/-- kokkos-connector.cpp:359-364: the device fenced by `invoke_fence`. -/
def invokeFence (s : Session M) (dev : ℕ) : Option ℕ := if fences s.fence s.tool then some dev else none

/-- kokkos-connector.cpp:380-386, 394-400, 408-414: the device fenced and the number of the kernel, a
`uint64_t` assigned from a `uint32_t`. -/
def beginKernel (s : Session M) (_ : KernelKind) (dev : ℕ) : Option ℕ × ℕ := (invokeFence s dev, dev)

/-- kokkos-connector.cpp:388-392, 402-406, 416-420: the number of the kernel is converted to `uint32_t`. -/
def endKernel (s : Session M) (_ : KernelKind) (kid : ℕ) : Option ℕ := invokeFence s (kid % 2 ^ 32)

/-- What Kokkos calls. -/
inductive Call
  /-- declarations, requests and ends of contexts -/
  | tool (op : KOp)
  /-- kokkos-connector.cpp:366-371: whether the interface provided has a function `fence` -/
  | provide (fence : Bool)
  /-- the begin and the end of a kernel on a device -/
  | kernel (kind : KernelKind) (dev : ℕ)

/-- What can be seen of a call. -/
inductive Seen
  | tool (x : Ret)
  | provided
  /-- the devices fenced at the begin and at the end -/
  | kernel (atBegin atEnd : Option ℕ)
  deriving DecidableEq

/-- One call. -/
def call (e : KEnv M) (s : Session M) : Call → Res (Seen × Session M)
  | .tool op => do
    let (x, t) ← kstep e s.tool op
    .ok (.tool x, { s with tool := t })
  | .provide f => .ok (.provided, { s with fence := f })
  | .kernel kind dev =>
    .ok (.kernel (beginKernel s kind dev).1 (endKernel s kind (beginKernel s kind dev).2), s)

/-- The calls one after the other, and what could be seen. -/
def calls (e : KEnv M) : List Call → Session M → Res (List Seen × Session M)
  | [], s => .ok ([], s)
  | c :: cs, s => do
    let (x, s) ← call e s c
    let (xs, s) ← calls e cs s
    .ok (x :: xs, s)

end Apollo.Kokkos
