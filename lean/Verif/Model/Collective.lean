import Verif.Model.Region
import Verif.Num.Bits

/-!
# Model of collective training

Source: src/Apollo.cpp:264-470 (built with ENABLE_MPI).  All ranks of the communicator are modelled
at once: the registries of all ranks before and after `gatherCollectiveTrainingData`.

Of MPI the model has: `MPI_Pack` copies the object representation, and fails (fatally, as errors do
by default) when the bytes do not fit; `MPI_Unpack` likewise; `MPI_Allgather(v)` delivers the buffers
of all ranks in the order of ranks.  `MPI_Pack_size` is a parameter, since the standard promises only
an upper bound.  The trace of APOLLO_TRACE_ALLGATHER is left out.
-/

namespace Apollo.Collective

/-- The MPI datatypes used. -/
inductive MpiType
  | int
  | float
  | char
  | double

/-- Bytes of one element. -/
def MpiType.width : MpiType → ℕ
  | .int => 4
  | .float => 4
  | .char => 1
  | .double => 8

/-- What the MPI library decides: the answers of `MPI_Pack_size`. -/
structure Mpi where
  packSize : MpiType → ℕ → ℕ

/-- The MPI libraries in use answer the exact size on homogeneous machines. -/
def exactMpi : Mpi := ⟨fun t n => n * t.width⟩

/-- What the functions use of a region: `num_features` and `dataset`.  Its name is the key of the
registry (src/Region.cpp:403). -/
structure LReg where
  numFeatures : ℤ
  dataset : Dataset

/-- The registry of one rank, `Apollo::regions`. -/
abbrev Registry := OMap Str LReg

/-- A byte of a buffer from `malloc`; `none` when nothing was written to it. -/
abbrev Cell := Option Char

/-- src/Apollo.cpp:265-288.  A negative count is an error of MPI. -/
def measureSize (mpi : Mpi) (numFeatures : ℤ) : Res ℕ :=
  if numFeatures < 0 then .error .abort
  else .ok (mpi.packSize .int 1 + mpi.packSize .int 1 + mpi.packSize .float numFeatures.toNat +
    mpi.packSize .int 1 + mpi.packSize .char 64 + mpi.packSize .double 1)

/-- `MPI_Pack` at the current end of what is packed into a buffer of `size` bytes. -/
def pack (size : ℕ) (bytes : List Char) (buf : List Char) : Res (List Char) :=
  if buf.length + bytes.length ≤ size then .ok (buf ++ bytes) else .error .abort

/-- The member `char name[64]` of a region: padded with zeros (src/Region.cpp:266-267). -/
def nameBytes (name : List Char) : List Char := name ++ List.replicate (64 - name.length) nul

/-- src/Apollo.cpp:305-308: the loop over the features of a measurement. -/
def packFeatures (size : ℕ) : List ℚ → List Char → Res (List Char)
  | [], buf => .ok buf
  | x :: xs, buf => do
    let buf ← pack size (encFloat x) buf
    packFeatures size xs buf

/-- src/Apollo.cpp:295-325: one measurement. -/
def packMeasure (size : ℕ) (rank : ℤ) (name : List Char) (numFeatures : ℤ)
    (m : Features × ℤ × ℚ) (buf : List Char) : Res (List Char) := do
  let buf ← pack size (encInt 4 rank) buf
  let buf ← pack size (encInt 4 numFeatures) buf
  let buf ← packFeatures size m.1 buf
  let buf ← pack size (encInt 4 m.2.1) buf
  let buf ← pack size (nameBytes name) buf
  pack size (encDouble m.2.2) buf

/-- src/Apollo.cpp:290-327: the loop over the measurements. -/
def packMeasures (size : ℕ) (rank : ℤ) (name : List Char) (numFeatures : ℤ) :
    List (Features × ℤ × ℚ) → List Char → Res (List Char)
  | [], buf => .ok buf
  | m :: ms, buf => do
    let buf ← packMeasure size rank name numFeatures m buf
    packMeasures size rank name numFeatures ms buf

/-- src/Apollo.cpp:345-352: the part of the send buffer that belongs to a region. -/
def regionPart (mpi : Mpi) (rank : ℤ) (name : List Char) (R : LReg) : Res (List Cell) := do
  let one ← measureSize mpi R.numFeatures
  let size := R.dataset.size * one
  let buf ← packMeasures size rank name R.numFeatures R.dataset.toVectorOfTuples []
  .ok (buf.map some ++ List.replicate (size - buf.length) none)

/-- src/Apollo.cpp:335-352: the send buffer.  Sizes are kept in an `int`; larger ones are not
modelled. -/
def sendParts (mpi : Mpi) (rank : ℤ) : Registry → Res (List Cell)
  | [] => .ok []
  | (name, R) :: regs => do
    let a ← regionPart mpi rank name R
    let b ← sendParts mpi rank regs
    .ok (a ++ b)

/-- What a rank learns from one step of the loop src/Apollo.cpp:410-454. -/
structure Msg where
  rank : ℤ
  features : Features
  policy : ℤ
  name : List Char
  metric : ℚ
  deriving DecidableEq

/-- `MPI_Unpack` of `n` bytes: an error beyond the end, and reading bytes never written. -/
def unpack (n : ℕ) (buf : List Cell) : Res (List Char × List Cell) :=
  if buf.length < n then .error .abort
  else if (buf.take n).all Option.isSome then .ok ((buf.take n).filterMap id, buf.drop n)
  else .error (.ub .uninit)

/-- src/Apollo.cpp:422-427: the loop over the features. -/
def unpackFeatures : ℕ → List Cell → Res (Features × List Cell)
  | 0, buf => .ok ([], buf)
  | n + 1, buf => do
    let (b, buf) ← unpack 4 buf
    let x ← decFloat b
    let (xs, buf) ← unpackFeatures n buf
    .ok (x :: xs, buf)

/-- The string of the array `region_name`: up to the first zero, and beyond the array if it has
none. -/
def cString (s : List Char) : Res (List Char) :=
  if nul ∈ s then .ok (s.takeWhile (· ≠ nul)) else .error (.ub .outOfBounds)

/-- src/Apollo.cpp:411-432, and the conversion of the name at 449. -/
def unpackMsg (buf : List Cell) : Res (Msg × List Cell) := do
  let (b, buf) ← unpack 4 buf
  let rank := decInt b
  let (b, buf) ← unpack 4 buf
  let numFeatures := decInt b
  let (features, buf) ← unpackFeatures numFeatures.toNat buf
  let (b, buf) ← unpack 4 buf
  let policy := decInt b
  let (b, buf) ← unpack 64 buf
  let name ← cString b
  let (b, buf) ← unpack 8 buf
  let metric ← decDouble b
  .ok (⟨rank, features, policy, name, metric⟩, buf)

/-- src/Apollo.cpp:409-454: the loop; every step takes bytes away, `fuel` bounds the steps. -/
def unpackAll : ℕ → List Cell → Res (List Msg)
  | 0, buf => if buf = [] then .ok [] else .error .diverge
  | fuel + 1, buf =>
    if buf = [] then .ok []
    else do
      let (m, buf) ← unpackMsg buf
      let ms ← unpackAll fuel buf
      .ok (m :: ms)

/-- src/Apollo.cpp:444-453: what a rank does with a measurement. -/
def absorb (me : ℤ) (regs : Registry) (m : Msg) : Registry :=
  if m.rank = me then regs
  else match OMap.find regs m.name with
    | none => regs
    | some R => OMap.assign m.name
        { R with dataset := R.dataset.insert m.features m.policy m.metric } regs

/-- The send buffers of all ranks from number `i` on. -/
def sendAll (mpi : Mpi) : ℕ → List Registry → Res (List (List Cell))
  | _, [] => .ok []
  | i, regs :: rs => do
    let a ← sendParts mpi i regs
    let b ← sendAll mpi (i + 1) rs
    .ok (a :: b)

/-- The registries of all ranks from number `i` on after the measurements were received. -/
def absorbAll (ms : List Msg) : ℕ → List Registry → List Registry
  | _, [] => []
  | i, regs :: rs => ms.foldl (absorb i) regs :: absorbAll ms (i + 1) rs

/-- src/Apollo.cpp:331-470 on all ranks.  The unpacking is the same on all ranks; it is done before
the insertions here. -/
def gather (mpi : Mpi) (ranks : List Registry) : Res (List Registry) := do
  let bufs ← sendAll mpi 0 ranks
  let recv := bufs.flatten
  if 2 ^ 31 ≤ recv.length then .error .unmodelled
  else do
    let ms ← unpackAll recv.length recv
    .ok (absorbAll ms 0 ranks)

end Apollo.Collective
