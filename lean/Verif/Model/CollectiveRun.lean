import Verif.Model.Collective

/-!
# Histories of collective training

Source: src/Region.cpp:526-527, src/Apollo.cpp:475-483.

What the ranks of a program do to the measurements, in order: ranks record measurements of their own,
and all ranks together gather.  (When a rank gathers is not described here; gathering is a collective
operation, a rank waits until all others do it too.)
-/

namespace Apollo.Collective

/-- src/Region.cpp:526-527: an execution of the region of the given name is recorded. -/
def recordOn (n : Str) (f : Features) (p : ℤ) (m : ℚ) (regs : Registry) : Registry :=
  match OMap.find regs n with
  | none => regs
  | some R => OMap.assign n { R with dataset := R.dataset.insert f p m } regs

/-- What happens to the measurements. -/
inductive COp
  /-- rank `i` executes a region -/
  | measure (i : ℕ) (n : Str) (f : Features) (p : ℤ) (m : ℚ)
  /-- all ranks train, src/Apollo.cpp:479-481 -/
  | gather

/-- One event. -/
def cstep (mpi : Mpi) : COp → List Registry → Res (List Registry)
  | .measure i n f p m, ranks => .ok (ranks.modify i (recordOn n f p m))
  | .gather, ranks => gather mpi ranks

/-- A history. -/
def cexec (mpi : Mpi) : List COp → List Registry → Res (List Registry)
  | [], ranks => .ok ranks
  | op :: ops, ranks => do
    let ranks ← cstep mpi op ranks
    cexec mpi ops ranks

end Apollo.Collective
