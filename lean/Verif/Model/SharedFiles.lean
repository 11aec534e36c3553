import Verif.Model.Ranks

/-!
# Several ranks with one file system

Source: src/Region.cpp:66-100, 120-134, 294-387, 407-428, src/Apollo.cpp:456-463 (the names of the files).

The ranks of Verif.Model.Ranks, but a file one rank writes is seen by all.  A call is one step, and so is
the collective training, after which the ranks go on one after the other.
-/

namespace Apollo.Ranks

open Apollo Apollo.Collective

variable {M : Type}

/-- The rank with the given contents of the file system. -/
def seeing (F : Str → Option Str) (p : Proc M) : Proc M := { p with world := { p.world with files := F } }

/-- Apollo.cpp:434-463 and what follows, on all ranks from number `i` on, with the files as the ranks before
left them. -/
def proceedShared (env : ℕ → Env M) (ms : List Msg) : ℕ → List Registry → (Str → Option Str) →
    List (Proc M) → Res (List (Proc M) × (Str → Option Str))
  | i, v :: vs, F, p :: ps => do
    let p ← proceed (env i) ms i v (seeing F p)
    let (ps, F) ← proceedShared env ms (i + 1) vs p.world.files ps
    .ok (p :: ps, F)
  | _, _, F, _ => .ok ([], F)

/-- What is in the file system. -/
def filesOf : List (Proc M) → Str → Option Str
  | [] => fun _ => none
  | p :: _ => p.world.files

/-- The collective training of all ranks. -/
def togetherShared (mpi : Mpi) (env : ℕ → Env M) (s : List (Proc M)) : Res (List (Proc M)) := do
  let vs ← views (s.map Proc.world)
  let ms ← received mpi vs
  let (ps, F) ← proceedShared env ms 0 vs (filesOf s) s
  .ok (ps.map (seeing F))

/-- What can happen next, as in `Step`, but all ranks see the files that are written. -/
inductive SharedStep (mpi : Mpi) (env : ℕ → Env M) : List (Proc M) → List (Proc M) → Prop
  | call {s : List (Proc M)} {i : ℕ} {p : Proc M} {op : Op} {ops : List Op} {w : World M}
      {k : Option Wait} : s[i]? = some p → p.wait = none → p.todo = op :: ops →
      call (env i) p.world op = .ok (w, k) →
      SharedStep mpi env s ((s.set i ⟨w, ops, k⟩).map (seeing w.files))
  | train {s s' : List (Proc M)} : s ≠ [] → (∀ p ∈ s, p.wait ≠ none) →
      togetherShared mpi env s = .ok s' → SharedStep mpi env s s'

/-- A run of the given length. -/
inductive SharedRun (mpi : Mpi) (env : ℕ → Env M) : ℕ → List (Proc M) → List (Proc M) → Prop
  | refl (s : List (Proc M)) : SharedRun mpi env 0 s s
  | step {n : ℕ} {s₁ s₂ s₃ : List (Proc M)} : SharedStep mpi env s₁ s₂ → SharedRun mpi env n s₂ s₃ →
      SharedRun mpi env (n + 1) s₁ s₃

end Apollo.Ranks
