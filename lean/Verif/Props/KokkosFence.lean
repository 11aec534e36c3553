import Verif.Proofs.KokkosFence
import Verif.Props.KokkosRun

/-!
# C67: kernels are fenced while there are new problems
-/

namespace Apollo.Props

open Kokkos Spec

/-- **C67.** After any history, the begin and the end of a kernel fence its device iff Kokkos provided the
function and, since the last training of all regions, variables were asked for that had never been asked
for before. -/
theorem C67_fences {M : Type} {e : KEnv M} (he : DotAborts e.env) {cfg : Cfg}
    {files : Str → Option Str} {ops : List KOp} {xs : List Kokkos.Ret} {s : State M}
    (h : kexec e ops (initState cfg files) = .ok (xs, s)) (provided : Bool) :
    fences provided s = true ↔ provided = true ∧ NewSinceFlush ops xs := by
  have hf : FenceInv ops xs s := by
    simpa using FenceInv.exec he (KInv.init cfg files) (FenceInv.init cfg files) h
  rw [← hf.count]
  simp [fences]

/-- C67 for the models of the library. -/
theorem C67_fences_models (gen : ℕ → ℕ → ℕ) (tenv : ℕ → TrainEnv) {e : KEnv PolicyModel}
    (he : e.env.ops = policyOps gen tenv) {cfg : Cfg} {files : Str → Option Str} {ops : List KOp}
    {xs : List Kokkos.Ret} {s : State PolicyModel}
    (h : kexec e ops (initState cfg files) = .ok (xs, s)) (provided : Bool) :
    fences provided s = true ↔ provided = true ∧ NewSinceFlush ops xs :=
  C67_fences ((C62_models gen tenv).1 e.env he) h provided

/-- A new problem: fenced.  After the training at the second end: not fenced, also when the problem is
asked for again.  After another new problem: fenced. -/
example :
    (∃ xs s, kexec demoK (demoKDecls ++ [demoKAsk 7 100]) (initState demoKCfg fun _ => none) =
      .ok (xs, s) ∧ fences true s = true) ∧
    (∃ xs s, kexec demoK (demoKDecls ++ [demoKAsk 7 100, .endContext 7, demoKAsk 7 100, .endContext 7,
      demoKAsk 7 100]) (initState demoKCfg fun _ => none) = .ok (xs, s) ∧ fences true s = false) ∧
    ∃ xs s, kexec demoK (demoKDecls ++ [demoKAsk 7 100, .endContext 7, demoKAsk 7 100, .endContext 7,
      .request 8 [] [1]]) (initState demoKCfg fun _ => none) = .ok (xs, s) ∧ fences true s = true :=
  ⟨krun_ok (by decide +kernel), krun_ok (by decide +kernel), krun_ok (by decide +kernel)⟩

end Apollo.Props
