import Verif.Spec.KokkosOwn
import Verif.Spec.KokkosTuning
import Verif.Spec.Region

/-!
# Many kernels in one process, in terms of the calls and what they returned
-/

namespace Apollo.Spec

open Kokkos

/-- The call asks for values of the variables `k`. -/
def isRequest (k : List ℕ) : KOp → Bool
  | .request _ ctx t => decide (t ≠ [] ∧ ctx.map Prod.fst ++ t = k)
  | _ => false

/-- How often values of the variables `k` were asked for. -/
def requests (k : List ℕ) (ops : List KOp) : ℕ := ops.countP (isRequest k)

/-- At no time two contexts were open for the variables `k`. -/
def OneAtATime (k : List ℕ) (ops : List KOp) : Prop :=
  ∀ a b c c', ops = a ++ b → AskedFor a c k → AskedFor a c' k → c = c'

/-- Among the calls, a request for the variables `k` with the features `f` was answered with `vs`. -/
def Answered (hash : Str → ℕ) (k : List ℕ) (ops : List KOp) (xs : List Kokkos.Ret) (f : Features) (vs : List Value) : Prop :=
  ∃ (i c : ℕ) (ctx : List (ℕ × Value)) (t : List ℕ) (r : ℕ), ops[i]? = some (.request c ctx t) ∧ xs[i]? = some (.values r vs) ∧ ctx.map Prod.fst ++ t = k ∧
    f = ctx.map fun v => toFloat hash v.2

end Apollo.Spec
