import Verif.Spec.Kokkos

/-!
# Which problem a context of the Kokkos connector is open for, in terms of the calls alone
-/

namespace Apollo.Spec

open Kokkos

/-- After the calls `ops`, context `c` is open and the last request for it was for the variables
`k`. -/
def AskedFor (ops : List KOp) (c : ℕ) (k : List ℕ) : Prop :=
  ∃ pre ctx tuning suf, ops = pre ++ .request c ctx tuning :: suf ∧ tuning ≠ [] ∧
    k = ctx.map Prod.fst ++ tuning ∧ ∀ o ∈ suf, o ≠ .endContext c ∧ ¬ Asks o c

/-- The call asks for the variables `k`. -/
def AsksFor (o : KOp) (k : List ℕ) : Prop :=
  ∃ c ctx tuning, o = .request c ctx tuning ∧ tuning ≠ [] ∧ k = ctx.map Prod.fst ++ tuning

end Apollo.Spec
