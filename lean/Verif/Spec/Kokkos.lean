import Verif.Model.Kokkos

/-!
# Specification of the contexts of the Kokkos connector, in terms of the calls alone
-/

namespace Apollo.Spec

open Kokkos

/-- The call asks for values for context `c`. -/
def Asks (o : KOp) (c : ℕ) : Prop := ∃ ctx tuning, o = .request c ctx tuning ∧ tuning ≠ []

/-- After the calls `ops`, context `c` was asked for and not ended since. -/
def Live (ops : List KOp) (c : ℕ) : Prop :=
  ∃ pre q suf, ops = pre ++ q :: suf ∧ Asks q c ∧ ∀ o ∈ suf, o ≠ .endContext c

open Classical in
/-- The number of calls in `ops` that end a context that is there. -/
noncomputable def endings (ops : List KOp) : ℕ :=
  ((List.range ops.length).filter fun i =>
    decide (∃ c, ops[i]? = some (.endContext c) ∧ Live (ops.take i) c)).length

end Apollo.Spec
