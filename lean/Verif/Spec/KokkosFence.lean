import Verif.Spec.KokkosOwn

/-!
# When kernels are fenced, in terms of the calls and what they returned
-/

namespace Apollo.Spec

open Kokkos

/-- Since the last training of all regions, some variables were asked for that had never been asked
for before. -/
def NewSinceFlush (ops : List KOp) (xs : List Kokkos.Ret) : Prop :=
  ∃ i o k, ops[i]? = some o ∧ AsksFor o k ∧ (∀ o' ∈ ops.take i, ¬ AsksFor o' k) ∧
    ∀ j, i < j → xs[j]? ≠ some (.ended true)

end Apollo.Spec
