import Verif.Model.KokkosStrings

/-!
# What strings in memory are
-/

namespace Apollo.Spec

open Apollo.Kokkos

/-- The bytes hold the string with its end: a null character follows it, whatever comes behind. -/
def Terminated (m : Mem) (s : Str) : Prop := '\x00' ∉ s ∧ (s.map some ++ [some '\x00']) <+: m

/-- An array of 64 bytes holds a string of at most 64 characters; one of 64 characters has no end. -/
def Array64 (m : Mem) (s : Str) : Prop :=
  m.length = 64 ∧ (Terminated m s ∨ '\x00' ∉ s ∧ m = s.map some)

end Apollo.Spec
