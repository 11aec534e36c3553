import Verif.Num.Decimal

/-!
# Specification of the options of the Kokkos connector
-/

namespace Apollo.Spec

/-- The option `--flush-rate=n`, for a number of type int. -/
def FlushOption (arg : List Char) (n : ℤ) : Prop :=
  arg = "--flush-rate=".toList ++ fmtInt n ∧ -2 ^ 31 ≤ n ∧ n < 2 ^ 31

/-- The options as documented (kokkos-connector.cpp:310-323). -/
def Documented (arg : List Char) : Prop :=
  arg = "--disable-retrain".toList ∨ arg = "--distributed_training".toList ∨
    arg = "--trace".toList ∨ ∃ n, FlushOption arg n

/-- The flags the code compares with. -/
def flags : List (List Char) :=
  ["--disable_retrain".toList, "--distributed-training".toList, "--trace".toList]

/-- Arguments whose meaning is clear: flags, flush rates that are numbers, and arguments that are not
about flush rates at all. -/
def Clear (arg : List Char) : Prop :=
  arg ∈ flags ∨ (∃ n, FlushOption arg n) ∨ ¬ "--flush-rate=".toList <:+: arg

/-- The flush rate asked for by the arguments: the last one, or else the default. -/
def FlushRate (args : List (List Char)) (default n : ℤ) : Prop :=
  (∃ pre arg post, args = pre ++ arg :: post ∧ FlushOption arg n ∧
    ∀ a ∈ post, ¬ "--flush-rate=".toList <:+: a) ∨
  ((∀ a ∈ args, ¬ "--flush-rate=".toList <:+: a) ∧ n = default)

end Apollo.Spec
