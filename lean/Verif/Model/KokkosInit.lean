import Verif.Model.Kokkos
import Verif.Model.Startup

/-!
# Model of the options and the initialisation of the Kokkos connector

Source: src/connectors/kokkos/kokkos-connector.cpp:261-343.

Messages and the array `choices` are not modelled.  The environment is a function from names to values;
`setenv` and `putenv` do not run out of memory.
-/

namespace Apollo.Kokkos

/-- An environment. -/
abbrev Environ := Str → Option Str

/-- `setenv(name, value, true)`: a name that is empty or contains `=` is refused (EINVAL); the result is
not looked at by the callers. -/
def setenv (g : Environ) (name value : Str) : Environ :=
  if name = [] ∨ '=' ∈ name then g else Function.update g name (some value)

/-- kokkos-connector.cpp:261-265: a member is `none` while it is not initialised. -/
structure Options where
  disableRetrain : Option Bool := none
  distributed : Option Bool := none
  trace : Option Bool := none

/-- `atoi`: 0 without digits; undefined for numbers that are not of type int. -/
def atoi (s : Str) : Res ℤ :=
  match readInt s with
  | none => .ok 0
  | some (v, _) => if v < -2 ^ 31 ∨ 2 ^ 31 ≤ v then .error (.ub .overflow) else .ok v

/-- `s.find(p) != npos`. -/
def contains (p : Str) : Str → Bool
  | [] => p.isEmpty
  | c :: s => p.isPrefixOf (c :: s) || contains p s

/-- `arg.substr(arg.find("=") + 1)`, of an argument that contains `=`. -/
def afterEquals (arg : Str) : Str := (arg.dropWhile (· ≠ '=')).drop 1

/-- kokkos-connector.cpp:270-290: one argument, with `flush_interval`. -/
def parseArg (o : Options) (flush : ℤ) (arg : Str) : Res (Options × ℤ) :=
  if arg = "--disable_retrain".toList then .ok ({ o with disableRetrain := some true }, flush)
  else if arg = "--distributed-training".toList then .ok ({ o with distributed := some true }, flush)
  else if arg = "--trace".toList then .ok ({ o with trace := some true }, flush)
  else if contains "--flush-rate=".toList arg then do
    let n ← atoi (afterEquals arg)
    .ok (o, n)
  else .ok (o, flush)

/-- kokkos-connector.cpp:270-290: the loop. -/
def parseLoop : List Str → Options → ℤ → Res (Options × ℤ)
  | [], o, flush => .ok (o, flush)
  | arg :: args, o, flush => do
    let (o, flush) ← parseArg o flush arg
    parseLoop args o flush

/-- Reading a member of the options. -/
def readOption : Option Bool → Res Bool
  | some b => .ok b
  | none => .error (.ub .uninit)

/-- kokkos-connector.cpp:292-307: the variables, in the order of the map. -/
def exportSettings (g : Environ) (retrain collective localTraining trace : Str) : Environ :=
  let g := setenv g "APOLLO_COLLECTIVE_TRAINING=".toList collective
  let g := setenv g "APOLLO_LOCAL_TRAINING=".toList localTraining
  let g := setenv g "APOLLO_POLICY_MODEL".toList "RandomForest,explore=RoundRobin".toList
  let g := setenv g "APOLLO_REGION_MODEL".toList "1".toList
  let g := setenv g "APOLLO_RETRAIN_ENABLE=".toList retrain
  let g := setenv g "APOLLO_STORE_MODELS".toList "1".toList
  setenv g "APOLLO_TRACE_BEST_POLICIES=".toList trace

/-- `b ? x : y`. -/
def pick (b : Bool) (x y : String) : Str := if b then x.toList else y.toList

/-- kokkos-connector.cpp:267-308: `kokkosp_parse_args`. -/
def parseArgs (args : List Str) (flush : ℤ) (g : Environ) : Res (ℤ × Environ) := do
  let (o, flush) ← parseLoop args {} flush
  let disable ← readOption o.disableRetrain
  let distributed ← readOption o.distributed
  let trace ← readOption o.trace
  .ok (flush, exportSettings g (pick disable "0" "1") (pick distributed "1" "0")
    (pick distributed "0" "1") (pick trace "1" "0"))

/-- kokkos-connector.cpp:336-341: the calls of `putenv`. -/
def initEnviron (g : Environ) : Environ :=
  let g := Function.update g "APOLLO_STORE_MODELS".toList (some "1".toList)
  let g := Function.update g "APOLLO_RETRAIN_ENABLE".toList (some "0".toList)
  let g := Function.update g "APOLLO_REGION_MODEL".toList (some "1".toList)
  let g := Function.update g "APOLLO_LOCAL_TRAINING".toList (some "1".toList)
  let g := Function.update g "APOLLO_COLLECTIVE_TRAINING".toList (some "0".toList)
  Function.update g "APOLLO_TRACE_BEST_POLICIES".toList (some "1".toList)

/-- kokkos-connector.cpp:327-343: `kokkosp_init_library`; the library is started with the environment
set (Apollo.cpp:120-238). -/
def initLibrary (os : Os) : Res Cfg := startup { os with getenv := initEnviron os.getenv }

end Apollo.Kokkos
