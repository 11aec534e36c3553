import Verif.Model.Kokkos

/-!
# A kernel that is run again and again
-/

namespace Apollo.Spec

open Kokkos

/-- For each run Kokkos asks for values, with the values of the context variables, and ends the context. -/
def kernelRuns (cid : ℕ) (tuning : List ℕ) (ctxs : List (List (ℕ × Value))) : List KOp :=
  ctxs.flatMap fun ctx => [.request cid ctx tuning, .endContext cid]

/-- The values chosen, in order. -/
def chosenValues (xs : List Kokkos.Ret) : List (List Value) :=
  xs.filterMap fun
    | .values _ vs => some vs
    | _ => none

/-- A declaration. -/
def IsDeclaration : KOp → Prop
  | .declareOutput .. | .declareInput .. => True
  | _ => False

/-- One candidate of each variable. -/
def Combination (ds : List Decl) (vs : List Value) : Prop := List.Forall₂ (fun v (d : Decl) => v ∈ d.values) vs ds

/-- The combinations in the order in which they are tried: the candidates of the first variable change
fastest. -/
def combination : List Decl → ℕ → List Value
  | [], _ => []
  | d :: ds, j => d.values.getD (j % d.values.length) (.int 0) :: combination ds (j / d.values.length)

/-- The number of combinations. -/
def combinations (ds : List Decl) : ℕ := (ds.map fun d => d.values.length).prod

/-- Models that try all policies in turn until they are trained, with their parameters left as they are; the
last is that set by the options of the connector. -/
def Learns (model : Str) : Prop :=
  model = "DecisionTree".toList ∨ model = "RandomForest".toList ∨ model = "RandomForest,explore=RoundRobin".toList

end Apollo.Spec
