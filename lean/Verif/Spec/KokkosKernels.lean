import Verif.Model.KokkosKernels
import Verif.Spec.KokkosFence

/-!
# Kernels that are measured
-/

namespace Apollo.Spec

open Kokkos

/-- The calls about variables and contexts among all calls. -/
def toolOps : List Call → List KOp
  | [] => []
  | .tool op :: cs => op :: toolOps cs
  | _ :: cs => toolOps cs

/-- What these returned. -/
def toolRets : List Seen → List Kokkos.Ret
  | [] => []
  | .tool x :: xs => x :: toolRets xs
  | _ :: xs => toolRets xs

/-- The variable was declared with the name. -/
def DeclaredAs (ops : List KOp) (id : ℕ) (name : Str) : Prop :=
  KOp.declareInput id name ∈ ops ∨ ∃ c, KOp.declareOutput id name c ∈ ops

/-- The name of the region for a problem: the names of the variables joined, cut after 63 characters. -/
def ProblemName (ops : List KOp) (k : List ℕ) (name : Str) : Prop :=
  ∃ ns, List.Forall₂ (DeclaredAs ops) k ns ∧ name = (['_'].intercalate ns ++ ".yaml".toList).take 63

/-- Different problems have different names. -/
def NamesApart (ops : List KOp) : Prop :=
  ∀ o ∈ ops, ∀ o' ∈ ops, ∀ k k' name, AsksFor o k → AsksFor o' k' → ProblemName ops k name →
    ProblemName ops k' name → k = k'

/-- A context for the problem was ended. -/
def EndedFor (ops : List KOp) (k : List ℕ) : Prop :=
  ∃ pre c suf, ops = pre ++ .endContext c :: suf ∧ AskedFor pre c k

/-- Whenever all regions are trained, every problem asked for so far was measured. -/
def MeasuredAtFlushes (ops : List KOp) (xs : List Kokkos.Ret) : Prop :=
  ∀ j, xs[j]? = some (.ended true) → ∀ o ∈ ops.take j, ∀ k, AsksFor o k → EndedFor (ops.take (j + 1)) k

/-- The measurements a region has for its training. -/
def samplesOf {M : Type} (s : Session M) (r : ℕ) : Option Dataset :=
  (s.tool.world.regions r).map Region.dataset

/-- Training makes models final, and answering does not undo that. -/
structure OneShot {M : Type} (ops : ModelOps M) : Prop where
  train : ∀ {t ds m m'}, ops.train t ds m = .ok m' → ops.isTrainable m' = false
  index : ∀ {m f c m'}, ops.getIndex m f = .ok (c, m') → ops.isTrainable m' = true → ops.isTrainable m = true

end Apollo.Spec
