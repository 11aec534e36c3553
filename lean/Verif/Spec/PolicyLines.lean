import Verif.Spec.Region
import Verif.Model.Region

/-!
# What the trace of the policies says

APOLLO_TRACE_POLICY adds a line for each policy that the library hands out.
-/

namespace Apollo.Spec

open Apollo

/-- The integer is the number without its fraction. -/
def IsTrunc (x : ℚ) (n : ℤ) : Prop := |(n : ℚ)| ≤ |x| ∧ |x| < |(n : ℚ)| + 1 ∧ 0 ≤ x * n

/-- A policy was handed out for a context of a region. -/
structure Answer where
  region : ℕ
  /-- the features that were set since the context began -/
  features : Features
  policy : ℤ
  /-- the context had begun and was not finished -/
  inTime : Bool
  deriving DecidableEq

/-- The answer in an event, if it is one. -/
def handedOut (o : Observer) : Ev → List Answer
  | .chose r c p => [⟨r, o.features c, p, o.isOpen c⟩]
  | _ => []

/-- The answers in the events, in order. -/
def givenFrom (o : Observer) : List Ev → List Answer
  | [] => []
  | e :: h => handedOut o e ++ givenFrom (o.next e) h

/-- The answers in an execution. -/
def given (h : List Ev) : List Answer := givenFrom {} h

/-- The words of a line. -/
def policyWords (rank : ℤ) (region model : Str) (features : List ℤ) (p : ℤ) : List Str :=
  ["Rank".toList, fmtInt rank, "region".toList, region, "model".toList, model, "features".toList,
    "[".toList] ++ features.map (fun n => fmtInt n ++ [',']) ++ ["]".toList, "policy".toList, fmtInt p]

/-- What the model is called: a static model is called after its policy. -/
def modelColumn (kind : Str) (p : ℤ) : Str :=
  if kind = "Static".toList then "Static,".toList ++ fmtInt p else kind

/-- The line for an answer of a model of the kind.  The features of a context that is not executed are
what is left of them. -/
def IsPolicyLine (rank : ℤ) (region kind : Str) (a : Answer) (s : Str) : Prop :=
  ∃ ns, (a.inTime = true → List.Forall₂ IsTrunc a.features ns) ∧
    s = [' '].intercalate (policyWords rank region (modelColumn kind a.policy) ns a.policy) ++ ['\n']

/-- Where the trace is. -/
def policyTraceFile (rank : ℤ) : Str := "rank-".toList ++ fmtInt rank ++ "-policies.txt".toList

/-- The names of the regions that a program creates. -/
def regionNames (ops : List Op) : List Str :=
  ops.filterMap fun op => match op with
    | .create _ name _ _ _ _ => some (name.take 63)
    | _ => none

/-- The kind of model that a model string asks for. -/
def kindOf (info : Str) : Str :=
  if info.takeWhile (· ≠ ',') = "StaticRegion".toList then "Static".toList
  else info.takeWhile (· ≠ ',')

/-- The kinds of the models of the regions that a program creates. -/
def modelKinds (cfg : Cfg) (ops : List Op) : List Str :=
  ops.filterMap fun op => match op with
    | .create _ _ _ _ info _ => some (kindOf (if info = [] then cfg.policyModel else info))
    | _ => none

/-- The lines for the answers in the events `h` of a program. -/
def IsPolicyTrace (rank : ℤ) (cfg : Cfg) (ops : List Op) (h : List Ev) (ls : List Str) : Prop :=
  List.Forall₂ (fun a s => ∃ region kind, (regionNames ops)[a.region]? = some region ∧
    (modelKinds cfg ops)[a.region]? = some kind ∧ IsPolicyLine rank region kind a s) (given h) ls

end Apollo.Spec
