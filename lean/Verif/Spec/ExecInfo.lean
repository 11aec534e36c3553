import Verif.Model.Region

/-!
# The report about executions
-/

namespace Apollo.Spec

/-- The file of the report. -/
def reportFile (dir : Str) : Str := dir ++ "/apollo_exec_info.csv".toList

/-- A line of the report. -/
def reportLine (name : Str) (executions : ℕ) : Str :=
  name ++ ", ".toList ++ fmtInt executions ++ "\n".toList

/-- The calls that begin an execution of region `r`. -/
def Begins (r : ℕ) (o : Op) : Bool :=
  match o with
  | .begin r' _ => r' = r
  | .beginWith r' _ => r' = r
  | _ => false

end Apollo.Spec
