import Verif.Spec.Trace

/-!
# Specification vocabulary for the trace of the process
-/

namespace Apollo.Spec

/-- The finished executions of all regions, in the order in which they finished. -/
def finishedAll (h : List Ev) : List (ℕ × Row) :=
  (List.range h.length).filterMap fun i : ℕ =>
    match h[i]? with
    | some (Ev.finished r c m) =>
      let o := observe (h.take i)
      some (r, ⟨o.index c, o.features c, (o.policy c).getD 0, m⟩)
    | _ => none

/-- The words of a line. -/
def words (line : List Char) : List (List Char) := (columns line).filter fun w => w ≠ []

/-- One line for each execution: the time, the name of the region, the number of the execution, the name of the
model and the policy. -/
def processTable (names models : ℕ → List Char) (ts : List ℤ) (rows : List (ℕ × Row)) : List (List (List Char)) :=
  List.zipWith (fun t x => [fmtInt t, names x.1, fmtInt x.2.index, models x.1, fmtInt x.2.policy]) ts rows

end Apollo.Spec
