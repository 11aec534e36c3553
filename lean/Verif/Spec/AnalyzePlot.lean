import Verif.Spec.Report
import Verif.Spec.PlotTrace

/-!
# Specification of the pictures of an analysis
-/

namespace Apollo.Spec

/-- The content of a file after the given files were written one after the other. -/
def leftIn {α : Type} (out : List (List Char × α)) (path : List Char) : Option α :=
  ((out.filter fun o => decide (o.1 = path)).map Prod.snd).getLast?

/-- The text shows how many percent `a` of `n` are, `nan` if there are none. -/
def ShowsPercent (s : List Char) (a n : ℕ) : Prop :=
  (n = 0 → s = "nan".toList) ∧
    (n ≠ 0 → ∃ v, readDecimal s = some (v, []) ∧ |v - 100 * a / n| ≤ 1 / 100)

/-- The line shows the two accuracies of a model: of `n` executions `a` agree, `b` agree or are near. -/
def ShowsAccuracy (line : List Char) (e : List Char × ℕ × ℕ × ℕ) : Prop :=
  ∃ s t, line = e.1 ++ " Accuracy strict = ".toList ++ s ++ "%|relaxed (+/- 10.00%) ".toList ++ t ++ "%".toList ∧
    ShowsPercent s e.2.1 e.2.2.2 ∧ ShowsPercent t e.2.2.1 e.2.2.2

/-- The bar shows the time of a model: below its name, above the time in seconds. -/
def ShowsTime (bar : List Char × ℚ × List Char) (name : List Char) (time : ℚ) : Prop :=
  bar.1 = name ∧ bar.2.1 = time ∧ ShowsRounded bar.2.2 time

end Apollo.Spec
