import Verif.Model.Kokkos

/-!
# Ranges of floating-point numbers as Kokkos declares them
-/

namespace Apollo.Spec

/-- The number lies in the declared range. -/
def InDblRange (r : Kokkos.Range ℚ) (v : ℚ) : Prop :=
  (if r.openLower then r.lower < v else r.lower ≤ v) ∧
  (if r.openUpper then v < r.upper else v ≤ r.upper)

/-- A range with ends and step that are values of type `double`, and a positive step. -/
structure DblRange (r : Kokkos.Range ℚ) : Prop where
  lower : Float64 r.lower
  upper : Float64 r.upper
  step : Float64 r.step
  pos : 0 < r.step

end Apollo.Spec
