import Verif.Spec.AnalyzePlot
import Verif.Model.RegionPlot

/-!
# Specification of the pictures of the regions
-/

namespace Apollo.Spec

/-- The executions of a region in the traces, with the models. -/
def ranIn (fs : List RegionTrace) (r : List Char) : List (List Char × Row) :=
  fs.flatMap fun F => if F.region = r then F.rows.map fun x => (F.model, x) else []

/-- The features of an execution, those with the numbers `js`. -/
def inOrder (js : List ℕ) (x : Row) : List ℚ := js.map fun j => x.features.getD j 0

/-- The name of the column of a feature. -/
def featureName (i : ℕ) : List Char := 'f' :: fmtInt i

/-- The features are in the order of the names of their columns, as texts. -/
def ByName (js : List ℕ) : Prop := js.Pairwise fun i j => featureName i < featureName j

/-- The number shown for a feature: the double nearest to what the trace has, six digits. -/
def shownAs (q : ℚ) : ℚ := rnd64 (round6 q)

/-- The times of a model with some features. -/
def timesFor (es : List (List Char × Row)) (js : List ℕ) (v : List ℚ) (m : List Char) : List ℚ :=
  (es.filter fun e => decide (inOrder js e.2 = v ∧ e.1 = m)).map fun e => e.2.metric

/-- A bar of this height: none without executions, otherwise their mean. -/
def HasHeight (mean : List ℚ → ℚ) (ts : List ℚ) (h : Option ℚ) : Prop :=
  (ts = [] → h = none) ∧ (ts ≠ [] → h = some (mean ts))

/-- The picture of executions: a group for all features met, in ascending order, and in it a bar for each
model, in the order of their names, with the mean of the times. -/
structure ShowsMeans (mean : List ℚ → ℚ) (js : List ℕ) (es : List (List Char × Row))
    (P : Scripts.RegionPicture) : Prop where
  sorted : P.legend.Pairwise (· < ·)
  models : ∀ m, m ∈ P.legend ↔ ∃ e ∈ es, e.1 = m
  groups : ∃ vs : List (List ℚ), vs.Pairwise (· < ·) ∧ (∀ v, v ∈ vs ↔ ∃ e ∈ es, inOrder js e.2 = v) ∧
    List.Forall₂ (fun v g => g.1 = v.map shownAs ∧
      List.Forall₂ (fun m h => HasHeight mean (timesFor es js v m) h) P.legend g.2) vs P.groups

end Apollo.Spec
