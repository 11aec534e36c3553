import Verif.Spec.AnyFloat
import Verif.Spec.Dataset

/-!
# Specification of the measurement store for metrics that are any doubles

`AnyFloat` stands for the type `double` here: `fin` is a finite one.
-/

namespace Apollo.Spec

/-- A measurement with any metric: features, policy, metric. -/
abbrev MetricMeas := List ℚ × ℤ × AnyFloat

/-- The metrics measured for a pair, in order. -/
def allMetricsOf (h : List MetricMeas) (f : List ℚ) (p : ℤ) : List AnyFloat :=
  (h.filter fun x => x.1 = f ∧ x.2.1 = p).map fun x => x.2.2

/-- What the running average of the metrics `ms` is.  One infinite metric makes it infinite, a NaN or
two opposite infinities make it NaN; if all metrics are finite it is their running average. -/
structure AverageOf (ms : List AnyFloat) (m : AnyFloat) : Prop where
  nan : m = .nan ↔ AnyFloat.nan ∈ ms ∨ (AnyFloat.posInf ∈ ms ∧ AnyFloat.negInf ∈ ms)
  posInf : m = .posInf ↔ AnyFloat.posInf ∈ ms ∧ AnyFloat.negInf ∉ ms ∧ AnyFloat.nan ∉ ms
  negInf : m = .negInf ↔ AnyFloat.negInf ∈ ms ∧ AnyFloat.posInf ∉ ms ∧ AnyFloat.nan ∉ ms
  finite : ∀ qs : List ℚ, ms = qs.map .fin → ∃ q, runningAverage halfHalf qs = some q ∧ m = .fin q

/-- Both are numbers or infinities, and the first is not greater. -/
def NotGreater (m m' : AnyFloat) : Prop := ∃ a ∈ num m, ∃ b ∈ num m', a ≤ b

/-- The policy `p` is the least one in the entries `E` for the features `f`, and its metric is `m`. -/
def FirstPolicy (E : List MetricMeas) (f : List ℚ) (p : ℤ) (m : AnyFloat) : Prop :=
  (f, p, m) ∈ E ∧ ∀ p' m', (f, p', m') ∈ E → p ≤ p'

/-- The policy `p` has the least metric among the entries for `f` the metrics of which are not NaN, and
is the least policy with this metric. -/
def BestOfNumbers (E : List MetricMeas) (f : List ℚ) (p : ℤ) : Prop :=
  ∃ m, (f, p, m) ∈ E ∧ m ≠ .nan ∧
    ∀ p' m', (f, p', m') ∈ E → m' ≠ .nan → NotGreater m m' ∧ (NotGreater m' m → p ≤ p')

end Apollo.Spec
