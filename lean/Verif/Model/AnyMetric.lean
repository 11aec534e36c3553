import Verif.Model.AnyTrain
import Verif.Model.Dataset
import Verif.Spec.AnyMetric

/-!
# `Apollo::Dataset` with metrics that are any doubles

Source: `src/Dataset.cpp:14-92`.  In `Model/Dataset.lean` metrics are finite numbers.  Here they are any
values of the type `double` (`AnyFloat`, where `fin` is a finite double); `Apollo::Region::end(double)`
takes any.  Features are finite.  A zero that results from underflow has no sign here: the zeros compare
alike.
-/

namespace Apollo

namespace AnyDouble

/-- `.5 * x` in double (src/Dataset.cpp:38). -/
def half : AnyFloat → AnyFloat
  | .fin q => .fin (rnd64 (1 / 2 * q))
  | x => x

/-- `a + b` in double, for halves of doubles (src/Dataset.cpp:38): the sum of two finite ones is
finite. -/
def add : AnyFloat → AnyFloat → AnyFloat
  | .nan, _ | _, .nan => .nan
  | .posInf, .negInf | .negInf, .posInf => .nan
  | .posInf, _ | _, .posInf => .posInf
  | .negInf, _ | _, .negInf => .negInf
  | .negZero, .negZero => .negZero
  | a, b => .fin (rnd64 (a.value + b.value))

/-- src/Dataset.cpp:38: `.5 * it->second + .5 * metric`. -/
def ema (old metric : AnyFloat) : AnyFloat := add (half old) (half metric)

end AnyDouble

/-- include/apollo/Dataset.h:41: member `data`. -/
abbrev MetricDataset := OMap Key AnyFloat

namespace MetricDataset

/-- src/Dataset.cpp:28-39. -/
def insert (ds : MetricDataset) (f : Features) (p : ℤ) (metric : AnyFloat) : MetricDataset :=
  OMap.upsert (fun
    | none => metric
    | some old => AnyDouble.ema old metric) (mkKey f p) ds

/-- src/Dataset.cpp:14-26. -/
def toVectorOfTuples (ds : MetricDataset) : List (Features × ℤ × AnyFloat) :=
  ds.map fun d => ((ofLex d.1).1, (ofLex d.1).2, d.2)

/-- One iteration of the loop src/Dataset.cpp:60-73. -/
def bestStep (best : OMap Features (ℤ × AnyFloat)) (d : Key × AnyFloat) :
    OMap Features (ℤ × AnyFloat) :=
  let f := (ofLex d.1).1
  let policy := (ofLex d.1).2
  let avg := d.2
  match OMap.find best f with
  | none => OMap.insertNew f (policy, avg) best
  | some prev => if avg.lt prev.2 then OMap.assign f (policy, avg) best else best

/-- src/Dataset.cpp:51-92: the features and the policies. -/
def findMinMetricPolicyByFeatures (ds : MetricDataset) : List Features × List ℤ :=
  let best := ds.foldl bestStep []
  (best.map (fun b => b.1), best.map (fun b => b.2.1))

end MetricDataset

/-- Driver: the state after a history of `Dataset::insert` calls on an empty dataset. -/
def metricRun (h : List Spec.MetricMeas) : MetricDataset :=
  h.foldl (fun ds x => MetricDataset.insert ds x.1 x.2.1 x.2.2) []

/-- Driver: what `toVectorOfTuples` shows after the history. -/
def metricEntries (h : List Spec.MetricMeas) : List (List ℚ × ℤ × AnyFloat) :=
  MetricDataset.toVectorOfTuples (metricRun h)

/-- Driver: features with the policy found for them, after the history. -/
def metricBest (h : List Spec.MetricMeas) : List (List ℚ × ℤ) :=
  let r := MetricDataset.findMinMetricPolicyByFeatures (metricRun h)
  r.1.zip r.2

end Apollo
