import Verif.Spec.FileLayout

/-!
# Specification: the words of a dataset file with any metrics
-/

namespace Apollo.Spec

/-- An entry of a file: its number, the features, the policy, the metric (a NaN with its sign). -/
abbrev MetricFileEntry := ℤ × List ℚ × ℤ × Bool × AnyFloat

/-- The words of an entry: every feature is a word of its own, with a comma at the end. -/
def metricEntryWords (e : MetricFileEntry) : List (List Char) :=
  [fmtInt e.1 ++ ":".toList, "{".toList, "features:".toList, "[".toList] ++
    e.2.1.map (fun x => fmtG6 x ++ ",".toList) ++
    ["],".toList, "policy:".toList, fmtInt e.2.2.1 ++ ",".toList, "xtime:".toList, floatWord e.2.2.2,
      "},".toList]

/-- The words of a dataset file. -/
def metricWords (es : List MetricFileEntry) : List (List Char) :=
  ["data:".toList, "{".toList] ++ es.flatMap metricEntryWords ++ ["}".toList]

end Apollo.Spec
