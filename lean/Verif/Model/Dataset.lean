import Verif.Base.OMap
import Verif.Num.Round
import Verif.Spec.Dataset

/-!
# Model of `Apollo::Dataset` (in memory part)

Source: `src/Dataset.cpp`, `include/apollo/Dataset.h`.
-/

namespace Apollo

/-- A feature vector `std::vector<float>`; elements are finite floats, as rationals. -/
abbrev Features := List ℚ

/-- include/apollo/Dataset.h: key type `std::pair<std::vector<float>, int>`; `std::pair` and
`std::vector` compare lexicographically. -/
abbrev Key := Features ×ₗ ℤ

/-- The key of a measurement (src/Dataset.cpp:32). -/
def mkKey (f : Features) (p : ℤ) : Key := toLex (f, p)

/-- include/apollo/Dataset.h: member `data`, a `std::map<std::pair<...>, double>`. -/
abbrev Dataset := OMap Key ℚ

namespace Dataset

/-- src/Dataset.cpp:38: `.5 * it->second + .5 * metric` in double arithmetic. -/
def ema (old metric : ℚ) : ℚ := rnd64 (rnd64 (1/2 * old) + rnd64 (1/2 * metric))

/-- src/Dataset.cpp:28-39.  (The C++ function also empties the caller's vector, by moving it.) -/
def insert (ds : Dataset) (f : Features) (p : ℤ) (metric : ℚ) : Dataset :=
  OMap.upsert (fun
    | none => metric
    | some old => ema old metric) (mkKey f p) ds

/-- src/Dataset.cpp:10. -/
def size (ds : Dataset) : ℕ := ds.length

/-- src/Dataset.cpp:12. -/
def clear (_ : Dataset) : Dataset := []

/-- src/Dataset.cpp:14-26. -/
def toVectorOfTuples (ds : Dataset) : List (Features × ℤ × ℚ) :=
  ds.map fun d => ((ofLex d.1).1, (ofLex d.1).2, d.2)

/-- src/Dataset.cpp:41-49: merge `other` into `ds`. -/
def merge (ds other : Dataset) : Dataset :=
  other.foldl (fun acc d => insert acc (ofLex d.1).1 (ofLex d.1).2 d.2) ds

/-- One iteration of the loop src/Dataset.cpp:60-73. -/
def bestStep (best : OMap Features (ℤ × ℚ)) (d : Key × ℚ) : OMap Features (ℤ × ℚ) :=
  let f := (ofLex d.1).1
  let policy := (ofLex d.1).2
  let avg := d.2
  match OMap.find best f with
  | none => OMap.insertNew f (policy, avg) best
  | some prev => if avg < prev.2 then OMap.assign f (policy, avg) best else best

/-- src/Dataset.cpp:57-73: the map `best_policies`. -/
def bestPolicies (ds : Dataset) : OMap Features (ℤ × ℚ) := ds.foldl bestStep []

/-- src/Dataset.cpp:51-92: the three output arguments (the callers pass empty vectors). -/
def findMinMetricPolicyByFeatures (ds : Dataset) :
    List Features × List ℤ × OMap Features (ℤ × ℚ) :=
  let best := bestPolicies ds
  (best.map (fun b => b.1), best.map (fun b => b.2.1), best)

end Dataset

/-- Driver: the state after a history of `Dataset::insert` calls on an empty dataset. -/
def run (h : List Spec.Meas) : Dataset :=
  h.foldl (fun ds x => Dataset.insert ds x.features x.policy x.metric) []

/-- Driver: what `toVectorOfTuples` (src/Dataset.cpp:14-26) shows after the history. -/
def entries (h : List Spec.Meas) : List (List ℚ × ℤ × ℚ) := Dataset.toVectorOfTuples (run h)

end Apollo
