import Verif.Model.SearchTree
import Verif.Model.Dataset
import Verif.Spec.AnyFloat

/-!
# `Apollo::Dataset` with features that are any floats

Source: `src/Dataset.cpp`, `include/apollo/Dataset.h`.  In `Model/Dataset.lean` features are finite
numbers.  Here they are any values of the type `float`: also infinities, negative zero and NaN.
-/

namespace Apollo

namespace AnyFloat

/-- The comparison `a < b` of two floats: false if one of them is NaN. -/
def lt : AnyFloat → AnyFloat → Bool
  | .nan, _ | _, .nan => false
  | .fin a, .fin b => decide (a < b)
  | .fin a, .negZero => decide (a < 0)
  | .negZero, .fin b => decide (0 < b)
  | .negZero, .negZero => false
  | .posInf, _ => false
  | _, .posInf => true
  | _, .negInf => false
  | .negInf, _ => true

end AnyFloat

/-- `std::lexicographical_compare`: the comparison `a < b` of two vectors (C++14,
CMakeLists.txt:13). -/
def lexLt : List AnyFloat → List AnyFloat → Bool
  | _, [] => false
  | [], _ :: _ => true
  | a :: as, b :: bs => if a.lt b then true else if b.lt a then false else lexLt as bs

/-- The comparison of two keys, `std::pair<std::vector<float>, int>` (include/apollo/Dataset.h:41):
`a.first < b.first || (!(b.first < a.first) && a.second < b.second)`. -/
def keyLt (a b : List AnyFloat × ℤ) : Bool :=
  lexLt a.1 b.1 || (!lexLt b.1 a.1 && decide (a.2 < b.2))

/-- include/apollo/Dataset.h:41: member `data`. -/
abbrev AnyDataset := SearchTree (List AnyFloat × ℤ) ℚ

namespace AnyDataset

/-- src/Dataset.cpp:28-39. -/
def insert (balance : AnyDataset → AnyDataset) (ds : AnyDataset) (f : List AnyFloat) (p : ℤ)
    (metric : ℚ) : AnyDataset :=
  match ds.find keyLt (f, p) with
  | none => ds.emplace keyLt balance (f, p) metric
  | some i => ds.modify (fun old => Dataset.ema old metric) i

/-- src/Dataset.cpp:14-26. -/
def toVectorOfTuples (ds : AnyDataset) : List (List AnyFloat × ℤ × ℚ) :=
  ds.toList.map fun d => (d.1.1, d.1.2, d.2)

end AnyDataset

/-- Driver: what `toVectorOfTuples` shows after a history of `Dataset::insert` calls on an empty
dataset. -/
def anyEntries (balance : AnyDataset → AnyDataset) (h : List Spec.AnyMeas) :
    List (List AnyFloat × ℤ × ℚ) :=
  AnyDataset.toVectorOfTuples
    (h.foldl (fun ds x => AnyDataset.insert balance ds x.1 x.2.1 x.2.2) .leaf)

end Apollo
