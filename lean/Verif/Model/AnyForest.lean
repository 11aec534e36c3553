import Verif.Model.AnyTrain
import Verif.Model.Forest

/-!
# Training of random forests with features that are any floats

Source: src/models/impl/RandomForestImpl.cpp, src/models/impl/RandomForestImpl.h.  As in `Model/Forest.lean`, but with
the trees of `Model/AnyTrain.lean`.
-/

namespace Apollo

/-- RandomForestImpl.h:36-39; of the trees only the roots. -/
structure AnyForest where
  trees : List AnyTree
  numClasses : ℤ
  numTrees : ℕ
  maxDepth : ℕ
  deriving DecidableEq

namespace AnyForest

/-- RandomForestImpl.cpp:23-28. -/
def new (numClasses : ℤ) (numTrees maxDepth : ℕ) : AnyForest := ⟨[], numClasses, numTrees, maxDepth⟩

/-- RandomForestImpl.cpp:40-45: the samples of a tree; `start` numbers have been drawn before. -/
def bootstrap (samples : List AnySample) (draws : ℕ → ℕ) (start : ℕ) : List AnySample :=
  (List.range samples.length).map fun i =>
    samples.getD (draws (start + i) % samples.length) ([], 0)

/-- RandomForestImpl.cpp:37-49: `k` more trees. -/
def trainLoop (σ : AnySortFn) (samples : List AnySample) (draws : ℕ → ℕ) (maxDepth : ℕ) :
    ℕ → ℕ → List AnyTree → Res (List AnyTree)
  | 0, _, acc => .ok acc
  | k + 1, start, acc => do
    let t ← trainAny σ [] maxDepth (bootstrap samples draws start)
    trainLoop σ samples draws maxDepth k (start + samples.length) (acc ++ [t.2])

/-- RandomForestImpl.cpp:30-50. -/
def train (σ : AnySortFn) (draws : ℕ → ℕ) (f : AnyForest) (samples : List AnySample) : Res AnyForest := do
  let trees ← trainLoop σ samples draws f.maxDepth f.numTrees 0 f.trees
  .ok { f with trees := trees }

/-- RandomForestImpl.cpp:182-186: the votes. -/
def votes (numClasses : ℤ) (feat : List AnyFloat) : List AnyTree → List ℕ → Res (List ℕ)
  | [], counts => .ok counts
  | t :: ts, counts => do
    let c ← t.evaluate feat
    if 0 ≤ c ∧ c < numClasses then
      votes numClasses feat ts (counts.modify c.toNat (· + 1))
    else .error .abort

/-- RandomForestImpl.cpp:175-193. -/
def predict (f : AnyForest) (feat : List AnyFloat) : Res ℤ := do
  if f.numClasses ≤ 0 then .error (.ub .outOfBounds)
  else
    let counts ← votes f.numClasses feat f.trees (List.replicate f.numClasses.toNat 0)
    .ok (ForestImpl.argmaxVotes counts)

end AnyForest

end Apollo
