import Verif.Model.TreeIO

/-!
# Model of `RandomForestImpl`

Source: src/models/impl/RandomForestImpl.cpp, src/models/impl/RandomForestImpl.h.

The generator is an arbitrary stream of numbers; `uniform_int_distribution(0, n-1)` maps a number to
its remainder modulo `n`, so that every outcome in the range is covered.
-/

namespace Apollo

/-- RandomForestImpl.h:36-39. -/
structure ForestImpl where
  trees : List TreeImpl
  numClasses : ℤ
  numTrees : ℕ
  maxDepth : ℕ
  deriving DecidableEq

namespace ForestImpl

/-- RandomForestImpl.cpp:23-28. -/
def new (numClasses : ℤ) (numTrees maxDepth : ℕ) : ForestImpl :=
  { trees := [], numClasses := numClasses, numTrees := numTrees, maxDepth := maxDepth }

/-- RandomForestImpl.cpp:38-45: sample number `i` of a bootstrap with replacement, `draws` being the
numbers drawn from the generator. -/
def bootstrap (samples : List Sample) (draws : ℕ → ℕ) (start : ℕ) : List Sample :=
  (List.range samples.length).map fun i =>
    samples.getD (draws (start + i) % samples.length) ([], 0)

/-- RandomForestImpl.cpp:37-49: `k` more trees; `start` numbers have been drawn. -/
def trainLoop (σ : SortFn) (samples : List Sample) (draws : ℕ → ℕ) (numClasses : ℤ) (maxDepth : ℕ) :
    ℕ → ℕ → List TreeImpl → Res (List TreeImpl)
  | 0, _, acc => .ok acc
  | k + 1, start, acc => do
    let t ← TreeImpl.newTrained σ numClasses maxDepth (bootstrap samples draws start)
    trainLoop σ samples draws numClasses maxDepth k (start + samples.length) (acc ++ [t])

/-- RandomForestImpl.cpp:30-50: trees are appended to those already present.  With no samples the
distribution's range is [0, 2^64-1] and each tree's training reads the first element of an empty
vector. -/
def train (σ : SortFn) (draws : ℕ → ℕ) (f : ForestImpl) (samples : List Sample) : Res ForestImpl := do
  let trees ← trainLoop σ samples draws f.numClasses f.maxDepth f.numTrees 0 f.trees
  .ok { f with trees := trees }

/-- RandomForestImpl.cpp:182-186: the votes. -/
def votes (numClasses : ℤ) (feat : Features) : List TreeImpl → List ℕ → Res (List ℕ)
  | [], counts => .ok counts
  | t :: ts, counts => do
    let c ← t.predict feat
    if 0 ≤ c ∧ c < numClasses then
      votes numClasses feat ts (counts.modify c.toNat (· + 1))
    else .error .abort

/-- RandomForestImpl.cpp:188-190: the class with most votes, the first on ties. -/
def argmaxVotes (counts : List ℕ) : ℕ :=
  (List.range' 1 (counts.length - 1)).foldl
    (fun best i => if counts.getD best 0 < counts.getD i 0 then i else best) 0

/-- RandomForestImpl.cpp:175-193; an array of non-positive size is undefined. -/
def predict (f : ForestImpl) (feat : Features) : Res ℤ := do
  if f.numClasses ≤ 0 then .error (.ub .outOfBounds)
  else
    let counts ← votes f.numClasses feat f.trees (List.replicate f.numClasses.toNat 0)
    .ok (argmaxVotes counts)

/-- RandomForestImpl.cpp:91-97: the text of the trees. -/
def treesText (level : ℕ) : List TreeImpl → Res (List Char)
  | [] => .ok []
  | t :: ts => do
    let s ← outputTree (level + 1) t
    let r ← treesText level ts
    .ok (s ++ indent (level + 1) ++ ",\n".toList ++ r)

/-- RandomForestImpl.cpp:78-110.  (`num_classes` is converted to unsigned in the loop; a negative
number would not terminate in practice and is not modelled.) -/
def save (f : ForestImpl) : Res (List Char) := do
  let ts ← treesText 1 f.trees
  .ok ("# RandomForestImpl\n".toList ++ "rfc: {\n".toList ++
    (indent 1 ++ "num_trees: ".toList ++ fmtInt f.numTrees ++ ",\n".toList) ++
    (indent 1 ++ "max_depth: ".toList ++ fmtInt f.maxDepth ++ ",\n".toList) ++
    (indent 1 ++ "classes: [ ".toList ++
      ((List.range f.numClasses.toNat).map fun i : ℕ => fmtInt i ++ ", ".toList).flatten ++
      "],\n".toList) ++
    (indent 1 ++ "trees:".toList ++ " [\n".toList) ++ ts ++
    (indent 1 ++ "]\n".toList) ++ "}\n".toList)

/-- RandomForestImpl.cpp:140-144. -/
def parseClassIdx : ℕ → ℤ → P ℤ
  | 0, _ => P.fail .diverge
  | fuel + 1, idx => do
    if ← getNextTokenEquals "],".toList then pure idx
    else
      let c ← parseInt
      parseExpected ",".toList
      parseClassIdx fuel (c + 1)

/-- RandomForestImpl.cpp:156 with DecisionTreeImpl.cpp:26-35: a new tree, read with a new `Parser` from
the same stream; the token of the outer parser is unchanged. -/
def parseSubTree (fuel : ℕ) (numClasses : ℤ) : P TreeImpl := fun s => do
  let (t, s') ← parseTree fuel (TreeImpl.new numClasses 0) { is := s.is, buf := [], off := 0 }
  .ok (t, { s with is := s'.is })

/-- RandomForestImpl.cpp:155-159. -/
def parseTrees (fuel : ℕ) (numClasses : ℤ) : ℕ → List TreeImpl → P (List TreeImpl)
  | 0, acc => pure acc
  | k + 1, acc => do
    let t ← parseSubTree fuel numClasses
    expectNext ",".toList
    parseTrees fuel numClasses k (acc ++ [t])

/-- RandomForestImpl.cpp:122-165; the trees are appended to those already present. -/
def parseForest (fuel : ℕ) (f : ForestImpl) : P ForestImpl := do
  expectNext "rfc:".toList
  expectNext "{".toList
  let numTrees ← parseKeyVal "num_trees:".toList parseUnsigned
  let maxDepth ← parseKeyVal "max_depth:".toList parseUnsigned
  expectNext "classes:".toList
  expectNext "[".toList
  let n ← parseClassIdx fuel 0
  if n ≠ f.numClasses then P.fail .throw
  else
    expectNext "trees:".toList
    expectNext "[".toList
    let trees ← parseTrees fuel f.numClasses numTrees f.trees
    expectNext "]".toList
    expectNext "}".toList
    pure { f with trees := trees, numTrees := numTrees, maxDepth := maxDepth }

/-- RandomForestImpl.cpp:167-173 for an existing file with contents `s`. -/
def load (f : ForestImpl) (s : List Char) : Res ForestImpl := do
  let (f, _) ← parseForest (s.length + 1) f { is := s, buf := [], off := 0 }
  .ok f

end ForestImpl

end Apollo
