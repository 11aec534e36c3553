import Verif.Model.AnyFloat
import Verif.Model.PolicyModels

/-!
# Predictions for features that are any floats

Source: `src/models/impl/DecisionTreeImpl.cpp`, `src/models/impl/RandomForestImpl.cpp`,
`src/models/*.cpp`.  In the other files of the model features are finite numbers.  Here the features
passed to `getIndex` are any values of the type `float`: also infinities, negative zero and NaN.  What
a model has been trained on is finite.
-/

namespace Apollo

/-- The float which a threshold of the model stands for (see `infFloat`). -/
def thresholdFloat (q : ℚ) : AnyFloat :=
  if q = infFloat then .posInf else if q = -infFloat then .negInf else .fin q

/-- DecisionTreeImpl.cpp:300-311; a null node is the uninitialised root. -/
def evaluateAny : Tree → List AnyFloat → Res ℤ
  | .nil, _ => .error (.ub .dangling)
  | .node n l r, f =>
    if n.featureIdx = -1 then .ok n.predicted
    else if n.featureIdx < 0 then .error (.ub .outOfBounds)
    else
      match f[n.featureIdx.toNat]? with
      | none => .error (.ub .outOfBounds)
      | some v =>
        if v.lt (thresholdFloat n.threshold) then
          (if l = .nil then .ok n.predicted else evaluateAny l f)
        else (if r = .nil then .ok n.predicted else evaluateAny r f)

/-- DecisionTreeImpl.cpp:191-198 without JIT. -/
def TreeImpl.predictAny (t : TreeImpl) (f : List AnyFloat) : Res ℤ := evaluateAny t.root f

/-- Meaning of the generated statements in C++ (DecisionTreeImpl.cpp:99-121): a NaN is not less than a
literal. -/
def Code.runAny : Code → List AnyFloat → Res ℤ
  | .none, _ => .error (.ub .dangling)
  | .ret c, _ => .ok c
  | .ite i lit thn els, f =>
    if i < 0 then .error (.ub .outOfBounds)
    else
      match f[i.toNat]?, literalValue lit with
      | some v, some w => if v.lt (.fin w) then thn.runAny f else els.runAny f
      | _, _ => .error (.ub .outOfBounds)

/-- DecisionTreeImpl.cpp:123-168, 191-194: `predict` with JIT, for a tree whose function has been
compiled.  (With an infinite threshold the source does not compile.) -/
def TreeImpl.jitPredictAny (t : TreeImpl) (f : List AnyFloat) : Res ℤ :=
  if ¬ t.root.all (fun n => |n.threshold| ≤ maxFloat) then .error .unmodelled
  else (generateSource t.root).runAny f

namespace ForestImpl

/-- RandomForestImpl.cpp:182-186: the votes. -/
def votesAny (numClasses : ℤ) (feat : List AnyFloat) : List TreeImpl → List ℕ → Res (List ℕ)
  | [], counts => .ok counts
  | t :: ts, counts => do
    let c ← t.predictAny feat
    if 0 ≤ c ∧ c < numClasses then
      votesAny numClasses feat ts (counts.modify c.toNat (· + 1))
    else .error .abort

/-- RandomForestImpl.cpp:175-193; an array of non-positive size is undefined. -/
def predictAny (f : ForestImpl) (feat : List AnyFloat) : Res ℤ := do
  if f.numClasses ≤ 0 then .error (.ub .outOfBounds)
  else
    let counts ← votesAny f.numClasses feat f.trees (List.replicate f.numClasses.toNat 0)
    .ok (argmaxVotes counts)

end ForestImpl

/-- The search tree in which a `std::map` keeps its elements: which one it is depends on the order of
the insertions. -/
abbrev MapShape := OMap Features (ℤ × ℚ) → SearchTree (List AnyFloat) (ℤ × ℚ)

/-- `getIndex(features)`: the chosen policy and the model afterwards.
Static.cpp:14, RoundRobin.cpp:16-20, Random.cpp:15-28, Optimal.cpp:29-39, DatasetMap.cpp:14-24,
DecisionTree.cpp:115-120, RandomForest.cpp:119-124.  The map of `DatasetMap` is searched as libstdc++
does: `count` and `operator[]` go to the same place. -/
def PolicyModel.getIndexAny (shape : MapShape) :
    PolicyModel → List AnyFloat → Res (ℤ × PolicyModel)
  | .datasetMap n best, f =>
    match (shape best).find lexLt f with
    | none => .error .abort
    | some i =>
      match (shape best).toList[i]? with
      | none => .error (.ub .dangling)
      | some e => .ok (e.2.1, .datasetMap n best)
  | .tree n trainable explorer t, f =>
    if !trainable then do
      let c ← t.predictAny f
      .ok (c, .tree n trainable explorer t)
    else do
      let (c, explorer) ← getIndexAny shape explorer f
      .ok (c, .tree n trainable explorer t)
  | .forest n trainable explorer t, f =>
    if !trainable then do
      let c ← t.predictAny f
      .ok (c, .forest n trainable explorer t)
    else do
      let (c, explorer) ← getIndexAny shape explorer f
      .ok (c, .forest n trainable explorer t)
  | m, _ => m.getIndex []

end Apollo
