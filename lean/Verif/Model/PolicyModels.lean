import Verif.Model.Forest

/-!
# Model of the policy model classes

Source: src/models/{Static,RoundRobin,Random,Optimal,DatasetMap,DecisionTree,RandomForest}.cpp and the
headers in include/apollo/models.  `PolicyNet` is modelled separately (Verif.Model.PolicyNet).
-/

namespace Apollo

/-- Unspecified ingredients of training: how `std::sort` orders equal elements and what the random
generator of a forest draws. -/
structure TrainEnv where
  sort : SortFn
  draws : ℕ → ℕ

/-- An object of a class derived from `PolicyModel` (include/apollo/PolicyModel.h), with its data
members. -/
inductive PolicyModel where
  /-- a null `std::unique_ptr<PolicyModel>` -/
  | null
  /-- include/apollo/models/Static.h -/
  | static (policyCount policyChoice : ℤ)
  /-- include/apollo/models/RoundRobin.h -/
  | roundRobin (policyCount lastPolicy : ℤ)
  /-- include/apollo/models/Random.h; `gen` is the stream of numbers the generator will produce -/
  | random (policyCount : ℤ) (gen : ℕ → ℕ)
  /-- include/apollo/models/Optimal.h -/
  | optimal (queue : List ℤ)
  /-- include/apollo/models/DatasetMap.h -/
  | datasetMap (policyCount : ℤ) (best : OMap Features (ℤ × ℚ))
  /-- include/apollo/models/DecisionTree.h -/
  | tree (policyCount : ℤ) (trainable : Bool) (explorer : PolicyModel) (dtree : TreeImpl)
  /-- include/apollo/models/RandomForest.h -/
  | forest (policyCount : ℤ) (trainable : Bool) (explorer : PolicyModel) (rfc : ForestImpl)

namespace PolicyModel

/-- src/models/RoundRobin.cpp:47-54. -/
def newRoundRobin (n : ℤ) : PolicyModel := .roundRobin n (-1)

/-- src/models/Random.cpp:30-34: the distribution requires `0 ≤ n - 1`. -/
def newRandom (n : ℤ) (gen : ℕ → ℕ) : Res PolicyModel :=
  if n - 1 < 0 then .error (.ub .overflow) else .ok (.random n gen)

/-- src/models/DecisionTree.cpp:56-82 (without OpenCV). -/
def newTree (n : ℤ) (maxDepth : ℕ) (explorer : PolicyModel) : PolicyModel :=
  .tree n true explorer (TreeImpl.new n maxDepth)

/-- src/models/RandomForest.cpp:56-86 (without OpenCV). -/
def newForest (n : ℤ) (numTrees maxDepth : ℕ) (explorer : PolicyModel) : PolicyModel :=
  .forest n true explorer (ForestImpl.new n numTrees maxDepth)

/-- `PolicyModel::name`, set by the constructors. -/
def name : PolicyModel → List Char
  | .null => []
  | .static _ c => "Static,".toList ++ fmtInt c
  | .roundRobin _ _ => "RoundRobin".toList
  | .random _ _ => "Random".toList
  | .optimal _ => "Optimal".toList
  | .datasetMap _ _ => "DatasetMap".toList
  | .tree _ _ _ _ => "DecisionTree".toList
  | .forest _ _ _ _ => "RandomForest".toList

/-- `getIndex(features)`: the chosen policy and the model afterwards.
Static.cpp:14, RoundRobin.cpp:16-20, Random.cpp:15-28, Optimal.cpp:29-39, DatasetMap.cpp:14-24,
DecisionTree.cpp:115-120, RandomForest.cpp:119-124.  `%` truncates towards zero in C++. -/
def getIndex : PolicyModel → Features → Res (ℤ × PolicyModel)
  | .null, _ => .error (.ub .dangling)
  | .static n c, _ => .ok (c, .static n c)
  | .roundRobin n last, _ =>
    if n = 0 then .error (.ub .divByZero)
    else
      let choice := Int.tmod (last + 1) n
      .ok (choice, .roundRobin n choice)
  | .random n gen, _ =>
    if 1 < n then .ok (((gen 0 % n.toNat : ℕ) : ℤ), .random n (fun k => gen (k + 1)))
    else .ok (0, .random n gen)
  | .optimal [], _ => .error .abort
  | .optimal (p :: q), _ => .ok (p, .optimal q)
  | .datasetMap n best, f =>
    match OMap.find best f with
    | none => .error .abort
    | some b => .ok (b.1, .datasetMap n best)
  | .tree n trainable explorer t, f =>
    if !trainable then do
      let c ← t.predict f
      .ok (c, .tree n trainable explorer t)
    else do
      let (c, explorer) ← getIndex explorer f
      .ok (c, .tree n trainable explorer t)
  | .forest n trainable explorer t, f =>
    if !trainable then do
      let c ← t.predict f
      .ok (c, .forest n trainable explorer t)
    else do
      let (c, explorer) ← getIndex explorer f
      .ok (c, .forest n trainable explorer t)

/-- `isTrainable()`: DecisionTree.cpp:86, RandomForest.cpp:88, and the headers of the others. -/
def isTrainable : PolicyModel → Bool
  | .tree _ trainable _ _ => trainable
  | .forest _ trainable _ _ => trainable
  | _ => false

/-- DecisionTree.cpp:90-95, RandomForest.cpp:93-98: feature vectors with their best policies. -/
def trainingSamples (ds : Dataset) : List Sample :=
  let (fs, ps, _) := Dataset.findMinMetricPolicyByFeatures ds
  fs.zip ps

/-- `train(dataset)`: DatasetMap.cpp:26-31, DecisionTree.cpp:88-113, RandomForest.cpp:90-115, and the
empty bodies in the headers of the others. -/
def train (env : TrainEnv) (ds : Dataset) : PolicyModel → Res PolicyModel
  | .null => .error (.ub .dangling)
  | .datasetMap n _ => .ok (.datasetMap n (Dataset.findMinMetricPolicyByFeatures ds).2.2)
  | .tree n _ explorer t => do
    let t ← t.train env.sort (trainingSamples ds)
    .ok (.tree n false explorer t)
  | .forest n _ explorer f => do
    let f ← f.train env.sort env.draws (trainingSamples ds)
    .ok (.forest n false explorer f)
  | m => .ok m

/-- Split at every `,`, as repeated `std::getline(infile, s, ',')` does: a last piece that is empty
is not delivered.  `cur` is the piece read so far. -/
def commaPieces (cur : List Char) : List Char → List (List Char)
  | [] => if cur = [] then [] else [cur]
  | c :: s => if c = ',' then cur :: commaPieces [] s else commaPieces (cur ++ [c]) s

/-- Optimal.cpp:41-50: `std::stoi` of every piece, appended to the queue. -/
def loadOptimal (q : List ℤ) (s : List Char) : Res (List ℤ) := do
  let ps ← (commaPieces [] s).mapM (fun piece => do
    let (v, _) ← stoi piece
    .ok v)
  .ok (q ++ ps)

/-- `load(filename)` for a file with the given contents (`none`: it cannot be opened).
Optimal.cpp:41-50, DecisionTree.cpp:122-126, RandomForest.cpp:126-130; the others do nothing. -/
def load (file : Option (List Char)) : PolicyModel → Res PolicyModel
  | .null => .error (.ub .dangling)
  | .optimal q =>
    match file with
    | none => .ok (.optimal q)
    | some s => do
      let q ← loadOptimal q s
      .ok (.optimal q)
  | .tree n _ explorer t =>
    match file with
    | none => .error .throw
    | some s => do
      let t ← t.load s
      .ok (.tree n false explorer t)
  | .forest n _ explorer f =>
    match file with
    | none => .error .throw
    | some s => do
      let f ← f.load s
      .ok (.forest n false explorer f)
  | m => .ok m

/-- `store(filename)`: the contents written, `none` when no file is written.
DecisionTree.cpp:127, RandomForest.cpp:131; the others do nothing. -/
def store : PolicyModel → Res (Option (List Char))
  | .null => .error (.ub .dangling)
  | .tree _ _ _ t => do
    let s ← t.save
    .ok (some s)
  | .forest _ _ _ f => do
    let s ← f.save
    .ok (some s)
  | _ => .ok none

/-- Driver: a sequence of `getIndex` calls, with the policies returned. -/
def indices : PolicyModel → List Features → Res (List ℤ × PolicyModel)
  | m, [] => .ok ([], m)
  | m, f :: fs => do
    let (c, m) ← m.getIndex f
    let (cs, m) ← indices m fs
    .ok (c :: cs, m)

end PolicyModel

end Apollo
