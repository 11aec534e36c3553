import Verif.Model.PolicyModels

/-!
# Model of model strings, parameter validation and the model factory

Source: src/Region.cpp:154-287, src/ModelFactory.cpp:26-152.
-/

namespace Apollo

/-- A `std::string`. -/
abbrev Str := List Char

/-- `std::unordered_map<std::string, std::string>`: an association list with distinct keys (iteration
order is only used by `validate`, whose outcome does not depend on it). -/
abbrev Params := List (Str × Str)

namespace Params

/-- `find`. -/
def find (m : Params) (k : Str) : Option Str := (List.find? (fun e => e.1 = k) m).map Prod.snd

/-- `emplace`: no effect when the key is present. -/
def emplace (m : Params) (k v : Str) : Params := if (m.find k).isSome then m else m ++ [(k, v)]

end Params

/-- `s.find(c)`: the position of the first `c`, if any. -/
def findChar (c : Char) (s : Str) : Option ℕ := s.findIdx? (· = c)

/-- src/Region.cpp:228-238: one `key[=value]` item. -/
def parseItem (params : Params) (kv : Str) : Params :=
  match findChar '=' kv with
  | none => params.emplace kv []
  | some p => params.emplace (kv.take p) (kv.drop (p + 1))

/-- src/Region.cpp:227-242: the do-while loop; the fuel bounds the iterations. -/
def parseParams : ℕ → Params → Str → Res Params
  | 0, _, _ => .error .diverge
  | fuel + 1, params, s =>
    match findChar ',' s with
    | none => .ok (parseItem params s)
    | some p => parseParams fuel (parseItem params (s.take p)) (s.drop (p + 1))

/-- src/Region.cpp:153-216. -/
def validate (name : Str) (params : Params) : Res Unit :=
  let only (keys : List Str) : Res Unit :=
    if params.all (fun e => e.1 ∈ keys) then .ok () else .error .abort
  if name = "Static".toList then only ["policy".toList]
  else if name = "DecisionTree".toList then
    only ["max_depth".toList, "explore".toList, "load".toList, "load-dataset".toList]
  else if name = "RandomForest".toList then
    only ["num_trees".toList, "max_depth".toList, "explore".toList, "load".toList,
      "load-dataset".toList]
  else if name = "PolicyNet".toList then
    only ["lr".toList, "beta".toList, "beta1".toList, "beta2".toList, "threshold".toList,
      "load".toList, "load-dataset".toList]
  else if name = "StaticRegion".toList then .ok ()
  else .error .abort

/-- src/Region.cpp:218-245: model name and parameters. -/
def parsePolicyModel (info : Str) : Res (Str × Params) :=
  match findChar ',' info with
  | none => .ok (info, [])
  | some p => do
    let name := info.take p
    let params ← parseParams (info.length + 1) [] (info.drop (p + 1))
    let _ ← validate name params
    .ok (name, params)

/-- src/Region.cpp:274-287: StaticRegion becomes Static with the policy given for the region.
Returns name, parameters and `model_info`. -/
def resolveStaticRegion (regionName : Str) (name : Str) (params : Params) (info : Str) :
    Res (Str × Params × Str) :=
  if name = "StaticRegion".toList then
    match params.find regionName with
    | none => .error .abort
    | some p => .ok ("Static".toList, [("policy".toList, p)], "Static,policy=".toList ++ p)
  else .ok (name, params, info)

/-- What the factory creates; for PolicyNet the constructor arguments. -/
inductive Created where
  | model (m : PolicyModel)
  | policyNet (numPolicies numFeatures : ℤ) (lr beta beta1 beta2 threshold : ℚ)

/-- `it != end ? read(it->second) : default`. -/
def paramOr {α : Type} (params : Params) (key : Str) (read : Str → Res α) (dflt : α) : Res α :=
  match params.find key with
  | none => .ok dflt
  | some s => read s

/-- `std::stoi` of a parameter. -/
def readInt' (s : Str) : Res ℤ := do let (v, _) ← stoi s; .ok v

/-- `unsigned x = std::stoul(..)`. -/
def readUnsigned (s : Str) : Res ℕ := do let (v, _) ← stoul s; .ok (v % 2 ^ 32)

/-- `std::stod` of a parameter. -/
def readDouble (s : Str) : Res ℚ := do let (v, _) ← stod s; .ok v

/-- src/ModelFactory.cpp:55-68. -/
def createStatic (n : ℤ) (params : Params) : Res PolicyModel := do
  let policy ← paramOr params "policy".toList readInt' 0
  if policy < 0 then .error .throw
  else if n ≤ policy then .ok (.static n 0)
  else .ok (.static n policy)

/-- src/ModelFactory.cpp:49-152.  `gen` supplies the random numbers.  The recursion for the explorer
(lines 85-94, 111-120) passes empty parameters; the fuel bounds its depth (two levels suffice). -/
def createPolicyModel (gen : ℕ → ℕ) : ℕ → Str → ℤ → ℤ → Params → Res Created
  | 0, _, _, _, _ => .error .diverge
  | fuel + 1, name, numFeatures, n, params =>
    let explorerOf : Res PolicyModel := do
      let ename := (params.find "explore".toList).getD "RoundRobin".toList
      match ← createPolicyModel gen fuel ename numFeatures n [] with
      | .model m => .ok m
      | .policyNet .. => .error .unmodelled
    if name = "Static".toList then do .ok (.model (← createStatic n params))
    else if name = "DatasetMap".toList then .ok (.model (.datasetMap n []))
    else if name = "Random".toList then do .ok (.model (← PolicyModel.newRandom n gen))
    else if name = "RoundRobin".toList then .ok (.model (.newRoundRobin n))
    else if name = "DecisionTree".toList then do
      let maxDepth ← paramOr params "max_depth".toList readUnsigned 2
      let explorer ← explorerOf
      .ok (.model (.newTree n maxDepth explorer))
    else if name = "RandomForest".toList then do
      let numTrees ← paramOr params "num_trees".toList readUnsigned 10
      let maxDepth ← paramOr params "max_depth".toList readUnsigned 2
      let explorer ← explorerOf
      .ok (.model (.newForest n numTrees maxDepth explorer))
    else if name = "PolicyNet".toList then do
      let lr ← paramOr params "lr".toList readDouble (rnd64 (1 / 100))
      let beta ← paramOr params "beta".toList readDouble (1 / 2)
      let beta1 ← paramOr params "beta1".toList readDouble (1 / 2)
      let beta2 ← paramOr params "beta2".toList readDouble (rnd64 (9 / 10))
      let threshold ← paramOr params "threshold".toList readDouble 0
      .ok (.policyNet n numFeatures lr beta beta1 beta2 threshold)
    else if name = "Optimal".toList then .ok (.model (.optimal []))
    else .error .abort

/-- src/ModelFactory.cpp:49-152 as called from the region constructor (Region.cpp:289-292). -/
def createModel (gen : ℕ → ℕ) (name : Str) (numFeatures n : ℤ) (params : Params) : Res Created :=
  createPolicyModel gen 3 name numFeatures n params

/-- src/ModelFactory.cpp:26-47: create from a file (`none`: it does not exist).  The DecisionTree and
RandomForest constructors are DecisionTree.cpp:35-54 and RandomForest.cpp:36-54. -/
def createFromFile (name : Str) (n : ℤ) (file : Option Str) : Res PolicyModel :=
  if name = "Static".toList ∨ name = "Random".toList ∨ name = "RoundRobin".toList ∨
      name = "DatasetMap".toList then .error .throw
  else if name = "Optimal".toList then PolicyModel.load file (.optimal [])
  else if name = "DecisionTree".toList then
    match file with
    | none => .error .abort
    | some s => do
      let t ← (TreeImpl.new n 0).load s
      .ok (.tree n false .null t)
  else if name = "RandomForest".toList then
    match file with
    | none => .error .abort
    | some s => do
      let f ← (ForestImpl.new n 0 0).load s
      .ok (.forest n false .null f)
  else if name = "PolicyNet".toList then .error .throw
  else .error .abort

/-- src/Region.cpp:266-267: `strncpy` into `char name[64]` keeps 63 characters. -/
def truncName (s : Str) : Str := s.take 63

/-- src/Region.cpp:266-292: the model of a region from its model string. -/
def regionModel (gen : ℕ → ℕ) (regionName info : Str) (numFeatures n : ℤ) : Res Created := do
  let (name, params) ← parsePolicyModel info
  let (name, params, _) ← resolveStaticRegion (truncName regionName) name params info
  createModel gen name numFeatures n params

end Apollo
