import Verif.Model.RegionNet

/-!
# Trees and forests which explore with a PolicyNet

The factory takes the name of any model for the parameter `explore` of a tree or forest
(src/ModelFactory.cpp:80-94, 105-120), also that of a PolicyNet.  Verif.Model.RegionNet leaves this case
out; here it is added, so that all model strings have a model.
-/

namespace Apollo

/-- An object of a class derived from `PolicyModel`, trees and forests with a PolicyNet as explorer
included. -/
inductive AllModel (α : Type) where
  | any (m : AnyModel α)
  /-- A tree or forest `m`, the member `explorer` of which is the network (`m` itself has none). -/
  | guided (m : PolicyModel) (explorer : PolicyNet α)

open Arith in
/-- src/ModelFactory.cpp:126-145 with empty parameters: the network which explores.  Negative numbers of
policies or features are not modelled. -/
def netExplorer {α : Type} [Arith α] (d : NetDraws α) (t : ℕ) (nf n : ℤ) : Res (PolicyNet α) :=
  if n < 0 ∨ nf < 0 then .error .unmodelled
  else .ok (.new n.toNat nf.toNat (ofRat (rnd64 (1 / 100))) (ofRat (1 / 2)) (ofRat (1 / 2))
    (ofRat (rnd64 (9 / 10))) (ofRat 0) (d.weights t) (d.gen t))

open Arith in
/-- The functions of `PolicyModel` and `ModelFactory::createPolicyModel` (src/ModelFactory.cpp:49-152; the
explorers in lines 74-125).  A tree or forest asks its explorer as long as it is not trained
(src/models/DecisionTree.cpp:115-120, src/models/RandomForest.cpp:119-124) and leaves it alone otherwise
(DecisionTree.cpp:84-113, 122-127, RandomForest.cpp:88-115, 126-131). -/
def allOps {α : Type} [Arith α] [Stored α] (gen : ℕ → ℕ → ℕ) (tenv : ℕ → TrainEnv)
    (d : NetDraws α) : ModelOps (AllModel α) where
  create := fun t name nf n params =>
    if params.find "explore".toList = some "PolicyNet".toList ∧ name = "DecisionTree".toList then do
      let maxDepth ← paramOr params "max_depth".toList readUnsigned 2
      .ok (.guided (.newTree n maxDepth .null) (← netExplorer d t nf n))
    else if params.find "explore".toList = some "PolicyNet".toList ∧ name = "RandomForest".toList then do
      let numTrees ← paramOr params "num_trees".toList readUnsigned 10
      let maxDepth ← paramOr params "max_depth".toList readUnsigned 2
      .ok (.guided (.newForest n numTrees maxDepth .null) (← netExplorer d t nf n))
    else do .ok (.any (← (netOps gen tenv d).create t name nf n params))
  name := fun m => match m with
    | .any m => (netOps gen tenv d).name m
    | .guided m _ => m.name
  isTrainable := fun m => match m with
    | .any m => (netOps gen tenv d).isTrainable m
    | .guided m _ => m.isTrainable
  getIndex := fun m f => match m with
    | .any m => do
      let (i, m) ← (netOps gen tenv d).getIndex m f
      .ok (i, .any m)
    | .guided m P =>
      if m.isTrainable then do
        let (i, P) ← P.getIndex f
        .ok (i, .guided m P)
      else do
        let (i, m) ← m.getIndex f
        .ok (i, .guided m P)
  train := fun t ds m => match m with
    | .any m => do .ok (.any (← (netOps gen tenv d).train t ds m))
    | .guided m P => do .ok (.guided (← m.train (tenv t) ds) P)
  load := fun file m => match m with
    | .any m => do .ok (.any (← (netOps gen tenv d).load file m))
    | .guided m P => do .ok (.guided (← m.load file) P)
  store := fun m => match m with
    | .any m => (netOps gen tenv d).store m
    | .guided m _ => m.store

end Apollo
