import Verif.Model.RegionPolicy
import Verif.Model.PolicyNet

/-!
# All policy models as used by regions

As Verif.Model.RegionPolicy, with PolicyNet.  A PolicyNet as explorer of a tree or a forest
(`explore=PolicyNet`) is added in Verif.Model.NetExplorer.
-/

namespace Apollo

/-- An object of a class derived from `PolicyModel`. -/
inductive AnyModel (α : Type) where
  | plain (m : PolicyModel)
  | net (P : PolicyNet α)

/-- What the generators of a PolicyNet created at a tick draw: the weights of the layers
(src/models/PolicyNet.cpp:28-48) and the numbers for the choices (`std::random_device`-seeded generator,
src/models/PolicyNet.cpp:435-437). -/
structure NetDraws (α : Type) where
  weights : ℕ → ℕ → ℕ → α
  gen : ℕ → ℕ → α

open Arith in
/-- The functions of `PolicyModel` and `ModelFactory::createPolicyModel` (src/ModelFactory.cpp:49-152;
PolicyNet in lines 126-145).  Negative numbers of policies or features are not modelled. -/
def netOps {α : Type} [Arith α] [Stored α] (gen : ℕ → ℕ → ℕ) (tenv : ℕ → TrainEnv)
    (d : NetDraws α) : ModelOps (AnyModel α) where
  create := fun t name nf n params =>
    match createModel (gen t) name nf n params with
    | .ok (.model m) => .ok (.plain m)
    | .ok (.policyNet n nf lr beta beta1 beta2 threshold) =>
      if n < 0 ∨ nf < 0 then .error .unmodelled
      else .ok (.net (.new n.toNat nf.toNat (ofRat lr) (ofRat beta) (ofRat beta1) (ofRat beta2)
        (ofRat threshold) (d.weights t) (d.gen t)))
    | .error e => .error e
  name := fun m => match m with
    | .plain m => m.name
    | .net _ => "PolicyNet".toList
  isTrainable := fun m => match m with
    | .plain m => m.isTrainable
    | .net P => P.isTrainable
  getIndex := fun m f => match m with
    | .plain m => do
      let (i, m) ← m.getIndex f
      .ok (i, .plain m)
    | .net P => do
      let (i, P) ← P.getIndex f
      .ok (i, .net P)
  train := fun t ds m => match m with
    | .plain m => do .ok (.plain (← m.train (tenv t) ds))
    | .net P => do .ok (.net (← P.train ds))
  load := fun file m => match m with
    | .plain m => do .ok (.plain (← m.load file))
    | .net P => do .ok (.net (← P.load file))
  store := fun m => match m with
    | .plain m => m.store
    | .net P => do .ok (some (← P.store))

end Apollo
