import Verif.Model.Region

/-!
# The policy models as used by regions

The virtual functions of the classes of Verif.Model.PolicyModels and the factory of
Verif.Model.Factory, in the form the model of regions takes them.
-/

namespace Apollo

/-- The functions of `PolicyModel` and `ModelFactory::createPolicyModel` (src/ModelFactory.cpp:49-152).
`gen` gives the numbers produced by the generators of models created at a tick, `tenv` the unspecified
ingredients of a training at a tick.  Regions with a PolicyNet are not part of this instance. -/
def policyOps (gen : ℕ → ℕ → ℕ) (tenv : ℕ → TrainEnv) : ModelOps PolicyModel where
  create := fun t name nf n params =>
    match createModel (gen t) name nf n params with
    | .ok (.model m) => .ok m
    | .ok (.policyNet ..) => .error .unmodelled
    | .error e => .error e
  name := PolicyModel.name
  isTrainable := PolicyModel.isTrainable
  getIndex := PolicyModel.getIndex
  train := fun t ds m => m.train (tenv t) ds
  load := PolicyModel.load
  store := PolicyModel.store

end Apollo
