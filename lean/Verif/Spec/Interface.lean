import Verif.Model.Region
import Verif.Spec.PolicyTrace
import Verif.Spec.Models

/-!
# Specification of the use of regions

What a careful user of the library keeps in mind, and the calls they may make.  Of the model only the
names of the calls (`Op`) are used.
-/

namespace Apollo.Spec

/-- What the user knows about a region: its model string, the number of features and policies, how many executions were
begun and ended, and the context begun last, as long as no other call may have forgotten it. -/
structure RegUse where
  model : Str
  features : ℕ
  policies : ℤ
  begins : ℕ := 0
  ends : ℕ := 0
  current : Option CtxPtr := none
  deriving DecidableEq

/-- What the user knows: the regions that exist, the contexts begun and not yet ended (with their region
and the number of features given), and whether a region was destroyed. -/
structure Use where
  regs : ℕ → Option RegUse := fun _ => none
  nregs : ℕ := 0
  opens : CtxPtr → Option (ℕ × ℕ) := fun _ => none
  nctx : ℕ := 0
  destroyed : Bool := false

/-- What depends on the surroundings: which numbers may be features of a region with a model string, whether
asynchronous timing is available, how many executions of a region may end, and which model strings are
known (for a number of policies). -/
structure UseRules where
  fits : Str → ℚ → Prop
  async : Bool
  most : ℕ
  known : Str → Str → ℤ → Prop

/-- The parameter is absent or an unsigned number. -/
def UnsignedItem (items : List Item) (key : Str) : Prop :=
  firstValue items key = none ∨ ∃ v : ℕ, v < 2 ^ 32 ∧ firstValue items key = some (fmtInt v)

/-- The exploring model is absent or a simple one. -/
def ExplorerItem (items : List Item) : Prop :=
  firstValue items "explore".toList ∈ [none, some "Static".toList, some "RoundRobin".toList,
    some "Random".toList]

/-- Model strings for models that need no file; those for StaticRegion name the region, of whose name 63
characters are kept. -/
inductive KnownModel (region : Str) : Str → Prop
  | static : KnownModel region "Static".toList
  | staticPolicy (k : ℕ) (hk : k < 2 ^ 31) : KnownModel region ("Static,policy=".toList ++ fmtInt k)
  | roundRobin : KnownModel region "RoundRobin".toList
  | random : KnownModel region "Random".toList
  | tree (items : List Item) (hwf : ∀ x ∈ items, x.WF)
      (hkeys : ∀ x ∈ items, x.key ∈ ["max_depth".toList, "explore".toList])
      (hd : UnsignedItem items "max_depth".toList) (he : ExplorerItem items) :
      KnownModel region (modelString "DecisionTree".toList items)
  | forest (items : List Item) (hwf : ∀ x ∈ items, x.WF)
      (hkeys : ∀ x ∈ items, x.key ∈ ["num_trees".toList, "max_depth".toList, "explore".toList])
      (ht : UnsignedItem items "num_trees".toList) (hd : UnsignedItem items "max_depth".toList)
      (he : ExplorerItem items) : KnownModel region (modelString "RandomForest".toList items)
  | staticRegion (items : List Item) (hwf : ∀ x ∈ items, x.WF) (k : ℕ) (hk : k < 2 ^ 31)
      (h : firstValue items (region.take 63) = some (fmtInt k)) :
      KnownModel region (modelString "StaticRegion".toList items)

/-- The parameter is absent or a real number as printed, which a `double` can hold. -/
def RealItem (items : List Item) (key : Str) : Prop :=
  firstValue items key = none ∨ ∃ q : ℚ, (q = 0 ∨ (10 ^ (-307 : ℤ) ≤ |q| ∧ |q| ≤ 10 ^ (308 : ℤ))) ∧
    firstValue items key = some (fmtG6 q)

/-- Model strings for networks that are not loaded from a file. -/
inductive NetModel : Str → Prop
  | net (items : List Item) (hwf : ∀ x ∈ items, x.WF)
      (hkeys : ∀ x ∈ items, x.key ∈ ["lr".toList, "beta".toList, "beta1".toList, "beta2".toList,
        "threshold".toList])
      (hreal : ∀ key, RealItem items key) : NetModel (modelString "PolicyNet".toList items)

/-- The number can be converted to an unsigned number of 64 bits. -/
def FitsUnsigned (x : ℚ) : Prop := -1 < x ∧ x < 2 ^ 64

/-- A context was begun. -/
def Use.start (u : Use) (r : ℕ) (c : CtxPtr) (k : ℕ) : Use :=
  { u with
    regs := Function.update u.regs r ((u.regs r).map fun g =>
      { g with begins := g.begins + 1, current := some c })
    opens := Function.update u.opens c (some (r, k)) }

/-- A context was ended. -/
def Use.finish (u : Use) (r : ℕ) (c : CtxPtr) : Use :=
  { u with
    regs := Function.update u.regs r ((u.regs r).map fun g =>
      { g with ends := g.ends + 1, current := none })
    opens := Function.update u.opens c none }

/-- The contexts of the region were collected. -/
def Use.forget (u : Use) (r : ℕ) : Use :=
  { u with regs := Function.update u.regs r ((u.regs r).map fun g => { g with current := none }) }

/-- The contexts of all regions were collected. -/
def Use.forgetAll (u : Use) : Use :=
  { u with regs := fun r => (u.regs r).map fun g => { g with current := none } }

/-- A call without context means the call with the context begun last. -/
def Use.explicit (u : Use) : Op → Option Op
  | .setFeatureCur r v => ((u.regs r).bind RegUse.current).map fun c => .setFeature r c v
  | .getPolicyIndexCur r => ((u.regs r).bind RegUse.current).map fun c => .getPolicyIndex r c
  | .endMetricCur r m => ((u.regs r).bind RegUse.current).map fun c => .endMetric r c m
  | .endCur r => ((u.regs r).bind RegUse.current).map fun c => .endCtx r c
  | op => some op

/-- The context was begun for the region and has all its features. -/
def Use.complete (u : Use) (r : ℕ) (c : CtxPtr) (g : RegUse) : Prop :=
  u.regs r = some g ∧ u.opens c = some (r, g.features)

/-- Calls with their context that may be made. -/
def Use.MayCall (ρ : UseRules) (u : Use) : Op → Prop
  | .create nf name n _ info yaml => 0 ≤ nf ∧ 1 ≤ n ∧ ρ.known name info n ∧ yaml = []
  | .destroy r _ => (u.regs r).isSome
  | .begin r kind => (∃ g, u.regs r = some g ∧ g.begins + 1 < 2 ^ 31) ∧ (kind = .async → ρ.async)
  | .beginWith r f => ∃ g, u.regs r = some g ∧ g.begins + 1 < 2 ^ 31 ∧ f.length = g.features ∧
      ∀ v ∈ f, ρ.fits g.model v
  | .setFeature r c v => (∃ g, u.regs r = some g ∧ ρ.fits g.model v) ∧ ∃ k, u.opens c = some (r, k)
  | .getPolicyIndex r c => ∃ g, u.complete r c g
  | .endMetric r c _ => ∃ g, u.complete r c g ∧ g.ends < ρ.most
  | .endCtx r c => ∃ g, u.complete r c g ∧ g.ends < ρ.most
  | .collect r => (u.regs r).isSome
  | .train r _ _ _ => (u.regs r).isSome
  | .trainAll _ _ => u.destroyed = false
  | _ => False

/-- What the user knows after a call with its context. -/
def Use.afterCall (u : Use) : Op → Use
  | .create nf _ n _ info _ =>
    { u with
      regs := Function.update u.regs u.nregs (some { model := info, features := nf.toNat, policies := n })
      nregs := u.nregs + 1 }
  | .destroy r _ => { u with regs := Function.update u.regs r none, destroyed := true }
  | .begin r .sync => u.start r (.sync r) 0
  | .begin r .async => { u.start r (.heap u.nctx) 0 with nctx := u.nctx + 1 }
  | .beginWith r f => u.start r (.sync r) f.length
  | .setFeature _ c _ =>
    { u with opens := Function.update u.opens c ((u.opens c).map fun x => (x.1, x.2 + 1)) }
  | .endMetric r c _ => u.finish r c
  | .endCtx r c => u.finish r c
  | .collect r => u.forget r
  | .train r _ collect _ => if collect then u.forget r else u
  | .trainAll _ collect => if collect then u.forgetAll else u
  | _ => u

/-- Calls that may be made. -/
def Use.May (ρ : UseRules) (u : Use) (op : Op) : Prop := ∃ op', u.explicit op = some op' ∧ u.MayCall ρ op'

/-- What the user knows after a call. -/
def Use.after (u : Use) (op : Op) : Use :=
  match u.explicit op with
  | some op' => u.afterCall op'
  | none => u

/-- Programs all of whose calls may be made. -/
def Use.Follows (ρ : UseRules) : Use → List Op → Prop
  | _, [] => True
  | u, op :: ops => u.May ρ op ∧ (u.after op).Follows ρ ops

/-- What the user knows after a program. -/
def Use.afterAll (u : Use) (ops : List Op) : Use := ops.foldl Use.after u

/-- What a call answers. -/
def Use.Answer (u : Use) : Op → Ret → Prop
  | .create .., x => x = .region u.nregs
  | .begin r .sync, x => x = .ctx (.sync r)
  | .begin _ .async, x => x = .ctx (.heap u.nctx)
  | .beginWith r _, x => x = .ctx (.sync r)
  | .getPolicyIndex r _, x => ∃ g p, u.regs r = some g ∧ x = .policy p ∧ 0 ≤ p ∧ p < g.policies
  | .getPolicyIndexCur r, x => ∃ g p, u.regs r = some g ∧ x = .policy p ∧ 0 ≤ p ∧ p < g.policies
  | _, x => x = .unit

end Apollo.Spec
