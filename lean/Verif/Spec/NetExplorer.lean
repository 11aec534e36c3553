import Verif.Spec.Interface
import Verif.Spec.Net
import Mathlib.Algebra.BigOperators.Group.Finset.Basic
import Mathlib.Data.Real.Basic

/-!
# Specification of exploration with a network

Which model strings ask for it, what the network reads of the features, and what it means that a policy is
drawn according to probabilities.
-/

namespace Apollo.Spec

open Finset

/-- Model strings for trees and forests which explore with a network. -/
inductive GuidedModel : Str → Prop
  | tree (items : List Item) (hwf : ∀ x ∈ items, x.WF)
      (hkeys : ∀ x ∈ items, x.key ∈ ["max_depth".toList, "explore".toList])
      (hd : UnsignedItem items "max_depth".toList)
      (he : firstValue items "explore".toList = some "PolicyNet".toList) :
      GuidedModel (modelString "DecisionTree".toList items)
  | forest (items : List Item) (hwf : ∀ x ∈ items, x.WF)
      (hkeys : ∀ x ∈ items, x.key ∈ ["num_trees".toList, "max_depth".toList, "explore".toList])
      (ht : UnsignedItem items "num_trees".toList) (hd : UnsignedItem items "max_depth".toList)
      (he : firstValue items "explore".toList = some "PolicyNet".toList) :
      GuidedModel (modelString "RandomForest".toList items)

/-- The `k`-th input of the network: bit `k % 64` of the whole part of feature `k / 64`. -/
def bitOfFeatures (f : List ℚ) (k : ℕ) : Bool := ⌊f.getD (k / 64) 0⌋₊.testBit (k % 64)

/-- Of policies with the probabilities `p`, the number `u` of the unit interval selects `j`. -/
def Selects (p : ℕ → ℝ) (u : ℝ) (j : ℕ) : Prop := ∑ i ∈ range j, p i < u ∧ u ≤ ∑ i ∈ range (j + 1), p i

end Apollo.Spec
