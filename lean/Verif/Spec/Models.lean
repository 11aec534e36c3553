import Mathlib.Data.List.Basic

/-!
# Specification of model strings

Independent of the parser: a model string is a name followed by items `,key` or `,key=value`.
-/

namespace Apollo.Spec

/-- A parameter as written by the user: key and, if there is a `=`, the value. -/
structure Item where
  key : List Char
  val : Option (List Char)
  deriving DecidableEq

/-- `key` or `key=value`. -/
def Item.text (i : Item) : List Char :=
  match i.val with
  | none => i.key
  | some v => i.key ++ '=' :: v

/-- Keys contain neither `,` nor `=`, values contain no `,`. -/
def Item.WF (i : Item) : Prop :=
  ',' ∉ i.key ∧ '=' ∉ i.key ∧ ∀ v, i.val = some v → ',' ∉ v

/-- The model string `name,item,item,...`. -/
def modelString (name : List Char) (items : List Item) : List Char :=
  name ++ (items.map fun i => ',' :: i.text).flatten

/-- The value of the first item with the key; an item without `=` has the empty value. -/
def firstValue : List Item → List Char → Option (List Char)
  | [], _ => none
  | i :: is, k => if i.key = k then some (i.val.getD []) else firstValue is k

/-- The documented parameters of each model. -/
def documented (name key : List Char) : Prop :=
  (name = "Static".toList ∧ key = "policy".toList) ∨
  (name = "DecisionTree".toList ∧ (key = "max_depth".toList ∨ key = "explore".toList ∨
    key = "load".toList ∨ key = "load-dataset".toList)) ∨
  (name = "RandomForest".toList ∧ (key = "num_trees".toList ∨ key = "max_depth".toList ∨
    key = "explore".toList ∨ key = "load".toList ∨ key = "load-dataset".toList)) ∨
  (name = "PolicyNet".toList ∧ (key = "lr".toList ∨ key = "beta".toList ∨ key = "beta1".toList ∨
    key = "beta2".toList ∨ key = "threshold".toList ∨ key = "load".toList ∨
    key = "load-dataset".toList)) ∨
  name = "StaticRegion".toList

end Apollo.Spec
