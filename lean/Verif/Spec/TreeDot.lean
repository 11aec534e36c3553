import Verif.Spec.Dot
import Verif.Model.TreeDot

/-!
# What the drawing of a tree or of a forest shows

Nodes of a tree are named by the way to them: `tree_root_left_right` is the right child of the left child
of the root.
-/

namespace Apollo.Spec

/-- The node reached from the root by going to the right (`true`) or to the left (`false`). -/
def nodeAt : Tree → List Bool → Option NodeInfo
  | .nil, _ => none
  | .node n _ _, [] => some n
  | .node _ l r, d :: p => if d then nodeAt r p else nodeAt l p

/-- The name of the node that is reached in this way, for a tree with the name `base`. -/
def pathName (base : List Char) (p : List Bool) : List Char :=
  base ++ "_root".toList ++
    (p.map fun d => if d then "_right".toList else "_left".toList).flatten

/-- A label with one line for each of the fields. -/
def labelOf (name : List Char) (fields : List (String × List Char)) : List Char :=
  name ++ ['\n'] ++ (fields.map fun x => x.1.toList ++ ": ".toList ++ x.2 ++ ",\n".toList).flatten

/-- The label of a node shows what was saved of it. -/
def nodeLabel (py : PyText) (classes : List ℤ) (name : List Char) (n : NodeInfo) : List Char :=
  labelOf name [("gini", py.str (fmtG6 n.gini)), ("num_samples", py.str (fmtInt n.numSamples)),
    ("predicted_class", py.str (fmtInt n.predicted)), ("feature_idx", py.str (fmtInt n.featureIdx)),
    ("threshold", py.str (fmtG6 n.threshold)),
    ("count_per_class", "{".toList ++ ", ".toList.intercalate ((classes.zip n.counts).map fun c =>
      py.repr (fmtInt c.1) ++ ": ".toList ++ py.repr (fmtInt c.2)) ++ "}".toList)]

/-- The label of a tree. -/
def treeLabel (py : PyText) (name : List Char) (t : TreeImpl) : List Char :=
  labelOf name [("max_depth", py.str (fmtInt t.maxDepth)),
    ("classes", "[".toList ++ ", ".toList.intercalate (t.classes.map fun c => py.repr (fmtInt c)) ++
      "]".toList),
    ("num_features", py.str (fmtInt t.numFeatures))]

/-- The attributes of a drawn node. -/
def attrs (shape : String) (label : List Char) : List (List Char × List Char) :=
  [("shape".toList, shape.toList), ("label".toList, label)]

/-- The graph `g` is a drawing of the tree `t`: an oval with the name `base` for the tree, one box for
each of its nodes, and an arrow from the oval to the root and from each node to its children. -/
structure DrawsTree (py : PyText) (base : List Char) (t : TreeImpl) (g : List DotStmt) : Prop where
  once : (nodesOf g).Nodup
  nodes : ∀ a l, .node a l ∈ g ↔ a = base ∧ l = attrs "oval" (treeLabel py base t) ∨
    ∃ p n, nodeAt t.root p = some n ∧ a = pathName base p ∧
      l = attrs "box" (nodeLabel py t.classes a n)
  arrows_once : (edgesOf g).Nodup
  arrows : ∀ a b, .edge a b ∈ g ↔ a = base ∧ b = pathName base [] ∨
    ∃ p d n, nodeAt t.root (p ++ [d]) = some n ∧ a = pathName base p ∧ b = pathName base (p ++ [d])

/-- The name of the tree with number `i` of a forest. -/
def treeName (i : ℕ) : List Char := "tree_".toList ++ fmtInt i

/-- The label of a forest. -/
def forestLabel (py : PyText) (f : ForestImpl) : List Char :=
  labelOf "rfc".toList [("max_depth", py.str (fmtInt f.maxDepth)),
    ("classes", "[".toList ++ ", ".toList.intercalate ((List.range f.numClasses.toNat).map fun i : ℕ =>
      py.repr (fmtInt i)) ++ "]".toList)]

/-- The graph `g` is a drawing of the first `k` trees of the forest `f`: an oval for the forest with an
arrow to the drawing of each tree. -/
structure DrawsForest (py : PyText) (f : ForestImpl) (k : ℕ) (g : List DotStmt) : Prop where
  once : (nodesOf g).Nodup
  nodes : ∀ a l, .node a l ∈ g ↔ a = "rfc".toList ∧ l = attrs "oval" (forestLabel py f) ∨
    ∃ i t, i < k ∧ f.trees[i]? = some t ∧
      (a = treeName i ∧ l = attrs "oval" (treeLabel py a t) ∨
        ∃ p n, nodeAt t.root p = some n ∧ a = pathName (treeName i) p ∧
          l = attrs "box" (nodeLabel py t.classes a n))
  arrows_once : (edgesOf g).Nodup
  arrows : ∀ a b, .edge a b ∈ g ↔ ∃ i t, i < k ∧ f.trees[i]? = some t ∧
    (a = "rfc".toList ∧ b = treeName i ∨ a = treeName i ∧ b = pathName (treeName i) [] ∨
      ∃ p d n, nodeAt t.root (p ++ [d]) = some n ∧ a = pathName (treeName i) p ∧
        b = pathName (treeName i) (p ++ [d]))

/-- Python prints no quotes and no backslashes for words and numbers. -/
def Quiet (py : PyText) : Prop :=
  ∀ s : List Char, (∀ c ∈ s, Yaml.plainChar c = true) →
    ('"' ∉ py.str s ∧ '\\' ∉ py.str s) ∧ ('"' ∉ py.repr s ∧ '\\' ∉ py.repr s)

end Apollo.Spec
