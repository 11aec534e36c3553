import Verif.Spec.Dot
import Verif.Model.OpencvDot

/-!
# Forests saved by OpenCV and their drawings

OpenCV writes the nodes of a tree in pre-order, each with its depth; inner nodes have two children.
-/

namespace Apollo.Spec

/-- A tree of OpenCV with what is saved of each node. -/
inductive CvTree where
  | leaf (n : CvNode)
  | split (n : CvNode) (left right : CvTree)

namespace CvTree

/-- The node reached from the root by going to the right (`true`) or to the left (`false`). -/
def nodeAt : CvTree → List Bool → Option CvNode
  | .leaf n, [] => some n
  | .leaf _, _ :: _ => none
  | .split n _ _, [] => some n
  | .split _ l r, d :: p => if d then r.nodeAt p else l.nodeAt p

/-- The number of nodes. -/
def size : CvTree → ℕ
  | .leaf _ => 1
  | .split _ l r => l.size + r.size + 1

/-- The nodes in the order in which they are saved. -/
def saved : CvTree → List CvNode
  | .leaf n => [n]
  | .split n l r => n :: (l.saved ++ r.saved)

/-- The place of a node in this order. -/
def number : CvTree → List Bool → ℕ
  | .split _ l r, d :: p => if d then 1 + l.size + r.number p else 1 + l.number p
  | _, _ => 0

/-- Each node is saved with its depth. -/
def HasDepths (t : CvTree) : Prop :=
  ∀ p n, t.nodeAt p = some n → ∃ l, n = .map l ∧ l.lookup "depth".toList = some (.int p.length)

/-- The root has no children, or its right child has none. -/
def RightIsLeaf : CvTree → Prop
  | .leaf _ => True
  | .split _ _ (.leaf _) => True
  | .split _ _ (.split _ _ _) => False

end CvTree

mutual

/-- Integers, numbers, and lists and mappings of them: no strings, and nothing that is missing. -/
def Plain : CvNode → Prop
  | .map l => PlainFields l
  | .seq l => PlainItems l
  | .int _ => True
  | .real _ => True
  | .str _ => False
  | .empty => False

/-- The entries of a mapping. -/
def PlainFields : List (List Char × CvNode) → Prop
  | [] => True
  | (k, n) :: l => ('"' ∉ k ∧ '\\' ∉ k) ∧ Plain n ∧ PlainFields l

/-- The items of a list. -/
def PlainItems : List CvNode → Prop
  | [] => True
  | n :: l => Plain n ∧ PlainItems l

end

mutual

/-- How a value is shown in a label. -/
def shown (py : CvText) : CvNode → List Char
  | .map l => "{\n".toList ++ (shownFields py l).flatten ++ " }\n".toList
  | .seq l => "[ ".toList ++ ", ".toList.intercalate (shownItems py l) ++ " ]\n".toList
  | .int n => fmtInt n
  | .real v => py.fixed v
  | .str _ => []
  | .empty => []

/-- One line for each entry. -/
def shownFields (py : CvText) : List (List Char × CvNode) → List (List Char)
  | [] => []
  | (k, n) :: l => (k ++ ": ".toList ++ shown py n ++ ",\n".toList) :: shownFields py l

/-- The items of a list. -/
def shownItems (py : CvText) : List CvNode → List (List Char)
  | [] => []
  | n :: l => shown py n :: shownItems py l

end

/-- The name of the node with number `i` at this depth of the tree with number `tid`. -/
def cvName (tid depth i : ℕ) : List Char :=
  "tree_".toList ++ fmtInt tid ++ "_d_".toList ++ fmtInt depth ++ "_n_".toList ++ fmtInt i

/-- The file of the forest: other entries, among which `trees` with the nodes of each tree. -/
def cvFile (before after : List (List Char × CvNode)) (ts : List CvTree) : CvNode :=
  .map (before ++ ("trees".toList, .seq (ts.map fun t => .map [("nodes".toList, .seq t.saved)])) :: after)

/-- The graph `g` is a drawing of the forest: a box for its settings, a node for each node of each tree,
labelled with what was saved of it, an arrow from the box to the root of each tree, and arrows from each
node to its children. -/
structure DrawsCv (py : CvText) (settings : List (List Char × CvNode)) (ts : List CvTree)
    (g : List DotStmt) : Prop where
  once : (nodesOf g).Nodup
  nodes : ∀ a l, .node a l ∈ g ↔
    a = "root".toList ∧ l = [("shape".toList, "box".toList), ("label".toList, shown py (.map settings))] ∨
    ∃ i t p n, ts[i]? = some t ∧ t.nodeAt p = some n ∧ a = cvName i p.length (t.number p) ∧
      l = [("label".toList, shown py n)]
  arrows_once : (edgesOf g).Nodup
  arrows : ∀ a b, .edge a b ∈ g ↔ ∃ i t, ts[i]? = some t ∧
    (a = "root".toList ∧ b = cvName i 0 0 ∨
      ∃ p d n, t.nodeAt (p ++ [d]) = some n ∧ a = cvName i p.length (t.number p) ∧
        b = cvName i (p.length + 1) (t.number (p ++ [d])))

/-- Python prints no quotes and no backslashes for a number. -/
def QuietCv (py : CvText) : Prop := ∀ v, '"' ∉ py.fixed v ∧ '\\' ∉ py.fixed v

/-- The forest can be saved in this form. -/
structure Saveable (before after : List (List Char × CvNode)) (ts : List CvTree) : Prop where
  depths : ∀ t ∈ ts, t.HasDepths
  plain : ∀ t ∈ ts, ∀ p n, t.nodeAt p = some n → Plain n
  settings : PlainFields (before ++ after)
  other : ∀ x ∈ before ++ after, x.1 ≠ "trees".toList

end Apollo.Spec
