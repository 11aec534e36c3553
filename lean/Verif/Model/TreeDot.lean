import Verif.Spec.Yaml
import Verif.Model.TreeIO
import Verif.Model.Forest

/-!
# Model of the scripts that draw trees

Source: src/python/analysis/dtree2dot.py, src/python/analysis/rfc2dot.py, and the text that
`DecisionTreeImpl::print_tree` and `RandomForestImpl::print_forest` write (DecisionTreeImpl.cpp:200-204,
RandomForestImpl.cpp:195-199).

Simplifications: `yaml.safe_load` is the reader of Spec/Yaml.lean, and a file outside of that part of YAML
is not modelled (`none`).  What Python prints for a scalar is a parameter (`PyText`).  Keys are printed as
they are written, which is what Python does for the words and integers that are keys here.  The limit of
Python on the depth of recursion is not modelled.  A mapping inside of a node is printed with its entries as
they are written; its keys are the classes of the tree, which are distinct.  Exceptions (a missing key, an index out of range, a
value of a wrong type) are `none` too.
-/

namespace Apollo

open Spec

/-- What Python prints for a scalar read from a YAML file, by itself (`str`) and inside of a list or a
dictionary (`repr`). -/
structure PyText where
  str : List Char → List Char
  repr : List Char → List Char

namespace PyText

mutual

/-- `repr(y)`: lists are `[a, b]`, dictionaries `{k: v, l: w}`. -/
def reprYaml (py : PyText) : Yaml → List Char
  | .scalar s => py.repr s
  | .seq l => "[".toList ++ ", ".toList.intercalate (py.reprItems l) ++ "]".toList
  | .map l => "{".toList ++ ", ".toList.intercalate (py.reprFields l) ++ "}".toList

/-- The items of a list. -/
def reprItems (py : PyText) : List Yaml → List (List Char)
  | [] => []
  | y :: l => py.reprYaml y :: py.reprItems l

/-- The items of a dictionary. -/
def reprFields (py : PyText) : List (List Char × Yaml) → List (List Char)
  | [] => []
  | (k, y) :: l => (py.repr k ++ ": ".toList ++ py.reprYaml y) :: py.reprFields l

end

/-- `'%s' % y`. -/
def strYaml (py : PyText) : Yaml → List Char
  | .scalar s => py.str s
  | y => py.reprYaml y

end PyText

namespace Dot

/-- `d[k] = v` for a dictionary: a key keeps its place. -/
def put (d : List (List Char × Yaml)) (k : List Char) (v : Yaml) : List (List Char × Yaml) :=
  if k ∈ d.map Prod.fst then d.map fun x => if x.1 = k then (k, v) else x else d ++ [(k, v)]

/-- The dictionary that `yaml.safe_load` makes of a mapping. -/
def dict : Yaml → Option (List (List Char × Yaml))
  | .map l => some (l.foldl (fun d x => put d x.1 x.2) [])
  | _ => none

/-- dtree2dot.py:9-13, 31-37, rfc2dot.py:11-17: the lines of a label for the keys that are kept. -/
def labelLines (py : PyText) (keep : List Char → Bool) (d : List (List Char × Yaml)) : List Char :=
  ((d.filter fun x => keep x.1).map fun x =>
    x.1 ++ ": ".toList ++ py.strYaml x.2 ++ ",\n".toList).flatten

/-- dtree2dot.py:7-25. -/
def parseNode (py : PyText) : ℕ → Yaml → List Char → Option (List Char)
  | 0, _, _ => none
  | fuel + 1, node, name => do
    let d ← dict node
    let head := name ++ " [ shape=box, label=\"".toList ++ name ++ "\n".toList ++
      labelLines py (fun k => ¬ (k = "left".toList ∨ k = "right".toList)) d ++ "\"];\n".toList
    let left ← match d.lookup "left".toList with
      | none => some []
      | some y =>
        (parseNode py fuel y (name ++ "_left".toList)).map fun u =>
          u ++ name ++ " -> ".toList ++ name ++ "_left\n".toList
    let right ← match d.lookup "right".toList with
      | none => some []
      | some y =>
        (parseNode py fuel y (name ++ "_right".toList)).map fun u =>
          u ++ name ++ " -> ".toList ++ name ++ "_right\n".toList
    some (head ++ left ++ right)

/-- dtree2dot.py:28-43. -/
def parseTree (py : PyText) (fuel : ℕ) (y : Yaml) (name : List Char) : Option (List Char) := do
  let d ← dict y
  let tree ← d.lookup "tree".toList
  let d ← dict tree
  let head := name ++ " [ shape=oval, label=\"".toList ++ name ++ "\n".toList ++
    labelLines py (fun k => ¬ (k = "root".toList) && ¬ (k = "data".toList)) d ++ "\"];\n".toList
  let root ← d.lookup "root".toList
  let r ← parseNode py fuel root (name ++ "_root".toList)
  some (head ++ r ++ name ++ " -> ".toList ++ name ++ "_root\n".toList)

/-- dtree2dot.py:46-63: the text of the output for the text of the input. -/
def dtree2dot (py : PyText) (s : List Char) : Option (List Char) := do
  let y ← Yaml.read s
  let t ← parseTree py (s.length + 1) y "tree".toList
  some ("digraph G {\n".toList ++ t ++ "\n}".toList)

/-- `'tree' in k` for a string. -/
def hasTree (k : List Char) : Bool := k.tails.any fun u => "tree".toList.isPrefixOf u

/-- The value of an integer scalar. -/
def intOf : Yaml → Option ℤ
  | .scalar s =>
    match readInt s with
    | some (n, []) => some n
    | _ => none
  | _ => none

/-- rfc2dot.py:20-22: the trees from number `i` on. -/
def parseTrees (py : PyText) (fuel : ℕ) (ts : List Yaml) : ℕ → ℕ → Option (List Char)
  | 0, _ => some []
  | k + 1, i => do
    let y ← ts[i]?
    let t ← parseTree py fuel y ("tree_".toList ++ fmtInt i)
    let r ← parseTrees py fuel ts k (i + 1)
    some (t ++ "rfc -> tree_".toList ++ fmtInt i ++ "\n".toList ++ r)

/-- rfc2dot.py:8-24. -/
def parseRfc (py : PyText) (fuel : ℕ) (y : Yaml) : Option (List Char) := do
  let d ← dict y
  let rfc ← d.lookup "rfc".toList
  let d ← dict rfc
  let head := "rfc [ shape=oval, label=\"rfc\n".toList ++
    labelLines py (fun k => ¬ hasTree k && ¬ (k = "data".toList)) d ++ "\"];\n".toList
  let n ← (d.lookup "num_trees".toList).bind intOf
  if n ≤ 0 then some head
  else
    match d.lookup "trees".toList with
    | some (.seq ts) => (parseTrees py fuel ts n.toNat 0).map (head ++ ·)
    | _ => none

/-- rfc2dot.py:27-44. -/
def rfc2dot (py : PyText) (s : List Char) : Option (List Char) := do
  let y ← Yaml.read s
  let t ← parseRfc py (s.length + 1) y
  some ("digraph G {\n".toList ++ t ++ "\n}".toList)

end Dot

/-- DecisionTreeImpl.cpp:200-204 and 416-448: `output_tree` without the data.  The bracket that closes the
data is written nevertheless (line 445). -/
def printText (t : TreeImpl) : List Char :=
  "tree".toList ++ ": {\n".toList ++
  (indent 1 ++ "max_depth: ".toList ++ fmtInt t.maxDepth ++ ",\n".toList) ++
  (indent 1 ++ "classes: [ ".toList ++
    (t.classes.map fun c => fmtInt c ++ ", ".toList).flatten ++ "],\n".toList) ++
  (indent 1 ++ "num_features: ".toList ++ fmtInt t.numFeatures ++ ",\n".toList) ++
  nodeText t.classes 1 "root".toList t.root ++
  (indent 1 ++ "},\n".toList) ++
  "}\n".toList

/-- DecisionTreeImpl.cpp:200-204; compare `outputTree`. -/
def TreeImpl.printTree (t : TreeImpl) : Res (List Char) :=
  if t.root = .nil then .error (.ub .dangling)
  else if ¬ t.root.all (fun n => |n.threshold| ≤ maxFloat) then .error .unmodelled
  else if t.root.all (fun n => t.classes.length ≤ n.counts.length) then .ok (printText t)
  else .error (.ub .outOfBounds)

/-- RandomForestImpl.cpp:195-199 and 78-101: `output_rfc`, without the line of comment that `save` writes
before it (compare `ForestImpl.save`). -/
def ForestImpl.printForest (f : ForestImpl) : Res (List Char) := do
  let ts ← ForestImpl.treesText 1 f.trees
  .ok ("rfc: {\n".toList ++
    (indent 1 ++ "num_trees: ".toList ++ fmtInt f.numTrees ++ ",\n".toList) ++
    (indent 1 ++ "max_depth: ".toList ++ fmtInt f.maxDepth ++ ",\n".toList) ++
    (indent 1 ++ "classes: [ ".toList ++
      ((List.range f.numClasses.toNat).map fun i : ℕ => fmtInt i ++ ", ".toList).flatten ++
      "],\n".toList) ++
    (indent 1 ++ "trees:".toList ++ " [\n".toList) ++ ts ++
    (indent 1 ++ "]\n".toList) ++ "}\n".toList)

end Apollo
