import Verif.Model.TreeIO

/-!
# Model of the script that draws forests saved by OpenCV

Source: src/python/analysis/rfc2dot_opencv.py.

Simplifications: the file is what `cv2.FileStorage` makes of it, a value of type `CvNode`; the reader of
OpenCV itself is not modelled.  What Python prints for a floating point number is a parameter (`CvText`).
Keys of a mapping are taken to be distinct.  Exceptions and failed assertions are `none`, as are values of
a kind that the script does not expect (a depth that is no integer).
-/

namespace Apollo

/-- What `cv2.FileStorage` reads: rfc2dot_opencv.py:7, 16, 25, 28, 31 ask for the kind. -/
inductive CvNode where
  | map (l : List (List Char × CvNode))
  | seq (l : List CvNode)
  | int (n : ℤ)
  | real (v : ℚ)
  | str (s : List Char)
  | empty

/-- What Python prints: `'%f' % v` for a number (rfc2dot_opencv.py:30), and `'%s' % node.real()` for a node
that is a string (rfc2dot_opencv.py:33). -/
structure CvText where
  fixed : ℚ → List Char
  strReal : List Char → List Char

namespace Cv

mutual

/-- rfc2dot_opencv.py:6-37. -/
def parseNode (py : CvText) : CvNode → Option (List Char)
  | .map l => (parseFields py l).map fun u => "{\n".toList ++ u ++ " }\n".toList
  | .seq l => (parseItems py l).map fun u => "[ ".toList ++ ", ".toList.intercalate u ++ " ]\n".toList
  | .int n => some (fmtInt n)
  | .real v => some (py.fixed v)
  | .str s => some ("\"".toList ++ py.strReal s ++ "\"".toList)
  | .empty => none

/-- rfc2dot_opencv.py:11-14, 78-81: the lines for the entries of a mapping. -/
def parseFields (py : CvText) : List (List Char × CvNode) → Option (List Char)
  | [] => some []
  | (k, n) :: l => do
    let u ← parseNode py n
    let r ← parseFields py l
    some (k ++ ": ".toList ++ u ++ ",\n".toList ++ r)

/-- rfc2dot_opencv.py:19-22. -/
def parseItems (py : CvText) : List CvNode → Option (List (List Char))
  | [] => some []
  | n :: l => do
    let u ← parseNode py n
    let r ← parseItems py l
    some (u :: r)

end

/-- `node.getNode(k)`. -/
def getNode (n : CvNode) (k : List Char) : Option CvNode :=
  match n with
  | .map l => l.lookup k
  | _ => none

/-- rfc2dot_opencv.py:47, 55: `int(node.getNode('depth').real())`. -/
def depthOf (n : CvNode) : Option ℤ :=
  match getNode n "depth".toList with
  | some (.int d) => some d
  | _ => none

/-- rfc2dot_opencv.py:48, 60, 61: the name of a node. -/
def nameOf (tid : ℕ) (depth : ℤ) (i : ℕ) : List Char :=
  "tree_".toList ++ fmtInt tid ++ "_d_".toList ++ fmtInt depth ++ "_n_".toList ++ fmtInt i

/-- rfc2dot_opencv.py:45-50: the nodes from number `i` on. -/
def nodesText (py : CvText) (tid : ℕ) : ℕ → List CvNode → Option (List Char)
  | _, [] => some []
  | i, n :: l => do
    let depth ← depthOf n
    let u ← parseNode py n
    let r ← nodesText py tid (i + 1) l
    some (nameOf tid depth i ++ " [ label=\"".toList ++ u ++ "\" ];\n".toList ++ r)

/-- rfc2dot_opencv.py:56-58: pop until the depth is less.  To pop from an empty list is an exception. -/
def popTo (depth : ℤ) : List (ℕ × ℤ) → Option ((ℕ × ℤ) × List (ℕ × ℤ))
  | [] => none
  | (j, d) :: st => if depth ≤ d then popTo depth st else some ((j, d), st)

/-- rfc2dot_opencv.py:53-65: the edges to the nodes from number `i` on, with the stack, of which the top is
first. -/
def edgesText (tid size : ℕ) : ℕ → List CvNode → List (ℕ × ℤ) → Option (List Char × List (ℕ × ℤ))
  | _, [], st => some ([], st)
  | i, n :: l, st => do
    let depth ← depthOf n
    let (top, st) ← popTo depth st
    let st := top :: st
    let st := if i + 1 < size then (i, depth) :: st else st
    let (r, st) ← edgesText tid size (i + 1) l st
    some (nameOf tid top.2 top.1 ++ " -> ".toList ++ nameOf tid depth i ++ ";\n".toList ++ r, st)

/-- rfc2dot_opencv.py:40-70. -/
def parseTree (py : CvText) (tid : ℕ) (tree : CvNode) : Option (List Char) :=
  match getNode tree "nodes".toList with
  | some (.seq l) => do
    let u ← nodesText py tid 0 l
    let (v, st) ← edgesText tid l.length 1 (l.drop 1) [(0, 0)]
    match st with
    | [] => none
    | top :: _ => if top = (0, 0) then some (u ++ v) else none
  | _ => none

/-- rfc2dot_opencv.py:86-88: the trees from number `i` on. -/
def parseTrees (py : CvText) : ℕ → List CvNode → Option (List Char)
  | _, [] => some []
  | i, t :: l => do
    let u ← parseTree py i t
    let r ← parseTrees py (i + 1) l
    some (u ++ "root -> ".toList ++ nameOf i 0 0 ++ ";\n".toList ++ r)

/-- rfc2dot_opencv.py:72-89. -/
def parse (py : CvText) (n : CvNode) : Option (List Char) :=
  match n with
  | .map l => do
    let trees ← l.lookup "trees".toList
    let u ← parseFields py (l.filter fun x => x.1 ≠ "trees".toList)
    match trees with
    | .seq ts =>
      let r ← parseTrees py 0 ts
      some ("root [ shape=box, label=\"{\n".toList ++ u ++ " }\n\"];\n".toList ++ r)
    | _ => none
  | _ => none

/-- rfc2dot_opencv.py:92-107: what is written for the first node of the file. -/
def rfc2dotOpencv (py : CvText) (n : CvNode) : Option (List Char) := do
  let u ← parse py n
  some ("digraph G {".toList ++ u ++ "\n}".toList)

end Cv

end Apollo
