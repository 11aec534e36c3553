import Verif.Model.Tree
import Verif.Model.Parser

/-!
# Model of `DecisionTreeImpl`: files and generated code

Source: src/models/impl/DecisionTreeImpl.cpp, src/helpers/OutputFormatter.{h,cpp}.
-/

namespace Apollo

/-- src/helpers/OutputFormatter.h:34-41: the indentation written by `operator<<` at a level. -/
def indent (level : ℕ) : List Char := (List.replicate level "  ".toList).flatten

/-- DecisionTreeImpl.cpp:463-467: one line per class. -/
def countsText (level : ℕ) (classes : List ℤ) (counts : List ℕ) : List Char :=
  ((classes.zip counts).map fun cc =>
    indent level ++ fmtInt cc.1 ++ ": ".toList ++ fmtInt cc.2 ++ ",\n".toList).flatten

/-- DecisionTreeImpl.cpp:450-475: `output_node` when all counters are present.  The text of a null
child is empty (lines 470-471). -/
def nodeText (classes : List ℤ) : ℕ → List Char → Tree → List Char
  | _, _, .nil => []
  | level, key, .node n l r =>
    indent level ++ key ++ ": {\n".toList ++
    (indent (level + 1) ++ "gini: ".toList ++ fmtG6 n.gini ++ ",\n".toList) ++
    (indent (level + 1) ++ "num_samples: ".toList ++ fmtInt n.numSamples ++ ",\n".toList) ++
    (indent (level + 1) ++ "predicted_class: ".toList ++ fmtInt n.predicted ++ ",\n".toList) ++
    (indent (level + 1) ++ "feature_idx: ".toList ++ fmtInt n.featureIdx ++ ",\n".toList) ++
    (indent (level + 1) ++ "threshold: ".toList ++ fmtG6 n.threshold ++ ",\n".toList) ++
    (indent (level + 1) ++ "count_per_class: {\n".toList) ++
    countsText (level + 1) classes n.counts ++
    (indent (level + 1) ++ "},\n".toList) ++
    nodeText classes (level + 1) "left".toList l ++
    nodeText classes (level + 1) "right".toList r ++
    (indent level ++ "},\n".toList)

/-- All nodes satisfy `p`. -/
def Tree.all (p : NodeInfo → Bool) : Tree → Bool
  | .nil => true
  | .node n l r => p n && l.all p && r.all p

/-- DecisionTreeImpl.cpp:433-442: the lines of the samples, from index `idx`. -/
def samplesText (level : ℕ) : ℕ → List Sample → List Char
  | _, [] => []
  | idx, x :: xs =>
    indent level ++ fmtInt idx ++ ": { ".toList ++ "features: [ ".toList ++
    (x.1.map fun f => fmtG6 f ++ ", ".toList).flatten ++ "], ".toList ++
    "class: ".toList ++ fmtInt x.2 ++ " },\n".toList ++ samplesText level (idx + 1) xs

/-- DecisionTreeImpl.cpp:416-448: `output_tree(outfmt, "tree")` at a level. -/
def treeText (level : ℕ) (t : TreeImpl) : List Char :=
  indent level ++ "tree".toList ++ ": {\n".toList ++
  (indent (level + 1) ++ "max_depth: ".toList ++ fmtInt t.maxDepth ++ ",\n".toList) ++
  (indent (level + 1) ++ "classes: [ ".toList ++
    (t.classes.map fun c => fmtInt c ++ ", ".toList).flatten ++ "],\n".toList) ++
  (indent (level + 1) ++ "num_features: ".toList ++ fmtInt t.numFeatures ++ ",\n".toList) ++
  nodeText t.classes (level + 1) "root".toList t.root ++
  (indent (level + 1) ++ "data: {\n".toList) ++
  samplesText (level + 2) 0 t.data ++
  (indent (level + 1) ++ "},\n".toList) ++
  (indent level ++ "}\n".toList)

/-- DecisionTreeImpl.cpp:416-475: reading `count_per_class[i]` for every class is undefined when a node
has fewer counters; `*root` is undefined before training.  The text of infinite thresholds is not
modelled. -/
def outputTree (level : ℕ) (t : TreeImpl) : Res (List Char) :=
  if t.root = .nil then .error (.ub .dangling)
  else if ¬ t.root.all (fun n => |n.threshold| ≤ maxFloat) then .error .unmodelled
  else if t.root.all (fun n => t.classes.length ≤ n.counts.length) then .ok (treeText level t)
  else .error (.ub .outOfBounds)

/-- DecisionTreeImpl.cpp:182-189. -/
def TreeImpl.save (t : TreeImpl) : Res (List Char) := do
  let s ← outputTree 0 t
  .ok ("# DecisionTreeImpl\n".toList ++ s)

/-! ## Reading -/

/-- DecisionTreeImpl.cpp:535-544 (and RandomForestImpl.cpp:111-120). -/
def parseKeyVal {α : Type} (key : List Char) (parse : P α) : P α := do
  expectNext key
  getNextToken
  let v ← parse
  parseExpected ",".toList
  pure v

/-- DecisionTreeImpl.cpp:477-493. -/
def parseCounts : ℕ → List ℕ → P (List ℕ)
  | 0, _ => P.fail .diverge
  | fuel + 1, acc => do
    if ← getNextTokenEquals "},".toList then pure acc
    else
      let _ ← parseInt
      parseExpected ":".toList
      getNextToken
      let v ← parseUnsignedLong
      parseExpected ",".toList
      parseCounts fuel (acc ++ [v])

/-- DecisionTreeImpl.cpp:515-520. -/
def parseFeatures : ℕ → Features → P Features
  | 0, _ => P.fail .diverge
  | fuel + 1, acc => do
    if ← getNextTokenEquals "],".toList then pure acc
    else
      let x ← parseFloat
      parseExpected ",".toList
      parseFeatures fuel (acc ++ [x])

/-- DecisionTreeImpl.cpp:503-531: body of the loop over the samples (the index token is ignored). -/
def parseSample (fuel : ℕ) : P Sample := do
  expectNext "{".toList
  expectNext "features:".toList
  expectNext "[".toList
  let f ← parseFeatures fuel []
  expectNext "class:".toList
  getNextToken
  let c ← parseInt
  expectNext "},".toList
  pure (f, c)

/-- DecisionTreeImpl.cpp:502-532. -/
def parseSamples : ℕ → List Sample → P (List Sample)
  | 0, _ => P.fail .diverge
  | fuel + 1, acc => do
    if ← getNextTokenEquals "},".toList then pure acc
    else
      let x ← parseSample fuel
      parseSamples fuel (acc ++ [x])

/-- DecisionTreeImpl.cpp:495-533; `data` is not cleared first. -/
def parseData (fuel : ℕ) (data : List Sample) : P (List Sample) := do
  expectNext "data:".toList
  expectNext "{".toList
  parseSamples fuel data

/-- DecisionTreeImpl.cpp:546-596. -/
def parseNode : ℕ → P Tree
  | 0 => P.fail .diverge
  | fuel + 1 => do
    expectNext "{".toList
    let gini ← parseKeyVal "gini:".toList parseFloat
    let numSamples ← parseKeyVal "num_samples:".toList parseUnsignedLong
    let predicted ← parseKeyVal "predicted_class:".toList parseInt
    let featureIdx ← parseKeyVal "feature_idx:".toList parseInt
    let threshold ← parseKeyVal "threshold:".toList parseFloat
    expectNext "count_per_class:".toList
    expectNext "{".toList
    let counts ← parseCounts fuel []
    getNextToken
    let isLeft ← getTokenEquals "left:".toList
    let left ← if isLeft then (do
        let t ← parseNode fuel
        getNextToken
        pure t) else pure .nil
    let isRight ← getTokenEquals "right:".toList
    let right ← if isRight then (do
        let t ← parseNode fuel
        getNextToken
        pure t) else pure .nil
    parseExpected "},".toList
    pure (.node ⟨gini, numSamples, predicted, featureIdx, threshold, counts⟩ left right)

/-- DecisionTreeImpl.cpp:614-619; `classes` is not cleared first. -/
def parseClasses : ℕ → List ℤ → P (List ℤ)
  | 0, _ => P.fail .diverge
  | fuel + 1, acc => do
    if ← getNextTokenEquals "],".toList then pure acc
    else
      let c ← parseInt
      parseExpected ",".toList
      parseClasses fuel (setInsert c acc)

/-- DecisionTreeImpl.cpp:598-630. -/
def parseTree (fuel : ℕ) (t : TreeImpl) : P TreeImpl := do
  expectNext "tree:".toList
  expectNext "{".toList
  let maxDepth ← parseKeyVal "max_depth:".toList parseUnsigned
  expectNext "classes:".toList
  expectNext "[".toList
  let classes ← parseClasses fuel t.classes
  let numFeatures ← parseKeyVal "num_features:".toList parseUnsigned
  expectNext "root:".toList
  let root ← parseNode fuel
  let data ← parseData fuel t.data
  expectNext "}".toList
  pure { t with data := data, classes := classes, root := root, numFeatures := numFeatures,
                maxDepth := maxDepth }

/-- DecisionTreeImpl.cpp:248-254 for an existing file with contents `s`. -/
def TreeImpl.load (t : TreeImpl) (s : List Char) : Res TreeImpl := do
  let (t, _) ← parseTree (s.length + 1) t { is := s, buf := [], off := 0 }
  .ok t

/-! ## Generated evaluation code -/

/-- The statements that `generate_source` writes.  `ite` without a branch is written when the node has
only one child. -/
inductive Code where
  /-- nothing: control falls off the end of the function -/
  | none
  /-- `return c;` -/
  | ret (c : ℤ)
  /-- `if (features[i] < lit) { … } else { … }` -/
  | ite (i : ℤ) (lit : List Char) (thn els : Code)

/-- DecisionTreeImpl.cpp:99-121: what is written for a node.  (A node with only a right child gets an
unbalanced brace and does not compile; such nodes are never built.) -/
def generateSource : Tree → Code
  | .nil => .none
  | .node n l r =>
    if l = .nil ∧ r = .nil then .ret n.predicted
    else .ite n.featureIdx (fmtG6 n.threshold) (generateSource l) (generateSource r)

/-- DecisionTreeImpl.cpp:99-121: the text that is written for a node, at an indentation. -/
def sourceText : ℕ → Tree → List Char
  | _, .nil => []
  | level, .node n l r =>
    if l = .nil ∧ r = .nil then indent level ++ ("return ".toList ++ (fmtInt n.predicted ++ ";\n".toList))
    else
      indent level ++ ("if (features[".toList ++ (fmtInt n.featureIdx ++ ("] < ".toList ++
        (fmtG6 n.threshold ++ ") {\n".toList)))) ++
      (if l = .nil then [] else sourceText (level + 1) l ++ (indent level ++ "}\n".toList)) ++
      (if r = .nil then []
        else indent level ++ ("else {\n".toList ++ (sourceText (level + 1) r ++ (indent level ++ "}\n".toList))))

/-- The value of a C++ floating or integer literal without suffix (a `double`, or an `int` that is
exact in `float` because it has at most six digits). -/
def literalValue (lit : List Char) : Option ℚ :=
  match readDecimal lit with
  | some (v, []) => some (rnd64 v)
  | _ => none

/-- Meaning of the generated statements in C++: comparing a `float` with the literal is exact (the
float is converted to double). -/
def Code.run : Code → Features → Res ℤ
  | .none, _ => .error (.ub .dangling)
  | .ret c, _ => .ok c
  | .ite i lit thn els, f =>
    if i < 0 then .error (.ub .outOfBounds)
    else
      match f[i.toNat]?, literalValue lit with
      | some v, some w => if v < w then thn.run f else els.run f
      | _, _ => .error (.ub .outOfBounds)

/-- DecisionTreeImpl.cpp:123-168, 191-194: `predict` with JIT, for a tree whose function has been
compiled.  (With an infinite threshold the source does not compile.) -/
def TreeImpl.jitPredict (t : TreeImpl) (f : Features) : Res ℤ :=
  if ¬ t.root.all (fun n => |n.threshold| ≤ maxFloat) then .error .unmodelled
  else (generateSource t.root).run f

end Apollo
