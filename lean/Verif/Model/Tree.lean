import Verif.Model.Dataset
import Verif.Num.Decimal

/-!
# Model of `DecisionTreeImpl`: training and evaluation

Source: src/models/impl/DecisionTreeImpl.cpp, src/models/impl/DecisionTreeImpl.h.

Float arithmetic is binary32 with explicit rounding after every operation (no fused operations).
`assert` is enabled (no NDEBUG).  Features are finite floats; a threshold may be infinite (`infFloat`).  Counters are natural numbers (the `int` counters of the source
overflow at 2^31 samples; not modelled).
-/

namespace Apollo

/-- DecisionTreeImpl.h:108: element of `data`, a feature vector and its class. -/
abbrev Sample := Features × ℤ

/-- `std::sort(Begin, End, less on feature i)`: any function of the feature index and the range; see
`SortSpec` for what is assumed about it. -/
abbrev SortFn := ℕ → List Sample → List Sample

/-- `x.first[i]`; only used after the bounds check of the model. -/
def feat (x : Sample) (i : ℕ) : ℚ := x.1.getD i 0

/-- What the C++ standard says about `std::sort`: a permutation, sorted by the comparator. -/
def SortSpec (σ : SortFn) : Prop :=
  ∀ i xs, (σ i xs).Perm xs ∧ (σ i xs).Pairwise (fun a b => feat a i ≤ feat b i)

/-- DecisionTreeImpl.h:46-55: the fields of a `Node` except for the children. -/
structure NodeInfo where
  gini : ℚ
  numSamples : ℕ
  predicted : ℤ
  featureIdx : ℤ
  threshold : ℚ
  counts : List ℕ
  deriving DecidableEq

/-- DecisionTreeImpl.h:46-55: `Node *`; `nil` is the null pointer. -/
inductive Tree where
  | nil
  | node (info : NodeInfo) (left right : Tree)
  deriving DecidableEq

/-- DecisionTreeImpl.cpp:266-270 and 288-291: the number of samples of class `c`. -/
def countClass (xs : List Sample) (c : ℤ) : ℕ := xs.countP (fun x => x.2 = c)

/-- DecisionTreeImpl.cpp:272-273: one iteration of the sum of squares. -/
def giniStep (xs : List Sample) (g : ℚ) (c : ℤ) : ℚ :=
  let p := rnd32 (rnd32 (countClass xs c) / rnd32 xs.length)
  rnd32 (g + rnd32 (p * p))

/-- DecisionTreeImpl.cpp:256-277 for a non-empty range. -/
def gini (classes : List ℤ) (xs : List Sample) : ℚ :=
  rnd32 (1 - classes.foldl (giniStep xs) 0)

/-- DecisionTreeImpl.cpp:256-277; the result for an empty range is NaN, which is not modelled. -/
def computeGini (classes : List ℤ) (xs : List Sample) : Res ℚ :=
  if xs = [] then .error .unmodelled else .ok (gini classes xs)

/-- DecisionTreeImpl.cpp:279-298. -/
def getCountPerClass (classes : List ℤ) (xs : List Sample) : List ℕ :=
  classes.map (countClass xs)

/-- DecisionTreeImpl.cpp:350-351: the weighted impurity of the split of `ys` at position `i`. -/
def weightedGini (classes : List ℤ) (ys : List Sample) (i : ℕ) : ℚ :=
  rnd32 (rnd32 (rnd32 (rnd32 i * gini classes (ys.take i)) +
    rnd32 (rnd32 ((ys.length - i : ℕ) : ℚ) * gini classes (ys.drop i))) / rnd32 ys.length)

/-- DecisionTreeImpl.cpp:322-325: the best split so far: `min_gini`, and once a split is found its
position, feature and the two feature values around it. -/
structure Best where
  minGini : ℚ
  at? : Option (ℕ × ℕ × ℚ × ℚ)
  deriving DecidableEq

/-- DecisionTreeImpl.cpp:337-359: body of the loop over split positions, for position `i ≥ 1`. -/
def scanPos (classes : List ℤ) (fidx : ℕ) (ys : List Sample) (st : Best) (i : ℕ) : Best :=
  let l := ((ys.map fun x => feat x fidx).getD (i - 1) 0)
  let r := ((ys.map fun x => feat x fidx).getD i 0)
  if l = r then st
  else
    let g := weightedGini classes ys i
    if st.minGini ≤ g then st
    else { minGini := g, at? := some (i, fidx, l, r) }

/-- DecisionTreeImpl.cpp:337-359: the loop over split positions. -/
def scanFeature (classes : List ℤ) (fidx : ℕ) (ys : List Sample) (st : Best) : Best :=
  (List.range' 1 (ys.length - 1)).foldl (scanPos classes fidx ys) st

/-- `std::sort` of DecisionTreeImpl.cpp:331-336 and 363-368: the comparator reads `first[fidx]` of
every element (there are at least two). -/
def sortBy (σ : SortFn) (fidx : ℕ) (xs : List Sample) : Res (List Sample) :=
  if xs.all (fun x => fidx < x.1.length) then .ok (σ fidx xs) else .error (.ub .outOfBounds)

/-- DecisionTreeImpl.cpp:328-360: body of the loop over features. -/
def scanStep (σ : SortFn) (classes : List ℤ) (st : List Sample × Best) (fidx : ℕ) :
    Res (List Sample × Best) := do
  let ys ← sortBy σ fidx st.1
  .ok (ys, scanFeature classes fidx ys st.2)

/-- Stands for the float infinity in thresholds: it compares with every finite float as infinity
does. -/
def infFloat : ℚ := 2 ^ 128

/-- DecisionTreeImpl.cpp:358: `(l + r) / 2.0`: the sum in float, the division in double, the result
converted to float. -/
def threshold (l r : ℚ) : ℚ :=
  let s := rnd32 (l + r)
  if maxFloat < s then infFloat
  else if s < -maxFloat then -infFloat
  else rnd32 (rnd64 (s / 2))

/-- DecisionTreeImpl.cpp:313-373 with the assertion of line 406: the reordered range, the position of
the split, the feature and the threshold. -/
def split (σ : SortFn) (classes : List ℤ) (xs : List Sample) :
    Res (List Sample × ℕ × ℕ × ℚ) := do
  if xs.length ≤ 1 then .error .abort
  else
    let numFeatures := (xs.headD ([], 0)).1.length
    let (ys, best) ← (List.range numFeatures).foldlM (scanStep σ classes) (xs, ⟨1, none⟩)
    match best.at? with
    | none => do
      let _ ← sortBy σ 0 ys
      .error .abort
    | some (pos, fidx, l, r) => do
      let ys ← sortBy σ fidx ys
      .ok (ys, pos, fidx, threshold l r)

/-- `std::distance(v.begin(), std::max_element(v.begin(), v.end()))`: the first index of a maximal
element; 0 for an empty vector. -/
def maxElementIdx : List ℕ → ℕ
  | [] => 0
  | x :: xs => if xs.all (· ≤ x) then 0 else maxElementIdx xs + 1

/-- DecisionTreeImpl.cpp:227-246: the node for a range with the given counts.  The constructor's
parameter `count_per_class` is a reference that shadows the member; the initialiser of the member
(line 234) has moved from it, so it is empty when the body (lines 242-244) looks for its maximal
element. -/
def newNode (classes : List ℤ) (gini : ℚ) (numSamples : ℕ) (countPerClass : List ℕ) : Res NodeInfo :=
  let member := countPerClass
  let parameter : List ℕ := []
  match classes[maxElementIdx parameter]? with
  | none => .error (.ub .outOfBounds)
  | some c => .ok
    { gini := gini, numSamples := numSamples, predicted := c, featureIdx := -1, threshold := 0
      counts := member }

/-- DecisionTreeImpl.cpp:375-414; the first argument is `max_depth - depth`.  Returns the node and the
range as reordered by the recursive calls. -/
def buildTree (σ : SortFn) (classes : List ℤ) : ℕ → List Sample → Res (Tree × List Sample)
  | 0, xs => do
    let g ← computeGini classes xs
    let n ← newNode classes g xs.length (getCountPerClass classes xs)
    .ok (.node n .nil .nil, xs)
  | d + 1, xs => do
    let g ← computeGini classes xs
    let n ← newNode classes g xs.length (getCountPerClass classes xs)
    if xs = [] then .ok (.node n .nil .nil, xs)
    else if g ≤ 0 then .ok (.node n .nil .nil, xs)
    else
      let (ys, pos, fidx, thr) ← split σ classes xs
      let (l, ys1) ← buildTree σ classes d (ys.take pos)
      let (r, ys2) ← buildTree σ classes d (ys.drop pos)
      .ok (.node { n with featureIdx := fidx, threshold := thr } l r, ys1 ++ ys2)

/-- `std::set<int>::insert`. -/
def setInsert (c : ℤ) : List ℤ → List ℤ
  | [] => [c]
  | x :: xs => if c < x then c :: x :: xs else if c = x then x :: xs else x :: setInsert c xs

/-- `classes.insert(responses.begin(), responses.end())` (DecisionTreeImpl.cpp:59, 84). -/
def setInsertAll (cs : List ℤ) (s : List ℤ) : List ℤ := cs.foldl (fun s c => setInsert c s) s

/-- DecisionTreeImpl.h:108-116.  `root = nil` also stands for the uninitialised pointer before the
first training. -/
structure TreeImpl where
  data : List Sample
  classes : List ℤ
  root : Tree
  numFeatures : ℕ
  maxDepth : ℕ
  numClasses : ℤ
  deriving DecidableEq

namespace TreeImpl

/-- DecisionTreeImpl.cpp:48-53. -/
def new (numClasses : ℤ) (maxDepth : ℕ) : TreeImpl :=
  { data := [], classes := [], root := .nil, numFeatures := 0, maxDepth := maxDepth,
    numClasses := numClasses }

/-- DecisionTreeImpl.cpp:54-72.  `features` and `responses` have the same length at both call sites;
they are given zipped.  `classes` keeps the classes of earlier trainings. -/
def train (σ : SortFn) (t : TreeImpl) (samples : List Sample) : Res TreeImpl :=
  match samples with
  | [] => .error (.ub .outOfBounds)
  | s :: _ => do
    let classes := setInsertAll (samples.map Prod.snd) t.classes
    let (root, data) ← buildTree σ classes t.maxDepth samples
    .ok { t with data := data, classes := classes, root := root, numFeatures := s.1.length }

/-- DecisionTreeImpl.cpp:74-96: construct and train. -/
def newTrained (σ : SortFn) (numClasses : ℤ) (maxDepth : ℕ) (samples : List Sample) :
    Res TreeImpl :=
  train σ (new numClasses maxDepth) samples

end TreeImpl

/-- DecisionTreeImpl.cpp:300-311; a null node is the uninitialised root. -/
def evaluateTree : Tree → Features → Res ℤ
  | .nil, _ => .error (.ub .dangling)
  | .node n l r, f =>
    if n.featureIdx = -1 then .ok n.predicted
    else if n.featureIdx < 0 then .error (.ub .outOfBounds)
    else
      match f[n.featureIdx.toNat]? with
      | none => .error (.ub .outOfBounds)
      | some v =>
        if v < n.threshold then
          (if l = .nil then .ok n.predicted else evaluateTree l f)
        else (if r = .nil then .ok n.predicted else evaluateTree r f)

/-- DecisionTreeImpl.cpp:191-198 without JIT. -/
def TreeImpl.predict (t : TreeImpl) (f : Features) : Res ℤ := evaluateTree t.root f

end Apollo
