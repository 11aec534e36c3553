import Verif.Model.AnyFloat
import Verif.Model.Tree

/-!
# Training of decision trees with features that are any floats

Source: `src/models/impl/DecisionTreeImpl.cpp`, `src/models/impl/DecisionTreeImpl.h`.  In
`Model/Tree.lean` features are finite numbers.  Here they are any values of the type `float`: also
infinities, negative zero and NaN.  Impurities are computed from classes only, by the functions of that
file.
-/

namespace Apollo

namespace AnyFloat

/-- The comparison `a == b` of two floats: false if one of them is NaN; the zeros are equal. -/
def eq : AnyFloat → AnyFloat → Bool
  | .nan, _ | _, .nan => false
  | .fin a, .negZero | .negZero, .fin a => decide (a = 0)
  | a, b => decide (a = b)

/-- The number of a finite float. -/
def value : AnyFloat → ℚ
  | .fin q => q
  | _ => 0

/-- A rounded result: beyond the largest float it is infinite. -/
def ofRounded (s : ℚ) : AnyFloat :=
  if maxFloat < s then .posInf else if s < -maxFloat then .negInf else .fin s

/-- `a + b` in float. -/
def add : AnyFloat → AnyFloat → AnyFloat
  | .nan, _ | _, .nan => .nan
  | .posInf, .negInf | .negInf, .posInf => .nan
  | .posInf, _ | _, .posInf => .posInf
  | .negInf, _ | _, .negInf => .negInf
  | .negZero, .negZero => .negZero
  | a, b => ofRounded (rnd32 (a.value + b.value))

/-- `a / 2.0` in double, converted to float.  (A negative zero that results from underflow is given as
zero: they compare alike.) -/
def half : AnyFloat → AnyFloat
  | .fin q => .fin (rnd32 (rnd64 (q / 2)))
  | a => a

end AnyFloat

/-- DecisionTreeImpl.h:108: element of `data`, a feature vector and its class. -/
abbrev AnySample := List AnyFloat × ℤ

/-- `x.first[i]`; only used after the bounds check of the model. -/
def anyFeat (x : AnySample) (i : ℕ) : AnyFloat := x.1.getD i (.fin 0)

/-- The samples as far as impurities are concerned: DecisionTreeImpl.cpp:256-298 read the classes
only. -/
def classesOnly (xs : List AnySample) : List Sample := xs.map fun x => ([], x.2)

/-- What `std::sort` demands of the comparator of DecisionTreeImpl.cpp:333-336 ([alg.sorting]): that
elements of which none is less than the other are equivalent, i.e. that this relation is transitive.
(That `<` is irreflexive and transitive holds for all floats.) -/
def strictWeak (i : ℕ) (xs : List AnySample) : Bool :=
  let same (x y : AnySample) : Bool := !(anyFeat x i).lt (anyFeat y i) && !(anyFeat y i).lt (anyFeat x i)
  xs.all fun x => xs.all fun y => xs.all fun z => !(same x y && same y z) || same x z

/-- `std::sort(Begin, End, less on feature i)`: any function of the feature index and the range; see
`AnySortSpec` for what is assumed about it. -/
abbrev AnySortFn := ℕ → List AnySample → List AnySample

/-- What the C++ standard says about `std::sort` if its demands are met: a permutation in which no
element is less than an earlier one. -/
def AnySortSpec (σ : AnySortFn) : Prop :=
  ∀ i xs, strictWeak i xs = true →
    (σ i xs).Perm xs ∧ (σ i xs).Pairwise (fun a b => (anyFeat b i).lt (anyFeat a i) = false)

/-- `std::sort` of DecisionTreeImpl.cpp:331-336 and 363-368: the comparator reads `first[fidx]` of
every element (there are at least two). -/
def sortAny (σ : AnySortFn) (fidx : ℕ) (xs : List AnySample) : Res (List AnySample) :=
  if xs.all (fun x => fidx < x.1.length) then
    if strictWeak fidx xs then .ok (σ fidx xs) else .error (.ub .badOrder)
  else .error (.ub .outOfBounds)

/-- DecisionTreeImpl.cpp:322-325: the best split so far. -/
structure AnyBest where
  minGini : ℚ
  at? : Option (ℕ × ℕ × AnyFloat × AnyFloat)
  deriving DecidableEq

/-- DecisionTreeImpl.cpp:337-359: body of the loop over split positions, for position `i ≥ 1`. -/
def scanPosAny (classes : List ℤ) (fidx : ℕ) (ys : List AnySample) (st : AnyBest) (i : ℕ) : AnyBest :=
  let l := ((ys.map fun x => anyFeat x fidx).getD (i - 1) (.fin 0))
  let r := ((ys.map fun x => anyFeat x fidx).getD i (.fin 0))
  if l.eq r then st
  else
    let g := weightedGini classes (classesOnly ys) i
    if st.minGini ≤ g then st
    else { minGini := g, at? := some (i, fidx, l, r) }

/-- DecisionTreeImpl.cpp:337-359: the loop over split positions. -/
def scanFeatureAny (classes : List ℤ) (fidx : ℕ) (ys : List AnySample) (st : AnyBest) : AnyBest :=
  (List.range' 1 (ys.length - 1)).foldl (scanPosAny classes fidx ys) st

/-- DecisionTreeImpl.cpp:328-360: body of the loop over features. -/
def scanStepAny (σ : AnySortFn) (classes : List ℤ) (st : List AnySample × AnyBest) (fidx : ℕ) :
    Res (List AnySample × AnyBest) := do
  let ys ← sortAny σ fidx st.1
  .ok (ys, scanFeatureAny classes fidx ys st.2)

/-- DecisionTreeImpl.cpp:358: `(l + r) / 2.0`: the sum in float, the division in double, the result
converted to float. -/
def anyThreshold (l r : AnyFloat) : AnyFloat := (l.add r).half

/-- DecisionTreeImpl.cpp:313-373 with the assertion of line 406: the reordered range, the position of
the split, the feature and the threshold. -/
def splitAny (σ : AnySortFn) (classes : List ℤ) (xs : List AnySample) :
    Res (List AnySample × ℕ × ℕ × AnyFloat) := do
  if xs.length ≤ 1 then .error .abort
  else
    let numFeatures := (xs.headD ([], 0)).1.length
    let (ys, best) ← (List.range numFeatures).foldlM (scanStepAny σ classes) (xs, ⟨1, none⟩)
    match best.at? with
    | none => do
      let _ ← sortAny σ 0 ys
      .error .abort
    | some (pos, fidx, l, r) => do
      let ys ← sortAny σ fidx ys
      .ok (ys, pos, fidx, anyThreshold l r)

/-- DecisionTreeImpl.h:46-55: `Node *`; `nil` is the null pointer.  The threshold of the node stands
beside the other fields; the field `threshold` of `info` is not used. -/
inductive AnyTree where
  | nil
  | node (info : NodeInfo) (threshold : AnyFloat) (left right : AnyTree)
  deriving DecidableEq

/-- DecisionTreeImpl.cpp:375-414; the first argument is `max_depth - depth`.  Returns the node and the
range as reordered by the recursive calls. -/
def buildAny (σ : AnySortFn) (classes : List ℤ) : ℕ → List AnySample → Res (AnyTree × List AnySample)
  | 0, xs => do
    let g ← computeGini classes (classesOnly xs)
    let n ← newNode classes g xs.length (getCountPerClass classes (classesOnly xs))
    .ok (.node n (.fin 0) .nil .nil, xs)
  | d + 1, xs => do
    let g ← computeGini classes (classesOnly xs)
    let n ← newNode classes g xs.length (getCountPerClass classes (classesOnly xs))
    if xs = [] then .ok (.node n (.fin 0) .nil .nil, xs)
    else if g ≤ 0 then .ok (.node n (.fin 0) .nil .nil, xs)
    else
      let (ys, pos, fidx, thr) ← splitAny σ classes xs
      let (l, ys1) ← buildAny σ classes d (ys.take pos)
      let (r, ys2) ← buildAny σ classes d (ys.drop pos)
      .ok (.node { n with featureIdx := fidx } thr l r, ys1 ++ ys2)

/-- DecisionTreeImpl.cpp:54-72, 74-96 for a tree object with the given classes of earlier trainings
and maximal depth: the classes and the root after training. -/
def trainAny (σ : AnySortFn) (classes : List ℤ) (maxDepth : ℕ) (samples : List AnySample) :
    Res (List ℤ × AnyTree) :=
  if samples = [] then .error (.ub .outOfBounds)
  else do
    let classes := setInsertAll (samples.map Prod.snd) classes
    let (root, _) ← buildAny σ classes maxDepth samples
    .ok (classes, root)

/-- DecisionTreeImpl.cpp:300-311; a null node is the uninitialised root. -/
def AnyTree.evaluate : AnyTree → List AnyFloat → Res ℤ
  | .nil, _ => .error (.ub .dangling)
  | .node n thr l r, f =>
    if n.featureIdx = -1 then .ok n.predicted
    else if n.featureIdx < 0 then .error (.ub .outOfBounds)
    else
      match f[n.featureIdx.toNat]? with
      | none => .error (.ub .outOfBounds)
      | some v =>
        if v.lt thr then (if l = .nil then .ok n.predicted else l.evaluate f)
        else (if r = .nil then .ok n.predicted else r.evaluate f)

end Apollo
