import Verif.Model.RegionPolicy

/-!
# The models backed by OpenCV

Source: the branches `#ifdef ENABLE_OPENCV` of src/models/DecisionTree.cpp and
src/models/RandomForest.cpp, src/models/RegressionTree.cpp, src/ModelFactory.cpp:154-162 and
src/Region.cpp:81-112.

OpenCV itself is not modelled: `Cv` holds its functions, which may be any.  What its documentation says
of them is stated where it is used (Verif.Spec.Opencv).
-/

namespace Apollo

/-- What the constructors set: `setMaxCategories(policy_count)`, `setMaxDepth(max_depth)` and, for a
forest, the number of trees. -/
structure CvParams where
  policies : ℤ
  maxDepth : ℕ
  trees : Option ℕ

/-- The functions of OpenCV that are used, for objects of type `T` (`cv::ml::DTrees`, `cv::ml::RTrees`). -/
structure Cv (T : Type) where
  /-- `DTrees::create()`, `RTrees::create()` and the functions that set parameters -/
  create : CvParams → Res T
  /-- `train(fmat, ROW_SAMPLE, rmat)` with responses of type `CV_32S` -/
  train : T → List Features → List ℤ → Res T
  /-- `RTrees::create()` and `train(fmat, ROW_SAMPLE, rmat)` with responses of type `CV_32F`; `none` is an
  infinity or NaN -/
  regress : List Features → List (Option ℚ) → Res T
  /-- `predict(features)` -/
  predict : T → Features → Res ℚ
  /-- the contents of the file written by `save` -/
  save : T → Res Str
  /-- the static functions `DTrees::load(path)`, `RTrees::load(path)` for a file with the given contents
  (`none`: it cannot be opened); they return a pointer, which may be null -/
  load : Option Str → Res (Option T)

variable {T : Type}

/-! ## Matrices -/

/-- `Mat tmp(1, i.size(), CV_32F, &i[0]); fmat.push_back(tmp)` (DecisionTree.cpp:98-102,
RandomForest.cpp:100-104, RegressionTree.cpp:47-51): `&i[0]` needs an element, and `push_back` throws
unless the row is as long as the matrix is wide.  `width` is the width, if there is a row. -/
def pushRows (width : Option ℕ) : List Features → Res (List Features)
  | [] => .ok []
  | f :: fs =>
    if f = [] then .error (.ub .outOfBounds)
    else if width.getD f.length ≠ f.length then .error .throw
    else do
      let rows ← pushRows (some f.length) fs
      .ok (f :: rows)

/-- The matrices of DecisionTree.cpp:90-105, RandomForest.cpp:93-107: `&responses[0]` needs an element. -/
def cvSamples (ds : Dataset) : Res (List Features × List ℤ) := do
  let rows ← pushRows none ds.findMinMetricPolicyByFeatures.1
  if rows = [] then .error (.ub .outOfBounds)
  else .ok (rows, ds.findMinMetricPolicyByFeatures.2.1)

/-! ## The policy models -/

/-- An object of a class derived from `PolicyModel`, when OpenCV is enabled. -/
inductive CvModel (T : Type) where
  /-- all classes but DecisionTree and RandomForest -/
  | plain (m : PolicyModel)
  /-- include/apollo/models/DecisionTree.h:41-48, RandomForest.h:43-50 (`forest`); `tree` is the member
  `dtree` or `rfc`, `none` a null pointer -/
  | backed (forest : Bool) (policyCount : ℤ) (trainable : Bool) (explorer : CvModel T) (tree : Option T)

namespace CvModel

/-- The model which the factory creates (src/ModelFactory.cpp:49-152) when OpenCV is enabled instead of
the given one: DecisionTree.cpp:56-82, RandomForest.cpp:56-86. -/
def ofModel (cv : Cv T) : PolicyModel → Res (CvModel T)
  | .tree n b e t => do
    let e ← ofModel cv e
    let t ← cv.create ⟨n, t.maxDepth, none⟩
    .ok (.backed false n b e (some t))
  | .forest n b e f => do
    let e ← ofModel cv e
    let t ← cv.create ⟨n, f.maxDepth, some f.numTrees⟩
    .ok (.backed true n b e (some t))
  | m => .ok (.plain m)

/-- DecisionTree.cpp:36, 59, RandomForest.cpp:37, 60. -/
def name : CvModel T → Str
  | .plain m => m.name
  | .backed false _ _ _ _ => "DecisionTree".toList
  | .backed true _ _ _ _ => "RandomForest".toList

/-- DecisionTree.cpp:86, RandomForest.cpp:88. -/
def isTrainable : CvModel T → Bool
  | .plain m => m.isTrainable
  | .backed _ _ b _ _ => b

/-- DecisionTree.cpp:115-120, RandomForest.cpp:119-124: the float which OpenCV predicts is converted
to an int. -/
def getIndex (cv : Cv T) : CvModel T → Features → Res (ℤ × CvModel T)
  | .plain m, f => do
    let (c, m) ← m.getIndex f
    .ok (c, .plain m)
  | .backed forest n b e t, f =>
    if !b then
      match t with
      | none => .error (.ub .dangling)
      | some t' => do
        let x ← cv.predict t' f
        let c ← floatToInt x
        .ok (c, .backed forest n b e t)
    else do
      let (c, e) ← getIndex cv e f
      .ok (c, .backed forest n b e t)

/-- DecisionTree.cpp:88-113, RandomForest.cpp:90-115. -/
def train (cv : Cv T) (env : TrainEnv) (ds : Dataset) : CvModel T → Res (CvModel T)
  | .plain m => do
    let m ← m.train env ds
    .ok (.plain m)
  | .backed forest n _ e t => do
    let (rows, resp) ← cvSamples ds
    match t with
    | none => .error (.ub .dangling)
    | some t => do
      let t ← cv.train t rows resp
      .ok (.backed forest n false e (some t))

/-- DecisionTree.cpp:122-126, RandomForest.cpp:126-130: `load` is a static function of OpenCV, the
pointer it returns is dropped. -/
def load (cv : Cv T) (file : Option Str) : CvModel T → Res (CvModel T)
  | .plain m => do
    let m ← m.load file
    .ok (.plain m)
  | .backed forest n _ e t => do
    let _ ← cv.load file
    .ok (.backed forest n false e t)

/-- DecisionTree.cpp:127, RandomForest.cpp:131. -/
def store (cv : Cv T) : CvModel T → Res (Option Str)
  | .plain m => m.store
  | .backed _ _ _ _ none => .error (.ub .dangling)
  | .backed _ _ _ _ (some t) => do
    let s ← cv.save t
    .ok (some s)

/-- DecisionTree.cpp:35-54, RandomForest.cpp:36-54 (as called from src/ModelFactory.cpp:38-41) for a file
with the given contents. -/
def fromFile (cv : Cv T) (forest : Bool) (n : ℤ) : Option Str → Res (CvModel T)
  | none => .error .abort
  | some s => do
    let t ← cv.load (some s)
    .ok (.backed forest n false (.plain .null) t)

end CvModel

/-- The functions of `PolicyModel` and the factory when OpenCV is enabled. -/
def cvOps (cv : Cv T) (gen : ℕ → ℕ → ℕ) (tenv : ℕ → TrainEnv) : ModelOps (CvModel T) where
  create := fun t name nf n params => do
    let m ← (policyOps gen tenv).create t name nf n params
    CvModel.ofModel cv m
  name := CvModel.name
  isTrainable := CvModel.isTrainable
  getIndex := CvModel.getIndex cv
  train := fun t ds m => m.train cv (tenv t) ds
  load := CvModel.load cv
  store := CvModel.store cv

/-! ## The time model -/

/-- The bits of an `int`, read as a `float` (IEEE 754 binary32); `none` for infinities and NaN. -/
def bitsAsFloat (p : ℤ) : Option ℚ :=
  let u : ℕ := (p % 2 ^ 32).toNat
  let e : ℕ := u / 2 ^ 23 % 2 ^ 8
  let m : ℕ := u % 2 ^ 23
  let s : ℚ := if u / 2 ^ 31 = 0 then 1 else -1
  if e = 255 then none
  else if e = 0 then some (s * m * 2 ^ (-149 : ℤ))
  else some (s * (2 ^ 23 + m) * 2 ^ ((e : ℤ) - 150))

/-- RegressionTree.cpp:18-92: the responses are the best policies, and `Mat(fmat.rows, 1, CV_32F,
&responses[0])` takes their bits for floats. -/
def timeModel (cv : Cv T) (ds : Dataset) : Res T := do
  let (rows, resp) ← cvSamples ds
  cv.regress rows (resp.map bitsAsFloat)

/-- RegressionTree.cpp:96-122 (nothing in the library calls it). -/
def timePrediction (cv : Cv T) (t : T) (f : Features) : Res ℚ := cv.predict t f

/-- Region.cpp:103-104. -/
def regtreeStepPath (rank step : ℤ) (region : Str) : Str :=
  "regtree-step-".toList ++ fmtInt step ++ "-rank-".toList ++ fmtInt rank ++ "-".toList ++ region ++
    ".yaml".toList

/-- Region.cpp:105-108. -/
def regtreeLatestPath (rank : ℤ) (region : Str) : Str :=
  "regtree-latest-rank-".toList ++ fmtInt rank ++ "-".toList ++ region ++ ".yaml".toList

/-- Region.cpp:48-113 with OpenCV: `Region::train` after the checks and the collection of pending contexts.
The member `time_model` is not kept, as nothing reads it afterwards. -/
def trainBodyCv {M : Type} (cv : Cv T) (env : Env M) (w : World M) (r : ℕ) (step : ℤ) : Res (World M) := do
  let R ← w.region r
  if R.dataset.size = 0 then .ok w
  else if !w.cfg.regionModel then .error .throw
  else do
    let w ← traceBest env w R step
    let m ← w.model r
    let m' ← env.ops.train w.tick R.dataset m
    let w := ((w.setModel r m').advance).emit (.trained r R.dataset)
    let tm ← if w.cfg.retrain then do
        let t ← timeModel cv R.dataset
        .ok (some t)
      else .ok none
    if w.cfg.storeModels then do
      let s ← env.ops.store m'
      let w := w.write env (stepPath w.cfg env.rank (env.ops.name m') step R.name) s
      let w := w.write env (storePath w.cfg env.rank (env.ops.name m') R.name) s
      match tm with
      | none => .ok w
      | some t => do
        let s ← cv.save t
        let w := w.write env (regtreeStepPath env.rank step R.name) (some s)
        .ok (w.write env (regtreeLatestPath env.rank R.name) (some s))
    else .ok w

end Apollo
