import Verif.Model.Region

/-!
# Directories

What the file system says about opening files for writing, in terms of the directory of a path.
-/

namespace Apollo.Spec

open Apollo

/-- The directory of a path: what precedes its last `/`, or `.` if there is none. -/
def parent (p : Str) : Str :=
  match (p.reverse.dropWhile (· ≠ '/')) with
  | [] => ['.']
  | _ :: [] => ['/']
  | _ :: d => d.reverse

/-- A file can only be opened for writing in a directory that exists. -/
def NeedsDirectory (canWrite isDir : Str → Bool) : Prop :=
  ∀ p, canWrite p = true → isDir (parent p) = true

/-- The file system grants access: files can be opened for writing in all directories. -/
def Granted (canWrite isDir : Str → Bool) : Prop :=
  ∀ p, isDir (parent p) = true → canWrite p = true

/-- The directory of the traces (Apollo.cpp:210-212). -/
def tracesDirectory (cfg : Cfg) : Str := cfg.outputDir ++ "/".toList ++ cfg.tracesDir

/-- The directory of the datasets (Apollo.cpp:206-208). -/
def datasetsDirectory (cfg : Cfg) : Str := cfg.outputDir ++ "/".toList ++ cfg.datasetsDir

/-- The directory of the models (Apollo.cpp:214-216). -/
def modelsDirectory (cfg : Cfg) : Str := cfg.outputDir ++ "/".toList ++ cfg.modelsDir

/-- The names and model strings given to the call contain no `/`. -/
def NoSlash : Op → Prop
  | .create _ name _ _ info _ => '/' ∉ name ∧ '/' ∉ info
  | _ => True

instance : DecidablePred NoSlash := fun op => by
  cases op <;> unfold NoSlash <;> infer_instance

/-- A program with the values its calls return. -/
def results {M : Type} (env : Env M) : List Op → World M → Res (List Ret × World M)
  | [], w => .ok ([], w)
  | op :: ops, w => do
    let (x, w) ← step env w op
    let (xs, w) ← results env ops w
    .ok (x :: xs, w)

/-- Regions that differ only in their traces. -/
def Region.SameButTrace (R R' : Region) : Prop := ∃ tr, R' = { R with trace := tr }

/-- Processes that differ only in what they trace. -/
structure SameButTraces {M : Type} (w w' : World M) : Prop where
  cfg : ∃ t, w'.cfg = { w.cfg with traceCsv := t }
  regions : ∀ r, (w.regions r = none ∧ w'.regions r = none) ∨
    ∃ R R', w.regions r = some R ∧ w'.regions r = some R' ∧ Region.SameButTrace R R'
  models : w'.models = w.models
  nextRegion : w'.nextRegion = w.nextRegion
  ctxs : w'.ctxs = w.ctxs
  nextCtx : w'.nextCtx = w.nextCtx
  registry : w'.registry = w.registry
  executions : w'.executions = w.executions
  files : w'.files = w.files
  log : w'.log = w.log

/-- The same outcome up to traces: the same failure, or the same results. -/
def SameOutcome {M : Type} : Res (List Ret × World M) → Res (List Ret × World M) → Prop
  | .ok (xs, w), .ok (xs', w') => xs = xs' ∧ SameButTraces w w'
  | .error e, .error e' => e = e'
  | _, _ => False

end Apollo.Spec
