import Verif.Model.AnalyzeTraces
import Verif.Model.Startup
import Verif.Model.PolicyModels
import Verif.Model.RegionPolicy

/-!
# Model of run-exhaustive.py, and of how analyze-traces.py finds the traces

Source: src/python/analysis/run-exhaustive.py, src/python/analysis/analyze-traces.py.

A directory is a list of names and contents.  Of a run of a program only the files of its traces are followed:
those of the regions that exist when the program ends, and the one of the process.
-/

namespace Apollo.Scripts

/-- Files: their names, with the directories they are in, and their contents. -/
abbrev Directory := List (Str × Str)

/-- `std::ofstream(name)` and the text written to it: replaces the file or adds it. -/
def Directory.put (D : Directory) (name text : Str) : Directory :=
  D.filter (fun e => decide (e.1 ≠ name)) ++ [(name, text)]

/-- Several files, in order. -/
def Directory.putAll (D : Directory) (fs : List (Str × Str)) : Directory :=
  fs.foldl (fun D e => D.put e.1 e.2) D

/-- What is in a file. -/
def Directory.get (D : Directory) (name : Str) : Option Str :=
  (D.find? fun e => decide (e.1 = name)).map Prod.snd

/-- Region.cpp:407-414 for the regions `rs` one after the other: the traces that are closed, and the process
after it. -/
def closeTraces (env : Env PolicyModel) (fuel : ℕ) : List ℕ → World PolicyModel →
    Res (List (Str × Str) × World PolicyModel)
  | [], w => .ok ([], w)
  | r :: rs, w => do
    let w1 ← drain env r fuel { w with cfg := { w.cfg with globalPeriod := 0 } }
    let R ← w1.region r
    let w2 ← destroyRegion env w r fuel
    let (fs, w3) ← closeTraces env fuel rs w2
    .ok (if w.cfg.traceCsv then (tracePath w.cfg env.rank R.modelInfo R.name, R.trace) :: fs else fs, w3)

/-- A run of a program from its start to its end: the library starts (Apollo.cpp:120-238), the program makes its
calls, and the destructor closes the traces of the regions and of the process (Apollo.cpp:253-258). -/
def runProgram (env : Env PolicyModel) (os : Os) (ops : List Op) (fuel : ℕ) (D : Directory) :
    Res Directory := do
  let s ← readSettings os
  let cfg ← startup os
  let w ← exec env ops (initWorld cfg D.get)
  let w ← writeExecInfo env w
  let (fs, w) ← closeTraces env fuel (w.registry.map Prod.snd) w
  .ok (D.putAll (fs ++ if cfg.traceCsv then [(gtracePath s env.rank, w.gtrace)] else []))

/-- run-exhaustive.py:17-21, 26: the environment of a run. -/
def exhaustiveOs (os : Os) (model : Str) : Os :=
  { os with getenv := fun v =>
      if v = "APOLLO_TRACE_CSV".toList then some "1".toList
      else if v = "APOLLO_RETRAIN_ENABLE".toList then some "0".toList
      else if v = "APOLLO_POLICY_MODEL".toList then some model
      else os.getenv v }

/-- run-exhaustive.py:20: `'Static,policy=%d' % (i)`. -/
def staticInfo (p : ℕ) : Str := "Static,policy=".toList ++ fmtInt p

/-- run-exhaustive.py:19-22, 26-27: the models of the runs, in order. -/
def exhaustiveModels (npolicies : ℕ) : List Str :=
  (List.range npolicies).map staticInfo ++ ["RoundRobin".toList]

/-- run-exhaustive.py:19-27: the runs from number `i` on.  A run that fails ends the script (`check=True`). -/
def runsFrom (envs : ℕ → Env PolicyModel) (os : Os) (ops : List Op) (fuel : ℕ) :
    ℕ → List Str → Directory → Res Directory
  | _, [], D => .ok D
  | i, m :: ms, D => do
    let D ← runProgram (envs i) (exhaustiveOs os m) ops fuel D
    runsFrom envs os ops fuel (i + 1) ms D

/-- run-exhaustive.py:9-27: `envs i` is what the run number `i` meets. -/
def exhaustive (envs : ℕ → Env PolicyModel) (os : Os) (ops : List Op) (fuel npolicies : ℕ) (D : Directory) :
    Res Directory :=
  runsFrom envs os ops fuel 0 (exhaustiveModels npolicies) D

/-- Python's `fnmatch` for patterns without brackets. -/
def fnmatch : Str → Str → Bool
  | [], s => s.isEmpty
  | c :: p, s =>
    if c = '*' then s.tails.any (fnmatch p)
    else match s with
      | [] => false
      | d :: s => (decide (c = '?') || decide (c = d)) && fnmatch p s

/-- The name of a file without its directory, if it is in the directory. -/
def nameIn (dir : Str) (name : Str) : Option Str :=
  if (dir ++ "/".toList).isPrefixOf name then
    let s := name.drop (dir.length + 1)
    if '/' ∈ s then none else some s
  else none

/-- `glob.glob(dir + '/' + pattern)` for a directory name without wildcards and a pattern without slashes, in
the order of the directory. -/
def globFiles (dir pattern : Str) (D : Directory) : Directory :=
  D.filter fun e => match nameIn dir e.1 with
    | none => false
    | some s => fnmatch pattern s

/-- analyze-traces.py:25: the pattern for a model. -/
def tracePattern (model : Str) : Str := "trace*".toList ++ model ++ "-*.csv".toList

/-- analyze-traces.py:24-33 for several models: a dictionary of the files found. -/
def csvMap (dir : Str) (D : Directory) : List Str → Directory → Directory
  | [], found => found
  | m :: ms, found => csvMap dir D ms
      (found ++ (globFiles dir (tracePattern m) D).filter fun e => e.1 ∉ found.map Prod.fst)

/-- analyze-traces.py:169-175: the traces of the static policies. -/
def staticFiles (dir : Str) (nstatic : ℕ) (D : Directory) : Directory :=
  csvMap dir D ((List.range nstatic).map staticInfo) []

/-- analyze-traces.py:166-175, 230-249: `--dir dir --nstatic n --write-opt`, the files of a rank. -/
def Py.analyzeDir (py : Py) (order : List ℚ → List ℕ) (dir : Str) (nstatic : ℕ) (D : Directory) (rank : ℤ) :
    Res (List (Text × Text)) :=
  py.writeOpt order ((staticFiles dir nstatic D).map Prod.snd) rank

end Apollo.Scripts
