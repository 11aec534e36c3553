import Verif.Model.TreeIO

/-!
# Compiled trees (build option `ENABLE_JIT_DTREE`)

A tree object compiles its evaluation function into the shared library `/tmp/_jit_eval_<n>.so`, where `n`
numbers the tree objects of the process, and loads the library.  The directory is shared by all processes
of the machine; between writing and loading other processes can run.

Simplifications: numbers of objects are unbounded (`int unique_counter`); writing a library is one step
and succeeds; a source that the compiler rejects (an infinite threshold) is not modelled, as in
`TreeImpl.jitPredict`; the copy of the source in `/tmp/_jit_eval_<n>.cpp` is not read by anything and is
left out.
-/

namespace Apollo

/-- A shared library with the one function that it exports. -/
structure Library where
  symbol : List Char
  code : Code

/-- DecisionTreeImpl.cpp:126-127. -/
def jitSymbol (n : ℕ) : List Char := "_jit_eval_".toList ++ fmtInt n

/-- DecisionTreeImpl.cpp:128-129. -/
def jitPath (n : ℕ) : List Char := "/tmp/".toList ++ jitSymbol n ++ ".so".toList

/-- DecisionTreeImpl.cpp:130-145: the source that is compiled. -/
def jitSource (n : ℕ) (root : Tree) : List Char :=
  "#include <vector>\n".toList ++ ("extern \"C\" {\n".toList ++ (indent 1 ++ ("int ".toList ++ (jitSymbol n ++
    ("(const std::vector<float> &features) {\n".toList ++ (sourceText 2 root ++ (indent 1 ++ ("}\n".toList ++
      "}\n".toList))))))))

/-- DecisionTreeImpl.cpp:149-151: the command for the shell. -/
def jitCommand (n : ℕ) (root : Tree) : List Char :=
  "c++ -x c++ -O0 -shared -fPIC -o ".toList ++ (jitPath n ++ (" - << EOF\n".toList ++
    (jitSource n root ++ "EOF\n".toList)))

/-- src/models/impl/DecisionTreeImpl.h:29-114: a tree object with its `unique_id` and
`jit_evaluate_function`; `none` is the pointer that was never assigned. -/
structure JitTree where
  impl : TreeImpl
  id : ℕ
  fn : Option Code

/-- A process. -/
structure JitProcess where
  /-- `unique_counter` (DecisionTreeImpl.cpp:24) -/
  counter : ℕ
  /-- the libraries that the dynamic linker holds, by the name they were opened with -/
  loaded : List Char → Option Library
  /-- the tree objects, by address -/
  objects : ℕ → Option JitTree
  /-- the object whose library has been written and not been opened yet -/
  compiling : Option ℕ

/-- A process that has just started. -/
def JitProcess.start : JitProcess := ⟨0, fun _ => none, fun _ => none, none⟩

/-- The processes of a machine, and its files. -/
structure JitMachine where
  files : List Char → Option Library
  procs : ℕ → JitProcess

/-- Every process has just started; the files are left from before. -/
def JitMachine.start (files : List Char → Option Library) : JitMachine := ⟨files, fun _ => .start⟩

/-- What a process does with its tree objects. -/
inductive JitOp
  /-- `DecisionTreeImpl(num_classes, max_depth)` -/
  | new (a : ℕ) (numClasses : ℤ) (maxDepth : ℕ)
  /-- `DecisionTreeImpl(num_classes, features, responses, max_depth)`, up to the compiler's return -/
  | newTrained (a : ℕ) (numClasses : ℤ) (maxDepth : ℕ) (samples : List Sample)
  /-- `DecisionTreeImpl(num_classes, is)` or `(num_classes, filename)`, up to the compiler's return -/
  | newLoaded (a : ℕ) (numClasses : ℤ) (s : List Char)
  /-- `train`, up to the compiler's return -/
  | train (a : ℕ) (samples : List Sample)
  /-- the rest of the constructor or of `train`: opening the library -/
  | link
  /-- `load` -/
  | load (a : ℕ) (s : List Char)
  /-- the destructor -/
  | destroy (a : ℕ)

namespace JitMachine

/-- The machine after a change of process `p`. -/
def set (M : JitMachine) (p : ℕ) (P : JitProcess) : JitMachine :=
  { M with procs := Function.update M.procs p P }

/-- DecisionTreeImpl.cpp:126-150: the source is generated and compiled. -/
def compile (M : JitMachine) (p a : ℕ) (P : JitProcess) (t : JitTree) : Res JitMachine :=
  if ¬ t.impl.root.all (fun n => |n.threshold| ≤ maxFloat) then .error .unmodelled
  else .ok
    { files := Function.update M.files (jitPath t.id)
        (some ⟨jitSymbol t.id, generateSource t.impl.root⟩)
      procs := Function.update M.procs p
        { P with objects := Function.update P.objects a (some t), compiling := some a } }

/-- `dlopen`: a library of that name that is already loaded is returned as it is, otherwise the file is
loaded. -/
def dlopen (M : JitMachine) (P : JitProcess) (path : List Char) : Option Library :=
  match P.loaded path with
  | some lib => some lib
  | none => M.files path

/-- DecisionTreeImpl.cpp:152-163: the library is opened and the function looked up. -/
def link (M : JitMachine) (p a : ℕ) (P : JitProcess) (t : JitTree) : Res JitMachine :=
  match M.dlopen P (jitPath t.id) with
  | none => .error .abort
  | some lib =>
    if lib.symbol = jitSymbol t.id then
      .ok (M.set p
        { P with
          loaded := Function.update P.loaded (jitPath t.id) (some lib)
          objects := Function.update P.objects a (some { t with fn := some lib.code })
          compiling := none })
    else .error .abort

/-- The next step of process `p`.  A process that is compiling does nothing else before it has opened
the library; addresses are used for one object at a time. -/
def step (σ : SortFn) (M : JitMachine) (p : ℕ) (op : JitOp) : Res JitMachine :=
  let P := M.procs p
  match P.compiling, op with
  | some a, .link =>
    match P.objects a with
    | some t => M.link p a P t
    | none => .error (.ub .dangling)
  | some _, _ => .error .unmodelled
  | none, .link => .error .unmodelled
  | none, .new a n d =>
    -- DecisionTreeImpl.cpp:48-53
    if (P.objects a).isSome then .error .unmodelled
    else .ok (M.set p { P with
      counter := P.counter + 1
      objects := Function.update P.objects a (some ⟨.new n d, P.counter + 1, none⟩) })
  | none, .newTrained a n d samples => do
    -- DecisionTreeImpl.cpp:74-96
    if (P.objects a).isSome then .error .unmodelled
    else
      let impl ← TreeImpl.newTrained σ n d samples
      M.compile p a { P with counter := P.counter + 1 } ⟨impl, P.counter + 1, none⟩
  | none, .newLoaded a n s => do
    -- DecisionTreeImpl.cpp:26-46
    if (P.objects a).isSome then .error .unmodelled
    else
      let impl ← (TreeImpl.new n 0).load s
      M.compile p a { P with counter := P.counter + 1 } ⟨impl, P.counter + 1, none⟩
  | none, .train a samples =>
    -- DecisionTreeImpl.cpp:54-72
    match P.objects a with
    | some t => do
      let impl ← t.impl.train σ samples
      M.compile p a P { t with impl := impl }
    | none => .error (.ub .dangling)
  | none, .load a s =>
    -- DecisionTreeImpl.cpp:248-254
    match P.objects a with
    | some t => do
      let impl ← t.impl.load s
      .ok (M.set p { P with objects := Function.update P.objects a (some { t with impl := impl }) })
    | none => .error (.ub .dangling)
  | none, .destroy a =>
    -- DecisionTreeImpl.cpp:170-180; the library stays loaded
    match P.objects a with
    | some t => .ok
        { files := Function.update M.files (jitPath t.id) none
          procs := Function.update M.procs p { P with objects := Function.update P.objects a none } }
    | none => .error (.ub .dangling)

/-- The machine after steps of its processes. -/
def exec (σ : SortFn) : List (ℕ × JitOp) → JitMachine → Res JitMachine
  | [], M => .ok M
  | (p, op) :: ops, M => do
    let M ← M.step σ p op
    exec σ ops M

/-- DecisionTreeImpl.cpp:191-194: `predict` of the object of process `p` at address `a`. -/
def predict (M : JitMachine) (p a : ℕ) (f : Features) : Res ℤ :=
  match (M.procs p).objects a with
  | some t =>
    match t.fn with
    | some code => code.run f
    | none => .error (.ub .uninit)
  | none => .error (.ub .dangling)

end JitMachine

end Apollo
