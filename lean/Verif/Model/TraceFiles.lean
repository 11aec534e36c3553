import Verif.Model.Region

/-!
# Model of the streams behind the traces of regions

Source: src/Region.cpp:383-401 (the file is opened, and what was in it is lost), 511-526 (rows),
413 (the file is closed), include/apollo/Region.h (`std::ofstream trace_file`).

A stream has a position in its file and a buffer; what is put into the stream goes into the buffer, and the
buffer is written at the position of the stream at moments which the library does not choose.  Streams of
the same file do not know of each other.  Rows that one call adds to several regions are put after the call.

Not modelled: other writes to the same files, disks that are full, processes that end by a signal.
-/

namespace Apollo

/-- What happens to the streams, by region. -/
inductive DiskOp
  /-- `trace_file.open(path)` -/
  | opened (r : ℕ) (path : Str)
  /-- `trace_file << s` -/
  | put (r : ℕ) (s : Str)
  /-- the first `k` characters of the buffer are written -/
  | flush (r : ℕ) (k : ℕ)
  /-- `trace_file.close()` -/
  | close (r : ℕ)
  deriving DecidableEq

/-- `std::ofstream`: an open file. -/
structure OStream where
  path : Str
  pos : ℕ := 0
  buf : Str := []
  deriving DecidableEq

/-- The files and the open streams. -/
structure Disk where
  files : Str → Option Str := fun _ => none
  streams : ℕ → Option OStream := fun _ => none

/-- `write(2)` at a position: what was there is replaced, a gap is filled with zeros. -/
def overlay (old : Str) (pos : ℕ) (s : Str) : Str :=
  old.take pos ++ List.replicate (pos - old.length) '\x00' ++ s ++ old.drop (pos + s.length)

/-- The first `k` characters of the buffer of a stream are written. -/
def Disk.flush (d : Disk) (r : ℕ) (k : ℕ) : Disk :=
  match d.streams r with
  | none => d
  | some o =>
    { files := Function.update d.files o.path
        (some (overlay ((d.files o.path).getD []) o.pos (o.buf.take k)))
      streams := Function.update d.streams r
        (some { o with pos := o.pos + (o.buf.take k).length, buf := o.buf.drop k }) }

/-- One step. -/
def Disk.next (d : Disk) : DiskOp → Disk
  | .opened r path =>
    { files := Function.update d.files path (some [])
      streams := Function.update d.streams r (some { path }) }
  | .put r s =>
    { d with
      streams := Function.update d.streams r ((d.streams r).map fun o => { o with buf := o.buf ++ s }) }
  | .flush r k => d.flush r k
  | .close r =>
    match d.streams r with
    | none => d
    | some o =>
      let d := d.flush r o.buf.length
      { d with streams := Function.update d.streams r none }

/-- All steps, beginning with empty files. -/
def diskRun (ops : List DiskOp) : Disk := ops.foldl Disk.next {}

variable {M : Type}

/-- The trace of a region so far, if it exists. -/
def World.traceOf (w : World M) (r : ℕ) : Str := ((w.regions r).map Region.trace).getD []

/-- What was added to the traces between two states. -/
def puts (w w' : World M) : List DiskOp :=
  (List.range w.nextRegion).map fun r => .put r ((w'.traceOf r).drop (w.traceOf r).length)

/-- A call, or a moment at which a buffer is written. -/
inductive TEv
  | call (op : Op)
  | flush (r : ℕ) (k : ℕ)

/-- One call with what it does to the streams.  Region.cpp:383-401: the constructor opens the file;
Region.cpp:407-413: the destructor closes it once no execution is pending. -/
def tracedStep (env : Env M) (w : World M) (op : Op) : Res (List DiskOp × World M) := do
  let (x, w') ← step env w op
  if w.cfg.traceCsv then
    match op, x with
    | .create .., .region r => do
      let R ← w'.region r
      .ok ([.opened r (tracePath w'.cfg env.rank R.modelInfo R.name), .put r R.trace], w')
    | .destroy r fuel, _ => do
      let w₁ ← drain env r fuel { w with cfg := { w.cfg with globalPeriod := 0 } }
      .ok (puts w w₁ ++ [.close r], w')
    | _, _ => .ok (puts w w', w')
  else .ok ([], w')

/-- A program, with moments at which buffers are written. -/
def tracedExec (env : Env M) : List TEv → World M → Res (List DiskOp × World M)
  | [], w => .ok ([], w)
  | .flush r k :: evs, w => do
    let (ops, w') ← tracedExec env evs w
    .ok (.flush r k :: ops, w')
  | .call op :: evs, w => do
    let (o, w₁) ← tracedStep env w op
    let (ops, w') ← tracedExec env evs w₁
    .ok (o ++ ops, w')

end Apollo
