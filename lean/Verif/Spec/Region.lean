import Verif.Model.Dataset

/-!
# Specification vocabulary for executions of regions

An execution of a program that uses Apollo is observed as a list of events: calls of the interface
with what they returned, answers of timers, and trainings of models.  The functions below say what a
history means, without reference to how the code keeps its state.
-/

namespace Apollo

/-- A pointer to a `RegionContext`: the context embedded in a region, or one allocated with `new`. -/
inductive CtxPtr
  | sync (r : ℕ)
  | heap (n : ℕ)
  deriving DecidableEq, Repr

/-- Observable events.  Regions are numbered in order of creation. -/
inductive Ev
  /-- the constructor of region `r` has finished; its dataset is `ds`, and its model says whether it
  is trainable -/
  | created (r : ℕ) (ds : Dataset) (trainable : Bool)
  /-- `begin` on region `r` returned the context `c` -/
  | began (r : ℕ) (c : CtxPtr)
  /-- the features of `c` were given all at once, `begin(features)` -/
  | assigned (c : CtxPtr) (f : Features)
  /-- `setFeature(c, v)` -/
  | feature (c : CtxPtr) (v : ℚ)
  /-- `getPolicyIndex(c)` on region `r` returned `p` -/
  | chose (r : ℕ) (c : CtxPtr) (p : ℤ)
  /-- `end(c)` was called on region `r` for an asynchronous context -/
  | ended (r : ℕ) (c : CtxPtr)
  /-- the timer of `c` was asked and was not done -/
  | waiting (c : CtxPtr)
  /-- an execution of region `r` with context `c` finished with metric `m`: it was given by the
  caller, or reported by the timer of the context -/
  | finished (r : ℕ) (c : CtxPtr) (m : ℚ)
  /-- the model of region `r` was trained with `ds` -/
  | trained (r : ℕ) (ds : Dataset)
  /-- region `r` was destroyed -/
  | destroyed (r : ℕ)
  deriving DecidableEq

namespace Spec

/-- What is known about one finished execution. -/
structure Row where
  index : ℕ
  features : Features
  policy : ℤ
  metric : ℚ
  deriving DecidableEq

/-- The measurement of a row. -/
def Row.meas (x : Row) : Meas := ⟨x.features, x.policy, x.metric⟩

/-- What an observer of the events knows. -/
structure Observer where
  /-- features set on a context since its `begin` -/
  features : CtxPtr → Features := fun _ => []
  /-- policy returned for a context since its `begin` -/
  policy : CtxPtr → Option ℤ := fun _ => none
  /-- the context has begun an execution that is not finished -/
  isOpen : CtxPtr → Bool := fun _ => false
  /-- number of earlier executions of the region when the context began -/
  index : CtxPtr → ℕ := fun _ => 0
  /-- region on which the context began -/
  owner : CtxPtr → Option ℕ := fun _ => none
  /-- number of executions begun by a region -/
  begins : ℕ → ℕ := fun _ => 0
  /-- number of finished executions -/
  finished : ℕ := 0
  /-- the finished executions of a region, in order -/
  rows : ℕ → List Row := fun _ => []
  /-- the dataset a region started with -/
  start : ℕ → Dataset := fun _ => []
  /-- executions of the region finished only after they began on it and a policy was asked for -/
  proper : ℕ → Bool := fun _ => true

/-- The observer sees one more event. -/
def Observer.next (o : Observer) : Ev → Observer
  | .created r ds _ => { o with start := Function.update o.start r ds }
  | .began r c => { o with
      features := Function.update o.features c []
      policy := Function.update o.policy c none
      isOpen := Function.update o.isOpen c true
      index := Function.update o.index c (o.begins r)
      owner := Function.update o.owner c (some r)
      begins := Function.update o.begins r (o.begins r + 1) }
  | .assigned c f => { o with features := Function.update o.features c f }
  | .feature c v => { o with features := Function.update o.features c (o.features c ++ [v]) }
  | .chose _ c p => { o with policy := Function.update o.policy c (some p) }
  | .finished r c m => { o with
      isOpen := Function.update o.isOpen c false
      finished := o.finished + 1
      rows := Function.update o.rows r
        (o.rows r ++ [⟨o.index c, o.features c, (o.policy c).getD 0, m⟩])
      proper := Function.update o.proper r
        (o.proper r && o.isOpen c && (o.policy c).isSome && o.owner c == some r) }
  | _ => o

/-- What the observer knows after the events, in order. -/
def observe (h : List Ev) : Observer := h.foldl Observer.next {}

/-- The event is the question to the timer of a context; whether it was done. -/
def polled : Ev → Option (CtxPtr × Bool)
  | .waiting c => some (c, false)
  | .finished _ c _ => some (c, true)
  | _ => none

/-- How often a context was collected. -/
def timesFinished (c : CtxPtr) (h : List Ev) : ℕ :=
  h.countP fun e => match e with
    | .finished _ c' _ => c' == c
    | _ => false

end Spec
end Apollo
