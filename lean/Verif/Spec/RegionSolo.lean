import Verif.Base.Res
import Verif.Spec.Region

/-!
# A region on its own

Specification for the independence of regions: a machine that knows one region only.  It has no
registry, no other regions, no contexts that are reused and no clock: executions are numbered in the
order in which they began.
-/

namespace Apollo.Spec

/-- What happens to a region, seen from outside.  Executions are numbered from 0 in the order in which
they began. -/
inductive Input
  /-- an execution begins -/
  | begin
  /-- the features of an execution are given all at once -/
  | assign (i : ℕ) (f : Features)
  /-- one more feature of an execution -/
  | feature (i : ℕ) (v : ℚ)
  /-- which policy should the execution use? -/
  | ask (i : ℕ)
  /-- the execution finished with a measurement -/
  | finish (i : ℕ) (x : ℚ)
  deriving DecidableEq

/-- The state of one region. -/
structure Solo (M : Type) where
  model : M
  data : Dataset
  begins : ℕ := 0
  features : ℕ → Features := fun _ => []
  policy : ℕ → Option ℤ := fun _ => none

/-- What a region is told about its surroundings when it is created. -/
structure Rules (M : Type) where
  isTrainable : M → Bool
  getIndex : M → Features → Res (ℤ × M)
  train : ℕ → Dataset → M → Res M
  /-- measurements are kept even if the model does not learn -/
  persistent : Bool
  /-- the model is trained at the end of every `period`-th execution; 0: never -/
  period : ℤ
  /-- the model is trained once there are so many entries; 0: never -/
  minTraining : ℤ

variable {M : Type}

/-- The data after execution `i` finished with measurement `x`. -/
def Rules.record (ρ : Rules M) (s : Solo M) (i : ℕ) (p : ℤ) (x : ℚ) : Dataset :=
  if ρ.persistent = true ∨ ρ.isTrainable s.model = true then s.data.insert (s.features i) p x
  else s.data

/-- The model is trained at the end of an execution, when `n` executions began and the data is
`ds`. -/
def Rules.Due (ρ : Rules M) (m : M) (n : ℕ) (ds : Dataset) : Prop :=
  ρ.isTrainable m = true ∧ ds ≠ [] ∧
    (ρ.period ≠ 0 ∧ ρ.period ∣ n ∨ 0 < ρ.minTraining ∧ ρ.minTraining ≤ ds.length)

/-- One input, and the answer if it was a question. -/
inductive Rules.Step (ρ : Rules M) (s : Solo M) : Input → Option ℤ → Solo M → Prop
  | begin : Step ρ s .begin none { s with
      begins := s.begins + 1
      features := Function.update s.features s.begins []
      policy := Function.update s.policy s.begins none }
  | assign (i : ℕ) (f : Features) :
      Step ρ s (.assign i f) none { s with features := Function.update s.features i f }
  | feature (i : ℕ) (v : ℚ) : Step ρ s (.feature i v) none
      { s with features := Function.update s.features i (s.features i ++ [v]) }
  | ask (i : ℕ) (p : ℤ) (m : M) : ρ.getIndex s.model (s.features i) = .ok (p, m) →
      Step ρ s (.ask i) (some p)
        { s with model := m, policy := Function.update s.policy i (some p) }
  | finish (i : ℕ) (x : ℚ) (p : ℤ) : s.policy i = some p →
      ¬ ρ.Due s.model s.begins (ρ.record s i p x) →
      Step ρ s (.finish i x) none { s with data := ρ.record s i p x }
  | finishTrain (i : ℕ) (x : ℚ) (p : ℤ) (t : ℕ) (m : M) : s.policy i = some p →
      ρ.Due s.model s.begins (ρ.record s i p x) →
      ρ.train t (ρ.record s i p x) s.model = .ok m →
      Step ρ s (.finish i x) none { s with data := ρ.record s i p x, model := m }

/-- Inputs one after the other, and the answers to the questions among them. -/
inductive Rules.Plays (ρ : Rules M) (s₀ : Solo M) : List Input → List ℤ → Solo M → Prop
  | start : Plays ρ s₀ [] [] s₀
  | step {is : List Input} {ps : List ℤ} {s s' : Solo M} {i : Input} {p : Option ℤ} :
      Plays ρ s₀ is ps s → ρ.Step s i p s' → Plays ρ s₀ (is ++ [i]) (ps ++ p.toList) s'

/-! ## The inputs and answers of a region in a log -/

/-- The input of region `r` that an event is, given what happened before. -/
def Observer.input (r : ℕ) (o : Observer) : Ev → Option Input
  | .began r' _ => if r' = r then some .begin else none
  | .assigned c f => if o.owner c = some r then some (.assign (o.index c) f) else none
  | .feature c v => if o.owner c = some r then some (.feature (o.index c) v) else none
  | .chose r' c _ => if r' = r then some (.ask (o.index c)) else none
  | .finished r' c x => if r' = r then some (.finish (o.index c) x) else none
  | _ => none

/-- The inputs of region `r` among events, after what the observer has seen. -/
def inputsFrom (r : ℕ) : Observer → List Ev → List Input
  | _, [] => []
  | o, e :: l => (o.input r e).toList ++ inputsFrom r (o.next e) l

/-- The inputs of region `r`. -/
def inputs (r : ℕ) (l : List Ev) : List Input := inputsFrom r {} l

/-- The answer of region `r` that an event is. -/
def answer (r : ℕ) : Ev → Option ℤ
  | .chose r' _ p => if r' = r then some p else none
  | _ => none

/-- The answers of region `r`. -/
def answers (r : ℕ) (l : List Ev) : List ℤ := l.filterMap (answer r)

/-- The event uses region `r` as intended: policies are asked for, and executions finished, on contexts
that began on the region and are not finished; measurements come after the policy was asked for. -/
def Observer.fits (r : ℕ) (o : Observer) : Ev → Prop
  | .chose r' c _ => (r' = r → o.isOpen c = true) ∧ (o.owner c = some r ↔ r' = r)
  | .finished r' c _ =>
    r' = r → o.isOpen c = true ∧ o.owner c = some r ∧ (o.policy c).isSome = true
  | _ => True

/-- All events use the region as intended, after what the observer has seen. -/
def orderlyFrom (r : ℕ) : Observer → List Ev → Prop
  | _, [] => True
  | o, e :: l => o.fits r e ∧ orderlyFrom r (o.next e) l

/-- All events use the region as intended. -/
def Orderly (r : ℕ) (l : List Ev) : Prop := orderlyFrom r {} l

end Apollo.Spec
