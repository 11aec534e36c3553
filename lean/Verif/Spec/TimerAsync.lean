import Verif.Model.TimerAsync

/-!
# Specification vocabulary for asynchronous timings

In terms of the history: where an execution began and ended, and what the device measured between.
-/

namespace Apollo.Spec

/-- The context began at position `a` of the history and at no other. -/
def BeganAt (h : List Ev) (c : CtxPtr) (a : ℕ) : Prop :=
  (∃ r, h[a]? = some (.began r c)) ∧ ∀ k r, h[k]? = some (.began r c) → k = a

/-- The context was last ended at position `b` of the history. -/
def EndedLast (h : List Ev) (c : CtxPtr) (b : ℕ) : Prop :=
  (∃ r, h[b]? = some (.ended r c)) ∧ ∀ k r, h[k]? = some (.ended r c) → k ≤ b

/-- After the history `h`, the metric `m` is the time, in seconds, the device took from the begin of
the context to its end, and the device is past the end. -/
def Measured (D : Device) (h : List Ev) (c : CtxPtr) (m : ℚ) : Prop :=
  ∃ a b, BeganAt h c a ∧ EndedLast h c b ∧ a < b ∧ b < D.passed h ∧
    m = rnd64 (rnd32 (D.time b - D.time a) / 1000)

/-- Every asynchronous execution in the history that finished was measured by the device. -/
def AllMeasured (D : Device) (h : List Ev) : Prop :=
  ∀ h₁ r n m h₂, h = h₁ ++ .finished r (.heap n) m :: h₂ → Measured D h₁ (.heap n) m

/-- The clock of the device does not go back. -/
def _root_.Apollo.Device.Forward (D : Device) : Prop := ∀ a b, a ≤ b → D.time a ≤ D.time b

/-- The call passes a metric. -/
def _root_.Apollo.Op.givesMetric : Op → Bool
  | .endMetric _ _ _ => true
  | .endMetricCur _ _ => true
  | _ => false

/-- The event happens while contexts are collected. -/
def collecting : Ev → Bool
  | .waiting _ => true
  | .finished _ _ _ => true
  | .trained _ _ => true
  | _ => false

/-- The device executes none of the commands issued before while the host collects. -/
def _root_.Apollo.Device.Still (D : Device) : Prop :=
  ∀ h e, collecting e = true → ∀ k < h.length, k < D.passed (h ++ [e]) ↔ k < D.passed h

/-- No context was ended twice. -/
def EndedOnce (h : List Ev) : Prop :=
  ∀ (i j r r' : ℕ) (c : CtxPtr), h[i]? = some (.ended r c) → h[j]? = some (.ended r' c) → i = j

/-- Asynchronous executions of a region finish in the order in which they were ended: when one finishes
after it was ended, those of the region that were ended before it have finished. -/
def InOrder (h : List Ev) : Prop :=
  ∀ (r n n' i j l : ℕ) (m : ℚ), h[i]? = some (.ended r (.heap n)) →
    h[j]? = some (.ended r (.heap n')) → i < j → j < l →
    h[l]? = some (.finished r (.heap n') m) → ∃ k < l, ∃ m', h[k]? = some (.finished r (.heap n) m')

/-- The context, if the event is the end of one on region `r`. -/
def endedBy (r : ℕ) : Ev → Option CtxPtr
  | .ended r' c => if r' = r then some c else none
  | _ => none

/-- The timers, with the answer `x` in place of failures. -/
def _root_.Apollo.Env.unfailing {M : Type} (env : Env M) (x : TimerAns) : Env M :=
  { env with poll := fun t h n => if env.poll t h n = .failed then x else env.poll t h n }

end Apollo.Spec
