import Verif.Spec.RegionSolo

/-!
# The story of a region, event by event

Specification for what the model and the data of a region depend on: its own events, read one after the
other, wherever they come from.  Trainings at any time are allowed, unlike in `Rules.Plays`; when
they happen is read from the events.
-/

namespace Apollo.Spec

variable {M : Type}

/-- What a region holds: its model and its measurements. -/
structure HeldState (M : Type) where
  model : M
  data : Dataset

/-- What one event does to what region `r` holds, given what an observer knew before it.  `single`: there is
one model for all regions.  The periods of `ρ` are not used. -/
inductive Hears (ρ : Rules M) (single : Bool) (r : ℕ) (o : Observer) (s : HeldState M) : Ev → HeldState M → Prop
  /-- the model answers, for the features of the execution -/
  | chose (c : CtxPtr) (p : ℤ) (f : Features) (m : M) : (o.isOpen c = true → f = o.features c) →
      ρ.getIndex s.model f = .ok (p, m) → Hears ρ single r o s (.chose r c p) { s with model := m }
  /-- the model is trained with the measurements held -/
  | trained (ds : Dataset) (t : ℕ) (m : M) : (single = false → ds = s.data) →
      ρ.train t ds s.model = .ok m → Hears ρ single r o s (.trained r ds) { s with model := m }
  /-- the measurement is added, if the model of the region learns -/
  | finished (c : CtxPtr) (x : ℚ) (f : Features) (p : ℤ) : (o.isOpen c = true → f = o.features c) →
      (o.isOpen c = true → ∀ q, o.policy c = some q → p = q) → (ds : Dataset) →
      (ds = if ρ.persistent = true ∨ ρ.isTrainable s.model = true then s.data.insert f p x else s.data) →
      Hears ρ single r o s (.finished r c x) { s with data := ds }
  /-- nothing else matters -/
  | other (e : Ev) : (∀ c p, e ≠ .chose r c p) → (∀ ds, e ≠ .trained r ds) → (∀ c x, e ≠ .finished r c x) →
      Hears ρ single r o s e s

/-- Events one after the other, after those in `h`. -/
inductive Replay (ρ : Rules M) (single : Bool) (r : ℕ) (h : List Ev) (s₀ : HeldState M) : List Ev → HeldState M → Prop
  | start : Replay ρ single r h s₀ [] s₀
  | event {l : List Ev} {s s' : HeldState M} {e : Ev} : Replay ρ single r h s₀ l s →
      Hears ρ single r (observe (h ++ l)) s e s' → Replay ρ single r h s₀ (l ++ [e]) s'

end Apollo.Spec
