/-!
# Outcomes of C++ code

Every modelled C++ function returns a `Res`.  Undefined behaviour is a distinct outcome so that a
theorem about results is never true merely because the model made up a value.
-/

namespace Apollo

/-- Kinds of undefined behaviour that the modelled code can run into. -/
inductive UB
  /-- access outside of an array, buffer or vector -/
  | outOfBounds
  /-- dereferencing a stream iterator at end of stream (src/helpers/Parser.cpp:24-36) -/
  | endOfStream
  /-- integer division or remainder by zero -/
  | divByZero
  /-- use of an object after its destruction -/
  | dangling
  /-- signed integer overflow or out-of-range conversion -/
  | overflow
  /-- reading a variable that was never assigned -/
  | uninit
  /-- calling `std::sort` with a comparator that is not a strict weak ordering of the range -/
  | badOrder
  deriving DecidableEq, Repr

/-- Ways in which modelled C++ code does not return normally. -/
inductive Err
  /-- `fatal_error`, `abort()`, failed `assert` (src/helpers/ErrorHandling.h) -/
  | abort
  /-- a C++ exception leaves the function -/
  | throw
  /-- undefined behaviour -/
  | ub (why : UB)
  /-- the input is outside of the modelled domain (e.g. hexadecimal, infinite or NaN literals) -/
  | unmodelled
  /-- a loop of the model ran out of fuel; theorems show that it does not happen -/
  | diverge
  deriving DecidableEq, Repr

/-- Result of a modelled C++ function. -/
abbrev Res (α : Type) := Except Err α

instance {α : Type} [DecidableEq α] : DecidableEq (Res α) := fun a b =>
  match a, b with
  | .ok x, .ok y => if h : x = y then .isTrue (by rw [h]) else .isFalse (by simpa using h)
  | .error x, .error y => if h : x = y then .isTrue (by rw [h]) else .isFalse (by simpa using h)
  | .ok _, .error _ => .isFalse (by simp)
  | .error _, .ok _ => .isFalse (by simp)

/-- The call returned normally. -/
def Res.isOk {α : Type} : Res α → Prop
  | .ok _ => True
  | .error _ => False

instance {α : Type} (r : Res α) : Decidable r.isOk :=
  match r with
  | .ok _ => .isTrue trivial
  | .error _ => .isFalse id

@[simp] theorem Res.bind_ok {α β : Type} (a : α) (f : α → Res β) :
    (Except.ok a >>= f) = f a := rfl

@[simp] theorem Res.bind_error {α β : Type} (e : Err) (f : α → Res β) :
    ((Except.error e : Res α) >>= f) = .error e := rfl

@[simp] theorem Res.pure_eq {α : Type} (a : α) : (pure a : Res α) = .ok a := rfl

@[simp] theorem Res.isOk_ok {α : Type} (a : α) : Res.isOk (.ok a : Res α) := trivial

@[simp] theorem Res.not_isOk_error {α : Type} (e : Err) : ¬ Res.isOk (.error e : Res α) := id

theorem Res.isOk_iff {α : Type} (r : Res α) : r.isOk ↔ ∃ a, r = .ok a := by
  cases r <;> simp [Res.isOk]

theorem Res.bind_eq_ok {α β : Type} (r : Res α) (f : α → Res β) (b : β) :
    (r >>= f) = .ok b ↔ ∃ a, r = .ok a ∧ f a = .ok b := by
  cases r <;> simp

end Apollo
