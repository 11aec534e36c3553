import Verif.Num.Decimal

/-!
# Specification of the environment of a process
-/

namespace Apollo.Spec

/-- The variable, with the given default, is a number for `std::stoi`: a decimal number of type int
after blanks, possibly followed by other characters. -/
def IsInt (getenv : List Char → Option (List Char)) (name default : String) (n : ℤ) : Prop :=
  ∃ k, stoi ((getenv name.toList).getD default.toList) = .ok (n, k)

/-- The variable, with the given default, is a number for `std::stof`. -/
def IsFloat (getenv : List Char → Option (List Char)) (name default : String) : Prop :=
  ∃ x k, stof ((getenv name.toList).getD default.toList) = .ok (x, k)

/-- Variables that are numbers, with the documented defaults. -/
def intVariables : List (String × String) :=
  [("APOLLO_COLLECTIVE_TRAINING", "0"), ("APOLLO_LOCAL_TRAINING", "1"),
    ("APOLLO_SINGLE_MODEL", "0"), ("APOLLO_REGION_MODEL", "1"),
    ("APOLLO_GLOBAL_TRAIN_PERIOD", "0"), ("APOLLO_PER_REGION_TRAIN_PERIOD", "0"),
    ("APOLLO_TRACE_POLICY", "0"), ("APOLLO_STORE_MODELS", "0"), ("APOLLO_TRACE_RETRAIN", "0"),
    ("APOLLO_TRACE_ALLGATHER", "0"), ("APOLLO_TRACE_BEST_POLICIES", "0"),
    ("APOLLO_RETRAIN_ENABLE", "0"), ("APOLLO_TRACE_CSV", "0"), ("APOLLO_PERSISTENT_DATASETS", "0"),
    ("APOLLO_STORE_EXEC_INFO", "0")]

/-- Variables that are floating point numbers. -/
def floatVariables : List (String × String) :=
  [("APOLLO_RETRAIN_TIME_THRESHOLD", "2.0"), ("APOLLO_RETRAIN_REGION_THRESHOLD", "0.5")]

/-- The variables that must be consistent. -/
structure Modes where
  collective : ℤ
  localTraining : ℤ
  single : ℤ
  region : ℤ

/-- The environment gives these modes. -/
structure Modes.In (m : Modes) (getenv : List Char → Option (List Char)) : Prop where
  collective : IsInt getenv "APOLLO_COLLECTIVE_TRAINING" "0" m.collective
  localTraining : IsInt getenv "APOLLO_LOCAL_TRAINING" "1" m.localTraining
  single : IsInt getenv "APOLLO_SINGLE_MODEL" "0" m.single
  region : IsInt getenv "APOLLO_REGION_MODEL" "1" m.region

/-- Exactly one kind of training and exactly one kind of model is enabled, and collective training
only with MPI. -/
def Modes.Consistent (m : Modes) (mpi : Bool) : Prop :=
  (m.collective ≠ 0 ↔ m.localTraining = 0) ∧ (m.single ≠ 0 ↔ m.region = 0) ∧
    (m.collective ≠ 0 → mpi = true)

end Apollo.Spec
