import Verif.Spec.TestPrograms

/-!
# Tuning a region in two runs

The first run tries the policies one after the other and records the times; the second run uses what was
recorded.  Independent of the models: `fs` are the features of the executions of the first run, `n` the number
of policies.
-/

namespace Apollo.Spec

/-- One execution of the region with the features `q` that asks once for the policy. -/
def execution (q : List ℚ) : List Op :=
  .begin 0 .sync :: (q.map (.setFeatureCur 0 ·) ++ [.getPolicyIndexCur 0, .endCur 0])

/-- A program that creates the region `name` with a model and executes it with the features. -/
def tuningProgram (model : List Char) (nf : ℤ) (name : List Char) (n : ℤ) (qs : List (List ℚ)) : List Op :=
  .create nf name n 0 model [] :: qs.flatMap execution

/-- The first run. -/
def exploreProgram := tuningProgram "RoundRobin".toList

/-- The second run. -/
def mappedProgram := tuningProgram "DatasetMap".toList

/-- The policy was tried with the features, if the first run takes the policies in turn. -/
def Tried (fs : List (List ℚ)) (n : ℕ) (q : List ℚ) (p : ℤ) : Prop :=
  ∃ j, fs[j]? = some q ∧ ((j % n : ℕ) : ℤ) = p

/-- Every policy was tried with all features. -/
def Covers (fs : List (List ℚ)) (n : ℕ) : Prop := ∀ q ∈ fs, ∀ p : ℕ, p < n → Tried fs n q p

/-- The times of the first run are those of `time`, which knows the features and the policy. -/
def Timed (clock : ℕ → ℤ × ℤ) (fs : List (List ℚ)) (n : ℕ) (time : List ℚ → ℤ → ℚ) : Prop :=
  ∀ j q, fs[j]? = some q → elapsed clock j = time q ((j % n : ℕ) : ℤ)

/-- The policy is the fastest for the features among those in `S`, and the first of the fastest. -/
def FastestIn (S : ℤ → Prop) (time : List ℚ → ℤ → ℚ) (q : List ℚ) (c : ℤ) : Prop :=
  S c ∧ ∀ p, S p → time q c < time q p ∨ (time q c = time q p ∧ c ≤ p)

/-- The features `gs` one after the other, `k` times. -/
def cycle (gs : List (List ℚ)) (k : ℕ) : List (List ℚ) := (List.replicate k gs).flatten

end Apollo.Spec
