import Verif.Spec.TwoRuns

/-!
# Exhaustive experiments

A program is run once with every static policy; `clock p` is the clock of the run with the policy number `p`, and
a region has `n` policies.
-/

namespace Apollo.Spec

/-- The policy of a region with `n` policies when the policy `p` is asked for. -/
def staticChoice (n p : ℕ) : ℤ := if p < n then p else 0

/-- The policy `c` is that of a run with the shortest time for the `k`-th execution. -/
def FastestRun (clock : ℕ → ℕ → ℤ × ℤ) (n N k : ℕ) (c : ℤ) : Prop :=
  ∃ p < N, c = staticChoice n p ∧ ∀ q < N, elapsed (clock p) k ≤ elapsed (clock q) k

/-- No policy is faster for the features. -/
def Fastest (n : ℕ) (time : List ℚ → ℤ → ℚ) (q : List ℚ) (c : ℤ) : Prop :=
  (0 ≤ c ∧ c < n) ∧ ∀ p : ℕ, p < n → time q c ≤ time q p

end Apollo.Spec
