import Mathlib.Data.Int.Notation
import Mathlib.Data.List.Basic

/-!
# Specification of majority votes and bootstrap samples
-/

namespace Apollo.Spec

/-- `w` wins the vote among the candidates `0 .. n-1`: no candidate has more votes, and every smaller
candidate has fewer. -/
structure Wins (n : ℤ) (ballots : List ℤ) (w : ℤ) : Prop where
  nonneg : 0 ≤ w
  lt : w < n
  most : ∀ c, 0 ≤ c → c < n → ballots.count c ≤ ballots.count w
  first : ∀ c, 0 ≤ c → c < w → ballots.count c < ballots.count w

/-- A sample of the same size, drawn with replacement. -/
def IsBootstrap {α : Type} (xs ys : List α) : Prop := ys.length = xs.length ∧ ∀ y ∈ ys, y ∈ xs

end Apollo.Spec
