import Verif.Proofs.AnyFloat

/-!
# C91: features that are any floats

The dataset is a `std::map`, here the search tree of the C++ library.  `balance` is the rebalancing
after an insertion: any function which keeps the order of iteration.
-/

namespace Apollo.Props

open Apollo Apollo.Spec

/-- C91 (full statement): whatever floats the features are and however the tree is balanced, features
and a policy have an entry with metric `m` iff `m` is the running average of the metrics inserted for
these features and this policy. -/
def C91_claim : Prop :=
  ∀ balance : AnyDataset → AnyDataset, (∀ t, (balance t).toList = t.toList) →
    ∀ (h : List AnyMeas) (f : List AnyFloat) (p : ℤ) (m : ℚ),
      (∃ f', SameFeatures f' f ∧ (f', p, m) ∈ anyEntries balance h) ↔
        runningAverage halfHalf (anyMetricsOf h f p) = some m

/-- The full statement is false: a measurement for the features `[NaN]` changes the entry for `[1]`,
and has no entry itself. -/
theorem C91_fails : ¬ C91_claim := by
  intro h
  have := (h id (fun _ => rfl) [([.fin 1], 0, 1), ([.nan], 0, 3)] [.fin 1] 0 2).1
    ⟨[.fin 1], rfl, by decide +kernel⟩
  exact absurd this (by decide +kernel)

/-- What holds: without NaN, but with infinities and zeros of either sign, features and a policy have
an entry with metric `m` iff `m` is the running average of the metrics inserted for them. -/
theorem C91_entry_partial {balance : AnyDataset → AnyDataset}
    (hb : ∀ t, (balance t).toList = t.toList) (h : List AnyMeas)
    (hn : ∀ y ∈ h, AnyFloat.nan ∉ y.1) {f : List AnyFloat} (hf : AnyFloat.nan ∉ f) (p : ℤ) (m : ℚ) :
    (∃ f', SameFeatures f' f ∧ (f', p, m) ∈ anyEntries balance h) ↔
      runningAverage halfHalf (anyMetricsOf h f p) = some m := by
  have hn' : ∀ y ∈ h, ∀ x ∈ y.1, x ≠ .nan := fun y hy x hx e => hn y hy (e ▸ hx)
  have hf' : ∀ x ∈ f, x ≠ .nan := fun x hx e => hf (e ▸ hx)
  obtain ⟨-, hs, hg⟩ := anyRun_view (P := fun x => x ≠ .nan) (g := fun x => (num x).getD ⊥)
    (fun a b => lt_eq) hb h hn'
  change OMap.Sorted ((anyRun balance h).view numKey) at hs
  rw [← find_anyRun hb h hn' hf', OMap.Sorted.find_eq_some_iff hs]
  constructor
  · rintro ⟨f', h1, h2⟩
    rw [entries_view] at h2
    refine List.mem_map.2 ⟨_, h2, ?_⟩
    simp only [numKey, (numbers_inj (hg _ h2) hf').2 h1]
  · intro h1
    obtain ⟨⟨⟨f', p'⟩, m'⟩, h2, h3⟩ := List.mem_map.1 h1
    simp only [numKey, Prod.mk.injEq, toLex_inj] at h3
    obtain ⟨⟨h3, rfl⟩, rfl⟩ := h3
    exact ⟨f', (numbers_inj (hg _ h2) hf').1 h3, (entries_view _ _ _ _).2 h2⟩

example : ∀ y ∈ ([([.posInf, .fin 2], 0, 4), ([.negZero, .negInf], 1, 3), ([.fin 0, .negInf], 1, 5)] :
    List AnyMeas), AnyFloat.nan ∉ y.1 := by decide

/-- Zeros of either sign are the same features. -/
example : anyEntries id [([.negZero, .negInf], 1, 3), ([.fin 0, .negInf], 1, 5)] =
    [([.negZero, .negInf], 1, 4)] := by decide +kernel

/-- Without NaN the entries are strictly increasing, features lexicographically and then policies; so
there is one entry for each pair. -/
theorem C91_ordered {balance : AnyDataset → AnyDataset} (hb : ∀ t, (balance t).toList = t.toList)
    (h : List AnyMeas) (hn : ∀ y ∈ h, AnyFloat.nan ∉ y.1) :
    (anyEntries balance h).Pairwise fun a b =>
      numbers a.1 < numbers b.1 ∨ (numbers a.1 = numbers b.1 ∧ a.2.1 < b.2.1) := by
  have hn' : ∀ y ∈ h, ∀ x ∈ y.1, x ≠ .nan := fun y hy x hx e => hn y hy (e ▸ hx)
  obtain ⟨-, hs, hg⟩ := anyRun_view (P := fun x => x ≠ .nan) (g := fun x => (num x).getD ⊥)
    (fun a b => lt_eq) hb h hn'
  unfold anyEntries AnyDataset.toVectorOfTuples
  unfold OMap.Sorted SearchTree.view at hs
  rw [List.pairwise_map] at hs ⊢
  exact hs.imp fun h => by simpa [Prod.Lex.toLex_lt_toLex, numbers] using h

/-- With finite features the dataset is the one of C01-C05, however the tree is balanced. -/
theorem C91_finite {balance : AnyDataset → AnyDataset} (hb : ∀ t, (balance t).toList = t.toList)
    (h : List Meas) :
    anyEntries balance (h.map fun x => (x.features.map .fin, x.policy, x.metric)) =
      (entries h).map fun e => (e.1.map .fin, e.2.1, e.2.2) := by
  have := anyRun_finite hb h
  unfold ofFinite at this
  unfold anyEntries AnyDataset.toVectorOfTuples entries Dataset.toVectorOfTuples
  unfold anyRun at this
  rw [this, List.map_map, List.map_map]
  rfl

/-- A NaN swallows what is measured later: if the first features measured are `[NaN]`, then all
measurements of this policy for other features go to their entry. -/
theorem C91_nan_swallows {balance : AnyDataset → AnyDataset}
    (hb : ∀ t, (balance t).toList = t.toList) (p : ℤ) (m : ℚ) (ms : List (AnyFloat × ℚ)) :
    anyEntries balance (([.nan], p, m) :: ms.map fun x => ([x.1], p, x.2)) =
      [([.nan], p, (ms.map Prod.snd).foldl halfHalf m)] := by
  unfold anyEntries
  rw [List.foldl_cons, List.foldl_map]
  have h1 : AnyDataset.insert balance .leaf [.nan] p m = .node .leaf ([.nan], p) m .leaf := by
    have h2 : AnyDataset.insert balance .leaf [.nan] p m =
        balance (.node .leaf ([.nan], p) m .leaf) := rfl
    have h3 := hb (.node .leaf ([.nan], p) m .leaf)
    rw [h2]
    cases h4 : balance (.node .leaf ([.nan], p) m .leaf) with
    | leaf => rw [h4] at h3; simp [SearchTree.toList] at h3
    | node l k v r =>
      rw [h4] at h3
      have h5 := congrArg List.length h3
      simp only [SearchTree.toList, List.length_append, List.length_cons, List.length_nil] at h5
      have hl : l = .leaf := by
        cases l with
        | leaf => rfl
        | node a b c d =>
          simp only [SearchTree.toList, List.length_append, List.length_cons] at h5
          omega
      have hr : r = .leaf := by
        cases r with
        | leaf => rfl
        | node a b c d =>
          simp only [SearchTree.toList, List.length_append, List.length_cons] at h5
          omega
      subst hl hr
      simp only [SearchTree.toList, List.nil_append, List.cons.injEq, Prod.mk.injEq, and_true] at h3
      obtain ⟨h6, h7⟩ := h3
      rw [h6, h7]
  rw [show (([.nan], p, m) : AnyMeas).1 = [.nan] from rfl, h1, anyRun_nan]
  rfl

/-- Measurements for four different features end in one entry. -/
example : anyEntries id [([.nan], 0, 8), ([.fin 1], 0, 4), ([.fin 2], 0, 2), ([.negInf], 0, 0)] =
    [([.nan], 0, 2)] := by decide +kernel

end Apollo.Props
