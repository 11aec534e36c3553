import Verif.Model.Ranks

/-!
# Runs of several ranks: order of the calls
-/

namespace Apollo.Ranks

open Apollo Apollo.Collective

variable {M : Type} {mpi : Mpi} {env : ℕ → Env M}

/-- Two different steps can be brought together again in one step each. -/
theorem Step.diamond {a b c : List (Proc M)} (h₁ : Step mpi env a b) (h₂ : Step mpi env a c) :
    b = c ∨ ∃ d, Step mpi env b d ∧ Step mpi env c d := by
  cases h₁ with
  | @call i p op ops w k hi hw ht hc =>
    cases h₂ with
    | @call j q op' ops' w' k' hj hw' ht' hc' =>
      by_cases hij : i = j
      · subst hij
        rw [hi] at hj
        cases hj
        rw [ht] at ht'
        cases ht'
        rw [hc] at hc'
        cases hc'
        exact .inl rfl
      · refine .inr ⟨(a.set i ⟨w, ops, k⟩).set j ⟨w', ops', k'⟩, ?_, ?_⟩
        · exact .call (by rw [List.getElem?_set_ne hij]; exact hj) hw' ht' hc'
        · rw [List.set_comm _ _ hij]
          exact .call (by rw [List.getElem?_set_ne (Ne.symm hij)]; exact hi) hw ht hc
    | train h0 hall ht' => exact absurd hw (hall p (List.mem_of_getElem? hi))
  | train h0 hall ht =>
    cases h₂ with
    | @call j q op' ops' w' k' hj hw' ht' hc' => exact absurd hw' (hall q (List.mem_of_getElem? hj))
    | train h0' hall' ht' =>
      rw [ht] at ht'
      cases ht'
      exact .inl rfl

/-- All runs to a state without successor have the same length, and every other run can be continued
to that state. -/
theorem Run.descent {n : ℕ} : ∀ {a b : List (Proc M)}, Run mpi env n a b →
    (∀ x, ¬ Step mpi env b x) → ∀ {m : ℕ} {c : List (Proc M)}, Run mpi env m a c →
    m ≤ n ∧ Run mpi env (n - m) c b := by
  induction n with
  | zero =>
    intro a b h hb m c hc
    cases h
    cases hc with
    | refl => exact ⟨le_rfl, .refl _⟩
    | step h _ => exact absurd h (hb _)
  | succ n ih =>
    intro a b h hb m c hc
    cases hc with
    | refl => exact ⟨Nat.zero_le _, h⟩
    | @step m _ c₁ _ hc1 hc2 =>
      cases h with
      | @step _ _ a₁ _ ha1 ha2 =>
        have key : Run mpi env n c₁ b := by
          rcases ha1.diamond hc1 with rfl | ⟨d, hd1, hd2⟩
          · exact ha2
          · obtain ⟨h1, h2⟩ := ih ha2 hb (.step hd1 (.refl d))
            obtain ⟨k, rfl⟩ : ∃ k, n = k + 1 := ⟨n - 1, by omega⟩
            exact .step hd2 h2
        obtain ⟨h1, h2⟩ := ih key hb hc2
        exact ⟨by omega, by rwa [Nat.succ_sub_succ]⟩

/-- Nothing can happen once all calls are made. -/
theorem no_step_of_finished {s : List (Proc M)} (h : ∀ p ∈ s, p.Finished) (x : List (Proc M)) :
    ¬ Step mpi env s x := by
  intro hx
  cases hx with
  | call hi _ ht _ => rw [(h _ (List.mem_of_getElem? hi)).1] at ht; cases ht
  | train h0 hall _ =>
    cases s with
    | nil => exact h0 rfl
    | cons p s => exact hall p List.mem_cons_self (h p List.mem_cons_self).2

/-- Why a state has no successor. -/
theorem stuck_cases {s : List (Proc M)} (h : ∀ x, ¬ Step mpi env s x) :
    (∀ p ∈ s, p.Finished) ∨
    (∃ (i : ℕ) (p : Proc M) (op : Op) (ops : List Op) (e : Err), s[i]? = some p ∧ p.wait = none ∧ p.todo = op :: ops ∧
      call (env i) p.world op = .error e) ∨
    ((∀ p ∈ s, p.wait ≠ none) ∧ ∃ e, together mpi env s = .error e) ∨
    ((∀ p ∈ s, p.wait ≠ none ∨ p.Finished) ∧ (∃ p ∈ s, p.wait ≠ none) ∧ ∃ p ∈ s, p.Finished) := by
  by_cases hc : ∃ (i : ℕ) (p : Proc M) (op : Op) (ops : List Op), s[i]? = some p ∧ p.wait = none ∧ p.todo = op :: ops
  · obtain ⟨i, p, op, ops, hi, hw, ht⟩ := hc
    cases hx : call (env i) p.world op with
    | error e => exact .inr (.inl ⟨i, p, op, ops, e, hi, hw, ht, hx⟩)
    | ok x => exact absurd (Step.call hi hw ht hx) (h _)
  · have hwf : ∀ p ∈ s, p.wait ≠ none ∨ p.Finished := by
      intro p hp
      by_cases hw : p.wait = none
      · refine .inr ⟨?_, hw⟩
        cases ht : p.todo with
        | nil => rfl
        | cons op ops =>
          obtain ⟨i, hi⟩ := List.mem_iff_getElem?.1 hp
          exact absurd ⟨i, p, op, ops, hi, hw, ht⟩ hc
      · exact .inl hw
    by_cases hf : ∃ p ∈ s, p.Finished
    · by_cases hw : ∃ p ∈ s, p.wait ≠ none
      · exact .inr (.inr (.inr ⟨hwf, hw, hf⟩))
      · refine .inl fun p hp => (hwf p hp).resolve_left fun hx => hw ⟨p, hp, hx⟩
    · have hall : ∀ p ∈ s, p.wait ≠ none := fun p hp =>
        (hwf p hp).resolve_right fun hx => hf ⟨p, hp, hx⟩
      cases s with
      | nil => exact .inl (by simp)
      | cons p s =>
        cases hx : together mpi env (p :: s) with
        | error e => exact .inr (.inr (.inl ⟨hall, e, rfl⟩))
        | ok x => exact absurd (Step.train (by simp) hall hx) (h _)

end Apollo.Ranks
