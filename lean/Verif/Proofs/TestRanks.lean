import Verif.Proofs.TestRuns
import Verif.Proofs.RanksData
import Verif.Props.CollectiveRun
import Verif.Props.Ranks

/-!
# The test program on several ranks
-/

namespace Apollo.Ranks

open Apollo Apollo.Collective Apollo.Spec Apollo.Props

variable {M : Type} {mpi : Mpi} {env : ℕ → Env M}

theorem Run.trans {n m : ℕ} {a b c : List (Proc M)} (h : Run mpi env n a b) (h' : Run mpi env m b c) :
    ∃ k, Run mpi env k a c := by
  induction h with
  | refl => exact ⟨_, h'⟩
  | step h1 _ ih =>
    obtain ⟨k, hk⟩ := ih h'
    exact ⟨k + 1, .step h1 hk⟩

/-- Rank `i` gets from one state to another without the other ranks. -/
def Alone (mpi : Mpi) (env : ℕ → Env M) (i : ℕ) (p p' : Proc M) : Prop :=
  ∀ s : List (Proc M), s[i]? = some p → ∃ k, Run mpi env k s (s.set i p')

theorem Alone.trans {i : ℕ} {p p' p'' : Proc M} (h : Alone mpi env i p p') (h' : Alone mpi env i p' p'') :
    Alone mpi env i p p'' := by
  intro s hs
  obtain ⟨k, hk⟩ := h s hs
  have hi : i < s.length := (List.getElem?_eq_some_iff.1 hs).1
  obtain ⟨k', hk'⟩ := h' (s.set i p') (by simp [hi])
  rw [List.set_set] at hk'
  exact hk.trans hk'

theorem alone_train {i : ℕ} {w : World M} {st : ℤ} {c : Bool} {rest : List Op} (h : w.cfg.collective = true) :
    Alone mpi env i ⟨w, .trainAll st c :: rest, none⟩ ⟨w, rest, some (.train st c)⟩ := by
  intro s hs
  refine ⟨1, .step (.call hs rfl rfl ?_) (.refl _)⟩
  simp [call, h]

theorem alone_ops {i : ℕ} : ∀ {ops : List Op} {w w' : World M} {rets : List Ret} {rest : List Op},
    Explicit w → (∀ op ∈ ops, ∀ s c, op ≠ .trainAll s c) → results (env i) ops w = .ok (rets, w') →
    Alone mpi env i ⟨w, ops ++ rest, none⟩ ⟨w', rest, none⟩ := by
  intro ops
  induction ops with
  | nil =>
    intro w w' rets rest _ _ h s hs
    cases h
    refine ⟨0, ?_⟩
    have : s.set i ⟨w, [] ++ rest, none⟩ = s := by
      obtain ⟨hi, e⟩ := List.getElem?_eq_some_iff.1 hs
      rw [← e, List.set_getElem_self]
    have e : (⟨w, rest, none⟩ : Proc M) = ⟨w, [] ++ rest, none⟩ := rfl
    rw [e, this]
    exact .refl _
  | cons op ops ih =>
    intro w w' rets rest hex hops h
    rw [results] at h
    obtain ⟨⟨x, w1⟩, h1, h2⟩ := (Res.bind_eq_ok _ _ _).1 h
    obtain ⟨⟨xs, w2⟩, h3, h4⟩ := (Res.bind_eq_ok _ _ _).1 h2
    cases h4
    have hc : call (env i) w op = .ok (w1, none) := by
      rw [call_eq_step _ _ _ (.inr ⟨hex.2, hops op List.mem_cons_self⟩), h1]
      rfl
    have hstep : Alone mpi env i ⟨w, op :: (ops ++ rest), none⟩ ⟨w1, ops ++ rest, none⟩ := fun s hs =>
      ⟨1, .step (.call hs rfl rfl hc) (.refl _)⟩
    have hex1 : Explicit w1 := by
      have := (Explicit.invariant (env i) fun _ => True).exec (ops := [op]) (w' := w1) (fun _ _ _ _ => trivial) hex
      refine this ?_
      rw [exec, h1]
      rfl
    exact hstep.trans (ih hex1 (fun o ho => hops o (List.mem_cons_of_mem _ ho)) h3)

/-- All ranks by themselves. -/
theorem all_alone {P : ℕ} {g g' : ℕ → Proc M} (h : ∀ i < P, Alone mpi env i (g i) (g' i)) :
    ∃ k, Run mpi env k ((List.range P).map g) ((List.range P).map g') := by
  have key : ∀ k ≤ P, ∃ n, Run mpi env n ((List.range P).map g)
      ((List.range P).map fun i => if i < k then g' i else g i) := by
    intro k
    induction k with
    | zero => exact fun _ => ⟨0, by simp; exact .refl _⟩
    | succ k ih =>
      intro hk
      obtain ⟨n, hn⟩ := ih (by omega)
      obtain ⟨m, hm⟩ := h k (by omega) ((List.range P).map fun i => if i < k then g' i else g i)
        (by rw [List.getElem?_map, List.getElem?_range (by omega)]; simp)
      have e : ((List.range P).map fun i => if i < k then g' i else g i).set k (g' k) =
          (List.range P).map fun i => if i < k + 1 then g' i else g i := by
        refine List.ext_getElem (by simp) fun j h1 h2 => ?_
        rw [List.getElem_set]
        simp only [List.getElem_map, List.getElem_range]
        split
        next e => subst e; simp
        next e =>
          by_cases hj : j < k
          · rw [if_pos hj, if_pos (by omega)]
          · rw [if_neg hj, if_neg (by omega)]
      rw [e] at hm
      exact hn.trans hm
  obtain ⟨n, hn⟩ := key P le_rfl
  refine ⟨n, ?_⟩
  have e : ((List.range P).map fun i => if i < P then g' i else g i) = (List.range P).map g' := by
    refine List.map_congr_left fun i hi => ?_
    rw [if_pos (List.mem_range.1 hi)]
  rwa [e] at hn

theorem views_map {w : ℕ → World M} {v : ℕ → Registry} : ∀ {l : List ℕ},
    (∀ i ∈ l, viewOf (w i) (w i).registry = .ok (v i)) → views (l.map w) = .ok (l.map v) := by
  intro l
  induction l with
  | nil => exact fun _ => rfl
  | cons i l ih =>
    intro h
    rw [List.map_cons, List.map_cons, views, h i List.mem_cons_self, Res.bind_ok,
      ih fun j hj => h j (List.mem_cons_of_mem _ hj), Res.bind_ok]

theorem proceedAll_map {ms : List Msg} {v : ℕ → Registry} {g g' : ℕ → Proc M} : ∀ {n a : ℕ},
    (∀ i, a ≤ i → i < a + n → proceed (env i) ms i (v i) (g i) = .ok (g' i)) →
    proceedAll env ms a ((List.range' a n).map v) ((List.range' a n).map g) = .ok ((List.range' a n).map g') := by
  intro n
  induction n with
  | zero => exact fun _ => rfl
  | succ n ih =>
    intro a h
    rw [List.range'_succ, List.map_cons, List.map_cons, List.map_cons, proceedAll, h a le_rfl (by omega),
      Res.bind_ok, ih fun i h1 h2 => h i (by omega) (by omega), Res.bind_ok]

theorem together_map {P : ℕ} {ms : List Msg} {v : ℕ → Registry} {g g' : ℕ → Proc M}
    (hv : ∀ i < P, viewOf (g i).world (g i).world.registry = .ok (v i))
    (hm : received mpi ((List.range P).map v) = .ok ms)
    (hp : ∀ i < P, proceed (env i) ms i (v i) (g i) = .ok (g' i)) :
    together mpi env ((List.range P).map g) = .ok ((List.range P).map g') := by
  unfold together
  rw [List.map_map, views_map (w := Proc.world ∘ g) (v := v) fun i hi => hv i (List.mem_range.1 hi), Res.bind_ok,
    hm, Res.bind_ok, List.range_eq_range']
  exact proceedAll_map fun i _ hi => hp i (by omega)

theorem received_of_gather {vs vs' : List Registry} (h : gather mpi vs = .ok vs') :
    ∃ ms, received mpi vs = .ok ms ∧ vs' = absorbAll ms 0 vs := by
  unfold gather at h
  unfold received
  obtain ⟨bufs, h1, h⟩ := (Res.bind_eq_ok _ _ _).1 h
  rw [h1, Res.bind_ok]
  simp only at h ⊢
  split at h
  · cases h
  next hc =>
    rw [if_neg hc]
    obtain ⟨ms, h2, h3⟩ := (Res.bind_eq_ok _ _ _).1 h
    cases h3
    exact ⟨ms, h2, rfl⟩

end Apollo.Ranks
