import Verif.Proofs.Jit
import Verif.Props.TreeIO

/-!
# Property C72: a compiled tree evaluates its own code
-/

namespace Apollo.Props

open Apollo Apollo.Spec JitMachine

/-- C72: whatever processes do, `predict` of an object with a tree runs the code generated from that
tree. -/
def C72_claim : Prop :=
  ∀ (σ : SortFn), SortSpec σ → ∀ (files : List Char → Option Library) (ops : List (ℕ × JitOp))
    (M : JitMachine), exec σ ops (.start files) = .ok M → ∀ (p a : ℕ) (t : JitTree),
    (M.procs p).objects a = some t → (M.procs p).compiling ≠ some a → t.impl.root ≠ .nil →
    ∀ f, M.predict p a f = t.impl.jitPredict f

/-- C72, part: for all histories of any number of processes in which no other process acts between
writing a library and opening it, objects are trained at most once, and files are read by constructors
only.  The files found at the start are arbitrary.  (Missing: these three cases, in which the property is
false, see `C72_fails_load`, `C72_fails_retrain`, `C72_fails_processes`.) -/
theorem C72_partial {σ : SortFn} {files : List Char → Option Library} {ops : List (ℕ × JitOp)}
    (hu : Undisturbed ops) (ht : TrainedOnce ops) (hl : NeverLoaded ops) {M : JitMachine}
    (he : exec σ ops (.start files) = .ok M) {p a : ℕ} {t : JitTree}
    (hobj : (M.procs p).objects a = some t) (hc : (M.procs p).compiling ≠ some a)
    (hr : t.impl.root ≠ .nil) (f : Features) : M.predict p a f = t.impl.jitPredict f := by
  have h := JitInv.exec ops hu ht hl he
  rcases (h p).code a t hobj hc with ⟨-, h0⟩ | ⟨h1, h2⟩
  · exact absurd h0 hr
  · unfold JitMachine.predict TreeImpl.jitPredict
    rw [hobj]
    dsimp only
    rw [h1, if_neg (not_not.2 h2)]

/-- In such histories opening a library never fails. -/
theorem C72_links {σ : SortFn} {files : List Char → Option Library} {ops : List (ℕ × JitOp)}
    (hu : Undisturbed ops) (ht : TrainedOnce ops) (hl : NeverLoaded ops) {M : JitMachine}
    (he : exec σ ops (.start files) = .ok M) {p a : ℕ} (hc : (M.procs p).compiling = some a) :
    ∃ M', exec σ (ops ++ [(p, .link)]) (.start files) = .ok M' := by
  obtain ⟨M', h⟩ := (JitInv.exec ops hu ht hl he).links (σ := σ) hc
  refine ⟨M', ?_⟩
  rw [exec_append, he, Res.bind_ok]
  change (M.step σ p .link >>= fun M => .ok M) = _
  rw [h, Res.bind_ok]

/-- In such histories, if no tree is read from a file, compiled and interpreted trees agree: with C26. -/
theorem C72_trained_partial {σ : SortFn} (hσ : SortSpec σ) {files : List Char → Option Library}
    {ops : List (ℕ × JitOp)} (hu : Undisturbed ops) (ht : TrainedOnce ops) (hl : NeverLoaded ops)
    (hn : ∀ p a n s, (p, .newLoaded a n s) ∉ ops) {k : ℕ}
    (hk : ∀ p op, (p, op) ∈ ops → ∀ x ∈ op.samples, x.1.length = k) {M : JitMachine}
    (he : exec σ ops (.start files) = .ok M) {p a : ℕ} {t : JitTree}
    (hobj : (M.procs p).objects a = some t) (hc : (M.procs p).compiling ≠ some a)
    (hr : t.impl.root ≠ .nil) {f : Features} (hf : f.length = k) :
    ∃ c, M.predict p a f = .ok c ∧ t.impl.predict f = .ok c := by
  rcases (TreesTrained.exec ops hl hn hk he) p a t hobj with h | ⟨t0, xs, h, hxs⟩
  · exact absurd h hr
  have hfin : ∀ p n l r, subtreeAt t.impl.root p = .node n l r → |n.threshold| ≤ maxFloat := by
    rcases (JitInv.exec ops hu ht hl he p).code a t hobj hc with ⟨-, h0⟩ | ⟨-, h2⟩
    · exact absurd h0 hr
    · rw [Tree.all_iff] at h2
      exact Tree.forall_iff.1 (h2.imp fun n hn => of_decide_eq_true hn)
  obtain ⟨c, h1, h2⟩ := C26_trained_partial σ hσ t0 t.impl xs h k hxs hfin f hf
  exact ⟨c, by rw [C72_partial hu ht hl he hobj hc hr f, h2], h1⟩

theorem jrun_ok {r : Res JitMachine} {q : JitMachine → Prop} [DecidablePred q]
    (h : (match r with | .ok M => decide (q M) | .error _ => false) = true) : ∃ M, r = .ok M ∧ q M := by
  cases r with
  | error e => cases h
  | ok M => exact ⟨M, rfl, of_decide_eq_true h⟩

/-- The text of a file with a tree of two leaves. -/
def twoLeavesText : List Char :=
  match (twoLeaves (3 / 2)).save with
  | .ok s => s
  | .error _ => []

/-- Two processes, one of which trains two trees while the other one reads a tree from a file: a history
as in `C72_partial`. -/
def calmHistory : List (ℕ × JitOp) :=
  [(0, .new 0 2 1), (1, .newLoaded 0 2 twoLeavesText), (1, .link), (0, .new 1 2 1),
    (0, .train 1 [([1], 1)]), (0, .link), (0, .train 0 [([1], 0)]), (0, .link), (1, .new 1 2 1),
    (0, .destroy 1)]

example : ∃ M, exec isort calmHistory (.start fun _ => none) = .ok M ∧
    (M.predict 0 0 [1] = .ok 0 ∧ M.predict 1 0 [1] = .ok 0 ∧ M.predict 1 0 [2] = .ok 1) :=
  jrun_ok (by decide +kernel)

example : Undisturbed calmHistory ∧ TrainedOnce calmHistory ∧ NeverLoaded calmHistory := by
  refine ⟨?_, ?_, ?_⟩
  · simp [Undisturbed, calmHistory, JitOp.Compiles]
  · have h0 : TrainedOnce [] := fun pre p a xs post e => by simp at e
    refine TrainedOnce.concat (xs := calmHistory.take 9) (TrainedOnce.concat (xs := calmHistory.take 8)
      (TrainedOnce.concat (xs := calmHistory.take 7) (TrainedOnce.concat (xs := calmHistory.take 6)
      (TrainedOnce.concat (xs := calmHistory.take 5) (TrainedOnce.concat (xs := calmHistory.take 4)
      (TrainedOnce.concat (xs := calmHistory.take 3) (TrainedOnce.concat (xs := calmHistory.take 2)
      (TrainedOnce.concat (xs := calmHistory.take 1) (TrainedOnce.concat h0 ?_) ?_) ?_) ?_) ?_) ?_)
      ?_) ?_) ?_) ?_ <;> rintro p a zs h <;> cases h
    · exact ⟨calmHistory.take 3, 2, 1, [], rfl, by simp⟩
    · refine ⟨[], 2, 1, (calmHistory.take 6).tail, rfl, ?_⟩
      intro op ho
      simp only [calmHistory, List.take_succ_cons, List.take_zero, List.tail_cons, List.mem_cons,
        Prod.mk.injEq, List.not_mem_nil, or_false] at ho
      rcases ho with ⟨h, -⟩ | ⟨h, -⟩ | ⟨-, rfl⟩ | ⟨-, rfl⟩ | ⟨-, rfl⟩ <;>
        first | exact absurd h (by decide) | simp [JitOp.CompilesAt]
  · simp [NeverLoaded, calmHistory]

/-- A tree read by `load` is not compiled: predicting calls a pointer that was never assigned. -/
theorem C72_fails_load : ∃ M, exec isort [(0, .new 0 2 1), (0, .load 0 twoLeavesText)]
      (.start fun _ => none) = .ok M ∧
    (((M.procs 0).objects 0).map (fun t => t.impl.predict [1]) = some (.ok 0) ∧
      M.predict 0 0 [1] = .error (.ub .uninit)) :=
  jrun_ok (by decide +kernel)

/-- After a second training the library of the first one is still loaded under the same name, and its
code is used. -/
theorem C72_fails_retrain : ∃ M, exec isort [(0, .new 0 2 1), (0, .train 0 [([1], 1)]), (0, .link),
      (0, .train 0 [([1], 0)]), (0, .link)] (.start fun _ => none) = .ok M ∧
    (((M.procs 0).objects 0).map (fun t => t.impl.predict [1]) = some (.ok 0) ∧
      M.predict 0 0 [1] = .ok 1) :=
  jrun_ok (by decide +kernel)

/-- Two processes of one machine, such as two ranks of an MPI program, write their first trees to the same
file: one of them can load the tree of the other one. -/
theorem C72_fails_processes : ∃ M, exec isort [(0, .newTrained 0 2 1 [([1], 0)]),
      (1, .newTrained 0 2 1 [([1], 1)]), (0, .link), (1, .link)] (.start fun _ => none) = .ok M ∧
    (((M.procs 0).objects 0).map (fun t => (t.impl.predict [1], t.impl.jitPredict [1])) =
        some (.ok 0, .ok 0) ∧
      (M.procs 0).compiling = none ∧
      M.predict 0 0 [1] = .ok 1) :=
  jrun_ok (by decide +kernel)

/-- One process can remove the file of another one before it is opened: the other one aborts. -/
theorem C72_fails_abort : exec isort [(0, .newTrained 0 2 1 [([1], 0)]), (0, .link),
      (1, .newTrained 0 2 1 [([1], 1)]), (0, .destroy 0), (1, .link)] (.start fun _ => none) =
    .error .abort := by
  have : ∀ r : Res JitMachine, (match r with | .error .abort => true | _ => false) = true →
      r = .error .abort := by
    intro r h
    split at h
    · rfl
    · cases h
  exact this _ (by decide +kernel)

theorem C72_fails : ¬ C72_claim := by
  intro h
  obtain ⟨M, he, h1, hc, h2⟩ := C72_fails_processes
  cases ho : (M.procs 0).objects 0 with
  | none => rw [ho] at h1; cases h1
  | some t =>
    rw [ho] at h1
    simp only [Option.map_some, Option.some.injEq, Prod.mk.injEq] at h1
    have hr : t.impl.root ≠ .nil := by
      intro e
      have := h1.1
      unfold TreeImpl.predict at this
      rw [e] at this
      cases this
    have := h isort isort_spec _ _ M he 0 0 t ho (by rw [hc]; simp) hr [1]
    rw [h2, h1.2] at this
    cases this

end Apollo.Props
