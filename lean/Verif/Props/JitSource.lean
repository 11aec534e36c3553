import Verif.Proofs.CSource
import Verif.Props.TreeIO

/-!
# Property C26 for the text of the source

`C26_trained_partial` and `C26_exact_partial` are about the statements that are written.  Here the text
of the command that is given to the shell is read by an independent reader of the few constructs of the
shell and of C++ that occur (`Verif/Spec/CSource.lean`), and the meaning of what is read is compared.
-/

namespace Apollo.Props

open Apollo Apollo.Spec Apollo.CSrc

/-- C26, the text: for every tree without an infinite threshold in which a right child comes with a left
child, the command compiles, into the library that is opened afterwards, a function with the name that is
looked up afterwards, and for every feature vector calling it has the outcome of `jitPredict`. -/
theorem C26_text (id : ℕ) (t : TreeImpl)
    (hs : ∀ p n l r, subtreeAt t.root p = .node n l r → l = .nil → r = .nil)
    (hfin : ∀ p n l r, subtreeAt t.root p = .node n l r → |n.threshold| ≤ maxFloat) :
    ∃ src body, readCommand (jitCommand id t.root) = some (jitPath id, src) ∧
      readSource src = some (jitSymbol id, body) ∧ ∀ f, body.call f = t.jitPredict f := by
  refine ⟨_, _, readCommand_jitCommand id t.root, readSource_jitSource id t.root ?_, fun f => ?_⟩
  · have : ∀ u : Tree, (∀ p n l r, subtreeAt u p = .node n l r → l = .nil → r = .nil) → LeftFirst u := by
      intro u
      induction u with
      | nil => exact fun _ => trivial
      | node n l r ihl ihr =>
        exact fun h => ⟨h [] n l r rfl, ihl fun p => h (false :: p), ihr fun p => h (true :: p)⟩
    exact this _ hs
  · rw [call_stmtsOf]
    unfold TreeImpl.jitPredict
    rw [if_neg]
    rw [not_not, Tree.all_iff]
    exact (Tree.forall_iff.2 hfin).imp fun n hn => decide_eq_true hn

theorem proper_left : ∀ {u : Tree}, u.Proper → ∀ p n l r, subtreeAt u p = .node n l r → l = .nil → r = .nil := by
    intro u
    induction u with
    | nil => intro _ p n l r h; cases p <;> simp [subtreeAt] at h
    | node m a b iha ihb =>
      intro hu p n l r h hl
      rcases hu with ⟨rfl, rfl, -⟩ | ⟨-, h2, h3⟩
      · cases p with
        | nil =>
          simp only [subtreeAt, Tree.node.injEq] at h
          exact h.2.2.symm
        | cons c p => cases c <;> cases p <;> simp [subtreeAt] at h
      · cases p with
        | nil =>
          simp only [subtreeAt, Tree.node.injEq] at h
          obtain ⟨-, rfl, -⟩ := h
          subst hl
          exact absurd h2 (by simp [Tree.Proper])
        | cons c p =>
          cases c with
          | false => exact iha h2 p n l r h hl
          | true => exact ihb h3 p n l r h hl

/-- C26 for the text of the trees that training builds: what is compiled returns the class that
interpretation returns.

Full statement: for every tree.  Missing: as in `C26_trained_partial`. -/
theorem C26_text_trained_partial (σ : SortFn) (hσ : SortSpec σ) (t0 t : TreeImpl)
    (xs : List Sample) (ht : t0.train σ xs = .ok t) (k : ℕ) (hk : ∀ x ∈ xs, x.1.length = k)
    (hfin : ∀ p n l r, subtreeAt t.root p = .node n l r → |n.threshold| ≤ maxFloat) (id : ℕ) :
    ∃ src body, readCommand (jitCommand id t.root) = some (jitPath id, src) ∧
      readSource src = some (jitSymbol id, body) ∧
      ∀ f : Features, f.length = k → ∃ c, t.predict f = .ok c ∧ body.call f = .ok c := by
  have hp := (trained_const hσ ht hk).1
  obtain ⟨src, body, h1, h2, h3⟩ := C26_text id t (proper_left hp) hfin
  refine ⟨src, body, h1, h2, fun f hf => ?_⟩
  obtain ⟨c, h4, h5⟩ := C26_trained_partial σ hσ t0 t xs ht k hk hfin f hf
  exact ⟨c, h4, by rw [h3, h5]⟩

/-- C26 for the text, part, for all trees of the shape that training builds, whatever their thresholds:
what is compiled and interpretation have the same outcome for every feature vector without a value between
a threshold and its literal.  (Missing: the other vectors, see `C26_fails_loaded`.) -/
theorem C26_between_partial (id : ℕ) (t : TreeImpl) (hp : t.root.Proper)
    (hfin : ∀ p n l r, subtreeAt t.root p = .node n l r → |n.threshold| ≤ maxFloat) :
    ∃ src body, readCommand (jitCommand id t.root) = some (jitPath id, src) ∧
      readSource src = some (jitSymbol id, body) ∧
      ∀ f : Features, (∀ p n l r, subtreeAt t.root p = .node n l r → ∀ v ∈ f,
        (v < n.threshold ∧ v < rnd64 (round6 n.threshold)) ∨
        (n.threshold ≤ v ∧ rnd64 (round6 n.threshold) ≤ v)) → body.call f = t.predict f := by
  obtain ⟨src, body, h1, h2, h3⟩ := C26_text id t (proper_left hp) hfin
  refine ⟨src, body, h1, h2, fun f hf => ?_⟩
  rw [h3]
  unfold TreeImpl.jitPredict
  rw [if_neg]
  · refine run_generate hp (Tree.forall_iff.2 fun p n l r hq _ v hv => ?_)
    have := hf p n l r hq v (List.mem_of_getElem? hv)
    constructor <;> intro h <;> rcases this with ⟨a, b⟩ | ⟨a, b⟩ <;> first | assumption | linarith
  · rw [not_not, Tree.all_iff]
    exact (Tree.forall_iff.2 hfin).imp fun n hn => decide_eq_true hn

/-- The text for a tree with two leaves, and what is read. -/
example : String.ofList (jitSource 7 (twoLeaves (3 / 2)).root) =
    "#include <vector>\nextern \"C\" {\n  int _jit_eval_7(const std::vector<float> &features) {\n    if (features[0] < 1.5) {\n      return 0;\n    }\n    else {\n      return 1;\n    }\n  }\n}\n" := by
  decide +kernel

/-- The hypotheses of `C26_text` are met by this tree. -/
example : (∀ p n l r, subtreeAt (twoLeaves (3 / 2)).root p = .node n l r → l = .nil → r = .nil) ∧
    (∀ p n l r, subtreeAt (twoLeaves (3 / 2)).root p = .node n l r → |n.threshold| ≤ maxFloat) := by
  refine ⟨?_, Tree.forall_iff.1 ?_⟩
  · intro p n l r hp
    match p with
    | [] =>
      simp only [subtreeAt, twoLeaves, Tree.node.injEq] at hp
      obtain ⟨rfl, rfl, rfl⟩ := hp
      simp
    | [false] =>
      simp only [subtreeAt, twoLeaves] at hp
      obtain ⟨rfl, rfl, rfl⟩ := hp
      simp
    | [true] =>
      simp only [subtreeAt, twoLeaves] at hp
      obtain ⟨rfl, rfl, rfl⟩ := hp
      simp
    | false :: b :: p => cases b <;> cases p <;> simp [subtreeAt, twoLeaves] at hp
    | true :: b :: p => cases b <;> cases p <;> simp [subtreeAt, twoLeaves] at hp
  · simp only [twoLeaves, Tree.Forall]
    norm_num [maxFloat]

end Apollo.Props
