import Verif.Proofs.TreeTrain
import Verif.Proofs.TreeShape
import Verif.Proofs.Parser
import Verif.Model.TreeIO
import Mathlib.Data.List.Sort

/-!
# Trees as objects: invariants over training and loading
-/

namespace Apollo

open Spec

/-- The property holds of every result of the parser action. -/
def Post {α : Type} (f : P α) (q : α → Prop) : Prop := ∀ s a s', f s = .ok (a, s') → q a

namespace Post

variable {α β : Type}

theorem bind {f : P α} {g : α → P β} {q : α → Prop} {r : β → Prop} (hf : Post f q)
    (hg : ∀ a, q a → Post (g a) r) : Post (f >>= g) r := by
  intro s b s' h
  rw [P.bind_apply] at h
  obtain ⟨⟨a, s1⟩, h1, h2⟩ := (Res.bind_eq_ok _ _ _).1 h
  exact hg a (hf s a s1 h1) s1 b s' h2

theorem bindT {f : P α} {g : α → P β} {r : β → Prop} (hg : ∀ a, Post (g a) r) :
    Post (f >>= g) r := bind (q := fun _ => True) (fun _ _ _ _ => trivial) (fun a _ => hg a)

theorem pure {a : α} {q : α → Prop} (h : q a) : Post (pure a) q := by
  intro s a' s' he
  rw [P.pure_apply] at he
  simp only [Except.ok.injEq, Prod.mk.injEq] at he
  rw [← he.1]; exact h

theorem ite {c : Prop} [Decidable c] {f g : P α} {q : α → Prop} (hf : Post f q) (hg : Post g q) :
    Post (if c then f else g) q := by
  split <;> assumption

theorem fail {e : Err} {q : α → Prop} : Post (P.fail e : P α) q := by
  intro s a s' h
  rw [P.fail_apply] at h
  simp at h

end Post

theorem parseClasses_sorted (fuel : ℕ) : ∀ {acc : List ℤ}, acc.Pairwise (· < ·) →
    Post (parseClasses fuel acc) (fun cs => cs.Pairwise (· < ·)) := by
  induction fuel with
  | zero => intro acc _; exact Post.fail
  | succ fuel ih =>
    intro acc h
    unfold parseClasses
    refine Post.bindT fun b => Post.ite (Post.pure h) ?_
    refine Post.bindT fun c => Post.bindT fun _ => ih (setInsert_sorted h)

theorem parseTree_sorted (fuel : ℕ) {t : TreeImpl} (h : t.classes.Pairwise (· < ·)) :
    Post (parseTree fuel t) (fun t => t.classes.Pairwise (· < ·)) := by
  unfold parseTree
  refine Post.bindT fun _ => Post.bindT fun _ => Post.bindT fun _ => Post.bindT fun _ =>
    Post.bindT fun _ => Post.bind (parseClasses_sorted fuel h) fun cs hcs => ?_
  exact Post.bindT fun _ => Post.bindT fun _ => Post.bindT fun _ => Post.bindT fun _ =>
    Post.bindT fun _ => Post.pure hcs

theorem TreeImpl.load_sorted {t t' : TreeImpl} {s : List Char} (h : t.classes.Pairwise (· < ·))
    (hl : t.load s = .ok t') : t'.classes.Pairwise (· < ·) := by
  unfold TreeImpl.load at hl
  obtain ⟨⟨t1, s1⟩, h1, h2⟩ := (Res.bind_eq_ok _ _ _).1 hl
  simp only [Except.ok.injEq] at h2
  rw [← h2]
  exact parseTree_sorted _ h _ _ _ h1

/-- What `train` does. -/
theorem TreeImpl.train_ok_iff {σ : SortFn} {t t' : TreeImpl} {xs : List Sample} :
    t.train σ xs = .ok t' ↔ ∃ x rest root data, xs = x :: rest ∧
      buildTree σ (setInsertAll (xs.map Prod.snd) t.classes) t.maxDepth xs = .ok (root, data) ∧
      t' = { t with
        data := data, classes := setInsertAll (xs.map Prod.snd) t.classes, root := root,
        numFeatures := x.1.length } := by
  unfold TreeImpl.train
  cases xs with
  | nil => simp
  | cons x rest =>
    constructor
    · intro h
      obtain ⟨⟨root, data⟩, h1, h2⟩ := (Res.bind_eq_ok _ _ _).1 h
      simp only [Except.ok.injEq] at h2
      exact ⟨x, rest, root, data, rfl, h1, h2.symm⟩
    · rintro ⟨x', rest', root, data, he, h1, h2⟩
      rw [List.cons.injEq] at he
      obtain ⟨rfl, rfl⟩ := he
      exact (Res.bind_eq_ok _ _ _).2 ⟨(root, data), h1, by rw [h2]⟩

theorem TreeImpl.train_sorted {σ : SortFn} {t t' : TreeImpl} {xs : List Sample}
    (h : t.classes.Pairwise (· < ·)) (ht : t.train σ xs = .ok t') :
    t'.classes.Pairwise (· < ·) := by
  obtain ⟨x, rest, root, data, -, -, rfl⟩ := TreeImpl.train_ok_iff.1 ht
  exact setInsertAll_sorted h

theorem mem_classes_of_train {t : TreeImpl} {xs : List Sample} :
    ∀ x ∈ xs, x.2 ∈ setInsertAll (xs.map Prod.snd) t.classes := fun x hx =>
  mem_setInsertAll.2 (Or.inl (List.mem_map.2 ⟨x, hx, rfl⟩))

/-- A sort that satisfies the specification. -/
def isort : SortFn := fun i xs => xs.insertionSort (fun a b => feat a i ≤ feat b i)

theorem isort_spec : SortSpec isort := by
  intro i xs
  have : IsTrans Sample (fun a b => feat a i ≤ feat b i) := ⟨fun _ _ _ h h' => le_trans h h'⟩
  have : Std.Total (fun a b : Sample => feat a i ≤ feat b i) := ⟨fun _ _ => le_total _ _⟩
  exact ⟨List.perm_insertionSort _ xs, List.pairwise_insertionSort _ xs⟩

end Apollo
