import Verif.Spec.Jit
import Verif.Proofs.DecimalRange

/-!
# Compiled trees: invariants of histories
-/

namespace Apollo

open JitMachine Spec

theorem jitSymbol_inj {m n : ℕ} (h : jitSymbol m = jitSymbol n) : m = n := by
  have h1 := readInt_fmtInt m [] (by simp)
  have h2 := readInt_fmtInt n [] (by simp)
  rw [List.append_cancel_left h] at h1
  rw [h1] at h2
  simpa using h2

theorem jitPath_inj {m n : ℕ} (h : jitPath m = jitPath n) : m = n := by
  unfold jitPath at h
  exact jitSymbol_inj (List.append_cancel_left (List.append_cancel_right h))

theorem jitPath_ne {m n : ℕ} (h : m ≠ n) : jitPath m ≠ jitPath n := fun e => h (jitPath_inj e)

namespace JitMachine

theorem exec_append (σ : SortFn) (xs ys : List (ℕ × JitOp)) (M : JitMachine) :
    exec σ (xs ++ ys) M = exec σ xs M >>= fun M => exec σ ys M := by
  induction xs generalizing M with
  | nil => rfl
  | cons x xs ih =>
    simp only [List.cons_append, exec, bind_assoc]
    exact bind_congr fun M => ih M

theorem exec_concat {σ : SortFn} {xs : List (ℕ × JitOp)} {x : ℕ × JitOp} {M M' : JitMachine}
    (h : exec σ (xs ++ [x]) M = .ok M') : ∃ M1, exec σ xs M = .ok M1 ∧ M1.step σ x.1 x.2 = .ok M' := by
  rw [exec_append] at h
  obtain ⟨M1, h1, h⟩ := (Res.bind_eq_ok _ _ _).1 h
  refine ⟨M1, h1, ?_⟩
  obtain ⟨p, op⟩ := x
  unfold exec at h
  obtain ⟨M2, h2, h⟩ := (Res.bind_eq_ok _ _ _).1 h
  cases h
  exact h2

end JitMachine

theorem Spec.Blank.concat {ops : List (ℕ × JitOp)} {p a : ℕ} {x : ℕ × JitOp} (h : Blank (ops ++ [x]) p a) :
    (∃ n d, x = (p, .new a n d)) ∨ (Blank ops p a ∧ ∀ op, x = (p, op) → ¬ op.CompilesAt a) := by
  obtain ⟨pre, n, d, post, e, hp⟩ := h
  rcases post.eq_nil_or_concat with rfl | ⟨post', y, rfl⟩
  · obtain ⟨-, h⟩ := List.append_inj' e (by simp)
    exact Or.inl ⟨n, d, by simpa using h⟩
  · rw [List.concat_eq_append, ← List.cons_append, ← List.append_assoc] at e
    obtain ⟨h1, h2⟩ := List.append_inj' e (by simp)
    simp only [List.cons.injEq, and_true] at h2
    subst h2
    refine Or.inr ⟨⟨pre, n, d, post', h1, fun op ho => hp op (by simp [ho])⟩, fun op ho => hp op ?_⟩
    simp [ho]

theorem Spec.Blank.other {ops : List (ℕ × JitOp)} {p q a : ℕ} {op : JitOp} (hq : q ≠ p)
    (h : Blank (ops ++ [(p, op)]) q a) : Blank ops q a := by
  rcases h.concat with ⟨n, d, e⟩ | ⟨h, -⟩
  · rw [Prod.mk.injEq] at e
    exact absurd e.1.symm hq
  · exact h

theorem JitOp.CompilesAt.compiles {a : ℕ} {op : JitOp} (h : op.CompilesAt a) : op.Compiles := by
  cases op <;> trivial

/-- What holds of a process between steps. -/
structure ProcInv (ops : List (ℕ × JitOp)) (p : ℕ) (P : JitProcess)
    (files : List Char → Option Library) : Prop where
  loaded : ∀ path lib, P.loaded path = some lib → ∃ n, n ≤ P.counter ∧ path = jitPath n
  ids : ∀ a t, P.objects a = some t → t.id ≤ P.counter
  distinct : ∀ a b t u, P.objects a = some t → P.objects b = some u → t.id = u.id → a = b
  blank : ∀ a t, P.objects a = some t → P.compiling ≠ some a → Blank ops p a →
    P.loaded (jitPath t.id) = none
  code : ∀ a t, P.objects a = some t → P.compiling ≠ some a →
    (t.fn = none ∧ t.impl.root = .nil) ∨ (t.fn = some (generateSource t.impl.root) ∧
      t.impl.root.all (fun n => |n.threshold| ≤ maxFloat) = true)
  compiling : ∀ a, P.compiling = some a →
    (∃ pre op, ops = pre ++ [(p, op)] ∧ op.CompilesAt a) ∧
    ∃ t, P.objects a = some t ∧ P.loaded (jitPath t.id) = none ∧
      files (jitPath t.id) = some ⟨jitSymbol t.id, generateSource t.impl.root⟩ ∧
      t.impl.root.all (fun n => |n.threshold| ≤ maxFloat) = true

namespace ProcInv

variable {ops : List (ℕ × JitOp)} {p : ℕ} {P : JitProcess} {files : List Char → Option Library}

theorem start (p : ℕ) (files : List Char → Option Library) : ProcInv [] p .start files where
  loaded _ _ h := by cases h
  ids _ _ h := by cases h
  distinct _ _ _ _ h := by cases h
  blank _ _ h := by cases h
  code _ _ h := by cases h
  compiling _ h := by cases h

/-- A step of another process. -/
theorem other (h : ProcInv ops p P files) (hc : P.compiling = none) {q : ℕ} (hq : p ≠ q) (op : JitOp)
    (files' : List Char → Option Library) : ProcInv (ops ++ [(q, op)]) p P files' where
  loaded := h.loaded
  ids := h.ids
  distinct := h.distinct
  blank a t ha hca hb := h.blank a t ha hca (hb.other hq)
  code := h.code
  compiling a ha := by rw [hc] at ha; cases ha

theorem fresh_loaded (h : ProcInv ops p P files) : P.loaded (jitPath (P.counter + 1)) = none := by
  cases e : P.loaded (jitPath (P.counter + 1)) with
  | none => rfl
  | some lib =>
    obtain ⟨n, hn, e⟩ := h.loaded _ _ e
    have := jitPath_inj e
    omega

theorem fresh_id (h : ProcInv ops p P files) (b : ℕ) (u : JitTree) (hu : P.objects b = some u) :
    P.counter + 1 ≠ u.id := by
  have := h.ids _ _ hu
  omega

/-- Distinct numbers after one object was put at an address. -/
theorem distinct_update (h : ProcInv ops p P files) {a : ℕ} {t : JitTree}
    (hd : ∀ b u, P.objects b = some u → b ≠ a → t.id ≠ u.id) (b c : ℕ) (u v : JitTree)
    (hu : Function.update P.objects a (some t) b = some u)
    (hv : Function.update P.objects a (some t) c = some v) (huv : u.id = v.id) : b = c := by
  by_cases eb : b = a <;> by_cases ec : c = a
  · rw [eb, ec]
  · subst eb
    rw [Function.update_self] at hu
    rw [Function.update_of_ne ec] at hv
    cases hu
    exact absurd huv (hd _ _ hv ec)
  · subst ec
    rw [Function.update_self] at hv
    rw [Function.update_of_ne eb] at hu
    cases hv
    exact absurd huv.symm (hd _ _ hu eb)
  · rw [Function.update_of_ne eb] at hu
    rw [Function.update_of_ne ec] at hv
    exact h.distinct _ _ _ _ hu hv huv

theorem ids_update (h : ProcInv ops p P files) {a n : ℕ} {t : JitTree} (hn : P.counter ≤ n)
    (ht : t.id ≤ n) (b : ℕ) (u : JitTree)
    (hu : Function.update P.objects a (some t) b = some u) : u.id ≤ n := by
  by_cases eb : b = a
  · subst eb
    rw [Function.update_self] at hu
    cases hu
    exact ht
  · rw [Function.update_of_ne eb] at hu
    exact (h.ids _ _ hu).trans hn

theorem loaded_le (h : ProcInv ops p P files) {n : ℕ} (hn : P.counter ≤ n) (path : List Char)
    (lib : Library) (hl : P.loaded path = some lib) : ∃ m, m ≤ n ∧ path = jitPath m := by
  obtain ⟨m, hm, e⟩ := h.loaded _ _ hl
  exact ⟨m, hm.trans hn, e⟩

/-- A library is written. -/
theorem compile (h : ProcInv ops p P files) (hc : P.compiling = none) {op : JitOp} {a n : ℕ}
    {t : JitTree} (hop : op.CompilesAt a) (hn : P.counter ≤ n) (hid : t.id ≤ n)
    (hfree : P.loaded (jitPath t.id) = none)
    (hd : ∀ b u, P.objects b = some u → b ≠ a → t.id ≠ u.id)
    (hfin : t.impl.root.all (fun n => |n.threshold| ≤ maxFloat) = true) :
    ProcInv (ops ++ [(p, op)]) p
      ⟨n, P.loaded, Function.update P.objects a (some t), some a⟩
      (Function.update files (jitPath t.id) (some ⟨jitSymbol t.id, generateSource t.impl.root⟩)) where
  loaded := h.loaded_le hn
  ids := h.ids_update hn hid
  distinct := h.distinct_update hd
  blank b u hu hcb hb := by
    have eb : b ≠ a := fun e => hcb (by rw [e])
    dsimp only at hu ⊢
    rw [Function.update_of_ne eb] at hu
    refine h.blank _ _ hu (by rw [hc]; simp) ?_
    rcases hb.concat with ⟨n, d, e⟩ | ⟨hb, -⟩
    · rw [Prod.mk.injEq] at e
      rw [e.2] at hop
      exact hop.elim
    · exact hb
  code b u hu hcb := by
    have eb : b ≠ a := fun e => hcb (by rw [e])
    dsimp only at hu
    rw [Function.update_of_ne eb] at hu
    exact h.code _ _ hu (by rw [hc]; simp)
  compiling b hb := by
    cases hb
    exact ⟨⟨ops, op, rfl, hop⟩, t, Function.update_self .., hfree, Function.update_self .., hfin⟩

/-- A library is opened. -/
theorem link (h : ProcInv ops p P files) {a : ℕ} {t : JitTree} (hc : P.compiling = some a)
    (hobj : P.objects a = some t) {lib : Library}
    (hlib : lib.code = generateSource t.impl.root)
    (hfin : t.impl.root.all (fun n => |n.threshold| ≤ maxFloat) = true) :
    ProcInv (ops ++ [(p, .link)]) p
      ⟨P.counter, Function.update P.loaded (jitPath t.id) (some lib),
        Function.update P.objects a (some { t with fn := some lib.code }), none⟩ files where
  loaded path l hl := by
    by_cases ep : path = jitPath t.id
    · exact ⟨t.id, h.ids _ _ hobj, ep⟩
    · dsimp only at hl
      rw [Function.update_of_ne ep] at hl
      exact h.loaded _ _ hl
  ids := h.ids_update (le_refl _) (h.ids _ t hobj)
  distinct := h.distinct_update fun b u hu hb e => hb (h.distinct _ _ _ _ hu hobj e.symm)
  blank b u hu _ hb := by
    have hb' : Blank ops p b := by
      rcases hb.concat with ⟨n, d, e⟩ | ⟨hb, -⟩
      · simp at e
      · exact hb
    by_cases eb : b = a
    · subst eb
      obtain ⟨⟨pre, op, rfl, ho⟩, -⟩ := h.compiling _ hc
      rcases hb'.concat with ⟨n, d, e⟩ | ⟨-, hn⟩
      · rw [Prod.mk.injEq] at e
        rw [e.2] at ho
        exact ho.elim
      · exact absurd ho (hn op rfl)
    · dsimp only at hu ⊢
      rw [Function.update_of_ne eb] at hu
      rw [Function.update_of_ne (jitPath_ne fun e => eb (h.distinct _ _ _ _ hu hobj e))]
      exact h.blank _ _ hu (by rw [hc]; simpa using Ne.symm eb) hb'
  code b u hu _ := by
    dsimp only at hu
    by_cases eb : b = a
    · subst eb
      rw [Function.update_self] at hu
      cases hu
      exact Or.inr ⟨by rw [hlib], hfin⟩
    · rw [Function.update_of_ne eb] at hu
      exact h.code _ _ hu (by rw [hc]; simpa using Ne.symm eb)
  compiling b hb := by cases hb

/-- An object without a tree is constructed. -/
theorem new (h : ProcInv ops p P files) (hc : P.compiling = none) (a : ℕ) (n : ℤ) (d : ℕ) :
    ProcInv (ops ++ [(p, .new a n d)]) p
      ⟨P.counter + 1, P.loaded,
        Function.update P.objects a (some ⟨.new n d, P.counter + 1, none⟩), none⟩ files where
  loaded := h.loaded_le (Nat.le_succ _)
  ids := h.ids_update (Nat.le_succ _) (le_refl _)
  distinct := h.distinct_update fun b u hu _ => h.fresh_id b u hu
  blank b u hu _ hb := by
    dsimp only at hu ⊢
    by_cases eb : b = a
    · subst eb
      rw [Function.update_self] at hu
      cases hu
      exact h.fresh_loaded
    · rw [Function.update_of_ne eb] at hu
      refine h.blank _ _ hu (by rw [hc]; simp) ?_
      rcases hb.concat with ⟨n, d, e⟩ | ⟨hb, -⟩
      · simp only [Prod.mk.injEq, JitOp.new.injEq, true_and] at e
        exact absurd e.1.symm eb
      · exact hb
  code b u hu _ := by
    dsimp only at hu
    by_cases eb : b = a
    · subst eb
      rw [Function.update_self] at hu
      cases hu
      exact Or.inl ⟨rfl, rfl⟩
    · rw [Function.update_of_ne eb] at hu
      exact h.code _ _ hu (by rw [hc]; simp)
  compiling b hb := by cases hb

/-- An object is destroyed. -/
theorem destroy (h : ProcInv ops p P files) (hc : P.compiling = none) (a : ℕ)
    (files' : List Char → Option Library) :
    ProcInv (ops ++ [(p, .destroy a)]) p
      ⟨P.counter, P.loaded, Function.update P.objects a none, none⟩ files' := by
  have hsub : ∀ b u, Function.update P.objects a none b = some u → P.objects b = some u := by
    intro b u hu
    by_cases eb : b = a
    · subst eb
      rw [Function.update_self] at hu
      cases hu
    · rwa [Function.update_of_ne eb] at hu
  refine ⟨h.loaded, fun b u hu => h.ids _ _ (hsub _ _ hu),
    fun b c u v hu hv => h.distinct _ _ _ _ (hsub _ _ hu) (hsub _ _ hv), fun b u hu hcb hb => ?_,
    fun b u hu _ => h.code _ _ (hsub _ _ hu) (by rw [hc]; simp), fun b hb => by cases hb⟩
  · refine h.blank _ _ (hsub _ _ hu) (by rw [hc]; simp) ?_
    rcases hb.concat with ⟨n, d, e⟩ | ⟨hb, -⟩
    · simp at e
    · exact hb

end ProcInv

/-- What holds of a machine between steps. -/
def JitInv (ops : List (ℕ × JitOp)) (M : JitMachine) : Prop :=
  ∀ p, ProcInv ops p (M.procs p) M.files

/-- One step of a process, when no other process is compiling. -/
theorem JitInv.step {σ : SortFn} {ops : List (ℕ × JitOp)} {M M' : JitMachine} (h : JitInv ops M)
    {p : ℕ} {op : JitOp} (hs : M.step σ p op = .ok M')
    (hq : ∀ q, q ≠ p → (M.procs q).compiling = none)
    (ht : ∀ a xs, op = .train a xs → Blank ops p a) (hl : ∀ a s, op ≠ .load a s) :
    JitInv (ops ++ [(p, op)]) M' := by
  suffices H : ∃ P files, M' = ⟨files, Function.update M.procs p P⟩ ∧
      ProcInv (ops ++ [(p, op)]) p P files by
    obtain ⟨P, files, rfl, hP⟩ := H
    intro q
    dsimp only
    by_cases e : q = p
    · subst e
      rw [Function.update_self]
      exact hP
    · rw [Function.update_of_ne e]
      exact (h q).other (hq q e) e op files
  have hcompile : ∀ {a n : ℕ} {t : JitTree} {P : JitProcess}, (M.procs p).compiling = none →
      M.compile p a P t = .ok M' → op.CompilesAt a →
      P.loaded = (M.procs p).loaded → P.objects = (M.procs p).objects → P.counter = n →
      (M.procs p).counter ≤ n → t.id ≤ n →
      (M.procs p).loaded (jitPath t.id) = none →
      (∀ b u, (M.procs p).objects b = some u → b ≠ a → t.id ≠ u.id) →
      ∃ P files, M' = ⟨files, Function.update M.procs p P⟩ ∧
        ProcInv (ops ++ [(p, op)]) p P files := by
    intro a n t P hc hM hop h1 h2 h3 hn hid hfree hd
    unfold JitMachine.compile at hM
    split at hM
    · cases hM
    rename_i hfin
    rw [not_not] at hfin
    cases hM
    have := (h p).compile hc hop hn hid hfree hd hfin
    rw [← h1, ← h2, ← h3] at this
    exact ⟨_, _, rfl, this⟩
  unfold JitMachine.step at hs
  dsimp only at hs
  cases hc : (M.procs p).compiling with
  | some a =>
    rw [hc] at hs
    cases op with
    | link =>
      dsimp only at hs
      obtain ⟨-, t, hobj, hfree, hfile, hfin⟩ := (h p).compiling _ hc
      rw [hobj] at hs
      dsimp only at hs
      unfold JitMachine.link JitMachine.dlopen at hs
      rw [hfree] at hs
      dsimp only at hs
      rw [hfile] at hs
      dsimp only at hs
      rw [if_pos rfl] at hs
      cases hs
      exact ⟨_, _, rfl, (h p).link hc hobj rfl hfin⟩
    | _ => cases hs
  | none =>
    rw [hc] at hs
    cases op with
    | link => cases hs
    | new a n d =>
      dsimp only at hs
      split at hs
      · cases hs
      · cases hs
        have := (h p).new hc a n d
        exact ⟨_, _, rfl, this⟩
    | newTrained a n d xs =>
      dsimp only at hs
      split at hs
      · cases hs
      obtain ⟨impl, -, hs⟩ := (Res.bind_eq_ok _ _ _).1 hs
      exact hcompile hc hs rfl rfl rfl rfl (Nat.le_succ _) (le_refl _) (h p).fresh_loaded
        fun b u hu _ => (h p).fresh_id b u hu
    | newLoaded a n s =>
      dsimp only at hs
      split at hs
      · cases hs
      obtain ⟨impl, -, hs⟩ := (Res.bind_eq_ok _ _ _).1 hs
      exact hcompile hc hs rfl rfl rfl rfl (Nat.le_succ _) (le_refl _) (h p).fresh_loaded
        fun b u hu _ => (h p).fresh_id b u hu
    | train a xs =>
      dsimp only at hs
      cases hobj : (M.procs p).objects a with
      | none => rw [hobj] at hs; cases hs
      | some t =>
        rw [hobj] at hs
        dsimp only at hs
        obtain ⟨impl, -, hs⟩ := (Res.bind_eq_ok _ _ _).1 hs
        exact hcompile hc hs rfl rfl rfl rfl (le_refl _) ((h p).ids _ t hobj)
          ((h p).blank _ t hobj (by rw [hc]; simp) (ht a xs rfl))
          fun b u hu hb e => hb ((h p).distinct _ _ _ _ hu hobj e.symm)
    | load a s => exact absurd rfl (hl a s)
    | destroy a =>
      dsimp only at hs
      cases hobj : (M.procs p).objects a with
      | none => rw [hobj] at hs; cases hs
      | some t =>
        rw [hobj] at hs
        cases hs
        exact ⟨_, _, rfl, (h p).destroy hc a _⟩

/-! ## Histories -/

theorem Spec.Undisturbed.init {xs ys : List (ℕ × JitOp)} (h : Undisturbed (xs ++ ys)) :
    Undisturbed xs := List.IsChain.left_of_append h

theorem Spec.TrainedOnce.init {xs ys : List (ℕ × JitOp)} (h : TrainedOnce (xs ++ ys)) :
    TrainedOnce xs := by
  rintro pre p a zs post rfl
  exact h pre p a zs (post ++ ys) (by simp)

theorem Spec.TrainedOnce.concat {xs : List (ℕ × JitOp)} (h : TrainedOnce xs) {x : ℕ × JitOp}
    (hx : ∀ p a zs, x = (p, .train a zs) → Blank xs p a) : TrainedOnce (xs ++ [x]) := by
  intro pre p a zs post e
  rcases post.eq_nil_or_concat with rfl | ⟨post', y, rfl⟩
  · obtain ⟨h1, h2⟩ := List.append_inj' e (by simp)
    subst h1
    exact hx p a zs (by simpa using h2)
  · rw [List.concat_eq_append, ← List.cons_append, ← List.append_assoc] at e
    exact h pre p a zs post' (List.append_inj' e (by simp)).1

theorem Spec.NeverLoaded.init {xs ys : List (ℕ × JitOp)} (h : NeverLoaded (xs ++ ys)) :
    NeverLoaded xs := fun p a s hm => h p a s (List.mem_append_left _ hm)

/-- In an undisturbed history only the process that moves next can be compiling. -/
theorem JitInv.others {ops : List (ℕ × JitOp)} {M : JitMachine} (h : JitInv ops M) {p : ℕ} {op : JitOp}
    (hu : Undisturbed (ops ++ [(p, op)])) (q : ℕ) (hq : q ≠ p) : (M.procs q).compiling = none := by
  cases hc : (M.procs q).compiling with
  | none => rfl
  | some a =>
    obtain ⟨⟨pre, op', rfl, ho⟩, -⟩ := (h q).compiling _ hc
    rw [Undisturbed, List.append_assoc, List.singleton_append, List.isChain_append_cons_cons] at hu
    exact absurd (hu.2.1 ho.compiles).symm hq

theorem JitInv.exec {σ : SortFn} {files : List Char → Option Library} (ops : List (ℕ × JitOp))
    (hu : Undisturbed ops) (ht : TrainedOnce ops) (hl : NeverLoaded ops) {M : JitMachine}
    (he : exec σ ops (.start files) = .ok M) : JitInv ops M := by
  induction ops using List.reverseRecOn generalizing M with
  | nil =>
    cases he
    exact fun p => .start p files
  | append_singleton xs x ih =>
    obtain ⟨p, op⟩ := x
    obtain ⟨M1, h1, h2⟩ := exec_concat he
    have h := ih hu.init ht.init hl.init h1
    refine h.step h2 (h.others hu) ?_ ?_
    · rintro a zs rfl
      exact ht xs p a zs [] rfl
    · rintro a s rfl
      exact hl p a s (by simp)

/-- Opening the library succeeds. -/
theorem JitInv.links {σ : SortFn} {ops : List (ℕ × JitOp)} {M : JitMachine} (h : JitInv ops M) {p a : ℕ}
    (hc : (M.procs p).compiling = some a) : ∃ M', M.step σ p .link = .ok M' := by
  obtain ⟨-, t, hobj, hfree, hfile, -⟩ := (h p).compiling _ hc
  unfold JitMachine.step
  dsimp only
  rw [hc]
  dsimp only
  rw [hobj]
  dsimp only
  unfold JitMachine.link JitMachine.dlopen
  rw [hfree]
  dsimp only
  rw [hfile]
  dsimp only
  rw [if_pos rfl]
  exact ⟨_, rfl⟩

/-- The trees of the objects come from trainings. -/
def TreesTrained (σ : SortFn) (k : ℕ) (M : JitMachine) : Prop :=
  ∀ p a t, (M.procs p).objects a = some t → t.impl.root = .nil ∨
    ∃ (t0 : TreeImpl) (xs : List Sample), t0.train σ xs = .ok t.impl ∧ ∀ x ∈ xs, x.1.length = k

theorem TreesTrained.set {σ : SortFn} {k : ℕ} {M : JitMachine} (h : TreesTrained σ k M) {p a : ℕ}
    {P : JitProcess} {o : Option JitTree} {files : List Char → Option Library}
    (hP : P.objects = Function.update (M.procs p).objects a o)
    (ho : ∀ t, o = some t → t.impl.root = .nil ∨
      ∃ (t0 : TreeImpl) (xs : List Sample), t0.train σ xs = .ok t.impl ∧ ∀ x ∈ xs, x.1.length = k) :
    TreesTrained σ k ⟨files, Function.update M.procs p P⟩ := by
  intro q b t hb
  dsimp only at hb
  by_cases e : q = p
  · subst e
    rw [Function.update_self, hP] at hb
    by_cases eb : b = a
    · subst eb
      rw [Function.update_self] at hb
      exact ho t hb
    · rw [Function.update_of_ne eb] at hb
      exact h _ _ _ hb
  · rw [Function.update_of_ne e] at hb
    exact h _ _ _ hb

theorem TreesTrained.compile {σ : SortFn} {k : ℕ} {M M' : JitMachine} (h : TreesTrained σ k M) {p a : ℕ}
    {P : JitProcess} {t : JitTree} (hP : P.objects = (M.procs p).objects)
    (ht : ∃ (t0 : TreeImpl) (xs : List Sample), t0.train σ xs = .ok t.impl ∧ ∀ x ∈ xs, x.1.length = k)
    (hM : M.compile p a P t = .ok M') : TreesTrained σ k M' := by
  unfold JitMachine.compile at hM
  split at hM
  · cases hM
  cases hM
  exact h.set (by dsimp only; rw [hP]) fun u hu => by cases hu; exact Or.inr ht

theorem TreesTrained.step {σ : SortFn} {k : ℕ} {M M' : JitMachine} (h : TreesTrained σ k M) {p : ℕ}
    {op : JitOp} (hs : M.step σ p op = .ok M') (hl : ∀ a s, op ≠ .load a s)
    (hn : ∀ a n s, op ≠ .newLoaded a n s) (hk : ∀ x ∈ op.samples, x.1.length = k) :
    TreesTrained σ k M' := by
  unfold JitMachine.step at hs
  dsimp only at hs
  cases hc : (M.procs p).compiling with
  | some a =>
    rw [hc] at hs
    cases op with
    | link =>
      dsimp only at hs
      cases hobj : (M.procs p).objects a with
      | none => rw [hobj] at hs; cases hs
      | some t =>
        rw [hobj] at hs
        dsimp only at hs
        unfold JitMachine.link at hs
        split at hs
        · cases hs
        split at hs
        · cases hs
          exact h.set rfl fun u hu => by cases hu; exact h _ _ t hobj
        · cases hs
    | _ => cases hs
  | none =>
    rw [hc] at hs
    cases op with
    | link => cases hs
    | new a n d =>
      dsimp only at hs
      split at hs
      · cases hs
      · cases hs
        exact h.set rfl fun u hu => by cases hu; exact Or.inl rfl
    | newTrained a n d xs =>
      dsimp only at hs
      split at hs
      · cases hs
      obtain ⟨impl, hi, hs⟩ := (Res.bind_eq_ok _ _ _).1 hs
      refine TreesTrained.compile h ?_ ?_ hs
      · rfl
      · exact ⟨.new n d, xs, hi, hk⟩
    | newLoaded a n s => exact absurd rfl (hn a n s)
    | train a xs =>
      dsimp only at hs
      cases hobj : (M.procs p).objects a with
      | none => rw [hobj] at hs; cases hs
      | some t =>
        rw [hobj] at hs
        dsimp only at hs
        obtain ⟨impl, hi, hs⟩ := (Res.bind_eq_ok _ _ _).1 hs
        exact h.compile rfl ⟨_, xs, hi, hk⟩ hs
    | load a s => exact absurd rfl (hl a s)
    | destroy a =>
      dsimp only at hs
      cases hobj : (M.procs p).objects a with
      | none => rw [hobj] at hs; cases hs
      | some t =>
        rw [hobj] at hs
        cases hs
        exact h.set rfl fun u hu => by cases hu

theorem TreesTrained.exec {σ : SortFn} {k : ℕ} {files : List Char → Option Library}
    (ops : List (ℕ × JitOp)) (hl : NeverLoaded ops) (hn : ∀ p a n s, (p, .newLoaded a n s) ∉ ops)
    (hk : ∀ p op, (p, op) ∈ ops → ∀ x ∈ op.samples, x.1.length = k) {M : JitMachine}
    (he : exec σ ops (.start files) = .ok M) : TreesTrained σ k M := by
  induction ops using List.reverseRecOn generalizing M with
  | nil =>
    cases he
    intro p a t h
    cases h
  | append_singleton xs x ih =>
    obtain ⟨p, op⟩ := x
    obtain ⟨M1, h1, h2⟩ := exec_concat he
    refine (ih hl.init (fun p a n s hm => hn p a n s (List.mem_append_left _ hm))
      (fun p op hm => hk p op (List.mem_append_left _ hm)) h1).step h2 ?_ ?_
      (hk p op (by simp))
    · rintro a s rfl
      exact hl p a s (by simp)
    · rintro a n s rfl
      exact hn p a n s (by simp)

end Apollo
