import Verif.Model.TraceFiles
import Verif.Proofs.RegionTrace

/-!
# Streams and files
-/

namespace Apollo

open Spec

/-! ## Streams -/

theorem overlay_end (old s : Str) : overlay old old.length s = old ++ s := by
  simp [overlay]

/-- The file `path` belongs to the stream of region `r`, which has been given the text `t`. -/
structure Owns (d : Disk) (r : ℕ) (path t : Str) : Prop where
  stream : ∃ c o, d.files path = some c ∧ d.streams r = some o ∧ o.path = path ∧ o.pos = c.length ∧ c ++ o.buf = t
  alone : ∀ r' o, r' ≠ r → d.streams r' = some o → o.path ≠ path

/-- The file `path` holds `t` and no stream writes to it. -/
structure Rests (d : Disk) (path t : Str) : Prop where
  file : d.files path = some t
  alone : ∀ r o, d.streams r = some o → o.path ≠ path

/-- What is put for a region. -/
def DiskOp.text (r : ℕ) : DiskOp → Str
  | .put r' s => if r' = r then s else []
  | _ => []

theorem Owns.flush {d : Disk} {r : ℕ} {path t : Str} (h : Owns d r path t) (r' k : ℕ) :
    Owns (d.flush r' k) r path t := by
  obtain ⟨c, o, h1, h2, h3, h4, h5⟩ := h.stream
  unfold Disk.flush
  cases e : d.streams r' with
  | none => exact h
  | some o' =>
    by_cases hr : r' = r
    · subst hr
      rw [h2] at e
      cases e
      refine ⟨⟨c ++ o.buf.take k, _, ?_, Function.update_self .., h3, ?_, ?_⟩, ?_⟩
      · simp [h3, h1, h4, overlay_end]
      · simp [h4]
      · simp [h5]
      · intro r₂ o₂ hn ho
        simp only [Function.update_of_ne hn] at ho
        exact h.alone r₂ o₂ hn ho
    · have hp := h.alone r' o' hr e
      refine ⟨⟨c, o, ?_, ?_, h3, h4, h5⟩, ?_⟩
      · simp only [Function.update_of_ne (Ne.symm hp), h1]
      · simp only [Function.update_of_ne (Ne.symm hr), h2]
      · intro r₂ o₂ hn ho
        by_cases h2 : r₂ = r'
        · subst h2
          simp only [Function.update_self, Option.some.injEq] at ho
          rw [← ho]
          exact hp
        · simp only [Function.update_of_ne h2] at ho
          exact h.alone r₂ o₂ hn ho

theorem Rests.flush {d : Disk} {path t : Str} (h : Rests d path t) (r' k : ℕ) :
    Rests (d.flush r' k) path t := by
  unfold Disk.flush
  cases e : d.streams r' with
  | none => exact h
  | some o' =>
    have hp := h.alone r' o' e
    refine ⟨by simp only [Function.update_of_ne (Ne.symm hp), h.file], ?_⟩
    intro r₂ o₂ ho
    by_cases h2 : r₂ = r'
    · subst h2
      simp only [Function.update_self, Option.some.injEq] at ho
      rw [← ho]
      exact hp
    · simp only [Function.update_of_ne h2] at ho
      exact h.alone r₂ o₂ ho

/-- The step does not open the file, and neither opens nor closes the stream. -/
def DiskOp.spares (r : ℕ) (path : Str) : DiskOp → Prop
  | .opened r' p => r' ≠ r ∧ p ≠ path
  | .close r' => r' ≠ r
  | _ => True

theorem Owns.next {d : Disk} {r : ℕ} {path t : Str} (h : Owns d r path t) {op : DiskOp}
    (ho : op.spares r path) : Owns (d.next op) r path (t ++ op.text r) := by
  obtain ⟨c, o, h1, h2, h3, h4, h5⟩ := h.stream
  cases op with
  | opened r' p =>
    obtain ⟨hr, hp⟩ := ho
    simp only [DiskOp.text, List.append_nil, Disk.next]
    refine ⟨⟨c, o, ?_, ?_, h3, h4, h5⟩, ?_⟩
    · simp only [Function.update_of_ne (Ne.symm hp), h1]
    · simp only [Function.update_of_ne (Ne.symm hr), h2]
    · intro r₂ o₂ hn ho
      by_cases h2 : r₂ = r'
      · subst h2
        simp only [Function.update_self, Option.some.injEq] at ho
        rw [← ho]
        exact hp
      · simp only [Function.update_of_ne h2] at ho
        exact h.alone r₂ o₂ hn ho
  | put r' s =>
    simp only [Disk.next, DiskOp.text]
    by_cases hr : r' = r
    · subst hr
      rw [if_pos rfl]
      refine ⟨⟨c, { o with buf := o.buf ++ s }, h1, ?_, h3, h4, ?_⟩, ?_⟩
      · simp [h2]
      · simp [← h5]
      · intro r₂ o₂ hn ho
        simp only [Function.update_of_ne hn] at ho
        exact h.alone r₂ o₂ hn ho
    · rw [if_neg hr, List.append_nil]
      refine ⟨⟨c, o, h1, ?_, h3, h4, h5⟩, ?_⟩
      · simp only [Function.update_of_ne (Ne.symm hr), h2]
      · intro r₂ o₂ hn ho
        by_cases h2 : r₂ = r'
        · subst h2
          simp only [Function.update_self, Option.map_eq_some_iff] at ho
          obtain ⟨o₃, ho₃, rfl⟩ := ho
          exact h.alone r₂ o₃ hn ho₃
        · simp only [Function.update_of_ne h2] at ho
          exact h.alone r₂ o₂ hn ho
  | flush r' k =>
    simp only [DiskOp.text, List.append_nil, Disk.next]
    exact h.flush r' k
  | close r' =>
    have hr : r' ≠ r := ho
    simp only [DiskOp.text, List.append_nil, Disk.next]
    cases e : d.streams r' with
    | none => exact h
    | some o' =>
      have hf := h.flush r' o'.buf.length
      obtain ⟨c, o, h1, h2, h3, h4, h5⟩ := hf.stream
      refine ⟨⟨c, o, h1, ?_, h3, h4, h5⟩, ?_⟩
      · simp only [Function.update_of_ne (Ne.symm hr), h2]
      · intro r₂ o₂ hn ho
        by_cases h2 : r₂ = r'
        · subst h2
          simp at ho
        · simp only [Function.update_of_ne h2] at ho
          exact hf.alone r₂ o₂ hn ho

/-- The stream is closed. -/
theorem Owns.close {d : Disk} {r : ℕ} {path t : Str} (h : Owns d r path t) :
    Rests (d.next (.close r)) path t := by
  obtain ⟨c, o, h1, h2, h3, h4, h5⟩ := h.stream
  simp only [Disk.next, h2]
  constructor
  · simp only [Disk.flush, h2, List.take_length, h3, h1, Option.getD_some, h4, overlay_end, h5,
      Function.update_self]
  · intro r₂ o₂ ho
    by_cases hr : r₂ = r
    · subst hr
      simp at ho
    · simp only [Function.update_of_ne hr] at ho
      exact (h.flush r o.buf.length).alone r₂ o₂ hr ho

theorem Rests.next {d : Disk} {path t : Str} (h : Rests d path t) {op : DiskOp}
    (ho : ∀ r, op ≠ .opened r path) : Rests (d.next op) path t := by
  cases op with
  | opened r' p =>
    have hp : p ≠ path := fun e => ho r' (by rw [e])
    refine ⟨by simp only [Disk.next, Function.update_of_ne (Ne.symm hp), h.file], ?_⟩
    intro r₂ o₂ ho
    simp only [Disk.next] at ho
    by_cases h2 : r₂ = r'
    · subst h2
      simp only [Function.update_self, Option.some.injEq] at ho
      rw [← ho]
      exact hp
    · simp only [Function.update_of_ne h2] at ho
      exact h.alone r₂ o₂ ho
  | put r' s =>
    refine ⟨h.file, ?_⟩
    intro r₂ o₂ ho
    simp only [Disk.next] at ho
    by_cases h2 : r₂ = r'
    · subst h2
      simp only [Function.update_self, Option.map_eq_some_iff] at ho
      obtain ⟨o₃, ho₃, rfl⟩ := ho
      exact h.alone r₂ o₃ ho₃
    · simp only [Function.update_of_ne h2] at ho
      exact h.alone r₂ o₂ ho
  | flush r' k => exact h.flush r' k
  | close r' =>
    simp only [Disk.next]
    cases e : d.streams r' with
    | none => exact h
    | some o' =>
      have hf := h.flush r' o'.buf.length
      refine ⟨hf.file, ?_⟩
      intro r₂ o₂ ho
      by_cases h2 : r₂ = r'
      · subst h2
        simp at ho
      · simp only [Function.update_of_ne h2] at ho
        exact hf.alone r₂ o₂ ho

/-- No stream writes to the file. -/
def Unused (d : Disk) (path : Str) : Prop := ∀ r o, d.streams r = some o → o.path ≠ path

theorem Unused.next {d : Disk} {path : Str} (h : Unused d path) {op : DiskOp}
    (ho : ∀ r, op ≠ .opened r path) : Unused (d.next op) path := by
  have h' : Rests { d with files := Function.update d.files path (some []) } path [] :=
    ⟨by simp, h⟩
  have hs : (d.next op).streams =
      (({ d with files := Function.update d.files path (some []) } : Disk).next op).streams := by
    cases op with
    | opened => rfl
    | put => rfl
    | flush r k =>
      simp only [Disk.next, Disk.flush]
      cases d.streams r <;> rfl
    | close r =>
      simp only [Disk.next, Disk.flush]
      cases d.streams r <;> simp
  intro r o hr
  rw [hs] at hr
  exact (h'.next ho).alone r o hr

theorem Unused.opened {d : Disk} {path : Str} (h : Unused d path) (r : ℕ) :
    Owns (d.next (.opened r path)) r path [] := by
  refine ⟨⟨[], { path }, by simp [Disk.next], by simp [Disk.next], rfl, rfl, rfl⟩, ?_⟩
  intro r₂ o₂ hn ho
  simp only [Disk.next, Function.update_of_ne hn] at ho
  exact h r₂ o₂ ho

/-! ## Lists of steps -/

/-- Everything put for a region. -/
def textOf (r : ℕ) (ops : List DiskOp) : Str := (ops.map (DiskOp.text r)).flatten

theorem Owns.run {ops : List DiskOp} {r : ℕ} {path : Str} : ∀ {d : Disk} {t : Str}, Owns d r path t →
    (∀ op ∈ ops, op.spares r path) → Owns (ops.foldl Disk.next d) r path (t ++ textOf r ops) := by
  induction ops with
  | nil => intro d t h _; simpa [textOf] using h
  | cons op ops ih =>
    intro d t h ho
    have := ih (h.next (ho op (by simp))) fun op' h' => ho op' (by simp [h'])
    simpa [textOf, List.append_assoc] using this

theorem Rests.run {ops : List DiskOp} {path t : Str} : ∀ {d : Disk}, Rests d path t →
    (∀ op ∈ ops, ∀ r, op ≠ .opened r path) → Rests (ops.foldl Disk.next d) path t := by
  induction ops with
  | nil => intro d h _; exact h
  | cons op ops ih =>
    intro d h ho
    exact ih (h.next (ho op (by simp))) fun op' h' => ho op' (by simp [h'])

theorem Unused.run {ops : List DiskOp} {path : Str} : ∀ {d : Disk}, Unused d path →
    (∀ op ∈ ops, ∀ r, op ≠ .opened r path) → Unused (ops.foldl Disk.next d) path := by
  induction ops with
  | nil => intro d h _; exact h
  | cons op ops ih =>
    intro d h ho
    exact ih (h.next (ho op (by simp))) fun op' h' => ho op' (by simp [h'])

end Apollo
