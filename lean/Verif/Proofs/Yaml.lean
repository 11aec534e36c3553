import Verif.Spec.TreeDot
import Verif.Proofs.CSource
import Mathlib.Data.List.TakeWhile

/-!
# The files of models as YAML
-/

namespace Apollo.YamlText

open Apollo Spec Yaml

/-- Blanks. -/
def AllBlank (ws : List Char) : Prop := ∀ c ∈ ws, isSpace c = true

/-- A plain scalar. -/
structure Scal (w : List Char) : Prop where
  plain : ∀ c ∈ w, plainChar c = true
  some : w.any Char.isAlphanum = true

/-- No scalar continues here. -/
def Stop (r : List Char) : Prop := ∃ c r', r = c :: r' ∧ plainChar c = false

theorem blank_nil : AllBlank [] := fun _ h => by simp at h

theorem blank_nl : AllBlank ['\n'] := by
  intro c hc; rw [List.mem_singleton.1 hc]; rfl

theorem blank_sp : AllBlank [' '] := by
  intro c hc; rw [List.mem_singleton.1 hc]; rfl

theorem blank_ind (n : ℕ) : AllBlank (indent n) := CSrc.isSpace_indent n

theorem dropWhile_blanks {ws : List Char} (h : AllBlank ws) (s : List Char) :
    (ws ++ s).dropWhile isSpace = s.dropWhile isSpace := by
  induction ws with
  | nil => rfl
  | cons c ws ih =>
    rw [List.cons_append, List.dropWhile_cons_of_pos (h c (by simp)), ih fun d hd => h d (by simp [hd])]

theorem plain_not_space {c : Char} (h : plainChar c = true) : isSpace c = false := by
  by_contra hc
  simp only [isSpace, Bool.not_eq_false, Bool.or_eq_true, decide_eq_true_eq] at hc
  rcases hc with ((((rfl | rfl) | rfl) | rfl) | rfl) | rfl <;> revert h <;> decide

theorem Scal.cons {w : List Char} (h : Scal w) : ∃ c w', w = c :: w' ∧ plainChar c = true := by
  cases w with
  | nil => have := h.some; simp at this
  | cons c w => exact ⟨c, w, rfl, h.plain c (by simp)⟩

theorem Scal.length {w : List Char} (h : Scal w) : 0 < w.length := by
  obtain ⟨c, w', rfl, -⟩ := h.cons; simp

theorem takeWhile_scal {w r : List Char} (h : ∀ c ∈ w, plainChar c = true) (hr : Stop r) :
    (w ++ r).takeWhile plainChar = w ∧ (w ++ r).dropWhile plainChar = r := by
  obtain ⟨c, r', rfl, hc⟩ := hr
  induction w with
  | nil => simp [hc]
  | cons d w ih =>
    have hd := h d (by simp)
    have ih := ih fun c hc => h c (by simp [hc])
    simp [hd, ih.1, ih.2]

theorem dropWhile_scal {w : List Char} (hw : Scal w) (r : List Char) :
    (w ++ r).dropWhile isSpace = w ++ r := by
  obtain ⟨c, w', rfl, hc⟩ := hw.cons
  rw [List.cons_append, List.dropWhile_cons_of_neg (by simp [plain_not_space hc])]

theorem readScalar_scal {ws w r : List Char} (h : AllBlank ws) (hw : Scal w) (hr : Stop r) :
    readScalar (ws ++ (w ++ r)) = some (w, r) := by
  unfold readScalar
  rw [dropWhile_blanks h, dropWhile_scal hw]
  simp only [(takeWhile_scal hw.plain hr).1, (takeWhile_scal hw.plain hr).2, hw.some, if_true]

theorem stop_blank {ws : List Char} (h : AllBlank ws) {c : Char} (hc : plainChar c = false) (r : List Char) :
    Stop (ws ++ c :: r) := by
  cases ws with
  | nil => exact ⟨c, r, rfl, hc⟩
  | cons d ws =>
    refine ⟨d, ws ++ c :: r, rfl, ?_⟩
    cases hd : plainChar d with
    | false => rfl
    | true => exact absurd (h d (by simp)) (by simp [plain_not_space hd])

theorem stop_colon (s : List Char) : Stop (':' :: s) := ⟨':', s, rfl, by decide⟩

/-! ## Values, entries, items -/

/-- The text `u` is the value `v`. -/
def Val (u : List Char) (v : Yaml) : Prop :=
  ∀ fuel r, u.length < fuel → Stop r → readValue fuel (u ++ r) = some (v, r)

/-- The text `u` has the entries `l` and the closing bracket. -/
def Flds (u : List Char) (l : List (List Char × Yaml)) : Prop :=
  ∀ fuel r, u.length < fuel → readFields fuel (u ++ r) = some (l, r)

/-- The text `u` has the items `l` and the closing bracket. -/
def Itms (u : List Char) (l : List Yaml) : Prop :=
  ∀ fuel r, u.length < fuel → readItems fuel (u ++ r) = some (l, r)

theorem Val.scalar {w : List Char} (hw : Scal w) : Val w (.scalar w) := by
  intro fuel r hf hr
  obtain ⟨n, rfl⟩ : ∃ n, fuel = n + 1 := ⟨fuel - 1, by omega⟩
  rw [readValue, dropWhile_scal hw]
  have h := readScalar_scal blank_nil hw hr
  rw [List.nil_append] at h
  obtain ⟨c, w', rfl, hc⟩ := hw.cons
  rw [List.cons_append] at h ⊢
  split
  · next e => rw [(List.cons.inj e).1] at hc; exact absurd hc (by decide)
  · next e => rw [(List.cons.inj e).1] at hc; exact absurd hc (by decide)
  · rw [h]; rfl

theorem Val.map {ws u : List Char} {l} (h : AllBlank ws) (hu : Flds u l) : Val (ws ++ '{' :: u) (.map l) := by
  intro fuel r hf hr
  obtain ⟨n, rfl⟩ : ∃ n, fuel = n + 1 := ⟨fuel - 1, by omega⟩
  rw [readValue, List.append_assoc, dropWhile_blanks h]
  simp only [List.length_append, List.length_cons] at hf
  have := hu n r (by omega)
  simp [isSpace, this]

theorem Val.seq {ws u : List Char} {l} (h : AllBlank ws) (hu : Itms u l) : Val (ws ++ '[' :: u) (.seq l) := by
  intro fuel r hf hr
  obtain ⟨n, rfl⟩ : ∃ n, fuel = n + 1 := ⟨fuel - 1, by omega⟩
  rw [readValue, List.append_assoc, dropWhile_blanks h]
  simp only [List.length_append, List.length_cons] at hf
  have := hu n r (by omega)
  simp [isSpace, this]

theorem Flds.blank {ws u : List Char} {l} (h : AllBlank ws) (hu : Flds u l) : Flds (ws ++ u) l := by
  intro fuel r hf
  obtain ⟨n, rfl⟩ : ∃ n, fuel = n + 1 := ⟨fuel - 1, by omega⟩
  rw [List.length_append] at hf
  have := hu (n + 1) r (by omega)
  rw [readFields] at this ⊢
  rw [List.append_assoc, dropWhile_blanks h, this]

theorem Flds.nil : Flds ['}'] [] := by
  intro fuel r hf
  obtain ⟨n, rfl⟩ : ∃ n, fuel = n + 1 := ⟨fuel - 1, by omega⟩
  rw [readFields]; simp [isSpace]

theorem Itms.blank {ws u : List Char} {l} (h : AllBlank ws) (hu : Itms u l) : Itms (ws ++ u) l := by
  intro fuel r hf
  obtain ⟨n, rfl⟩ : ∃ n, fuel = n + 1 := ⟨fuel - 1, by omega⟩
  rw [List.length_append] at hf
  have := hu (n + 1) r (by omega)
  rw [readItems] at this ⊢
  rw [List.append_assoc, dropWhile_blanks h, this]

theorem Itms.nil : Itms [']'] [] := by
  intro fuel r hf
  obtain ⟨n, rfl⟩ : ∃ n, fuel = n + 1 := ⟨fuel - 1, by omega⟩
  rw [readItems]; simp [isSpace]

/-- What is read of an entry and the text after it. -/
theorem readFields_entry {k u : List Char} {v : Yaml} {c : Char} (hk : Scal k) (hc : isSpace c = true)
    (hu : Val u v) {n : ℕ} (hn : u.length < n) {r : List Char} (hr : Stop r) :
    readFields (n + 1) (k ++ ':' :: c :: (u ++ r)) =
      match r.dropWhile isSpace with
      | ',' :: s => (readFields n s).map fun x => ((k, v) :: x.1, x.2)
      | '}' :: s => some ([(k, v)], s)
      | _ => none := by
  rw [readFields, dropWhile_scal hk]
  have h := readScalar_scal blank_nil hk (stop_colon (c :: (u ++ r)))
  rw [List.nil_append] at h
  have hv := hu n r hn hr
  obtain ⟨d, w', rfl, hd⟩ := hk.cons
  rw [List.cons_append] at h ⊢
  split
  · next e => rw [(List.cons.inj e).1] at hd; exact absurd hd (by decide)
  · simp only [h, Option.bind_eq_bind, Option.bind_some, readColon, hc, if_true, hv]
    rfl

theorem Flds.cons {k u ws rest : List Char} {v : Yaml} {c : Char} {l} (hk : Scal k) (hc : isSpace c = true)
    (hu : Val u v) (hw : AllBlank ws) (hl : Flds rest l) :
    Flds (k ++ ':' :: c :: (u ++ (ws ++ ',' :: rest))) ((k, v) :: l) := by
  intro fuel r hf
  obtain ⟨n, rfl⟩ : ∃ n, fuel = n + 1 := ⟨fuel - 1, by omega⟩
  simp only [List.length_append, List.length_cons] at hf
  have h := readFields_entry hk hc hu (n := n) (by omega) (r := ws ++ ',' :: (rest ++ r))
    (stop_blank hw (by decide) _)
  have e : k ++ ':' :: c :: (u ++ (ws ++ ',' :: rest)) ++ r =
      k ++ ':' :: c :: (u ++ (ws ++ ',' :: (rest ++ r))) := by simp
  rw [e, h, dropWhile_blanks hw]
  have := hl n r (by omega)
  simp [isSpace, this]

theorem Flds.last {k u ws : List Char} {v : Yaml} {c : Char} (hk : Scal k) (hc : isSpace c = true)
    (hu : Val u v) (hw : AllBlank ws) :
    Flds (k ++ ':' :: c :: (u ++ (ws ++ ['}']))) [(k, v)] := by
  intro fuel r hf
  obtain ⟨n, rfl⟩ : ∃ n, fuel = n + 1 := ⟨fuel - 1, by omega⟩
  simp only [List.length_append, List.length_cons] at hf
  have h := readFields_entry hk hc hu (n := n) (by omega) (r := ws ++ '}' :: r)
    (stop_blank hw (by decide) _)
  have e : k ++ ':' :: c :: (u ++ (ws ++ ['}'])) ++ r = k ++ ':' :: c :: (u ++ (ws ++ '}' :: r)) := by simp
  rw [e, h, dropWhile_blanks hw]
  simp [isSpace]

theorem Itms.cons {w ws rest : List Char} {l} (hw : Scal w) (hws : AllBlank ws) (hl : Itms rest l) :
    Itms (w ++ (ws ++ ',' :: rest)) (.scalar w :: l) := by
  intro fuel r hf
  obtain ⟨n, rfl⟩ : ∃ n, fuel = n + 1 := ⟨fuel - 1, by omega⟩
  simp only [List.length_append, List.length_cons] at hf
  have hs : Stop (ws ++ ',' :: (rest ++ r)) := stop_blank hws (by decide) _
  have h := readScalar_scal blank_nil hw hs
  rw [List.nil_append] at h
  have hv := Val.scalar hw n (ws ++ ',' :: (rest ++ r)) (by omega) hs
  have hcol : readColon (ws ++ ',' :: (rest ++ r)) = none := by
    cases ws with
    | nil => rfl
    | cons d ws =>
      rw [List.cons_append]
      unfold readColon
      split
      · next e => have := hws d (by simp); rw [(List.cons.inj e).1] at this; exact absurd this (by decide)
      · rfl
  have e : w ++ (ws ++ ',' :: rest) ++ r = w ++ (ws ++ ',' :: (rest ++ r)) := by simp
  rw [e, readItems, dropWhile_scal hw]
  obtain ⟨d, w', rfl, hd⟩ := hw.cons
  rw [List.cons_append] at h hv ⊢
  split
  · next e => rw [(List.cons.inj e).1] at hd; exact absurd hd (by decide)
  · have := hl n r (by omega)
    simp only [h, Option.bind_some, hcol, Option.map_none, hv, Option.bind_eq_bind, dropWhile_blanks hws]
    simp [isSpace, this]

theorem Itms.pair {k u ws rest : List Char} {v : Yaml} {c : Char} {l} (hk : Scal k) (hc : isSpace c = true)
    (hu : Val u v) (hw : AllBlank ws) (hl : Itms rest l) :
    Itms (k ++ ':' :: c :: (u ++ (ws ++ ',' :: rest))) (.map [(k, v)] :: l) := by
  intro fuel r hf
  obtain ⟨n, rfl⟩ : ∃ n, fuel = n + 1 := ⟨fuel - 1, by omega⟩
  simp only [List.length_append, List.length_cons] at hf
  have hs : Stop (ws ++ ',' :: (rest ++ r)) := stop_blank hw (by decide) _
  have hv := hu n (ws ++ ',' :: (rest ++ r)) (by omega) hs
  have e : k ++ ':' :: c :: (u ++ (ws ++ ',' :: rest)) ++ r =
      k ++ ':' :: c :: (u ++ (ws ++ ',' :: (rest ++ r))) := by simp
  have h := readScalar_scal blank_nil hk (stop_colon (c :: (u ++ (ws ++ ',' :: (rest ++ r)))))
  rw [List.nil_append] at h
  rw [e, readItems, dropWhile_scal hk]
  obtain ⟨d, w', rfl, hd⟩ := hk.cons
  rw [List.cons_append] at h ⊢
  split
  · next e => rw [(List.cons.inj e).1] at hd; exact absurd hd (by decide)
  · have := hl n r (by omega)
    simp only [h, Option.bind_some, readColon, hc, if_true, Option.map_some, hv, Option.bind_eq_bind,
      dropWhile_blanks hw]
    simp [isSpace, this]

theorem Flds.of_eq {u u' : List Char} {l} (h : Flds u l) (e : u' = u) : Flds u' l := e ▸ h

theorem Itms.of_eq {u u' : List Char} {l} (h : Itms u l) (e : u' = u) : Itms u' l := e ▸ h

theorem Val.of_eq {u u' : List Char} {l} (h : Val u l) (e : u' = u) : Val u' l := e ▸ h

/-! ## Numbers and words -/

theorem plain_of_digit {c : Char} (h : isDigit c = true) : c.isAlphanum = true := by
  simp only [isDigit, Bool.and_eq_true, decide_eq_true_eq] at h
  simp only [Char.isAlphanum, Char.isDigit, Bool.or_eq_true, Bool.and_eq_true, decide_eq_true_eq]
  right
  exact h

theorem plain_of_numChar {c : Char} (h : numChar c) : plainChar c = true := by
  rcases h with h | rfl | rfl | rfl | rfl
  · simp [plainChar, plain_of_digit h]
  all_goals decide

theorem scal_fmtInt (n : ℤ) : Scal (fmtInt n) := by
  refine ⟨fun c hc => plain_of_numChar ((fmtInt_spec n).1 c hc), ?_⟩
  rw [List.any_eq_true]
  obtain ⟨c, hc⟩ := List.exists_mem_of_ne_nil _ (natDigits_ne_nil n.natAbs)
  refine ⟨c, ?_, plain_of_digit (isDigit_of_mem_natDigits hc)⟩
  unfold fmtInt
  split
  · exact List.mem_cons_of_mem _ hc
  · exact hc

theorem scal_fmtG6 (q : ℚ) : Scal (fmtG6 q) := by
  refine ⟨fun c hc => plain_of_numChar (numChar_fmtG6 q c hc), ?_⟩
  rw [List.any_eq_true]
  obtain ⟨c, r, e, h | ⟨-, d, r', e', h⟩⟩ := fmtG6_head q
  · exact ⟨c, by rw [e]; simp, plain_of_digit h⟩
  · exact ⟨d, by rw [e, e']; simp, plain_of_digit h⟩

theorem scal_word {w : List Char} (h : w.all plainChar = true) (h' : w.any Char.isAlphanum = true) : Scal w :=
  ⟨fun c hc => List.all_eq_true.1 h c hc, h'⟩

end Apollo.YamlText
