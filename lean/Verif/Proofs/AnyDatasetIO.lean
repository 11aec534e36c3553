import Verif.Model.AnyDatasetIO
import Verif.Proofs.AnyFloat
import Verif.Proofs.DatasetRT

/-! Helper lemmas: storing and loading datasets whose features are any floats. -/

namespace Apollo

open Dataset (fmtInt_no_nul idxTok_ne length_fmtG6_float length_fmtG6_double length_fmtInt_int
  fmtG6_ne_nil)

/-! ## Text of a float -/

/-- Characters of the text of a float. -/
def anyChar (c : Char) : Prop := numChar c ∨ c = 'i' ∨ c = 'n' ∨ c = 'f' ∨ c = 'a'

theorem anyChar.not_space {c : Char} (h : anyChar c) : isSpace c = false := by
  rcases h with h | rfl | rfl | rfl | rfl
  · exact h.not_space
  all_goals rfl

theorem anyChar.ne {c d : Char} (h : anyChar c) (hd : ¬ anyChar d) : c ≠ d := by
  rintro rfl; exact hd h

theorem anyChar_fmtAny (b : Bool) (x : AnyFloat) : ∀ c ∈ fmtAny b x, anyChar c := by
  intro c hc
  cases x with
  | fin q => exact Or.inl (numChar_fmtG6 q c hc)
  | negZero =>
    have : c = '-' ∨ c = '0' := by simpa [fmtAny] using hc
    rcases this with rfl | rfl
    · exact Or.inl (Or.inr (Or.inl rfl))
    · exact Or.inl (Or.inl rfl)
  | posInf =>
    have : c = 'i' ∨ c = 'n' ∨ c = 'f' := by simpa [fmtAny] using hc
    rcases this with rfl | rfl | rfl <;> simp [anyChar]
  | negInf =>
    have : c = '-' ∨ c = 'i' ∨ c = 'n' ∨ c = 'f' := by simpa [fmtAny] using hc
    rcases this with rfl | rfl | rfl | rfl <;> simp [anyChar, numChar]
  | nan =>
    have : c = '-' ∨ c = 'n' ∨ c = 'a' := by
      cases b
      · have : c = 'n' ∨ c = 'a' ∨ c = 'n' := by simpa [fmtAny] using hc
        tauto
      · have : c = '-' ∨ c = 'n' ∨ c = 'a' ∨ c = 'n' := by simpa [fmtAny] using hc
        tauto
    rcases this with rfl | rfl | rfl <;> simp [anyChar, numChar]

theorem fmtAny_ne_nil (b : Bool) (x : AnyFloat) : fmtAny b x ≠ [] := by
  cases x with
  | fin q => exact fmtG6_ne_nil q
  | nan => cases b <;> decide
  | _ => simp [fmtAny]

theorem fmtAny_head (b : Bool) (x : AnyFloat) : ∃ c r, fmtAny b x = c :: r ∧ anyChar c := by
  cases h : fmtAny b x with
  | nil => exact absurd h (fmtAny_ne_nil b x)
  | cons c r => exact ⟨c, r, rfl, anyChar_fmtAny b x c (by rw [h]; simp)⟩

/-! ## Reading a float -/

/-- A number is neither an infinity nor a NaN; its sign is the one of the text. -/
theorem stofAny_fin (q : ℚ) (s : List Char) :
    stofAny (fmtG6 q ++ s) = match stof (fmtG6 q ++ s) with
      | .error e => .error e
      | .ok (v, n) => .ok (if (readSign (fmtG6 q ++ s)).1 ∧ v = 0 then .negZero else .fin v, n) := by
  have hsp : (fmtG6 q ++ s).dropWhile isSpace = fmtG6 q ++ s := by
    obtain ⟨c, r, h, hc⟩ := Dataset.fmtG6_headChar q
    rw [h, List.cons_append, List.dropWhile_cons, hc.not_space]; rfl
  have hword : ∀ (w : Char) (ws : List Char), w = 'i' ∨ w = 'n' →
      stripWord (w :: ws) (readSign (fmtG6 q ++ s)).2 = none := by
    intro w ws hw
    have hdig : ∃ d r, isDigit d = true ∧ (readSign (fmtG6 q ++ s)).2 = d :: r := by
      obtain ⟨c, r, h, hc | ⟨rfl, d, r', rfl, hd⟩⟩ := fmtG6_head q
      · exact ⟨c, r ++ s, hc, by rw [h, List.cons_append, readSign_of_digit hc]⟩
      · exact ⟨d, r' ++ s, hd, by rw [h]; rfl⟩
    obtain ⟨d, r, hd, e⟩ := hdig
    rw [e, stripWord, if_neg]
    have h1 : 48 ≤ d.toNat ∧ d.toNat ≤ 57 := by simpa [isDigit] using hd
    have h2 : d.toLower = d := by
      unfold Char.toLower
      rw [dif_neg]
      intro hh
      have : 65 ≤ d.toNat := UInt32.le_iff_toNat_le.1 hh.1
      omega
    rw [h2]
    rintro rfl
    rcases hw with rfl | rfl <;> simp at h1
  unfold stofAny
  rw [hsp]
  simp only
  rw [show "inf".toList = 'i' :: "nf".toList from rfl, hword 'i' _ (Or.inl rfl),
    show "nan".toList = 'n' :: "an".toList from rfl, hword 'n' _ (Or.inr rfl)]
  rfl

/-- What the text of a float reads back as. -/
def rereadAny : AnyFloat → AnyFloat
  | .fin q => .fin (rnd32 (round6 q))
  | x => x

/-- A float whose text can be read. -/
def RangeAny : AnyFloat → Prop
  | .fin q => RangeFloat q
  | _ => True

theorem rnd32_round6_ne_zero {q : ℚ} (h1 : (10 : ℚ) ^ (-37 : ℤ) ≤ |q|) : rnd32 (round6 q) ≠ 0 := by
  obtain ⟨b1, -⟩ := round6_abs_bounds q
  have : (2 : ℚ) ^ (-126 : ℤ) ≤ |rnd 24 (-149) (round6 q)| := by
    rw [abs_rnd]
    refine le_rnd_of_le (by norm_num) ⟨1, -126, by norm_num, by norm_num, by simp⟩ ?_
    refine le_trans ?_ b1
    refine le_trans ?_ (mul_le_mul_of_nonneg_right h1 (by norm_num))
    decide +kernel
  intro h
  have e : rnd 24 (-149) (round6 q) = 0 := h
  rw [e, abs_zero] at this
  exact absurd this (by decide +kernel)

theorem stof_negZero (s : List Char) : stof ('-' :: '0' :: ',' :: s) = .ok (0, 2) := by
  have hd : readDecimal ('-' :: '0' :: ',' :: s) = some (0, ',' :: s) := by
    have h0 : valDigits ['0'] = 0 := by decide
    have h1 : isDigit '0' = true := by decide
    have h2 : isDigit ',' = false := by decide
    simp [readDecimal, readSign, readFrac, readExp, h1, h2, h0]
  unfold stof readFloat
  have h1 : ('-' :: '0' :: ',' :: s).dropWhile isSpace = '-' :: '0' :: ',' :: s := by
    rw [List.dropWhile_cons, show isSpace '-' = false from by decide]; rfl
  have h2 : isSpecialFloat ('-' :: '0' :: ',' :: s) = false := by
    simp [isSpecialFloat, readSign]
  have h3 : ¬ maxFloat < |(0 : ℚ)| := by decide +kernel
  simp only [h1, h2, hd, rnd_zero, h3, Bool.false_eq_true, if_false, ne_eq, not_true, and_false]
  simp

theorem stofAny_number {s r : List Char} {b : Bool} {q : ℚ} {n : ℕ}
    (hs : readSign (s.dropWhile isSpace) = (b, r)) (h1 : stripWord "inf".toList r = none)
    (h2 : stripWord "nan".toList r = none) (hz : stof s = .ok (q, n)) :
    stofAny s = .ok (if b ∧ q = 0 then .negZero else .fin q, n) := by
  unfold stofAny
  simp only [hs, h1, h2, hz]

theorem stofAny_negZero (s : List Char) :
    stofAny ('-' :: '0' :: ',' :: s) = .ok (.negZero, 2) := by
  have hs : readSign (('-' :: '0' :: ',' :: s).dropWhile isSpace) = (true, '0' :: ',' :: s) := by
    simp [isSpace, readSign]
  have h1 : stripWord "inf".toList ('0' :: ',' :: s) = none := by simp [stripWord]
  have h2 : stripWord "nan".toList ('0' :: ',' :: s) = none := by simp [stripWord]
  have h := stofAny_number hs h1 h2 (stof_negZero s)
  have e : (if true = true ∧ (0 : ℚ) = 0 then AnyFloat.negZero else .fin 0) = .negZero :=
    if_pos ⟨rfl, rfl⟩
  rw [h, e]

theorem stofAny_posInf (s : List Char) :
    stofAny ('i' :: 'n' :: 'f' :: ',' :: s) = .ok (.posInf, 3) := by
  simp [stofAny, isSpace, readSign, stripWord]

theorem stofAny_negInf (s : List Char) :
    stofAny ('-' :: 'i' :: 'n' :: 'f' :: ',' :: s) = .ok (.negInf, 4) := by
  simp [stofAny, isSpace, readSign, stripWord]

theorem stofAny_nan (s : List Char) :
    stofAny ('n' :: 'a' :: 'n' :: ',' :: s) = .ok (.nan, 3) := by
  simp [stofAny, isSpace, readSign, stripWord, afterNan]

theorem stofAny_negNan (s : List Char) :
    stofAny ('-' :: 'n' :: 'a' :: 'n' :: ',' :: s) = .ok (.nan, 4) := by
  simp [stofAny, isSpace, readSign, stripWord, afterNan]

theorem stofAny_range {q : ℚ} (hx : RangeFloat q) (s : List Char) :
    stofAny (fmtG6 q ++ ',' :: s) = .ok (.fin (rnd32 (round6 q)), (fmtG6 q).length) := by
  have hstop : Stops (',' :: s) := by simp [Stops]; decide
  rw [stofAny_fin q, stof_fmtG6 hx _ hstop]
  simp only
  rw [if_neg]
  rintro ⟨h1, h2⟩
  rcases hx with rfl | ⟨h3, -⟩
  · rw [show fmtG6 0 = ['0'] from if_pos rfl] at h1
    cases h1
  · exact rnd32_round6_ne_zero h3 h2

theorem stofAny_fmt {x : AnyFloat} (hx : RangeAny x) (b : Bool) (s : List Char) :
    stofAny (fmtAny b x ++ ',' :: s) = .ok (rereadAny x, (fmtAny b x).length) := by
  cases x with
  | fin q => exact stofAny_range hx s
  | negZero => exact stofAny_negZero s
  | posInf => exact stofAny_posInf s
  | negInf => exact stofAny_negInf s
  | nan =>
    cases b
    · exact stofAny_nan s
    · exact stofAny_negNan s

/-- Either the text of a float cannot be read, or all of it is read. -/
theorem stofAny_pos (x : AnyFloat) (b : Bool) (s : List Char) :
    (∃ e, stofAny (fmtAny b x ++ ',' :: s) = .error e) ∨
      ∃ v, stofAny (fmtAny b x ++ ',' :: s) = .ok (v, (fmtAny b x).length) := by
  cases x with
  | fin q =>
    have hstop : Stops (',' :: s) := by simp [Stops]; decide
    show (∃ e, stofAny (fmtG6 q ++ ',' :: s) = .error e) ∨
      ∃ v, stofAny (fmtG6 q ++ ',' :: s) = .ok (v, (fmtG6 q).length)
    rw [stofAny_fin q]
    unfold stof
    rw [readFloat_fmtG6 _ _ _ _ _ _ hstop]
    split
    · exact Or.inl ⟨_, rfl⟩
    · next h =>
      right
      split at h
      · cases h
      · split at h
        · cases h
        · simp only [Except.ok.injEq, Prod.mk.injEq] at h
          obtain ⟨rfl, rfl⟩ := h
          exact ⟨_, rfl⟩
  | negZero => exact Or.inr ⟨_, stofAny_fmt (x := .negZero) trivial b s⟩
  | posInf => exact Or.inr ⟨_, stofAny_fmt (x := .posInf) trivial b s⟩
  | negInf => exact Or.inr ⟨_, stofAny_fmt (x := .negInf) trivial b s⟩
  | nan => exact Or.inr ⟨_, stofAny_fmt (x := .nan) trivial b s⟩

end Apollo
