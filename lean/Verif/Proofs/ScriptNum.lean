import Verif.Spec.Scripts
import Verif.Proofs.ScriptText
import Verif.Proofs.RegionTrace

/-! Helper lemmas: the fields of trace files as `pandas` reads them. -/

namespace Apollo.Scripts

open Apollo Apollo.Spec

/-! ## Reading numbers followed by a comma -/

theorem takeWhile_comma (s : Text) : (s ++ [',']).takeWhile isDigit = s.takeWhile isDigit := by
  induction s with
  | nil => rfl
  | cons c s ih => by_cases h : isDigit c = true <;> simp [h, ih]

theorem dropWhile_comma (s : Text) :
    (s ++ [',']).dropWhile isDigit = s.dropWhile isDigit ++ [','] := by
  induction s with
  | nil => rfl
  | cons c s ih => by_cases h : isDigit c = true <;> simp [h, ih]

theorem readSign_comma (s : Text) :
    readSign (s ++ [',']) = ((readSign s).1, (readSign s).2 ++ [',']) := by
  cases s with
  | nil => rfl
  | cons c s =>
    by_cases h1 : c = '-'
    · subst h1; rfl
    · by_cases h2 : c = '+'
      · subst h2; rfl
      · simp [readSign, h1, h2]

theorem readFrac_comma (s : Text) :
    readFrac (s ++ [',']) = ((readFrac s).1, (readFrac s).2 ++ [',']) := by
  cases s with
  | nil => rfl
  | cons c s =>
    by_cases h1 : c = '.'
    · subst h1
      simp only [List.cons_append, readFrac, takeWhile_comma, dropWhile_comma]
    · simp [readFrac, h1]

theorem readExp_comma (s : Text) :
    readExp (s ++ [',']) = ((readExp s).1, (readExp s).2 ++ [',']) := by
  cases s with
  | nil => rfl
  | cons c s =>
    simp only [List.cons_append, readExp, readSign_comma, takeWhile_comma, dropWhile_comma]
    split_ifs <;> rfl

theorem readDecimal_comma (s : Text) :
    readDecimal (s ++ [',']) = (readDecimal s).map fun p => (p.1, p.2 ++ [',']) := by
  simp only [readDecimal, readSign_comma, takeWhile_comma, dropWhile_comma, readFrac_comma,
    readExp_comma]
  split_ifs <;> rfl

theorem toLower_digit {c : Char} (h : isDigit c = true) : c.toLower = c := by
  simp only [isDigit, Bool.and_eq_true, decide_eq_true_eq] at h
  rw [Char.toLower, dif_neg]
  rintro ⟨h1, -⟩
  have h2 : (65 : UInt32).toNat ≤ c.val.toNat := h1
  have h3 : (65 : UInt32).toNat = 65 := rfl
  have : c.toNat = c.val.toNat := rfl
  omega

theorem not_special {s r : Text} (h : ∀ c ∈ s, numChar c) (hr : r = [] ∨ r = [',']) :
    isSpecialFloat (s ++ r) = false := by
  have hx : ∀ c ∈ s ++ r, c ≠ 'x' ∧ c ≠ 'X' ∧ c.toLower ≠ 'n' := by
    intro c hc
    rcases List.mem_append.1 hc with hc | hc
    · have := h c hc
      refine ⟨this.ne (by decide), this.ne (by decide), ?_⟩
      rcases this with h | rfl | rfl | rfl | rfl
      · rw [toLower_digit h]
        rintro rfl; revert h; decide
      all_goals decide
    · rcases hr with rfl | rfl
      · cases hc
      · simp only [List.mem_singleton] at hc; subst hc; decide
  have hx2 : ∀ c ∈ (readSign (s ++ r)).2, c ≠ 'x' ∧ c ≠ 'X' ∧ c.toLower ≠ 'n' := by
    intro c hc
    refine hx c ?_
    generalize s ++ r = t at hc
    cases t with
    | nil => exact hc
    | cons a t =>
      by_cases h1 : a = '-'
      · subst h1; exact List.mem_cons_of_mem _ hc
      · by_cases h2 : a = '+'
        · subst h2; exact List.mem_cons_of_mem _ hc
        · simpa [readSign, h1, h2] using hc
  unfold isSpecialFloat
  generalize (readSign (s ++ r)).2 = t at hx2
  split
  · simp only [Bool.or_eq_false_iff, decide_eq_false_iff_not]
    rename_i x _
    exact ⟨(hx2 x (by simp)).1, (hx2 x (by simp)).2.1⟩
  · rename_i a b c _ _
    have hb := (hx2 b (by simp)).2.2
    have ha := (hx2 a (by simp)).2.2
    simp [ha, hb]
  · rfl

theorem tokText_num {t : Text} (h : ∀ c ∈ t, numChar c) (hne : t ≠ []) (hl : t.length < 63) :
    TokText t := by
  refine ⟨hne, fun c hc => ⟨(h c hc).not_space, (h c hc).ne (by decide)⟩, ?_, hl⟩
  cases t with
  | nil => exact absurd rfl hne
  | cons c t =>
    have := h c (by simp)
    exact ⟨by simpa using this.ne (by decide), by simpa using this.ne (by decide)⟩

/-- The text is a number with the value `v`. -/
structure Shows (t : Text) (v : ℚ) : Prop where
  chars : ∀ c ∈ t, numChar c
  value : readDecimal t = some (v, [])
  short : t.length < 63

theorem Shows.ne_nil {t : Text} {v : ℚ} (h : Shows t v) : t ≠ [] := by
  rintro rfl
  have := h.value
  simp [readDecimal, readSign, readFrac] at this

theorem Shows.tok {t : Text} {v : ℚ} (h : Shows t v) : TokText t :=
  tokText_num h.chars h.ne_nil h.short

theorem dropWhile_num {t r : Text} (h : ∀ c ∈ t, numChar c) (hne : t ≠ []) :
    (t ++ r).dropWhile isSpace = t ++ r := by
  cases t with
  | nil => exact absurd rfl hne
  | cons c t => simp [(h c (by simp)).not_space]

theorem shows_fmtG6 {q : ℚ} (h : (fmtG6 q).length < 63) : Shows (fmtG6 q) (round6 q) :=
  ⟨numChar_fmtG6 q, by simpa using readDecimal_fmtG6 q [] trivial, h⟩

theorem Shows.stof {t : Text} {q : ℚ} (h : Shows t (round6 q)) (hq : RangeFloat q) :
    Apollo.stof (t ++ [',']) = .ok (rnd32 (round6 q), t.length) := by
  have h1 := stof_fmtG6 hq [','] (by simp [Stops]; decide)
  have h2 : readDecimal (t ++ [',']) = some (round6 q, [',']) := by
    rw [readDecimal_comma, h.value]; rfl
  have h3 : readDecimal (fmtG6 q ++ [',']) = some (round6 q, [',']) :=
    readDecimal_fmtG6 q [','] (by simp [Stops]; decide)
  have hg : fmtG6 q ≠ [] := by
    intro e
    have := readDecimal_fmtG6 q [] trivial
    rw [e] at this
    simp [readDecimal, readSign, readFrac] at this
  unfold Apollo.stof readFloat at h1 ⊢
  simp only [dropWhile_num (numChar_fmtG6 q) hg, dropWhile_num h.chars h.ne_nil, h2, h3,
    not_special (numChar_fmtG6 q) (Or.inr rfl), not_special h.chars (Or.inr rfl)] at h1 ⊢
  simp only [Bool.false_eq_true, if_false] at h1 ⊢
  split_ifs at h1 ⊢ with ha hb
  simp only [List.length_append, List.length_singleton, Nat.add_sub_cancel] at h1 ⊢
  have := Except.ok.inj h1
  rw [Prod.mk.injEq] at this
  rw [this.1]

theorem Shows.stod {t : Text} {q : ℚ} (h : Shows t (round6 q)) (hq : RangeDouble q) :
    Apollo.stod t = .ok (rnd64 (round6 q), t.length) := by
  have h1 := stod_fmtG6 hq [] trivial
  have h3 : readDecimal (fmtG6 q) = some (round6 q, []) := by
    simpa using readDecimal_fmtG6 q [] trivial
  have hg : fmtG6 q ≠ [] := by
    intro e
    rw [e] at h3
    simp [readDecimal, readSign, readFrac] at h3
  have e1 := dropWhile_num (r := []) (numChar_fmtG6 q) hg
  have e2 := dropWhile_num (r := []) h.chars h.ne_nil
  have e3 := not_special (r := []) (numChar_fmtG6 q) (Or.inl rfl)
  have e4 := not_special (r := []) h.chars (Or.inl rfl)
  rw [List.append_nil] at e1 e2 e3 e4 h1
  unfold Apollo.stod readFloat at h1 ⊢
  simp only [e1, e2, e3, e4, h.value, h3] at h1 ⊢
  simp only [Bool.false_eq_true, if_false] at h1 ⊢
  split_ifs at h1 ⊢ with ha hb
  simp only [List.length_nil, Nat.sub_zero] at h1 ⊢
  have := Except.ok.inj h1
  rw [Prod.mk.injEq] at this
  rw [this.1]

/-! ## Integers -/

theorem readDecimal_int {s : Text} (h : isInt s = true) : readDecimal s = some ((intValue s : ℚ), []) := by
  simp only [isInt, Bool.and_eq_true, Bool.not_eq_true', List.isEmpty_eq_false_iff,
    List.all_eq_true] at h
  have h1 := takeWhile_digits (readSign s).2 h.2 [] (by simp)
  rw [List.append_nil] at h1
  have e : ¬ ((readSign s).2.takeWhile isDigit = [] ∧
      (readFrac ((readSign s).2.dropWhile isDigit)).1 = []) := by
    rw [h1.1]; exact fun hh => h.1 hh.1
  simp only [readDecimal, if_neg e]
  rw [h1.1, h1.2]
  simp only [readFrac, readExp, List.append_nil, List.length_nil, Nat.cast_zero, sub_zero, zpow_zero,
    mul_one, intValue]
  split_ifs <;> simp

theorem readSign_fmtInt (n : ℤ) : readSign (fmtInt n) = (decide (n < 0), natDigits n.natAbs) := by
  unfold fmtInt
  by_cases h : n < 0
  · simp [h, readSign]
  · rw [if_neg h]
    obtain ⟨c, l, e⟩ : ∃ c l, natDigits n.natAbs = c :: l := by
      cases e : natDigits n.natAbs with
      | nil => exact absurd e (natDigits_ne_nil _)
      | cons c l => exact ⟨c, l, rfl⟩
    rw [e, readSign_of_digit (isDigit_of_mem_natDigits (n := n.natAbs) (by rw [e]; simp))]
    simp [h]

theorem isInt_fmtInt (n : ℤ) : isInt (fmtInt n) = true := by
  simp only [isInt, readSign_fmtInt, Bool.and_eq_true, Bool.not_eq_true', List.isEmpty_eq_false_iff,
    List.all_eq_true]
  exact ⟨natDigits_ne_nil _, fun c hc => isDigit_of_mem_natDigits hc⟩

theorem intValue_fmtInt (n : ℤ) : intValue (fmtInt n) = n := by
  simp only [intValue, readSign_fmtInt, valDigits_natDigits, decide_eq_true_eq]
  split_ifs <;> omega

theorem shows_fmtInt {n : ℤ} (h : (fmtInt n).length < 63) : Shows (fmtInt n) n := by
  refine ⟨(fmtInt_spec n).1, ?_, h⟩
  rw [readDecimal_int (isInt_fmtInt n), intValue_fmtInt]

theorem intValue_fmtG6 {q : ℚ} (h : isInt (fmtG6 q) = true) : (intValue (fmtG6 q) : ℚ) = round6 q := by
  have h1 := readDecimal_int h
  have h2 : readDecimal (fmtG6 q) = some (round6 q, []) := by
    simpa using readDecimal_fmtG6 q [] trivial
  rw [h2] at h1
  exact (congrArg Prod.fst (Option.some.inj h1)).symm

theorem isNumber_fmtG6 (q : ℚ) : isNumber (fmtG6 q) = true := by
  have h2 : readDecimal (fmtG6 q) = some (round6 q, []) := by
    simpa using readDecimal_fmtG6 q [] trivial
  simp [isNumber, h2]

theorem not_na_num {s : Text} (h : ∀ c ∈ s, numChar c) (hne : s ≠ []) : isNa s = false := by
  rw [isNa, decide_eq_false_iff_not]
  intro hm
  have key : ∀ w ∈ naTexts, w = [] ∨ w.any (fun c => !(isDigit c || decide (c ∈ ['-', '+', '.', 'e']))) = true := by
    decide
  rcases key s hm with h1 | h1
  · exact hne h1
  · obtain ⟨c, hc, h2⟩ := List.any_eq_true.1 h1
    have := h c hc
    rcases this with h | rfl | rfl | rfl | rfl
    · simp [h] at h2
    all_goals revert h2; decide

theorem not_odd_num {s : Text} (h : ∀ c ∈ s, numChar c) (hb : isInt s = true → |intValue s| < 2 ^ 63) :
    isOdd s = false := by
  have hx : ∀ c ∈ s, c ≠ '"' ∧ c ≠ '\r' ∧ c.toLower ≠ 'n' ∧ c.toLower ≠ 'u' ∧ c.toLower ≠ 's' := by
    intro c hc
    have := h c hc
    refine ⟨this.ne (by decide), this.ne (by decide), ?_⟩
    rcases this with h | rfl | rfl | rfl | rfl
    · rw [toLower_digit h]
      refine ⟨?_, ?_, ?_⟩ <;> (rintro rfl; revert h; decide)
    all_goals decide
  simp only [isOdd, Bool.or_eq_false_iff, decide_eq_false_iff_not, Bool.and_eq_false_iff]
  refine ⟨⟨⟨?_, ?_⟩, ?_⟩, ?_⟩
  · rw [List.contains_eq_mem, decide_eq_false_iff_not]
    exact fun hm => (hx _ hm).1 rfl
  · rw [List.contains_eq_mem, decide_eq_false_iff_not]
    exact fun hm => (hx _ hm).2.1 rfl
  · intro hm
    have key : ∀ w ∈ (["inf", "+inf", "-inf", "infinity", "+infinity", "-infinity", "true",
        "false"].map String.toList), 'n' ∈ w ∨ 'u' ∈ w ∨ 's' ∈ w := by
      decide
    rcases key _ hm with h1 | h1 | h1 <;> obtain ⟨c, hc, e⟩ := List.mem_map.1 h1
    · exact (hx c hc).2.2.1 e
    · exact (hx c hc).2.2.2.1 e
    · exact (hx c hc).2.2.2.2 e
  · by_cases hi : isInt s = true
    · exact Or.inr (by have := hb hi; omega)
    · exact Or.inl (by simpa using hi)

theorem valDigits_lt (l : List Char) (h : ∀ c ∈ l, isDigit c = true) : valDigits l < 10 ^ l.length := by
  induction l using List.reverseRecOn with
  | nil => simp
  | append_singleton l c ih =>
    have h1 := ih fun c hc => h c (by simp [hc])
    have h2 := h c (by simp)
    simp only [isDigit, Bool.and_eq_true, decide_eq_true_eq] at h2
    rw [valDigits_append, valDigits_singleton]
    simp only [List.length_append, List.length_singleton, pow_succ, digitVal]
    omega

/-- An integer in the default format is small. -/
theorem intValue_fmtG6_lt {q : ℚ} (h : isInt (fmtG6 q) = true) : |intValue (fmtG6 q)| < 10 ^ 6 := by
  have h' := h
  simp only [isInt, Bool.and_eq_true, Bool.not_eq_true', List.isEmpty_eq_false_iff,
    List.all_eq_true] at h
  have hlen : (readSign (fmtG6 q)).2.length ≤ 6 := by
    revert h
    unfold fmtG6
    by_cases hq : q = 0
    · rw [if_pos hq]; intro; decide
    · rw [if_neg hq]
      have hd := parts6_spec (abs_pos.2 hq)
      generalize parts6 |q| = P at hd
      obtain ⟨ip, fp, ex⟩ := P
      obtain ⟨d1, d2, -, -, d5, -⟩ := hd
      have e : (readSign (render (decide (q < 0)) ip fp ex)).2 =
          ip ++ (if fp = [] then [] else '.' :: fp) ++ fmtExpOpt ex := by
        unfold render
        by_cases hn : q < 0
        · simp [hn, readSign]
        · obtain ⟨c, l, rfl⟩ : ∃ c l, ip = c :: l := by
            cases ip with
            | nil => exact absurd rfl d1
            | cons c l => exact ⟨c, l, rfl⟩
          simp only [hn, decide_false, Bool.false_eq_true, if_false, List.nil_append, List.cons_append]
          rw [readSign_of_digit (d2 c (by simp))]
      simp only [e]
      rintro ⟨-, h⟩
      have hf : fp = [] := by
        by_contra hf
        have := h '.' (by simp [hf])
        revert this; decide
      have hx : ex = none := by
        cases ex with
        | none => rfl
        | some x =>
          have := h 'e' (by simp [fmtExpOpt])
          exact absurd this (by decide)
      subst hf hx
      simpa [fmtExpOpt] using d5
  have h1 := valDigits_lt _ h.2
  have h2 : (10 : ℕ) ^ (readSign (fmtG6 q)).2.length ≤ 10 ^ 6 := Nat.pow_le_pow_right (by norm_num) hlen
  have h3 : |intValue (fmtG6 q)| = (valDigits (readSign (fmtG6 q)).2 : ℤ) := by
    unfold intValue
    split_ifs
    · rw [abs_neg, abs_of_nonneg (by positivity)]
    · rw [abs_of_nonneg (by positivity)]
  rw [h3]
  have : valDigits (readSign (fmtG6 q)).2 < 10 ^ 6 := by omega
  exact_mod_cast this

theorem not_odd_fmtG6 (q : ℚ) : isOdd (fmtG6 q) = false :=
  not_odd_num (numChar_fmtG6 q) fun h => lt_trans (intValue_fmtG6_lt h) (by norm_num)

theorem not_odd_fmtInt {n : ℤ} (h : |n| < 2 ^ 63) : isOdd (fmtInt n) = false :=
  not_odd_num (fmtInt_spec n).1 fun _ => by rwa [intValue_fmtInt]

theorem fmtG6_ne_nil (q : ℚ) : fmtG6 q ≠ [] := by
  intro e
  have := readDecimal_fmtG6 q [] trivial
  rw [e] at this
  simp [readDecimal, readSign, readFrac] at this

/-! ## Names -/

theorem isAlpha_not_digit {c : Char} (h : c.isAlpha = true) : isDigit c = false := by
  rw [isDigit, Bool.and_eq_false_iff, decide_eq_false_iff_not, decide_eq_false_iff_not]
  refine Or.inr fun h1 => ?_
  have h0 : c.toNat = c.val.toNat := rfl
  simp only [Char.isAlpha, Char.isUpper, Char.isLower, Bool.or_eq_true, Bool.and_eq_true,
    decide_eq_true_eq] at h
  rcases h with ⟨h, -⟩ | ⟨h, -⟩
  · have h2 : (65 : UInt32).toNat ≤ c.val.toNat := h
    have h3 : (65 : UInt32).toNat = 65 := rfl
    omega
  · have h2 : (97 : UInt32).toNat ≤ c.val.toNat := h
    have h3 : (97 : UInt32).toNat = 97 := rfl
    omega

theorem _root_.Apollo.Spec.Ordinary.ne {s : Text} (h : Ordinary s) : s ≠ [] := by
  obtain ⟨⟨c, l, rfl, -⟩, -⟩ := h
  simp

theorem _root_.Apollo.Spec.Ordinary.plain {s : Text} (h : Ordinary s) : Plain s := ⟨h.2.1, h.2.2.1⟩

theorem _root_.Apollo.Spec.Ordinary.readDecimal {s : Text} (h : Ordinary s) : Apollo.readDecimal s = none := by
  obtain ⟨⟨c, l, rfl, hc⟩, -⟩ := h
  have hd := isAlpha_not_digit hc
  have h1 : c ≠ '-' := by rintro rfl; revert hc; decide
  have h2 : c ≠ '+' := by rintro rfl; revert hc; decide
  have h3 : c ≠ '.' := by rintro rfl; revert hc; decide
  simp [Apollo.readDecimal, readSign, h1, h2, hd, readFrac, h3]

theorem _root_.Apollo.Spec.Ordinary.not_number {s : Text} (h : Ordinary s) : isNumber s = false := by
  simp [isNumber, h.readDecimal]

theorem _root_.Apollo.Spec.Ordinary.not_int {s : Text} (h : Ordinary s) : isInt s = false := by
  by_contra hi
  have := readDecimal_int (by simpa using hi)
  rw [h.readDecimal] at this
  cases this

theorem _root_.Apollo.Spec.Ordinary.not_na {s : Text} (h : Ordinary s) : isNa s = false := by
  rw [isNa, decide_eq_false_iff_not]
  intro hm
  obtain ⟨⟨c, l, e, hc⟩, -, -, -, -, hw⟩ := h
  have key : ∀ w ∈ naTexts, (∀ c ∈ w.head?, c.isAlpha = false) ∨ w.map Char.toLower ∈
      ["n/a", "na", "null", "nan", "none", "inf", "infinity", "true", "false"].map String.toList := by
    decide
  rcases key s hm with h1 | h1
  · have := h1 c (by rw [e]; rfl)
    rw [hc] at this
    cases this
  · exact hw h1

theorem toLower_alpha_ne {c d : Char} (h : c.isAlpha = true) (hd : d = '+' ∨ d = '-') :
    c.toLower ≠ d := by
  intro e
  have : c.toLower.isAlpha = true := by
    rw [Char.isAlpha, Char.isUpper, Char.isLower] at h ⊢
    simp only [Bool.or_eq_true, Bool.and_eq_true, decide_eq_true_eq] at h ⊢
    unfold Char.toLower
    split_ifs with hu
    · refine Or.inr ?_
      obtain ⟨h1, h2⟩ := hu
      have h1' : (65 : UInt32).toNat ≤ c.val.toNat := h1
      have h2' : c.val.toNat ≤ (90 : UInt32).toNat := h2
      have e1 : (65 : UInt32).toNat = 65 := rfl
      have e2 : (90 : UInt32).toNat = 90 := rfl
      have e3 : (c.val + ('a'.val - 'A'.val)).toNat = c.val.toNat + 32 := by
        rw [UInt32.toNat_add]
        have : ('a'.val - 'A'.val).toNat = 32 := by decide
        rw [this]
        omega
      constructor
      · show (97 : UInt32).toNat ≤ (c.val + ('a'.val - 'A'.val)).toNat
        rw [e3]; show 97 ≤ _; omega
      · show (c.val + ('a'.val - 'A'.val)).toNat ≤ (122 : UInt32).toNat
        rw [e3]; show _ ≤ 122; omega
    · exact h
  rw [e] at this
  rcases hd with rfl | rfl <;> revert this <;> decide

theorem _root_.Apollo.Spec.Ordinary.not_odd {s : Text} (h : Ordinary s) : isOdd s = false := by
  have hi := h.not_int
  obtain ⟨⟨c, l, e, hc⟩, -, -, hr, hq, hw⟩ := h
  simp only [isOdd, Bool.or_eq_false_iff, decide_eq_false_iff_not, Bool.and_eq_false_iff]
  refine ⟨⟨⟨by rw [List.contains_eq_mem, decide_eq_false_iff_not]; exact hq,
    by rw [List.contains_eq_mem, decide_eq_false_iff_not]; exact hr⟩, ?_⟩, Or.inl hi⟩
  intro hm
  have key : ∀ w ∈ (["inf", "+inf", "-inf", "infinity", "+infinity", "-infinity", "true",
      "false"].map String.toList), w.head? = some '+' ∨ w.head? = some '-' ∨ w ∈
      ["n/a", "na", "null", "nan", "none", "inf", "infinity", "true", "false"].map String.toList := by
    decide
  have hh : (s.map Char.toLower).head? = some c.toLower := by rw [e]; rfl
  rcases key _ hm with h1 | h1 | h1
  · rw [hh] at h1
    exact toLower_alpha_ne hc (Or.inl rfl) (Option.some.inj h1)
  · rw [hh] at h1
    exact toLower_alpha_ne hc (Or.inr rfl) (Option.some.inj h1)
  · exact hw h1

end Apollo.Scripts
