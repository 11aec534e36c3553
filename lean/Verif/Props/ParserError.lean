import Verif.Model.ParserError
import Mathlib.Data.List.TakeWhile

/-!
# Property C93: a parse error shows where it is
-/

namespace Apollo.Props

open Apollo

/-- The message of a parse error: the line, a mark under the character with a number (from 1), the number
of the line and of the character, and what is wrong. -/
def placeText (line : List Char) (lineno : ℕ) (col : ℕ) (msg : List Char) : List Char :=
  line ++ "\n".toList ++ List.replicate (col - 1) ' ' ++ "^\n".toList ++ "Line: ".toList ++ fmtInt lineno ++
    " Col: ".toList ++ fmtInt col ++ ", Parse error: ".toList ++ msg ++ "\n".toList

/-- In the text `full` the line `x ++ y` follows the text `a`, and `r` follows `x`. -/
structure OnLine (full a x y r : List Char) : Prop where
  text : full = a ++ x ++ r
  before : a = [] ∨ ∃ b, a = b ++ ['\n']
  line : '\n' ∉ x ∧ '\n' ∉ y
  after : r = y ∨ ∃ z, r = y ++ '\n' :: z

/-- C93: whenever reading stops with `x` the part of a line that has been read, the message shows that line,
its number, and marks the last character that was read. -/
def C93_claim : Prop :=
  ∀ full a x y r msg, OnLine full a x y r → x ≠ [] →
    errorText full (full.length - r.length) msg = placeText (x ++ y) (a.count '\n' + 1) x.length msg

/-- The loop inside of a line. -/
theorem errorLoop_line (p : ℕ) (cur l : List Char) (n k : ℕ) (c : ℤ) (s : List Char) (h : '\n' ∉ l) :
    errorLoop p cur n k c (l ++ s) = errorLoop p (cur ++ l) (n + l.length) k c s := by
  induction l generalizing cur n with
  | nil => simp
  | cons d l ih =>
    simp only [List.mem_cons, not_or] at h
    rw [List.cons_append, errorLoop, if_neg (Ne.symm h.1), ih _ _ h.2]
    simp [Nat.add_assoc, Nat.add_comm 1]

/-- The loop over lines that end before the position. -/
theorem errorLoop_lines (p : ℕ) (a cur : List Char) (n k : ℕ) (c : ℤ) (s : List Char)
    (h : n + a.length + 1 < p) :
    errorLoop p cur n k c (a ++ '\n' :: s) =
      errorLoop p [] (n + a.length + 1) (k + a.count '\n' + 1) ((n + a.length + 1 : ℕ) : ℤ) s := by
  induction a generalizing cur n k c with
  | nil =>
    simp only [List.length_nil, Nat.add_zero] at h
    rw [List.nil_append, errorLoop, if_pos rfl, if_neg (by omega)]
    simp
  | cons d a ih =>
    simp only [List.length_cons] at h
    rw [List.cons_append, errorLoop]
    split
    · next hd =>
      subst hd
      rw [if_neg (by omega), ih _ _ _ _ (by omega)]
      simp only [List.length_cons, List.count_cons_self]
      rw [show n + 1 + a.length + 1 = n + (a.length + 1) + 1 by omega,
        show k + 1 + List.count '\n' a + 1 = k + (List.count '\n' a + 1) + 1 by omega]
    · next hd =>
      rw [ih _ _ _ _ (by omega)]
      simp only [List.length_cons, List.count_cons_of_ne hd]
      rw [show n + 1 + a.length + 1 = n + (a.length + 1) + 1 by omega]

/-- C93, part: it holds for the lines from the second one that end with a line break.  (Missing: the first
line, and a last line without line break, see `C93_first` and `C93_last`.) -/
theorem C93_partial (full a x y z msg : List Char) (h : OnLine full a x y (y ++ '\n' :: z)) (ha : a ≠ [])
    (hx : x ≠ []) :
    errorText full (full.length - (y ++ '\n' :: z).length) msg =
      placeText (x ++ y) (a.count '\n' + 1) x.length msg := by
  obtain ⟨h1, h2, ⟨h3, h4⟩, -⟩ := h
  rcases h2 with rfl | ⟨b, rfl⟩
  · exact absurd rfl ha
  have hpos : 0 < x.length := List.length_pos_iff.2 hx
  have hp : full.length - (y ++ '\n' :: z).length = b.length + 1 + x.length := by
    rw [h1]; simp only [List.length_append, List.length_cons, List.length_nil]; omega
  have hl : errorPlace full (b.length + 1 + x.length) = (x ++ y, b.count '\n' + 2, (x.length : ℤ)) := by
    unfold errorPlace
    rw [h1, show b ++ ['\n'] ++ x ++ (y ++ '\n' :: z) = b ++ '\n' :: (x ++ (y ++ '\n' :: z)) by simp,
      errorLoop_lines _ _ _ _ _ _ _ (by omega), errorLoop_line _ _ _ _ _ _ _ h3,
      errorLoop_line _ _ _ _ _ _ _ h4, errorLoop, if_pos rfl, if_pos (by omega)]
    simp only [List.nil_append, Prod.mk.injEq, true_and]
    constructor
    · omega
    · push_cast; ring
  unfold errorText placeText
  rw [hp, hl]
  simp only [List.count_append, List.count_singleton_self]
  rw [show ((x.length : ℤ) - 1).toNat = x.length - 1 by omega]

/-- C93 on the first line, if it ends with a line break: the mark and the number of the character are one
too small. -/
theorem C93_first (full x y z msg : List Char) (h : OnLine full [] x y (y ++ '\n' :: z)) (hx : 2 ≤ x.length) :
    errorText full (full.length - (y ++ '\n' :: z).length) msg =
      placeText (x ++ y) 1 (x.length - 1) msg := by
  obtain ⟨h1, -, ⟨h3, h4⟩, -⟩ := h
  have hp : full.length - (y ++ '\n' :: z).length = x.length := by
    rw [h1]; simp only [List.length_append, List.length_cons, List.length_nil]; omega
  have hl : errorPlace full x.length = (x ++ y, 1, (x.length : ℤ) - 1) := by
    unfold errorPlace
    rw [h1, List.nil_append, errorLoop_line _ _ _ _ _ _ _ h3,
      errorLoop_line _ _ _ _ _ _ _ h4, errorLoop, if_pos rfl, if_pos (by omega)]
    rfl
  unfold errorText placeText
  rw [hp, hl]
  simp only
  rw [show ((x.length : ℤ) - 1 - 1).toNat = x.length - 1 - 1 by omega,
    show ((x.length - 1 : ℕ) : ℤ) = (x.length : ℤ) - 1 by omega]

/-- C93 on a last line without line break: the number of the line is one too large, and the mark and the
number of the character count from the start of the file. -/
theorem C93_last (full a x y msg : List Char) (h : OnLine full a x y y) (hx : x ≠ []) :
    errorText full (full.length - y.length) msg =
      placeText (x ++ y) (a.count '\n' + 2) (a.length + x.length + 1) msg := by
  obtain ⟨h1, h2, ⟨h3, h4⟩, -⟩ := h
  have hpos : 0 < x.length := List.length_pos_iff.2 hx
  have hp : full.length - y.length = a.length + x.length := by
    rw [h1]; simp only [List.length_append]; omega
  have hl : errorPlace full (a.length + x.length) =
      (x ++ y, a.count '\n' + 2, ((a.length + x.length + 1 : ℕ) : ℤ)) := by
    unfold errorPlace
    rcases h2 with rfl | ⟨b, rfl⟩
    · rw [h1, List.nil_append, errorLoop_line _ _ _ _ _ _ _ h3, ← List.append_nil y,
        errorLoop_line _ _ _ _ _ _ _ (by simpa using h4), errorLoop, if_neg (by simp [hx])]
      simp only [List.nil_append, List.append_nil, Prod.mk.injEq, true_and]
      refine ⟨by simp, by push_cast; ring⟩
    · rw [h1, show b ++ ['\n'] ++ x ++ y = b ++ '\n' :: (x ++ (y ++ [])) by simp]
      simp only [List.length_append, List.length_cons, List.length_nil]
      rw [errorLoop_lines _ _ _ _ _ _ _ (by omega), errorLoop_line _ _ _ _ _ _ _ h3,
        errorLoop_line _ _ _ _ _ _ _ h4, errorLoop, if_neg (by simp [hx])]
      simp only [List.nil_append, Prod.mk.injEq, true_and]
      refine ⟨by simp; omega, by push_cast; ring⟩
  unfold errorText placeText
  rw [hp, hl]
  simp only
  rw [show (((a.length + x.length + 1 : ℕ) : ℤ) - 1).toNat = a.length + x.length + 1 - 1 by omega]

/-- C93 is false on the first line: the mark is not under the last character of `bad`. -/
theorem C93_fails : ¬ C93_claim := by
  intro h
  have := h "bad: {\n}\n".toList [] "bad:".toList " {".toList " {\n}\n".toList "x".toList
    ⟨rfl, Or.inl rfl, by decide, Or.inr ⟨"}\n".toList, rfl⟩⟩ (by decide)
  exact absurd this (by decide +kernel)

theorem skipBlanks_suffix : ∀ (b : Bool) (s s' : List Char), skipBlanks b s = .ok s' → ∃ w, s = w ++ s'
  | _, [], s', h => by cases h
  | true, c :: s, s', h => by
    rw [skipBlanks] at h
    split at h
    · obtain ⟨w, rfl⟩ := skipBlanks_suffix _ _ _ h; exact ⟨c :: w, rfl⟩
    · obtain ⟨w, rfl⟩ := skipBlanks_suffix _ _ _ h; exact ⟨c :: w, rfl⟩
  | false, c :: s, s', h => by
    rw [skipBlanks] at h
    split at h
    · obtain ⟨w, rfl⟩ := skipBlanks_suffix _ _ _ h; exact ⟨c :: w, rfl⟩
    · split at h
      · obtain ⟨w, rfl⟩ := skipBlanks_suffix _ _ _ h; exact ⟨c :: w, rfl⟩
      · cases h; exact ⟨[], rfl⟩

theorem split_last (s : List Char) :
    ∃ a u, s = a ++ u ∧ '\n' ∉ u ∧ (a = [] ∨ ∃ b, a = b ++ ['\n']) := by
  induction s with
  | nil => exact ⟨[], [], rfl, by simp, Or.inl rfl⟩
  | cons c s ih =>
    obtain ⟨a, u, rfl, hu, ha⟩ := ih
    rcases ha with rfl | ⟨b, rfl⟩
    · by_cases hc : c = '\n'
      · exact ⟨['\n'], u, by simp [hc], hu, Or.inr ⟨[], rfl⟩⟩
      · exact ⟨[], c :: u, rfl, by simp [hu, Ne.symm hc], Or.inl rfl⟩
    · exact ⟨c :: (b ++ ['\n']), u, rfl, hu, Or.inr ⟨c :: b, rfl⟩⟩

theorem split_first (s : List Char) : ∃ y, '\n' ∉ y ∧ (s = y ∨ ∃ z, s = y ++ '\n' :: z) := by
  induction s with
  | nil => exact ⟨[], by simp, Or.inl rfl⟩
  | cons c s ih =>
    by_cases hc : c = '\n'
    · exact ⟨[], by simp, Or.inr ⟨s, by simp [hc]⟩⟩
    · obtain ⟨y, hy, h⟩ := ih
      refine ⟨c :: y, by simp [hy, Ne.symm hc], ?_⟩
      rcases h with rfl | ⟨z, rfl⟩
      · exact Or.inl rfl
      · exact Or.inr ⟨z, rfl⟩

/-- C93 for the parser: if the parser finds another token than it expects, the token is the end of the
part of its line that has been read; if this is not the first line and it ends with a line break, the
message shows the line, its number, and marks the last character of the token.  (Missing: other lines.) -/
theorem C93_expected_partial (full pre s e t r : List Char) (hf : full = pre ++ s) (hn : nul ∉ full)
    (ht : nextToken s = .ok (t, r)) (hne : t ≠ []) (hte : t ≠ e) :
    ∃ a x y u, OnLine full a x y r ∧ x = u ++ t ∧
      (a ≠ [] → (∃ z, r = y ++ '\n' :: z) → expectMessage full e s =
        some (placeText (x ++ y) (a.count '\n' + 1) x.length
          ("Expected \"".toList ++ e ++ "\" but parsed \"".toList ++ t ++ "\"".toList))) := by
  obtain ⟨w, h1, h2⟩ : ∃ w, s = w ++ t ++ r ∧ ∀ c ∈ t, isSpace c = false := by
    cases s with
    | nil =>
      simp only [nextToken, Except.ok.injEq, Prod.mk.injEq] at ht
      exact absurd ht.1.symm hne
    | cons c s =>
      simp only [nextToken] at ht
      obtain ⟨s1, hs1, ht⟩ := (Res.bind_eq_ok _ _ _).1 ht
      obtain ⟨w, hw⟩ := skipBlanks_suffix _ _ _ hs1
      split at ht
      · cases ht
      · split at ht
        · cases ht
        · simp only [Except.ok.injEq, Prod.mk.injEq] at ht
          obtain ⟨e1, e2⟩ := ht
          have h0 : cstr (s1.takeWhile fun c => !isSpace c) = s1.takeWhile fun c => !isSpace c := by
            unfold cstr
            rw [List.takeWhile_eq_self_iff]
            intro d hd
            refine decide_eq_true ?_
            rintro rfl
            refine hn ?_
            rw [hf, hw]
            exact List.mem_append_right _ (List.mem_append_right _ (List.takeWhile_subset _ hd))
          rw [h0] at e1
          refine ⟨w, ?_, ?_⟩
          · rw [hw, ← e1, ← e2, List.append_assoc, List.takeWhile_append_dropWhile]
          · intro d hd
            rw [← e1] at hd
            simpa using List.mem_takeWhile_imp hd
  obtain ⟨a, u, h3, h4, h5⟩ := split_last (pre ++ w)
  obtain ⟨y, h6, h7⟩ := split_first r
  have htn : '\n' ∉ t := fun h => absurd (h2 _ h) (by decide)
  have hon : OnLine full a (u ++ t) y r := by
    refine ⟨?_, h5, ⟨by simp [h4, htn], h6⟩, h7⟩
    rw [hf, h1, ← List.append_assoc, ← List.append_assoc, h3]
    simp
  refine ⟨a, u ++ t, y, u, hon, rfl, ?_⟩
  rintro ha ⟨z, rfl⟩
  unfold expectMessage
  rw [ht]
  simp only [if_neg hte, Option.some.injEq]
  exact C93_partial full a (u ++ t) y z _ hon ha (by simp [hne])

/-- An error in the second line of a file. -/
example : expectMessage "tree: {\n  maxdepth: 2,\n".toList "max_depth:".toList "\n  maxdepth: 2,\n".toList =
    some ("  maxdepth: 2,\n          ^\nLine: 2 Col: 11, Parse error: Expected \"max_depth:\" but parsed " ++
      "\"maxdepth:\"\n").toList := by decide +kernel

/-- The same error in a file of one line: the line has the wrong number and the mark is far off. -/
example : expectMessage "tree: { maxdepth: 2,".toList "max_depth:".toList " maxdepth: 2,".toList =
    some ("tree: { maxdepth: 2,\n                 ^\nLine: 2 Col: 18, Parse error: Expected \"max_depth:\" but parsed " ++
      "\"maxdepth:\"\n").toList := by decide +kernel

end Apollo.Props
