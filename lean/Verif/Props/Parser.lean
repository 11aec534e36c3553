import Verif.Proofs.Parser

/-!
# Property C08: the tokenizer

`getNextTokenRaw buf s` is `Parser::getNextToken` on the 64 byte buffer `buf` and the rest `s` of the
stream; a store outside of the buffer is the outcome `ub outOfBounds`.
-/

namespace Apollo.Props

open Apollo

/-- Specification: text the tokenizer may skip — white space, and comments from `#` to the end of the
line. -/
inductive Skippable : List Char → Prop
  | nil : Skippable []
  | space (c : Char) (s : List Char) : isSpace c = true → Skippable s → Skippable (c :: s)
  | comment (t s : List Char) : (∀ c ∈ t, c ≠ '\n') → Skippable s →
      Skippable ('#' :: t ++ '\n' :: s)

theorem Skippable.append {v w : List Char} (hv : Skippable v) (hw : Skippable w) : Skippable (v ++ w) := by
  induction hv with
  | nil => exact hw
  | space c s hc _ ih => exact .space c _ hc ih
  | comment t s ht _ ih =>
    have := Skippable.comment t _ ht ih
    simpa using this

/-- Specification: the stream ends before a token does — behind skippable text, within a comment, or within
a token that still fits in the buffer. -/
inductive Unfinished : List Char → Prop
  | blanks (w : List Char) : Skippable w → Unfinished w
  | comment (w t : List Char) : Skippable w → (∀ c ∈ t, c ≠ '\n') → Unfinished (w ++ '#' :: t)
  | token (w t : List Char) : Skippable w → t.length ≤ 63 → (∀ c ∈ t, isSpace c = false) →
      Unfinished (w ++ t)

theorem Unfinished.prepend {v s : List Char} (h : Unfinished s) (hv : Skippable v) : Unfinished (v ++ s) := by
  cases h with
  | blanks w hw => exact .blanks _ (hv.append hw)
  | comment w t hw ht => rw [← List.append_assoc]; exact .comment _ t (hv.append hw) ht
  | token w t hw h1 h2 => rw [← List.append_assoc]; exact .token _ t (hv.append hw) h1 h2

theorem skippable_of_blanks (b : Bool) (s r : List Char) (h : skipBlanks b s = .ok r) :
    ∃ w, s = w ++ r ∧
      (if b then ∃ t w', (∀ c ∈ t, c ≠ '\n') ∧ w = t ++ '\n' :: w' ∧ Skippable w'
       else Skippable w) := by
  induction s generalizing b with
  | nil => simp [skipBlanks] at h
  | cons c s ih =>
    cases b with
    | true =>
      simp only [skipBlanks] at h
      split at h
      · next hc =>
        obtain ⟨w, hw, hs⟩ := ih _ h
        refine ⟨c :: w, by rw [hw]; rfl, ?_⟩
        simp only [if_true]
        exact ⟨[], w, by simp, by simp [hc], by simpa using hs⟩
      · next hc =>
        obtain ⟨w, hw, hs⟩ := ih _ h
        simp only [if_true] at hs ⊢
        obtain ⟨t, w', h1, h2, h3⟩ := hs
        exact ⟨c :: w, by rw [hw]; rfl, c :: t, w', by simpa using ⟨hc, h1⟩, by simp [h2], h3⟩
    | false =>
      simp only [skipBlanks] at h
      split at h
      · next hc =>
        obtain ⟨w, hw, hs⟩ := ih _ h
        exact ⟨c :: w, by rw [hw]; rfl, by simpa using Skippable.space c w hc (by simpa using hs)⟩
      · split at h
        · next hc =>
          obtain ⟨w, hw, hs⟩ := ih _ h
          simp only [if_true] at hs
          obtain ⟨t, w', h1, h2, h3⟩ := hs
          subst h2
          refine ⟨'#' :: (t ++ '\n' :: w'), by rw [hw, hc]; rfl, ?_⟩
          simp only [Bool.false_eq_true, if_false]
          exact Skippable.comment t w' h1 h3
        · cases h
          exact ⟨[], rfl, by simpa using Skippable.nil⟩

theorem blanks_unfinished (b : Bool) (s : List Char) (e : Err) (h : skipBlanks b s = .error e) :
    if b then (∀ c ∈ s, c ≠ '\n') ∨ ∃ t s', (∀ c ∈ t, c ≠ '\n') ∧ s = t ++ '\n' :: s' ∧ Unfinished s'
    else Unfinished s := by
  induction s generalizing b with
  | nil =>
    cases b with
    | true => simp
    | false => exact .blanks [] .nil
  | cons c s ih =>
    cases b with
    | true =>
      simp only [skipBlanks] at h
      simp only [if_true]
      split at h
      · next hc =>
        exact .inr ⟨[], s, by simp, by simp [hc], by simpa using ih _ h⟩
      · next hc =>
        have := ih _ h
        simp only [if_true] at this
        rcases this with h1 | ⟨t, s', h1, h2, h3⟩
        · exact .inl (by simpa using ⟨hc, h1⟩)
        · exact .inr ⟨c :: t, s', by simpa using ⟨hc, h1⟩, by simp [h2], h3⟩
    | false =>
      simp only [skipBlanks] at h
      simp only [Bool.false_eq_true, if_false]
      split at h
      · next hc =>
        have := ih _ h
        simp only [Bool.false_eq_true, if_false] at this
        exact this.prepend (.space c [] hc .nil)
      · split at h
        · next hc =>
          subst hc
          have := ih _ h
          simp only [if_true] at this
          rcases this with h1 | ⟨t, s', h1, rfl, h3⟩
          · exact .comment [] s .nil h1
          · have := h3.prepend (.comment t [] h1 .nil)
            simpa using this
        · simp at h

/-- C08: for every stream and every content of the buffer, one of
* a token: the stream is skippable text, then a non-empty token of at most 63 characters without
  white space, then the rest, which begins with white space; the buffer holds the token and a NUL;
* at the end of the stream, the empty token;
* `abort`, and the stream has a token of more than 63 characters;
* the end of the stream is reached before the end of a token.
In particular no store is outside of the buffer.

Full statement: the last case should not exist or should stop the program.  Missing: it dereferences
the end iterator, which is undefined (`C08_end_of_stream_undefined`). -/
theorem C08_tokenizer_partial (buf : List Char) (hb : buf.length = 64) (s : List Char) :
    (∃ b w t r, getNextTokenRaw buf s = .ok (b, r) ∧ b.length = 64 ∧ s = w ++ t ++ r ∧
      Skippable w ∧ t ≠ [] ∧ t.head? ≠ some '#' ∧ t.length ≤ 63 ∧ (∀ c ∈ t, isSpace c = false) ∧
      (∃ c r', r = c :: r' ∧ isSpace c = true) ∧ ∃ b', b = t ++ nul :: b') ∨
    (∃ b', s = [] ∧ getNextTokenRaw buf s = .ok (nul :: b', [])) ∨
    (getNextTokenRaw buf s = .error .abort ∧ ∃ w t r, s = w ++ t ++ r ∧ Skippable w ∧
      t.length = 64 ∧ t.head? ≠ some '#' ∧ ∀ c ∈ t, isSpace c = false) ∨
    (getNextTokenRaw buf s = .error (.ub .endOfStream) ∧ s ≠ [] ∧ Unfinished s) := by
  have hb' : buf.length = BUFSIZE := hb
  cases s with
  | nil =>
    right; left
    cases buf with
    | nil => simp at hb
    | cons b buf => exact ⟨buf, rfl, by simp [getNextTokenRaw, bufSet]⟩
  | cons c s =>
    have e1 : getNextTokenRaw buf (c :: s) = (skipBlanks false (c :: s) >>= fun s' =>
      copyToken buf 0 s' >>= fun x => bufSet x.1 x.2.1 nul >>= fun b => .ok (b, x.2.2)) := rfl
    rw [e1]
    cases hsk : skipBlanks false (c :: s) with
    | error e =>
      have := skipBlanks_error _ _ _ hsk
      subst this
      right; right; right
      exact ⟨rfl, by simp, by simpa using blanks_unfinished _ _ _ hsk⟩
    | ok s' =>
      obtain ⟨w, hw, hskip⟩ := skippable_of_blanks _ _ _ hsk
      simp only [Bool.false_eq_true, if_false] at hskip
      obtain ⟨-, c', r', hs', hc'⟩ := skipBlanks_length _ _ _ hsk
      have hhash : s'.head? ≠ some '#' := by
        have key : ∀ b s r, skipBlanks b s = .ok r → r.head? ≠ some '#' := by
          intro b s
          induction s generalizing b with
          | nil => intro r h; simp [skipBlanks] at h
          | cons c s ih =>
            intro r h
            cases b with
            | true => simp only [skipBlanks] at h; split at h <;> exact ih _ _ h
            | false =>
              simp only [skipBlanks] at h
              split at h
              · exact ih _ _ h
              · split at h
                · exact ih _ _ h
                · next hc => cases h; simpa using hc
        exact key _ _ _ hsk
      simp only [Res.bind_ok]
      rw [copyToken_spec buf hb' 0 (by decide)]
      simp only [Nat.zero_add, List.take_zero, List.nil_append]
      generalize ht : List.takeWhile (fun c => !isSpace c) s' = t
      generalize hr : List.dropWhile (fun c => !isSpace c) s' = r
      have happ : s' = t ++ r := by rw [← ht, ← hr, List.takeWhile_append_dropWhile]
      have hsp : ∀ c ∈ t, isSpace c = false := by
        intro x hx
        rw [← ht] at hx
        have := List.all_takeWhile (p := fun c => !isSpace c) (l := s')
        rw [List.all_eq_true] at this
        simpa using this x hx
      have htne : t ≠ [] := by
        rw [← ht, hs', List.takeWhile_cons]; simp [hc']
      have hth : t.head? ≠ some '#' := by
        cases t with
        | nil => exact absurd rfl htne
        | cons x t => rw [happ] at hhash; simpa using hhash
      by_cases hlen : BUFSIZE ≤ t.length
      · right; right; left
        rw [if_pos hlen]
        refine ⟨rfl, w, t.take 64, t.drop 64 ++ r, ?_, hskip, ?_, ?_, ?_⟩
        · rw [hw, happ, List.append_assoc, ← List.append_assoc (t.take 64), List.take_append_drop]
        · rw [List.length_take]; exact min_eq_left hlen
        · cases t with
          | nil => exact absurd rfl htne
          | cons x t => simpa using hth
        · intro x hx; exact hsp x (List.mem_of_mem_take hx)
      · rw [if_neg hlen]
        by_cases hr0 : r = []
        · rw [if_pos hr0]; right; right; right
          refine ⟨rfl, by simp, ?_⟩
          rw [hw, happ, hr0, List.append_nil]
          exact .token w t hskip (by unfold BUFSIZE at hlen; omega) hsp
        · left
          rw [if_neg hr0]
          simp only [Res.bind_ok, bufSet]
          have hl : (t ++ List.drop t.length buf).length = BUFSIZE := by
            rw [List.length_append, List.length_drop, hb']; omega
          rw [hl, if_pos (by omega)]
          simp only [Res.bind_ok]
          obtain ⟨d, ds, hd⟩ : ∃ d ds, List.drop t.length buf = d :: ds := by
            cases hdrop : List.drop t.length buf with
            | nil =>
              have := congrArg List.length hdrop
              rw [List.length_drop, hb'] at this
              simp at this; omega
            | cons d ds => exact ⟨d, ds, rfl⟩
          refine ⟨_, w, t, r, rfl, ?_, by rw [hw, happ]; simp, hskip, htne, hth,
            by unfold BUFSIZE at hlen; omega, hsp, ?_, ds, ?_⟩
          · rw [List.length_set]; exact hl
          · cases r with
            | nil => exact absurd rfl hr0
            | cons x r =>
              refine ⟨x, r, rfl, ?_⟩
              have := List.head?_dropWhile_not (fun c => !isSpace c) s'
              rw [hr] at this
              simpa using this
          · rw [List.set_append_right (h := le_refl _), Nat.sub_self, hd, List.set_cons_zero]

/-- The four cases occur. -/
example :
    (getNextTokenRaw (List.replicate 64 'x') " # c\n ab: y\n".toList).map
      (fun x => (x.1.take 4, x.2)) = .ok (['a', 'b', ':', nul], " y\n".toList) ∧
    (getNextTokenRaw (List.replicate 64 'x') []).map (fun x => x.2) = .ok [] ∧
    getNextTokenRaw (List.replicate 64 'x') (List.replicate 64 'y' ++ ['\n']) = .error .abort := by
  decide +kernel

/-- A token of 63 characters still fits. -/
example : (getNextTokenRaw (List.replicate 64 'x') (List.replicate 63 'y' ++ ['\n'])).map
    (fun x => (x.1 = List.replicate 63 'y' ++ [nul], x.2)) = .ok (True, ['\n']) := by
  simp only [Except.map]
  have : getNextTokenRaw (List.replicate 64 'x') (List.replicate 63 'y' ++ ['\n']) =
      .ok (List.replicate 63 'y' ++ [nul], ['\n']) := by decide +kernel
  rw [this]
  simp

/-- C08 is false at the end of the stream: a token that ends with the stream (no trailing white space)
makes the tokenizer dereference the end iterator. -/
theorem C08_end_of_stream_undefined :
    getNextTokenRaw (List.replicate 64 'x') "abc".toList = .error (.ub .endOfStream) := by
  decide +kernel

end Apollo.Props
