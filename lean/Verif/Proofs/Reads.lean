import Verif.Proofs.Parser

/-! Helper lemmas: running parser actions on text given as a list of tokens. -/

namespace Apollo

/-- `s` consists of the tokens `ts`, separated by blanks, followed by `r`; every token is followed by a
blank. -/
inductive Toks (r : List Char) : List Char → List (List Char) → Prop
  | nil : Toks r r []
  | cons (w t s : List Char) (ts : List (List Char)) : Blank w → GoodTok t → StartsBlank s →
      Toks r s ts → Toks r (w ++ t ++ s) (t :: ts)

theorem Toks.cons_eq {r text : List Char} (w t s : List Char) {ts : List (List Char)}
    (e : text = w ++ (t ++ s)) (hw : Blank w) (ht : GoodTok t) (hs : StartsBlank s)
    (h : Toks r s ts) : Toks r text (t :: ts) := by
  rw [e, ← List.append_assoc]; exact Toks.cons w t s ts hw ht hs h

theorem Toks.cons' {r w t s : List Char} {ts : List (List Char)} (hw : Blank w) (ht : GoodTok t)
    (hs : StartsBlank s) (h : Toks r s ts) : Toks r (w ++ (t ++ s)) (t :: ts) :=
  Toks.cons_eq w t s rfl hw ht hs h

theorem Toks.append {r s1 s2 : List Char} {ts1 ts2 : List (List Char)} (h1 : Toks s2 s1 ts1)
    (h2 : Toks r s2 ts2) : Toks r s1 (ts1 ++ ts2) := by
  induction h1 with
  | nil => exact h2
  | cons w t s ts hw ht hs _ ih => exact Toks.cons w t s _ hw ht hs ih

/-- Decidable form of `GoodTok`. -/
def goodTokB (t : List Char) : Bool :=
  !t.isEmpty && t.all (fun c => !isSpace c && c ≠ nul) && t.head? ≠ some '#' && t.length < BUFSIZE

theorem goodTok_of_b {t : List Char} (h : goodTokB t = true) : GoodTok t := by
  simp only [goodTokB, Bool.and_eq_true, List.all_eq_true, Bool.not_eq_true', decide_eq_true_eq,
    ne_eq] at h
  obtain ⟨⟨⟨h1, h2⟩, h3⟩, h4⟩ := h
  exact ⟨by rintro rfl; simp at h1, fun c hc => (h2 c hc).1, fun c hc => (h2 c hc).2, h3, h4⟩

theorem blank_of_all {w : List Char} (h : w.all isSpace = true) : Blank w := by
  rw [List.all_eq_true] at h; exact h

theorem startsBlank_cons {c : Char} {s : List Char} (h : isSpace c = true) : StartsBlank (c :: s) :=
  ⟨c, s, rfl, h⟩

theorem StartsBlank.append {w s : List Char} (hw : w ≠ []) (h : Blank w) : StartsBlank (w ++ s) := by
  cases w with
  | nil => exact absurd rfl hw
  | cons c w => exact ⟨c, w ++ s, rfl, h c (by simp)⟩

/-- Tokens built from numbers and punctuation. -/
theorem goodTok_num {n : List Char} (hn : ∀ c ∈ n, numChar c) (hne : n ≠ []) (p : List Char)
    (hp : p.all (fun c => !isSpace c && c ≠ nul) = true) (hl : n.length + p.length < BUFSIZE) :
    GoodTok (n ++ p) := by
  have hp' : ∀ c ∈ p, isSpace c = false ∧ c ≠ nul := by
    simpa [List.all_eq_true] using hp
  have hnn : ∀ c, numChar c → c ≠ nul := fun c h => h.ne (by decide)
  refine ⟨by simp [hne], ?_, ?_, ?_, by simpa using hl⟩
  · intro c hc
    rcases List.mem_append.1 hc with h | h
    · exact (hn c h).not_space
    · exact (hp' c h).1
  · intro c hc
    rcases List.mem_append.1 hc with h | h
    · exact hnn c (hn c h)
    · exact (hp' c h).2
  · cases n with
    | nil => exact absurd rfl hne
    | cons c n =>
      have : c ≠ '#' := (hn c (by simp)).ne (by decide)
      simpa using this

/-- Token buffer and position in it. -/
abbrev Cur := List Char × ℕ

/-- On a stream starting with the tokens `ts`, and current token `c`, the action `f` consumes exactly
these tokens and returns `a`; the current token is then `c'`. -/
def Reads {α : Type} (f : P α) (c : Cur) (ts : List (List Char)) (a : α) (c' : Cur) : Prop :=
  ∀ s k r, Toks r s (ts ++ k) →
    ∃ s', Toks r s' k ∧ f ⟨s, c.1, c.2⟩ = .ok (a, ⟨s', c'.1, c'.2⟩)

/-- On a stream starting with the tokens `ts`, and current token `c`, the action `f` fails. -/
def Fails {α : Type} (f : P α) (c : Cur) (ts : List (List Char)) (e : Err) : Prop :=
  ∀ s k r, Toks r s (ts ++ k) → f ⟨s, c.1, c.2⟩ = .error e

namespace Reads

variable {α β : Type}

theorem bind {f : P α} {g : α → P β} {c c1 c2 : Cur} {ts1 ts2 : List (List Char)} {a : α} {b : β}
    (hf : Reads f c ts1 a c1) (hg : Reads (g a) c1 ts2 b c2) :
    Reads (f >>= g) c (ts1 ++ ts2) b c2 := by
  intro s k r h
  rw [List.append_assoc] at h
  obtain ⟨s1, h1, e1⟩ := hf s _ r h
  obtain ⟨s2, h2, e2⟩ := hg s1 k r h1
  refine ⟨s2, h2, ?_⟩
  rw [P.bind_apply, e1, Res.bind_ok]
  exact e2

theorem pure (a : α) (c : Cur) : Reads (pure a) c [] a c := fun s _ _ h => ⟨s, h, rfl⟩

theorem getNextToken (c : Cur) (t : List Char) : Reads Apollo.getNextToken c [t] () (t, 0) := by
  intro s k r h
  cases h with
  | cons w _ s' _ hw ht hs h' =>
    exact ⟨s', h', getNextToken_piece hw ht hs _ _⟩

theorem getTokenEquals (c : Cur) (e : List Char) :
    Reads (Apollo.getTokenEquals e) c [] (decide (c.1.drop c.2 = e)) c :=
  fun s _ _ h => ⟨s, h, rfl⟩

theorem getNextTokenEquals (c : Cur) (e t : List Char) :
    Reads (Apollo.getNextTokenEquals e) c [t] (decide (t = e)) (t, 0) := by
  have := bind (g := fun _ => Apollo.getTokenEquals e) (getNextToken c t) (getTokenEquals (t, 0) e)
  exact this

theorem parseExpected {c : Cur} {e : List Char} (h : c.1.drop c.2 = e) :
    Reads (Apollo.parseExpected e) c [] () c := by
  intro s k r hs
  refine ⟨s, hs, ?_⟩
  rw [parseExpected_apply, if_pos (by exact h)]

theorem expectNext (c : Cur) (t : List Char) : Reads (Apollo.expectNext t) c [t] () (t, 0) := by
  have := bind (g := fun _ => Apollo.parseExpected t) (getNextToken c t)
    (parseExpected (c := (t, 0)) (e := t) rfl)
  exact this

theorem parseWith {f : List Char → Res (α × ℕ)} {c : Cur} {a : α} {n : ℕ}
    (h : f (c.1.drop c.2) = .ok (a, n)) : Reads (Apollo.parseWith f) c [] a (c.1, n) := by
  intro s k r hs
  refine ⟨s, hs, ?_⟩
  rw [parseWith_apply]
  have : f (PS.tok ⟨s, c.1, c.2⟩) = .ok (a, n) := h
  rw [this]; rfl

theorem ite_pos {p : Prop} [Decidable p] {f g : P α} {c c' : Cur} {ts : List (List Char)} {a : α}
    (hp : p) (h : Reads f c ts a c') : Reads (if p then f else g) c ts a c' := by
  rw [if_pos hp]; exact h

theorem ite_neg {p : Prop} [Decidable p] {f g : P α} {c c' : Cur} {ts : List (List Char)} {a : α}
    (hp : ¬p) (h : Reads g c ts a c') : Reads (if p then f else g) c ts a c' := by
  rw [if_neg hp]; exact h

/-- The whole text is read. -/
theorem run {f : P α} {c c' : Cur} {ts : List (List Char)} {a : α} (h : Reads f c ts a c')
    {s r : List Char} (hs : Toks r s ts) : f ⟨s, c.1, c.2⟩ = .ok (a, ⟨r, c'.1, c'.2⟩) := by
  obtain ⟨s', h1, h2⟩ := h s [] r (by simpa using hs)
  cases h1
  exact h2

theorem fails {f : P α} {g : α → P β} {c c1 : Cur} {ts1 ts2 : List (List Char)} {a : α} {e : Err}
    (hf : Reads f c ts1 a c1) (hg : Fails (g a) c1 ts2 e) : Fails (f >>= g) c (ts1 ++ ts2) e := by
  intro s k r h
  rw [List.append_assoc] at h
  obtain ⟨s1, h1, e1⟩ := hf s _ r h
  rw [P.bind_apply, e1, Res.bind_ok]
  exact hg s1 k r h1

theorem bind0 {f : P α} {g : α → P β} {c c1 c2 : Cur} {ts : List (List Char)} {a : α} {b : β}
    (hf : Reads f c [] a c1) (hg : Reads (g a) c1 ts b c2) : Reads (f >>= g) c ts b c2 :=
  bind hf hg

theorem bind1 {f : P α} {g : α → P β} {c c1 c2 : Cur} {t : List Char} {ts : List (List Char)} {a : α}
    {b : β} (hf : Reads f c [t] a c1) (hg : Reads (g a) c1 ts b c2) :
    Reads (f >>= g) c (t :: ts) b c2 :=
  bind hf hg

theorem fails0 {f : P α} {g : α → P β} {c c1 : Cur} {ts : List (List Char)} {a : α} {e : Err}
    (hf : Reads f c [] a c1) (hg : Fails (g a) c1 ts e) : Fails (f >>= g) c ts e :=
  fails hf hg

theorem fails1 {f : P α} {g : α → P β} {c c1 : Cur} {t : List Char} {ts : List (List Char)} {a : α}
    {e : Err} (hf : Reads f c [t] a c1) (hg : Fails (g a) c1 ts e) : Fails (f >>= g) c (t :: ts) e :=
  fails hf hg

end Reads

namespace Fails

variable {α β : Type}

theorem bind {f : P α} {g : α → P β} {c : Cur} {ts : List (List Char)} {e : Err}
    (hf : Fails f c ts e) : Fails (f >>= g) c ts e := by
  intro s k r h
  rw [P.bind_apply, hf s k r h]; rfl

theorem mono {f : P α} {c : Cur} {ts k : List (List Char)} {e : Err} (hf : Fails f c ts e) :
    Fails f c (ts ++ k) e := by
  intro s k' r h
  rw [List.append_assoc] at h
  exact hf s _ r h

theorem fail (c : Cur) (e : Err) : Fails (P.fail e : P α) c [] e := fun _ _ _ _ => rfl

theorem parseExpected {c : Cur} {e : List Char} (h : c.1.drop c.2 ≠ e) :
    Fails (Apollo.parseExpected e) c [] .abort := by
  intro s k r hs
  rw [parseExpected_apply, if_neg (by exact h)]

theorem parseWith {f : List Char → Res (α × ℕ)} {c : Cur} {e : Err}
    (h : f (c.1.drop c.2) = .error e) : Fails (Apollo.parseWith f) c [] e := by
  intro s k r hs
  rw [parseWith_apply]
  have : f (PS.tok ⟨s, c.1, c.2⟩) = .error e := h
  rw [this]; rfl

theorem ite_neg {p : Prop} [Decidable p] {f g : P α} {c : Cur} {ts : List (List Char)} {e : Err}
    (hp : ¬p) (h : Fails g c ts e) : Fails (if p then f else g) c ts e := by
  rw [if_neg hp]; exact h

theorem run {f : P α} {c : Cur} {ts : List (List Char)} {e : Err} (h : Fails f c ts e)
    {s r : List Char} {k : List (List Char)} (hs : Toks r s (ts ++ k)) :
    f ⟨s, c.1, c.2⟩ = .error e := h s k r hs

end Fails

/-! ## Truncation -/

/-- If `f` consumes a text except for one character, then no proper prefix of the text is accepted. -/
theorem Ext.no_prefix {α : Type} {f : P α} (hf : Ext f) {s d : List Char} {b : List Char} {o : ℕ}
    (hd : d ≠ []) (hs : s ≠ [])
    (hfull : ∀ a s', f ⟨s ++ d, b, o⟩ = .ok (a, s') → s'.is.length ≤ 1) (x : α × PS) :
    f ⟨s, b, o⟩ ≠ .ok x := by
  intro h
  obtain ⟨h1, h2⟩ := hf ⟨s, b, o⟩ x.1 x.2 d hs h
  have := hfull _ _ h2
  simp only [List.length_append] at this
  have l1 := List.length_pos_iff.2 h1
  have l2 := List.length_pos_iff.2 hd
  omega

end Apollo
