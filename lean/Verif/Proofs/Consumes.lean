import Verif.Proofs.Reads

/-! Helper lemmas: how many tokens a parser action consumes, whatever their contents; termination. -/

namespace Apollo

/-- A token of any length. -/
structure WTok (t : List Char) : Prop where
  ne_nil : t ≠ []
  no_space : ∀ c ∈ t, isSpace c = false
  no_hash : t.head? ≠ some '#'

/-- `s` consists of the tokens `ts` (of any length) separated by blanks, followed by `r`. -/
inductive WToks (r : List Char) : List Char → List (List Char) → Prop
  | nil : WToks r r []
  | cons (w t s : List Char) (ts : List (List Char)) : Blank w → WTok t → StartsBlank s →
      WToks r s ts → WToks r (w ++ t ++ s) (t :: ts)

theorem WToks.cons_eq {r text : List Char} (w t s : List Char) {ts : List (List Char)}
    (e : text = w ++ (t ++ s)) (hw : Blank w) (ht : WTok t) (hs : StartsBlank s)
    (h : WToks r s ts) : WToks r text (t :: ts) := by
  rw [e, ← List.append_assoc]; exact WToks.cons w t s ts hw ht hs h

theorem WToks.cons' {r w t s : List Char} {ts : List (List Char)} (hw : Blank w) (ht : WTok t)
    (hs : StartsBlank s) (h : WToks r s ts) : WToks r (w ++ (t ++ s)) (t :: ts) :=
  WToks.cons_eq w t s rfl hw ht hs h

theorem WToks.append {r s1 s2 : List Char} {ts1 ts2 : List (List Char)} (h1 : WToks s2 s1 ts1)
    (h2 : WToks r s2 ts2) : WToks r s1 (ts1 ++ ts2) := by
  induction h1 with
  | nil => exact h2
  | cons w t s ts hw ht hs _ ih => exact WToks.cons w t s _ hw ht hs ih

theorem WToks.blank {r s w t : List Char} {ts : List (List Char)} (hw : Blank w)
    (h : WToks r s (t :: ts)) : WToks r (w ++ s) (t :: ts) := by
  generalize hl : t :: ts = l at h
  cases h with
  | nil => cases hl
  | cons w' t' s' ts' hw' ht hs h' =>
    cases hl
    refine WToks.cons_eq (w ++ w') t s' (by simp) ?_ ht hs h'
    intro c hc
    rcases List.mem_append.1 hc with h | h
    · exact hw c h
    · exact hw' c h

theorem WToks.eq_of_nil {r s : List Char} (h : WToks r s []) : s = r := by
  cases h; rfl

/-- Decidable form of `WTok`. -/
def wTokB (t : List Char) : Bool :=
  !t.isEmpty && t.all (fun c => !isSpace c) && t.head? ≠ some '#'

theorem wTok_of_b {t : List Char} (h : wTokB t = true) : WTok t := by
  simp only [wTokB, Bool.and_eq_true, List.all_eq_true, Bool.not_eq_true', decide_eq_true_eq,
    ne_eq] at h
  obtain ⟨⟨h1, h2⟩, h3⟩ := h
  exact ⟨by rintro rfl; simp at h1, h2, h3⟩

theorem wTok_num {n : List Char} (hn : ∀ c ∈ n, numChar c) (hne : n ≠ []) (p : List Char)
    (hp : p.all (fun c => !isSpace c) = true) : WTok (n ++ p) := by
  have hp' : ∀ c ∈ p, isSpace c = false := by
    simpa [List.all_eq_true] using hp
  refine ⟨by simp [hne], ?_, ?_⟩
  · intro c hc
    rcases List.mem_append.1 hc with h | h
    · exact (hn c h).not_space
    · exact hp' c h
  · cases n with
    | nil => exact absurd rfl hne
    | cons c n =>
      have : c ≠ '#' := (hn c (by simp)).ne (by decide)
      simpa using this

theorem getNextToken_wpiece {w t r : List Char} (hw : Blank w) (ht : WTok t) (hr : StartsBlank r)
    (b : List Char) (o : ℕ) :
    getNextToken ⟨w ++ t ++ r, b, o⟩ = .ok ((), ⟨r, cstr t, 0⟩) ∨
    getNextToken ⟨w ++ t ++ r, b, o⟩ = .error .abort := by
  by_cases hlen : BUFSIZE ≤ t.length
  · right
    simp only [getNextToken, nextToken_long hw ht.ne_nil ht.no_space ht.no_hash hr hlen,
      Res.bind_error]
  · left
    have hne' : w ++ t ++ r ≠ [] := by simp [ht.ne_nil]
    have : nextToken (w ++ t ++ r) = .ok (cstr t, r) := by
      unfold nextToken
      split
      · next h => exact absurd h hne'
      rw [List.append_assoc, skipBlanks_blank hw]
      have hsk : skipBlanks false (t ++ r) = .ok (t ++ r) := by
        cases t with
        | nil => exact absurd rfl ht.ne_nil
        | cons c t =>
          have h1 := ht.no_space c (by simp)
          have h2 : c ≠ '#' := by
            intro h; exact ht.no_hash (by simp [h])
          simp [skipBlanks, h1, h2]
      obtain ⟨h1, h2⟩ := takeWhile_token ht.no_space hr
      rw [hsk]
      simp only [Res.bind_ok, h1, h2]
      rw [if_neg hlen]
      obtain ⟨c, r', hr', _⟩ := hr
      rw [if_neg (by simp [hr'])]
    simp only [getNextToken, this, Res.bind_ok]

/-- On a stream starting with the tokens `ts` the action either consumes exactly these or fails. -/
def Consumes {α : Type} (f : P α) (ts : List (List Char)) : Prop :=
  ∀ s k r b o, WToks r s (ts ++ k) →
    (∃ a s', WToks r s'.is k ∧ f ⟨s, b, o⟩ = .ok (a, s')) ∨ ∃ e, f ⟨s, b, o⟩ = .error e

namespace Consumes

variable {α β : Type}

theorem bind {f : P α} {g : α → P β} {ts1 ts2 : List (List Char)} (hf : Consumes f ts1)
    (hg : ∀ a, Consumes (g a) ts2) : Consumes (f >>= g) (ts1 ++ ts2) := by
  intro s k r b o h
  rw [List.append_assoc] at h
  rw [P.bind_apply]
  rcases hf s _ r b o h with ⟨a, s', h1, e1⟩ | ⟨e, he⟩
  · rw [e1, Res.bind_ok]
    exact hg a s'.is k r s'.buf s'.off h1
  · rw [he]; exact Or.inr ⟨e, rfl⟩

theorem bind0 {f : P α} {g : α → P β} {ts : List (List Char)} (hf : Consumes f [])
    (hg : ∀ a, Consumes (g a) ts) : Consumes (f >>= g) ts := bind hf hg

theorem bind1 {f : P α} {g : α → P β} {t : List Char} {ts : List (List Char)} (hf : Consumes f [t])
    (hg : ∀ a, Consumes (g a) ts) : Consumes (f >>= g) (t :: ts) := bind hf hg

theorem pure (a : α) : Consumes (pure a : P α) [] :=
  fun _ _ _ _ _ h => Or.inl ⟨_, _, h, rfl⟩

theorem fail (e : Err) (ts : List (List Char)) : Consumes (P.fail e : P α) ts :=
  fun _ _ _ _ _ _ => Or.inr ⟨e, rfl⟩

theorem getNextToken (t : List Char) : Consumes Apollo.getNextToken [t] := by
  intro s k r b o h
  cases h with
  | cons w _ s' _ hw ht hs h' =>
    rcases getNextToken_wpiece hw ht hs b o with h | h
    · exact Or.inl ⟨_, _, h', h⟩
    · exact Or.inr ⟨_, h⟩

theorem getTokenEquals (e : List Char) : Consumes (Apollo.getTokenEquals e) [] :=
  fun _ _ _ _ _ h => Or.inl ⟨_, _, h, rfl⟩

theorem parseExpected (e : List Char) : Consumes (Apollo.parseExpected e) [] := by
  intro s k r b o h
  rw [parseExpected_apply]
  split
  · exact Or.inl ⟨_, _, h, rfl⟩
  · exact Or.inr ⟨_, rfl⟩

theorem parseWith (f : List Char → Res (α × ℕ)) : Consumes (Apollo.parseWith f) [] := by
  intro s k r b o h
  rw [parseWith_apply]
  cases f (PS.tok ⟨s, b, o⟩) with
  | error e => exact Or.inr ⟨e, rfl⟩
  | ok x => exact Or.inl ⟨_, _, h, rfl⟩

theorem parseUnsigned : Consumes Apollo.parseUnsigned [] :=
  bind0 (parseWith _) fun _ => pure _

theorem expectNext (e t : List Char) : Consumes (Apollo.expectNext e) [t] :=
  bind1 (getNextToken t) fun _ => parseExpected e

/-- The branch after comparing a token without NUL characters is known. -/
theorem getNextTokenEquals {g : Bool → P β} {e t : List Char} {ts : List (List Char)}
    (hn : ∀ c ∈ t, c ≠ nul) (hg : Consumes (g (decide (t = e))) ts) :
    Consumes (Apollo.getNextTokenEquals e >>= g) (t :: ts) := by
  intro s k r b o h
  cases h with
  | cons w _ s' _ hw ht hs h' =>
    rw [P.bind_apply]
    unfold Apollo.getNextTokenEquals
    rw [P.bind_apply]
    rcases getNextToken_wpiece hw ht hs b o with h | h
    · rw [h, Res.bind_ok]
      have hc : cstr t = t := takeWhile_eq_self (fun c hc => by simpa using hn c hc)
      have e2 : Apollo.getTokenEquals e ⟨s', cstr t, 0⟩ = .ok (decide (t = e), ⟨s', cstr t, 0⟩) := by
        simp [Apollo.getTokenEquals, PS.tok, hc]
      rw [e2, Res.bind_ok]
      exact hg s' k r _ _ h'
    · rw [h]; exact Or.inr ⟨_, rfl⟩

/-- The whole text is consumed. -/
theorem run {f : P α} {ts : List (List Char)} (h : Consumes f ts) {s r : List Char}
    (hs : WToks r s ts) {b : List Char} {o : ℕ} {a : α} {s' : PS} (he : f ⟨s, b, o⟩ = .ok (a, s')) :
    s'.is = r := by
  rcases h s [] r b o (by simpa using hs) with ⟨a', s'', h1, h2⟩ | ⟨e, h2⟩
  · rw [he] at h2
    cases h2
    exact h1.eq_of_nil
  · rw [he] at h2; cases h2

end Consumes

/-- The action fails on streams starting with the tokens `ts`. -/
def Never {α : Type} (f : P α) (ts : List (List Char)) : Prop :=
  ∀ s k r b o, WToks r s (ts ++ k) → ∃ e, f ⟨s, b, o⟩ = .error e

namespace Never

variable {α β : Type}

theorem bind {f : P α} {g : α → P β} {ts1 ts2 : List (List Char)} (hf : Consumes f ts1)
    (hg : ∀ a, Never (g a) ts2) : Never (f >>= g) (ts1 ++ ts2) := by
  intro s k r b o h
  rw [List.append_assoc] at h
  rw [P.bind_apply]
  rcases hf s _ r b o h with ⟨a, s', h1, e1⟩ | ⟨e, he⟩
  · rw [e1, Res.bind_ok]
    exact hg a s'.is k r s'.buf s'.off h1
  · rw [he]; exact ⟨e, rfl⟩

theorem bind0 {f : P α} {g : α → P β} {ts : List (List Char)} (hf : Consumes f [])
    (hg : ∀ a, Never (g a) ts) : Never (f >>= g) ts := bind hf hg

theorem bind1 {f : P α} {g : α → P β} {t : List Char} {ts : List (List Char)} (hf : Consumes f [t])
    (hg : ∀ a, Never (g a) ts) : Never (f >>= g) (t :: ts) := bind hf hg

theorem first {f : P α} {g : α → P β} {ts : List (List Char)} (hf : Never f ts) :
    Never (f >>= g) ts := by
  intro s k r b o h
  obtain ⟨e, he⟩ := hf s k r b o h
  rw [P.bind_apply, he]
  exact ⟨e, rfl⟩

theorem fail (e : Err) (ts : List (List Char)) : Never (P.fail e : P α) ts :=
  fun _ _ _ _ _ _ => ⟨e, rfl⟩

theorem mono {f : P α} {ts k : List (List Char)} (h : Never f ts) : Never f (ts ++ k) := by
  intro s k' r b o hs
  rw [List.append_assoc] at hs
  exact h s _ r b o hs

theorem getNextTokenEquals {g : Bool → P β} {e t : List Char} {ts : List (List Char)}
    (hn : ∀ c ∈ t, c ≠ nul) (hg : Never (g (decide (t = e))) ts) :
    Never (Apollo.getNextTokenEquals e >>= g) (t :: ts) := by
  intro s k r b o h
  cases h with
  | cons w _ s' _ hw ht hs h' =>
    rw [P.bind_apply]
    unfold Apollo.getNextTokenEquals
    rw [P.bind_apply]
    rcases getNextToken_wpiece hw ht hs b o with h | h
    · rw [h, Res.bind_ok]
      have hc : cstr t = t := takeWhile_eq_self (fun c hc => by simpa using hn c hc)
      have e2 : Apollo.getTokenEquals e ⟨s', cstr t, 0⟩ = .ok (decide (t = e), ⟨s', cstr t, 0⟩) := by
        simp [Apollo.getTokenEquals, PS.tok, hc]
      rw [e2, Res.bind_ok]
      exact hg s' k r _ _ h'
    · rw [h]; exact ⟨_, rfl⟩

/-- Failure that depends on the current token. -/
theorem token {g : Bool → P β} {e t : List Char} {ts : List (List Char)}
    (hn : ∀ c ∈ t, c ≠ nul) (hg : ∀ s', ∃ er, g (decide (t = e)) ⟨s', t, 0⟩ = .error er) :
    Never (Apollo.getNextTokenEquals e >>= g) (t :: ts) := by
  intro s k r b o h
  cases h with
  | cons w _ s' _ hw ht hs h' =>
    rw [P.bind_apply]
    unfold Apollo.getNextTokenEquals
    rw [P.bind_apply]
    rcases getNextToken_wpiece hw ht hs b o with h | h
    · rw [h, Res.bind_ok]
      have hc : cstr t = t := takeWhile_eq_self (fun c hc => by simpa using hn c hc)
      have e2 : Apollo.getTokenEquals e ⟨s', cstr t, 0⟩ = .ok (decide (t = e), ⟨s', cstr t, 0⟩) := by
        simp [Apollo.getTokenEquals, PS.tok, hc]
      rw [e2, Res.bind_ok, hc]
      exact hg s'
    · rw [h]; exact ⟨_, rfl⟩

theorem run {f : P α} {ts : List (List Char)} (h : Never f ts) {s r : List Char}
    (hs : WToks r s ts) (b : List Char) (o : ℕ) : ∃ e, f ⟨s, b, o⟩ = .error e :=
  h s [] r b o (by simpa using hs)

end Never

theorem WToks.toToks {r s : List Char} {ts : List (List Char)} (h : WToks r s ts)
    (hg : ∀ t ∈ ts, (∀ c ∈ t, c ≠ nul) ∧ t.length < BUFSIZE) : Toks r s ts := by
  induction h with
  | nil => exact Toks.nil
  | cons w t s ts hw ht hs _ ih =>
    have := hg t (by simp)
    exact Toks.cons w t s ts hw ⟨ht.ne_nil, ht.no_space, this.1, ht.no_hash, this.2⟩ hs
      (ih fun t' h' => hg t' (List.mem_cons_of_mem _ h'))

/-! ## Termination -/

/-- The action does not run out of fuel on streams of less than `n` characters, and does not lengthen
the stream. -/
structure Term {α : Type} (f : P α) (n : ℕ) : Prop where
  nd : ∀ s : PS, s.is.length < n → f s ≠ .error .diverge
  le : ∀ (s : PS) x, f s = .ok x → x.2.is.length ≤ s.is.length

namespace Term

variable {α β : Type} {n : ℕ}

theorem bind {f : P α} {g : α → P β} (hf : Term f n) (hg : ∀ a, Term (g a) n) :
    Term (f >>= g) n := by
  constructor
  · intro s hs h
    rw [P.bind_apply] at h
    cases hx : f s with
    | error e => rw [hx] at h; exact hf.nd s hs (by rw [hx]; simpa using h)
    | ok x =>
      rw [hx, Res.bind_ok] at h
      exact (hg x.1).nd x.2 ((hf.le s x hx).trans_lt hs) h
  · intro s x h
    rw [P.bind_apply] at h
    cases hx : f s with
    | error e => rw [hx] at h; simp at h
    | ok y =>
      rw [hx, Res.bind_ok] at h
      exact ((hg y.1).le y.2 x h).trans (hf.le s y hx)

theorem pure (a : α) : Term (pure a : P α) n :=
  ⟨by (intro s _ h; cases h), by (intro s x h; cases h; exact le_refl _)⟩

theorem fail {e : Err} (he : e ≠ .diverge) : Term (P.fail e : P α) n :=
  ⟨by (intro s _ h; cases h; exact he rfl), by (intro s x h; cases h)⟩

theorem nextToken_nd (s : List Char) : nextToken s ≠ .error .diverge := by
  cases s with
  | nil => simp [nextToken]
  | cons c s =>
    rw [nextToken_cons]
    cases hsk : skipBlanks false (c :: s) with
    | error e =>
      have := skipBlanks_error _ _ _ hsk
      subst this; simp
    | ok s' =>
      simp only [Res.bind_ok]
      split
      · simp
      · split <;> simp

theorem getNextToken : Term Apollo.getNextToken n := by
  constructor
  · intro s _ h
    simp only [Apollo.getNextToken] at h
    cases hx : nextToken s.is with
    | error e => rw [hx] at h; exact nextToken_nd s.is (by rw [hx]; simpa using h)
    | ok x => rw [hx] at h; simp at h
  · intro s x h
    simp only [Apollo.getNextToken] at h
    cases hx : nextToken s.is with
    | error e => rw [hx] at h; simp at h
    | ok y =>
      rw [hx] at h
      simp only [Res.bind_ok, Except.ok.injEq] at h
      rw [← h]
      exact (nextToken_length hx).1

theorem getTokenEquals (e : List Char) : Term (Apollo.getTokenEquals e) n :=
  ⟨by (intro s _ h; cases h), by (intro s x h; cases h; exact le_refl _)⟩

theorem getNextTokenEquals (e : List Char) : Term (Apollo.getNextTokenEquals e) n :=
  getNextToken.bind fun _ => getTokenEquals e

theorem parseExpected (e : List Char) : Term (Apollo.parseExpected e) n := by
  constructor
  · intro s _ h; rw [parseExpected_apply] at h; split at h <;> cases h
  · intro s x h; rw [parseExpected_apply] at h; split at h <;> cases h; exact le_refl _

theorem expectNext (e : List Char) : Term (Apollo.expectNext e) n :=
  getNextToken.bind fun _ => parseExpected e

theorem parseWith {f : List Char → Res (α × ℕ)} (hf : ∀ t, f t ≠ .error .diverge) :
    Term (Apollo.parseWith f) n := by
  constructor
  · intro s _ h
    rw [parseWith_apply] at h
    cases hx : f s.tok with
    | error e => rw [hx] at h; exact hf s.tok (by rw [hx]; simpa using h)
    | ok x => rw [hx] at h; simp at h
  · intro s x h
    rw [parseWith_apply] at h
    cases hx : f s.tok with
    | error e => rw [hx] at h; simp at h
    | ok y =>
      rw [hx] at h
      simp only [Res.bind_ok, Except.ok.injEq] at h
      rw [← h]

theorem stoi_nd (t : List Char) : stoi t ≠ .error .diverge := by
  unfold stoi; split
  · simp
  · split <;> simp

theorem stoul_nd (t : List Char) : stoul t ≠ .error .diverge := by
  unfold stoul; split
  · simp
  · split <;> simp

theorem readFloat_nd (p : ℕ) (e : ℤ) (a b : ℚ) (t : List Char) :
    readFloat p e a b t ≠ .error .diverge := by
  unfold readFloat; simp only; split
  · simp
  · split
    · simp
    · split
      · simp
      · split <;> simp

theorem stof_nil : stof [] = .error .throw := by decide +kernel
theorem stod_nil : stod [] = .error .throw := by decide +kernel
theorem stoi_nil : stoi [] = .error .throw := by decide +kernel
theorem stoul_nil : stoul [] = .error .throw := by decide +kernel

theorem parseInt : Term Apollo.parseInt n := parseWith stoi_nd
theorem parseFloat : Term Apollo.parseFloat n := parseWith (readFloat_nd _ _ _ _)
theorem parseDouble : Term Apollo.parseDouble n := parseWith (readFloat_nd _ _ _ _)
theorem parseUnsignedLong : Term Apollo.parseUnsignedLong n := parseWith stoul_nd
theorem parseUnsigned : Term Apollo.parseUnsigned n := (parseWith stoul_nd).bind fun _ => pure _

theorem mono {f : P α} {m : ℕ} (h : Term f n) (hm : m ≤ n) : Term f m :=
  ⟨fun s hs => h.nd s (hs.trans_le hm), h.le⟩

theorem ite {c : Prop} [Decidable c] {f g : P α} (hf : Term f n) (hg : Term g n) :
    Term (if c then f else g) n := by
  split <;> assumption

/-- A loop that starts by reading a token makes progress: either the stream was empty, and the token
is empty, or the stream gets shorter. -/
theorem loop {g : P β} (h0 : ∀ o, g ⟨[], [], o⟩ ≠ .error .diverge) (hg : Term g n) :
    Term (Apollo.getNextToken >>= fun _ => g) (n + 1) := by
  constructor
  · intro s hs h
    rw [P.bind_apply] at h
    cases hx : Apollo.getNextToken s with
    | error e => rw [hx] at h; exact getNextToken.nd s hs (by rw [hx]; simpa using h)
    | ok x =>
      rw [hx, Res.bind_ok] at h
      simp only [Apollo.getNextToken] at hx
      cases hy : nextToken s.is with
      | error e => rw [hy] at hx; simp at hx
      | ok y =>
        rw [hy] at hx
        simp only [Res.bind_ok, Except.ok.injEq] at hx
        subst hx
        by_cases hne : s.is = []
        · rw [hne] at hy
          simp only [nextToken, Except.ok.injEq] at hy
          subst hy
          exact h0 0 h
        · have := (nextToken_length hy).2 hne
          exact hg.nd _ (by simp only; omega) h
  · intro s x h
    rw [P.bind_apply] at h
    cases hx : Apollo.getNextToken s with
    | error e => rw [hx] at h; simp at h
    | ok y =>
      rw [hx, Res.bind_ok] at h
      exact (hg.le y.2 x h).trans (getNextToken.le (n := 0) s y hx)

end Term

end Apollo
