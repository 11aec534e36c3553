import Verif.Model.Parser
import Verif.Proofs.DecimalRange

/-! Helper lemmas about the tokenizer and parser actions. -/

namespace Apollo

/-! ## Refinement of the buffer level -/

theorem takeWhile_eq_self {α : Type} {p : α → Bool} {l : List α} (h : ∀ x ∈ l, p x = true) :
    l.takeWhile p = l := by
  induction l with
  | nil => rfl
  | cons x l ih =>
    rw [List.takeWhile_cons, h x (by simp), ih (fun y hy => h y (List.mem_cons_of_mem _ hy))]
    rfl

theorem copyToken_spec (buf : List Char) (hb : buf.length = BUFSIZE) (idx : ℕ) (hi : idx < BUFSIZE)
    (s : List Char) :
    copyToken buf idx s =
      (let t := s.takeWhile (fun c => !isSpace c)
       let r := s.dropWhile (fun c => !isSpace c)
       if BUFSIZE ≤ idx + t.length then .error .abort
       else if r = [] then .error (.ub .endOfStream)
       else .ok (buf.take idx ++ t ++ buf.drop (idx + t.length), idx + t.length, r)) := by
  induction s generalizing buf idx with
  | nil =>
    simp only [copyToken, List.takeWhile_nil, List.dropWhile_nil, List.length_nil, if_true]
    rw [if_neg (by simp; omega)]
  | cons c s ih =>
    simp only [copyToken]
    by_cases hc : isSpace c = true
    · simp only [hc, if_true, List.takeWhile_cons, List.dropWhile_cons, Bool.not_true,
        Bool.false_eq_true, if_false, List.length_nil]
      rw [if_neg (by simp; omega), if_neg (by simp)]
      simp
    · simp only [hc, if_false, List.takeWhile_cons, List.dropWhile_cons, Bool.not_false,
        Bool.false_eq_true, if_true, List.length_cons, bufSet, hb, hi, Res.bind_ok]
      by_cases hfull : idx + 1 ≥ BUFSIZE
      · rw [if_pos hfull, if_pos (by omega)]
      · rw [if_neg hfull, ih _ (by simpa using hb) _ (by omega)]
        simp only
        have e : idx + 1 + (List.takeWhile (fun c => !isSpace c) s).length =
          idx + ((List.takeWhile (fun c => !isSpace c) s).length + 1) := by omega
        rw [e]
        split
        · rfl
        · split
          · rfl
          · congr 2
            have hlt : idx < buf.length := by omega
            rw [List.set_eq_take_append_cons_drop, if_pos hlt]
            have h1 : (buf.take idx ++ c :: buf.drop (idx + 1)).take (idx + 1) =
                buf.take idx ++ [c] := by
              rw [List.take_append]
              simp [List.length_take, Nat.min_eq_left hlt.le]
            have h2 : (buf.take idx ++ c :: buf.drop (idx + 1)).drop
                (idx + ((List.takeWhile (fun c => !isSpace c) s).length + 1)) =
                buf.drop (idx + ((List.takeWhile (fun c => !isSpace c) s).length + 1)) := by
              rw [List.drop_append]
              simp only [List.length_take, Nat.min_eq_left hlt.le]
              rw [List.drop_eq_nil_of_le (by simp), List.nil_append,
                Nat.add_sub_cancel_left, List.drop_succ_cons, List.drop_drop]
              congr 1
              try omega
            rw [h1, h2]
            simp

/-- The buffer level of `getNextToken` computes the same token and rest as the abstract level. -/
theorem getNextTokenRaw_spec (buf : List Char) (hb : buf.length = BUFSIZE) (s : List Char) :
    (getNextTokenRaw buf s).map (fun x => (cstr x.1, x.2)) = nextToken s := by
  cases s with
  | nil =>
    cases buf with
    | nil => simp [BUFSIZE] at hb
    | cons b buf => simp [getNextTokenRaw, nextToken, bufSet, Except.map, cstr]
  | cons c s =>
    simp only [getNextTokenRaw, nextToken]
    cases skipBlanks false (c :: s) with
    | error e => rfl
    | ok s' =>
      simp only [Res.bind_ok]
      rw [copyToken_spec buf hb 0 (by decide)]
      simp only [Nat.zero_add, List.take_zero, List.nil_append]
      split
      · rfl
      · next hlen =>
        split
        · rfl
        · simp only [Res.bind_ok, bufSet]
          have hl : (List.takeWhile (fun c => !isSpace c) s' ++
              List.drop (List.takeWhile (fun c => !isSpace c) s').length buf).length = BUFSIZE := by
            rw [List.length_append, List.length_drop, hb]; omega
          rw [hl, if_pos (by omega)]
          simp only [Res.bind_ok, Except.map]
          congr 2
          unfold cstr
          rw [List.set_append_right (h := le_refl _), Nat.sub_self]
          obtain ⟨d, ds, hd⟩ : ∃ d ds, List.drop (List.takeWhile (fun c => !isSpace c) s').length buf
              = d :: ds := by
            cases hdrop : List.drop (List.takeWhile (fun c => !isSpace c) s').length buf with
            | nil =>
              have := congrArg List.length hdrop
              rw [List.length_drop, hb] at this
              simp at this; omega
            | cons d ds => exact ⟨d, ds, rfl⟩
          rw [hd, List.set_cons_zero, List.takeWhile_append]
          split
          · next h =>
            have h' := (List.takeWhile_prefix (l := List.takeWhile (fun c => !isSpace c) s')
              (fun c => decide (c ≠ nul))).eq_of_length h
            rw [List.takeWhile_cons]
            simp only [ne_eq, not_true_eq_false, decide_false, Bool.false_eq_true, if_false,
              List.append_nil]
            exact h'.symm
          · rfl

theorem getNextTokenRaw_length (buf : List Char) (hb : buf.length = BUFSIZE) (s : List Char) :
    ∀ b r, getNextTokenRaw buf s = .ok (b, r) → b.length = BUFSIZE := by
  intro b r h
  cases s with
  | nil =>
    simp only [getNextTokenRaw, bufSet] at h
    split at h
    · simp at h; rw [← h.1]; simpa using hb
    · simp at h
  | cons c s =>
    simp only [getNextTokenRaw] at h
    cases hsk : skipBlanks false (c :: s) with
    | error e => rw [hsk] at h; simp at h
    | ok s' =>
      rw [hsk] at h
      simp only [Res.bind_ok] at h
      rw [copyToken_spec buf hb 0 (by decide)] at h
      simp only [Nat.zero_add, List.take_zero, List.nil_append] at h
      split at h
      · simp at h
      · split at h
        · simp at h
        · simp only [Res.bind_ok, bufSet] at h
          split at h
          · simp at h
            rw [← h.1]
            simp [hb]; omega
          · simp at h

theorem skipBlanks_error (b : Bool) (s : List Char) (e : Err) (h : skipBlanks b s = .error e) :
    e = .ub .endOfStream := by
  induction s generalizing b with
  | nil => simp [skipBlanks] at h; exact h.symm
  | cons c s ih =>
    cases b with
    | true =>
      simp only [skipBlanks] at h
      split at h <;> exact ih _ h
    | false =>
      simp only [skipBlanks] at h
      split at h
      · exact ih _ h
      · split at h
        · exact ih _ h
        · cases h

/-! ## Pieces: blank-separated tokens -/

/-- Concatenate (blanks, token) pieces. -/
def flat : List (List Char × List Char) → List Char
  | [] => []
  | (w, t) :: ps => w ++ t ++ flat ps

theorem flat_append (a b : List (List Char × List Char)) : flat (a ++ b) = flat a ++ flat b := by
  induction a with
  | nil => rfl
  | cons x a ih => obtain ⟨w, t⟩ := x; simp [flat, ih]

/-- A token that the tokenizer returns as is. -/
structure GoodTok (t : List Char) : Prop where
  ne_nil : t ≠ []
  no_space : ∀ c ∈ t, isSpace c = false
  no_nul : ∀ c ∈ t, c ≠ nul
  no_hash : t.head? ≠ some '#'
  len : t.length < BUFSIZE

/-- Only blanks. -/
def Blank (w : List Char) : Prop := ∀ c ∈ w, isSpace c = true

/-- The stream continues with a blank. -/
def StartsBlank (s : List Char) : Prop := ∃ c r, s = c :: r ∧ isSpace c = true

theorem skipBlanks_blank {w : List Char} (hw : Blank w) (s : List Char) :
    skipBlanks false (w ++ s) = skipBlanks false s := by
  induction w with
  | nil => rfl
  | cons c w ih =>
    rw [List.cons_append, skipBlanks, if_pos (hw c (by simp))]
    exact ih (fun x hx => hw x (List.mem_cons_of_mem _ hx))

theorem takeWhile_token {t : List Char} (ht : ∀ c ∈ t, isSpace c = false) {r : List Char}
    (hr : StartsBlank r) :
    (t ++ r).takeWhile (fun c => !isSpace c) = t ∧ (t ++ r).dropWhile (fun c => !isSpace c) = r := by
  obtain ⟨c, r', rfl, hc⟩ := hr
  induction t with
  | nil => simp [hc]
  | cons x t ih =>
    have hx := ht x (by simp)
    have := ih (fun y hy => ht y (List.mem_cons_of_mem _ hy))
    simp [hx, this.1, this.2]

theorem nextToken_piece {w t r : List Char} (hw : Blank w) (ht : GoodTok t) (hr : StartsBlank r) :
    nextToken (w ++ t ++ r) = .ok (t, r) := by
  have hne : w ++ t ++ r ≠ [] := by simp [ht.ne_nil]
  have hnt : nextToken (w ++ t ++ r) = (do
    let s ← skipBlanks false (w ++ t ++ r)
    let t := s.takeWhile (fun c => !isSpace c)
    let r := s.dropWhile (fun c => !isSpace c)
    if BUFSIZE ≤ t.length then .error .abort
    else if r = [] then .error (.ub .endOfStream)
    else .ok (cstr t, r)) := by
    unfold nextToken
    split
    · next h => exact absurd h hne
    · rfl
  rw [hnt, List.append_assoc, skipBlanks_blank hw]
  have hsk : skipBlanks false (t ++ r) = .ok (t ++ r) := by
    cases t with
    | nil => exact absurd rfl ht.ne_nil
    | cons c t =>
      have h1 := ht.no_space c (by simp)
      have h2 : c ≠ '#' := by
        intro h; exact ht.no_hash (by simp [h])
      simp [skipBlanks, h1, h2]
  obtain ⟨h1, h2⟩ := takeWhile_token ht.no_space hr
  rw [hsk]
  simp only [Res.bind_ok, h1, h2]
  rw [if_neg (not_le.2 ht.len)]
  obtain ⟨c, r', hr', _⟩ := hr
  rw [if_neg (by simp [hr'])]
  have : cstr t = t := takeWhile_eq_self (fun c hc => by simpa using ht.no_nul c hc)
  rw [this]

theorem nextToken_long {w t r : List Char} (hw : Blank w) (hne : t ≠ [])
    (hsp : ∀ c ∈ t, isSpace c = false) (hh : t.head? ≠ some '#') (hr : StartsBlank r)
    (hlen : BUFSIZE ≤ t.length) :
    nextToken (w ++ t ++ r) = .error .abort := by
  have hne' : w ++ t ++ r ≠ [] := by simp [hne]
  unfold nextToken
  split
  · next h => exact absurd h hne'
  rw [List.append_assoc, skipBlanks_blank hw]
  have hsk : skipBlanks false (t ++ r) = .ok (t ++ r) := by
    cases t with
    | nil => exact absurd rfl hne
    | cons c t =>
      have h1 := hsp c (by simp)
      have h2 : c ≠ '#' := by
        intro h; exact hh (by simp [h])
      simp [skipBlanks, h1, h2]
  obtain ⟨h1, h2⟩ := takeWhile_token hsp hr
  rw [hsk]
  simp only [Res.bind_ok, h1]
  rw [if_pos hlen]

/-! ## Running parser actions -/

theorem P.bind_apply {α β : Type} (f : P α) (g : α → P β) (s : PS) :
    (f >>= g) s = (f s >>= fun x => g x.1 x.2) := rfl

theorem P.pure_apply {α : Type} (a : α) (s : PS) : (pure a : P α) s = .ok (a, s) := rfl

theorem P.fail_apply {α : Type} (e : Err) (s : PS) : (P.fail e : P α) s = .error e := rfl

theorem P.ite_apply {α : Type} (c : Prop) [Decidable c] (f g : P α) (s : PS) :
    (if c then f else g) s = if c then f s else g s := by split <;> rfl

theorem getNextToken_piece {w t r : List Char} (hw : Blank w) (ht : GoodTok t) (hr : StartsBlank r)
    (b : List Char) (o : ℕ) :
    getNextToken ⟨w ++ t ++ r, b, o⟩ = .ok ((), ⟨r, t, 0⟩) := by
  simp only [getNextToken, nextToken_piece hw ht hr, Res.bind_ok]

theorem getNextTokenEquals_piece {w t r : List Char} (hw : Blank w) (ht : GoodTok t)
    (hr : StartsBlank r) (b : List Char) (o : ℕ) (e : List Char) :
    getNextTokenEquals e ⟨w ++ t ++ r, b, o⟩ = .ok (decide (t = e), ⟨r, t, 0⟩) := by
  unfold getNextTokenEquals
  rw [P.bind_apply, getNextToken_piece hw ht hr]
  simp [getTokenEquals, PS.tok]

theorem expectNext_piece {w t r : List Char} (hw : Blank w) (ht : GoodTok t) (hr : StartsBlank r)
    (b : List Char) (o : ℕ) :
    expectNext t ⟨w ++ t ++ r, b, o⟩ = .ok ((), ⟨r, t, 0⟩) := by
  unfold expectNext
  rw [P.bind_apply, getNextToken_piece hw ht hr]
  simp [parseExpected, PS.tok]

theorem parseExpected_apply (e : List Char) (s : PS) :
    parseExpected e s = if s.tok = e then .ok ((), s) else .error .abort := rfl

theorem parseWith_apply {α : Type} (f : List Char → Res (α × ℕ)) (s : PS) :
    parseWith f s = (f s.tok >>= fun x => .ok (x.1, { s with off := x.2 })) := rfl

/-! ## Extension: parsing a longer stream -/

/-- Successful runs on a non-empty stream leave a non-empty stream and are unaffected by further text
at the end of the stream. -/
def Ext {α : Type} (f : P α) : Prop :=
  ∀ s a s' d, s.is ≠ [] → f s = .ok (a, s') →
    s'.is ≠ [] ∧ f { s with is := s.is ++ d } = .ok (a, { s' with is := s'.is ++ d })

theorem skipBlanks_ext (b : Bool) (s d r : List Char) (h : skipBlanks b s = .ok r) :
    skipBlanks b (s ++ d) = .ok (r ++ d) := by
  induction s generalizing b with
  | nil => simp [skipBlanks] at h
  | cons c s ih =>
    cases b with
    | true =>
      simp only [List.cons_append, skipBlanks] at h ⊢
      split at h <;> simp_all
    | false =>
      simp only [List.cons_append, skipBlanks] at h ⊢
      split at h
      · simp_all
      · split at h
        · simp_all
        · cases h; simp_all

theorem nextToken_cons (c : Char) (s : List Char) :
    nextToken (c :: s) = (do
      let s ← skipBlanks false (c :: s)
      let t := s.takeWhile (fun c => !isSpace c)
      let r := s.dropWhile (fun c => !isSpace c)
      if BUFSIZE ≤ t.length then .error .abort
      else if r = [] then .error (.ub .endOfStream)
      else .ok (cstr t, r)) := rfl

theorem takeWhile_ext {s d : List Char} (h : s.dropWhile (fun c => !isSpace c) ≠ []) :
    (s ++ d).takeWhile (fun c => !isSpace c) = s.takeWhile (fun c => !isSpace c) ∧
    (s ++ d).dropWhile (fun c => !isSpace c) = s.dropWhile (fun c => !isSpace c) ++ d := by
  induction s with
  | nil => simp at h
  | cons c s ih =>
    by_cases hc : isSpace c = true
    · simp [hc]
    · simp only [hc, List.cons_append, List.takeWhile_cons, List.dropWhile_cons, Bool.not_false,
        if_true] at h ⊢
      have := ih h
      simp [this.1, this.2]

theorem nextToken_ext {s t r : List Char} (hs : s ≠ []) (h : nextToken s = .ok (t, r))
    (d : List Char) : r ≠ [] ∧ nextToken (s ++ d) = .ok (t, r ++ d) := by
  cases s with
  | nil => exact absurd rfl hs
  | cons c s =>
    rw [nextToken_cons] at h
    cases hsk : skipBlanks false (c :: s) with
    | error e => rw [hsk] at h; simp at h
    | ok s' =>
      rw [hsk] at h
      simp only [Res.bind_ok] at h
      split at h
      · simp at h
      · next hlen =>
        split at h
        · simp at h
        · next hr =>
          simp only [Except.ok.injEq, Prod.mk.injEq] at h
          obtain ⟨rfl, rfl⟩ := h
          refine ⟨hr, ?_⟩
          rw [List.cons_append, nextToken_cons]
          have := skipBlanks_ext false (c :: s) d s' hsk
          rw [List.cons_append] at this
          rw [this]
          obtain ⟨e1, e2⟩ := takeWhile_ext (d := d) hr
          simp only [Res.bind_ok, e1, e2]
          rw [if_neg hlen, if_neg (by simp [hr])]

theorem Ext.getNextToken : Ext getNextToken := by
  intro s a s' d hs h
  simp only [Apollo.getNextToken] at h ⊢
  cases hn : nextToken s.is with
  | error e => rw [hn] at h; simp at h
  | ok x =>
    obtain ⟨t, r⟩ := x
    rw [hn] at h
    simp only [Res.bind_ok, Except.ok.injEq, Prod.mk.injEq] at h
    obtain ⟨-, rfl⟩ := h
    obtain ⟨h1, h2⟩ := nextToken_ext hs hn d
    exact ⟨h1, by rw [h2]; rfl⟩

theorem Ext.bind {α β : Type} {f : P α} {g : α → P β} (hf : Ext f) (hg : ∀ a, Ext (g a)) :
    Ext (f >>= g) := by
  intro s b s' d hs h
  rw [P.bind_apply] at h ⊢
  cases hx : f s with
  | error e => rw [hx] at h; simp at h
  | ok x =>
    obtain ⟨a, s1⟩ := x
    rw [hx] at h
    simp only [Res.bind_ok] at h
    obtain ⟨h1, h2⟩ := hf s a s1 d hs hx
    obtain ⟨h3, h4⟩ := hg a s1 b s' d h1 h
    refine ⟨h3, ?_⟩
    rw [h2]
    exact h4

theorem Ext.pure {α : Type} (a : α) : Ext (pure a : P α) := by
  intro s b s' d hs h
  rw [P.pure_apply] at h
  cases h
  exact ⟨hs, rfl⟩

theorem Ext.fail {α : Type} (e : Err) : Ext (P.fail e : P α) := by
  intro s b s' d hs h
  cases h

theorem Ext.ite {α : Type} (c : Prop) [Decidable c] {f g : P α} (hf : Ext f) (hg : Ext g) :
    Ext (if c then f else g) := by
  split <;> assumption

theorem Ext.getTokenEquals (e : List Char) : Ext (getTokenEquals e) := by
  intro s b s' d hs h
  simp only [Apollo.getTokenEquals, Except.ok.injEq, Prod.mk.injEq] at h ⊢
  obtain ⟨rfl, rfl⟩ := h
  exact ⟨hs, by rfl, rfl⟩

theorem Ext.parseExpected (e : List Char) : Ext (parseExpected e) := by
  intro s b s' d hs h
  simp only [Apollo.parseExpected] at h ⊢
  split at h
  · next ht =>
    cases h
    refine ⟨hs, ?_⟩
    rw [if_pos (by exact ht)]
  · cases h

theorem Ext.parseWith {α : Type} (f : List Char → Res (α × ℕ)) : Ext (parseWith f) := by
  intro s b s' d hs h
  rw [parseWith_apply] at h ⊢
  have : ({ s with is := s.is ++ d } : PS).tok = s.tok := rfl
  rw [this]
  cases hx : f s.tok with
  | error e => rw [hx] at h; simp at h
  | ok x =>
    rw [hx] at h
    simp only [Res.bind_ok, Except.ok.injEq, Prod.mk.injEq] at h ⊢
    obtain ⟨rfl, rfl⟩ := h
    exact ⟨hs, rfl, rfl⟩

theorem Ext.getNextTokenEquals (e : List Char) : Ext (getNextTokenEquals e) :=
  Ext.bind Ext.getNextToken fun _ => Ext.getTokenEquals e

theorem Ext.expectNext (e : List Char) : Ext (expectNext e) :=
  Ext.bind Ext.getNextToken fun _ => Ext.parseExpected e

theorem Ext.parseUnsigned : Ext parseUnsigned :=
  Ext.bind (Ext.parseWith _) fun _ => Ext.pure _

/-! ## Fuel monotonicity -/

/-- `f` succeeds wherever `g` does, with the same result. -/
def Le {α : Type} (g f : P α) : Prop := ∀ s x, g s = .ok x → f s = .ok x

theorem Le.refl {α : Type} (f : P α) : Le f f := fun _ _ h => h

theorem Le.bind {α β : Type} {f f' : P α} {g g' : α → P β} (hf : Le f f') (hg : ∀ a, Le (g a) (g' a)) :
    Le (f >>= g) (f' >>= g') := by
  intro s x h
  rw [P.bind_apply] at h ⊢
  cases hx : f s with
  | error e => rw [hx] at h; simp at h
  | ok y =>
    rw [hx] at h
    rw [hf s y hx]
    exact hg _ _ _ h

theorem Le.ite {α : Type} (c : Prop) [Decidable c] {f f' g g' : P α} (hf : Le f f') (hg : Le g g') :
    Le (if c then f else g) (if c then f' else g') := by
  split <;> assumption

theorem Le.fail {α : Type} (e : Err) (f : P α) : Le (P.fail e) f := by
  intro s x h; cases h

/-! ## Consumption -/

theorem skipBlanks_length (b : Bool) (s r : List Char) (h : skipBlanks b s = .ok r) :
    r.length ≤ s.length ∧ ∃ c r', r = c :: r' ∧ isSpace c = false := by
  induction s generalizing b with
  | nil => simp [skipBlanks] at h
  | cons c s ih =>
    cases b with
    | true =>
      simp only [skipBlanks] at h
      split at h <;> (have := ih _ h; exact ⟨by simp; omega, this.2⟩)
    | false =>
      simp only [skipBlanks] at h
      split at h
      · have := ih _ h; exact ⟨by simp; omega, this.2⟩
      · next hc =>
        split at h
        · have := ih _ h; exact ⟨by simp; omega, this.2⟩
        · cases h; exact ⟨by simp, c, s, rfl, by simpa using hc⟩

theorem nextToken_length {s t r : List Char} (h : nextToken s = .ok (t, r)) :
    r.length ≤ s.length ∧ (s ≠ [] → r.length < s.length) := by
  cases s with
  | nil => simp [nextToken] at h; simp [h.2]
  | cons c s =>
    rw [nextToken_cons] at h
    cases hsk : skipBlanks false (c :: s) with
    | error e => rw [hsk] at h; simp at h
    | ok s' =>
      rw [hsk] at h
      simp only [Res.bind_ok] at h
      split at h
      · simp at h
      · split at h
        · simp at h
        · simp only [Except.ok.injEq, Prod.mk.injEq] at h
          obtain ⟨-, rfl⟩ := h
          obtain ⟨h1, c', r', rfl, hc'⟩ := skipBlanks_length _ _ _ hsk
          have : (List.dropWhile (fun c => !isSpace c) (c' :: r')).length ≤ r'.length := by
            rw [List.dropWhile_cons]
            simp only [hc', Bool.not_false, if_true]
            exact (List.dropWhile_sublist _).length_le
          simp at h1 ⊢
          omega

/-- The action never reads beyond its result, and never runs out of fuel. -/
def NoDiv {α : Type} (f : P α) (n : ℕ) : Prop :=
  ∀ s, s.is.length ≤ n → f s ≠ .error .diverge ∧ ∀ x, f s = .ok x → x.2.is.length ≤ s.is.length

end Apollo
