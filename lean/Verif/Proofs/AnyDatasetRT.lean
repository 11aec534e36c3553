import Verif.Proofs.AnyDatasetIO

/-! Helper lemmas: loading back a stored dataset whose features are any floats. -/

namespace Apollo
namespace AnyDataset

open Dataset (fmtInt_no_nul idxTok_ne length_fmtG6_float length_fmtG6_double length_fmtInt_int
  fmtG6_ne_nil)

/-! ## Tokens of a stored file -/

/-- Token of the features: nothing, or all of them in one token. -/
def featToks (neg : ℕ → Bool) (f : List AnyFloat) : List (List Char) :=
  if f = [] then [] else [featText neg 0 f]

/-- Tokens of an entry. -/
def entryToks (neg : ℕ → ℕ → Bool) (idx : ℕ) (d : (List AnyFloat × ℤ) × ℚ) : List (List Char) :=
  [fmtInt idx ++ [':'], "{".toList, "features:".toList, "[".toList] ++ featToks (neg idx) d.1.1 ++
    ["],".toList, "policy:".toList, fmtInt d.1.2 ++ [','], "xtime:".toList, fmtG6 d.2,
     "},".toList]

/-- Tokens of the entries. -/
def entriesToks (neg : ℕ → ℕ → Bool) : ℕ → List ((List AnyFloat × ℤ) × ℚ) → List (List Char)
  | _, [] => []
  | idx, d :: ds => entryToks neg idx d ++ entriesToks neg (idx + 1) ds

/-- Tokens of a file. -/
def storeToks (neg : ℕ → ℕ → Bool) (ds : List ((List AnyFloat × ℤ) × ℚ)) : List (List Char) :=
  ["data:".toList, "{".toList] ++ entriesToks neg 0 ds ++ ["}".toList]

theorem mem_featText {neg : ℕ → Bool} {j : ℕ} {f : List AnyFloat} {c : Char}
    (h : c ∈ featText neg j f) : anyChar c ∨ c = ',' := by
  induction f generalizing j with
  | nil => cases h
  | cons x f ih =>
    rw [featText, List.mem_append, List.mem_cons] at h
    rcases h with h | h | h
    · exact Or.inl (anyChar_fmtAny _ _ _ h)
    · exact Or.inr h
    · exact ih h

theorem not_anyChar {d : Char} (h1 : isDigit d = false) (h2 : d ≠ '-') (h3 : d ≠ '+') (h4 : d ≠ '.')
    (h5 : d ≠ 'e') (h6 : d ≠ 'i') (h7 : d ≠ 'n') (h8 : d ≠ 'f') (h9 : d ≠ 'a') : ¬ anyChar d := by
  rintro ((h | h | h | h | h) | h | h | h | h)
  · rw [h] at h1; cases h1
  all_goals contradiction

theorem wTok_featText (neg : ℕ → Bool) {f : List AnyFloat} (hf : f ≠ []) :
    WTok (featText neg 0 f) := by
  cases f with
  | nil => exact absurd rfl hf
  | cons x f =>
    obtain ⟨c, r, h, hc⟩ := fmtAny_head (neg 0) x
    refine ⟨?_, ?_, ?_⟩
    · rw [featText, h]; simp
    · intro c hc
      rcases mem_featText hc with h | rfl
      · exact h.not_space
      · rfl
    · rw [featText, h]
      have : c ≠ '#' := hc.ne (not_anyChar (by decide) (by decide) (by decide) (by decide)
        (by decide) (by decide) (by decide) (by decide) (by decide))
      simpa using this

theorem featText_no_nul (neg : ℕ → Bool) (j : ℕ) (f : List AnyFloat) :
    ∀ c ∈ featText neg j f, c ≠ nul := by
  intro c hc
  rcases mem_featText hc with h | rfl
  · exact h.ne (not_anyChar (by decide) (by decide) (by decide) (by decide)
        (by decide) (by decide) (by decide) (by decide) (by decide))
  · decide

theorem featText_ne (neg : ℕ → Bool) (x : AnyFloat) (f : List AnyFloat) :
    featText neg 0 (x :: f) ≠ "],".toList := by
  obtain ⟨c, r, h, hc⟩ := fmtAny_head (neg 0) x
  rw [featText, h]
  have : c ≠ ']' := hc.ne (not_anyChar (by decide) (by decide) (by decide) (by decide)
        (by decide) (by decide) (by decide) (by decide) (by decide))
  simp [this]

/-- Text of an entry after `[`. -/
def entryTail (d : (List AnyFloat × ℤ) × ℚ) (rest : List Char) : List Char :=
  " ".toList ++ ("],".toList ++ (" ".toList ++ ("policy:".toList ++ (" ".toList ++
    ((fmtInt d.1.2 ++ [',']) ++ (" ".toList ++ ("xtime:".toList ++ (" ".toList ++
      (fmtG6 d.2 ++ (" ".toList ++ ("},".toList ++ '\n' :: rest)))))))))))

theorem entryText_eq (neg : ℕ → ℕ → Bool) (idx : ℕ) (d : (List AnyFloat × ℤ) × ℚ)
    (rest : List Char) :
    '\n' :: (entryText neg idx d ++ rest) =
      "\n  ".toList ++ ((fmtInt idx ++ [':']) ++ (" ".toList ++ ("{".toList ++ (" ".toList ++
        ("features:".toList ++ (" ".toList ++ ("[".toList ++ (' ' :: (featText (neg idx) 0 d.1.1 ++
          entryTail d rest))))))))) := by
  unfold entryText entryTail
  generalize fmtInt idx = a
  generalize fmtInt d.1.2 = b
  generalize featText (neg idx) 0 d.1.1 = c
  generalize fmtG6 d.2 = e
  simp only [String.reduceToList, List.cons_append, List.nil_append, List.append_assoc]

theorem wtoks_tail (d : (List AnyFloat × ℤ) × ℚ) (rest : List Char) :
    WToks ('\n' :: rest) (entryTail d rest)
      ["],".toList, "policy:".toList, fmtInt d.1.2 ++ [','], "xtime:".toList, fmtG6 d.2,
       "},".toList] := by
  unfold entryTail
  refine WToks.cons' (blank_of_all (by decide)) (wTok_of_b (by decide))
    (StartsBlank.append (by decide) (blank_of_all (by decide))) ?_
  refine WToks.cons' (blank_of_all (by decide)) (wTok_of_b (by decide))
    (StartsBlank.append (by decide) (blank_of_all (by decide))) ?_
  refine WToks.cons' (blank_of_all (by decide))
    (wTok_num (fmtInt_spec _).1 (fmtInt_spec _).2 _ (by decide))
    (StartsBlank.append (by decide) (blank_of_all (by decide))) ?_
  refine WToks.cons' (blank_of_all (by decide)) (wTok_of_b (by decide))
    (StartsBlank.append (by decide) (blank_of_all (by decide))) ?_
  refine WToks.cons' (blank_of_all (by decide))
    (by simpa using wTok_num (numChar_fmtG6 d.2) (fmtG6_ne_nil _) [] (by decide))
    (StartsBlank.append (by decide) (blank_of_all (by decide))) ?_
  exact WToks.cons' (blank_of_all (by decide)) (wTok_of_b (by decide))
    (startsBlank_cons (by decide)) WToks.nil

theorem wtoks_entry (neg : ℕ → ℕ → Bool) (idx : ℕ) (d : (List AnyFloat × ℤ) × ℚ)
    (rest : List Char) :
    WToks ('\n' :: rest) ('\n' :: (entryText neg idx d ++ rest)) (entryToks neg idx d) := by
  rw [entryText_eq]
  unfold entryToks
  refine WToks.cons' (blank_of_all (by decide))
    (wTok_num (fmtInt_spec _).1 (fmtInt_spec _).2 _ (by decide))
    (StartsBlank.append (by decide) (blank_of_all (by decide))) ?_
  refine WToks.cons' (blank_of_all (by decide)) (wTok_of_b (by decide))
    (StartsBlank.append (by decide) (blank_of_all (by decide))) ?_
  refine WToks.cons' (blank_of_all (by decide)) (wTok_of_b (by decide))
    (StartsBlank.append (by decide) (blank_of_all (by decide))) ?_
  refine WToks.cons' (blank_of_all (by decide)) (wTok_of_b (by decide))
    (startsBlank_cons (by decide)) ?_
  by_cases hf : d.1.1 = []
  · simp only [featToks, hf, if_true]
    exact WToks.blank (w := [' ']) (blank_of_all (by decide)) (wtoks_tail d rest)
  · simp only [featToks, hf, if_false]
    exact WToks.cons' (w := [' ']) (blank_of_all (by decide)) (wTok_featText _ hf)
      (StartsBlank.append (by decide) (blank_of_all (by decide))) (wtoks_tail d rest)

theorem wtoks_entries (neg : ℕ → ℕ → Bool) (idx : ℕ) (ds : List ((List AnyFloat × ℤ) × ℚ))
    (rest : List Char) :
    WToks ('\n' :: rest) ('\n' :: (entriesText neg idx ds ++ rest)) (entriesToks neg idx ds) := by
  induction ds generalizing idx with
  | nil => exact WToks.nil
  | cons d ds ih =>
    simp only [entriesText, entriesToks, List.append_assoc]
    exact (wtoks_entry neg idx d _).append (ih _)

theorem wtoks_store (neg : ℕ → ℕ → Bool) (ds : AnyDataset) :
    WToks ['\n'] (store neg ds) (storeToks neg ds.toList) := by
  have e : store neg ds = [] ++ ("data:".toList ++ (" ".toList ++ ("{".toList ++
      '\n' :: (entriesText neg 0 ds.toList ++ "}\n".toList)))) := by
    unfold store
    generalize entriesText neg 0 ds.toList = a
    simp only [String.reduceToList, List.cons_append, List.nil_append]
  rw [e]
  unfold storeToks
  refine WToks.cons' (blank_of_all (by decide)) (wTok_of_b (by decide))
    (StartsBlank.append (by decide) (blank_of_all (by decide))) ?_
  refine WToks.cons' (blank_of_all (by decide)) (wTok_of_b (by decide))
    (startsBlank_cons (by decide)) ?_
  refine WToks.append (wtoks_entries neg 0 ds.toList _) ?_
  exact WToks.cons_eq (['\n']) "}".toList ['\n'] (by decide) (blank_of_all (by decide))
    (wTok_of_b (by decide)) (startsBlank_cons (by decide)) WToks.nil

/-! ## Entries with two or more features -/

theorem consumes_features (neg : ℕ → Bool) (fuel : ℕ) (acc f : List AnyFloat) :
    Consumes (loadFeatures fuel acc) (featToks neg f ++ ["],".toList]) := by
  have hend : ∀ fuel acc, Consumes (loadFeatures fuel acc) ["],".toList] := by
    intro fuel acc
    cases fuel with
    | zero => exact Consumes.fail _ _
    | succ fuel =>
      exact Consumes.getNextTokenEquals (by decide) (Consumes.pure _)
  cases fuel with
  | zero => exact Consumes.fail _ _
  | succ fuel =>
    unfold featToks
    split
    · exact hend _ _
    · next hf =>
      refine Consumes.getNextTokenEquals (featText_no_nul _ _ f) ?_
      have hne : featText neg 0 f ≠ "],".toList := by
        cases f with
        | nil => exact absurd rfl hf
        | cons x f => exact featText_ne _ _ _
      rw [decide_eq_false hne]
      refine Consumes.bind0 (Consumes.parseWith _) fun x => ?_
      exact Consumes.bind0 (Consumes.parseExpected _) fun _ => hend _ _

theorem consumes_entry (neg : ℕ → ℕ → Bool) (fuel : ℕ) (d : (List AnyFloat × ℤ) × ℚ) (idx : ℕ) :
    Consumes (loadEntry fuel) (entryToks neg idx d).tail := by
  have e : (entryToks neg idx d).tail = "{".toList :: "features:".toList :: "[".toList ::
    ((featToks (neg idx) d.1.1 ++ ["],".toList]) ++ ["policy:".toList, fmtInt d.1.2 ++ [','],
      "xtime:".toList, fmtG6 d.2, "},".toList]) := by
    simp [entryToks]
  rw [e]
  unfold loadEntry
  refine Consumes.bind0 (Consumes.parseWith _) fun _ => ?_
  refine Consumes.bind0 (Consumes.parseExpected _) fun _ => ?_
  refine Consumes.bind1 (Consumes.expectNext _ _) fun _ => ?_
  refine Consumes.bind1 (Consumes.expectNext _ _) fun _ => ?_
  refine Consumes.bind1 (Consumes.expectNext _ _) fun _ => ?_
  refine Consumes.bind (consumes_features _ _ _ _) fun _ => ?_
  refine Consumes.bind1 (Consumes.expectNext _ _) fun _ => ?_
  refine Consumes.bind1 (Consumes.getNextToken _) fun _ => ?_
  refine Consumes.bind0 (Consumes.parseWith _) fun _ => ?_
  refine Consumes.bind0 (Consumes.parseExpected _) fun _ => ?_
  refine Consumes.bind1 (Consumes.expectNext _ _) fun _ => ?_
  refine Consumes.bind1 (Consumes.getNextToken _) fun _ => ?_
  refine Consumes.bind0 (Consumes.parseWith _) fun _ => ?_
  exact Consumes.bind1 (Consumes.expectNext _ _) fun _ => Consumes.pure _

theorem never_features (neg : ℕ → Bool) {f : List AnyFloat} (hf : 2 ≤ f.length) (fuel : ℕ)
    (acc : List AnyFloat) : Never (loadFeatures fuel acc) (featToks neg f) := by
  cases fuel with
  | zero => exact Never.fail _ _
  | succ fuel =>
    obtain ⟨x, y, f', rfl⟩ : ∃ x y f', f = x :: y :: f' := by
      match f, hf with
      | x :: y :: f', _ => exact ⟨x, y, f', rfl⟩
    have e : featToks neg (x :: y :: f') = [featText neg 0 (x :: y :: f')] := rfl
    rw [e]
    refine Never.token (featText_no_nul _ _ _) fun s' => ?_
    rw [decide_eq_false (featText_ne _ _ _), if_neg (by simp), P.bind_apply]
    have ht : PS.tok ⟨s', featText neg 0 (x :: y :: f'), 0⟩ =
        fmtAny (neg 0) x ++ ',' :: featText neg 1 (y :: f') := by
      simp [PS.tok, featText]
    have hstof : (∃ e, parseAny ⟨s', featText neg 0 (x :: y :: f'), 0⟩ = .error e) ∨
        ∃ v, parseAny ⟨s', featText neg 0 (x :: y :: f'), 0⟩ =
          .ok (v, ⟨s', featText neg 0 (x :: y :: f'), (fmtAny (neg 0) x).length⟩) := by
      unfold parseAny
      rw [parseWith_apply, ht]
      rcases stofAny_pos x (neg 0) (featText neg 1 (y :: f')) with ⟨e, he⟩ | ⟨v, he⟩
      · rw [he]; exact Or.inl ⟨_, rfl⟩
      · rw [he]; exact Or.inr ⟨_, rfl⟩
    rcases hstof with ⟨e, he⟩ | ⟨v, he⟩
    · rw [he]; exact ⟨e, rfl⟩
    · rw [he, Res.bind_ok, P.bind_apply, parseExpected_apply]
      have ht : PS.tok ⟨s', featText neg 0 (x :: y :: f'), (fmtAny (neg 0) x).length⟩ =
          ',' :: featText neg 1 (y :: f') := by
        rw [featText]
        simp [PS.tok]
      rw [if_neg]
      · exact ⟨_, rfl⟩
      · show PS.tok ⟨s', featText neg 0 (x :: y :: f'), (fmtAny (neg 0) x).length⟩ ≠ _
        rw [ht]
        obtain ⟨c, r, h, hc⟩ := fmtAny_head (neg 1) y
        rw [featText, h]
        simp

theorem never_entry (neg : ℕ → ℕ → Bool) {d : (List AnyFloat × ℤ) × ℚ} (hf : 2 ≤ d.1.1.length)
    (fuel idx : ℕ) : Never (loadEntry fuel) (entryToks neg idx d).tail := by
  have e : (entryToks neg idx d).tail = "{".toList :: "features:".toList :: "[".toList ::
    (featToks (neg idx) d.1.1 ++ ["],".toList, "policy:".toList, fmtInt d.1.2 ++ [','],
      "xtime:".toList, fmtG6 d.2, "},".toList]) := by
    simp [entryToks]
  rw [e]
  unfold loadEntry
  refine Never.bind0 (Consumes.parseWith _) fun _ => ?_
  refine Never.bind0 (Consumes.parseExpected _) fun _ => ?_
  refine Never.bind1 (Consumes.expectNext _ _) fun _ => ?_
  refine Never.bind1 (Consumes.expectNext _ _) fun _ => ?_
  refine Never.bind1 (Consumes.expectNext _ _) fun _ => ?_
  exact Never.first (never_features _ hf _ _).mono

theorem never_entries (balance : AnyDataset → AnyDataset) (neg : ℕ → ℕ → Bool)
    {ds : List ((List AnyFloat × ℤ) × ℚ)} (h : ∃ d ∈ ds, 2 ≤ d.1.1.length) (fuel idx : ℕ)
    (acc : AnyDataset) : Never (loadEntries balance fuel acc) (entriesToks neg idx ds) := by
  induction ds generalizing fuel acc idx with
  | nil => obtain ⟨d, hd, -⟩ := h; cases hd
  | cons d ds ih =>
    cases fuel with
    | zero => exact Never.fail _ _
    | succ fuel =>
      have e : entriesToks neg idx (d :: ds) =
        (fmtInt idx ++ [':']) :: ((entryToks neg idx d).tail ++ entriesToks neg (idx + 1) ds) := by
        simp [entriesToks, entryToks]
      rw [e]
      refine Never.getNextTokenEquals (fmtInt_no_nul _ _ (by decide)) ?_
      rw [decide_eq_false (idxTok_ne idx)]
      by_cases hd : 2 ≤ d.1.1.length
      · exact (Never.first (never_entry neg hd _ _)).mono
      · refine Never.bind (consumes_entry _ _ _ _) fun _ => ih ?_ _ _ _
        obtain ⟨d', hd', h2⟩ := h
        rcases List.mem_cons.1 hd' with rfl | h3
        · exact absurd h2 hd
        · exact ⟨d', h3, h2⟩

theorem load_fails (balance : AnyDataset → AnyDataset) (neg : ℕ → ℕ → Bool) {ds : AnyDataset}
    (h : ∃ d ∈ ds.toList, 2 ≤ d.1.1.length) (acc : AnyDataset) :
    ∃ e, load balance acc (store neg ds) = .error e := by
  have hn : Never (loadP balance ((store neg ds).length + 1) acc) (storeToks neg ds.toList) := by
    have e : storeToks neg ds.toList =
        "data:".toList :: "{".toList :: (entriesToks neg 0 ds.toList ++ ["}".toList]) := by
      simp [storeToks]
    rw [e]
    refine Never.bind1 (Consumes.expectNext _ _) fun _ => ?_
    refine Never.bind1 (Consumes.expectNext _ _) fun _ => ?_
    exact (never_entries balance neg h _ _ _).mono
  obtain ⟨e, he⟩ := hn.run (wtoks_store neg ds) [] 0
  refine ⟨e, ?_⟩
  unfold load
  rw [he]; rfl

/-! ## Entries with at most one feature -/

/-- An entry whose numbers are in the range of the parser. -/
structure EntryOk (d : (List AnyFloat × ℤ) × ℚ) : Prop where
  few : d.1.1.length ≤ 1
  feat : ∀ x ∈ d.1.1, RangeAny x
  pol : -2 ^ 31 ≤ d.1.2 ∧ d.1.2 < 2 ^ 31
  metric : RangeDouble d.2

/-- What an entry reads back as. -/
def reread (d : (List AnyFloat × ℤ) × ℚ) : List AnyFloat × ℤ × ℚ :=
  (d.1.1.map rereadAny, d.1.2, rnd64 (round6 d.2))

/-- Insert the measurements in order. -/
def insertAll (balance : AnyDataset → AnyDataset) (ds : AnyDataset)
    (l : List (List AnyFloat × ℤ × ℚ)) : AnyDataset :=
  l.foldl (fun ds x => insert balance ds x.1 x.2.1 x.2.2) ds

theorem length_fmtAny {x : AnyFloat} (h : RangeAny x) (b : Bool) : (fmtAny b x).length ≤ 22 := by
  cases x with
  | fin q => exact length_fmtG6_float h
  | nan => cases b <;> decide
  | _ => simp [fmtAny]

theorem reads_features (neg : ℕ → Bool) {f : List AnyFloat} (hl : f.length ≤ 1)
    (hr : ∀ x ∈ f, RangeAny x) {fuel : ℕ} (hfuel : 2 ≤ fuel) (c : Cur) :
    Reads (loadFeatures fuel []) c (featToks neg f ++ ["],".toList])
      (f.map rereadAny) ("],".toList, 0) := by
  have hend : ∀ fuel acc c, Reads (loadFeatures (fuel + 1) acc) c ["],".toList] acc
      ("],".toList, 0) := by
    intro fuel acc c
    refine Reads.bind1 (Reads.getNextTokenEquals c _ _) ?_
    simp only [decide_true, if_true]
    exact Reads.pure _ _
  obtain ⟨n, rfl⟩ : ∃ n, fuel = n + 2 := ⟨fuel - 2, by omega⟩
  match f, hl with
  | [], _ => exact hend _ _ _
  | [x], _ =>
    have hx := hr x (by simp)
    have e : featToks neg [x] = [fmtAny (neg 0) x ++ [',']] := by simp [featToks, featText]
    rw [e]
    refine Reads.bind1 (Reads.getNextTokenEquals c _ _) ?_
    have hne : fmtAny (neg 0) x ++ [','] ≠ "],".toList := featText_ne neg x []
    rw [decide_eq_false hne, if_neg (by simp)]
    refine Reads.bind0 (a := rereadAny x)
      (c1 := (fmtAny (neg 0) x ++ [','], (fmtAny (neg 0) x).length))
      (Reads.parseWith (by simpa using stofAny_fmt hx (neg 0) [])) ?_
    refine Reads.bind0 (Reads.parseExpected (by simp)) ?_
    exact hend _ _ _

theorem reads_entry (neg : ℕ → ℕ → Bool) {d : (List AnyFloat × ℤ) × ℚ} (h : EntryOk d) {idx : ℕ}
    (hidx : idx < 2 ^ 31) {fuel : ℕ} (hfuel : 2 ≤ fuel) :
    Reads (loadEntry fuel) (fmtInt idx ++ [':'], 0) (entryToks neg idx d).tail (reread d)
      ("},".toList, 0) := by
  have e : (entryToks neg idx d).tail = "{".toList :: "features:".toList :: "[".toList ::
    ((featToks (neg idx) d.1.1 ++ ["],".toList]) ++ ["policy:".toList, fmtInt d.1.2 ++ [','],
      "xtime:".toList, fmtG6 d.2, "},".toList]) := by
    simp [entryToks]
  rw [e]
  unfold loadEntry
  refine Reads.bind0 (a := (idx : ℤ)) (c1 := (fmtInt idx ++ [':'], (fmtInt idx).length))
    (Reads.parseWith (by
      simpa using stoi_fmtInt (n := idx) ⟨by omega, by exact_mod_cast hidx⟩ [':'] (by decide))) ?_
  refine Reads.bind0 (Reads.parseExpected (by simp)) ?_
  refine Reads.bind1 (Reads.expectNext _ _) ?_
  refine Reads.bind1 (Reads.expectNext _ _) ?_
  refine Reads.bind1 (Reads.expectNext _ _) ?_
  refine Reads.bind (reads_features _ h.few h.feat hfuel _) ?_
  refine Reads.bind1 (Reads.expectNext _ _) ?_
  refine Reads.bind1 (Reads.getNextToken _ _) ?_
  refine Reads.bind0 (a := d.1.2)
    (c1 := (fmtInt d.1.2 ++ [','], (fmtInt d.1.2).length))
    (Reads.parseWith (by simpa using stoi_fmtInt h.pol [','] (by decide))) ?_
  refine Reads.bind0 (Reads.parseExpected (by simp)) ?_
  refine Reads.bind1 (Reads.expectNext _ _) ?_
  refine Reads.bind1 (Reads.getNextToken _ _) ?_
  refine Reads.bind0 (a := rnd64 (round6 d.2)) (c1 := (fmtG6 d.2, (fmtG6 d.2).length))
    (Reads.parseWith (by simpa using stod_fmtG6 h.metric [] trivial)) ?_
  exact Reads.bind1 (Reads.expectNext _ _) (Reads.pure _ _)

theorem reads_entries (balance : AnyDataset → AnyDataset) (neg : ℕ → ℕ → Bool)
    {ds : List ((List AnyFloat × ℤ) × ℚ)} (h : ∀ d ∈ ds, EntryOk d) {idx : ℕ}
    (hidx : idx + ds.length ≤ 2 ^ 31) {fuel : ℕ} (hfuel : ds.length + 3 ≤ fuel) (acc : AnyDataset)
    (c : Cur) :
    Reads (loadEntries balance fuel acc) c (entriesToks neg idx ds ++ ["}".toList])
      (insertAll balance acc (ds.map reread)) ("}".toList, 0) := by
  induction ds generalizing fuel acc idx c with
  | nil =>
    obtain ⟨n, rfl⟩ : ∃ n, fuel = n + 1 := ⟨fuel - 1, by simp at hfuel; omega⟩
    refine Reads.bind1 (Reads.getNextTokenEquals c _ _) ?_
    simp only [decide_true, if_true]
    exact Reads.pure _ _
  | cons d ds ih =>
    simp only [List.length_cons] at hfuel hidx
    obtain ⟨n, rfl⟩ : ∃ n, fuel = n + 1 := ⟨fuel - 1, by omega⟩
    have e : entriesToks neg idx (d :: ds) ++ ["}".toList] =
      (fmtInt idx ++ [':']) :: ((entryToks neg idx d).tail ++
        (entriesToks neg (idx + 1) ds ++ ["}".toList])) := by
      simp [entriesToks, entryToks]
    rw [e]
    refine Reads.bind1 (Reads.getNextTokenEquals c _ _) ?_
    rw [decide_eq_false (idxTok_ne idx), if_neg (by simp)]
    refine Reads.bind (reads_entry neg (h d (by simp)) (by omega) (by omega)) ?_
    exact ih (fun d' hd' => h d' (List.mem_cons_of_mem _ hd')) (by omega) (by omega) _ _

theorem length_le_entriesText (neg : ℕ → ℕ → Bool) (idx : ℕ)
    (ds : List ((List AnyFloat × ℤ) × ℚ)) : ds.length ≤ (entriesText neg idx ds).length := by
  induction ds generalizing idx with
  | nil => simp
  | cons d ds ih =>
    have := ih (idx + 1)
    have h2 : 1 ≤ (entryText neg idx d).length := by
      unfold entryText
      simp only [List.length_append]
      have : ("  ".toList).length = 2 := by decide
      omega
    simp only [entriesText, List.length_cons, List.length_append]
    omega

theorem good_entryToks (neg : ℕ → ℕ → Bool) {d : (List AnyFloat × ℤ) × ℚ} (h : EntryOk d) {idx : ℕ}
    (hidx : idx < 2 ^ 31) :
    ∀ t ∈ entryToks neg idx d, (∀ c ∈ t, c ≠ nul) ∧ t.length < BUFSIZE := by
  intro t ht
  unfold entryToks at ht
  rw [List.mem_append, List.mem_append] at ht
  have hlit : ∀ t : List Char, (t.all (· ≠ nul) && decide (t.length < BUFSIZE)) = true →
      (∀ c ∈ t, c ≠ nul) ∧ t.length < BUFSIZE := by
    intro t h
    simpa using h
  have hi : (fmtInt idx).length ≤ 11 := length_fmtInt_int ⟨by omega, by exact_mod_cast hidx⟩
  have hp := length_fmtInt_int h.pol
  have hm := length_fmtG6_double h.metric
  rcases ht with (ht | ht) | ht
  · simp only [List.mem_cons, List.not_mem_nil, or_false] at ht
    rcases ht with rfl | rfl | rfl | rfl
    · exact ⟨fmtInt_no_nul _ _ (by decide), by simp [BUFSIZE]; omega⟩
    all_goals exact hlit _ (by decide)
  · have h1 := h.few
    have h2 := h.feat
    generalize d.1.1 = f at ht h1 h2
    unfold featToks at ht
    match f, h1 with
    | [], _ => simp at ht
    | [x], _ =>
      simp only [List.cons_ne_nil, if_false, List.mem_singleton] at ht
      subst ht
      have := length_fmtAny (h2 x (by simp)) (neg idx 0)
      refine ⟨featText_no_nul _ _ _, ?_⟩
      have e : featText (neg idx) 0 [x] = fmtAny (neg idx 0) x ++ [','] := by simp [featText]
      rw [e]
      simp [BUFSIZE]; omega
  · simp only [List.mem_cons, List.not_mem_nil, or_false] at ht
    rcases ht with rfl | rfl | rfl | rfl | rfl | rfl
    · exact hlit _ (by decide)
    · exact hlit _ (by decide)
    · exact ⟨fmtInt_no_nul _ _ (by decide), by simp [BUFSIZE]; omega⟩
    · exact hlit _ (by decide)
    · exact ⟨fun c hc => (numChar_fmtG6 _ c hc).ne (by decide), by simp [BUFSIZE]; omega⟩
    · exact hlit _ (by decide)

theorem good_entriesToks (neg : ℕ → ℕ → Bool) {ds : List ((List AnyFloat × ℤ) × ℚ)}
    (h : ∀ d ∈ ds, EntryOk d) {idx : ℕ} (hidx : idx + ds.length ≤ 2 ^ 31) :
    ∀ t ∈ entriesToks neg idx ds, (∀ c ∈ t, c ≠ nul) ∧ t.length < BUFSIZE := by
  induction ds generalizing idx with
  | nil => intro t ht; cases ht
  | cons d ds ih =>
    intro t ht
    simp only [List.length_cons] at hidx
    rcases List.mem_append.1 ht with ht | ht
    · exact good_entryToks neg (h d (by simp)) (by omega) t ht
    · exact ih (fun d' hd' => h d' (List.mem_cons_of_mem _ hd')) (by omega) t ht

theorem load_store (balance : AnyDataset → AnyDataset) (neg : ℕ → ℕ → Bool) {ds : AnyDataset}
    (h : ∀ d ∈ ds.toList, EntryOk d) (hlen : ds.toList.length ≤ 2 ^ 31) (acc : AnyDataset) :
    load balance acc (store neg ds) = .ok (insertAll balance acc (ds.toList.map reread)) := by
  have hlit : ∀ t : List Char, (t.all (· ≠ nul) && decide (t.length < BUFSIZE)) = true →
      (∀ c ∈ t, c ≠ nul) ∧ t.length < BUFSIZE := by
    intro t h
    simpa using h
  have htoks : Toks ['\n'] (store neg ds) (storeToks neg ds.toList) := by
    refine (wtoks_store neg ds).toToks fun t ht => ?_
    unfold storeToks at ht
    rw [List.mem_append, List.mem_append] at ht
    rcases ht with (ht | ht) | ht
    · simp only [List.mem_cons, List.not_mem_nil, or_false] at ht
      rcases ht with rfl | rfl <;> exact hlit _ (by decide)
    · exact good_entriesToks neg h (by omega) t ht
    · simp only [List.mem_singleton] at ht
      subst ht; exact hlit _ (by decide)
  have hfuel : ds.toList.length + 3 ≤ (store neg ds).length + 1 := by
    have := length_le_entriesText neg 0 ds.toList
    unfold store
    simp only [List.length_append]
    have : ("data: {\n".toList).length = 8 := by decide
    omega
  have hr : Reads (loadP balance ((store neg ds).length + 1) acc) ([], 0) (storeToks neg ds.toList)
      (insertAll balance acc (ds.toList.map reread)) ("}".toList, 0) := by
    have e : storeToks neg ds.toList =
        "data:".toList :: "{".toList :: (entriesToks neg 0 ds.toList ++ ["}".toList]) := by
      simp [storeToks]
    rw [e]
    refine Reads.bind1 (Reads.expectNext _ _) ?_
    refine Reads.bind1 (Reads.expectNext _ _) ?_
    exact reads_entries balance neg h (by omega) hfuel _ _
  have := hr.run htoks
  unfold load
  rw [this]; rfl

/-! ## Inserting in order -/

/-- A key behind all others is put at the end. -/
theorem insert_last {balance : AnyDataset → AnyDataset} (hb : ∀ t, (balance t).toList = t.toList)
    {ds : AnyDataset} {f : List AnyFloat} {p : ℤ} (h : ∀ e ∈ ds.toList, keyLt e.1 (f, p) = true ∧
      keyLt (f, p) e.1 = false) (m : ℚ) :
    (insert balance ds f p m).toList = ds.toList ++ [((f, p), m)] := by
  have h1 : ∀ t : AnyDataset, (∀ e ∈ t.toList, keyLt e.1 (f, p) = true) →
      t.lowerBound keyLt (f, p) = t.size := by
    intro t ht
    induction t with
    | leaf => rfl
    | node l k v r hl hr =>
      have := ht (k, v) (by simp [SearchTree.toList])
      rw [SearchTree.lowerBound, this, hr fun e he => ht e (by simp [SearchTree.toList, he])]
      rfl
  have h2 : ∀ t : AnyDataset, (∀ e ∈ t.toList, keyLt (f, p) e.1 = false) →
      t.insertPos keyLt (f, p) = t.size := by
    intro t ht
    induction t with
    | leaf => rfl
    | node l k v r hl hr =>
      have := ht (k, v) (by simp [SearchTree.toList])
      rw [SearchTree.insertPos, this, hr fun e he => ht e (by simp [SearchTree.toList, he])]
      rfl
  have h3 : ds.find keyLt (f, p) = none := by
    unfold SearchTree.find
    rw [h1 ds fun e he => (h e he).1, ← SearchTree.length_toList, List.getElem?_eq_none le_rfl]
  have h4 : (balance (ds.put keyLt (f, p) m)).toList = ds.toList ++ [((f, p), m)] := by
    rw [hb, SearchTree.toList_put, h2 ds fun e he => (h e he).2, ← SearchTree.length_toList]
    simp
  unfold insert
  rw [h3]
  simp only
  unfold SearchTree.emplace
  rw [h2 ds fun e he => (h e he).2, ← SearchTree.length_toList]
  split
  · exact h4
  · next i hi =>
    have hlt : i < ds.toList.length := by omega
    rw [List.getElem?_eq_getElem hlt]
    simp only
    rw [(h _ (List.getElem_mem hlt)).1]
    exact h4

theorem insertAll_sorted {balance : AnyDataset → AnyDataset} (hb : ∀ t, (balance t).toList = t.toList)
    (l : List ((List AnyFloat × ℤ) × ℚ)) (ds : AnyDataset)
    (h : (ds.toList ++ l).Pairwise fun a b => keyLt a.1 b.1 = true ∧ keyLt b.1 a.1 = false) :
    (insertAll balance ds (l.map fun d => (d.1.1, d.1.2, d.2))).toList = ds.toList ++ l := by
  induction l generalizing ds with
  | nil => simp [insertAll]
  | cons d l ih =>
    have h1 : (insert balance ds d.1.1 d.1.2 d.2).toList = ds.toList ++ [d] := by
      refine insert_last hb (fun e he => ?_) d.2
      rw [List.pairwise_append] at h
      exact h.2.2 e he d (by simp)
    have h2 := ih (insert balance ds d.1.1 d.1.2 d.2) (by rw [h1]; simpa using h)
    rw [h1] at h2
    simpa [insertAll] using h2

end AnyDataset
end Apollo
