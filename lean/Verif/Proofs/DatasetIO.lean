import Verif.Model.DatasetIO
import Verif.Proofs.Consumes
import Verif.Proofs.Dataset

/-! Helper lemmas about storing and loading datasets. -/

namespace Apollo
namespace Dataset

/-! ## Tokens of a stored file -/

/-- Token of the features: nothing, or all of them in one token. -/
def featToks (f : Features) : List (List Char) := if f = [] then [] else [featText f]

/-- Tokens of an entry. -/
def entryToks (idx : ℕ) (d : Key × ℚ) : List (List Char) :=
  [fmtInt idx ++ [':'], "{".toList, "features:".toList, "[".toList] ++ featToks (ofLex d.1).1 ++
    ["],".toList, "policy:".toList, fmtInt (ofLex d.1).2 ++ [','], "xtime:".toList, fmtG6 d.2,
     "},".toList]

/-- Tokens of the entries. -/
def entriesToks : ℕ → Dataset → List (List Char)
  | _, [] => []
  | idx, d :: ds => entryToks idx d ++ entriesToks (idx + 1) ds

/-- Tokens of a file. -/
def storeToks (ds : Dataset) : List (List Char) :=
  ["data:".toList, "{".toList] ++ entriesToks 0 ds ++ ["}".toList]

theorem fmtG6_ne_nil (q : ℚ) : fmtG6 q ≠ [] := by
  obtain ⟨c, r, h, -⟩ := fmtG6_head q
  rw [h]; simp

theorem fmtG6_headChar (q : ℚ) : ∃ c r, fmtG6 q = c :: r ∧ numChar c := by
  obtain ⟨c, r, h, -⟩ := fmtG6_head q
  exact ⟨c, r, h, numChar_fmtG6 q c (by rw [h]; simp)⟩

theorem mem_featText {f : Features} {c : Char} (h : c ∈ featText f) : numChar c ∨ c = ',' := by
  unfold featText at h
  simp only [List.mem_flatten, List.mem_map] at h
  obtain ⟨l, ⟨x, -, rfl⟩, hc⟩ := h
  rcases List.mem_append.1 hc with h | h
  · exact Or.inl (numChar_fmtG6 x c h)
  · right; simpa using h

theorem featText_cons (x : ℚ) (f : Features) : featText (x :: f) = fmtG6 x ++ ',' :: featText f := by
  simp [featText]

theorem wTok_featText {f : Features} (hf : f ≠ []) : WTok (featText f) := by
  cases f with
  | nil => exact absurd rfl hf
  | cons x f =>
    obtain ⟨c, r, h, hc⟩ := fmtG6_headChar x
    refine ⟨?_, ?_, ?_⟩
    · rw [featText_cons, h]; simp
    · intro c hc
      rcases mem_featText hc with h | rfl
      · exact h.not_space
      · rfl
    · rw [featText_cons, h]
      have : c ≠ '#' := hc.ne (by decide)
      simpa using this

theorem featText_no_nul (f : Features) : ∀ c ∈ featText f, c ≠ nul := by
  intro c hc
  rcases mem_featText hc with h | rfl
  · exact h.ne (by decide)
  · decide

theorem fmtInt_no_nul (n : ℤ) (p : List Char) (hp : ∀ c ∈ p, c ≠ nul) : ∀ c ∈ fmtInt n ++ p, c ≠ nul := by
  intro c hc
  rcases List.mem_append.1 hc with h | h
  · exact ((fmtInt_spec n).1 c h).ne (by decide)
  · exact hp c h

/-- Text of an entry after `[`. -/
def entryTail (d : Key × ℚ) (rest : List Char) : List Char :=
  " ".toList ++ ("],".toList ++ (" ".toList ++ ("policy:".toList ++ (" ".toList ++
    ((fmtInt (ofLex d.1).2 ++ [',']) ++ (" ".toList ++ ("xtime:".toList ++ (" ".toList ++
      (fmtG6 d.2 ++ (" ".toList ++ ("},".toList ++ '\n' :: rest)))))))))))

theorem entryText_eq (idx : ℕ) (d : Key × ℚ) (rest : List Char) :
    '\n' :: (entryText idx d ++ rest) =
      "\n  ".toList ++ ((fmtInt idx ++ [':']) ++ (" ".toList ++ ("{".toList ++ (" ".toList ++
        ("features:".toList ++ (" ".toList ++ ("[".toList ++ (' ' :: (featText (ofLex d.1).1 ++
          entryTail d rest))))))))) := by
  unfold entryText entryTail
  generalize fmtInt idx = a
  generalize fmtInt (ofLex d.1).2 = b
  generalize featText (ofLex d.1).1 = c
  generalize fmtG6 d.2 = e
  simp only [String.reduceToList, List.cons_append, List.nil_append, List.append_assoc]

theorem wtoks_tail (d : Key × ℚ) (rest : List Char) :
    WToks ('\n' :: rest) (entryTail d rest)
      ["],".toList, "policy:".toList, fmtInt (ofLex d.1).2 ++ [','], "xtime:".toList, fmtG6 d.2,
       "},".toList] := by
  unfold entryTail
  refine WToks.cons' (blank_of_all (by decide)) (wTok_of_b (by decide))
    (StartsBlank.append (by decide) (blank_of_all (by decide))) ?_
  refine WToks.cons' (blank_of_all (by decide)) (wTok_of_b (by decide))
    (StartsBlank.append (by decide) (blank_of_all (by decide))) ?_
  refine WToks.cons' (blank_of_all (by decide))
    (wTok_num (fmtInt_spec _).1 (fmtInt_spec _).2 _ (by decide))
    (StartsBlank.append (by decide) (blank_of_all (by decide))) ?_
  refine WToks.cons' (blank_of_all (by decide)) (wTok_of_b (by decide))
    (StartsBlank.append (by decide) (blank_of_all (by decide))) ?_
  refine WToks.cons' (blank_of_all (by decide))
    (by simpa using wTok_num (numChar_fmtG6 d.2) (fmtG6_ne_nil _) [] (by decide))
    (StartsBlank.append (by decide) (blank_of_all (by decide))) ?_
  exact WToks.cons' (blank_of_all (by decide)) (wTok_of_b (by decide))
    (startsBlank_cons (by decide)) WToks.nil

theorem wtoks_entry (idx : ℕ) (d : Key × ℚ) (rest : List Char) :
    WToks ('\n' :: rest) ('\n' :: (entryText idx d ++ rest)) (entryToks idx d) := by
  rw [entryText_eq]
  unfold entryToks
  refine WToks.cons' (blank_of_all (by decide))
    (wTok_num (fmtInt_spec _).1 (fmtInt_spec _).2 _ (by decide))
    (StartsBlank.append (by decide) (blank_of_all (by decide))) ?_
  refine WToks.cons' (blank_of_all (by decide)) (wTok_of_b (by decide))
    (StartsBlank.append (by decide) (blank_of_all (by decide))) ?_
  refine WToks.cons' (blank_of_all (by decide)) (wTok_of_b (by decide))
    (StartsBlank.append (by decide) (blank_of_all (by decide))) ?_
  refine WToks.cons' (blank_of_all (by decide)) (wTok_of_b (by decide))
    (startsBlank_cons (by decide)) ?_
  by_cases hf : (ofLex d.1).1 = []
  · simp only [featToks, hf, if_true]
    exact WToks.blank (w := [' ']) (blank_of_all (by decide)) (wtoks_tail d rest)
  · simp only [featToks, hf, if_false]
    exact WToks.cons' (w := [' ']) (blank_of_all (by decide)) (wTok_featText hf)
      (StartsBlank.append (by decide) (blank_of_all (by decide))) (wtoks_tail d rest)

theorem wtoks_entries (idx : ℕ) (ds : Dataset) (rest : List Char) :
    WToks ('\n' :: rest) ('\n' :: (entriesText idx ds ++ rest)) (entriesToks idx ds) := by
  induction ds generalizing idx with
  | nil => exact WToks.nil
  | cons d ds ih =>
    simp only [entriesText, entriesToks, List.append_assoc]
    exact (wtoks_entry idx d _).append (ih _)

theorem wtoks_store (ds : Dataset) : WToks ['\n'] (store ds) (storeToks ds) := by
  have e : store ds = [] ++ ("data:".toList ++ (" ".toList ++ ("{".toList ++
      '\n' :: (entriesText 0 ds ++ "}\n".toList)))) := by
    unfold store
    generalize entriesText 0 ds = a
    simp only [String.reduceToList, List.cons_append, List.nil_append]
  rw [e]
  unfold storeToks
  refine WToks.cons' (blank_of_all (by decide)) (wTok_of_b (by decide))
    (StartsBlank.append (by decide) (blank_of_all (by decide))) ?_
  refine WToks.cons' (blank_of_all (by decide)) (wTok_of_b (by decide))
    (startsBlank_cons (by decide)) ?_
  refine WToks.append (wtoks_entries 0 ds _) ?_
  exact WToks.cons_eq (['\n']) "}".toList ['\n'] (by decide) (blank_of_all (by decide))
    (wTok_of_b (by decide)) (startsBlank_cons (by decide)) WToks.nil

/-! ## Truncated files -/

theorem consumes_features (fuel : ℕ) (acc f : Features) :
    Consumes (loadFeatures fuel acc) (featToks f ++ ["],".toList]) := by
  have hend : ∀ fuel acc, Consumes (loadFeatures fuel acc) ["],".toList] := by
    intro fuel acc
    cases fuel with
    | zero => exact Consumes.fail _ _
    | succ fuel =>
      exact Consumes.getNextTokenEquals (by decide) (Consumes.pure _)
  cases fuel with
  | zero => exact Consumes.fail _ _
  | succ fuel =>
    unfold featToks
    split
    · exact hend _ _
    · next hf =>
      refine Consumes.getNextTokenEquals (featText_no_nul f) ?_
      have hne : featText f ≠ "],".toList := by
        cases f with
        | nil => exact absurd rfl hf
        | cons x f =>
          obtain ⟨c, r, h, hc⟩ := fmtG6_headChar x
          rw [featText_cons, h]
          have : c ≠ ']' := hc.ne (by decide)
          simp [this]
      rw [decide_eq_false hne]
      refine Consumes.bind0 (Consumes.parseWith _) fun x => ?_
      exact Consumes.bind0 (Consumes.parseExpected _) fun _ => hend _ _

theorem consumes_entry (fuel : ℕ) (d : Key × ℚ) (idx : ℕ) :
    Consumes (loadEntry fuel) (entryToks idx d).tail := by
  have e : (entryToks idx d).tail = "{".toList :: "features:".toList :: "[".toList ::
    ((featToks (ofLex d.1).1 ++ ["],".toList]) ++ ["policy:".toList, fmtInt (ofLex d.1).2 ++ [','],
      "xtime:".toList, fmtG6 d.2, "},".toList]) := by
    simp [entryToks]
  rw [e]
  unfold loadEntry
  refine Consumes.bind0 (Consumes.parseWith _) fun _ => ?_
  refine Consumes.bind0 (Consumes.parseExpected _) fun _ => ?_
  refine Consumes.bind1 (Consumes.expectNext _ _) fun _ => ?_
  refine Consumes.bind1 (Consumes.expectNext _ _) fun _ => ?_
  refine Consumes.bind1 (Consumes.expectNext _ _) fun _ => ?_
  refine Consumes.bind (consumes_features _ _ _) fun _ => ?_
  refine Consumes.bind1 (Consumes.expectNext _ _) fun _ => ?_
  refine Consumes.bind1 (Consumes.getNextToken _) fun _ => ?_
  refine Consumes.bind0 (Consumes.parseWith _) fun _ => ?_
  refine Consumes.bind0 (Consumes.parseExpected _) fun _ => ?_
  refine Consumes.bind1 (Consumes.expectNext _ _) fun _ => ?_
  refine Consumes.bind1 (Consumes.getNextToken _) fun _ => ?_
  refine Consumes.bind0 (Consumes.parseWith _) fun _ => ?_
  exact Consumes.bind1 (Consumes.expectNext _ _) fun _ => Consumes.pure _

theorem idxTok_ne (idx : ℕ) : fmtInt idx ++ [':'] ≠ "}".toList := by
  obtain ⟨h1, h2⟩ := fmtInt_spec idx
  cases hf : fmtInt idx with
  | nil => exact absurd hf h2
  | cons c r =>
    have : c ≠ '}' := (h1 c (by rw [hf]; simp)).ne (by decide)
    simp

theorem consumes_entries (fuel : ℕ) (acc : Dataset) (idx : ℕ) (ds : Dataset) :
    Consumes (loadEntries fuel acc) (entriesToks idx ds ++ ["}".toList]) := by
  induction ds generalizing fuel acc idx with
  | nil =>
    cases fuel with
    | zero => exact Consumes.fail _ _
    | succ fuel => exact Consumes.getNextTokenEquals (by decide) (Consumes.pure _)
  | cons d ds ih =>
    cases fuel with
    | zero => exact Consumes.fail _ _
    | succ fuel =>
      have e : entriesToks idx (d :: ds) ++ ["}".toList] =
        (fmtInt idx ++ [':']) :: ((entryToks idx d).tail ++
          (entriesToks (idx + 1) ds ++ ["}".toList])) := by
        simp [entriesToks, entryToks]
      rw [e]
      refine Consumes.getNextTokenEquals (fmtInt_no_nul _ _ (by decide)) ?_
      rw [decide_eq_false (idxTok_ne idx)]
      exact Consumes.bind (consumes_entry _ _ _) fun _ => ih _ _ _

theorem consumes_loadP (fuel : ℕ) (acc ds : Dataset) : Consumes (loadP fuel acc) (storeToks ds) := by
  have e : storeToks ds = "data:".toList :: "{".toList :: (entriesToks 0 ds ++ ["}".toList]) := by
    simp [storeToks]
  rw [e]
  refine Consumes.bind1 (Consumes.expectNext _ _) fun _ => ?_
  exact Consumes.bind1 (Consumes.expectNext _ _) fun _ => consumes_entries _ _ _ _

theorem ext_features (fuel : ℕ) (acc : Features) : Ext (loadFeatures fuel acc) := by
  induction fuel generalizing acc with
  | zero => exact Ext.fail _
  | succ fuel ih =>
    refine Ext.bind (Ext.getNextTokenEquals _) fun b => ?_
    refine Ext.ite _ (Ext.pure _) ?_
    refine Ext.bind (Ext.parseWith _) fun _ => ?_
    exact Ext.bind (Ext.parseExpected _) fun _ => ih _

theorem ext_entry (fuel : ℕ) : Ext (loadEntry fuel) := by
  unfold loadEntry
  refine Ext.bind (Ext.parseWith _) fun _ => ?_
  refine Ext.bind (Ext.parseExpected _) fun _ => ?_
  refine Ext.bind (Ext.expectNext _) fun _ => ?_
  refine Ext.bind (Ext.expectNext _) fun _ => ?_
  refine Ext.bind (Ext.expectNext _) fun _ => ?_
  refine Ext.bind (ext_features _ _) fun _ => ?_
  refine Ext.bind (Ext.expectNext _) fun _ => ?_
  refine Ext.bind Ext.getNextToken fun _ => ?_
  refine Ext.bind (Ext.parseWith _) fun _ => ?_
  refine Ext.bind (Ext.parseExpected _) fun _ => ?_
  refine Ext.bind (Ext.expectNext _) fun _ => ?_
  refine Ext.bind Ext.getNextToken fun _ => ?_
  refine Ext.bind (Ext.parseWith _) fun _ => ?_
  exact Ext.bind (Ext.expectNext _) fun _ => Ext.pure _

theorem ext_entries (fuel : ℕ) (ds : Dataset) : Ext (loadEntries fuel ds) := by
  induction fuel generalizing ds with
  | zero => exact Ext.fail _
  | succ fuel ih =>
    refine Ext.bind (Ext.getNextTokenEquals _) fun b => ?_
    refine Ext.ite _ (Ext.pure _) ?_
    exact Ext.bind (ext_entry _) fun _ => ih _

theorem ext_loadP (fuel : ℕ) (ds : Dataset) : Ext (loadP fuel ds) :=
  Ext.bind (Ext.expectNext _) fun _ => Ext.bind (Ext.expectNext _) fun _ => ext_entries _ _

theorem loadP_no_prefix (fuel : ℕ) (acc ds : Dataset) (s d : List Char) (he : s ++ d = store ds)
    (hd : d ≠ []) (x : Dataset × PS) : loadP fuel acc ⟨s, [], 0⟩ ≠ .ok x := by
  cases s with
  | nil =>
    intro h
    simp [loadP, expectNext, P.bind_apply, getNextToken, nextToken, parseExpected, PS.tok] at h
  | cons c s =>
    refine (ext_loadP fuel acc).no_prefix (d := d) hd (by simp) ?_ x
    intro a s' h
    rw [he] at h
    have := (consumes_loadP fuel acc ds).run (wtoks_store ds) h
    rw [this]; simp

/-! ## Termination -/

theorem term_features (n : ℕ) (acc : Features) : Term (loadFeatures n acc) n := by
  induction n generalizing acc with
  | zero => exact ⟨fun s h => absurd h (by omega), fun s x h => by cases h⟩
  | succ n ih =>
    unfold loadFeatures getNextTokenEquals
    rw [bind_assoc]
    refine Term.loop ?_ ?_
    · intro o h
      simp [P.bind_apply, getTokenEquals, PS.tok, parseFloat, parseWith_apply, Term.stof_nil] at h
    · refine Term.bind (Term.getTokenEquals _) fun b => ?_
      refine Term.ite (Term.pure _) ?_
      refine Term.bind Term.parseFloat fun _ => ?_
      exact Term.bind (Term.parseExpected _) fun _ => ih _

theorem term_entry (n : ℕ) : Term (loadEntry n) n := by
  unfold loadEntry
  refine Term.bind Term.parseInt fun _ => ?_
  refine Term.bind (Term.parseExpected _) fun _ => ?_
  refine Term.bind (Term.expectNext _) fun _ => ?_
  refine Term.bind (Term.expectNext _) fun _ => ?_
  refine Term.bind (Term.expectNext _) fun _ => ?_
  refine Term.bind (term_features _ _) fun _ => ?_
  refine Term.bind (Term.expectNext _) fun _ => ?_
  refine Term.bind Term.getNextToken fun _ => ?_
  refine Term.bind Term.parseInt fun _ => ?_
  refine Term.bind (Term.parseExpected _) fun _ => ?_
  refine Term.bind (Term.expectNext _) fun _ => ?_
  refine Term.bind Term.getNextToken fun _ => ?_
  refine Term.bind Term.parseDouble fun _ => ?_
  exact Term.bind (Term.expectNext _) fun _ => Term.pure _

theorem term_entries (n : ℕ) (ds : Dataset) : Term (loadEntries n ds) n := by
  induction n generalizing ds with
  | zero => exact ⟨fun s h => absurd h (by omega), fun s x h => by cases h⟩
  | succ n ih =>
    unfold loadEntries getNextTokenEquals
    rw [bind_assoc]
    refine Term.loop ?_ ?_
    · intro o h
      simp [P.bind_apply, getTokenEquals, PS.tok, parseInt, parseWith_apply, Term.stoi_nil,
        loadEntry] at h
    · refine Term.bind (Term.getTokenEquals _) fun b => ?_
      refine Term.ite (Term.pure _) ?_
      exact Term.bind (term_entry _) fun _ => ih _

theorem term_loadP (n : ℕ) (ds : Dataset) : Term (loadP n ds) n :=
  (Term.expectNext _).bind fun _ => (Term.expectNext _).bind fun _ => term_entries _ _

theorem load_terminates (ds : Dataset) (s : List Char) : load ds s ≠ .error .diverge := by
  intro h
  unfold load at h
  cases hx : loadP (s.length + 1) ds ⟨s, [], 0⟩ with
  | error e =>
    rw [hx] at h
    refine (term_loadP (s.length + 1) ds).nd ⟨s, [], 0⟩ (by simp) ?_
    rw [hx]; simpa using h
  | ok x => rw [hx] at h; simp at h

end Dataset
end Apollo
