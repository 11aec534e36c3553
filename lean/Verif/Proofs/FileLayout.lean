import Verif.Proofs.AnyDatasetRT
import Verif.Proofs.TreeRT
import Verif.Spec.FileLayout

/-! Helper lemmas: loading a dataset file in any layout. -/

namespace Apollo

theorem isSpace_of_whiteSpace {c : Char} (h : c ∈ Spec.whiteSpace) : isSpace c = true := by
  simp only [Spec.whiteSpace, List.mem_cons, List.not_mem_nil, or_false] at h
  rcases h with rfl | rfl | rfl | rfl | rfl | rfl <;> decide

theorem wtoks_of_laidOut {words : List (List Char)} {text : List Char} (hw : ∀ w ∈ words, WTok w)
    (hne : words ≠ []) (h : Spec.LaidOut words text) : ∃ r, WToks r text words := by
  obtain ⟨front, gaps, hf, hlen, hg, rfl⟩ := h
  have hf' : Blank front := fun c hc => isSpace_of_whiteSpace (hf c hc)
  clear hf
  induction words generalizing front gaps with
  | nil => exact absurd rfl hne
  | cons w ws ih =>
    obtain ⟨g, gs, rfl⟩ : ∃ g gs, gaps = g :: gs := by
      cases gaps with
      | nil => simp at hlen
      | cons g gs => exact ⟨g, gs, rfl⟩
    obtain ⟨h1, h2⟩ := hg g (by simp)
    have hb : Blank g := fun c hc => isSpace_of_whiteSpace (h2 c hc)
    simp only [List.zipWith_cons_cons, List.flatten_cons, List.append_assoc]
    cases ws with
    | nil =>
      refine ⟨g ++ (List.zipWith (· ++ ·) [] gs).flatten, ?_⟩
      exact WToks.cons' hf' (hw w (by simp)) (StartsBlank.append h1 hb) WToks.nil
    | cons w' ws =>
      obtain ⟨r, hr⟩ := ih (fun v hv => hw v (List.mem_cons_of_mem _ hv)) (by simp) g gs
        (by simpa using hlen) (fun x hx => hg x (List.mem_cons_of_mem _ hx)) hb
      exact ⟨r, WToks.cons' hf' (hw w (by simp)) (StartsBlank.append h1 hb) hr⟩

namespace AnyDataset

open Spec (FileEntry)
open Dataset (fmtInt_no_nul length_fmtG6_double length_fmtInt_int fmtG6_ne_nil)

/-- The words of the features. -/
def featWords (f : List (Bool × AnyFloat)) : List (List Char) := f.map fun x => fmtAny x.1 x.2 ++ [',']

/-- The words of an entry. -/
def entryWords (e : FileEntry) : List (List Char) :=
  (fmtInt e.1 ++ [':']) :: "{".toList :: "features:".toList :: "[".toList ::
    ((featWords e.2.1 ++ ["],".toList]) ++ ["policy:".toList, fmtInt e.2.2.1 ++ [','],
      "xtime:".toList, fmtG6 e.2.2.2, "},".toList])

/-- The words of a file. -/
def fileWords (es : List FileEntry) : List (List Char) :=
  "data:".toList :: "{".toList :: (es.flatMap entryWords ++ ["}".toList])

theorem floatWord_eq (x : Bool × AnyFloat) : Spec.floatWord x = fmtAny x.1 x.2 := by
  obtain ⟨b, x⟩ := x
  cases x with
  | nan => cases b <;> rfl
  | _ => rfl

theorem entryWords_eq (e : FileEntry) : Spec.datasetEntryWords e = entryWords e := by
  simp [Spec.datasetEntryWords, entryWords, featWords, floatWord_eq]

theorem fileWords_eq (es : List FileEntry) : Spec.datasetWords es = fileWords es := by
  have : Spec.datasetEntryWords = entryWords := funext entryWords_eq
  simp [Spec.datasetWords, fileWords, this]

/-- The numbers of the entry are in the range of the parser. -/
structure FileEntryOk (e : FileEntry) : Prop where
  idx : -2 ^ 31 ≤ e.1 ∧ e.1 < 2 ^ 31
  feat : ∀ x ∈ e.2.1, RangeAny x.2
  pol : -2 ^ 31 ≤ e.2.2.1 ∧ e.2.2.1 < 2 ^ 31
  metric : RangeDouble e.2.2.2

/-- What an entry reads as. -/
def readEntry (e : FileEntry) : List AnyFloat × ℤ × ℚ :=
  (e.2.1.map (fun x => rereadAny x.2), e.2.2.1, rnd64 (round6 e.2.2.2))

theorem featWord_ne (b : Bool) (x : AnyFloat) : fmtAny b x ++ [','] ≠ "],".toList := by
  have := featText_ne (fun _ => b) x []
  simpa [featText] using this

theorem reads_featWords {f : List (Bool × AnyFloat)} (hr : ∀ x ∈ f, RangeAny x.2) {fuel : ℕ}
    (hfuel : f.length + 1 ≤ fuel) (acc : List AnyFloat) (c : Cur) :
    Reads (loadFeatures fuel acc) c (featWords f ++ ["],".toList])
      (acc ++ f.map (fun x => rereadAny x.2)) ("],".toList, 0) := by
  induction f generalizing fuel acc c with
  | nil =>
    obtain ⟨n, rfl⟩ : ∃ n, fuel = n + 1 := ⟨fuel - 1, by simp at hfuel; omega⟩
    refine Reads.bind1 (Reads.getNextTokenEquals c _ _) ?_
    simp only [decide_true, if_true, List.map_nil, List.append_nil]
    exact Reads.pure _ _
  | cons x f ih =>
    simp only [List.length_cons] at hfuel
    obtain ⟨n, rfl⟩ : ∃ n, fuel = n + 1 := ⟨fuel - 1, by omega⟩
    have hx := hr x (by simp)
    refine Reads.bind1 (Reads.getNextTokenEquals c _ _) ?_
    rw [decide_eq_false (featWord_ne x.1 x.2), if_neg (by simp)]
    refine Reads.bind0 (a := rereadAny x.2)
      (c1 := (fmtAny x.1 x.2 ++ [','], (fmtAny x.1 x.2).length))
      (Reads.parseWith (by simpa using stofAny_fmt hx x.1 [])) ?_
    refine Reads.bind0 (Reads.parseExpected (by simp)) ?_
    have := ih (fun y hy => hr y (List.mem_cons_of_mem _ hy)) (fuel := n) (by omega)
      (acc ++ [rereadAny x.2]) (fmtAny x.1 x.2 ++ [','], (fmtAny x.1 x.2).length)
    simpa [featWords] using this

theorem reads_entryWords {e : FileEntry} (h : FileEntryOk e) {fuel : ℕ}
    (hfuel : e.2.1.length + 1 ≤ fuel) :
    Reads (loadEntry fuel) (fmtInt e.1 ++ [':'], 0) (entryWords e).tail (readEntry e)
      ("},".toList, 0) := by
  unfold entryWords loadEntry
  refine Reads.bind0 (a := e.1) (c1 := (fmtInt e.1 ++ [':'], (fmtInt e.1).length))
    (Reads.parseWith (by simpa using stoi_fmtInt h.idx [':'] (by decide))) ?_
  refine Reads.bind0 (Reads.parseExpected (by simp)) ?_
  refine Reads.bind1 (Reads.expectNext _ _) ?_
  refine Reads.bind1 (Reads.expectNext _ _) ?_
  refine Reads.bind1 (Reads.expectNext _ _) ?_
  refine Reads.bind (reads_featWords h.feat hfuel _ _) ?_
  refine Reads.bind1 (Reads.expectNext _ _) ?_
  refine Reads.bind1 (Reads.getNextToken _ _) ?_
  refine Reads.bind0 (a := e.2.2.1)
    (c1 := (fmtInt e.2.2.1 ++ [','], (fmtInt e.2.2.1).length))
    (Reads.parseWith (by simpa using stoi_fmtInt h.pol [','] (by decide))) ?_
  refine Reads.bind0 (Reads.parseExpected (by simp)) ?_
  refine Reads.bind1 (Reads.expectNext _ _) ?_
  refine Reads.bind1 (Reads.getNextToken _ _) ?_
  refine Reads.bind0 (a := rnd64 (round6 e.2.2.2)) (c1 := (fmtG6 e.2.2.2, (fmtG6 e.2.2.2).length))
    (Reads.parseWith (by simpa using stod_fmtG6 h.metric [] trivial)) ?_
  exact Reads.bind1 (Reads.expectNext _ _) (Reads.pure _ _)

theorem fmtInt_ne_brace (n : ℤ) : fmtInt n ++ [':'] ≠ "}".toList := by
  intro h
  have h1 := congrArg List.length h
  have h2 := List.length_pos_iff.2 (fmtInt_spec n).2
  simp at h1
  simp [h1] at h2

theorem length_entryWords (e : FileEntry) : (entryWords e).length = e.2.1.length + 10 := by
  simp [entryWords, featWords]

theorem reads_fileEntries (balance : AnyDataset → AnyDataset) {es : List FileEntry}
    (h : ∀ e ∈ es, FileEntryOk e) {fuel : ℕ} (hfuel : (es.flatMap entryWords).length + 1 ≤ fuel)
    (acc : AnyDataset) (c : Cur) :
    Reads (loadEntries balance fuel acc) c (es.flatMap entryWords ++ ["}".toList])
      (insertAll balance acc (es.map readEntry)) ("}".toList, 0) := by
  induction es generalizing fuel acc c with
  | nil =>
    obtain ⟨n, rfl⟩ : ∃ n, fuel = n + 1 := ⟨fuel - 1, by simp at hfuel; omega⟩
    refine Reads.bind1 (Reads.getNextTokenEquals c _ _) ?_
    simp only [decide_true, if_true]
    exact Reads.pure _ _
  | cons e es ih =>
    rw [List.flatMap_cons, List.length_append, length_entryWords] at hfuel
    obtain ⟨n, rfl⟩ : ∃ n, fuel = n + 1 := ⟨fuel - 1, by omega⟩
    have e1 : (e :: es).flatMap entryWords ++ ["}".toList] =
        (fmtInt e.1 ++ [':']) :: ((entryWords e).tail ++ (es.flatMap entryWords ++ ["}".toList])) := by
      rw [List.flatMap_cons, List.append_assoc]
      rfl
    rw [e1]
    refine Reads.bind1 (Reads.getNextTokenEquals c _ _) ?_
    rw [decide_eq_false (fmtInt_ne_brace e.1), if_neg (by simp)]
    refine Reads.bind (reads_entryWords (h e (by simp)) (by omega)) ?_
    exact ih (fun d hd => h d (List.mem_cons_of_mem _ hd)) (by omega) _ _

theorem wTok_entryWords {e : FileEntry} : ∀ t ∈ entryWords e, WTok t := by
  intro t ht
  unfold entryWords featWords at ht
  simp only [List.mem_cons, List.mem_append, List.mem_map, List.not_mem_nil, or_false] at ht
  rcases ht with rfl | rfl | rfl | rfl | ((⟨x, -, rfl⟩ | rfl) | rfl | rfl | rfl | rfl | rfl)
  · exact wTok_num (fmtInt_spec _).1 (fmtInt_spec _).2 _ (by decide)
  · exact wTok_of_b (by decide)
  · exact wTok_of_b (by decide)
  · exact wTok_of_b (by decide)
  · have := wTok_featText (fun _ => x.1) (f := [x.2]) (by simp)
    simpa [featText] using this
  · exact wTok_of_b (by decide)
  · exact wTok_of_b (by decide)
  · exact wTok_num (fmtInt_spec _).1 (fmtInt_spec _).2 _ (by decide)
  · exact wTok_of_b (by decide)
  · simpa using wTok_num (numChar_fmtG6 e.2.2.2) (fmtG6_ne_nil _) [] (by decide)
  · exact wTok_of_b (by decide)

theorem good_entryWords {e : FileEntry} (h : FileEntryOk e) :
    ∀ t ∈ entryWords e, (∀ c ∈ t, c ≠ nul) ∧ t.length < BUFSIZE := by
  intro t ht
  have hlit : ∀ t : List Char, (t.all (· ≠ nul) && decide (t.length < BUFSIZE)) = true →
      (∀ c ∈ t, c ≠ nul) ∧ t.length < BUFSIZE := by
    intro t h
    simpa using h
  have hi := length_fmtInt_int h.idx
  have hp := length_fmtInt_int h.pol
  have hm := length_fmtG6_double h.metric
  unfold entryWords featWords at ht
  simp only [List.mem_cons, List.mem_append, List.mem_map, List.not_mem_nil, or_false] at ht
  rcases ht with rfl | rfl | rfl | rfl | ((⟨x, hx, rfl⟩ | rfl) | rfl | rfl | rfl | rfl | rfl)
  · exact ⟨fmtInt_no_nul _ _ (by decide), by simp [BUFSIZE]; omega⟩
  · exact hlit _ (by decide)
  · exact hlit _ (by decide)
  · exact hlit _ (by decide)
  · have h1 := featText_no_nul (fun _ => x.1) 0 [x.2]
    have h2 := length_fmtAny (h.feat x hx) x.1
    exact ⟨by simpa [featText] using h1, by simp [BUFSIZE]; omega⟩
  · exact hlit _ (by decide)
  · exact hlit _ (by decide)
  · exact ⟨fmtInt_no_nul _ _ (by decide), by simp [BUFSIZE]; omega⟩
  · exact hlit _ (by decide)
  · exact ⟨fun c hc => (numChar_fmtG6 _ c hc).ne (by decide), by simp [BUFSIZE]; omega⟩
  · exact hlit _ (by decide)

theorem load_laidOut (balance : AnyDataset → AnyDataset) {es : List FileEntry}
    (h : ∀ e ∈ es, FileEntryOk e) {text : List Char} (hl : Spec.LaidOut (fileWords es) text)
    (acc : AnyDataset) :
    load balance acc text = .ok (insertAll balance acc (es.map readEntry)) := by
  have hlit : ∀ t : List Char, (t.all (· ≠ nul) && decide (t.length < BUFSIZE)) = true →
      (∀ c ∈ t, c ≠ nul) ∧ t.length < BUFSIZE := by
    intro t h
    simpa using h
  obtain ⟨r, hw⟩ := wtoks_of_laidOut (words := fileWords es) (by
    intro t ht
    unfold fileWords at ht
    simp only [List.mem_cons, List.mem_append, List.not_mem_nil, or_false, List.mem_flatMap] at ht
    rcases ht with rfl | rfl | ⟨e, he, ht⟩ | rfl
    · exact wTok_of_b (by decide)
    · exact wTok_of_b (by decide)
    · exact wTok_entryWords t ht
    · exact wTok_of_b (by decide)) (by simp [fileWords]) hl
  have htoks : Toks r text (fileWords es) := by
    refine hw.toToks fun t ht => ?_
    unfold fileWords at ht
    simp only [List.mem_cons, List.mem_append, List.not_mem_nil, or_false, List.mem_flatMap] at ht
    rcases ht with rfl | rfl | ⟨e, he, ht⟩ | rfl
    · exact hlit _ (by decide)
    · exact hlit _ (by decide)
    · exact good_entryWords (h e he) t ht
    · exact hlit _ (by decide)
  have hlen := hw.length_le
  have hr : Reads (loadP balance (text.length + 1) acc) ([], 0) (fileWords es)
      (insertAll balance acc (es.map readEntry)) ("}".toList, 0) := by
    unfold fileWords
    refine Reads.bind1 (Reads.expectNext _ _) ?_
    refine Reads.bind1 (Reads.expectNext _ _) ?_
    refine reads_fileEntries balance h ?_ _ _
    simp only [fileWords, List.length_cons, List.length_append, List.length_nil] at hlen
    omega
  have := hr.run htoks
  unfold load
  rw [this]; rfl

end AnyDataset
end Apollo
