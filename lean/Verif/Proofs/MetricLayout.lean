import Verif.Proofs.AnyMetricIO
import Verif.Proofs.FileLayout
import Verif.Spec.MetricLayout

/-! Helper lemmas: loading a dataset file with any metrics in any layout. -/

namespace Apollo
namespace MetricDataset

open Spec (MetricFileEntry)
open Dataset (fmtInt_no_nul length_fmtInt_int length_fmtG6_float fmtG6_ne_nil fmtG6_headChar loadFeatures)

/-- The words of the features. -/
def featWords (f : List ℚ) : List (List Char) := f.map fun x => fmtG6 x ++ [',']

/-- The words of an entry. -/
def entryWords (e : MetricFileEntry) : List (List Char) :=
  (fmtInt e.1 ++ [':']) :: "{".toList :: "features:".toList :: "[".toList ::
    ((featWords e.2.1 ++ ["],".toList]) ++ ["policy:".toList, fmtInt e.2.2.1 ++ [','],
      "xtime:".toList, fmtAny e.2.2.2.1 e.2.2.2.2, "},".toList])

/-- The words of a file. -/
def fileWords (es : List MetricFileEntry) : List (List Char) :=
  "data:".toList :: "{".toList :: (es.flatMap entryWords ++ ["}".toList])

theorem entryWords_eq (e : MetricFileEntry) : Spec.metricEntryWords e = entryWords e := by
  simp [Spec.metricEntryWords, entryWords, featWords, AnyDataset.floatWord_eq]

theorem fileWords_eq (es : List MetricFileEntry) : Spec.metricWords es = fileWords es := by
  have : Spec.metricEntryWords = entryWords := funext entryWords_eq
  simp [Spec.metricWords, fileWords, this]

/-- The numbers of the entry are in the range of the parser. -/
structure FileEntryOk (e : MetricFileEntry) : Prop where
  idx : -2 ^ 31 ≤ e.1 ∧ e.1 < 2 ^ 31
  feat : ∀ x ∈ e.2.1, RangeFloat x
  pol : -2 ^ 31 ≤ e.2.2.1 ∧ e.2.2.1 < 2 ^ 31
  metric : RangeAnyDouble e.2.2.2.2

/-- What an entry reads as. -/
def readEntry (e : MetricFileEntry) : Features × ℤ × AnyFloat :=
  (e.2.1.map (fun x => rnd32 (round6 x)), e.2.2.1, rereadAnyDouble e.2.2.2.2)

theorem reads_featWords {f : List ℚ} (hr : ∀ x ∈ f, RangeFloat x) {fuel : ℕ}
    (hfuel : f.length + 1 ≤ fuel) (acc : List ℚ) (c : Cur) :
    Reads (loadFeatures fuel acc) c (featWords f ++ ["],".toList])
      (acc ++ f.map (fun x => rnd32 (round6 x))) ("],".toList, 0) := by
  induction f generalizing fuel acc c with
  | nil =>
    obtain ⟨n, rfl⟩ : ∃ n, fuel = n + 1 := ⟨fuel - 1, by simp at hfuel; omega⟩
    refine Reads.bind1 (Reads.getNextTokenEquals c _ _) ?_
    simp only [decide_true, if_true, List.map_nil, List.append_nil]
    exact Reads.pure _ _
  | cons x f ih =>
    simp only [List.length_cons] at hfuel
    obtain ⟨n, rfl⟩ : ∃ n, fuel = n + 1 := ⟨fuel - 1, by omega⟩
    have hx := hr x (by simp)
    have hne : fmtG6 x ++ [','] ≠ "],".toList := by
      obtain ⟨c, r, h, hc⟩ := fmtG6_headChar x
      rw [h]
      have : c ≠ ']' := hc.ne (by decide)
      simp [this]
    refine Reads.bind1 (Reads.getNextTokenEquals c _ _) ?_
    rw [decide_eq_false hne, if_neg (by simp)]
    refine Reads.bind0 (a := rnd32 (round6 x)) (c1 := (fmtG6 x ++ [','], (fmtG6 x).length))
      (Reads.parseWith (by simpa using stof_fmtG6 hx [','] (by simp [Stops]; decide))) ?_
    refine Reads.bind0 (Reads.parseExpected (by simp)) ?_
    have := ih (fun y hy => hr y (List.mem_cons_of_mem _ hy)) (fuel := n) (by omega)
      (acc ++ [rnd32 (round6 x)]) (fmtG6 x ++ [','], (fmtG6 x).length)
    simpa [featWords] using this

theorem reads_entryWords {e : MetricFileEntry} (h : FileEntryOk e) {fuel : ℕ}
    (hfuel : e.2.1.length + 1 ≤ fuel) :
    Reads (loadEntry fuel) (fmtInt e.1 ++ [':'], 0) (entryWords e).tail (readEntry e)
      ("},".toList, 0) := by
  unfold entryWords loadEntry
  refine Reads.bind0 (a := e.1) (c1 := (fmtInt e.1 ++ [':'], (fmtInt e.1).length))
    (Reads.parseWith (by simpa using stoi_fmtInt h.idx [':'] (by decide))) ?_
  refine Reads.bind0 (Reads.parseExpected (by simp)) ?_
  refine Reads.bind1 (Reads.expectNext _ _) ?_
  refine Reads.bind1 (Reads.expectNext _ _) ?_
  refine Reads.bind1 (Reads.expectNext _ _) ?_
  refine Reads.bind (reads_featWords h.feat hfuel _ _) ?_
  refine Reads.bind1 (Reads.expectNext _ _) ?_
  refine Reads.bind1 (Reads.getNextToken _ _) ?_
  refine Reads.bind0 (a := e.2.2.1)
    (c1 := (fmtInt e.2.2.1 ++ [','], (fmtInt e.2.2.1).length))
    (Reads.parseWith (by simpa using stoi_fmtInt h.pol [','] (by decide))) ?_
  refine Reads.bind0 (Reads.parseExpected (by simp)) ?_
  refine Reads.bind1 (Reads.expectNext _ _) ?_
  refine Reads.bind1 (Reads.getNextToken _ _) ?_
  refine Reads.bind0 (a := rereadAnyDouble e.2.2.2.2)
    (c1 := (fmtAny e.2.2.2.1 e.2.2.2.2, (fmtAny e.2.2.2.1 e.2.2.2.2).length))
    (Reads.parseWith (by simpa using stodAny_fmt h.metric e.2.2.2.1)) ?_
  exact Reads.bind1 (Reads.expectNext _ _) (Reads.pure _ _)

theorem length_entryWords (e : MetricFileEntry) : (entryWords e).length = e.2.1.length + 10 := by
  simp [entryWords, featWords]

theorem reads_fileEntries {es : List MetricFileEntry} (h : ∀ e ∈ es, FileEntryOk e) {fuel : ℕ}
    (hfuel : (es.flatMap entryWords).length + 1 ≤ fuel) (acc : MetricDataset) (c : Cur) :
    Reads (loadEntries fuel acc) c (es.flatMap entryWords ++ ["}".toList])
      (insertAll acc (es.map readEntry)) ("}".toList, 0) := by
  induction es generalizing fuel acc c with
  | nil =>
    obtain ⟨n, rfl⟩ : ∃ n, fuel = n + 1 := ⟨fuel - 1, by simp at hfuel; omega⟩
    refine Reads.bind1 (Reads.getNextTokenEquals c _ _) ?_
    simp only [decide_true, if_true]
    exact Reads.pure _ _
  | cons e es ih =>
    rw [List.flatMap_cons, List.length_append, length_entryWords] at hfuel
    obtain ⟨n, rfl⟩ : ∃ n, fuel = n + 1 := ⟨fuel - 1, by omega⟩
    have e1 : (e :: es).flatMap entryWords ++ ["}".toList] =
        (fmtInt e.1 ++ [':']) :: ((entryWords e).tail ++ (es.flatMap entryWords ++ ["}".toList])) := by
      rw [List.flatMap_cons, List.append_assoc]
      rfl
    rw [e1]
    refine Reads.bind1 (Reads.getNextTokenEquals c _ _) ?_
    rw [decide_eq_false (AnyDataset.fmtInt_ne_brace e.1), if_neg (by simp)]
    refine Reads.bind (reads_entryWords (h e (by simp)) (by omega)) ?_
    exact ih (fun d hd => h d (List.mem_cons_of_mem _ hd)) (by omega) _ _

theorem wTok_entryWords {e : MetricFileEntry} : ∀ t ∈ entryWords e, WTok t := by
  intro t ht
  unfold entryWords featWords at ht
  simp only [List.mem_cons, List.mem_append, List.mem_map, List.not_mem_nil, or_false] at ht
  rcases ht with rfl | rfl | rfl | rfl | ((⟨x, -, rfl⟩ | rfl) | rfl | rfl | rfl | rfl | rfl)
  · exact wTok_num (fmtInt_spec _).1 (fmtInt_spec _).2 _ (by decide)
  · exact wTok_of_b (by decide)
  · exact wTok_of_b (by decide)
  · exact wTok_of_b (by decide)
  · exact wTok_num (numChar_fmtG6 x) (fmtG6_ne_nil _) _ (by decide)
  · exact wTok_of_b (by decide)
  · exact wTok_of_b (by decide)
  · exact wTok_num (fmtInt_spec _).1 (fmtInt_spec _).2 _ (by decide)
  · exact wTok_of_b (by decide)
  · exact wTok_fmtAny _ _
  · exact wTok_of_b (by decide)

theorem good_entryWords {e : MetricFileEntry} (h : FileEntryOk e) :
    ∀ t ∈ entryWords e, (∀ c ∈ t, c ≠ nul) ∧ t.length < BUFSIZE := by
  intro t ht
  have hlit : ∀ t : List Char, (t.all (· ≠ nul) && decide (t.length < BUFSIZE)) = true →
      (∀ c ∈ t, c ≠ nul) ∧ t.length < BUFSIZE := by
    intro t h
    simpa using h
  have hi := length_fmtInt_int h.idx
  have hp := length_fmtInt_int h.pol
  unfold entryWords featWords at ht
  simp only [List.mem_cons, List.mem_append, List.mem_map, List.not_mem_nil, or_false] at ht
  rcases ht with rfl | rfl | rfl | rfl | ((⟨x, hx, rfl⟩ | rfl) | rfl | rfl | rfl | rfl | rfl)
  · exact ⟨fmtInt_no_nul _ _ (by decide), by simp [BUFSIZE]; omega⟩
  · exact hlit _ (by decide)
  · exact hlit _ (by decide)
  · exact hlit _ (by decide)
  · have h2 := length_fmtG6_float (h.feat x hx)
    refine ⟨fun c hc => ?_, by simp [BUFSIZE]; omega⟩
    rcases List.mem_append.1 hc with hc | hc
    · exact (numChar_fmtG6 _ c hc).ne (by decide)
    · rw [List.mem_singleton.1 hc]; decide
  · exact hlit _ (by decide)
  · exact hlit _ (by decide)
  · exact ⟨fmtInt_no_nul _ _ (by decide), by simp [BUFSIZE]; omega⟩
  · exact hlit _ (by decide)
  · exact good_fmtAny _ h.metric
  · exact hlit _ (by decide)

theorem load_laidOut {es : List MetricFileEntry} (h : ∀ e ∈ es, FileEntryOk e) {text : List Char}
    (hl : Spec.LaidOut (fileWords es) text) (acc : MetricDataset) :
    load acc text = .ok (insertAll acc (es.map readEntry)) := by
  have hlit : ∀ t : List Char, (t.all (· ≠ nul) && decide (t.length < BUFSIZE)) = true →
      (∀ c ∈ t, c ≠ nul) ∧ t.length < BUFSIZE := by
    intro t h
    simpa using h
  obtain ⟨r, hw⟩ := wtoks_of_laidOut (words := fileWords es) (by
    intro t ht
    unfold fileWords at ht
    simp only [List.mem_cons, List.mem_append, List.not_mem_nil, or_false, List.mem_flatMap] at ht
    rcases ht with rfl | rfl | ⟨e, he, ht⟩ | rfl
    · exact wTok_of_b (by decide)
    · exact wTok_of_b (by decide)
    · exact wTok_entryWords t ht
    · exact wTok_of_b (by decide)) (by simp [fileWords]) hl
  have htoks : Toks r text (fileWords es) := by
    refine hw.toToks fun t ht => ?_
    unfold fileWords at ht
    simp only [List.mem_cons, List.mem_append, List.not_mem_nil, or_false, List.mem_flatMap] at ht
    rcases ht with rfl | rfl | ⟨e, he, ht⟩ | rfl
    · exact hlit _ (by decide)
    · exact hlit _ (by decide)
    · exact good_entryWords (h e he) t ht
    · exact hlit _ (by decide)
  have hlen := hw.length_le
  have hr : Reads (loadP (text.length + 1) acc) ([], 0) (fileWords es)
      (insertAll acc (es.map readEntry)) ("}".toList, 0) := by
    unfold fileWords
    refine Reads.bind1 (Reads.expectNext _ _) ?_
    refine Reads.bind1 (Reads.expectNext _ _) ?_
    refine reads_fileEntries h ?_ _ _
    simp only [fileWords, List.length_cons, List.length_append, List.length_nil] at hlen
    omega
  have := hr.run htoks
  unfold load
  rw [this]; rfl

end MetricDataset
end Apollo
