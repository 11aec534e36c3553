import Verif.Model.CreateDataset
import Verif.Proofs.DatasetRT
import Verif.Proofs.DatasetHist
import Verif.Proofs.TreeIO

/-! Helper lemmas: loading a dataset written by create-dataset.py. -/

namespace Apollo.Scripts

open Apollo Apollo.Spec Apollo.Dataset

/-- A text that can be part of a token. -/
structure TokText (t : Text) : Prop where
  ne_nil : t ≠ []
  chars : ∀ c ∈ t, isSpace c = false ∧ c ≠ nul
  head : t.head? ≠ some '#' ∧ t.head? ≠ some ']'
  len : t.length < 63

/-- The texts of an entry are read as a measurement. -/
structure EntryReads (e : List Text × Text × Text) (m : Meas) : Prop where
  feats : List.Forall₂ (fun t x => TokText t ∧ stof (t ++ [',']) = .ok (x, t.length)) e.1 m.features
  pol : TokText e.2.1 ∧ stoi (e.2.1 ++ [',']) = .ok (m.policy, e.2.1.length)
  time : TokText e.2.2 ∧ ∃ n, stod e.2.2 = .ok (m.metric, n)

theorem TokText.good {t : Text} (h : TokText t) : GoodTok t :=
  ⟨h.ne_nil, fun c hc => (h.chars c hc).1, fun c hc => (h.chars c hc).2, h.head.1,
    by have := h.len; simp [BUFSIZE]; omega⟩

theorem TokText.comma {t : Text} (h : TokText t) : GoodTok (t ++ [',']) := by
  refine ⟨by simp, ?_, ?_, ?_, by have := h.len; simp [BUFSIZE]; omega⟩
  · intro c hc
    rcases List.mem_append.1 hc with hc | hc
    · exact (h.chars c hc).1
    · simp only [List.mem_singleton] at hc; subst hc; decide
  · intro c hc
    rcases List.mem_append.1 hc with hc | hc
    · exact (h.chars c hc).2
    · simp only [List.mem_singleton] at hc; subst hc; decide
  · cases t with
    | nil => exact absurd rfl h.ne_nil
    | cons c t => simpa using h.head.1

/-- The tokens of an entry after the number. -/
def entryRest (e : List Text × Text × Text) : List Text :=
  ["{".toList, "features:".toList, "[".toList] ++ e.1.map (· ++ [',']) ++
    ["],".toList, "policy:".toList, e.2.1 ++ [','], "xtime:".toList, e.2.2, "},".toList]

/-- The tokens of the entries. -/
def printToks : ℕ → List (List Text × Text × Text) → List Text
  | _, [] => []
  | i, e :: l => (fmtInt i ++ [':']) :: entryRest e ++ printToks (i + 1) l

theorem toks_feats {r s : Text} {ts : List Text} {l : List Text} (hl : ∀ t ∈ l, TokText t)
    (h : Toks r (' ' :: s) ts) :
    Toks r (' ' :: ((l.map fun f => f ++ ", ".toList).flatten ++ s)) (l.map (· ++ [',']) ++ ts) := by
  induction l with
  | nil => exact h
  | cons t l ih =>
    have := Toks.cons' (w := [' ']) (blank_of_all (by decide)) (hl t (by simp)).comma
      (startsBlank_cons (by decide)) (ih fun t ht => hl t (List.mem_cons_of_mem _ ht))
    simpa using this

theorem toks_entry {i : ℕ} (hi : i < 2 ^ 31) {e : List Text × Text × Text} {m : Meas}
    (he : EntryReads e m) {r rest : Text} {ts : List Text} (h : Toks r ('\n' :: rest) ts) :
    Toks r ('\n' :: (printToStr i e.1 e.2.1 e.2.2 ++ rest))
      ((fmtInt i ++ [':']) :: entryRest e ++ ts) := by
  have hl : ∀ t ∈ e.1, TokText t := by
    intro t ht
    obtain ⟨n, hn, rfl⟩ := List.getElem_of_mem ht
    have h2 : n < m.features.length := by rw [← he.feats.length_eq]; exact hn
    exact (he.feats.get hn h2).1
  have hi' : (fmtInt i).length ≤ 11 := length_fmtInt_int ⟨by omega, by exact_mod_cast hi⟩
  have htail : Toks r (' ' :: ("]".toList ++ (", policy: ".toList ++ (e.2.1 ++ (", xtime: ".toList ++
      (e.2.2 ++ (" },\n".toList ++ rest)))))))
      (["],".toList, "policy:".toList, e.2.1 ++ [','], "xtime:".toList, e.2.2, "},".toList] ++ ts) := by
    have h1 := Toks.cons' (w := [' ']) (t := "},".toList) (blank_of_all (by decide))
      (goodTok_of_b (by decide)) (startsBlank_cons (by decide)) h
    have h2 := Toks.cons' (w := [' ']) (blank_of_all (by decide)) he.time.1.good
      (startsBlank_cons (by decide)) h1
    have h3 := Toks.cons' (w := [' ']) (t := "xtime:".toList) (blank_of_all (by decide))
      (goodTok_of_b (by decide)) (startsBlank_cons (by decide)) h2
    have h4 := Toks.cons' (w := [' ']) (blank_of_all (by decide)) he.pol.1.comma
      (startsBlank_cons (by decide)) h3
    have h5 := Toks.cons' (w := [' ']) (t := "policy:".toList) (blank_of_all (by decide))
      (goodTok_of_b (by decide)) (startsBlank_cons (by decide)) h4
    have h6 := Toks.cons' (w := [' ']) (t := "],".toList) (blank_of_all (by decide))
      (goodTok_of_b (by decide)) (startsBlank_cons (by decide)) h5
    simpa using h6
  have h1 := toks_feats hl htail
  have h2 := Toks.cons' (w := [' ']) (t := "[".toList) (blank_of_all (by decide))
    (goodTok_of_b (by decide)) (startsBlank_cons (by decide)) h1
  have h3 := Toks.cons' (w := [' ']) (t := "features:".toList) (blank_of_all (by decide))
    (goodTok_of_b (by decide)) (startsBlank_cons (by decide)) h2
  have h4 := Toks.cons' (w := [' ']) (t := "{".toList) (blank_of_all (by decide))
    (goodTok_of_b (by decide)) (startsBlank_cons (by decide)) h3
  have h5 := Toks.cons' (w := "\n  ".toList) (t := fmtInt i ++ [':']) (blank_of_all (by decide))
    (goodTok_num (fmtInt_spec _).1 (fmtInt_spec _).2 _ (by decide) (by simp [BUFSIZE]; omega))
    (startsBlank_cons (by decide)) h4
  unfold printToStr entryRest
  generalize fmtInt (i : ℤ) = a at h5 ⊢
  simpa using h5

theorem toks_all {l : List (List Text × Text × Text)} {ms : List Meas}
    (h : List.Forall₂ EntryReads l ms) {i : ℕ} (hi : i + l.length ≤ 2 ^ 31) {r rest : Text}
    {ts : List Text} (hr : Toks r ('\n' :: rest) ts) :
    Toks r ('\n' :: (printAll i l ++ rest)) (printToks i l ++ ts) := by
  induction h generalizing i with
  | nil => exact hr
  | @cons e m l ms he _ ih =>
    simp only [List.length_cons] at hi
    have := toks_entry (i := i) (by omega) he (ih (i := i + 1) (by omega))
    unfold printAll printToks
    simpa using this

theorem reads_feats {l : List Text} {xs : Features}
    (h : List.Forall₂ (fun t x => TokText t ∧ stof (t ++ [',']) = .ok (x, t.length)) l xs)
    {fuel : ℕ} (hf : l.length + 1 ≤ fuel) (acc : Features) (c : Cur) :
    Reads (loadFeatures fuel acc) c (l.map (· ++ [',']) ++ ["],".toList]) (acc ++ xs)
      ("],".toList, 0) := by
  induction h generalizing fuel acc c with
  | nil =>
    obtain ⟨n, rfl⟩ : ∃ n, fuel = n + 1 := ⟨fuel - 1, by simp at hf; omega⟩
    refine Reads.bind1 (Reads.getNextTokenEquals c _ _) ?_
    simp only [decide_true, if_true, List.append_nil]
    exact Reads.pure _ _
  | @cons t x l xs ht _ ih =>
    simp only [List.length_cons] at hf
    obtain ⟨n, rfl⟩ : ∃ n, fuel = n + 1 := ⟨fuel - 1, by omega⟩
    refine Reads.bind1 (Reads.getNextTokenEquals c _ _) ?_
    have hne : t ++ [','] ≠ "],".toList := by
      intro e
      cases t with
      | nil => exact ht.1.ne_nil rfl
      | cons a t =>
        have : a = ']' := by simpa using congrArg List.head? e
        exact ht.1.head.2 (by simp [this])
    rw [decide_eq_false hne, if_neg (by simp)]
    refine Reads.bind0 (a := x) (c1 := (t ++ [','], t.length)) (Reads.parseWith (by simpa using ht.2)) ?_
    refine Reads.bind0 (Reads.parseExpected (by simp)) ?_
    have := ih (fuel := n) (by omega) (acc ++ [x]) (t ++ [','], t.length)
    simpa using this

theorem reads_printed {e : List Text × Text × Text} {m : Meas} (he : EntryReads e m) {i : ℕ}
    (hi : i < 2 ^ 31) {fuel : ℕ} (hf : e.1.length + 1 ≤ fuel) :
    Reads (loadEntry fuel) (fmtInt i ++ [':'], 0) (entryRest e) (m.features, m.policy, m.metric)
      ("},".toList, 0) := by
  have h1 : entryRest e = "{".toList :: "features:".toList :: "[".toList ::
    ((e.1.map (· ++ [',']) ++ ["],".toList]) ++ ["policy:".toList, e.2.1 ++ [','],
      "xtime:".toList, e.2.2, "},".toList]) := by
    simp [entryRest]
  rw [h1]
  unfold loadEntry
  refine Reads.bind0 (a := (i : ℤ)) (c1 := (fmtInt i ++ [':'], (fmtInt i).length))
    (Reads.parseWith (by
      simpa using stoi_fmtInt (n := i) ⟨by omega, by exact_mod_cast hi⟩ [':'] (by decide))) ?_
  refine Reads.bind0 (Reads.parseExpected (by simp)) ?_
  refine Reads.bind1 (Reads.expectNext _ _) ?_
  refine Reads.bind1 (Reads.expectNext _ _) ?_
  refine Reads.bind1 (Reads.expectNext _ _) ?_
  refine Reads.bind (reads_feats he.feats hf [] _) ?_
  refine Reads.bind1 (Reads.expectNext _ _) ?_
  refine Reads.bind1 (Reads.getNextToken _ _) ?_
  refine Reads.bind0 (a := m.policy) (c1 := (e.2.1 ++ [','], e.2.1.length))
    (Reads.parseWith (by simpa using he.pol.2)) ?_
  refine Reads.bind0 (Reads.parseExpected (by simp)) ?_
  refine Reads.bind1 (Reads.expectNext _ _) ?_
  refine Reads.bind1 (Reads.getNextToken _ _) ?_
  obtain ⟨n, hn⟩ := he.time.2
  refine Reads.bind0 (a := m.metric) (c1 := (e.2.2, n)) (Reads.parseWith (by simpa using hn)) ?_
  exact Reads.bind1 (Reads.expectNext _ _) (Reads.pure _ _)

theorem reads_all {l : List (List Text × Text × Text)} {ms : List Meas}
    (h : List.Forall₂ EntryReads l ms) {i : ℕ} (hi : i + l.length ≤ 2 ^ 31) {fuel : ℕ}
    (hf : ∀ e ∈ l, e.1.length + l.length + 2 ≤ fuel) (hf0 : 1 ≤ fuel) (acc : Dataset) (c : Cur) :
    Reads (loadEntries fuel acc) c (printToks i l ++ ["}".toList])
      (insertAll acc (ms.map fun x => (x.features, x.policy, x.metric))) ("}".toList, 0) := by
  induction h generalizing fuel acc i c with
  | nil =>
    obtain ⟨n, rfl⟩ : ∃ n, fuel = n + 1 := ⟨fuel - 1, by omega⟩
    refine Reads.bind1 (Reads.getNextTokenEquals c _ _) ?_
    simp only [decide_true, if_true]
    exact Reads.pure _ _
  | @cons e m l ms he _ ih =>
    simp only [List.length_cons] at hi hf
    have h0 := hf e (by simp)
    obtain ⟨n, rfl⟩ : ∃ n, fuel = n + 1 := ⟨fuel - 1, by omega⟩
    have e1 : printToks i (e :: l) ++ ["}".toList] =
      (fmtInt i ++ [':']) :: (entryRest e ++ (printToks (i + 1) l ++ ["}".toList])) := by
      simp [printToks]
    rw [e1]
    refine Reads.bind1 (Reads.getNextTokenEquals c _ _) ?_
    rw [decide_eq_false (idxTok_ne i), if_neg (by simp)]
    refine Reads.bind (reads_printed he (by omega) (by omega)) ?_
    refine ih (by omega) (fun e' he' => ?_) (by omega) _ _
    have := hf e' (List.mem_cons_of_mem _ he')
    omega

theorem length_printAll (i : ℕ) (l : List (List Text × Text × Text)) :
    ∀ e ∈ l, e.1.length + l.length ≤ (printAll i l).length := by
  have hcat : ∀ fs : List Text, fs.length ≤ ((fs.map fun f => f ++ ", ".toList).flatten).length := by
    intro fs
    induction fs with
    | nil => simp
    | cons f fs ih => simp at ih ⊢; omega
  have hone : ∀ i (e : List Text × Text × Text), e.1.length + 1 ≤ List.length (α := Char) (printToStr i e.1 e.2.1 e.2.2) := by
    intro i e
    have := hcat e.1
    unfold printToStr
    simp only [List.length_append]
    have : ("  ".toList).length = 2 := by decide
    omega
  have hcons : ∀ i (e : List Text × Text × Text) l, List.length (α := Char) (printAll i (e :: l)) =
      List.length (α := Char) (printToStr i e.1 e.2.1 e.2.2) +
        List.length (α := Char) (printAll (i + 1) l) :=
    fun i e l => List.length_append
  have hall : ∀ i (l : List (List Text × Text × Text)), l.length ≤ (printAll i l).length := by
    intro i l
    induction l generalizing i with
    | nil => simp
    | cons e l ih =>
      have := ih (i + 1)
      have := hone i e
      rw [hcons, List.length_cons]
      omega
  induction l generalizing i with
  | nil => simp
  | cons e l ih =>
    intro e' he'
    have h1 := hone i e
    have h2 := hall (i + 1) l
    rw [hcons, List.length_cons]
    rcases List.mem_cons.1 he' with rfl | he'
    · omega
    · have := ih (i + 1) e' he'
      omega

/-- A file of create-dataset.py is loaded as its measurements. -/
theorem load_printed (title : Text) (ht : '\n' ∉ title) {l : List (List Text × Text × Text)}
    {ms : List Meas} (h : List.Forall₂ EntryReads l ms) (hl : l.length ≤ 2 ^ 31) :
    Dataset.load [] ('#' :: title ++ "\n".toList ++ "data: {\n".toList ++ printAll 0 l ++
      "}\n\n".toList) = .ok (run ms) := by
  obtain ⟨s, hs⟩ : ∃ s, s = "data: {\n".toList ++ (printAll 0 l ++ "}\n\n".toList) := ⟨_, rfl⟩
  have e1 : '#' :: title ++ "\n".toList ++ "data: {\n".toList ++ printAll 0 l ++ "}\n\n".toList =
      '#' :: title ++ '\n' :: s := by
    rw [hs]
    simp
  rw [e1]
  have htoks : Toks "\n\n".toList s ("data:".toList :: "{".toList :: (printToks 0 l ++ ["}".toList])) := by
    have h0 : Toks "\n\n".toList ('\n' :: "}\n\n".toList) ["}".toList] :=
      Toks.cons' (w := ['\n']) (t := "}".toList) (s := "\n\n".toList) (blank_of_all (by decide))
        (goodTok_of_b (by decide)) (startsBlank_cons (by decide)) Toks.nil
    have h1 := toks_all h (i := 0) (by omega) h0
    have h2 := Toks.cons' (w := [' ']) (t := "{".toList) (blank_of_all (by decide))
      (goodTok_of_b (by decide)) (startsBlank_cons (by decide)) h1
    have h3 := Toks.cons' (w := []) (t := "data:".toList) (blank_of_all (by decide))
      (goodTok_of_b (by decide)) (startsBlank_cons (by decide)) h2
    rw [hs]
    simpa using h3
  have hne : s ≠ [] := by rw [hs]; simp
  have hlen : (printAll 0 l).length + 8 ≤ s.length := by
    rw [hs]; simp
  have hr : Reads (loadP (('#' :: title ++ '\n' :: s).length + 1) []) ([], 0)
      ("data:".toList :: "{".toList :: (printToks 0 l ++ ["}".toList]))
      (insertAll [] (ms.map fun x => (x.features, x.policy, x.metric))) ("}".toList, 0) := by
    refine Reads.bind1 (Reads.expectNext _ _) ?_
    refine Reads.bind1 (Reads.expectNext _ _) ?_
    refine reads_all h (by omega) ?_ (by omega) _ _
    intro e he
    have := length_printAll 0 l e he
    simp
    omega
  have h2 := hr.run htoks
  have h3 : loadP (('#' :: title ++ '\n' :: s).length + 1) [] ⟨'#' :: title ++ '\n' :: s, [], 0⟩ =
      loadP (('#' :: title ++ '\n' :: s).length + 1) [] ⟨s, [], 0⟩ :=
    bind_comment _ ht hne _ _ _ _
  unfold Dataset.load
  rw [h3, h2, run_eq]
  rfl

end Apollo.Scripts
