import Verif.Model.AnyMetricIO
import Verif.Proofs.AnyDatasetIO
import Verif.Proofs.AnyMetric
import Verif.Proofs.DatasetRT

/-! Helper lemmas: loading back a stored dataset whose metrics are any doubles. -/

namespace Apollo

/-! ## Reading a double -/

/-- A number is neither an infinity nor a NaN; its sign is the one of the text. -/
theorem stodAny_fin (q : ℚ) (s : List Char) :
    stodAny (fmtG6 q ++ s) = match stod (fmtG6 q ++ s) with
      | .error e => .error e
      | .ok (v, n) => .ok (if (readSign (fmtG6 q ++ s)).1 ∧ v = 0 then .negZero else .fin v, n) := by
  have hsp : (fmtG6 q ++ s).dropWhile isSpace = fmtG6 q ++ s := by
    obtain ⟨c, r, h, hc⟩ := Dataset.fmtG6_headChar q
    rw [h, List.cons_append, List.dropWhile_cons, hc.not_space]; rfl
  have hword : ∀ (w : Char) (ws : List Char), w = 'i' ∨ w = 'n' →
      stripWord (w :: ws) (readSign (fmtG6 q ++ s)).2 = none := by
    intro w ws hw
    have hdig : ∃ d r, isDigit d = true ∧ (readSign (fmtG6 q ++ s)).2 = d :: r := by
      obtain ⟨c, r, h, hc | ⟨rfl, d, r', rfl, hd⟩⟩ := fmtG6_head q
      · exact ⟨c, r ++ s, hc, by rw [h, List.cons_append, readSign_of_digit hc]⟩
      · exact ⟨d, r' ++ s, hd, by rw [h]; rfl⟩
    obtain ⟨d, r, hd, e⟩ := hdig
    rw [e, stripWord, if_neg]
    have h1 : 48 ≤ d.toNat ∧ d.toNat ≤ 57 := by simpa [isDigit] using hd
    have h2 : d.toLower = d := by
      unfold Char.toLower
      rw [dif_neg]
      intro hh
      have : 65 ≤ d.toNat := UInt32.le_iff_toNat_le.1 hh.1
      omega
    rw [h2]
    rintro rfl
    rcases hw with rfl | rfl <;> simp at h1
  unfold stodAny
  rw [hsp]
  simp only
  rw [show "inf".toList = 'i' :: "nf".toList from rfl, hword 'i' _ (Or.inl rfl),
    show "nan".toList = 'n' :: "an".toList from rfl, hword 'n' _ (Or.inr rfl)]
  rfl

/-- What the text of a double reads back as. -/
def rereadAnyDouble : AnyFloat → AnyFloat
  | .fin q => .fin (rnd64 (round6 q))
  | x => x

/-- A double whose text can be read. -/
def RangeAnyDouble : AnyFloat → Prop
  | .fin q => RangeDouble q
  | _ => True

theorem rnd64_round6_ne_zero {q : ℚ} (h1 : (10 : ℚ) ^ (-307 : ℤ) ≤ |q|) : rnd64 (round6 q) ≠ 0 := by
  obtain ⟨b1, -⟩ := round6_abs_bounds q
  have : (2 : ℚ) ^ (-1022 : ℤ) ≤ |rnd 53 (-1074) (round6 q)| := by
    rw [abs_rnd]
    refine le_rnd_of_le (by norm_num) ⟨1, -1022, by norm_num, by norm_num, by simp⟩ ?_
    refine le_trans ?_ b1
    refine le_trans ?_ (mul_le_mul_of_nonneg_right h1 (by norm_num))
    decide +kernel
  intro h
  have e : rnd 53 (-1074) (round6 q) = 0 := h
  rw [e, abs_zero] at this
  exact absurd this (by decide +kernel)

theorem stodAny_fmt {x : AnyFloat} (hx : RangeAnyDouble x) (b : Bool) :
    stodAny (fmtAny b x) = .ok (rereadAnyDouble x, (fmtAny b x).length) := by
  cases x with
  | fin q =>
    have h := stodAny_fin q []
    rw [List.append_nil] at h
    show stodAny (fmtG6 q) = .ok (.fin (rnd64 (round6 q)), (fmtG6 q).length)
    have h2 : stod (fmtG6 q) = .ok (rnd64 (round6 q), (fmtG6 q).length) := by
      simpa using stod_fmtG6 (q := q) hx [] trivial
    rw [h, h2]
    simp only
    rw [if_neg]
    rintro ⟨h1, h2⟩
    rcases hx with rfl | ⟨h3, -⟩
    · rw [show fmtG6 0 = ['0'] from if_pos rfl] at h1
      cases h1
    · exact rnd64_round6_ne_zero h3 h2
  | negZero => cases b <;> decide +kernel
  | posInf => cases b <;> decide +kernel
  | negInf => cases b <;> decide +kernel
  | nan => cases b <;> decide +kernel

theorem wTok_fmtAny (b : Bool) (x : AnyFloat) : WTok (fmtAny b x) := by
  have hh : ¬ anyChar '#' := by
    rintro ((h | h | h | h | h) | h | h | h | h)
    · revert h; decide
    all_goals exact absurd h (by decide)
  refine ⟨fmtAny_ne_nil b x, fun c hc => (anyChar_fmtAny b x c hc).not_space, ?_⟩
  obtain ⟨c, r, h, hc⟩ := fmtAny_head b x
  rw [h]
  have : c ≠ '#' := hc.ne hh
  simpa using this

theorem good_fmtAny (b : Bool) {x : AnyFloat} (h : RangeAnyDouble x) :
    (∀ c ∈ fmtAny b x, c ≠ nul) ∧ (fmtAny b x).length < BUFSIZE := by
  have hh : ¬ anyChar nul := by
    rintro ((h | h | h | h | h) | h | h | h | h)
    · revert h; decide
    all_goals exact absurd h (by decide)
  refine ⟨fun c hc => (anyChar_fmtAny b x c hc).ne hh, ?_⟩
  cases x with
  | fin q =>
    have := Dataset.length_fmtG6_double (q := q) h
    show (fmtG6 q).length < _
    simp only [BUFSIZE]; omega
  | nan => cases b <;> decide
  | _ => simp [fmtAny, BUFSIZE]

namespace MetricDataset

open Dataset (featText featToks fmtInt_no_nul featText_no_nul wTok_featText idxTok_ne reads_features
  length_fmtInt_int length_fmtG6_float)

/-- Tokens of an entry. -/
def entryToks (neg : Bool) (idx : ℕ) (d : Key × AnyFloat) : List (List Char) :=
  [fmtInt idx ++ [':'], "{".toList, "features:".toList, "[".toList] ++ featToks (ofLex d.1).1 ++
    ["],".toList, "policy:".toList, fmtInt (ofLex d.1).2 ++ [','], "xtime:".toList, fmtAny neg d.2,
     "},".toList]

/-- Tokens of the entries. -/
def entriesToks (neg : ℕ → Bool) : ℕ → MetricDataset → List (List Char)
  | _, [] => []
  | idx, d :: ds => entryToks (neg idx) idx d ++ entriesToks neg (idx + 1) ds

/-- Tokens of a file. -/
def storeToks (neg : ℕ → Bool) (ds : MetricDataset) : List (List Char) :=
  ["data:".toList, "{".toList] ++ entriesToks neg 0 ds ++ ["}".toList]

/-- Text of an entry after `[`. -/
def entryTail (b : Bool) (d : Key × AnyFloat) (rest : List Char) : List Char :=
  " ".toList ++ ("],".toList ++ (" ".toList ++ ("policy:".toList ++ (" ".toList ++
    ((fmtInt (ofLex d.1).2 ++ [',']) ++ (" ".toList ++ ("xtime:".toList ++ (" ".toList ++
      (fmtAny b d.2 ++ (" ".toList ++ ("},".toList ++ '\n' :: rest)))))))))))

theorem entryText_eq (b : Bool) (idx : ℕ) (d : Key × AnyFloat) (rest : List Char) :
    '\n' :: (entryText b idx d ++ rest) =
      "\n  ".toList ++ ((fmtInt idx ++ [':']) ++ (" ".toList ++ ("{".toList ++ (" ".toList ++
        ("features:".toList ++ (" ".toList ++ ("[".toList ++ (' ' :: (featText (ofLex d.1).1 ++
          entryTail b d rest))))))))) := by
  unfold entryText entryTail
  generalize fmtInt idx = a
  generalize fmtInt (ofLex d.1).2 = p
  generalize featText (ofLex d.1).1 = c
  generalize fmtAny b d.2 = f
  simp only [String.reduceToList, List.cons_append, List.nil_append, List.append_assoc]

theorem wtoks_tail (b : Bool) (d : Key × AnyFloat) (rest : List Char) :
    WToks ('\n' :: rest) (entryTail b d rest)
      ["],".toList, "policy:".toList, fmtInt (ofLex d.1).2 ++ [','], "xtime:".toList, fmtAny b d.2,
       "},".toList] := by
  unfold entryTail
  refine WToks.cons' (blank_of_all (by decide)) (wTok_of_b (by decide))
    (StartsBlank.append (by decide) (blank_of_all (by decide))) ?_
  refine WToks.cons' (blank_of_all (by decide)) (wTok_of_b (by decide))
    (StartsBlank.append (by decide) (blank_of_all (by decide))) ?_
  refine WToks.cons' (blank_of_all (by decide))
    (wTok_num (fmtInt_spec _).1 (fmtInt_spec _).2 _ (by decide))
    (StartsBlank.append (by decide) (blank_of_all (by decide))) ?_
  refine WToks.cons' (blank_of_all (by decide)) (wTok_of_b (by decide))
    (StartsBlank.append (by decide) (blank_of_all (by decide))) ?_
  refine WToks.cons' (blank_of_all (by decide))
    (wTok_fmtAny _ _)
    (StartsBlank.append (by decide) (blank_of_all (by decide))) ?_
  exact WToks.cons' (blank_of_all (by decide)) (wTok_of_b (by decide))
    (startsBlank_cons (by decide)) WToks.nil

theorem wtoks_entry (b : Bool) (idx : ℕ) (d : Key × AnyFloat) (rest : List Char) :
    WToks ('\n' :: rest) ('\n' :: (entryText b idx d ++ rest)) (entryToks b idx d) := by
  rw [entryText_eq]
  unfold entryToks
  refine WToks.cons' (blank_of_all (by decide))
    (wTok_num (fmtInt_spec _).1 (fmtInt_spec _).2 _ (by decide))
    (StartsBlank.append (by decide) (blank_of_all (by decide))) ?_
  refine WToks.cons' (blank_of_all (by decide)) (wTok_of_b (by decide))
    (StartsBlank.append (by decide) (blank_of_all (by decide))) ?_
  refine WToks.cons' (blank_of_all (by decide)) (wTok_of_b (by decide))
    (StartsBlank.append (by decide) (blank_of_all (by decide))) ?_
  refine WToks.cons' (blank_of_all (by decide)) (wTok_of_b (by decide))
    (startsBlank_cons (by decide)) ?_
  by_cases hf : (ofLex d.1).1 = []
  · simp only [featToks, hf, if_true]
    exact WToks.blank (w := [' ']) (blank_of_all (by decide)) (wtoks_tail b d rest)
  · simp only [featToks, hf, if_false]
    exact WToks.cons' (w := [' ']) (blank_of_all (by decide)) (wTok_featText hf)
      (StartsBlank.append (by decide) (blank_of_all (by decide))) (wtoks_tail b d rest)

theorem wtoks_entries (neg : ℕ → Bool) (idx : ℕ) (ds : MetricDataset) (rest : List Char) :
    WToks ('\n' :: rest) ('\n' :: (entriesText neg idx ds ++ rest)) (entriesToks neg idx ds) := by
  induction ds generalizing idx with
  | nil => exact WToks.nil
  | cons d ds ih =>
    simp only [entriesText, entriesToks, List.append_assoc]
    exact (wtoks_entry (neg idx) idx d _).append (ih _)

theorem wtoks_store (neg : ℕ → Bool) (ds : MetricDataset) : WToks ['\n'] (store neg ds) (storeToks neg ds) := by
  have e : store neg ds = [] ++ ("data:".toList ++ (" ".toList ++ ("{".toList ++
      '\n' :: (entriesText neg 0 ds ++ "}\n".toList)))) := by
    unfold store
    generalize entriesText neg 0 ds = a
    simp only [String.reduceToList, List.cons_append, List.nil_append]
  rw [e]
  unfold storeToks
  refine WToks.cons' (blank_of_all (by decide)) (wTok_of_b (by decide))
    (StartsBlank.append (by decide) (blank_of_all (by decide))) ?_
  refine WToks.cons' (blank_of_all (by decide)) (wTok_of_b (by decide))
    (startsBlank_cons (by decide)) ?_
  refine WToks.append (wtoks_entries neg 0 ds _) ?_
  exact WToks.cons_eq (['\n']) "}".toList ['\n'] (by decide) (blank_of_all (by decide))
    (wTok_of_b (by decide)) (startsBlank_cons (by decide)) WToks.nil

/-- An entry whose numbers are in the range of the parser. -/
structure EntryOk (d : Key × AnyFloat) : Prop where
  few : (ofLex d.1).1.length ≤ 1
  feat : ∀ x ∈ (ofLex d.1).1, RangeFloat x
  pol : -2 ^ 31 ≤ (ofLex d.1).2 ∧ (ofLex d.1).2 < 2 ^ 31
  metric : RangeAnyDouble d.2

/-- What an entry reads back as. -/
def reread (d : Key × AnyFloat) : Features × ℤ × AnyFloat :=
  ((ofLex d.1).1.map fun x => rnd32 (round6 x), (ofLex d.1).2, rereadAnyDouble d.2)

/-- Insert the measurements in order. -/
def insertAll (ds : MetricDataset) (l : List (Features × ℤ × AnyFloat)) : MetricDataset :=
  l.foldl (fun ds x => insert ds x.1 x.2.1 x.2.2) ds

theorem reads_entry (b : Bool) {d : Key × AnyFloat} (h : EntryOk d) {idx : ℕ} (hidx : idx < 2 ^ 31) {fuel : ℕ}
    (hfuel : 2 ≤ fuel) :
    Reads (loadEntry fuel) (fmtInt idx ++ [':'], 0) (entryToks b idx d).tail (reread d)
      ("},".toList, 0) := by
  have e : (entryToks b idx d).tail = "{".toList :: "features:".toList :: "[".toList ::
    ((featToks (ofLex d.1).1 ++ ["],".toList]) ++ ["policy:".toList, fmtInt (ofLex d.1).2 ++ [','],
      "xtime:".toList, fmtAny b d.2, "},".toList]) := by
    simp [entryToks]
  rw [e]
  unfold loadEntry
  refine Reads.bind0 (a := (idx : ℤ)) (c1 := (fmtInt idx ++ [':'], (fmtInt idx).length))
    (Reads.parseWith (by
      simpa using stoi_fmtInt (n := idx) ⟨by omega, by exact_mod_cast hidx⟩ [':'] (by decide))) ?_
  refine Reads.bind0 (Reads.parseExpected (by simp)) ?_
  refine Reads.bind1 (Reads.expectNext _ _) ?_
  refine Reads.bind1 (Reads.expectNext _ _) ?_
  refine Reads.bind1 (Reads.expectNext _ _) ?_
  refine Reads.bind (reads_features h.few h.feat hfuel _) ?_
  refine Reads.bind1 (Reads.expectNext _ _) ?_
  refine Reads.bind1 (Reads.getNextToken _ _) ?_
  refine Reads.bind0 (a := (ofLex d.1).2)
    (c1 := (fmtInt (ofLex d.1).2 ++ [','], (fmtInt (ofLex d.1).2).length))
    (Reads.parseWith (by simpa using stoi_fmtInt h.pol [','] (by decide))) ?_
  refine Reads.bind0 (Reads.parseExpected (by simp)) ?_
  refine Reads.bind1 (Reads.expectNext _ _) ?_
  refine Reads.bind1 (Reads.getNextToken _ _) ?_
  refine Reads.bind0 (a := rereadAnyDouble d.2) (c1 := (fmtAny b d.2, (fmtAny b d.2).length))
    (Reads.parseWith (by simpa using stodAny_fmt h.metric b)) ?_
  exact Reads.bind1 (Reads.expectNext _ _) (Reads.pure _ _)

theorem reads_entries (neg : ℕ → Bool) {ds : MetricDataset} (h : ∀ d ∈ ds, EntryOk d) {idx : ℕ}
    (hidx : idx + ds.length ≤ 2 ^ 31) {fuel : ℕ} (hfuel : ds.length + 3 ≤ fuel) (acc : MetricDataset)
    (c : Cur) :
    Reads (loadEntries fuel acc) c (entriesToks neg idx ds ++ ["}".toList])
      (insertAll acc (ds.map reread)) ("}".toList, 0) := by
  induction ds generalizing fuel acc idx c with
  | nil =>
    obtain ⟨n, rfl⟩ : ∃ n, fuel = n + 1 := ⟨fuel - 1, by simp at hfuel; omega⟩
    refine Reads.bind1 (Reads.getNextTokenEquals c _ _) ?_
    simp only [decide_true, if_true]
    exact Reads.pure _ _
  | cons d ds ih =>
    simp only [List.length_cons] at hfuel hidx
    obtain ⟨n, rfl⟩ : ∃ n, fuel = n + 1 := ⟨fuel - 1, by omega⟩
    have e : entriesToks neg idx (d :: ds) ++ ["}".toList] =
      (fmtInt idx ++ [':']) :: ((entryToks (neg idx) idx d).tail ++
        (entriesToks neg (idx + 1) ds ++ ["}".toList])) := by
      simp [entriesToks, entryToks]
    rw [e]
    refine Reads.bind1 (Reads.getNextTokenEquals c _ _) ?_
    rw [decide_eq_false (idxTok_ne idx), if_neg (by simp)]
    refine Reads.bind (reads_entry (neg idx) (h d (by simp)) (by omega) (by omega)) ?_
    exact ih (fun d' hd' => h d' (List.mem_cons_of_mem _ hd')) (by omega) (by omega) _ _

theorem length_le_entriesText (neg : ℕ → Bool) (idx : ℕ) (ds : MetricDataset) :
    ds.length ≤ (entriesText neg idx ds).length := by
  induction ds generalizing idx with
  | nil => simp
  | cons d ds ih =>
    have := ih (idx + 1)
    have h2 : 1 ≤ (entryText (neg idx) idx d).length := by
      unfold entryText
      simp only [List.length_append]
      have : ("  ".toList).length = 2 := by decide
      omega
    simp only [entriesText, List.length_cons, List.length_append]
    omega

theorem good_entryToks (b : Bool) {d : Key × AnyFloat} (h : EntryOk d) {idx : ℕ} (hidx : idx < 2 ^ 31) :
    ∀ t ∈ entryToks b idx d, (∀ c ∈ t, c ≠ nul) ∧ t.length < BUFSIZE := by
  intro t ht
  unfold entryToks at ht
  rw [List.mem_append, List.mem_append] at ht
  have hlit : ∀ t : List Char, (t.all (· ≠ nul) && decide (t.length < BUFSIZE)) = true →
      (∀ c ∈ t, c ≠ nul) ∧ t.length < BUFSIZE := by
    intro t h
    simpa using h
  have hi : (fmtInt idx).length ≤ 11 := length_fmtInt_int ⟨by omega, by exact_mod_cast hidx⟩
  have hp := length_fmtInt_int h.pol
  rcases ht with (ht | ht) | ht
  · simp only [List.mem_cons, List.not_mem_nil, or_false] at ht
    rcases ht with rfl | rfl | rfl | rfl
    · exact ⟨fmtInt_no_nul _ _ (by decide), by simp [BUFSIZE]; omega⟩
    all_goals exact hlit _ (by decide)
  · have h1 := h.few
    have h2 := h.feat
    generalize (ofLex d.1).1 = f at ht h1 h2
    unfold featToks at ht
    match f, h1 with
    | [], _ => simp at ht
    | [x], _ =>
      simp only [List.cons_ne_nil, if_false, List.mem_singleton] at ht
      subst ht
      have := length_fmtG6_float (h2 x (by simp))
      refine ⟨featText_no_nul _, ?_⟩
      have e : featText [x] = fmtG6 x ++ [','] := by simp [featText]
      rw [e]
      simp [BUFSIZE]; omega
  · simp only [List.mem_cons, List.not_mem_nil, or_false] at ht
    rcases ht with rfl | rfl | rfl | rfl | rfl | rfl
    · exact hlit _ (by decide)
    · exact hlit _ (by decide)
    · exact ⟨fmtInt_no_nul _ _ (by decide), by simp [BUFSIZE]; omega⟩
    · exact hlit _ (by decide)
    · exact good_fmtAny _ h.metric
    · exact hlit _ (by decide)

theorem good_entriesToks (neg : ℕ → Bool) {ds : MetricDataset} (h : ∀ d ∈ ds, EntryOk d) {idx : ℕ}
    (hidx : idx + ds.length ≤ 2 ^ 31) :
    ∀ t ∈ entriesToks neg idx ds, (∀ c ∈ t, c ≠ nul) ∧ t.length < BUFSIZE := by
  induction ds generalizing idx with
  | nil => intro t ht; cases ht
  | cons d ds ih =>
    intro t ht
    simp only [List.length_cons] at hidx
    rcases List.mem_append.1 ht with ht | ht
    · exact good_entryToks (neg idx) (h d (by simp)) (by omega) t ht
    · exact ih (fun d' hd' => h d' (List.mem_cons_of_mem _ hd')) (by omega) t ht

theorem load_store (neg : ℕ → Bool) {ds : MetricDataset} (h : ∀ d ∈ ds, EntryOk d) (hlen : ds.length ≤ 2 ^ 31)
    (acc : MetricDataset) : load acc (store neg ds) = .ok (insertAll acc (ds.map reread)) := by
  have hlit : ∀ t : List Char, (t.all (· ≠ nul) && decide (t.length < BUFSIZE)) = true →
      (∀ c ∈ t, c ≠ nul) ∧ t.length < BUFSIZE := by
    intro t h
    simpa using h
  have htoks : Toks ['\n'] (store neg ds) (storeToks neg ds) := by
    refine (wtoks_store neg ds).toToks fun t ht => ?_
    unfold storeToks at ht
    rw [List.mem_append, List.mem_append] at ht
    rcases ht with (ht | ht) | ht
    · simp only [List.mem_cons, List.not_mem_nil, or_false] at ht
      rcases ht with rfl | rfl <;> exact hlit _ (by decide)
    · exact good_entriesToks neg h (by omega) t ht
    · simp only [List.mem_singleton] at ht
      subst ht; exact hlit _ (by decide)
  have hfuel : ds.length + 3 ≤ (store neg ds).length + 1 := by
    have := length_le_entriesText neg 0 ds
    unfold store
    simp only [List.length_append]
    have : ("data: {\n".toList).length = 8 := by decide
    omega
  have hr : Reads (loadP ((store neg ds).length + 1) acc) ([], 0) (storeToks neg ds)
      (insertAll acc (ds.map reread)) ("}".toList, 0) := by
    have e : storeToks neg ds = "data:".toList :: "{".toList :: (entriesToks neg 0 ds ++ ["}".toList]) := by
      simp [storeToks]
    rw [e]
    refine Reads.bind1 (Reads.expectNext _ _) ?_
    refine Reads.bind1 (Reads.expectNext _ _) ?_
    exact reads_entries neg h (by omega) hfuel _ _
  have := hr.run htoks
  unfold load
  rw [this]; rfl

end MetricDataset

/-- The metrics of a pair among the entries: at most one. -/
theorem allMetricsOf_entries {ds : MetricDataset} (hs : OMap.Sorted ds) (f : List ℚ) (p : ℤ) :
    Spec.allMetricsOf ds.toVectorOfTuples f p = (OMap.find ds (mkKey f p)).toList := by
  induction ds with
  | nil => rfl
  | cons d ds ih =>
    have hk : mkKey f p = d.1 ↔ (ofLex d.1).1 = f ∧ (ofLex d.1).2 = p :=
      ⟨fun h => by rw [← h]; exact ⟨rfl, rfl⟩, fun ⟨h1, h2⟩ => by rw [← h1, ← h2]; rfl⟩
    have hs' : OMap.Sorted ds := (List.pairwise_cons.1 hs).2
    have hrec : Spec.allMetricsOf (MetricDataset.toVectorOfTuples (d :: ds)) f p =
        (if (ofLex d.1).1 = f ∧ (ofLex d.1).2 = p then [d.2] else []) ++
          Spec.allMetricsOf (MetricDataset.toVectorOfTuples ds) f p := by
      unfold Spec.allMetricsOf MetricDataset.toVectorOfTuples
      rw [List.map_cons, List.filter_cons]
      simp only [decide_eq_true_eq]
      split <;> simp
    have hfind : OMap.find (d :: ds) (mkKey f p) =
        if mkKey f p = d.1 then some d.2 else OMap.find ds (mkKey f p) := by
      obtain ⟨k, v⟩ := d
      by_cases h : mkKey f p = k
      · simp [OMap.find, h]
      · simp [OMap.find, h]
    rw [hrec, ih hs']
    by_cases h : (ofLex d.1).1 = f ∧ (ofLex d.1).2 = p
    · have e := hk.2 h
      have h0 : OMap.find ds (mkKey f p) = none := by
        cases hf : OMap.find ds (mkKey f p) with
        | none => rfl
        | some v =>
          have := (hs'.find_eq_some_iff _ _).1 hf
          have lt := (List.pairwise_cons.1 hs).1 _ this
          rw [e] at lt
          exact absurd lt (lt_irrefl _)
      rw [if_pos h, h0]
      rw [hfind, if_pos e]; rfl
    · rw [if_neg h]
      rw [hfind, if_neg fun e => h (hk.1 e)]; rfl

/-- Inserting the entries of a dataset gives the dataset. -/
theorem metricRun_entries (h : List Spec.MetricMeas) : metricRun (metricEntries h) = metricRun h := by
  refine OMap.ext_of_find (sorted_metricRun _) (sorted_metricRun h) fun k => ?_
  have := find_metricRun (metricEntries h) (ofLex k).1 (ofLex k).2
  rw [show mkKey (ofLex k).1 (ofLex k).2 = k from rfl] at this
  rw [this]
  unfold metricEntries
  rw [allMetricsOf_entries (sorted_metricRun h), show mkKey (ofLex k).1 (ofLex k).2 = k from rfl]
  cases OMap.find (metricRun h) k <;> rfl

end Apollo
