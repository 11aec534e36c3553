import Verif.Proofs.DatasetIO

/-! Helper lemmas: loading back a stored dataset. -/

namespace Apollo
namespace Dataset

/-! ## Entries with two or more features -/

theorem never_features {f : Features} (hf : 2 ≤ f.length) (fuel : ℕ) (acc : Features) :
    Never (loadFeatures fuel acc) (featToks f) := by
  cases fuel with
  | zero => exact Never.fail _ _
  | succ fuel =>
    obtain ⟨x, y, f', rfl⟩ : ∃ x y f', f = x :: y :: f' := by
      match f, hf with
      | x :: y :: f', _ => exact ⟨x, y, f', rfl⟩
    have e : featToks (x :: y :: f') = [featText (x :: y :: f')] := rfl
    rw [e]
    refine Never.token (featText_no_nul _) fun s' => ?_
    have hne : featText (x :: y :: f') ≠ "],".toList := by
      obtain ⟨c, r, h, hc⟩ := fmtG6_headChar x
      rw [featText_cons, h]
      have : c ≠ ']' := hc.ne (by decide)
      simp [this]
    rw [decide_eq_false hne, if_neg (by simp), P.bind_apply]
    have hstof : (∃ e, parseFloat ⟨s', featText (x :: y :: f'), 0⟩ = .error e) ∨
        ∃ v, parseFloat ⟨s', featText (x :: y :: f'), 0⟩ =
          .ok (v, ⟨s', featText (x :: y :: f'), (fmtG6 x).length⟩) := by
      unfold parseFloat
      rw [parseWith_apply]
      have ht : PS.tok ⟨s', featText (x :: y :: f'), 0⟩ = fmtG6 x ++ ',' :: featText (y :: f') := by
        simp [PS.tok, featText_cons]
      rw [ht]
      unfold stof
      rw [readFloat_fmtG6 _ _ _ _ _ _ (by simp [Stops]; try decide)]
      split
      · exact Or.inl ⟨_, rfl⟩
      · split
        · exact Or.inl ⟨_, rfl⟩
        · exact Or.inr ⟨_, rfl⟩
    rcases hstof with ⟨e, he⟩ | ⟨v, he⟩
    · rw [he]; exact ⟨e, rfl⟩
    · rw [he, Res.bind_ok, P.bind_apply, parseExpected_apply]
      have ht : PS.tok ⟨s', featText (x :: y :: f'), (fmtG6 x).length⟩ = ',' :: featText (y :: f') := by
        rw [featText_cons x]
        simp [PS.tok]
      rw [if_neg]
      · exact ⟨_, rfl⟩
      · show PS.tok ⟨s', featText (x :: y :: f'), (fmtG6 x).length⟩ ≠ _
        rw [ht]
        obtain ⟨c, r, h, hc⟩ := fmtG6_headChar y
        rw [featText_cons, h]
        simp

theorem never_entry {d : Key × ℚ} (hf : 2 ≤ (ofLex d.1).1.length) (fuel idx : ℕ) :
    Never (loadEntry fuel) (entryToks idx d).tail := by
  have e : (entryToks idx d).tail = "{".toList :: "features:".toList :: "[".toList ::
    (featToks (ofLex d.1).1 ++ ["],".toList, "policy:".toList, fmtInt (ofLex d.1).2 ++ [','],
      "xtime:".toList, fmtG6 d.2, "},".toList]) := by
    simp [entryToks]
  rw [e]
  unfold loadEntry
  refine Never.bind0 (Consumes.parseWith _) fun _ => ?_
  refine Never.bind0 (Consumes.parseExpected _) fun _ => ?_
  refine Never.bind1 (Consumes.expectNext _ _) fun _ => ?_
  refine Never.bind1 (Consumes.expectNext _ _) fun _ => ?_
  refine Never.bind1 (Consumes.expectNext _ _) fun _ => ?_
  exact Never.first (never_features hf _ _).mono

theorem never_entries {ds : Dataset} (h : ∃ d ∈ ds, 2 ≤ (ofLex d.1).1.length) (fuel idx : ℕ)
    (acc : Dataset) : Never (loadEntries fuel acc) (entriesToks idx ds) := by
  induction ds generalizing fuel acc idx with
  | nil => obtain ⟨d, hd, -⟩ := h; cases hd
  | cons d ds ih =>
    cases fuel with
    | zero => exact Never.fail _ _
    | succ fuel =>
      have e : entriesToks idx (d :: ds) =
        (fmtInt idx ++ [':']) :: ((entryToks idx d).tail ++ entriesToks (idx + 1) ds) := by
        simp [entriesToks, entryToks]
      rw [e]
      refine Never.getNextTokenEquals (fmtInt_no_nul _ _ (by decide)) ?_
      rw [decide_eq_false (idxTok_ne idx)]
      by_cases hd : 2 ≤ (ofLex d.1).1.length
      · exact (Never.first (never_entry hd _ _)).mono
      · refine Never.bind (consumes_entry _ _ _) fun _ => ih ?_ _ _ _
        obtain ⟨d', hd', h2⟩ := h
        rcases List.mem_cons.1 hd' with rfl | h3
        · exact absurd h2 hd
        · exact ⟨d', h3, h2⟩

theorem load_fails {ds : Dataset} (h : ∃ d ∈ ds, 2 ≤ (ofLex d.1).1.length) (acc : Dataset) :
    ∃ e, load acc (store ds) = .error e := by
  have hn : Never (loadP ((store ds).length + 1) acc) (storeToks ds) := by
    have e : storeToks ds = "data:".toList :: "{".toList :: (entriesToks 0 ds ++ ["}".toList]) := by
      simp [storeToks]
    rw [e]
    refine Never.bind1 (Consumes.expectNext _ _) fun _ => ?_
    refine Never.bind1 (Consumes.expectNext _ _) fun _ => ?_
    exact (never_entries h _ _ _).mono
  obtain ⟨e, he⟩ := hn.run (wtoks_store ds) [] 0
  refine ⟨e, ?_⟩
  unfold load
  rw [he]; rfl

/-! ## Entries with at most one feature -/

/-- An entry whose numbers are in the range of the parser. -/
structure EntryOk (d : Key × ℚ) : Prop where
  few : (ofLex d.1).1.length ≤ 1
  feat : ∀ x ∈ (ofLex d.1).1, RangeFloat x
  pol : -2 ^ 31 ≤ (ofLex d.1).2 ∧ (ofLex d.1).2 < 2 ^ 31
  metric : RangeDouble d.2

/-- What an entry reads back as. -/
def reread (d : Key × ℚ) : Features × ℤ × ℚ :=
  ((ofLex d.1).1.map fun x => rnd32 (round6 x), (ofLex d.1).2, rnd64 (round6 d.2))

theorem length_fmtG6_float {q : ℚ} (h : RangeFloat q) : (fmtG6 q).length ≤ 22 := by
  refine length_fmtG6_le ?_
  rcases h with h | ⟨h1, h2⟩
  · exact Or.inl h
  · exact Or.inr ⟨le_trans (by decide +kernel) h1, h2.trans (by decide +kernel)⟩

theorem length_fmtG6_double {q : ℚ} (h : RangeDouble q) : (fmtG6 q).length ≤ 22 := by
  refine length_fmtG6_le ?_
  rcases h with h | ⟨h1, h2⟩
  · exact Or.inl h
  · exact Or.inr ⟨le_trans (by decide +kernel) h1, h2.trans (by decide +kernel)⟩

theorem length_fmtInt_int {n : ℤ} (h : -2 ^ 31 ≤ n ∧ n < 2 ^ 31) : (fmtInt n).length ≤ 11 :=
  length_fmtInt_le (k := 10) (by norm_num) (by norm_num at h ⊢; omega)

theorem reads_features {f : Features} (hl : f.length ≤ 1) (hr : ∀ x ∈ f, RangeFloat x)
    {fuel : ℕ} (hfuel : 2 ≤ fuel) (c : Cur) :
    Reads (loadFeatures fuel []) c (featToks f ++ ["],".toList])
      (f.map fun x => rnd32 (round6 x)) ("],".toList, 0) := by
  have hend : ∀ fuel acc c, Reads (loadFeatures (fuel + 1) acc) c ["],".toList] acc
      ("],".toList, 0) := by
    intro fuel acc c
    refine Reads.bind1 (Reads.getNextTokenEquals c _ _) ?_
    simp only [decide_true, if_true]
    exact Reads.pure _ _
  obtain ⟨n, rfl⟩ : ∃ n, fuel = n + 2 := ⟨fuel - 2, by omega⟩
  match f, hl with
  | [], _ => exact hend _ _ _
  | [x], _ =>
    have hx := hr x (by simp)
    have e : featToks [x] = [fmtG6 x ++ [',']] := by simp [featToks, featText]
    rw [e]
    refine Reads.bind1 (Reads.getNextTokenEquals c _ _) ?_
    have hne : fmtG6 x ++ [','] ≠ "],".toList := by
      obtain ⟨c, r, h, hc⟩ := fmtG6_headChar x
      rw [h]
      have : c ≠ ']' := hc.ne (by decide)
      simp [this]
    rw [decide_eq_false hne, if_neg (by simp)]
    refine Reads.bind0 (a := rnd32 (round6 x)) (c1 := (fmtG6 x ++ [','], (fmtG6 x).length))
      (Reads.parseWith (by simpa using stof_fmtG6 hx [','] (by simp [Stops]; decide))) ?_
    refine Reads.bind0 (Reads.parseExpected (by simp)) ?_
    exact hend _ _ _

theorem reads_entry {d : Key × ℚ} (h : EntryOk d) {idx : ℕ} (hidx : idx < 2 ^ 31) {fuel : ℕ}
    (hfuel : 2 ≤ fuel) :
    Reads (loadEntry fuel) (fmtInt idx ++ [':'], 0) (entryToks idx d).tail (reread d)
      ("},".toList, 0) := by
  have e : (entryToks idx d).tail = "{".toList :: "features:".toList :: "[".toList ::
    ((featToks (ofLex d.1).1 ++ ["],".toList]) ++ ["policy:".toList, fmtInt (ofLex d.1).2 ++ [','],
      "xtime:".toList, fmtG6 d.2, "},".toList]) := by
    simp [entryToks]
  rw [e]
  unfold loadEntry
  refine Reads.bind0 (a := (idx : ℤ)) (c1 := (fmtInt idx ++ [':'], (fmtInt idx).length))
    (Reads.parseWith (by
      simpa using stoi_fmtInt (n := idx) ⟨by omega, by exact_mod_cast hidx⟩ [':'] (by decide))) ?_
  refine Reads.bind0 (Reads.parseExpected (by simp)) ?_
  refine Reads.bind1 (Reads.expectNext _ _) ?_
  refine Reads.bind1 (Reads.expectNext _ _) ?_
  refine Reads.bind1 (Reads.expectNext _ _) ?_
  refine Reads.bind (reads_features h.few h.feat hfuel _) ?_
  refine Reads.bind1 (Reads.expectNext _ _) ?_
  refine Reads.bind1 (Reads.getNextToken _ _) ?_
  refine Reads.bind0 (a := (ofLex d.1).2)
    (c1 := (fmtInt (ofLex d.1).2 ++ [','], (fmtInt (ofLex d.1).2).length))
    (Reads.parseWith (by simpa using stoi_fmtInt h.pol [','] (by decide))) ?_
  refine Reads.bind0 (Reads.parseExpected (by simp)) ?_
  refine Reads.bind1 (Reads.expectNext _ _) ?_
  refine Reads.bind1 (Reads.getNextToken _ _) ?_
  refine Reads.bind0 (a := rnd64 (round6 d.2)) (c1 := (fmtG6 d.2, (fmtG6 d.2).length))
    (Reads.parseWith (by simpa using stod_fmtG6 h.metric [] trivial)) ?_
  exact Reads.bind1 (Reads.expectNext _ _) (Reads.pure _ _)

theorem reads_entries {ds : Dataset} (h : ∀ d ∈ ds, EntryOk d) {idx : ℕ}
    (hidx : idx + ds.length ≤ 2 ^ 31) {fuel : ℕ} (hfuel : ds.length + 3 ≤ fuel) (acc : Dataset)
    (c : Cur) :
    Reads (loadEntries fuel acc) c (entriesToks idx ds ++ ["}".toList])
      (insertAll acc (ds.map reread)) ("}".toList, 0) := by
  induction ds generalizing fuel acc idx c with
  | nil =>
    obtain ⟨n, rfl⟩ : ∃ n, fuel = n + 1 := ⟨fuel - 1, by simp at hfuel; omega⟩
    refine Reads.bind1 (Reads.getNextTokenEquals c _ _) ?_
    simp only [decide_true, if_true]
    exact Reads.pure _ _
  | cons d ds ih =>
    simp only [List.length_cons] at hfuel hidx
    obtain ⟨n, rfl⟩ : ∃ n, fuel = n + 1 := ⟨fuel - 1, by omega⟩
    have e : entriesToks idx (d :: ds) ++ ["}".toList] =
      (fmtInt idx ++ [':']) :: ((entryToks idx d).tail ++
        (entriesToks (idx + 1) ds ++ ["}".toList])) := by
      simp [entriesToks, entryToks]
    rw [e]
    refine Reads.bind1 (Reads.getNextTokenEquals c _ _) ?_
    rw [decide_eq_false (idxTok_ne idx), if_neg (by simp)]
    refine Reads.bind (reads_entry (h d (by simp)) (by omega) (by omega)) ?_
    exact ih (fun d' hd' => h d' (List.mem_cons_of_mem _ hd')) (by omega) (by omega) _ _

theorem length_le_entriesText (idx : ℕ) (ds : Dataset) : ds.length ≤ (entriesText idx ds).length := by
  induction ds generalizing idx with
  | nil => simp
  | cons d ds ih =>
    have := ih (idx + 1)
    have h2 : 1 ≤ (entryText idx d).length := by
      unfold entryText
      simp only [List.length_append]
      have : ("  ".toList).length = 2 := by decide
      omega
    simp only [entriesText, List.length_cons, List.length_append]
    omega

theorem good_entryToks {d : Key × ℚ} (h : EntryOk d) {idx : ℕ} (hidx : idx < 2 ^ 31) :
    ∀ t ∈ entryToks idx d, (∀ c ∈ t, c ≠ nul) ∧ t.length < BUFSIZE := by
  intro t ht
  unfold entryToks at ht
  rw [List.mem_append, List.mem_append] at ht
  have hlit : ∀ t : List Char, (t.all (· ≠ nul) && decide (t.length < BUFSIZE)) = true →
      (∀ c ∈ t, c ≠ nul) ∧ t.length < BUFSIZE := by
    intro t h
    simpa using h
  have hi : (fmtInt idx).length ≤ 11 := length_fmtInt_int ⟨by omega, by exact_mod_cast hidx⟩
  have hp := length_fmtInt_int h.pol
  have hm := length_fmtG6_double h.metric
  rcases ht with (ht | ht) | ht
  · simp only [List.mem_cons, List.not_mem_nil, or_false] at ht
    rcases ht with rfl | rfl | rfl | rfl
    · exact ⟨fmtInt_no_nul _ _ (by decide), by simp [BUFSIZE]; omega⟩
    all_goals exact hlit _ (by decide)
  · have h1 := h.few
    have h2 := h.feat
    generalize (ofLex d.1).1 = f at ht h1 h2
    unfold featToks at ht
    match f, h1 with
    | [], _ => simp at ht
    | [x], _ =>
      simp only [List.cons_ne_nil, if_false, List.mem_singleton] at ht
      subst ht
      have := length_fmtG6_float (h2 x (by simp))
      refine ⟨featText_no_nul _, ?_⟩
      have e : featText [x] = fmtG6 x ++ [','] := by simp [featText]
      rw [e]
      simp [BUFSIZE]; omega
  · simp only [List.mem_cons, List.not_mem_nil, or_false] at ht
    rcases ht with rfl | rfl | rfl | rfl | rfl | rfl
    · exact hlit _ (by decide)
    · exact hlit _ (by decide)
    · exact ⟨fmtInt_no_nul _ _ (by decide), by simp [BUFSIZE]; omega⟩
    · exact hlit _ (by decide)
    · exact ⟨fun c hc => (numChar_fmtG6 _ c hc).ne (by decide), by simp [BUFSIZE]; omega⟩
    · exact hlit _ (by decide)

theorem good_entriesToks {ds : Dataset} (h : ∀ d ∈ ds, EntryOk d) {idx : ℕ}
    (hidx : idx + ds.length ≤ 2 ^ 31) :
    ∀ t ∈ entriesToks idx ds, (∀ c ∈ t, c ≠ nul) ∧ t.length < BUFSIZE := by
  induction ds generalizing idx with
  | nil => intro t ht; cases ht
  | cons d ds ih =>
    intro t ht
    simp only [List.length_cons] at hidx
    rcases List.mem_append.1 ht with ht | ht
    · exact good_entryToks (h d (by simp)) (by omega) t ht
    · exact ih (fun d' hd' => h d' (List.mem_cons_of_mem _ hd')) (by omega) t ht

theorem load_store {ds : Dataset} (h : ∀ d ∈ ds, EntryOk d) (hlen : ds.length ≤ 2 ^ 31)
    (acc : Dataset) : load acc (store ds) = .ok (insertAll acc (ds.map reread)) := by
  have hlit : ∀ t : List Char, (t.all (· ≠ nul) && decide (t.length < BUFSIZE)) = true →
      (∀ c ∈ t, c ≠ nul) ∧ t.length < BUFSIZE := by
    intro t h
    simpa using h
  have htoks : Toks ['\n'] (store ds) (storeToks ds) := by
    refine (wtoks_store ds).toToks fun t ht => ?_
    unfold storeToks at ht
    rw [List.mem_append, List.mem_append] at ht
    rcases ht with (ht | ht) | ht
    · simp only [List.mem_cons, List.not_mem_nil, or_false] at ht
      rcases ht with rfl | rfl <;> exact hlit _ (by decide)
    · exact good_entriesToks h (by omega) t ht
    · simp only [List.mem_singleton] at ht
      subst ht; exact hlit _ (by decide)
  have hfuel : ds.length + 3 ≤ (store ds).length + 1 := by
    have := length_le_entriesText 0 ds
    unfold store
    simp only [List.length_append]
    have : ("data: {\n".toList).length = 8 := by decide
    omega
  have hr : Reads (loadP ((store ds).length + 1) acc) ([], 0) (storeToks ds)
      (insertAll acc (ds.map reread)) ("}".toList, 0) := by
    have e : storeToks ds = "data:".toList :: "{".toList :: (entriesToks 0 ds ++ ["}".toList]) := by
      simp [storeToks]
    rw [e]
    refine Reads.bind1 (Reads.expectNext _ _) ?_
    refine Reads.bind1 (Reads.expectNext _ _) ?_
    exact reads_entries h (by omega) hfuel _ _
  have := hr.run htoks
  unfold load
  rw [this]; rfl

theorem insertAll_toVector {ds : Dataset} (hs : OMap.Sorted ds) :
    insertAll [] (toVectorOfTuples ds) = ds := by
  rw [← merge_eq_insertAll]
  refine OMap.ext_of_find (sorted_merge OMap.sorted_nil _) hs fun k => ?_
  rw [find_merge OMap.sorted_nil hs]
  rfl

/-! ## Loading in general: the file determines the inserted measurements -/

/-- Measurements of a file, and where reading stops. -/
theorem loadEntries_eq (fuel : ℕ) (s : PS) :
    ∃ r : Res (List (Features × ℤ × ℚ) × PS), ∀ ds,
      loadEntries fuel ds s = r.map fun x => (insertAll ds x.1, x.2) := by
  induction fuel generalizing s with
  | zero => exact ⟨.error .diverge, fun ds => rfl⟩
  | succ fuel ih =>
    cases h1 : getNextTokenEquals "}".toList s with
    | error e =>
      refine ⟨.error e, fun ds => ?_⟩
      unfold loadEntries
      rw [P.bind_apply, h1]; rfl
    | ok x =>
      obtain ⟨b, s1⟩ := x
      cases b with
      | true =>
        refine ⟨.ok ([], s1), fun ds => ?_⟩
        unfold loadEntries
        rw [P.bind_apply, h1]; rfl
      | false =>
        cases h2 : loadEntry fuel s1 with
        | error e =>
          refine ⟨.error e, fun ds => ?_⟩
          unfold loadEntries
          rw [P.bind_apply, h1, Res.bind_ok]
          simp only [Bool.false_eq_true, if_false]
          rw [P.bind_apply, h2]; rfl
        | ok y =>
          obtain ⟨r, hr⟩ := ih y.2
          refine ⟨r.map fun x => (y.1 :: x.1, x.2), fun ds => ?_⟩
          unfold loadEntries
          rw [P.bind_apply, h1, Res.bind_ok]
          simp only [Bool.false_eq_true, if_false]
          rw [P.bind_apply, h2, Res.bind_ok]
          refine (hr _).trans ?_
          cases r <;> rfl

theorem load_eq (s : List Char) :
    ∃ r : Res (List (Features × ℤ × ℚ)), ∀ ds, load ds s = r.map fun es => insertAll ds es := by
  have key : ∃ r : Res (List (Features × ℤ × ℚ) × PS), ∀ ds,
      loadP (s.length + 1) ds ⟨s, [], 0⟩ = r.map fun x => (insertAll ds x.1, x.2) := by
    unfold loadP
    cases h1 : expectNext "data:".toList ⟨s, [], 0⟩ with
    | error e => exact ⟨.error e, fun ds => by rw [P.bind_apply, h1]; rfl⟩
    | ok x =>
      cases h2 : expectNext "{".toList x.2 with
      | error e =>
        exact ⟨.error e, fun ds => by rw [P.bind_apply, h1, Res.bind_ok, P.bind_apply, h2]; rfl⟩
      | ok y =>
        obtain ⟨r, hr⟩ := loadEntries_eq (s.length + 1) y.2
        exact ⟨r, fun ds => by
          rw [P.bind_apply, h1, Res.bind_ok, P.bind_apply, h2, Res.bind_ok]; exact hr ds⟩
  obtain ⟨r, hr⟩ := key
  refine ⟨r.map fun x => x.1, fun ds => ?_⟩
  unfold load
  rw [hr ds]
  cases r <;> rfl

theorem insertAll_twice {es : List (Features × ℤ × ℚ)}
    (hnd : (es.map fun x => mkKey x.1 x.2.1).Nodup)
    (hn : ∀ x ∈ es, ema x.2.2 x.2.2 = x.2.2) :
    insertAll (insertAll [] es) es = insertAll [] es := by
  have hs := sorted_insertAll OMap.sorted_nil es
  refine OMap.ext_of_find (sorted_insertAll hs _) hs fun k => ?_
  rw [find_insertAll hs, find_insertAll OMap.sorted_nil]
  have hlen : ∀ ms, metricsFor es k = ms → ms = [] ∨ ∃ m, ms = [m] ∧ ema m m = m := by
    rintro ms rfl
    unfold metricsFor
    induction es with
    | nil => exact Or.inl rfl
    | cons x es ih =>
      rw [List.map_cons, List.nodup_cons] at hnd
      rw [List.filter_cons]
      split
      · next hk =>
        right
        refine ⟨x.2.2, ?_, hn x (by simp)⟩
        have : es.filter (fun x => mkKey x.1 x.2.1 = k) = [] := by
          rw [List.filter_eq_nil_iff]
          intro y hy hk'
          simp only [decide_eq_true_eq] at hk hk'
          exact hnd.1 (List.mem_map.2 ⟨y, hy, by rw [hk, hk']⟩)
        rw [this]; rfl
      · exact ih hnd.2 (fun y hy => hn y (List.mem_cons_of_mem _ hy))
          (sorted_insertAll OMap.sorted_nil es)
  rcases hlen _ rfl with h | ⟨m, h, hm⟩
  · rw [h]; rfl
  · rw [h]
    show some (combine m (some (combine m none))) = some (combine m none)
    simp [combine, hm]

end Dataset
end Apollo
