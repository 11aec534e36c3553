import Verif.Proofs.TreeRT

/-! Helper lemmas: loading a dataset from blank-separated tokens, with any number of features. -/

namespace Apollo

theorem wtoks_flat {ts : List (List Char)} (h : ∀ t ∈ ts, WTok t) :
    WToks [' '] (' ' :: (ts.map fun t => t ++ [' ']).flatten) ts := by
  induction ts with
  | nil => exact WToks.nil
  | cons t ts ih =>
    have e : ' ' :: ((t :: ts).map fun t => t ++ [' ']).flatten =
        [' '] ++ (t ++ (' ' :: (ts.map fun t => t ++ [' ']).flatten)) := by simp
    rw [e]
    exact WToks.cons' (blank_of_all (by decide)) (h t (by simp)) (startsBlank_cons (by decide))
      (ih fun u hu => h u (List.mem_cons_of_mem _ hu))

theorem wtoks_flat' {t : List Char} {ts : List (List Char)} (ht : WTok t) (h : ∀ t ∈ ts, WTok t) :
    WToks [' '] ((t :: ts).map fun t => t ++ [' ']).flatten (t :: ts) := by
  have e : ((t :: ts).map fun t => t ++ [' ']).flatten =
      [] ++ (t ++ (' ' :: (ts.map fun t => t ++ [' ']).flatten)) := by simp
  rw [e]
  exact WToks.cons' (by intro c hc; cases hc) ht (startsBlank_cons (by decide)) (wtoks_flat h)

namespace Dataset

/-- Tokens of an entry, one per feature. -/
def lineToks (idx : ℕ) (x : Features × ℤ × ℚ) : List (List Char) :=
  [fmtInt idx ++ [':'], "{".toList, "features:".toList, "[".toList] ++
    ((x.1.map fun v => fmtG6 v ++ [',']) ++
      ["],".toList, "policy:".toList, fmtInt x.2.1 ++ [','], "xtime:".toList, fmtG6 x.2.2, "},".toList])

/-- Tokens of the entries. -/
def linesToks : ℕ → List (Features × ℤ × ℚ) → List (List Char)
  | _, [] => []
  | idx, x :: xs => lineToks idx x ++ linesToks (idx + 1) xs

/-- Numbers in the range of the parser. -/
structure MeasOk (x : Features × ℤ × ℚ) : Prop where
  feat : ∀ v ∈ x.1, RangeFloat v
  pol : -2 ^ 31 ≤ x.2.1 ∧ x.2.1 < 2 ^ 31
  metric : RangeDouble x.2.2

/-- What an entry reads back as. -/
def rereadMeas (x : Features × ℤ × ℚ) : Features × ℤ × ℚ :=
  (x.1.map fun v => rnd32 (round6 v), x.2.1, rnd64 (round6 x.2.2))

theorem reads_features_any {f : Features} (h : ∀ v ∈ f, RangeFloat v) {fuel : ℕ}
    (hf : f.length < fuel) (acc : Features) (c : Cur) :
    Reads (loadFeatures fuel acc) c ((f.map fun x => fmtG6 x ++ [',']) ++ ["],".toList])
      (acc ++ f.map fun v => rnd32 (round6 v)) ("],".toList, 0) := by
  induction f generalizing fuel acc c with
  | nil =>
    obtain ⟨n, rfl⟩ : ∃ n, fuel = n + 1 := ⟨fuel - 1, by simp at hf; omega⟩
    refine Reads.bind1 (Reads.getNextTokenEquals c _ _) ?_
    simp only [decide_true, if_true, List.map_nil, List.append_nil]
    exact Reads.pure _ _
  | cons x f ih =>
    simp only [List.length_cons] at hf
    obtain ⟨n, rfl⟩ : ∃ n, fuel = n + 1 := ⟨fuel - 1, by omega⟩
    simp only [List.map_cons, List.cons_append]
    refine Reads.bind1 (Reads.getNextTokenEquals c _ _) ?_
    rw [decide_eq_false (g6Tok_ne _ _ _ ']' [','] (by decide) (by decide)), if_neg (by simp)]
    refine Reads.bind0 (reads_float (h x (by simp)) _ stops_comma) ?_
    refine Reads.bind0 (Reads.parseExpected (by simp)) ?_
    have := ih (fun y hy => h y (List.mem_cons_of_mem _ hy)) (fuel := n) (by omega)
      (acc ++ [rnd32 (round6 x)]) (fmtG6 x ++ [','], (fmtG6 x).length)
    simpa using this

theorem reads_line {x : Features × ℤ × ℚ} (h : MeasOk x) {idx : ℕ} (hidx : idx < 2 ^ 31) {fuel : ℕ}
    (hfuel : x.1.length < fuel) :
    Reads (loadEntry fuel) (fmtInt idx ++ [':'], 0) (lineToks idx x).tail (rereadMeas x)
      ("},".toList, 0) := by
  have e : (lineToks idx x).tail = "{".toList :: "features:".toList :: "[".toList ::
    (((x.1.map fun v => fmtG6 v ++ [',']) ++ ["],".toList]) ++ ["policy:".toList,
      fmtInt x.2.1 ++ [','], "xtime:".toList, fmtG6 x.2.2, "},".toList]) := by
    simp [lineToks]
  rw [e]
  unfold loadEntry
  refine Reads.bind0 (reads_int (n := idx) ⟨by omega, by exact_mod_cast hidx⟩ _ (by decide)) ?_
  refine Reads.bind0 (Reads.parseExpected (by simp)) ?_
  refine Reads.bind1 (Reads.expectNext _ _) ?_
  refine Reads.bind1 (Reads.expectNext _ _) ?_
  refine Reads.bind1 (Reads.expectNext _ _) ?_
  refine Reads.bind (reads_features_any h.feat hfuel [] _) ?_
  refine Reads.bind1 (Reads.expectNext _ _) ?_
  refine Reads.bind1 (Reads.getNextToken _ _) ?_
  refine Reads.bind0 (reads_int h.pol _ (by decide)) ?_
  refine Reads.bind0 (Reads.parseExpected (by simp)) ?_
  refine Reads.bind1 (Reads.expectNext _ _) ?_
  refine Reads.bind1 (Reads.getNextToken _ _) ?_
  refine Reads.bind0 (a := rnd64 (round6 x.2.2)) (c1 := (fmtG6 x.2.2, (fmtG6 x.2.2).length))
    (Reads.parseWith (by simpa using stod_fmtG6 h.metric [] trivial)) ?_
  refine Reads.bind1 (Reads.expectNext _ _) ?_
  simp only [List.nil_append]
  exact Reads.pure _ _

theorem reads_lines {xs : List (Features × ℤ × ℚ)} (h : ∀ x ∈ xs, MeasOk x) {idx : ℕ}
    (hidx : idx + xs.length ≤ 2 ^ 31) {fuel : ℕ} (hfuel : (linesToks idx xs).length < fuel)
    (acc : Dataset) (c : Cur) :
    Reads (loadEntries fuel acc) c (linesToks idx xs ++ ["}".toList])
      (insertAll acc (xs.map rereadMeas)) ("}".toList, 0) := by
  induction xs generalizing fuel acc idx c with
  | nil =>
    obtain ⟨n, rfl⟩ : ∃ n, fuel = n + 1 := ⟨fuel - 1, by simp [linesToks] at hfuel; omega⟩
    refine Reads.bind1 (Reads.getNextTokenEquals c _ _) ?_
    simp only [decide_true, if_true]
    exact Reads.pure _ _
  | cons x xs ih =>
    have hlen : (lineToks idx x).length = x.1.length + 10 := by
      simp [lineToks]
    simp only [List.length_cons] at hidx
    simp only [linesToks, List.length_append, hlen] at hfuel
    obtain ⟨n, rfl⟩ : ∃ n, fuel = n + 1 := ⟨fuel - 1, by omega⟩
    have e : linesToks idx (x :: xs) ++ ["}".toList] =
      (fmtInt idx ++ [':']) :: ((lineToks idx x).tail ++
        (linesToks (idx + 1) xs ++ ["}".toList])) := by
      simp [linesToks, lineToks]
    rw [e]
    refine Reads.bind1 (Reads.getNextTokenEquals c _ _) ?_
    rw [decide_eq_false (idxTok_ne idx), if_neg (by simp)]
    refine Reads.bind (reads_line (h x (by simp)) (by omega) (by omega)) ?_
    exact ih (fun y hy => h y (List.mem_cons_of_mem _ hy)) (by omega) (by omega) _ _

theorem fits_double {q : ℚ} (h : RangeDouble q) : Fits (fmtG6 q) := by
  have := Dataset.length_fmtG6_double h
  exact ⟨fun c hc => (numChar_fmtG6 _ c hc).ne (by decide), by simp [BUFSIZE]; omega⟩

theorem fits_lines {xs : List (Features × ℤ × ℚ)} (h : ∀ x ∈ xs, MeasOk x) {idx : ℕ}
    (hidx : idx + xs.length ≤ 2 ^ 31) : ∀ u ∈ linesToks idx xs, WTok u ∧ Fits u := by
  induction xs generalizing idx with
  | nil => intro u hu; cases hu
  | cons x xs ih =>
    simp only [List.length_cons] at hidx
    have hx := h x (by simp)
    have lit : ∀ t : List Char, wTokB t = true →
        (t.all (· ≠ nul) && decide (t.length < BUFSIZE)) = true → WTok t ∧ Fits t :=
      fun t h1 h2 => ⟨wTok_of_b h1, fits_lit t h2⟩
    unfold linesToks lineToks
    refine forall_append (forall_append ?_ (forall_append ?_ ?_))
      (ih (fun y hy => h y (List.mem_cons_of_mem _ hy)) (by omega))
    · refine forall_cons ⟨wTok_int _ _ (by decide),
        fits_int (natAbs_lt_nat (by omega)) _ (by decide)⟩ ?_
      exact forall_cons (lit _ (by decide) (by decide)) (forall_cons (lit _ (by decide) (by decide))
        (forall_cons (lit _ (by decide) (by decide)) forall_nil))
    · intro u hu
      obtain ⟨v, hv, rfl⟩ := List.mem_map.1 hu
      exact ⟨wTok_g6 _ _ (by decide), fits_g6 (hx.feat v hv) _ (by decide)⟩
    · refine forall_cons (lit _ (by decide) (by decide)) (forall_cons (lit _ (by decide) (by decide))
        (forall_cons ⟨wTok_int _ _ (by decide), fits_int (natAbs_lt_int hx.pol) _ (by decide)⟩
        (forall_cons (lit _ (by decide) (by decide)) (forall_cons ⟨?_, fits_double hx.metric⟩
        (forall_cons (lit _ (by decide) (by decide)) forall_nil)))))
      have := wTok_g6 x.2.2 [] (by decide)
      rwa [List.append_nil] at this

/-- Loading blank-separated tokens. -/
theorem load_lines {xs : List (Features × ℤ × ℚ)} (h : ∀ x ∈ xs, MeasOk x)
    (hlen : xs.length ≤ 2 ^ 31) (acc : Dataset) :
    load acc ((["data:".toList, "{".toList] ++ linesToks 0 xs ++ ["}".toList]).map
      fun t => t ++ [' ']).flatten = .ok (insertAll acc (xs.map rereadMeas)) := by
  have lit : ∀ t : List Char, wTokB t = true →
      (t.all (· ≠ nul) && decide (t.length < BUFSIZE)) = true → WTok t ∧ Fits t :=
    fun t h1 h2 => ⟨wTok_of_b h1, fits_lit t h2⟩
  have hl := fits_lines h (idx := 0) (by omega)
  have hall : ∀ u ∈ ["data:".toList, "{".toList] ++ linesToks 0 xs ++ ["}".toList],
      WTok u ∧ Fits u := by
    refine forall_append (forall_append ?_ hl) ?_
    · exact forall_cons (lit _ (by decide) (by decide)) (forall_cons (lit _ (by decide) (by decide))
        forall_nil)
    · exact forall_cons (lit _ (by decide) (by decide)) forall_nil
  have e : ["data:".toList, "{".toList] ++ linesToks 0 xs ++ ["}".toList] =
      "data:".toList :: ("{".toList :: (linesToks 0 xs ++ ["}".toList])) := by simp
  rw [e] at hall ⊢
  have hw := wtoks_flat' (hall "data:".toList List.mem_cons_self).1
    (fun u hu => (hall u (List.mem_cons_of_mem _ hu)).1)
  have ht := hw.toToks fun u hu => (hall u hu).2
  have hfuel := hw.length_le
  have hr : Reads (loadP (((("data:".toList :: ("{".toList ::
      (linesToks 0 xs ++ ["}".toList]))).map fun t => t ++ [' ']).flatten).length + 1) acc) ([], 0)
      ("data:".toList :: ("{".toList :: (linesToks 0 xs ++ ["}".toList])))
      (insertAll acc (xs.map rereadMeas)) ("}".toList, 0) := by
    refine Reads.bind1 (Reads.expectNext _ _) ?_
    refine Reads.bind1 (Reads.expectNext _ _) ?_
    refine reads_lines h (by omega) ?_ _ _
    simp only [List.length_cons, List.length_append] at hfuel
    omega
  have := hr.run ht
  unfold load
  rw [this]; rfl

end Dataset
end Apollo
