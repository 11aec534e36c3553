import Verif.Proofs.DatasetReader
import Verif.Props.Dataset
import Verif.Props.Numbers

/-!
# Properties C05 (loading), C06, C07, C64: dataset files

`Dataset.store ds` is the text of the file, `Dataset.load ds s` reads the text `s` into `ds`.
-/

namespace Apollo.Props

open Apollo Apollo.Spec

/-- The measurements that the entries of a dataset read back as: every number is rounded to six
significant decimal digits and then to float or double. -/
def SixDigitCopy (e e' : List ℚ × ℤ × ℚ) : Prop :=
  List.Forall₂ (fun x y => ∃ d, NearestSixDigit x d ∧ y = rnd32 d) e.1 e'.1 ∧ e'.2.1 = e.2.1 ∧
    ∃ d, NearestSixDigit e.2.2 d ∧ e'.2.2 = rnd64 d

/-- An entry that can be read back: no more than one feature, numbers in the normal range, policy an
`int`. -/
structure Storable (e : List ℚ × ℤ × ℚ) : Prop where
  few : e.1.length ≤ 1
  feat : ∀ x ∈ e.1, x = 0 ∨ (10 ^ (-37 : ℤ) ≤ |x| ∧ |x| ≤ 10 ^ (38 : ℤ))
  pol : -2 ^ 31 ≤ e.2.1 ∧ e.2.1 < 2 ^ 31
  metric : e.2.2 = 0 ∨ (10 ^ (-307 : ℤ) ≤ |e.2.2| ∧ |e.2.2| ≤ 10 ^ (308 : ℤ))

theorem entryOk_of_storable {h : List Meas} (hs : ∀ e ∈ entries h, Storable e) :
    ∀ d ∈ run h, Dataset.EntryOk d := by
  intro d hd
  have hm : ((ofLex d.1).1, (ofLex d.1).2, d.2) ∈ entries h := List.mem_map.2 ⟨d, hd, rfl⟩
  obtain ⟨h1, h2, h3, h4⟩ := hs _ hm
  exact ⟨h1, h2, h3, h4⟩

/-- The line of a dataset file for an entry: its number, features, policy and metric. -/
def fileLine (i : ℕ) (e : List ℚ × ℤ × ℚ) : List Char :=
  "  ".toList ++ fmtInt i ++ ": { features: [ ".toList ++ (e.1.map fun x => fmtG6 x ++ [',']).flatten ++
    " ], policy: ".toList ++ fmtInt e.2.1 ++ ", xtime: ".toList ++ fmtG6 e.2.2 ++ " },\n".toList

/-- C03 (file): the file has one line for every entry, numbered from 0, in the order of
`toVectorOfTuples`, which is the canonical one (`C03_strictly_increasing`,
`C03_depends_only_on_pairs`). -/
theorem C03_file (h : List Meas) :
    Dataset.store (run h) = "data: {\n".toList ++
      ((entries h).zipIdx.map fun x => fileLine x.2 x.1).flatten ++ "}\n".toList := by
  have key : ∀ (ds : Dataset) (i : ℕ), Dataset.entriesText i ds =
      ((ds.toVectorOfTuples.zipIdx i).map fun x => fileLine x.2 x.1).flatten := by
    intro ds
    induction ds with
    | nil => intro i; rfl
    | cons d ds ih =>
      intro i
      rw [Dataset.entriesText, ih (i + 1)]
      have : Dataset.entryText i d = fileLine i ((ofLex d.1).1, (ofLex d.1).2, d.2) := by
        unfold Dataset.entryText fileLine Dataset.featText
        rw [show " ], policy: ".toList = " ], ".toList ++ "policy: ".toList from rfl,
          show ", xtime: ".toList = ", ".toList ++ "xtime: ".toList from rfl]
        simp only [List.append_assoc]
      rw [this]
      rfl
  unfold Dataset.store entries
  rw [key]

/-- The file of two entries, inserted in the opposite order. -/
example : Dataset.store (run [⟨[2], 1, 1/4⟩, ⟨[1], 3, 100⟩]) = "data: {\n".toList ++
    (fileLine 0 ([1], 3, 100) ++ fileLine 1 ([2], 1, 1/4)) ++ "}\n".toList := by decide +kernel

/-- C06 is false: the features of an entry are written without blanks between them, so no dataset that
has an entry with two or more features can be loaded back, into whatever dataset. -/
theorem C06_fails_with_two_features (h : List Meas) (hf : ∃ e ∈ entries h, 2 ≤ e.1.length)
    (ds : Dataset) : ∃ e, Dataset.load ds (Dataset.store (run h)) = .error e := by
  refine Dataset.load_fails ?_ ds
  obtain ⟨e, he, hl⟩ := hf
  obtain ⟨d, hd, rfl⟩ := List.mem_map.1 he
  exact ⟨d, hd, hl⟩

example : ∃ e ∈ entries [⟨[1, 2], 0, 5⟩], 2 ≤ e.1.length := by decide +kernel

/-- The witness: it aborts. -/
example : Dataset.load [] (Dataset.store (run [⟨[1, 2], 0, 5⟩])) = .error .abort := by decide +kernel

/-- C06, part: a dataset with at most one feature per entry (and numbers in the normal range) loads
back without error, as the same measurements at six significant digits, in order.

Full statement: every dataset loads back as the same dataset.  Missing: two or more features
(`C06_fails_with_two_features`), exact values (`C06_loses_digits`), and very small or very large
numbers (`C06_tiny_metric_throws`). -/
theorem C06_load_store_partial (h : List Meas) (hs : ∀ e ∈ entries h, Storable e)
    (hlen : (run h).size ≤ 2 ^ 31) :
    ∃ h' : List Meas,
      List.Forall₂ SixDigitCopy (entries h) (h'.map fun x => (x.features, x.policy, x.metric)) ∧
      Dataset.load [] (Dataset.store (run h)) = .ok (run h') := by
  refine ⟨(run h).map fun d => ⟨(Dataset.reread d).1, (Dataset.reread d).2.1, (Dataset.reread d).2.2⟩,
    ?_, ?_⟩
  · unfold entries Dataset.toVectorOfTuples
    rw [List.map_map]
    rw [List.forall₂_map_left_iff, List.forall₂_map_right_iff, List.forall₂_same]
    intro d hd
    refine ⟨?_, rfl, round6 d.2, ⟨sixDigits_round6 _, fun d' hd' => round6_nearest _ d' hd'⟩, rfl⟩
    show List.Forall₂ _ (ofLex d.1).1 ((ofLex d.1).1.map fun x => rnd32 (round6 x))
    rw [List.forall₂_map_right_iff, List.forall₂_same]
    exact fun x _ => ⟨round6 x, ⟨sixDigits_round6 _, fun d' hd' => round6_nearest _ d' hd'⟩, rfl⟩
  · rw [Dataset.load_store (entryOk_of_storable hs) hlen, run_eq (List.map _ _), List.map_map]
    rfl

example : ∀ e ∈ entries [⟨[3], 0, 5⟩, ⟨[], 1, 1/4⟩], Storable e := by
  have e : entries [⟨[3], 0, 5⟩, ⟨[], 1, 1/4⟩] = [([], 1, 1/4), ([3], 0, 5)] := by decide +kernel
  rw [e]
  intro e he
  simp only [List.mem_cons, List.not_mem_nil, or_false] at he
  rcases he with rfl | rfl
  · exact ⟨by decide, by simp, by norm_num, Or.inr ⟨by decide +kernel, by decide +kernel⟩⟩
  · refine ⟨by decide, ?_, by norm_num, Or.inr ⟨by decide +kernel, by decide +kernel⟩⟩
    intro x hx
    simp only [List.mem_singleton] at hx
    subst hx
    exact Or.inr ⟨by decide +kernel, by decide +kernel⟩

/-- C06, part: with at most one feature per entry and numbers that come from decimal literals of at
most six significant digits, `store` then `load` gives the same dataset.

Full statement and what is missing: see `C06_load_store_partial`. -/
theorem C06_exact_partial (h : List Meas) (hlen : (run h).size ≤ 2 ^ 31)
    (hfew : ∀ e ∈ entries h, e.1.length ≤ 1)
    (hfeat : ∀ e ∈ entries h, ∀ x ∈ e.1, ∃ d, SixDigitDecimal d ∧ x = rnd32 d ∧
      (d = 0 ∨ (2 * 10 ^ (-37 : ℤ) ≤ |d| ∧ |d| ≤ 9 * 10 ^ (37 : ℤ))))
    (hpol : ∀ e ∈ entries h, -2 ^ 31 ≤ e.2.1 ∧ e.2.1 < 2 ^ 31)
    (hmet : ∀ e ∈ entries h, ∃ d, SixDigitDecimal d ∧ e.2.2 = rnd64 d ∧
      (d = 0 ∨ (2 * 10 ^ (-307 : ℤ) ≤ |d| ∧ |d| ≤ 9 * 10 ^ (307 : ℤ)))) :
    Dataset.load [] (Dataset.store (run h)) = .ok (run h) := by
  have hok : ∀ d ∈ run h, Dataset.EntryOk d ∧
      Dataset.reread d = ((ofLex d.1).1, (ofLex d.1).2, d.2) := by
    intro d hd
    have hm : ((ofLex d.1).1, (ofLex d.1).2, d.2) ∈ entries h := List.mem_map.2 ⟨d, hd, rfl⟩
    have f1 : ∀ x ∈ (ofLex d.1).1, RangeFloat x ∧ rnd32 (round6 x) = x := by
      intro x hx
      obtain ⟨q, h6, rfl, hr⟩ := hfeat _ hm x hx
      exact ⟨rangeFloat_rnd32 hr, by
        rw [round6_rnd32 h6 (hr.imp id fun h => le_trans (by decide +kernel) h.1)]⟩
    obtain ⟨q, h6, hq, hr⟩ := hmet _ hm
    simp only at hq
    have m1 : RangeDouble d.2 ∧ rnd64 (round6 d.2) = d.2 := by
      rw [hq]
      exact ⟨rangeDouble_rnd64 hr, by
        rw [round6_rnd64 h6 (hr.imp id fun h => le_trans (by decide +kernel) h.1)]⟩
    refine ⟨⟨hfew _ hm, fun x hx => (f1 x hx).1, hpol _ hm, m1.1⟩, ?_⟩
    unfold Dataset.reread
    rw [m1.2]
    have : (ofLex d.1).1.map (fun x => rnd32 (round6 x)) = (ofLex d.1).1 := by
      conv_rhs => rw [← List.map_id (ofLex d.1).1]
      exact List.map_congr_left fun x hx => (f1 x hx).2
    rw [this]
  rw [Dataset.load_store (fun d hd => (hok d hd).1) hlen]
  have : (run h).map Dataset.reread = Dataset.toVectorOfTuples (run h) :=
    List.map_congr_left fun d hd => (hok d hd).2
  rw [this, Dataset.insertAll_toVector (run_sorted h)]

/-- A dataset that meets the hypotheses, with its file. -/
example : Dataset.store (run [⟨[3/2], 2, 1/4⟩, ⟨[], -2, 100⟩]) =
    ("data: {\n  0: { features: [  ], policy: -2, xtime: 100 },\n" ++
      "  1: { features: [ 1.5, ], policy: 2, xtime: 0.25 },\n}\n").toList ∧
    Dataset.load [] (Dataset.store (run [⟨[3/2], 2, 1/4⟩, ⟨[], -2, 100⟩])) =
      .ok (run [⟨[3/2], 2, 1/4⟩, ⟨[], -2, 100⟩]) := by
  decide +kernel

/-- C06 is false also for the values: digits beyond the sixth are lost, and two entries whose features
agree in six digits are merged into one by loading. -/
theorem C06_loses_digits :
    Dataset.load [] (Dataset.store (run [⟨[1234567], 0, 4⟩, ⟨[1234568], 0, 8⟩])) =
      .ok (run [⟨[1234570], 0, 6⟩]) ∧ Float32 1234567 ∧ Float32 1234568 := by
  refine ⟨by decide +kernel, ⟨1234567, 0, by norm_num, by norm_num, by norm_num⟩,
    ⟨1234568, 0, by norm_num, by norm_num, by norm_num⟩⟩

/-- C06 is false for very small metrics: `std::stod` throws on a subnormal value. -/
theorem C06_tiny_metric_throws :
    Dataset.load [] (Dataset.store (run [⟨[], 0, 2 ^ (-1074 : ℤ)⟩])) = .error .throw ∧
    Float64 (2 ^ (-1074 : ℤ)) := by
  refine ⟨by decide +kernel, ⟨1, -1074, by norm_num, by norm_num, by norm_num⟩⟩

/-- C05 (loading): loading a file — any text — either fails, or inserts the same measurements, in
order, into whatever dataset it is loaded into; loading it a second time changes nothing if no pair
occurs twice in it and its metrics are in the normal range. -/
theorem C05_load_twice (s : List Char) :
    (∃ e, ∀ ds, Dataset.load ds s = .error e) ∨
    ∃ es : List Meas,
      (∀ ds, Dataset.load ds s =
        .ok (es.foldl (fun ds x => Dataset.insert ds x.features x.policy x.metric) ds)) ∧
      ((es.map fun x => (x.features, x.policy)).Nodup → (∀ x ∈ es, NormalMetric x.metric) →
        Dataset.load (run es) s = .ok (run es)) := by
  obtain ⟨r, hr⟩ := Dataset.load_eq s
  cases r with
  | error e => exact Or.inl ⟨e, fun ds => hr ds⟩
  | ok es =>
    right
    have hfold : ∀ ds, (es.map fun x => (⟨x.1, x.2.1, x.2.2⟩ : Meas)).foldl
        (fun ds x => Dataset.insert ds x.features x.policy x.metric) ds = Dataset.insertAll ds es := by
      intro ds
      simp [Dataset.insertAll, List.foldl_map]
    refine ⟨es.map fun x => ⟨x.1, x.2.1, x.2.2⟩, fun ds => ?_, fun hnd hn => ?_⟩
    · rw [hr ds, hfold]; rfl
    · rw [hr]
      have : run (es.map fun x => (⟨x.1, x.2.1, x.2.2⟩ : Meas)) = Dataset.insertAll [] es := hfold []
      rw [this]
      show Except.ok (Dataset.insertAll (Dataset.insertAll [] es) es) = _
      rw [Dataset.insertAll_twice]
      · rw [List.map_map] at hnd
        exact hnd
      · intro x hx
        have := hn ⟨x.1, x.2.1, x.2.2⟩ (List.mem_map.2 ⟨x, hx, rfl⟩)
        exact Dataset.ema_self this.1 (Dataset.float64_half this.1 this.2)

/-- A file of two measurements. -/
example : Dataset.load (run [⟨[3], 0, 5⟩, ⟨[], 1, 2⟩])
    (Dataset.store (run [⟨[3], 0, 5⟩, ⟨[], 1, 2⟩])) = .ok (run [⟨[3], 0, 5⟩, ⟨[], 1, 2⟩]) := by
  decide +kernel

/-- The words of a line with one word per feature. -/
def entryWords (idx : ℕ) (x : Meas) : List (List Char) :=
  [fmtInt idx ++ [':'], "{".toList, "features:".toList, "[".toList] ++
    (x.features.map fun v => fmtG6 v ++ [',']) ++
    ["],".toList, "policy:".toList, fmtInt x.policy ++ [','], "xtime:".toList, fmtG6 x.metric,
      "},".toList]

/-- The words of a dataset file for the measurements, numbered from 0. -/
def fileWords (h : List Meas) : List (List Char) :=
  ["data:".toList, "{".toList] ++ (h.zipIdx.map fun x => entryWords x.2 x.1).flatten ++ ["}".toList]

/-- C06, part: `load` does read any number of features.  A file with one blank behind every word
loads as the measurements in it, at six significant digits, in the order of the file and with the
features in their order, inserted into the dataset one by one.  (`store` does not write the blanks
between the features, see `C06_fails_with_two_features`.) -/
theorem C06_reader_partial (h : List Meas) (hlen : h.length ≤ 2 ^ 31)
    (hf : ∀ x ∈ h, ∀ v ∈ x.features, v = 0 ∨ (10 ^ (-37 : ℤ) ≤ |v| ∧ |v| ≤ 10 ^ (38 : ℤ)))
    (hp : ∀ x ∈ h, -2 ^ 31 ≤ x.policy ∧ x.policy < 2 ^ 31)
    (hm : ∀ x ∈ h, x.metric = 0 ∨ (10 ^ (-307 : ℤ) ≤ |x.metric| ∧ |x.metric| ≤ 10 ^ (308 : ℤ))) :
    ∃ h' : List Meas,
      List.Forall₂ SixDigitCopy (h.map fun x => (x.features, x.policy, x.metric))
        (h'.map fun x => (x.features, x.policy, x.metric)) ∧
      Dataset.load [] ((fileWords h).map fun w => w ++ [' ']).flatten = .ok (run h') := by
  have hw : ∀ (h : List Meas) (i : ℕ), ((h.zipIdx i).map fun x => entryWords x.2 x.1).flatten =
      Dataset.linesToks i (h.map fun x => (x.features, x.policy, x.metric)) := by
    intro h
    induction h with
    | nil => intro i; rfl
    | cons x h ih =>
      intro i
      simp only [List.zipIdx_cons, List.map_cons, List.flatten_cons, Dataset.linesToks]
      rw [ih (i + 1)]
      congr 1
  refine ⟨h.map fun x => ⟨x.features.map fun v => rnd32 (round6 v), x.policy, rnd64 (round6 x.metric)⟩,
    ?_, ?_⟩
  · rw [List.map_map, List.forall₂_map_left_iff, List.forall₂_map_right_iff, List.forall₂_same]
    intro x hx
    refine ⟨?_, rfl, round6 x.metric, ⟨sixDigits_round6 _, fun d' hd' => round6_nearest _ d' hd'⟩, rfl⟩
    show List.Forall₂ _ x.features (x.features.map fun v => rnd32 (round6 v))
    rw [List.forall₂_map_right_iff, List.forall₂_same]
    exact fun v _ => ⟨round6 v, ⟨sixDigits_round6 _, fun d' hd' => round6_nearest _ d' hd'⟩, rfl⟩
  · unfold fileWords
    rw [hw h 0, Dataset.load_lines ?_ (by simpa using hlen), run_eq (List.map _ _), List.map_map,
      List.map_map]
    · rfl
    · intro y hy
      obtain ⟨x, hx, rfl⟩ := List.mem_map.1 hy
      exact ⟨hf x hx, hp x hx, hm x hx⟩

/-- Two measurements with two features each; their file. -/
example : ((fileWords [⟨[1, 2], 0, 5⟩, ⟨[3, 4], 1, 1/2⟩]).map fun w => w ++ [' ']).flatten =
    ("data: { 0: { features: [ 1, 2, ], policy: 0, xtime: 5 }, " ++
      "1: { features: [ 3, 4, ], policy: 1, xtime: 0.5 }, } ").toList := by decide +kernel

/-- C07: no proper prefix of a stored file is loaded without error, whatever the dataset and into
whatever dataset. -/
theorem C07_truncated_never_loads (ds acc : Dataset) (s d : List Char)
    (hsd : s ++ d = Dataset.store ds) (hd : d ≠ []) : ∃ e, Dataset.load acc s = .error e := by
  cases h : Dataset.load acc s with
  | error e => exact ⟨e, rfl⟩
  | ok x =>
    exfalso
    unfold Dataset.load at h
    cases hx : Dataset.loadP (s.length + 1) acc ⟨s, [], 0⟩ with
    | error e => rw [hx] at h; cases h
    | ok y => exact Dataset.loadP_no_prefix _ _ ds s d hsd hd y hx

/-- Cutting a file behind its first entry, and cutting off the last character. -/
example :
    Dataset.load [] "data: {\n  0: { features: [ 3, ], policy: 0, xtime: 5 },\n".toList =
      .error (.ub .endOfStream) ∧
    Dataset.load [] "data: {\n  0: { features: [ 3, ], policy: 0, xtime: 5 },\n}".toList =
      .error (.ub .endOfStream) ∧
    Dataset.store (run [⟨[3], 0, 5⟩]) =
      "data: {\n  0: { features: [ 3, ], policy: 0, xtime: 5 },\n}\n".toList := by
  refine ⟨?_, ?_, ?_⟩ <;> decide +kernel

/-- C64 (datasets): loading ends for every input text. -/
theorem C64_dataset_load_terminates (ds : Dataset) (s : List Char) :
    Dataset.load ds s ≠ .error .diverge := Dataset.load_terminates ds s

end Apollo.Props
