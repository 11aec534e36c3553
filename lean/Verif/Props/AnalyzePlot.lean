import Verif.Proofs.AnalyzePlot
import Verif.Props.Report

/-!
# C118: with --plot analyze-traces.py leaves a picture of each rank

It does not: the pictures of all ranks go into the same file (`C118_fails`), none has the speedups that are
computed for it (`C118_speedups_fails`), if the directory of the traces is given by a path with a slash the script
ends before any picture is saved (`C118_path_fails`), and so it does with `--plot2` alone (`C118_plot2_fails`).  The
picture of the last rank is left, and shows the times and the accuracies (`C118_last_partial`).
-/

namespace Apollo.Props

open Apollo Apollo.Spec Apollo.Scripts

/-- The traces of an analysis: all can be read, on each of the ranks the script gets through, and there are at
most 2^46 executions. -/
structure Analysed (py : Py) (order : List ℚ → List ℕ) (sum : List ℚ → ℚ) (runs : Runs) (n : ℕ) : Prop where
  orders : Orders order
  static : Readable py runs.static.flatten
  rr : ∀ fs ∈ runs.rr, Readable py fs
  random : ∀ fs ∈ runs.random, Readable py fs
  load : ∀ fs ∈ runs.load, Readable py fs
  opt : ∀ fs ∈ runs.opt, Readable py fs
  success : ∀ r < n, ∃ rep, py.report order sum runs.texts (r : ℕ) = .ok rep
  size : ∀ r < n, ∀ ch, ∀ e ∈ accuracies runs (r : ℕ) ch, e.2.2.2 ≤ 2 ^ 46

/-- The picture shows what was measured on a rank: a bar for the time of each model, then one for the time of
the optimal choice, and a line for the accuracy of each model that is not static. -/
structure ShowsRank (sum : List ℚ → ℚ) (runs : Runs) (rank : ℤ) (P : RankPicture) : Prop where
  shows : ∃ ch, Chosen runs.static.flatten rank ch ∧
    List.Forall₂ (fun bar e => ShowsTime bar e.1 e.2) P.bars
      (((reportEntries sum runs rank).map fun e => (e.1, entryTime sum e)) ++
        [("Opt".toList, sum (ch.map fun p => p.2.metric))]) ∧
    ∃ lines, P.text = ['\n'].intercalate lines ∧ List.Forall₂ ShowsAccuracy lines (accuracies runs rank ch)

/-- C118: the script succeeds, and for every rank there is a file with its picture. -/
def C118 : Prop :=
  ∀ (py : Py) (order : List ℚ → List ℕ) (sum : List ℚ → ℚ) (runs : Runs) (dirs : List Char → Bool)
    (dir : List Char) (n : ℕ), Analysed py order sum runs n → '/' ∉ dir →
    (py.analyzePlots order sum dirs runs.texts dir true false n).2 = none ∧
      ∀ r < n, ∃ path P, leftIn (py.analyzePlots order sum dirs runs.texts dir true false n).1 path = some P ∧
        ShowsRank sum runs (r : ℕ) P

theorem picture_shows {py : Py} {order : List ℚ → List ℕ} {sum : List ℚ → ℚ} {runs : Runs} {n : ℕ}
    (h : Analysed py order sum runs n) (dir : List Char) {r : ℕ} (hr : r < n) {rep : Report}
    (hrep : py.report order sum runs.texts (r : ℕ) = .ok rep) :
    ShowsRank sum runs (r : ℕ) (rankPicture sum dir rep) := by
  obtain ⟨ch, j, h1, -, h3, -⟩ := C99_report py h.orders sum h.static h.rr h.random h.load h.opt (r : ℕ)
  rw [hrep] at h3
  split at h3
  · cases h3
  · cases h3
    have ht : ∀ (x : ℚ) (y : Option ℚ) (k : List Char), total sum (x, y) = entryTime sum (k, x, y) := by
      intro x y k
      cases y <;> rfl
    refine ⟨ch, h1, ?_, _, rfl, ?_⟩
    · show List.Forall₂ _ ((_ ++ [_]).map _) _
      rw [List.map_append]
      refine List.rel_append ?_ ?_
      · rw [List.forall₂_map_left_iff, List.forall₂_map_right_iff, List.forall₂_same]
        rintro ⟨k, x, y⟩ -
        simp only [ht x y k]
        exact ⟨rfl, rfl, fixed2_shows _⟩
      · exact .cons ⟨rfl, rfl, fixed2_shows _⟩ .nil
    · rw [List.forall₂_map_left_iff, List.forall₂_same]
      intro e he
      have hc : e.2.1 ≤ e.2.2.1 ∧ e.2.2.1 ≤ e.2.2.2 := by
        unfold accuracies at he
        simp only [List.mem_append, List.mem_map] at he
        rcases he with ((⟨fs, -, rfl⟩ | ⟨fs, -, rfl⟩) | ⟨fs, -, rfl⟩) | ⟨fs, -, rfl⟩ <;> exact C99_counts _ _
      exact accuracyLine_shows hc.1 hc.2 (h.size r hr ch e he)

/-- The reading of the static traces, which precedes everything. -/
theorem plots_read {py : Py} {order : List ℚ → List ℕ} {sum : List ℚ → ℚ} {runs : Runs}
    (h : Readable py runs.static.flatten) (dirs : List Char → Bool) (dir : List Char) (a b : Bool) (n : ℕ) :
    py.analyzePlots order sum dirs runs.texts dir a b n =
      py.plotRanks order sum dirs runs.texts dir a b
        (uniqueCells ((concat (runs.static.flatten.map (frameOf py))).rows.map (· "region".toList)))
        ((List.range n).map fun r : ℕ => (r : ℤ)) := by
  have hread : py.readTracefiles runs.texts.static.flatten =
      .ok (concat (runs.static.flatten.map (frameOf py))) := by
    show py.readTracefiles (runs.static.map (·.map RegionTrace.text)).flatten = _
    rw [← List.map_flatten, readTracefiles_text py h.1 fun F hF => (h.2 F hF).1]
  unfold Py.analyzePlots
  rw [hread]

/-- C118 for the last rank.  The script succeeds, and leaves one file, which has the name of the directory in its
own name and as title, and shows what was measured on the last rank. -/
theorem C118_last_partial {py : Py} {order : List ℚ → List ℕ} {sum : List ℚ → ℚ} {runs : Runs} {n : ℕ}
    (h : Analysed py order sum runs (n + 1)) (dirs : List Char → Bool) {dir : List Char} (hd : '/' ∉ dir) :
    (py.analyzePlots order sum dirs runs.texts dir true false (n + 1)).2 = none ∧
    ∃ P : RankPicture, P.title = dir ∧ ShowsRank sum runs (n : ℕ) P ∧
      ∀ path, leftIn (py.analyzePlots order sum dirs runs.texts dir true false (n + 1)).1 path =
        if path = "analysis-".toList ++ dir ++ ".pdf".toList then some P else none := by
  have hex : ∀ r : ℤ, ∃ rep, r ∈ (List.range (n + 1)).map (fun r : ℕ => (r : ℤ)) →
      py.report order sum runs.texts r = .ok rep := by
    intro r
    by_cases hr : r ∈ (List.range (n + 1)).map fun r : ℕ => (r : ℤ)
    · obtain ⟨k, hk, rfl⟩ := List.mem_map.1 hr
      obtain ⟨rep, hrep⟩ := h.success k (List.mem_range.1 hk)
      exact ⟨rep, fun _ => hrep⟩
    · exact ⟨⟨[], 0, [], [], []⟩, fun h => absurd h hr⟩
  choose rep hrep using hex
  have hmem : (n : ℤ) ∈ (List.range (n + 1)).map fun r : ℕ => (r : ℤ) :=
    List.mem_map.2 ⟨n, List.mem_range.2 (by omega), rfl⟩
  rw [plots_read h.static, plotRanks_ok py order sum (canSave_plain dirs hd) rep hrep]
  refine ⟨rfl, rankPicture sum dir (rep n), rfl, picture_shows h dir (by omega) (hrep n hmem), fun path => ?_⟩
  simp only [List.range_succ, List.map_append, List.map_cons, List.map_nil]
  rw [leftIn_append, show "analysis-".toList ++ dir ++ ".pdf".toList = pictureName dir from rfl]
  by_cases hp : pictureName dir = path
  · rw [if_pos hp, if_pos hp.symm]
  · rw [if_neg hp, if_neg (Ne.symm hp)]
    unfold leftIn
    rw [List.filter_eq_nil_iff.2]
    · rfl
    · intro o ho
      simp only [List.map_map, List.mem_map] at ho
      obtain ⟨k, -, rfl⟩ := ho
      simpa using hp

/-! ## Examples of the hypotheses -/

/-- The traces of a program on two processes, with the policy 0: one takes half a second, the other a quarter. -/
def slowAndFast : Runs where
  static := [[static 0 [(0, 1 / 2)], { static 0 [(0, 1 / 4)] with rank := 1 }]]

theorem slowAndFast_analysed : Analysed demoPy demoOrder List.sum slowAndFast 2 where
  orders := demoOrder_orders
  static := by
    refine ⟨by decide +kernel, fun F hF => ?_⟩
    have hF' : F = static 0 [(0, 1 / 2)] ∨ F = { static 0 [(0, 1 / 4)] with rank := 1 } := by
      simpa [slowAndFast] using hF
    rcases hF' with rfl | rfl
    · exact static_good (Or.inl rfl) (by decide +kernel)
    · obtain ⟨⟨a, b, c, d⟩, e⟩ := static_good (p := 0) (Or.inl rfl) (rows := [(0, 1 / 4)]) (by decide +kernel)
      exact ⟨⟨a, b, by show |(1 : ℤ)| < _; decide, d⟩, e⟩
  rr := by simp [slowAndFast]
  random := by simp [slowAndFast]
  load := by simp [slowAndFast]
  opt := by simp [slowAndFast]
  success := by
    intro r hr
    have key : ∀ r < 2, (match demoPy.report demoOrder List.sum slowAndFast.texts (r : ℕ) with
        | .ok _ => true
        | .error _ => false) = true := by decide +kernel
    have := key r hr
    split at this
    · exact ⟨_, by assumption⟩
    · cases this
  size := by simp [slowAndFast, accuracies]

/-- The pictures that are saved: the second replaces the first. -/
example : demoPy.analyzePlots demoOrder List.sum (fun _ => false) slowAndFast.texts "runs".toList true false 2 =
    ([("analysis-runs.pdf".toList,
        ⟨"runs".toList, [("Static,0".toList, 1 / 2, "0.50".toList), ("Opt".toList, 1 / 2, "0.50".toList)], []⟩),
      ("analysis-runs.pdf".toList,
        ⟨"runs".toList, [("Static,0".toList, 1 / 4, "0.25".toList), ("Opt".toList, 1 / 4, "0.25".toList)], []⟩)],
      none) := by
  decide +kernel

/-- A picture with accuracies. -/
example : demoPy.analyzePlots demoOrder List.sum (fun _ => false) demoRuns.texts "runs".toList true false 1 =
    ([("analysis-runs.pdf".toList, ⟨"runs".toList,
      [("Static,0".toList, 3 / 4, "0.75".toList), ("Static,1".toList, 3 / 4, "0.75".toList),
        ("RoundRobin".toList, 3 / 4, "0.75".toList), ("Optimal".toList, 1 / 2, "0.50".toList),
        ("Opt".toList, 1 / 2, "0.50".toList)],
      ("RoundRobin Accuracy strict = 0.00%|relaxed (+/- 10.00%) 50.00%\n" ++
        "Optimal Accuracy strict = 100.00%|relaxed (+/- 10.00%) 100.00%").toList⟩)], none) := by
  decide +kernel

/-- Without executions of the trained model the accuracy is not a number. -/
example : accuracyLine ("Load".toList, 0, 0, 0) =
    "Load Accuracy strict = nan%|relaxed (+/- 10.00%) nan%".toList ∧
    accuracyLine ("Load".toList, 1, 2, 3) =
    "Load Accuracy strict = 33.33%|relaxed (+/- 10.00%) 66.67%".toList := by decide +kernel

/-! ## What is false -/

/-- C118 is false: with two ranks the picture of the first one is lost. -/
theorem C118_fails : ¬ C118 := by
  intro h
  obtain ⟨-, h2⟩ := h demoPy demoOrder List.sum slowAndFast (fun _ => false) "runs".toList 2 slowAndFast_analysed
    (by decide +kernel)
  obtain ⟨path, P, h3, ⟨ch, -, h4, -⟩⟩ := h2 0 (by omega)
  obtain ⟨-, Q, -, ⟨ch', -, h6, -⟩, h7⟩ := C118_last_partial (n := 1) slowAndFast_analysed (fun _ => false)
    (dir := "runs".toList) (by decide +kernel)
  rw [h7] at h3
  split at h3
  · cases h3
    have e0 : reportEntries List.sum slowAndFast (0 : ℕ) = [("Static,0".toList, 1 / 2, none)] := by decide +kernel
    have e1 : reportEntries List.sum slowAndFast (1 : ℕ) = [("Static,0".toList, 1 / 4, none)] := by decide +kernel
    rw [e0] at h4
    rw [e1] at h6
    simp only [List.map_cons, List.map_nil, List.cons_append, List.nil_append] at h4 h6
    obtain ⟨b, u, h8, -, h9⟩ := List.forall₂_cons_right_iff.1 h4
    obtain ⟨b', u', h8', -, h9'⟩ := List.forall₂_cons_right_iff.1 h6
    rw [h9] at h9'
    cases h9'
    have := h8.2.1.symm.trans h8'.2.1
    simp only [entryTime] at this
    norm_num at this
  · cases h3

/-- The picture shows the speedups of the optimal choice, as far as the first of the two lines composed for
that. -/
def C118_speedups : Prop :=
  ∀ (py : Py) (order : List ℚ → List ℕ) (sum : List ℚ → ℚ) (runs : Runs) (dirs : List Char → Bool)
    (dir : List Char) (n : ℕ), Analysed py order sum runs (n + 1) → '/' ∉ dir →
    ∃ path P, leftIn (py.analyzePlots order sum dirs runs.texts dir true false (n + 1)).1 path = some P ∧
      "Speedup (default) Static,0 / Opt = ".toList <:+: P.text

/-- It does not: the text is replaced before it is drawn. -/
theorem C118_speedups_fails : ¬ C118_speedups := by
  intro h
  obtain ⟨path, P, h1, h2⟩ := h demoPy demoOrder List.sum slowAndFast (fun _ => false) "runs".toList 1
    slowAndFast_analysed (by decide +kernel)
  obtain ⟨-, Q, -, ⟨ch, -, -, lines, h5, h6⟩, h7⟩ := C118_last_partial (n := 1) slowAndFast_analysed
    (fun _ => false) (dir := "runs".toList) (by decide +kernel)
  rw [h7] at h1
  split at h1
  · cases h1
    have e : accuracies slowAndFast (1 : ℕ) ch = [] := rfl
    rw [e] at h6
    cases h6
    rw [h5] at h2
    have := h2.length_le
    revert this
    decide +kernel
  · cases h1

/-- With a path that has a slash the script ends without any picture, unless there happens to be a directory
`analysis-…`. -/
theorem C118_path_fails {py : Py} {order : List ℚ → List ℕ} {sum : List ℚ → ℚ} {runs : Runs} {n : ℕ}
    (h : Analysed py order sum runs (n + 1)) {dirs : List Char → Bool} {a b : List Char} (hb : '/' ∉ b)
    (hd : dirs ("analysis-".toList ++ a) = false) (plot2 : Bool) :
    py.analyzePlots order sum dirs runs.texts (a ++ '/' :: b) true plot2 (n + 1) = ([], some .throw) := by
  obtain ⟨rep, hrep⟩ := h.success 0 (by omega)
  rw [plots_read h.static, List.range_succ_eq_map, List.map_cons, Py.plotRanks, hrep]
  simp only [canSave_slash dirs hb, hd]
  rfl

/-- With `--plot2` alone the script ends after the report of the first rank, without any picture. -/
theorem C118_plot2_fails {py : Py} {order : List ℚ → List ℕ} {sum : List ℚ → ℚ} {runs : Runs} {n : ℕ}
    (h : Analysed py order sum runs (n + 1)) {F : RegionTrace} (hF : F ∈ runs.static.flatten)
    (hr : F.rows ≠ []) (dirs : List Char → Bool) (dir : List Char) :
    py.analyzePlots order sum dirs runs.texts dir false true (n + 1) = ([], some .throw) := by
  obtain ⟨rep, hrep⟩ := h.success 0 (by omega)
  have hne : (concat (runs.static.flatten.map (frameOf py))).rows.map (· "region".toList) ≠ [] := by
    obtain ⟨x, l, hx⟩ := List.exists_cons_of_ne_nil hr
    intro he
    have h0 := List.map_eq_nil_iff.1 he
    have h1 : (stack (runs.static.flatten.map (frameOf py))).rows = [] := List.map_eq_nil_iff.1 h0
    have h2 : (frameOf py F).rows = [] :=
      List.flatMap_eq_nil_iff.1 h1 _ (List.mem_map_of_mem hF)
    have h3 := congrArg List.length h2
    simp [frameOf, Py.frame, hx] at h3
  rw [plots_read h.static, List.range_succ_eq_map, List.map_cons, Py.plotRanks, hrep]
  simp only [uniqueCells_ne_nil hne]
  rfl

/-- Hypotheses of `C118_path_fails` and `C118_plot2_fails`. -/
example : Analysed demoPy demoOrder List.sum slowAndFast (1 + 1) ∧ '/' ∉ "traces".toList ∧
    ∃ F ∈ slowAndFast.static.flatten, F.rows ≠ [] :=
  ⟨slowAndFast_analysed, by decide +kernel, static 0 [(0, 1 / 2)], by simp [slowAndFast], by decide +kernel⟩

/-- The directory in which Apollo writes its traces. -/
example : demoPy.analyzePlots demoOrder List.sum (fun d => d = ".apollo".toList) slowAndFast.texts
    ".apollo/traces".toList true false 2 = ([], some .throw) := by decide +kernel

end Apollo.Props
