import Verif.Proofs.RegionPlot
import Verif.Props.AnalyzePlot

/-!
# C120: with --plot and --plot2 analyze-traces.py leaves a chart for each region

The chart has a group of bars for each combination of features, and in it a bar for each static policy, with the
mean of the times over all ranks (`C120`).  The names of the regions must be names of files: a slash ends the script
(`C120_needs_plain`), as does `--plot2` without `--plot` (`C120_needs_plot`), and a region `analysis-<dir>` replaces
the picture of the ranks (`C120_needs_other`).  Below the groups the features come in the order of the columns, which
is that of their names as texts: with more than ten features it is not the order of the program (`C120_order`).
-/

namespace Apollo.Props

open Apollo Apollo.Spec Apollo.Scripts

theorem pictures_read {py : Py} {order : List ℚ → List ℕ} {sum : List ℚ → ℚ} {runs : Runs}
    (h : Readable py runs.static.flatten) (arrange : List Text → List Text) (dirs : List Char → Bool)
    (dir : List Char) (a b : Bool) (n : ℕ) :
    py.analyzePictures order sum arrange dirs runs.texts dir a b n =
      py.plotRanksAll order sum arrange dirs runs.texts dir a b
        (concat (runs.static.flatten.map (frameOf py))) ((List.range n).map fun r : ℕ => (r : ℤ)) := by
  have hread : py.readTracefiles runs.texts.static.flatten =
      .ok (concat (runs.static.flatten.map (frameOf py))) := by
    show py.readTracefiles (runs.static.map (·.map RegionTrace.text)).flatten = _
    rw [← List.map_flatten, readTracefiles_text py h.1 fun F hF => (h.2 F hF).1]
  unfold Py.analyzePictures
  rw [hread]

/-- What the regions' pictures are. -/
theorem regions_pictures {py : Py} {arrange : List Text → List Text} (ha : ∀ l, (arrange l).Perm l)
    {fs : List RegionTrace} (h : ∀ F ∈ fs, F.Wellformed ∧ F.Kept py) (hw : SameWidths fs) :
    ∃ (rs : List Text) (P : Text → RegionPicture),
      uniqueCells ((concat (fs.map (frameOf py))).rows.map (· "region".toList)) = rs.map Cell.str ∧ rs.Nodup ∧
      (∀ r, r ∈ rs ↔ ∃ F ∈ fs, F.rows ≠ [] ∧ F.region = r) ∧
      (∀ r ∈ rs, py.regionPicture arrange (concat (fs.map (frameOf py))) (.str r) = .ok (P r)) ∧
      ∀ F ∈ fs, F.rows ≠ [] → ∃ js, js.Perm (List.range F.nf) ∧
        ((∀ l, (arrange l).Pairwise (· ≤ ·)) → ByName js) ∧
        ShowsMeans py.mean js (ranIn fs F.region) (P F.region) := by
  obtain ⟨rs, h1, h2, h3⟩ := regions_of_rows (concat_files py h)
  have hm : ∀ r, r ∈ rs ↔ ∃ F ∈ fs, F.rows ≠ [] ∧ F.region = r := by
    intro r
    rw [h3]
    constructor
    · rintro ⟨p, hp, rfl⟩
      obtain ⟨F, hF, hp⟩ := List.mem_flatMap.1 hp
      obtain ⟨x, hx, rfl⟩ := List.mem_map.1 hp
      exact ⟨F, hF, List.ne_nil_of_mem hx, rfl⟩
    · rintro ⟨F, hF, hne, rfl⟩
      obtain ⟨x, hx⟩ := List.exists_mem_of_ne_nil _ hne
      exact ⟨(F, x), List.mem_flatMap.2 ⟨F, hF, List.mem_map_of_mem hx⟩, rfl⟩
  have hex : ∀ r : Text, ∃ P, ∀ F ∈ fs, F.rows ≠ [] → F.region = r →
      py.regionPicture arrange (concat (fs.map (frameOf py))) (.str r) = .ok P ∧
      ∃ js, js.Perm (List.range F.nf) ∧ ((∀ l, (arrange l).Pairwise (· ≤ ·)) → ByName js) ∧
        ShowsMeans py.mean js (ranIn fs r) P := by
    intro r
    by_cases hr : ∃ F ∈ fs, F.rows ≠ [] ∧ F.region = r
    · obtain ⟨F, hF, hne, rfl⟩ := hr
      obtain ⟨x, hx⟩ := List.exists_mem_of_ne_nil _ hne
      obtain ⟨js, P, a1, a2, a3, a4⟩ := regionPicture_ok py ha h (r := F.region) (n := F.nf)
        (List.ne_nil_of_mem (List.mem_filter.2 ⟨List.mem_flatMap.2 ⟨F, hF, List.mem_map_of_mem hx⟩, by simp⟩))
        (by
          intro p hp
          obtain ⟨hp, he⟩ := List.mem_filter.1 hp
          obtain ⟨G, hG, hp⟩ := List.mem_flatMap.1 hp
          obtain ⟨y, -, rfl⟩ := List.mem_map.1 hp
          exact hw G hG F hF (of_decide_eq_true he))
      refine ⟨P, fun G hG _ he => ⟨a3, js, ?_, a2, a4⟩⟩
      rw [hw G hG F hF he]
      exact a1
    · exact ⟨⟨[], []⟩, fun F hF hne he => absurd ⟨F, hF, hne, he⟩ hr⟩
  choose P hP using hex
  refine ⟨rs, P, h1, h2, hm, fun r hr => ?_, fun F hF hne => (hP F.region F hF hne rfl).2⟩
  obtain ⟨F, hF, hne, e⟩ := (hm r).1 hr
  exact (hP r F hF hne e).1

/-- C120: with `--plot` and `--plot2` the script leaves for each region with executions a chart of the mean times
over all ranks, besides the picture of the last rank, and nothing else. -/
theorem C120 {py : Py} {order : List ℚ → List ℕ} {sum : List ℚ → ℚ} {runs : Runs} {n : ℕ}
    (h : Analysed py order sum runs (n + 1)) (hw : SameWidths runs.static.flatten)
    {arrange : List (List Char) → List (List Char)} (ha : ∀ l, (arrange l).Perm l) (dirs : List Char → Bool)
    {dir : List Char} (hd : '/' ∉ dir)
    (hr : ∀ F ∈ runs.static.flatten, F.rows ≠ [] → '/' ∉ F.region ∧ F.region ≠ "analysis-".toList ++ dir)
    {out : List (List Char × (RankPicture ⊕ RegionPicture)) × Option Err}
    (hout : out = py.analyzePictures order sum arrange dirs runs.texts dir true true (n + 1)) :
    out.2 = none ∧
    (∃ P, ShowsRank sum runs (n : ℕ) P ∧
      leftIn out.1 ("analysis-".toList ++ dir ++ ".pdf".toList) = some (.inl P)) ∧
    (∀ F ∈ runs.static.flatten, F.rows ≠ [] → ∃ js P, js.Perm (List.range F.nf) ∧
      ((∀ l, (arrange l).Pairwise (· ≤ ·)) → ByName js) ∧
      ShowsMeans py.mean js (ranIn runs.static.flatten F.region) P ∧
      leftIn out.1 (F.region ++ ".pdf".toList) = some (.inr P)) ∧
    ∀ path, leftIn out.1 path ≠ none → path = "analysis-".toList ++ dir ++ ".pdf".toList ∨
      ∃ F ∈ runs.static.flatten, F.rows ≠ [] ∧ path = F.region ++ ".pdf".toList := by
  obtain ⟨rs, P, h1, h2, h3, h4, h5⟩ := regions_pictures ha h.static.2 hw
  have hex : ∀ r : ℤ, ∃ rep, r ∈ (List.range (n + 1)).map (fun r : ℕ => (r : ℤ)) →
      py.report order sum runs.texts r = .ok rep := by
    intro r
    by_cases hr : r ∈ (List.range (n + 1)).map fun r : ℕ => (r : ℤ)
    · obtain ⟨k, hk, rfl⟩ := List.mem_map.1 hr
      obtain ⟨rep, hrep⟩ := h.success k (List.mem_range.1 hk)
      exact ⟨rep, fun _ => hrep⟩
    · exact ⟨⟨[], 0, [], [], []⟩, fun h => absurd h hr⟩
  choose rep hrep using hex
  have hmem : (n : ℤ) ∈ (List.range (n + 1)).map fun r : ℕ => (r : ℤ) :=
    List.mem_map.2 ⟨n, List.mem_range.2 (by omega), rfl⟩
  have hmore : py.plotRegions arrange dirs (concat (runs.static.flatten.map (frameOf py))) true
      (uniqueCells ((concat (runs.static.flatten.map (frameOf py))).rows.map (· "region".toList))) =
      (rs.map fun r => (regionPictureName r, P r), none) := by
    rw [h1]
    refine plotRegions_ok py dirs fun r hr' => ⟨?_, h4 r hr'⟩
    obtain ⟨F, hF, hne, rfl⟩ := (h3 r).1 hr'
    exact (hr F hF hne).1
  rw [pictures_read h.static, plotRanksAll_ok py order sum (canSave_plain dirs hd) hmore rep hrep] at hout
  subst hout
  simp only [List.range_succ, List.map_append, List.map_cons, List.map_nil, List.flatMap_append,
    List.flatMap_cons, List.flatMap_nil, List.append_nil, List.map_map]
  set B : List (Text × Picture) := (pictureName dir, .inl (rankPicture sum dir (rep (n : ℕ)))) ::
    rs.map ((fun p : Text × RegionPicture => (p.1, (.inr p.2 : Picture))) ∘ fun r => (regionPictureName r, P r))
    with hB
  have hname : ∀ a b : Text, regionPictureName a = regionPictureName b → a = b :=
    fun a b e => List.append_cancel_right e
  have hn : (B.map Prod.fst).Nodup := by
    rw [hB, List.map_cons, List.nodup_cons, List.map_map]
    refine ⟨fun hm => ?_, ?_⟩
    · obtain ⟨r, hr', e⟩ := List.mem_map.1 hm
      obtain ⟨F, hF, hne, rfl⟩ := (h3 r).1 hr'
      exact (hr F hF hne).2 (List.append_cancel_right e)
    · exact h2.map fun a b e => hname a b e
  refine ⟨trivial, ⟨rankPicture sum dir (rep (n : ℕ)), picture_shows h dir (by omega) (hrep n hmem), ?_⟩,
    fun F hF hne => ?_, fun path hp => ?_⟩
  · have := leftIn_mem hn (o := (pictureName dir, .inl (rankPicture sum dir (rep (n : ℕ))))) List.mem_cons_self
    rw [leftIn_append_list, show "analysis-".toList ++ dir ++ ".pdf".toList = pictureName dir from rfl, this]
    rfl
  · obtain ⟨js, a1, a2, a3⟩ := h5 F hF hne
    refine ⟨js, P F.region, a1, a2, a3, ?_⟩
    have := leftIn_mem hn (o := (regionPictureName F.region, .inr (P F.region)))
      (List.mem_cons_of_mem _ (List.mem_map.2 ⟨F.region, (h3 _).2 ⟨F, hF, hne, rfl⟩, rfl⟩))
    rw [leftIn_append_list, show F.region ++ ".pdf".toList = regionPictureName F.region from rfl, this]
    rfl
  · by_contra hno
    push Not at hno
    refine hp (leftIn_none fun o ho e => ?_)
    have hkind : o.1 = pictureName dir ∨ ∃ r ∈ rs, o.1 = regionPictureName r := by
      rcases List.mem_append.1 ho with ho | ho
      · obtain ⟨k, -, ho⟩ := List.mem_flatMap.1 ho
        rcases List.mem_cons.1 ho with rfl | ho
        · exact Or.inl rfl
        · obtain ⟨r, hr', rfl⟩ := List.mem_map.1 ho
          exact Or.inr ⟨r, hr', rfl⟩
      · rcases List.mem_cons.1 ho with rfl | ho
        · exact Or.inl rfl
        · obtain ⟨r, hr', rfl⟩ := List.mem_map.1 ho
          exact Or.inr ⟨r, hr', rfl⟩
    rcases hkind with hk | ⟨r, hr', hk⟩
    · exact hno.1 (e.symm.trans hk)
    · obtain ⟨F, hF, hne, rfl⟩ := (h3 r).1 hr'
      exact hno.2 F hF hne (e.symm.trans hk)

/-- Without `--plot2` the pictures are those of C118. -/
theorem C120_without (py : Py) (order : List ℚ → List ℕ) (sum : List ℚ → ℚ)
    (arrange : List (List Char) → List (List Char)) (dirs : List Char → Bool) (traces : Scripts.Traces)
    (dir : List Char) (plot : Bool) (n : ℕ) :
    py.analyzePictures order sum arrange dirs traces dir plot false n =
      ((py.analyzePlots order sum dirs traces dir plot false n).1.map fun p => (p.1, .inl p.2),
        (py.analyzePlots order sum dirs traces dir plot false n).2) := by
  unfold Py.analyzePictures Py.analyzePlots
  cases py.readTracefiles traces.static.flatten with
  | error e => rfl
  | ok data => exact plotRanksAll_one ..

/-- The order of the features below the groups: that of the program for at most ten features, and never for
more. -/
theorem C120_order {n : ℕ} {js : List ℕ} (hp : js.Perm (List.range n)) (hj : ByName js) :
    js = List.range n ↔ n ≤ 10 := by
  constructor
  · rintro rfl
    by_contra hn
    have h1 : (List.range n).Pairwise fun i j => featureName i < featureName j := hj
    have h2 := List.pairwise_iff_getElem.1 h1 2 10 (by simp; omega) (by simp; omega) (by omega)
    rw [List.getElem_range, List.getElem_range] at h2
    exact absurd h2 (by decide +kernel)
  · intro hn
    have key : ∀ i < 10, ∀ j < 10, i < j → featureName i < featureName j := by decide +kernel
    have h1 : (js.map featureName).Pairwise (· < ·) := List.pairwise_map.2 hj
    have h2 : ((List.range n).map featureName).Pairwise (· < ·) := by
      rw [List.pairwise_map]
      refine List.pairwise_lt_range.imp_of_mem fun ha hb hab => key _ ?_ _ ?_ hab
      · have := List.mem_range.1 ha; omega
      · have := List.mem_range.1 hb; omega
    have h3 : js.map featureName = (List.range n).map featureName :=
      ascending_unique h1 h2 fun x => (hp.map featureName).mem_iff
    exact (List.map_injective_iff.2 fun i j h => fcol_inj h) h3

/-- A slash in the name of the first region, and no directory to go with it: the script ends after the picture of
the first rank. -/
theorem C120_needs_plain {py : Py} {order : List ℚ → List ℕ} {sum : List ℚ → ℚ} {runs : Runs} {n : ℕ}
    (h : Analysed py order sum runs (n + 1)) (hw : SameWidths runs.static.flatten)
    {arrange : List (List Char) → List (List Char)} (ha : ∀ l, (arrange l).Perm l) {dirs : List Char → Bool}
    {dir : List Char} (hd : '/' ∉ dir) {F : RegionTrace} {fs : List RegionTrace}
    (hF : runs.static.flatten = F :: fs) (hne : F.rows ≠ []) {a b : List Char} (hr : F.region = a ++ '/' :: b)
    (hb : '/' ∉ b) (hda : dirs a = false) :
    ∃ P, ShowsRank sum runs (0 : ℕ) P ∧
      py.analyzePictures order sum arrange dirs runs.texts dir true true (n + 1) =
        ([("analysis-".toList ++ dir ++ ".pdf".toList, .inl P)], some .throw) := by
  obtain ⟨rs, P, h1, h2, h3, h4, h5⟩ := regions_pictures ha h.static.2 hw
  obtain ⟨rep, hrep⟩ := h.success 0 (by omega)
  refine ⟨rankPicture sum dir rep, picture_shows h dir (by omega) hrep, ?_⟩
  obtain ⟨rest, hrs⟩ : ∃ rest, uniqueCells ((concat (runs.static.flatten.map (frameOf py))).rows.map
      (· "region".toList)) = .str F.region :: rest := by
    have hrows := concat_files py h.static.2
    rw [hF] at hrows ⊢
    obtain ⟨x, l, hx⟩ := List.exists_cons_of_ne_nil hne
    have he : execs (F :: fs) = (F, x) :: (l.map (F, ·) ++ execs fs) := by
      simp [execs, hx]
    rw [he] at hrows
    obtain ⟨rec, recs, hR, -, e⟩ := List.forall₂_cons_left_iff.1 hrows
    rw [e, List.map_cons, hR.region]
    have key : ∀ (l : List Cell) (c : Cell) (seen : List Cell), ∃ rest,
        l.foldl (fun seen c => if c ∈ seen then seen else seen ++ [c]) (c :: seen) = c :: rest := by
      intro l
      induction l with
      | nil => exact fun c seen => ⟨seen, rfl⟩
      | cons d l ih =>
        intro c seen
        rw [List.foldl_cons]
        split
        · exact ih c seen
        · exact ih c (seen ++ [d])
    exact key _ _ []
  have hmem : F.region ∈ rs := (h3 _).2 ⟨F, by rw [hF]; exact List.mem_cons_self, hne, rfl⟩
  have hsave : canSave dirs (regionPictureName F.region) = false := by
    have hb' : '/' ∉ b ++ ".pdf".toList := by
      rw [List.mem_append, not_or]
      exact ⟨hb, by decide +kernel⟩
    rw [canSave, regionPictureName, hr, List.append_assoc, List.cons_append, folder_slash _ hb']
    exact hda
  rw [pictures_read h.static, List.range_succ_eq_map, List.map_cons, Py.plotRanksAll]
  have hrep' : py.report order sum runs.texts ((0 : ℕ) : ℤ) = .ok rep := hrep
  simp only [hrep', canSave_plain dirs hd, hrs, Py.plotRegions, h4 _ hmem, hsave]
  rfl

/-- With `--plot2` alone the script ends after the report of the first rank, without any picture. -/
theorem C120_needs_plot {py : Py} {order : List ℚ → List ℕ} {sum : List ℚ → ℚ} {runs : Runs} {n : ℕ}
    (h : Analysed py order sum runs (n + 1)) (hw : SameWidths runs.static.flatten)
    {arrange : List (List Char) → List (List Char)} (ha : ∀ l, (arrange l).Perm l) {F : RegionTrace}
    (hF : F ∈ runs.static.flatten) (hne : F.rows ≠ []) (dirs : List Char → Bool) (dir : List Char) :
    py.analyzePictures order sum arrange dirs runs.texts dir false true (n + 1) = ([], some .throw) := by
  obtain ⟨rs, P, h1, -, h3, h4, -⟩ := regions_pictures ha h.static.2 hw
  obtain ⟨rep, hrep⟩ := h.success 0 (by omega)
  obtain ⟨r, rest, hrs⟩ : ∃ r rest, rs = r :: rest :=
    List.exists_cons_of_ne_nil (List.ne_nil_of_mem ((h3 F.region).2 ⟨F, hF, hne, rfl⟩))
  rw [pictures_read h.static, List.range_succ_eq_map, List.map_cons, Py.plotRanksAll]
  have hrep' : py.report order sum runs.texts ((0 : ℕ) : ℤ) = .ok rep := hrep
  have h4' := h4 r (by rw [hrs]; exact List.mem_cons_self)
  simp only [hrep', h1, hrs, List.map_cons, Py.plotRegions, h4']
  rfl

/-! ## Examples of the hypotheses -/

/-- The hypotheses of `C120` and `C120_needs_plot`, and those of `C120_order`. -/
example : Analysed demoPy demoOrder List.sum slowAndFast (1 + 1) ∧ SameWidths slowAndFast.static.flatten ∧
    (∃ F ∈ slowAndFast.static.flatten, F.rows ≠ []) ∧ '/' ∉ "runs".toList ∧ (∀ F ∈ slowAndFast.static.flatten, F.rows ≠ [] →
      '/' ∉ F.region ∧ F.region ≠ "analysis-".toList ++ "runs".toList) ∧
    [0, 1, 10, 2, 3, 4, 5, 6, 7, 8, 9].Perm (List.range 11) ∧ ByName [0, 1, 10, 2, 3, 4, 5, 6, 7, 8, 9] := by
  have h : ∀ F ∈ slowAndFast.static.flatten, F.region = "a".toList ∧ F.nf = 1 := by
    intro F hF
    have hF' : F = static 0 [(0, 1 / 2)] ∨ F = { static 0 [(0, 1 / 4)] with rank := 1 } := by
      simpa [slowAndFast] using hF
    rcases hF' with rfl | rfl <;> exact ⟨rfl, rfl⟩
  refine ⟨slowAndFast_analysed, fun F hF G hG _ => (h F hF).2.trans (h G hG).2.symm,
    ⟨static 0 [(0, 1 / 2)], by simp [slowAndFast], by decide +kernel⟩, by decide +kernel,
    fun F hF _ => ?_, by decide +kernel, ?_⟩
  · rw [(h F hF).1]
    decide +kernel
  · unfold ByName
    decide +kernel

/-- The columns of a table in the order of their names. -/
def sortColumns (l : List Text) : List Text := l.insertionSort (· ≤ ·)

/-- An arrangement as `C120` asks for. -/
example : (∀ l, (sortColumns l).Perm l) ∧ ∀ l, (sortColumns l).Pairwise (· ≤ ·) :=
  ⟨fun _ => List.perm_insertionSort _ _, fun _ => List.pairwise_insertionSort _ _⟩

/-- Two processes, two policies, and a region with two features. -/
def twoByTwo : Runs where
  static := [[⟨0, "Static,0".toList, "b".toList, 2, [⟨0, [7, 1], 0, 1 / 2⟩, ⟨1, [3, 2], 0, 1 / 4⟩]⟩,
      ⟨1, "Static,0".toList, "b".toList, 2, [⟨0, [7, 1], 0, 1 / 4⟩]⟩],
    [⟨0, "Static,1".toList, "b".toList, 2, [⟨0, [7, 1], 1, 1 / 8⟩, ⟨1, [3, 5], 1, 1 / 4⟩]⟩]]

/-- The chart: means over both processes, and no bar where there is no execution. -/
example : (demoPy.analyzePictures demoOrder List.sum sortColumns (fun _ => false) twoByTwo.texts "runs".toList
      true true 1).1.map (fun p => (p.1, match p.2 with
        | .inl _ => none
        | .inr P => some P)) =
    [("analysis-runs.pdf".toList, none),
      ("b.pdf".toList, some ⟨["Static,0".toList, "Static,1".toList],
        [([3, 2], [some (1 / 4), none]), ([3, 5], [none, some (1 / 4)]),
          ([7, 1], [some (3 / 8), some (1 / 8)])]⟩)] := by
  decide +kernel

/-- A region whose features are the numbers 0 to 10: below the group they are not in this order. -/
def eleven : Runs where
  static := [[⟨0, "Static,0".toList, "c".toList, 11, [⟨0, [0, 1, 2, 3, 4, 5, 6, 7, 8, 9, 10], 0, 1 / 2⟩]⟩]]

example : (demoPy.analyzePictures demoOrder List.sum sortColumns (fun _ => false) eleven.texts "runs".toList
      true true 1).1.map (fun p => match p.2 with
        | .inl _ => none
        | .inr P => some P) =
    [none, some ⟨["Static,0".toList], [([0, 1, 10, 2, 3, 4, 5, 6, 7, 8, 9], [some (1 / 2)])]⟩] := by
  decide +kernel

/-- The traces of a region with this name. -/
def namedRegion (name : Text) : Runs where
  static := [[{ static 0 [(0, 1 / 2)] with region := name }]]

/-- The hypotheses of `C120_needs_plain`: the region `src/a`. -/
example : Analysed demoPy demoOrder List.sum (namedRegion "src/a".toList) (0 + 1) ∧
    SameWidths (namedRegion "src/a".toList).static.flatten ∧
    (namedRegion "src/a".toList).static.flatten = [{ static 0 [(0, 1 / 2)] with region := "src/a".toList }] ∧
    (static 0 [(0, 1 / 2)]).rows ≠ [] ∧ "src/a".toList = "src".toList ++ '/' :: "a".toList ∧
    '/' ∉ "a".toList := by
  have e : (namedRegion "src/a".toList).static.flatten =
    [{ static 0 [(0, 1 / 2)] with region := "src/a".toList }] := rfl
  refine ⟨⟨demoOrder_orders, ⟨by rw [e]; simp, fun F hF => ?_⟩, by simp [namedRegion], by simp [namedRegion],
    by simp [namedRegion], by simp [namedRegion], fun r hr => ?_, by simp [namedRegion, accuracies]⟩,
    fun F hF G hG _ => ?_, e, by decide +kernel, by decide +kernel, by decide +kernel⟩
  · rw [e, List.mem_singleton] at hF
    subst hF
    obtain ⟨⟨a, b, c, d⟩, e⟩ := static_good (p := 0) (Or.inl rfl) (rows := [(0, 1 / 2)]) (by decide +kernel)
    exact ⟨⟨a, ⟨⟨'s', "rc/a".toList, by decide +kernel, by decide +kernel⟩, by decide +kernel⟩, c, d⟩, e⟩
  · have key : ∀ r < 1, (match demoPy.report demoOrder List.sum (namedRegion "src/a".toList).texts (r : ℕ) with
        | .ok _ => true
        | .error _ => false) = true := by decide +kernel
    have := key r hr
    split at this
    · exact ⟨_, by assumption⟩
    · cases this
  · rw [e, List.mem_singleton] at hF hG
    rw [hF, hG]

/-- A region `src/a`: only the picture of the first rank is saved. -/
example : ((demoPy.analyzePictures demoOrder List.sum sortColumns (fun _ => false)
      (namedRegion "src/a".toList).texts "runs".toList true true 1).1.map Prod.fst,
    (demoPy.analyzePictures demoOrder List.sum sortColumns (fun _ => false)
      (namedRegion "src/a".toList).texts "runs".toList true true 1).2) =
    (["analysis-runs.pdf".toList], some .throw) := by
  decide +kernel

/-- A region `analysis-runs` replaces the picture of the ranks. -/
theorem C120_needs_other :
    leftIn (demoPy.analyzePictures demoOrder List.sum sortColumns (fun _ => false)
      (namedRegion "analysis-runs".toList).texts "runs".toList true true 1).1 "analysis-runs.pdf".toList =
    some (.inr ⟨["Static,0".toList], [([3], [some (1 / 2)])]⟩) := by
  decide +kernel

end Apollo.Props
