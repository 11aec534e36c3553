import Verif.Proofs.ScriptAgg
import Verif.Props.Trace

/-!
# Property C89: create-dataset.py turns traces into the datasets of the regions
-/

namespace Apollo.Props

open Apollo Apollo.Spec Apollo.Scripts

/-- The files that the script wrote: one for each region that was measured in the traces `fs`, which
`Apollo::Dataset::load` reads as a dataset that is `what` should become of the measurements. -/
def WritesDatasets (fs : List RegionTrace) (out : List (List Char × List Char))
    (what : List Meas → Dataset → Prop) : Prop :=
  ∃ rs : List (List Char), rs.Nodup ∧ (∀ r, r ∈ rs ↔ measurements fs r ≠ []) ∧
    List.Forall₂ (fun r o => o.1 = datasetName r ∧
      ∃ d, Dataset.load [] o.2 = .ok d ∧ what (measurements fs r) d) rs out

/-- `--agg none`: the dataset after adding the measurements, as Apollo itself keeps it. -/
def AllOf (ms : List Meas) (d : Dataset) : Prop := d = run ms

/-- `--agg min`: for each vector of features the first of the executions with the least time. -/
def LeastOf (ms : List Meas) (d : Dataset) : Prop :=
  ∀ f p m, (f, p, m) ∈ d.toVectorOfTuples ↔ IsFirstLeast ms ⟨f, p, m⟩

/-- `--agg mean`: for each vector of features and policy the mean time. -/
def MeansOf (mean : List ℚ → ℚ) (ms : List Meas) (d : Dataset) : Prop :=
  ∀ f p m, (f, p, m) ∈ d.toVectorOfTuples ↔ metricsOf ms f p ≠ [] ∧ m = mean (metricsOf ms f p)

/-- `--agg mean-min`: for each vector of features the policy with the least mean time, the smallest of
them, and that time. -/
def LeastMeansOf (mean : List ℚ → ℚ) (ms : List Meas) (d : Dataset) : Prop :=
  ∀ f p m, (f, p, m) ∈ d.toVectorOfTuples ↔ metricsOf ms f p ≠ [] ∧ m = mean (metricsOf ms f p) ∧
    ∀ p', metricsOf ms f p' ≠ [] →
      m < mean (metricsOf ms f p') ∨ (m = mean (metricsOf ms f p') ∧ p ≤ p')

/-- The number of executions in files. -/
def executions (fs : List RegionTrace) : ℕ := (fs.map fun F => F.rows.length).sum

theorem length_execs (fs : List RegionTrace) : (execs fs).length = executions fs := by
  unfold execs executions
  rw [List.length_flatMap]
  simp

theorem mem_execs {fs : List RegionTrace} {p : RegionTrace × Row} (h : p ∈ execs fs) : p.1 ∈ fs := by
  obtain ⟨F, hF, hp⟩ := List.mem_flatMap.1 h
  obtain ⟨x, -, rfl⟩ := List.mem_map.1 hp
  exact hF

/-- From the rows of one region to the script. -/
theorem writes_of_agg (py : Py) {agg : Agg} {fs : List RegionTrace} {ts : List Text}
    {ds : List (List Text)} {data : Frame} {N : ℕ}
    (hd : py.readData ts ds = .ok data) (hcols : data.cols = Spec.headerColumns N)
    (hle : ∀ F ∈ fs, F.nf ≤ N) (hrows : RowsOf (execs fs) data.rows)
    (h : ∀ F ∈ fs, F.Wellformed ∧ F.Kept py) (hs : SameWidths fs) (hl : executions fs ≤ 2 ^ 31)
    {what : List Meas → Dataset → Prop} {title : Text} (htitle : '\n' ∉ title)
    (hagg : ∀ (es : List (RegionTrace × Row)) r n rows, es ≠ [] → es = ofRegion (execs fs) r →
      (∀ p ∈ es, p.1.Wellformed ∧ p.1.Kept py) → es.length ≤ 2 ^ 31 → (∀ p ∈ es, p.1.nf = n) →
      (∃ F ∈ fs, F.nf = n) → RowsOf es rows → ∃ l ms,
        py.aggregate ⟨"index".toList :: Spec.headerColumns n, rows⟩ agg =
          .ok ('#' :: title ++ "\n".toList, l) ∧ List.Forall₂ EntryReads l ms ∧
        l.length ≤ 2 ^ 31 ∧ what (es.map fun p => p.2.meas) (run ms)) :
    ∃ out, py.createDataset agg ts ds = (out, none) ∧ WritesDatasets fs out what := by
  obtain ⟨rs, out, h1, h2, h3, h4⟩ := createDataset_ok py (agg := agg) hd hcols hrows
    (fun p hp => hle _ (mem_execs hp))
    (fun p hp p' hp' e => hs _ (mem_execs hp) _ (mem_execs hp') e)
    (P := fun r ms => what (measurements fs r) (run ms)) (by
      intro r n rows hne hn hR
      have hsub : ∀ p ∈ ofRegion (execs fs) r, p ∈ execs fs := fun p hp => List.mem_of_mem_filter hp
      obtain ⟨p0, hp0⟩ := List.exists_mem_of_ne_nil _ hne
      obtain ⟨l, ms, a1, a2, a3, a4⟩ := hagg _ r n rows hne rfl (fun p hp => h _ (mem_execs (hsub p hp)))
        ((List.length_filter_le _ _).trans (by rw [length_execs]; exact hl)) hn
        ⟨p0.1, mem_execs (hsub p0 hp0), hn p0 hp0⟩ hR
      exact ⟨title, l, ms, a1, htitle, a2, a3, by rw [measurements_eq]; exact a4⟩)
  refine ⟨out, h1, rs, h2, ?_, ?_⟩
  · intro r
    rw [h3, measurements_eq]
    simp
  · refine h4.imp fun r o => ?_
    rintro ⟨e, ms, a, b⟩
    exact ⟨e, _, b, a⟩

/-- The script reads the traces `fs`, as files or as the contents of directories. -/
inductive Given (fs : List RegionTrace) : List Text → List (List Text) → Prop
  | files : fs ≠ [] → Given fs (fs.map RegionTrace.text) []
  | dirs (ds : List (List RegionTrace)) : ds ≠ [] → (∀ d ∈ ds, d ≠ []) → ds.flatten = fs →
      Given fs [] (ds.map fun d => d.map RegionTrace.text)

theorem readData_given (py : Py) {fs : List RegionTrace} {ts : List Text} {ds : List (List Text)}
    (hg : Given fs ts ds) (h : ∀ F ∈ fs, F.Wellformed ∧ F.Kept py) (hw : WidestFirst fs) :
    ∃ data N, py.readData ts ds = .ok data ∧ data.cols = Spec.headerColumns N ∧
      (∀ F ∈ fs, F.nf ≤ N) ∧ RowsOf (execs fs) data.rows := by
  cases hg with
  | files hne => exact readData_files py hne h hw
  | dirs ds h1 h2 e => subst e; exact readData_dirs py h1 h2 h hw

/-- C89 without aggregation: if the first trace is of a region with the most features, the script
succeeds and writes for each region measured the file `Dataset-<region>.yaml`, and what Apollo loads
from this file is the dataset it would have itself after these measurements. -/
theorem C89_partial (py : Py) {fs : List RegionTrace} {ts : List Text} {ds : List (List Text)}
    (hg : Given fs ts ds) (h : ∀ F ∈ fs, F.Wellformed ∧ F.Kept py) (hw : WidestFirst fs)
    (hs : SameWidths fs) (hl : executions fs ≤ 2 ^ 31) :
    ∃ out, py.createDataset .none ts ds = (out, none) ∧ WritesDatasets fs out AllOf := by
  obtain ⟨data, N, h1, h2, h3, h4⟩ := readData_given py hg h hw
  refine writes_of_agg py h1 h2 h3 h4 h hs hl (title := " agg by none".toList) (by decide) ?_
  intro es r n rows hne _ hk hle hn _ hR
  obtain ⟨l, a1, a2, a3⟩ := agg_none py hne hk hle hn hR
  exact ⟨l, _, a1, a2, a3, rfl⟩

/-- C89 with `--agg min`, for regions with features. -/
theorem C89_min_partial (py : Py) {fs : List RegionTrace} {ts : List Text} {ds : List (List Text)}
    (hg : Given fs ts ds) (h : ∀ F ∈ fs, F.Wellformed ∧ F.Kept py) (hw : WidestFirst fs)
    (hs : SameWidths fs) (hl : executions fs ≤ 2 ^ 31) (hf : ∀ F ∈ fs, F.nf ≠ 0) :
    ∃ out, py.createDataset .min ts ds = (out, none) ∧ WritesDatasets fs out LeastOf := by
  obtain ⟨data, N, h1, h2, h3, h4⟩ := readData_given py hg h hw
  refine writes_of_agg py h1 h2 h3 h4 h hs hl (title := " agg by min".toList) (by decide) ?_
  rintro es r n rows hne _ hk hle hn ⟨F, hF, rfl⟩ hR
  exact agg_min py hk hle (hf F hF) hn hR

/-- C89 with `--agg mean`, for regions with features, or with `pandas` 2, if the means print. -/
theorem C89_mean_partial (py : Py) {fs : List RegionTrace} {ts : List Text} {ds : List (List Text)}
    (hg : Given fs ts ds) (h : ∀ F ∈ fs, F.Wellformed ∧ F.Kept py) (hw : WidestFirst fs)
    (hs : SameWidths fs) (hl : executions fs ≤ 2 ^ 31)
    (hf : ∀ F ∈ fs, F.nf ≠ 0 ∨ py.single ≠ none)
    (hpr : ∀ r f p, metricsOf (measurements fs r) f p ≠ [] →
      Prints py (py.mean (metricsOf (measurements fs r) f p))) :
    ∃ out, py.createDataset .mean ts ds = (out, none) ∧ WritesDatasets fs out (MeansOf py.mean) := by
  obtain ⟨data, N, h1, h2, h3, h4⟩ := readData_given py hg h hw
  refine writes_of_agg py h1 h2 h3 h4 h hs hl (title := " agg by mean".toList) (by decide) ?_
  rintro es r n rows hne rfl hk hle hn ⟨F, hF, rfl⟩ hR
  refine agg_mean py hk hle (hf F hF) ?_ hn hR
  intro f p
  rw [← measurements_eq]
  exact hpr r f p

/-- C89 with `--agg mean-min`, for regions with two or more features, or one with `pandas` before 2, if
the means print. -/
theorem C89_mean_min_partial (py : Py) {fs : List RegionTrace} {ts : List Text} {ds : List (List Text)}
    (hg : Given fs ts ds) (h : ∀ F ∈ fs, F.Wellformed ∧ F.Kept py) (hw : WidestFirst fs)
    (hs : SameWidths fs) (hl : executions fs ≤ 2 ^ 31)
    (hf : ∀ F ∈ fs, F.nf ≠ 0 ∧ (F.nf ≠ 1 ∨ py.single = none))
    (hpr : ∀ r f p, metricsOf (measurements fs r) f p ≠ [] →
      Prints py (py.mean (metricsOf (measurements fs r) f p))) :
    ∃ out, py.createDataset .meanMin ts ds = (out, none) ∧
      WritesDatasets fs out (LeastMeansOf py.mean) := by
  obtain ⟨data, N, h1, h2, h3, h4⟩ := readData_given py hg h hw
  refine writes_of_agg py h1 h2 h3 h4 h hs hl (title := " agg by mean_min".toList) (by decide) ?_
  rintro es r n rows hne rfl hk hle hn ⟨F, hF, rfl⟩ hR
  refine agg_meanMin py hk hle (hf F hF).1 (hf F hF).2 ?_ hn hR
  intro f p
  rw [← measurements_eq]
  exact hpr r f p

/-- C89 from a program to a dataset: at any point of any execution with APOLLO_TRACE_CSV, the script makes
of the trace of a region the dataset of the executions of the region. -/
theorem C89_program (gen : ℕ → ℕ → ℕ) (tenv : ℕ → TrainEnv) (env : Env PolicyModel)
    (he : env.ops = policyOps gen tenv) (cfg : Cfg) (files : Str → Option Str)
    (ops : List Apollo.Op) (w : World PolicyModel) (h : exec env ops (initWorld cfg files) = .ok w)
    (ht : w.cfg.traceCsv = true) (r : ℕ) (R : Region) (m : PolicyModel)
    (hR : w.regions r = some R) (hm : w.models r = some m)
    (hp : (observe w.log).proper r = true) (py : Py)
    (hF : RegionTrace.Wellformed ⟨env.rank, m.name, R.name, R.numFeatures.toNat, (observe w.log).rows r⟩)
    (hk : RegionTrace.Kept py ⟨env.rank, m.name, R.name, R.numFeatures.toNat, (observe w.log).rows r⟩)
    (hne : (observe w.log).rows r ≠ []) (hl : ((observe w.log).rows r).length ≤ 2 ^ 31) :
    ∃ text, py.createDataset .none [R.trace] [] = ([(datasetName R.name, text)], none) ∧
      Dataset.load [] text = .ok (run (((observe w.log).rows r).map Row.meas)) := by
  have ha : Named env.ops := by rw [he]; exact policyOps_named gen tenv
  have h1 := ((TraceInv.invariant ha fun _ => True).exec (fun _ _ _ _ => trivial)
    ⟨logInv_init cfg files, traceInv_init env cfg files⟩ h).2 ht r R m hR hm hp
  have h2 : R.trace = RegionTrace.text
      ⟨env.rank, m.name, R.name, R.numFeatures.toNat, (observe w.log).rows r⟩ := by
    rw [h1, he]; rfl
  obtain ⟨out, o1, rs, o2, o3, o4⟩ := C89_partial py
    (fs := [⟨env.rank, m.name, R.name, R.numFeatures.toNat, (observe w.log).rows r⟩])
    (Given.files (by simp)) (by
      intro F hF'
      rw [List.mem_singleton.1 hF']
      exact ⟨hF, hk⟩) (by intro G hG; cases hG) (by
      intro F hF' G hG _
      rw [List.mem_singleton.1 hF', List.mem_singleton.1 hG]) (by simpa [executions] using hl)
  have hrs : rs = [R.name] := by
    have hmem : ∀ r', r' ∈ rs ↔ r' = R.name := by
      intro r'
      rw [o3]
      by_cases e : R.name = r'
      · simp [measurements, e, hne]
      · simp [measurements, e, Ne.symm e]
    cases rs with
    | nil => exact absurd ((hmem R.name).2 rfl) (by simp)
    | cons a rs =>
      have ha := (hmem a).1 (by simp)
      cases rs with
      | nil => rw [ha]
      | cons b rs =>
        have hb := (hmem b).1 (by simp)
        rw [ha, hb] at o2
        simp at o2
  subst hrs
  cases o4 with
  | cons h3 h4 =>
    cases h4
    obtain ⟨e1, d, e2, e3⟩ := h3
    rename_i o
    refine ⟨o.2, ?_, ?_⟩
    · rw [h2, ← e1]
      exact o1
    · rw [e2, e3]
      simp [measurements]

/-! ## Where the script fails -/

/-- A Python that reads decimal numbers to nearest and prints six digits, with `pandas` before 2. -/
def demoPy : Py where
  toDouble s := match readDecimal s with
    | some (v, _) => rnd64 v
    | none => 0
  repr x :=
    let t := fmtG6 x
    if t.all (fun c => isDigit c || c = '-') then t ++ ".0".toList else t
  mean l := rnd64 (l.sum / l.length)

/-- The same with `pandas` 2. -/
def demoPy2 : Py := { demoPy with single := some fun s => "(".toList ++ s ++ ",)".toList }

/-- A region with one feature. -/
def narrow : RegionTrace :=
  ⟨0, "DecisionTree".toList, "a".toList, 1, [⟨0, [3], 0, 1 / 2⟩, ⟨1, [4], 1, 1 / 4⟩]⟩

/-- A region with two features. -/
def wide : RegionTrace :=
  ⟨0, "DecisionTree".toList, "b".toList, 2, [⟨0, [3, 7], 0, 1 / 2⟩, ⟨1, [4, 8], 1, 1 / 4⟩]⟩

theorem narrow_good : narrow.Wellformed ∧ narrow.Kept demoPy := by
  refine ⟨⟨⟨⟨'D', "ecisionTree".toList, by decide +kernel, by decide +kernel⟩, by decide +kernel⟩,
    ⟨⟨'a', [], by decide +kernel, by decide +kernel⟩, by decide +kernel⟩, by decide +kernel,
    by decide +kernel⟩, ?_⟩
  intro x hx
  rcases List.mem_cons.1 hx with rfl | hx
  · refine ⟨?_, ⟨5, -1, by decide +kernel, by decide +kernel, Or.inr (by decide +kernel)⟩,
      ⟨by decide +kernel, by decide +kernel, by decide +kernel, by decide +kernel⟩⟩
    intro q hq
    rw [List.mem_singleton.1 hq]
    exact ⟨⟨3, 0, by decide +kernel, by decide +kernel, Or.inr (by decide +kernel)⟩,
      ⟨by decide +kernel, by decide +kernel, by decide +kernel, by decide +kernel⟩⟩
  · rw [List.mem_singleton.1 hx]
    refine ⟨?_, ⟨25, -2, by decide +kernel, by decide +kernel, Or.inr (by decide +kernel)⟩,
      ⟨by decide +kernel, by decide +kernel, by decide +kernel, by decide +kernel⟩⟩
    intro q hq
    rw [List.mem_singleton.1 hq]
    exact ⟨⟨4, 0, by decide +kernel, by decide +kernel, Or.inr (by decide +kernel)⟩,
      ⟨by decide +kernel, by decide +kernel, by decide +kernel, by decide +kernel⟩⟩

theorem wide_good : wide.Wellformed ∧ wide.Kept demoPy := by
  refine ⟨⟨⟨⟨'D', "ecisionTree".toList, by decide +kernel, by decide +kernel⟩, by decide +kernel⟩,
    ⟨⟨'b', [], by decide +kernel, by decide +kernel⟩, by decide +kernel⟩, by decide +kernel,
    by decide +kernel⟩, ?_⟩
  intro x hx
  rcases List.mem_cons.1 hx with rfl | hx
  · refine ⟨?_, ⟨5, -1, by decide +kernel, by decide +kernel, Or.inr (by decide +kernel)⟩,
      ⟨by decide +kernel, by decide +kernel, by decide +kernel, by decide +kernel⟩⟩
    intro q hq
    rcases List.mem_cons.1 hq with rfl | hq
    · exact ⟨⟨3, 0, by decide +kernel, by decide +kernel, Or.inr (by decide +kernel)⟩,
        ⟨by decide +kernel, by decide +kernel, by decide +kernel, by decide +kernel⟩⟩
    · rw [List.mem_singleton.1 hq]
      exact ⟨⟨7, 0, by decide +kernel, by decide +kernel, Or.inr (by decide +kernel)⟩,
        ⟨by decide +kernel, by decide +kernel, by decide +kernel, by decide +kernel⟩⟩
  · rw [List.mem_singleton.1 hx]
    refine ⟨?_, ⟨25, -2, by decide +kernel, by decide +kernel, Or.inr (by decide +kernel)⟩,
      ⟨by decide +kernel, by decide +kernel, by decide +kernel, by decide +kernel⟩⟩
    intro q hq
    rcases List.mem_cons.1 hq with rfl | hq
    · exact ⟨⟨4, 0, by decide +kernel, by decide +kernel, Or.inr (by decide +kernel)⟩,
        ⟨by decide +kernel, by decide +kernel, by decide +kernel, by decide +kernel⟩⟩
    · rw [List.mem_singleton.1 hq]
      exact ⟨⟨8, 0, by decide +kernel, by decide +kernel, Or.inr (by decide +kernel)⟩,
        ⟨by decide +kernel, by decide +kernel, by decide +kernel, by decide +kernel⟩⟩

/-- The entries that Apollo loads from a text. -/
def loaded (text : Text) : Option (List (Features × ℤ × ℚ)) :=
  match Dataset.load [] text with
  | .ok d => some d.toVectorOfTuples
  | .error _ => none

/-- C89 is false when a region with fewer features comes first: the script succeeds and Apollo loads what
it writes, but the dataset of the wider region has the policies as its last feature, instead of the
feature measured. -/
theorem C89_widths_fail :
    (∀ F ∈ [narrow, wide], F.Wellformed ∧ F.Kept demoPy) ∧ SameWidths [narrow, wide] ∧
    ∃ a b, demoPy.createDataset .none ([narrow, wide].map RegionTrace.text) [] =
        ([(datasetName narrow.region, a), (datasetName wide.region, b)], none) ∧
      loaded a = some [([3], 0, 1 / 2), ([4], 1, 1 / 4)] ∧
      loaded b = some [([3, 0], 0, 1 / 2), ([4, 1], 1, 1 / 4)] := by
  refine ⟨?_, ?_, ?_⟩
  · intro F hF
    rcases List.mem_cons.1 hF with rfl | hF
    · exact narrow_good
    · rw [List.mem_singleton.1 hF]; exact wide_good
  · unfold SameWidths; decide +kernel
  · have h1 : (demoPy.createDataset .none ([narrow, wide].map RegionTrace.text) []).2 = none := by
      decide +kernel
    have h2 : (demoPy.createDataset .none ([narrow, wide].map RegionTrace.text) []).1.map Prod.fst =
        [datasetName narrow.region, datasetName wide.region] := by decide +kernel
    have h3 : (demoPy.createDataset .none ([narrow, wide].map RegionTrace.text) []).1.map
        (fun o => loaded o.2) =
        [some [([3], 0, 1 / 2), ([4], 1, 1 / 4)], some [([3, 0], 0, 1 / 2), ([4, 1], 1, 1 / 4)]] := by
      decide +kernel
    generalize demoPy.createDataset .none ([narrow, wide].map RegionTrace.text) [] = o at h1 h2 h3
    obtain ⟨out, e⟩ := o
    match out, h2, h3 with
    | [(n1, t1), (n2, t2)], h2, h3 =>
      simp only [List.map_cons, List.map_nil, List.cons.injEq, and_true] at h2 h3
      obtain ⟨rfl, rfl⟩ := h2
      obtain ⟨h4, h5⟩ := h3
      simp only at h1
      subst h1
      exact ⟨t1, t2, rfl, h4, h5⟩

/-- The names of the files that the script writes, the entries that Apollo loads from them, and the error
that ended it. -/
structure Outcome where
  names : List Text
  entries : List (Option (List (Features × ℤ × ℚ)))
  error : Option Err
  deriving DecidableEq

/-- The outcome of the script. -/
def outcome (o : List (Text × Text) × Option Err) : Outcome :=
  ⟨o.1.map Prod.fst, o.1.map fun f => loaded f.2, o.2⟩

/-- C89 is false for the directory that Apollo fills: it also has the trace of the process, which names no
regions.  The script ends with an error; if it finds the trace of the process last it has written files
that Apollo does not load, because the policies are no longer integers, and if first none. -/
theorem C89_dirs_fail : ∃ w, exec demoEnv demoOps (initWorld { traceCsv := true } fun _ => none) = .ok w ∧
    ((observe w.log).proper 0 = true ∧
    (w.regions 0).map (fun R => outcome (demoPy.createDataset .none [] [[R.trace]])) =
      some ⟨[datasetName "a".toList], [some [([3], 0, 1 / 2), ([4], 1, 1 / 4)]], none⟩ ∧
    (w.regions 0).map (fun R => outcome (demoPy.createDataset .none [] [[R.trace, w.gtrace]])) =
      some ⟨[datasetName "a".toList], [none], some .throw⟩ ∧
    (w.regions 0).map (fun R => outcome (demoPy.createDataset .none [] [[w.gtrace, R.trace]])) =
      some ⟨[], [], some .throw⟩) :=
  run_ok (by decide +kernel)

/-- `--agg mean-min` with `pandas` 2 prints a tuple for the only feature, which Apollo does not load. -/
theorem C89_single_fail :
    ((demoPy2.createDataset .meanMin [narrow.text] []).1.map fun f => loaded f.2) = [none] ∧
    ((demoPy.createDataset .meanMin [narrow.text] []).1.map fun f => loaded f.2) =
      [some [([3], 0, 1 / 2), ([4], 1, 1 / 4)]] := ⟨by decide +kernel, by decide +kernel⟩

/-- A region without features has no groups: `--agg min` and `--agg mean-min` end with an error. -/
theorem C89_no_features_fail :
    let F : RegionTrace := ⟨0, "Static,0".toList, "c".toList, 0, [⟨0, [], 0, 1 / 2⟩]⟩
    demoPy.createDataset .min [F.text] [] = ([], some .throw) ∧
    demoPy.createDataset .meanMin [F.text] [] = ([], some .throw) ∧
    demoPy.createDataset .mean [F.text] [] = ([], some .throw) ∧
    (demoPy.createDataset .none [F.text] []).2 = none := by decide +kernel

/-! ## Examples of the hypotheses -/

theorem both_good : ∀ F ∈ [wide, narrow], F.Wellformed ∧ F.Kept demoPy := by
  intro F hF
  rcases List.mem_cons.1 hF with rfl | hF
  · exact wide_good
  · rw [List.mem_singleton.1 hF]; exact narrow_good

theorem both_widths : WidestFirst [wide, narrow] ∧ SameWidths [wide, narrow] := by
  unfold WidestFirst SameWidths; decide +kernel

/-- Hypotheses of `C89_partial`, for files and for directories. -/
example : ∃ out, demoPy.createDataset .none ([wide, narrow].map RegionTrace.text) [] = (out, none) ∧
    WritesDatasets [wide, narrow] out AllOf :=
  C89_partial demoPy (Given.files (by simp)) both_good both_widths.1 both_widths.2 (by decide +kernel)

example : ∃ out, demoPy.createDataset .none [] ([[wide], [narrow]].map fun d => d.map RegionTrace.text) =
    (out, none) ∧ WritesDatasets [wide, narrow] out AllOf :=
  C89_partial demoPy (Given.dirs [[wide], [narrow]] (by simp) (by simp) rfl) both_good both_widths.1
    both_widths.2 (by decide +kernel)

/-- Hypotheses of `C89_min_partial`. -/
example : ∃ out, demoPy.createDataset .min ([wide, narrow].map RegionTrace.text) [] = (out, none) ∧
    WritesDatasets [wide, narrow] out LeastOf :=
  C89_min_partial demoPy (Given.files (by simp)) both_good both_widths.1 both_widths.2
    (by decide +kernel) (by decide +kernel)

/-- A region with two executions of one policy. -/
def twice : RegionTrace :=
  ⟨0, "DecisionTree".toList, "b".toList, 2, [⟨0, [3, 7], 0, 1 / 2⟩, ⟨1, [3, 7], 0, 1 / 4⟩]⟩

theorem twice_good : twice.Wellformed ∧ twice.Kept demoPy := by
  refine ⟨⟨wide_good.1.model, wide_good.1.region, wide_good.1.rank, by decide +kernel⟩, ?_⟩
  have hf := (wide_good.2 ⟨0, [3, 7], 0, 1 / 2⟩ (by decide +kernel)).1
  intro x hx
  rcases List.mem_cons.1 hx with rfl | hx
  · exact wide_good.2 ⟨0, [3, 7], 0, 1 / 2⟩ (by decide +kernel)
  · rw [List.mem_singleton.1 hx]
    exact ⟨hf, (wide_good.2 ⟨1, [4, 8], 1, 1 / 4⟩ (by decide +kernel)).2⟩

theorem twice_prints (r : Text) (f : Features) (p : ℤ)
    (h : metricsOf (measurements [twice] r) f p ≠ []) :
    Prints demoPy (demoPy.mean (metricsOf (measurements [twice] r) f p)) := by
  rw [measurements_eq] at h ⊢
  obtain ⟨q, hq, rfl, rfl⟩ := metricsOf_ne_nil.1 h
  obtain ⟨hq, hr⟩ := List.mem_filter.1 hq
  have hF : q.1 = twice := List.mem_singleton.1 (mem_execs hq)
  have hx : q.2 ∈ twice.rows := by
    obtain ⟨F, hF', hp⟩ := List.mem_flatMap.1 hq
    obtain ⟨x, hx, rfl⟩ := List.mem_map.1 hp
    rwa [List.mem_singleton.1 hF'] at hx
  rw [decide_eq_true_eq, hF] at hr
  subst hr
  have e : q.2.features = [3, 7] ∧ q.2.policy = 0 := by
    rcases List.mem_cons.1 hx with e | hx
    · rw [e]; exact ⟨rfl, rfl⟩
    · rw [List.mem_singleton.1 hx]; exact ⟨rfl, rfl⟩
  rw [e.1, e.2]
  exact ⟨⟨3 / 8, by decide +kernel, by decide +kernel, by decide +kernel⟩, by decide +kernel,
    by decide +kernel⟩

/-- Hypotheses of `C89_mean_partial` and `C89_mean_min_partial`. -/
example : ∃ out, demoPy.createDataset .mean ([twice].map RegionTrace.text) [] = (out, none) ∧
    WritesDatasets [twice] out (MeansOf demoPy.mean) :=
  C89_mean_partial demoPy (Given.files (by simp))
    (fun F hF => by rw [List.mem_singleton.1 hF]; exact twice_good) (by unfold WidestFirst; decide +kernel)
    (by unfold SameWidths; decide +kernel) (by decide +kernel)
    (fun F hF => Or.inl (by rw [List.mem_singleton.1 hF]; decide +kernel)) twice_prints

example : ∃ out, demoPy.createDataset .meanMin ([twice].map RegionTrace.text) [] = (out, none) ∧
    WritesDatasets [twice] out (LeastMeansOf demoPy.mean) :=
  C89_mean_min_partial demoPy (Given.files (by simp))
    (fun F hF => by rw [List.mem_singleton.1 hF]; exact twice_good) (by unfold WidestFirst; decide +kernel)
    (by unfold SameWidths; decide +kernel) (by decide +kernel)
    (fun F hF => by rw [List.mem_singleton.1 hF]; decide +kernel) twice_prints

/-- What the script makes of two executions: all, the mean, and the least. -/
example : [Agg.none, .mean, .min, .meanMin].map
    (fun a => (outcome (demoPy.createDataset a [twice.text] [])).entries) =
      [[some [([3, 7], 0, 3 / 8)]], [some [([3, 7], 0, 3 / 8)]], [some [([3, 7], 0, 1 / 4)]],
        [some [([3, 7], 0, 3 / 8)]]] := by decide +kernel

/-- Hypotheses of `C89_program` in an example: the trace of `demoOps` is the one of `narrow`. -/
example : ∃ w, exec demoEnv demoOps (initWorld { traceCsv := true } fun _ => none) = .ok w ∧
    (w.cfg.traceCsv = true ∧ (observe w.log).proper 0 = true ∧ demoEnv.rank = narrow.rank ∧
      (w.regions 0).map Region.name = some narrow.region ∧
      (w.regions 0).map (fun R => R.numFeatures.toNat) = some narrow.nf ∧
      (w.models 0).map PolicyModel.name = some narrow.model ∧
      (observe w.log).rows 0 = narrow.rows) :=
  run_ok (by decide +kernel)

end Apollo.Props
