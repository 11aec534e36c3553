import Verif.Proofs.PlotTrace
import Verif.Props.AnalyzeTraces

/-!
# C105: plot-trace.py labels every bar with the mean time of its executions, in milliseconds

The labels are in microseconds, although the title of the picture says "in ms" (`C105_units_fail`).  In this
unit the claim is proved (`C105_partial`).
-/

namespace Apollo.Props

open Scripts Spec

/-- The two charts, the title with the model, and the numbers of executions in the titles of the charts, when
the times are shown in the unit: the first chart has the executions before the `n`-th (without the first one
if `--drop-first` is given), the second all others. -/
structure Shows (py : Py) (unit : ℚ) (rows : List Row) (info : List Char) (n : ℕ) (dropFirst : Bool)
    (P : Plot) : Prop where
  name : P.name = info
  training : Charts (Labelled py.mean unit) ((rows.take n).drop (if dropFirst then 1 else 0)) P.training
  trained : P.trained = ((rows.take n).drop (if dropFirst then 1 else 0)).length
  tuning : Charts (Labelled py.mean unit) (rows.drop n) P.tuning
  tuned : P.tuned = (rows.drop n).length

/-- C105, as it is stated for the charts. -/
def C105 : Prop :=
  ∀ (py : Py) (F : RegionTrace), F.Wellformed → F.Kept py → 0 < F.nf →
    ∀ info, (∀ c ∈ info, c ≠ '-' ∧ c ≠ '\n') → ∀ (n : ℕ) (b : Bool), (if b then 1 else 0) < n →
      n < F.rows.length →
        ∃ P, py.plotTrace (traceFile info F.region F.rank) F.text n b = .ok P ∧
          Shows py (1 / 1000) F.rows info n b P

/-- C105 with the unit that the script uses, microseconds. -/
theorem C105_partial (py : Py) {F : RegionTrace} (hF : F.Wellformed) (hk : F.Kept py) (hnf : 0 < F.nf)
    {info : List Char} (hi : ∀ c ∈ info, c ≠ '-' ∧ c ≠ '\n') {n : ℕ} {b : Bool} (hb : (if b then 1 else 0) < n)
    (hn : n < F.rows.length) :
    ∃ P, py.plotTrace (traceFile info F.region F.rank) F.text n b = .ok P ∧
      Shows py (1 / 1000000) F.rows info n b P := by
  have hl : ((F.rows.take n).drop (if b then 1 else 0)).length = n - (if b then 1 else 0) := by
    rw [List.length_drop, List.length_take]
    omega
  have h1 : (F.rows.take n).drop (if b then 1 else 0) ≠ [] := by
    rw [← List.length_pos_iff_ne_nil, hl]
    omega
  have h2 : F.rows.drop n ≠ [] := by
    rw [← List.length_pos_iff_ne_nil, List.length_drop]
    omega
  obtain ⟨P, e, p1, p2, p3, p4, p5⟩ := plotTrace_ok py hF hk hnf (plotName_file F.rank hi) n b h1 h2
  refine ⟨P, e, p1, p4, ?_, p5, p3⟩
  rw [p2, hl]
  cases b <;> simp only [Bool.false_eq_true, if_true, if_false] at hb ⊢ <;> omega

/-- C105 for the trace that a program wrote. -/
theorem C105_programs_partial (py : Py) (t : TracedRun) (hw : t.executed.Wellformed) (hk : t.executed.Kept py)
    (hnf : 0 < t.R.numFeatures) {info : List Char} (hi : ∀ c ∈ info, c ≠ '-' ∧ c ≠ '\n') {n : ℕ} {b : Bool}
    (hb : (if b then 1 else 0) < n) (hn : n < ((observe t.w.log).rows t.r).length) :
    ∃ P, py.plotTrace (traceFile info t.R.name t.env.rank) t.R.trace n b = .ok P ∧
      Shows py (1 / 1000000) ((observe t.w.log).rows t.r) info n b P := by
  rw [t.text]
  exact C105_partial py hw hk (F := t.executed) (by show 0 < t.R.numFeatures.toNat; omega) hi hb hn

/-- The file that is drawn is the one that Apollo writes into the directory of traces. -/
theorem C105_file (cfg : Cfg) (rank : ℤ) (info region : List Char) :
    tracePath cfg rank info region = cfg.outputDir ++ "/".toList ++ cfg.tracesDir ++ "/".toList ++
      traceFile info region rank := by
  unfold tracePath traceFile
  simp only [List.append_assoc]
  rfl

/-! ## Examples of the hypotheses -/

/-- Hypotheses of `C105_partial`, with what is drawn. -/
example : narrow.Wellformed ∧ narrow.Kept demoPy ∧ 0 < narrow.nf ∧
    (∀ c ∈ "DecisionTree,max_depth=4".toList, c ≠ '-' ∧ c ≠ '\n') ∧ (if false then 1 else 0) < 1 ∧
    1 < narrow.rows.length ∧
    demoPy.plotTrace (traceFile "DecisionTree,max_depth=4".toList "a".toList 0) narrow.text 1 false =
      .ok ⟨"DecisionTree,max_depth=4".toList, 1, [["500000.00".toList]], 1, [["250000.00".toList]]⟩ :=
  ⟨narrow_good.1, narrow_good.2, by decide, by decide +kernel, by decide, by decide, by decide +kernel⟩

/-- Hypotheses of `C105_programs_partial`. -/
example : ∃ t : TracedRun, t.executed.Wellformed ∧ t.executed.Kept demoPy ∧ 0 < t.R.numFeatures ∧
    1 < ((observe t.w.log).rows t.r).length := by
  obtain ⟨t, ht⟩ := staticProgram_run (Or.inl rfl)
  have hg := static_good (p := 0) (Or.inl rfl) (rows := [(0, 1 / 2), (1, 1 / 4)]) (by decide +kernel)
  have ht' : t.executed = static 0 [(0, 1 / 2), (1, 1 / 4)] := ht
  refine ⟨t, by rw [ht']; exact hg.1, by rw [ht']; exact hg.2, ?_, ?_⟩
  · have : t.R.numFeatures.toNat = 1 := congrArg RegionTrace.nf ht'
    omega
  · have : (observe t.w.log).rows t.r = (static 0 [(0, 1 / 2), (1, 1 / 4)]).rows :=
      congrArg RegionTrace.rows ht'
    rw [this]
    decide

/-- Four executions with two features and three policies. -/
def charted : List (ℚ × ℚ × ℚ) := [(2, 8, 1 / 4), (0, 8, 1 / 2), (0, 3, 1 / 8), (0, 8, 1 / 4)]

/-- The groups of bars of these executions. -/
example : ((List.range 2).map fun i => stride 2 i (demoPy.barLabels charted)) =
    [["125000.00".toList, "0".toList], ["375000.00".toList, "250000.00".toList]] := by decide +kernel

/-! ## The unit -/

/-- C105 is false: the time of half a second is labelled as 500000 ms. -/
theorem C105_units_fail : ¬ C105 := by
  intro h
  obtain ⟨P, e, hP⟩ := h demoPy narrow narrow_good.1 narrow_good.2 (by decide) "DecisionTree".toList
    (by decide +kernel) 1 false (by decide) (by decide)
  have e' : demoPy.plotTrace (traceFile "DecisionTree".toList narrow.region narrow.rank) narrow.text
      ((1 : ℕ) : ℤ) false = .ok ⟨"DecisionTree".toList, 1, [["500000.00".toList]], 1, [["250000.00".toList]]⟩ := by
    decide +kernel
  rw [e] at e'
  cases Except.ok.inj e'
  obtain ⟨fs, ps, hf, hp, hc⟩ := hP.training
  cases hc with
  | cons h1 h2 =>
    cases h2
    cases h1 with
    | cons h3 h4 =>
      cases h4
      next f p =>
      have e1 : ((narrow.rows.take 1).drop (if false then 1 else 0)).map firstFeature = [3] := by decide +kernel
      have e2 : ((narrow.rows.take 1).drop (if false then 1 else 0)).map (fun x => (x.policy : ℚ)) = [0] := by
        decide +kernel
      rw [e1] at hf
      rw [e2] at hp
      have hf1 : f = 3 := List.mem_singleton.1 ((hf.mem f).1 List.mem_cons_self)
      have hp1 : p = 0 := List.mem_singleton.1 ((hp.mem p).1 List.mem_cons_self)
      subst hf1 hp1
      have e3 : timesWith ((narrow.rows.take 1).drop (if false then 1 else 0)) 3 0 = [1 / 2] := by decide +kernel
      rw [e3] at h3
      obtain ⟨v, hv, hb⟩ := h3.2 (by simp)
      have e4 : readDecimal "500000.00".toList = some (500000, []) := by decide +kernel
      rw [e4] at hv
      cases Option.some.inj hv
      have e5 : demoPy.mean [1 / 2] = 1 / 2 := by decide +kernel
      rw [e5] at hb
      norm_num [abs_of_pos] at hb

/-! ## The name of the model -/

/-- The title has only the part of the model's description before the first `-`. -/
theorem C105_name_fails :
    plotName (traceFile "DecisionTree,load-dataset".toList "a".toList 0) = .ok "DecisionTree,load".toList := by
  decide +kernel

/-- The script must be run in the directory of traces: with the name of the file that Apollo prints, it fails,
for every model, region and content. -/
theorem C105_path_fails (py : Py) (rank : ℤ) (info region text : List Char) (n : ℤ) (b : Bool) :
    py.plotTrace (tracePath {} rank info region) text n b = .error .throw := by
  have h : plotName (tracePath {} rank info region) = .error .throw := by
    unfold plotName
    rw [if_neg]
    rintro ⟨rest, h⟩
    have : some 't' = some '.' := congrArg List.head? h
    exact absurd this (by decide)
  unfold Py.plotTrace
  rw [h]
  rfl

end Apollo.Props
