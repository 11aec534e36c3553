import Verif.Proofs.Histogram
import Verif.Props.Report

/-!
# C121: the histograms of analyze-traces.py count the executions with each policy

They do if `--nstatic` is at least the number of policies of all regions (`C121`, `C121_total`).  If it is less, the
first policy that is left out counts for the last one that is not, and others are not counted (`C121_last`,
`C121_needs_static`).
-/

namespace Apollo.Props

open Apollo Apollo.Spec Apollo.Scripts

/-- C121 for any policies: the policy `n` counts for the last of the `n` static policies. -/
theorem C121_last (py : Py) {order : List ℚ → List ℕ} (ho : Orders order) {runs : Runs}
    (hs : Readable py runs.static.flatten) (hrr : ∀ fs ∈ runs.rr, Readable py fs)
    (hrandom : ∀ fs ∈ runs.random, Readable py fs) (hload : ∀ fs ∈ runs.load, Readable py fs)
    (hopt : ∀ fs ∈ runs.opt, Readable py fs) (rank : ℤ) :
    ∃ ch, Chosen runs.static.flatten rank ch ∧
      py.histograms order runs.texts rank = .ok ((analysedHits runs rank).map fun h =>
        (h.1, tallyUpTo runs.static.length ch, tallyUpTo runs.static.length h.2)) := by
  obtain ⟨es, rows, t1, t2, t3, t4, -⟩ := optimalTable_ok py ho hs.1 hs.2 rank
  refine ⟨es.map conv, t4, ?_⟩
  have hread : py.readTracefiles runs.texts.static.flatten =
      .ok (concat (runs.static.flatten.map (frameOf py))) := by
    show py.readTracefiles (runs.static.map (·.map RegionTrace.text)).flatten = _
    rw [← List.map_flatten, readTracefiles_text py hs.1 fun F hF => (hs.2 F hF).1]
  have hlen : runs.texts.static.length = runs.static.length := by simp [Runs.texts]
  have h1 : py.readOption runs.texts.rr = _ := readOption_ok hrr
  have h2 : py.readOption runs.texts.random = _ := readOption_ok hrandom
  have h3 : py.readOption runs.texts.load = _ := readOption_ok hload
  have h4 : py.readOption runs.texts.opt = _ := readOption_ok hopt
  unfold Py.histograms
  simp only [hread, h1, h2, h3, h4, Res.bind_ok, t1, hlen]
  rw [optionHistograms_ok _ t2 hrr, Res.bind_ok, optionHistograms_ok _ t2 hrandom, Res.bind_ok,
    optionHistograms_ok _ t2 hload, Res.bind_ok, optionHistograms_ok _ t2 hopt, Res.bind_ok]
  unfold analysedHits
  simp only [List.map_append, List.map_map]
  rfl

/-- Without executions of the policy `n` nothing is added to the last count. -/
theorem tallyUpTo_eq {n : ℕ} {es : List (List Char × Row)} (h : ∀ e ∈ es, e.2.policy ≠ n) :
    tallyUpTo n es = tally n es := by
  have h0 : withPolicy es n = 0 := List.countP_eq_zero.2 fun e he => by simpa using h e he
  unfold tallyUpTo tally
  simp [h0]

/-- C121: for every model that is analysed two histograms are printed: one of a fastest choice of executions for
each region and index, and one of the executions with the model.  Each has for every static policy how many of the
executions had it. -/
theorem C121 (py : Py) {order : List ℚ → List ℕ} (ho : Orders order) {runs : Runs}
    (hs : Readable py runs.static.flatten) (hrr : ∀ fs ∈ runs.rr, Readable py fs)
    (hrandom : ∀ fs ∈ runs.random, Readable py fs) (hload : ∀ fs ∈ runs.load, Readable py fs)
    (hopt : ∀ fs ∈ runs.opt, Readable py fs) (rank : ℤ)
    (hp : ∀ F ∈ runs.static.flatten, ∀ x ∈ F.rows, x.policy < runs.static.length)
    (hq : ∀ h ∈ analysedHits runs rank, ∀ e ∈ h.2, e.2.policy < runs.static.length) :
    ∃ ch, Chosen runs.static.flatten rank ch ∧
      py.histograms order runs.texts rank = .ok ((analysedHits runs rank).map fun h =>
        (h.1, tally runs.static.length ch, tally runs.static.length h.2)) := by
  obtain ⟨ch, h1, h2⟩ := C121_last py ho hs hrr hrandom hload hopt rank
  refine ⟨ch, h1, h2.trans (congrArg Except.ok (List.map_congr_left fun h hh => ?_))⟩
  rw [tallyUpTo_eq (fun e he => ne_of_lt (hq h hh e he)), tallyUpTo_eq fun e he => ?_]
  obtain ⟨F, hF, -, -, hx, -⟩ := mem_rowsAt.1 (h1.least e he).1
  exact ne_of_lt (hp F hF e.2 hx)

/-- C121 (total): all executions are counted, each once. -/
theorem C121_total {n : ℕ} {es : List (List Char × Row)} (h : ∀ e ∈ es, 0 ≤ e.2.policy ∧ e.2.policy < n) :
    ((tally n es).map Prod.snd).sum = es.length := by
  unfold tally withPolicy
  rw [List.map_map]
  induction es with
  | nil =>
    simp only [List.countP_nil, List.length_nil]
    exact List.sum_eq_zero fun x hx => by
      obtain ⟨j, -, rfl⟩ := List.mem_map.1 hx
      rfl
  | cons e es ih =>
    have ih := ih fun x hx => h x (List.mem_cons_of_mem _ hx)
    obtain ⟨h0, h1⟩ := h e List.mem_cons_self
    obtain ⟨k, hk⟩ := Int.eq_ofNat_of_zero_le h0
    have hkn : k < n := by omega
    have key : ∀ m, ((List.range m).map fun j : ℕ => if (k : ℤ) = (j : ℤ) then 1 else 0).sum =
        if k < m then 1 else 0 := by
      intro m
      induction m with
      | zero => rfl
      | succ m ihm =>
        rw [List.range_succ, List.map_append, List.sum_append, ihm]
        simp only [List.map_cons, List.map_nil, List.sum_cons, List.sum_nil]
        split_ifs <;> omega
    have hsplit : ((List.range n).map (Prod.snd ∘ fun j : ℕ => ((j : ℚ),
        (e :: es).countP fun e => decide (e.2.policy = (j : ℤ))))).sum =
        ((List.range n).map (Prod.snd ∘ fun j : ℕ => ((j : ℚ),
          es.countP fun e => decide (e.2.policy = (j : ℤ))))).sum +
        ((List.range n).map fun j : ℕ => if (k : ℤ) = (j : ℤ) then 1 else 0).sum := by
      rw [← List.sum_map_add]
      congr 1
      refine List.map_congr_left fun j _ => ?_
      simp only [Function.comp_apply, List.countP_cons, hk, decide_eq_true_eq]
    rw [hsplit, ih, key, if_pos hkn, List.length_cons]

/-! ## Examples of the hypotheses -/

/-- The hypotheses of `C121` for the traces of `demoRuns`, besides that they can be read. -/
example : (∀ F ∈ demoRuns.static.flatten, ∀ x ∈ F.rows, x.policy < demoRuns.static.length) ∧
    (∀ h ∈ analysedHits demoRuns 0, ∀ e ∈ h.2, 0 ≤ e.2.policy ∧ e.2.policy < demoRuns.static.length) ∧
    analysedHits demoRuns 0 ≠ [] := by
  refine ⟨by decide +kernel, by decide +kernel, by decide +kernel⟩

/-- Each policy is optimal once, and so it is in both traces. -/
example : (match demoPy.histograms demoOrder demoRuns.texts 0 with
      | .ok l => decide (l = [("RoundRobin".toList, [(0, 1), (1, 1)], [(0, 1), (1, 1)]),
          ("Optimal".toList, [(0, 1), (1, 1)], [(0, 1), (1, 1)])])
      | .error _ => false) = true := by
  decide +kernel

/-- Rank 0 has policy 0 in both executions, though each policy is optimal once; rank 1 had policy 1. -/
example : (match demoPy.histograms demoOrder { demoRuns with
        rr := some [⟨0, "DecisionTree".toList, "a".toList, 1, [⟨0, [3], 0, 1 / 2⟩, ⟨1, [4], 0, 1 / 4⟩]⟩,
          ⟨1, "DecisionTree".toList, "a".toList, 1, [⟨0, [3], 1, 1 / 2⟩, ⟨1, [4], 1, 1 / 4⟩]⟩],
        opt := none }.texts 0 with
      | .ok l => decide (l = [("RoundRobin".toList, [(0, 1), (1, 1)], [(0, 2), (1, 0)])])
      | .error _ => false) = true := by
  decide +kernel

/-- The histograms of three policies. -/
example : npHistogram [0, 2, 2, 1, 2] (arange 4) = [(0, 1), (1, 1), (2, 3)] ∧
    npHistogram [0, 2, 2, 1, 2, 3, 4] (arange 4) = [(0, 1), (1, 1), (2, 4)] := by decide +kernel

/-- Only the policy 0 is analysed, of a program with two policies. -/
def oneStatic : Runs where
  static := [[static 0 [(0, 1 / 2), (1, 1 / 4)]]]
  rr := some [narrow]

/-- The policies must be among the static ones: both executions count for policy 0, though one had policy 1. -/
theorem C121_needs_static : (match demoPy.histograms demoOrder oneStatic.texts 0 with
      | .ok l => decide (l = [("RoundRobin".toList, [(0, 2)], [(0, 2)])])
      | .error _ => false) = true ∧
    (analysedHits oneStatic 0).map (fun h => tally 1 h.2) = [[(0, 1)]] := by
  decide +kernel

end Apollo.Props
