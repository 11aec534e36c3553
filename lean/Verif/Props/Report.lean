import Verif.Proofs.ScriptReport
import Verif.Props.AnalyzeTraces

/-!
# Property C99: what analyze-traces.py reports
-/

namespace Apollo.Props

open Apollo Apollo.Spec Apollo.Scripts

/-- C99 (report): whatever traces are given, however equal times are ordered and however numbers are added,
the script reports on a rank

* for every static policy, and for every other model, the sum of its times;
* as optimal time the sum of the times of a fastest execution for each region and index, in this order;
* the first of the fastest static policies;
* the speedups over policy 0 and over that policy;
* for other models how many executions have the policy chosen for their region and index, how many have it
  or, where none has, are within 10% of the time chosen, and how many there are.

If one of the times to divide by is zero, the script fails.  The choice is the one that `--write-opt` writes. -/
theorem C99_report (py : Py) {order : List ℚ → List ℕ} (ho : Orders order) (sum : List ℚ → ℚ) {runs : Runs}
    (hs : Readable py runs.static.flatten) (hrr : ∀ fs ∈ runs.rr, Readable py fs)
    (hrandom : ∀ fs ∈ runs.random, Readable py fs) (hload : ∀ fs ∈ runs.load, Readable py fs)
    (hopt : ∀ fs ∈ runs.opt, Readable py fs) (rank : ℤ) :
    ∃ ch j, Chosen runs.static.flatten rank ch ∧
      FirstFastest (staticTime sum runs.static.flatten rank) runs.static.length j ∧
      py.report order sum runs.texts rank =
        (if ∃ d ∈ denominators sum runs rank ch, d.2 = 0 then .error .throw
        else .ok ⟨reportEntries sum runs rank, sum (ch.map fun p => p.2.metric), "Static,".toList ++ fmtInt j,
          (denominators sum runs rank ch).map fun d => (d.1,
            rnd64 (staticTime sum runs.static.flatten rank 0 / d.2),
            rnd64 (staticTime sum runs.static.flatten rank j / d.2)),
          accuracies runs rank ch⟩) ∧
      ∃ out, py.writeOpt order (runs.static.flatten.map RegionTrace.text) rank = .ok out ∧
        ∀ r text, (optimalName rank r, text) ∈ out → text =
          [','].intercalate ((ch.filter fun p => decide (p.1 = r)).map fun p => fmtInt p.2.policy) :=
  report_ok py ho sum hs hrr hrandom hload hopt rank

/-! ## Accuracy -/

/-- C99 (counts): accuracies are between 0 and 100%, and the relaxed one is not the smaller one. -/
theorem C99_counts (ch hits : List (List Char × Row)) :
    (accuracyOf ch hits).1 ≤ (accuracyOf ch hits).2.1 ∧ (accuracyOf ch hits).2.1 ≤ (accuracyOf ch hits).2.2 := by
  refine ⟨?_, List.countP_le_length⟩
  refine List.countP_mono_left fun p _ hp => ?_
  rw [hp, Bool.true_or]

/-- C99 (best): the executions that are counted have a policy that was fastest for their region and index;
where only one policy was fastest, all executions with it are counted. -/
theorem C99_best {fs : List RegionTrace} {rank : ℤ} {ch : List (List Char × Row)} (h : Chosen fs rank ch)
    (p : List Char × Row) :
    (agrees ch p = true → BestAt fs rank p.1 p.2.index p.2.policy) ∧
    ((∀ q, BestAt fs rank p.1 p.2.index q → q = p.2.policy) → BestAt fs rank p.1 p.2.index p.2.policy →
      agrees ch p = true) := by
  constructor
  · intro ha
    obtain ⟨c, hc, hcp⟩ := List.any_eq_true.1 ha
    rw [Bool.and_eq_true, samePlace, decide_eq_true_eq, decide_eq_true_eq] at hcp
    obtain ⟨⟨e1, e2⟩, e3⟩ := hcp
    obtain ⟨h1, h2⟩ := h.least c hc
    rw [e1, e2] at h1 h2
    exact ⟨c.2, h1, e3, h2⟩
  · rintro hu ⟨x, hx, -⟩
    obtain ⟨y, hy, hyi⟩ := (h.all p.1 p.2.index).2 (List.ne_nil_of_mem hx)
    obtain ⟨h1, h2⟩ := h.least _ hy
    simp only [hyi] at h1 h2
    refine List.any_eq_true.2 ⟨_, hy, ?_⟩
    rw [Bool.and_eq_true, samePlace, decide_eq_true_eq, decide_eq_true_eq]
    exact ⟨⟨rfl, hyi⟩, hu _ ⟨y, h1, rfl, h2⟩⟩

/-- C99 (replay): if every execution with the model Optimal has the policy that the file of its region has
at its index (C90), and in each region the executions measured are `0, 1, …`, the accuracy is 100%. -/
theorem C99_replay {fs gs : List RegionTrace} {rank : ℤ} {ch : List (List Char × Row)}
    (h : Chosen fs rank ch) (hall : ∀ r i i', i' ≤ i → rowsAt fs rank r i ≠ [] → rowsAt fs rank r i' ≠ [])
    (hr : ∀ p ∈ hitsOf rank "Optimal".toList gs,
      ((ch.filter fun c => decide (c.1 = p.1)).map fun c => c.2.policy)[p.2.index]? = some p.2.policy) :
    accuracyOf ch (hitsOf rank "Optimal".toList gs) =
      ((hitsOf rank "Optimal".toList gs).length, (hitsOf rank "Optimal".toList gs).length,
        (hitsOf rank "Optimal".toList gs).length) := by
  have key : ∀ p ∈ hitsOf rank "Optimal".toList gs, agrees ch p = true := by
    intro p hp
    have h1 := hr p hp
    rw [List.getElem?_map, Option.map_eq_some_iff] at h1
    obtain ⟨c, hc, hpol⟩ := h1
    obtain ⟨hmem, hreg⟩ := List.mem_filter.1 (List.mem_of_getElem? hc)
    rw [decide_eq_true_eq] at hreg
    -- the indexes of the region are 0, 1, ...
    have hsort : ((ch.filter fun c => decide (c.1 = p.1)).map fun c => c.2.index).Pairwise (· < ·) := by
      rw [List.pairwise_map]
      have := h.sorted.sublist (List.filter_sublist (p := fun c => decide (c.1 = p.1)))
      refine this.imp_of_mem fun {a b} ha hb hab => ?_
      have ra : a.1 = p.1 := by simpa using (List.mem_filter.1 ha).2
      have rb : b.1 = p.1 := by simpa using (List.mem_filter.1 hb).2
      rcases hab with hab | hab
      · rw [ra, rb] at hab
        exact absurd hab (lt_irrefl _)
      · exact hab.2
    have hdown : ∀ i ∈ (ch.filter fun c => decide (c.1 = p.1)).map (fun c => c.2.index), ∀ i' ≤ i,
        i' ∈ (ch.filter fun c => decide (c.1 = p.1)).map (fun c => c.2.index) := by
      intro i hi i' hle
      obtain ⟨c, hc, rfl⟩ := List.mem_map.1 hi
      obtain ⟨hc1, hc2⟩ := List.mem_filter.1 hc
      rw [decide_eq_true_eq] at hc2
      have hrow := (h.all p.1 c.2.index).1 ⟨c.2, by rw [← hc2]; exact hc1, rfl⟩
      obtain ⟨x, hx, e⟩ := (h.all p.1 i').2 (hall _ _ _ hle hrow)
      exact List.mem_map.2 ⟨(p.1, x), List.mem_filter.2 ⟨hx, by simp⟩, e⟩
    have hidx : c.2.index = p.2.index := by
      have hget : ((ch.filter fun c => decide (c.1 = p.1)).map fun c => c.2.index)[p.2.index]? =
          some c.2.index := by rw [List.getElem?_map, hc]; rfl
      generalize (ch.filter fun c => decide (c.1 = p.1)).map (fun c => c.2.index) = L at hsort hdown hget
      -- a strictly ascending list closed downwards
      have hrange : L = List.range L.length := by
        refine eq_range hsort fun i => ?_
        have hnd : L.Nodup := hsort.imp fun h => ne_of_lt h
        constructor
        · intro hi
          have hsub : (List.range (i + 1)).Subperm L := by
            refine List.subperm_of_subset List.nodup_range fun k hk => ?_
            exact hdown i hi k (by have := List.mem_range.1 hk; omega)
          have := hsub.length_le
          rw [List.length_range] at this
          omega
        · intro hi
          by_contra hni
          have hsub : L.Subperm (List.range i) := by
            refine List.subperm_of_subset hnd fun k hk => List.mem_range.2 ?_
            by_contra hle
            exact hni (hdown k hk i (by omega))
          have := hsub.length_le
          rw [List.length_range] at this
          omega
      obtain ⟨hlt, -⟩ := List.getElem?_eq_some_iff.1 hget
      rw [hrange, List.getElem?_range hlt] at hget
      exact (Option.some.inj hget).symm
    refine List.any_eq_true.2 ⟨c, hmem, ?_⟩
    rw [Bool.and_eq_true, samePlace, decide_eq_true_eq, decide_eq_true_eq]
    exact ⟨⟨hreg, hidx⟩, hpol⟩
  have h1 : (accuracyOf ch (hitsOf rank "Optimal".toList gs)).1 = (hitsOf rank "Optimal".toList gs).length :=
    List.countP_eq_length.2 key
  obtain ⟨h2, h3⟩ := C99_counts ch (hitsOf rank "Optimal".toList gs)
  have h4 : (accuracyOf ch (hitsOf rank "Optimal".toList gs)).2.2 =
    (hitsOf rank "Optimal".toList gs).length := rfl
  refine Prod.ext h1 (Prod.ext ?_ h4)
  show (accuracyOf ch (hitsOf rank "Optimal".toList gs)).2.1 = (hitsOf rank "Optimal".toList gs).length
  omega

/-! ## Optimal and static times -/

/-- The policy was executed on the rank wherever any policy was. -/
def Everywhere (fs : List RegionTrace) (rank : ℤ) (model : List Char) : Prop :=
  ∀ r i, rowsAt fs rank r i ≠ [] →
    ∃ F ∈ fs, F.rank = rank ∧ F.model = model ∧ F.region = r ∧ ∃ x ∈ F.rows, x.index = i

/-- Distinct places are found at distinct positions. -/
theorem cover {ch : List (List Char × Row)} : ∀ {L : List (List Char × Row)},
    ch.Pairwise (fun a b => samePlace a b = false) →
    (∀ c ∈ ch, ∃ p ∈ L, samePlace c p = true ∧ c.2.metric ≤ p.2.metric) →
    ∃ L1 L2, L.Perm (L1 ++ L2) ∧ List.Forall₂ (fun c p => c.2.metric ≤ p.2.metric) ch L1 := by
  induction ch with
  | nil => exact fun _ _ => ⟨[], _, List.Perm.refl _, List.Forall₂.nil⟩
  | cons c ch ih =>
    intro L hd hc
    rw [List.pairwise_cons] at hd
    obtain ⟨p, hp, hs, hle⟩ := hc c (by simp)
    obtain ⟨s, t, rfl⟩ := List.append_of_mem hp
    obtain ⟨L1, L2, h1, h2⟩ := ih (L := s ++ t) hd.2 (by
      intro c' hc'
      obtain ⟨q, hq, hqs, hql⟩ := hc c' (by simp [hc'])
      refine ⟨q, ?_, hqs, hql⟩
      rcases List.mem_append.1 hq with hq | hq
      · exact List.mem_append_left _ hq
      · rcases List.mem_cons.1 hq with rfl | hq
        · exfalso
          have h3 := hd.1 c' hc'
          unfold samePlace at h3 hs hqs
          rw [decide_eq_false_iff_not] at h3
          rw [decide_eq_true_eq] at hs hqs
          exact h3 ⟨hs.1.trans hqs.1.symm, hs.2.trans hqs.2.symm⟩
        · exact List.mem_append_right _ hq)
    exact ⟨p :: L1, L2, List.perm_middle.trans (h1.cons p), List.Forall₂.cons hle h2⟩

/-- C99 (fastest), for a way of adding that is fair: the optimal time is not larger than the time of a static
policy that was executed everywhere, and the speedup over this policy is at least one. -/
theorem C99_fastest_partial {sum : List ℚ → ℚ} (hsum : FairSum sum) {fs : List RegionTrace} {rank : ℤ}
    {ch : List (List Char × Row)} (h : Chosen fs rank ch) {j : ℕ}
    (hj : Everywhere fs rank ("Static,".toList ++ fmtInt j))
    (hpos : ∀ F ∈ fs, ∀ x ∈ F.rows, 0 ≤ x.metric) :
    sum (ch.map fun p => p.2.metric) ≤ staticTime sum fs rank j ∧
    (0 < sum (ch.map fun p => p.2.metric) →
      1 ≤ rnd64 (staticTime sum fs rank j / sum (ch.map fun p => p.2.metric))) := by
  have hle : sum (ch.map fun p => p.2.metric) ≤ staticTime sum fs rank j := by
    obtain ⟨L1, L2, h1, h2⟩ := cover (L := ranOn fs rank fun m =>
        decide (m = "Static,".toList ++ fmtInt j)) (chosen_apart h) (by
      intro c hc
      obtain ⟨c1, c2⟩ := h.least c hc
      obtain ⟨F, hF, e1, e2, e3, x, hx, e4⟩ := hj c.1 c.2.index (List.ne_nil_of_mem c1)
      refine ⟨(F.region, x), ?_, ?_, ?_⟩
      · refine List.mem_flatMap.2 ⟨F, hF, ?_⟩
        rw [if_pos ⟨e1, by rw [e2]; simp⟩]
        exact List.mem_map.2 ⟨x, hx, rfl⟩
      · unfold samePlace
        rw [decide_eq_true_eq]
        exact ⟨e3.symm, e4.symm⟩
      · exact c2 x (mem_rowsAt.2 ⟨F, hF, e1, e3, hx, e4⟩))
    have hall : ∀ p ∈ ranOn fs rank (fun m => decide (m = "Static,".toList ++ fmtInt j)), 0 ≤ p.2.metric := by
      intro p hp
      obtain ⟨F, hF, hp⟩ := List.mem_flatMap.1 hp
      split_ifs at hp with hc
      · obtain ⟨x, hx, rfl⟩ := List.mem_map.1 hp
        exact hpos F hF x hx
      · cases hp
    refine hsum _ _ (L1.map fun p => p.2.metric) (L2.map fun p => p.2.metric) ?_ ?_ ?_
    · have := h1.map fun p => p.2.metric
      rwa [List.map_append] at this
    · rw [List.forall₂_map_left_iff, List.forall₂_map_right_iff]
      exact h2
    · intro v hv
      obtain ⟨p, hp, rfl⟩ := List.mem_map.1 hv
      exact hall p (h1.mem_iff.2 (List.mem_append_right _ hp))
  refine ⟨hle, fun h0 => ?_⟩
  refine le_rnd_of_le (by norm_num) ⟨1, 0, by norm_num, by norm_num, by norm_num⟩ ?_
  rwa [le_div_iff₀ h0, one_mul]

/-- Adding numbers exactly, or rounding the exact sum. -/
theorem fair_exact : FairSum List.sum ∧ FairSum fun l => rnd64 l.sum := by
  have key : FairSum List.sum := by
    intro ts ts' us vs hp hf hv
    rw [hp.sum_eq, List.sum_append]
    have h1 : ts.sum ≤ us.sum := List.Forall₂.sum_le_sum hf
    have h2 : 0 ≤ vs.sum := List.sum_nonneg hv
    linarith
  exact ⟨key, fun ts ts' us vs hp hf hv => rnd_mono (by norm_num) (key ts ts' us vs hp hf hv)⟩

/-- Adding doubles one after the other, as Python did before version 3.12. -/
def plainSum (l : List ℚ) : ℚ := l.foldl (fun a x => rnd64 (a + x)) 0

/-- The full claim of C99 (fastest): also with doubles added one after the other. -/
def C99_fastest : Prop :=
  ∀ (fs : List RegionTrace) (rank : ℤ) (ch : List (List Char × Row)) (j : ℕ), Chosen fs rank ch →
    Everywhere fs rank ("Static,".toList ++ fmtInt j) → (∀ F ∈ fs, ∀ x ∈ F.rows, 0 ≤ x.metric) →
    plainSum (ch.map fun p => p.2.metric) ≤ staticTime plainSum fs rank j

/-- Three regions executed once with policy 0, in 0.1, 0.2 and 0.3 seconds; the file of the last is found
first. -/
def threeRegions : List RegionTrace :=
  [("c", rnd64 (3 / 10)), ("b", rnd64 (2 / 10)), ("a", rnd64 (1 / 10))].map fun x : String × ℚ =>
    ⟨0, "Static,0".toList, x.1.toList, 0, [⟨0, [], 0, x.2⟩]⟩

/-- The choice, in the order of the regions. -/
def threeChosen : List (List Char × Row) :=
  [("a", rnd64 (1 / 10)), ("b", rnd64 (2 / 10)), ("c", rnd64 (3 / 10))].map fun x : String × ℚ =>
    (x.1.toList, ⟨0, [], 0, x.2⟩)

theorem three_rows (r : List Char) (i : ℕ) (x : Row) :
    x ∈ rowsAt threeRegions 0 r i ↔ (r, x) ∈ threeChosen ∧ x.index = i := by
  rw [mem_rowsAt]
  constructor
  · rintro ⟨F, hF, -, rfl, hx, rfl⟩
    refine ⟨?_, rfl⟩
    have key : ∀ F ∈ threeRegions, ∀ x ∈ F.rows, (F.region, x) ∈ threeChosen := by decide +kernel
    exact key F hF x hx
  · rintro ⟨hm, rfl⟩
    have key : ∀ p ∈ threeChosen, ∃ F ∈ threeRegions, F.rank = 0 ∧ F.region = p.1 ∧ p.2 ∈ F.rows := by
      decide +kernel
    obtain ⟨F, hF, h1, h2, h3⟩ := key _ hm
    exact ⟨F, hF, h1, h2, h3, rfl⟩

theorem three_chosen : Chosen threeRegions 0 threeChosen := by
  refine ⟨by decide +kernel, ?_, ?_⟩
  · intro r i
    constructor
    · rintro ⟨x, hx, rfl⟩
      exact List.ne_nil_of_mem ((three_rows _ _ _).2 ⟨hx, rfl⟩)
    · intro hne
      obtain ⟨x, hx⟩ := List.exists_mem_of_ne_nil _ hne
      exact ⟨x, (three_rows _ _ _).1 hx⟩
  · intro p hp
    refine ⟨(three_rows _ _ _).2 ⟨hp, rfl⟩, fun y hy => ?_⟩
    have h1 := ((three_rows _ _ _).1 hy).1
    have key : ∀ a ∈ threeChosen, ∀ b ∈ threeChosen, a.1 = b.1 → a.2.metric ≤ b.2.metric := by decide +kernel
    exact key p hp _ h1 rfl

/-- C99 (fastest) is false when doubles are added one after the other: the times are added in different
orders, and the optimal choice among the executions of one policy can take longer than the policy. -/
theorem C99_fails : ¬ C99_fastest := by
  intro h
  have := h threeRegions 0 threeChosen 0 three_chosen (by
    intro r i hne
    obtain ⟨x, hx⟩ := List.exists_mem_of_ne_nil _ hne
    obtain ⟨F, hF, e1, e2, hx, e4⟩ := mem_rowsAt.1 hx
    have key : ∀ F ∈ threeRegions, F.model = "Static,".toList ++ fmtInt (0 : ℕ) := by decide +kernel
    exact ⟨F, hF, e1, key F hF, e2, x, hx, e4⟩) (by decide +kernel)
  revert this
  decide +kernel

/-- The report of these traces: the speedup of the optimal choice over the one policy is less than one. -/
theorem C99_fails_report :
    (match demoPy.report demoOrder plainSum ⟨[threeRegions.map RegionTrace.text], none, none, none, none⟩ 0 with
      | .ok rep => decide (rep.times = [("Static,0".toList, rnd64 (6 / 10), none)] ∧ rnd64 (6 / 10) < rep.opt ∧
          ∀ s ∈ rep.speedups, s.2.1 < 1)
      | .error _ => false) = true := by
  decide +kernel

/-! ## Models that are trained -/

/-- C99 (labels): the rows of a region with a decision tree are all labelled `DecisionTree`, also those that
were executed before it was trained, with the policies of another model.  So the time that is reported for
the exploring model is the empty sum, that of the tree includes the time of exploration, and so does the
accuracy. -/
theorem C99_labels (t : TracedRun) {n : ℤ} {b : Bool} {explorer : PolicyModel} {d : TreeImpl}
    (ht : t.m = .tree n b explorer d) (sum : List ℚ → ℚ) {model : List Char}
    (hm : model ≠ "DecisionTree".toList) :
    trainedEntry sum t.env.rank model [t.executed] =
      (model, sum [], some (sum (t.executed.rows.map Row.metric))) ∧
    hitsOf t.env.rank "DecisionTree".toList [t.executed] = t.executed.rows.map fun x => (t.executed.region, x) := by
  have hname : t.executed.model = "DecisionTree".toList := by
    show t.m.name = _
    rw [ht]
    rfl
  have hrank : t.executed.rank = t.env.rank := rfl
  have h1 : modelTimes [t.executed] t.env.rank model = [] := by
    unfold modelTimes ranOn
    rw [List.flatMap_cons, List.flatMap_nil, if_neg, List.append_nil, List.map_nil]
    rintro ⟨-, h⟩
    rw [hname, decide_eq_true_eq] at h
    exact hm h.symm
  have h2 : modelTimes [t.executed] t.env.rank "DecisionTree".toList = t.executed.rows.map Row.metric := by
    unfold modelTimes ranOn
    rw [List.flatMap_cons, List.flatMap_nil, if_pos ⟨hrank, by rw [hname]; simp⟩, List.append_nil, List.map_map]
    rfl
  refine ⟨?_, ?_⟩
  · unfold trainedEntry
    rw [h1, h2]
  · unfold hitsOf ranOn
    rw [List.flatMap_cons, List.flatMap_nil, if_pos ⟨hrank, by rw [hname]; simp⟩, List.append_nil]

/-! ## Examples of the hypotheses -/

/-- The traces of `staticProgram`, of a tree, and of a replay. -/
def demoRuns : Runs where
  static := statics.map fun F => [F]
  rr := some [narrow]
  opt := some [⟨0, "Optimal".toList, "a".toList, 1, [⟨0, [3], 1, 1 / 4⟩, ⟨1, [3], 0, 1 / 4⟩]⟩]

theorem replay_good : Readable demoPy
    [⟨0, "Optimal".toList, "a".toList, 1, [⟨0, [3], 1, 1 / 4⟩, ⟨1, [3], 0, 1 / 4⟩]⟩] := by
  refine ⟨by simp, fun F hF => ?_⟩
  rw [List.mem_singleton.1 hF]
  refine ⟨⟨⟨⟨'O', "ptimal".toList, by decide +kernel, by decide +kernel⟩, by decide +kernel⟩, ordinary_a,
    by decide +kernel, by decide +kernel⟩, ?_⟩
  intro x hx
  have h3 := (narrow_good.2 ⟨0, [3], 0, 1 / 2⟩ (by decide +kernel)).1
  have h4 := (narrow_good.2 ⟨1, [4], 1, 1 / 4⟩ (by decide +kernel)).2
  rcases List.mem_cons.1 hx with rfl | hx
  · exact ⟨h3, h4⟩
  · rw [List.mem_singleton.1 hx]
    exact ⟨h3, h4⟩

/-- Hypotheses of `C99_report`. -/
example : Readable demoPy demoRuns.static.flatten ∧ (∀ fs ∈ demoRuns.rr, Readable demoPy fs) ∧
    ∀ fs ∈ demoRuns.opt, Readable demoPy fs := by
  refine ⟨⟨by decide +kernel, fun F hF => statics_good F hF⟩, ?_, ?_⟩
  · intro fs hfs
    rw [← Option.some.inj hfs]
    exact ⟨by simp, fun F hF => by rw [List.mem_singleton.1 hF]; exact narrow_good⟩
  · intro fs hfs
    rw [← Option.some.inj hfs]
    exact replay_good

/-- The report: each static policy takes 0.75 s, the optimal choice 0.5 s; the tree never has the optimal
policy, and once it is as fast; the replay always has the optimal policy. -/
example : demoPy.report demoOrder List.sum demoRuns.texts 0 = .ok
    ⟨[("Static,0".toList, 3 / 4, none), ("Static,1".toList, 3 / 4, none),
        ("RoundRobin".toList, 0, some (3 / 4)), ("Optimal".toList, 1 / 2, none)],
      1 / 2, "Static,0".toList,
      [("Opt".toList, 3 / 2, 3 / 2), ("RoundRobin".toList, 1, 1)],
      [("RoundRobin".toList, 0, 1, 2), ("Optimal".toList, 2, 2, 2)]⟩ := by
  decide +kernel

/-- Without a trace of a rank all times are zero, and the script fails. -/
example : demoPy.report demoOrder List.sum demoRuns.texts 1 = .error .throw := by decide +kernel

/-- Hypotheses of `C99_best`, `C99_replay` and `C99_fastest_partial`. -/
example : ∃ ch, Chosen statics 0 ch ∧
    (∀ r i i', i' ≤ i → rowsAt statics 0 r i ≠ [] → rowsAt statics 0 r i' ≠ []) ∧
    (∀ j < 2, Everywhere statics 0 ("Static,".toList ++ fmtInt (j : ℕ))) ∧
    ∀ F ∈ statics, ∀ x ∈ F.rows, 0 ≤ x.metric := by
  have hr : ∀ r i, rowsAt statics 0 r i ≠ [] → r = "a".toList ∧ i < 2 := by
    intro r i h
    obtain ⟨x, hx⟩ := List.exists_mem_of_ne_nil _ h
    obtain ⟨F, hF, -, rfl, hx', rfl⟩ := mem_rowsAt.1 hx
    have key : ∀ F ∈ statics, F.region = "a".toList ∧ ∀ x ∈ F.rows, x.index < 2 := by decide +kernel
    exact ⟨(key F hF).1, (key F hF).2 x hx'⟩
  obtain ⟨ch, -, h1, -⟩ := C99_report demoPy demoOrder_orders List.sum (runs := { static := [statics] })
    ⟨by decide +kernel, fun F hF => statics_good F (by simpa using hF)⟩ (by simp) (by simp) (by simp) (by simp) 0
  have e : ([statics].flatten : List RegionTrace) = statics := by simp
  refine ⟨ch, by rw [← e]; exact h1, ?_, ?_, by decide +kernel⟩
  · intro r i i' hle h
    obtain ⟨rfl, h2⟩ := hr r i h
    exact (statics_all i').2 (by omega)
  · intro j hj r i h
    obtain ⟨rfl, h2⟩ := hr r i h
    have key : ∀ j < 2, ∀ i < 2, ∃ F ∈ statics, F.rank = 0 ∧ F.model = "Static,".toList ++ fmtInt (j : ℕ) ∧
      F.region = "a".toList ∧ ∃ x ∈ F.rows, x.index = i := by decide +kernel
    exact key j hj i h2

/-- The traces of the replay satisfy the hypothesis of `C99_replay`. -/
example : let ch : List (List Char × Row) := [("a".toList, ⟨0, [3], 1, 1 / 4⟩), ("a".toList, ⟨1, [3], 0, 1 / 4⟩)]
    ∀ p ∈ hitsOf 0 "Optimal".toList
      [⟨0, "Optimal".toList, "a".toList, 1, [⟨0, [3], 1, 1 / 4⟩, ⟨1, [3], 0, 1 / 4⟩]⟩],
      ((ch.filter fun c => decide (c.1 = p.1)).map fun c => c.2.policy)[p.2.index]? = some p.2.policy := by
  decide +kernel

/-- Hypotheses of `C99_labels`: a tree that explores twice, is trained, and chooses once. -/
example : ∃ t : TracedRun, (∃ n e d, t.m = .tree n false e d) ∧
    t.executed.rows = [⟨0, [3], 0, 1 / 2⟩, ⟨1, [3], 1, 1 / 4⟩, ⟨2, [3], 1, 1 / 4⟩] := by
  have key : ∃ w, exec demoEnv ([demoCreate "a"] ++ demoRun 0 3 (1 / 2) ++ demoRun 0 3 (1 / 4) ++
      [.train 0 0 false false] ++ demoRun 0 3 (1 / 4)) (initWorld { traceCsv := true } fun _ => none) = .ok w ∧
      (w.cfg.traceCsv = true ∧ (observe w.log).proper 0 = true ∧ (w.regions 0).isSome = true ∧
        (w.models 0).any (fun m => match m with | .tree _ false _ _ => true | _ => false) = true ∧
        (observe w.log).rows 0 = [⟨0, [3], 0, 1 / 2⟩, ⟨1, [3], 1, 1 / 4⟩, ⟨2, [3], 1, 1 / 4⟩]) :=
    run_ok (by decide +kernel)
  obtain ⟨w, h1, h2, h3, h4, h5, h6⟩ := key
  obtain ⟨R, hR⟩ := Option.isSome_iff_exists.1 h4
  cases hm : w.models 0 with
  | none => rw [hm] at h5; cases h5
  | some m =>
    rw [hm] at h5
    refine ⟨⟨_, _, demoEnv, _, _, _, w, 0, R, m, rfl, h1, h2, hR, hm, h3⟩, ?_, h6⟩
    cases m with
    | tree n b e d =>
      cases b with
      | false => exact ⟨n, e, d, rfl⟩
      | true => cases h5
    | _ => cases h5

end Apollo.Props
