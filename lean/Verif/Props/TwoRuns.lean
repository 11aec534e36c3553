import Verif.Proofs.TwoRuns
import Verif.Spec.TwoRuns
import Verif.Props.CreateDataset
import Verif.Props.Models
import Verif.Props.RegionPersist
import Verif.Props.RegionWrite
import Mathlib.Data.Nat.ChineseRemainder

/-!
# Property C100: tuning in two runs
-/

namespace Apollo.Props

open Apollo Apollo.Spec Apollo.Scripts

theorem normal_of_keeps {q : ℚ} (h : Keeps64 q) : NormalMetric q := by
  obtain ⟨n, k, -, rfl, hr⟩ := h
  refine ⟨representable_rnd _, hr.imp id fun h => le_trans (by decide +kernel) h.1⟩

theorem roundRobin_ordinary : Ordinary "RoundRobin".toList :=
  ⟨⟨'R', "oundRobin".toList, by decide +kernel, by decide +kernel⟩, by decide +kernel⟩

/-- The executions of the first run. -/
theorem mem_explored {clock : ℕ → ℤ × ℤ} {fs : List Features} {n : ℕ} {x : Row} :
    x ∈ rowsFrom clock 0 1 fs (fun j => (j : ℤ) % (n : ℤ)) ↔
      ∃ j, ∃ h : j < fs.length, x = ⟨j, fs[j], ((j % n : ℕ) : ℤ), elapsed clock j⟩ := by
  rw [mem_rowsFrom]
  refine exists_congr fun j => exists_congr fun h => ?_
  rw [Nat.zero_add, elapsed, show 1 + 2 * j + 1 = 2 * j + 2 by omega, show 1 + 2 * j = 2 * j + 1 by omega]
  push_cast
  rfl

/-- If the times depend only on the features and the policy, they are what is stored. -/
theorem entry_time {l : List Meas} {time : Features → ℤ → ℚ}
    (hx : ∀ x ∈ l, NormalMetric x.metric ∧ x.metric = time x.features x.policy) {q : Features} {p : ℤ} {m : ℚ}
    (hm : (q, p, m) ∈ entries l) : m = time q p := by
  obtain ⟨lo, h1, hi, h2, -, h3, h4⟩ := C02_between_min_max l q p m (fun x hx' _ _ => (hx x hx').1) hm
  have key : ∀ v ∈ metricsOf l q p, v = time q p := by
    intro v hv
    simp only [metricsOf, List.mem_map, List.mem_filter, decide_eq_true_eq] at hv
    obtain ⟨x, ⟨hx', rfl, rfl⟩, rfl⟩ := hv
    exact (hx x hx').2
  rw [key lo h1] at h3
  exact le_antisymm (h4.trans_eq (key hi h2)) h3

/-- The best policies of the measurements are the fastest of those tried. -/
theorem best_fastest {clock : ℕ → ℤ × ℤ} {fs : List Features} {n : ℕ} {time : Features → ℤ → ℚ}
    (ht : Timed clock fs n time) (hn : ∀ j < fs.length, NormalMetric (elapsed clock j)) {q : Features} {c : ℤ}
    (h : IsBest (entries ((rowsFrom clock 0 1 fs fun j => (j : ℤ) % (n : ℤ)).map Row.meas)) q c) :
    FastestIn (Tried fs n q) time q c := by
  have hx : ∀ x ∈ (rowsFrom clock 0 1 fs fun j => (j : ℤ) % (n : ℤ)).map Row.meas, NormalMetric x.metric ∧
      x.metric = time x.features x.policy ∧ Tried fs n x.features x.policy := by
    intro x hx
    obtain ⟨y, hy, rfl⟩ := List.mem_map.1 hx
    obtain ⟨j, hj, rfl⟩ := mem_explored.1 hy
    exact ⟨hn j hj, ht j _ (List.getElem?_eq_getElem hj), j, List.getElem?_eq_getElem hj, rfl⟩
  have hy : ∀ p, Tried fs n q p → ∃ x ∈ (rowsFrom clock 0 1 fs fun j => (j : ℤ) % (n : ℤ)).map Row.meas,
      x.features = q ∧ x.policy = p := by
    rintro p ⟨j, hj, rfl⟩
    obtain ⟨hj', rfl⟩ := List.getElem?_eq_some_iff.1 hj
    exact ⟨_, List.mem_map.2 ⟨_, mem_explored.2 ⟨j, hj', rfl⟩, rfl⟩, rfl, rfl⟩
  generalize (rowsFrom clock 0 1 fs fun j => (j : ℤ) % (n : ℤ)).map Row.meas = l at *
  have hval : ∀ p m, (q, p, m) ∈ entries l → m = time q p ∧ Tried fs n q p := by
    intro p m hm
    refine ⟨entry_time (fun x h => ⟨(hx x h).1, (hx x h).2.1⟩) hm, ?_⟩
    obtain ⟨x, h', rfl, rfl⟩ := (C01_key_iff l q p).1 ⟨m, hm⟩
    exact (hx x h').2.2
  obtain ⟨m, hm, hbest⟩ := h
  obtain ⟨rfl, hc⟩ := hval c m hm
  refine ⟨hc, fun p hp => ?_⟩
  obtain ⟨m', hm'⟩ := (C01_key_iff l q p).2 (hy p hp)
  obtain ⟨rfl, -⟩ := hval p m' hm'
  exact hbest p _ hm'

/-- The second run with a file that holds the measurements of the first. -/
theorem mapped_fastest {env : Env PolicyModel} {gen : ℕ → ℕ → ℕ} {tenv : ℕ → TrainEnv}
    (ho : env.ops = policyOps gen tenv) {clock : ℕ → ℤ × ℤ} {fs : List Features} {n : ℕ}
    {time : Features → ℤ → ℚ} (ht : Timed clock fs n time)
    (hn : ∀ j < fs.length, NormalMetric (elapsed clock j)) (hne : fs ≠ []) (nf : ℤ) (name : Str) (np : ℤ)
    {files : Str → Option Str} {s : Str} (hf : files (datasetPath {} (truncName name)) = some s)
    (hs : Dataset.load [] s = .ok (run ((rowsFrom clock 0 1 fs fun j => (j : ℤ) % (n : ℤ)).map Row.meas)))
    {qs : List Features} (hq : ∀ q ∈ qs, q ∈ fs) (hl : qs.length < 2 ^ 31) :
    ∃ rets w, results env (mappedProgram nf name np qs) (initWorld {} files) = .ok (rets, w) ∧
      List.Forall₂ (fun q c => FastestIn (Tried fs n q) time q c) qs (policies rets) := by
  obtain ⟨m, hm, hall⟩ := C14_best ⟨isort, id⟩
    ((rowsFrom clock 0 1 fs fun j => (j : ℤ) % (n : ℤ)).map Row.meas) np []
  have hm' : m = .datasetMap np (Dataset.bestPolicies
      (run ((rowsFrom clock 0 1 fs fun j => (j : ℤ) % (n : ℤ)).map Row.meas))) := (Except.ok.inj hm).symm
  have hans : ∀ q ∈ fs, ∃ c, m.getIndex q = .ok (c, m) := by
    intro q hq
    obtain ⟨j, hj, rfl⟩ := List.mem_iff_getElem.1 hq
    cases hg : m.getIndex fs[j] with
    | ok x =>
      obtain ⟨c, m1⟩ := x
      exact ⟨c, by rw [(hall _).2.2 c m1 hg]⟩
    | error e =>
      exfalso
      rw [hm'] at hg
      simp only [PolicyModel.getIndex] at hg
      split at hg
      · next hnone =>
        rw [← Option.not_isSome_iff_eq_none, OMap.find_isSome_iff,
          Dataset.mem_bestPolicies_keys (run_sorted _)] at hnone
        refine hnone ?_
        obtain ⟨v, hv⟩ := (C01_key_iff ((rowsFrom clock 0 1 fs fun j => (j : ℤ) % (n : ℤ)).map Row.meas) fs[j]
          ((j % n : ℕ) : ℤ)).2 ⟨_, List.mem_map.2 ⟨_, mem_explored.2 ⟨j, hj, rfl⟩, rfl⟩, rfl, rfl⟩
        exact ⟨_, v, Dataset.mem_toVector.1 hv⟩
      · cases hg
  choose! cs hcs using hans
  have hrun : run ((rowsFrom clock 0 1 fs fun j => (j : ℤ) % (n : ℤ)).map Row.meas) ≠ [] := by
    obtain ⟨f, fs', rfl⟩ := List.exists_cons_of_ne_nil hne
    intro h0
    obtain ⟨v, hv⟩ := (C01_key_iff ((rowsFrom clock 0 1 (f :: fs') fun j => (j : ℤ) % (n : ℤ)).map Row.meas) f
      ((0 % n : ℕ) : ℤ)).2 ⟨_, List.mem_map.2 ⟨_, mem_explored.2 ⟨0, by simp, rfl⟩, rfl⟩, rfl, rfl⟩
    rw [entries, h0] at hv
    simp [Dataset.toVectorOfTuples] at hv
  obtain ⟨rets, w, h1, h2⟩ := mapped_run ho nf np name hf hs hrun hl cs (fun q hq' => by
    have := hcs q (hq q hq')
    rwa [hm'] at this)
  refine ⟨rets, w, h1, ?_⟩
  rw [h2, List.forall₂_map_right_iff, List.forall₂_same]
  intro q hq'
  exact best_fastest ht hn (((hall q).1 (cs q)).1 ⟨m, hcs q (hq q hq')⟩)

/-- Features of any number and times that are kept by the six digits of a file and by Python. -/
structure Recorded (py : Py) (clock : ℕ → ℤ × ℤ) (fs : List Features) : Prop where
  features : ∀ f ∈ fs, ∀ q ∈ f, Keeps32 q ∧ Reprints py (fmtG6 q) (round6 q)
  times : ∀ j < fs.length, Keeps64 (elapsed clock j) ∧ Reprints py (fmtG6 (elapsed clock j)) (round6 (elapsed clock j))

/-- C100 with traces: a first run takes the policies in turn and writes a trace, create-dataset.py makes a
dataset of the trace, and a second run that finds the dataset gets, for any of the features of the first run in
any order, the first of the fastest policies among those that were tried with the features. -/
theorem C100_traces (py : Py) {env : Env PolicyModel} {gen : ℕ → ℕ → ℕ} {tenv : ℕ → TrainEnv}
    (ho : env.ops = policyOps gen tenv) (hrank : |env.rank| < 2 ^ 31) {name : Str}
    (hname : Ordinary (truncName name))
    (hw : env.canWrite (tracePath {} env.rank "RoundRobin".toList (truncName name)) = true) {nf n : ℕ}
    (hn : 0 < n) (hn' : n ≤ 2 ^ 31) {fs : List Features} (hne : fs ≠ []) (hnf : ∀ f ∈ fs, f.length = nf)
    (hl : fs.length < 2 ^ 31) {time : Features → ℤ → ℚ} (ht : Timed env.clock fs n time)
    (hr : Recorded py env.clock fs) (files : Str → Option Str) :
    ∃ rets w R text, results env (exploreProgram nf name n fs) (initWorld { traceCsv := true } files) =
        .ok (rets, w) ∧
      policies rets = (List.range fs.length).map (fun j : ℕ => ((j % n : ℕ) : ℤ)) ∧
      w.regions 0 = some R ∧
      py.createDataset .none [R.trace] [] = ([(datasetName (truncName name), text)], none) ∧
      ∀ (env₂ : Env PolicyModel) gen₂ tenv₂, env₂.ops = policyOps gen₂ tenv₂ →
        ∀ files₂ : Str → Option Str, files₂ (datasetPath {} (truncName name)) = some text →
          ∀ (np : ℤ) (qs : List Features), (∀ q ∈ qs, q ∈ fs) → qs.length < 2 ^ 31 →
            ∃ rets₂ w₂, results env₂ (mappedProgram nf name np qs) (initWorld {} files₂) = .ok (rets₂, w₂) ∧
              List.Forall₂ (fun q c => FastestIn (Tried fs n q) time q c) qs (policies rets₂) := by
  obtain ⟨rets, w, R, h1, h2, h3, h4, h5, h6⟩ := explore_run ho (K := { traceCsv := true }) ⟨rfl, rfl, rfl⟩
    (nf := nf) (n := n) (by exact_mod_cast hn) (name := name) (files := files) hl (fun h => by cases h)
    (fun _ => hw)
  have hex : exec env (exploreProgram nf name n fs) (initWorld { traceCsv := true } files) = .ok w := by
    rw [results_exec]
    show Prod.snd <$> results env (.create nf name n 0 "RoundRobin".toList [] :: fs.flatMap runWith) _ = _
    rw [h1]; rfl
  have hrows := h3.rows
  have hrow : ∀ x ∈ (observe w.log).rows 0, ∃ j, ∃ h : j < fs.length,
      x = ⟨j, fs[j], ((j % n : ℕ) : ℤ), elapsed env.clock j⟩ := by
    intro x hx
    rw [hrows] at hx
    exact mem_explored.1 hx
  obtain ⟨text, t1, t2⟩ := C89_program gen tenv env ho { traceCsv := true } files _ w hex
    (by rw [h3.cfg]) 0 R _ h3.region h3.model h3.proper py
    ⟨roundRobin_ordinary, by
      rw [h4]; exact hname, hrank, by
      intro x hx
      obtain ⟨j, hj, rfl⟩ := hrow x hx
      have hm := Nat.mod_lt j hn
      refine ⟨by rw [h5]; simpa using hnf _ (List.getElem_mem hj), by simp only; omega, ?_, ?_⟩
      · show -2 ^ 31 ≤ ((j % n : ℕ) : ℤ)
        omega
      · show ((j % n : ℕ) : ℤ) < 2 ^ 31
        omega⟩
    (by
      intro x hx
      obtain ⟨j, hj, rfl⟩ := hrow x hx
      exact ⟨hr.features _ (List.getElem_mem hj), hr.times j hj⟩)
    (by
      rw [hrows]
      obtain ⟨f, fs', rfl⟩ := List.exists_cons_of_ne_nil hne
      simp [rowsFrom])
    (by rw [hrows, length_rowsFrom]; omega)
  rw [hrows] at t2
  rw [h4] at t1
  refine ⟨rets, w, R, text, h1, ?_, h3.region, t1, ?_⟩
  · rw [h2]
    exact List.map_congr_left fun j _ => by push_cast; rfl
  · intro env₂ gen₂ tenv₂ ho₂ files₂ hf₂ np qs hq hlq
    exact mapped_fastest ho₂ ht (fun j hj => normal_of_keeps (hr.times j hj).1) hne nf name np hf₂ t2 hq hlq

/-- C100, part: with persistent datasets no script is needed; the second run gets the same policies, for at most
one feature.

Full statement: as `C100_traces`, for any number of features.  Missing: two or more features, with which the
second run aborts (`C100_fails`). -/
theorem C100_persistent_partial {env : Env PolicyModel} {gen : ℕ → ℕ → ℕ} {tenv : ℕ → TrainEnv}
    (ho : env.ops = policyOps gen tenv) {name : Str}
    (hw : env.canWrite (datasetPath {} (truncName name)) = true) {nf n : ℕ} (hn : 0 < n) (hn' : n ≤ 2 ^ 31)
    {fs : List Features} (hne : fs ≠ []) (hl : fs.length < 2 ^ 31) (hfew : ∀ f ∈ fs, f.length ≤ 1)
    (hfeat : ∀ f ∈ fs, ∀ x ∈ f, ∃ d, SixDigitDecimal d ∧ x = rnd32 d ∧
      (d = 0 ∨ (2 * 10 ^ (-37 : ℤ) ≤ |d| ∧ |d| ≤ 9 * 10 ^ (37 : ℤ))))
    {time : Features → ℤ → ℚ} (ht : Timed env.clock fs n time)
    (htime : ∀ j < fs.length, ∃ d, SixDigitDecimal d ∧ elapsed env.clock j = rnd64 d ∧
      (d = 0 ∨ (2 * 10 ^ (-307 : ℤ) ≤ |d| ∧ |d| ≤ 9 * 10 ^ (307 : ℤ))))
    (files : Str → Option Str) (hf : files (datasetPath {} (truncName name)) = none) (fuel : ℕ) :
    ∃ rets w, results env (exploreProgram nf name n fs ++ [.destroy 0 fuel])
        (initWorld { persistent := true } files) = .ok (rets, w) ∧
      policies rets = (List.range fs.length).map (fun j : ℕ => ((j % n : ℕ) : ℤ)) ∧
      ∀ (env₂ : Env PolicyModel) gen₂ tenv₂, env₂.ops = policyOps gen₂ tenv₂ →
        ∀ (np : ℤ) (qs : List Features), (∀ q ∈ qs, q ∈ fs) → qs.length < 2 ^ 31 →
          ∃ rets₂ w₂, results env₂ (mappedProgram nf name np qs) (initWorld {} w.files) = .ok (rets₂, w₂) ∧
            List.Forall₂ (fun q c => FastestIn (Tried fs n q) time q c) qs (policies rets₂) := by
  obtain ⟨rets, w, R, h1, h2, h3, h4, h5, h6⟩ := explore_run ho (K := { persistent := true }) ⟨rfl, rfl, rfl⟩
    (nf := nf) (n := n) (by exact_mod_cast hn) (name := name) (files := files) hl (fun _ => hf)
    (fun h => by cases h)
  have hnorm : ∀ j < fs.length, NormalMetric (elapsed env.clock j) := by
    intro j hj
    obtain ⟨d, -, e, hd⟩ := htime j hj
    rw [e]
    exact ⟨representable_rnd _, (rangeDouble_rnd64 hd).imp id fun h => le_trans (by decide +kernel) h.1⟩
  have hex : exec env (exploreProgram nf name n fs) (initWorld { persistent := true } files) = .ok w := by
    rw [results_exec]
    show Prod.snd <$> results env (.create nf name n 0 "RoundRobin".toList [] :: fs.flatMap runWith) _ = _
    rw [h1]; rfl
  obtain ⟨w', hd, hlog⟩ := destroy_alone (env := env) h3 fuel
  have hobs : observe w'.log = observe w.log := by
    rw [hlog, observe, List.foldl_append]; rfl
  have hrows := h3.rows
  have hheld : held w'.log 0 = run ((rowsFrom env.clock 0 1 fs fun j => (j : ℤ) % (n : ℤ)).map Row.meas) := by
    rw [held, hobs, h3.start, hrows, run, List.foldl_map]
    rfl
  have hfile := C43_written env (by rw [ho]; exact policyOps_absorbing gen tenv) { persistent := true } files _ hex
    (by rw [h3.cfg]) h3.region (by rw [h3.cfg, h4]; exact hw) hd (by rw [hobs]; exact h3.proper)
  rw [hheld, h3.cfg, h4] at hfile
  have hmem : ∀ x ∈ (rowsFrom env.clock 0 1 fs fun j => (j : ℤ) % (n : ℤ)).map Row.meas,
      ∃ j, ∃ h : j < fs.length, x = ⟨fs[j], ((j % n : ℕ) : ℤ), elapsed env.clock j⟩ := by
    intro x hx
    obtain ⟨y, hy, rfl⟩ := List.mem_map.1 hx
    obtain ⟨j, hj, rfl⟩ := mem_explored.1 hy
    exact ⟨j, hj, rfl⟩
  have hent : ∀ e ∈ entries ((rowsFrom env.clock 0 1 fs fun j => (j : ℤ) % (n : ℤ)).map Row.meas),
      ∃ j, ∃ h : j < fs.length, e = (fs[j], ((j % n : ℕ) : ℤ), elapsed env.clock j) := by
    rintro ⟨f, p, v⟩ he
    have hv := entry_time (time := time) (fun x hx => by
      obtain ⟨j, hj, rfl⟩ := hmem x hx
      exact ⟨hnorm j hj, ht j _ (List.getElem?_eq_getElem hj)⟩) he
    obtain ⟨x, hx, rfl, rfl⟩ := (C01_key_iff _ f p).1 ⟨v, he⟩
    obtain ⟨j, hj, rfl⟩ := hmem x hx
    exact ⟨j, hj, by rw [hv, ht j _ (List.getElem?_eq_getElem hj)]⟩
  have hload := C06_exact_partial ((rowsFrom env.clock 0 1 fs fun j => (j : ℤ) % (n : ℤ)).map Row.meas)
    (by
      rw [(C01_size _).2]
      refine (List.toFinset_card_le _).trans ?_
      rw [List.length_map, List.length_map, length_rowsFrom]
      omega)
    (fun e he => by obtain ⟨j, hj, rfl⟩ := hent e he; exact hfew _ (List.getElem_mem hj))
    (fun e he => by obtain ⟨j, hj, rfl⟩ := hent e he; exact hfeat _ (List.getElem_mem hj))
    (fun e he => by
      obtain ⟨j, hj, rfl⟩ := hent e he
      have := Nat.mod_lt j hn
      constructor
      · show -2 ^ 31 ≤ ((j % n : ℕ) : ℤ)
        omega
      · show ((j % n : ℕ) : ℤ) < 2 ^ 31
        omega)
    (fun e he => by obtain ⟨j, hj, rfl⟩ := hent e he; exact htime j hj)
  refine ⟨rets ++ [.unit], w', ?_, ?_, ?_⟩
  · rw [results_append]
    show ((results env (.create nf name n 0 "RoundRobin".toList [] :: fs.flatMap runWith) _) >>= _) = _
    rw [h1, Res.bind_ok]
    simp only [results, step, hd, Res.bind_ok]
  · rw [policies_append, h2]
    simp only [policies, List.filterMap_cons, List.filterMap_nil, List.append_nil]
    exact List.map_congr_left fun j _ => by push_cast; rfl
  · intro env₂ gen₂ tenv₂ ho₂ np qs hq hlq
    exact mapped_fastest ho₂ ht hnorm hne nf name np hfile hload hq hlq

/-! ## Which policies are tried -/

/-- C100: if every policy was tried with all features, the second run gets the fastest policies. -/
theorem C100_covered {fs : List Features} {n : ℕ} (hn : 0 < n) (h : Covers fs n) {time : Features → ℤ → ℚ}
    {q : Features} (hq : q ∈ fs) {c : ℤ} (hc : FastestIn (Tried fs n q) time q c) :
    FastestIn (fun p => 0 ≤ p ∧ p < n) time q c := by
  obtain ⟨⟨j, hj, rfl⟩, hbest⟩ := hc
  have hm := Nat.mod_lt j hn
  refine ⟨⟨by omega, by omega⟩, fun p ⟨h0, h1⟩ => hbest p ?_⟩
  obtain ⟨k, rfl⟩ := Int.eq_ofNat_of_zero_le h0
  exact h q hq k (by simpa using h1)

/-- C100: otherwise it can miss them: a policy that was not tried and is faster than what was measured is faster
than the policy of the second run. -/
theorem C100_untried {clock : ℕ → ℤ × ℤ} {fs : List Features} {n : ℕ} {time : Features → ℤ → ℚ}
    (ht : Timed clock fs n time) {q : Features} {p : ℤ}
    (hp : ∀ j, fs[j]? = some q → time q p < elapsed clock j) {c : ℤ}
    (hc : FastestIn (Tried fs n q) time q c) : time q p < time q c := by
  obtain ⟨⟨j, hj, rfl⟩, -⟩ := hc
  rw [← ht j q hj]
  exact hp j hj

theorem cycle_get (gs : List Features) (k : ℕ) : ∀ j, (cycle gs k)[j]? =
    if j < k * gs.length then gs[j % gs.length]? else none := by
  induction k with
  | zero => intro j; simp [cycle]
  | succ k ih =>
    intro j
    have e : cycle gs (k + 1) = gs ++ cycle gs k := by simp [cycle, List.replicate_succ]
    rw [e]
    by_cases hj : j < gs.length
    · rw [List.getElem?_append_left hj, Nat.mod_eq_of_lt hj, if_pos]
      rw [Nat.add_mul]
      omega
    · rw [not_lt] at hj
      rw [List.getElem?_append_right hj, ih, ← Nat.mod_eq_sub_mod hj]
      have : j - gs.length < k * gs.length ↔ j < (k + 1) * gs.length := by
        rw [Nat.add_mul]
        omega
      simp only [this]

/-- C100: different features that repeat in the same order, at least as often as there are policies, cover all
policies exactly if the number of the features and the number of the policies have no common factor. -/
theorem C100_cycle {gs : List Features} (hne : gs ≠ []) (hd : gs.Nodup) {n k : ℕ} (hn : 0 < n) (hk : n ≤ k) :
    Covers (cycle gs k) n ↔ Nat.Coprime gs.length n := by
  have hl : 0 < gs.length := List.length_pos_of_ne_nil hne
  constructor
  · intro h
    by_contra hc
    have h1 : 1 < n := by
      by_contra h1
      have : n = 1 := by omega
      subst this
      exact hc (Nat.coprime_one_right _)
    have h0 : (cycle gs k)[0]? = some gs[0] := by
      rw [cycle_get, if_pos (Nat.mul_pos (by omega) hl), Nat.zero_mod]
      exact List.getElem?_eq_getElem hl
    obtain ⟨j, hj, hj'⟩ := h gs[0] (List.mem_of_getElem? h0) 1 h1
    rw [cycle_get] at hj
    split at hj
    · have hlt := Nat.mod_lt j hl
      rw [List.getElem?_eq_getElem hlt] at hj
      have hz : j % gs.length = 0 := (hd.getElem_inj_iff).1 (Option.some.inj hj)
      have hj1 : j % n = 1 := by exact_mod_cast hj'
      have g1 : Nat.gcd gs.length n ∣ j := (Nat.gcd_dvd_left _ _).trans (Nat.dvd_of_mod_eq_zero hz)
      have g2 : Nat.gcd gs.length n ∣ j % n := (Nat.dvd_mod_iff (Nat.gcd_dvd_right _ _)).2 g1
      rw [hj1, Nat.dvd_one] at g2
      exact hc g2
    · cases hj
  · intro hc q hq p hp
    obtain ⟨i, hi⟩ := List.mem_iff_getElem?.1 hq
    rw [cycle_get] at hi
    split at hi
    · have hx := (Nat.chineseRemainder hc (i % gs.length) p).2
      have hlt := Nat.chineseRemainder_lt_mul hc (i % gs.length) p (by omega) (by omega)
      generalize ((Nat.chineseRemainder hc (i % gs.length) p : ℕ)) = x at hx hlt
      refine ⟨x, ?_, ?_⟩
      · rw [cycle_get, if_pos, ← hi]
        · congr 1
          have := hx.1
          rw [Nat.ModEq, Nat.mod_mod] at this
          exact this
        · refine lt_of_lt_of_le hlt ?_
          rw [Nat.mul_comm]
          exact Nat.mul_le_mul_right _ hk
      · have := hx.2
        rw [Nat.ModEq, Nat.mod_eq_of_lt hp] at this
        exact_mod_cast this
    · cases hi

/-! ## Examples -/

/-- A clock for six executions of three features with two policies in turn. -/
def twoEnv : Env PolicyModel :=
  { demoEnv with clock := fun t => ([0, 0, 1, 1, 3, 3, 6, 6, 8, 8, 10, 10, 12].getD t 12, 0) }

/-- Policy 0 takes as long as the feature says and policy 1 two seconds. -/
def twoTime (q : Features) (p : ℤ) : ℚ := if p = 0 then q.headD 0 else 2

/-- Three features, twice. -/
def twoFeatures : List Features := cycle [[1], [2], [3]] 2

theorem kept_small : ∀ k ∈ ([1, 2, 3] : List ℚ), (Keeps32 k ∧ Reprints demoPy (fmtG6 k) (round6 k)) ∧
    Keeps64 k ∧ Reprints demoPy (fmtG6 k) (round6 k) := by
  intro k hk
  simp only [List.mem_cons, List.not_mem_nil, or_false] at hk
  rcases hk with rfl | rfl | rfl
  · exact ⟨⟨⟨1, 0, by decide +kernel, by decide +kernel, Or.inr (by decide +kernel)⟩,
      ⟨by decide +kernel, by decide +kernel, by decide +kernel, by decide +kernel⟩⟩,
      ⟨1, 0, by decide +kernel, by decide +kernel, Or.inr (by decide +kernel)⟩,
      ⟨by decide +kernel, by decide +kernel, by decide +kernel, by decide +kernel⟩⟩
  · exact ⟨⟨⟨2, 0, by decide +kernel, by decide +kernel, Or.inr (by decide +kernel)⟩,
      ⟨by decide +kernel, by decide +kernel, by decide +kernel, by decide +kernel⟩⟩,
      ⟨2, 0, by decide +kernel, by decide +kernel, Or.inr (by decide +kernel)⟩,
      ⟨by decide +kernel, by decide +kernel, by decide +kernel, by decide +kernel⟩⟩
  · exact ⟨⟨⟨3, 0, by decide +kernel, by decide +kernel, Or.inr (by decide +kernel)⟩,
      ⟨by decide +kernel, by decide +kernel, by decide +kernel, by decide +kernel⟩⟩,
      ⟨3, 0, by decide +kernel, by decide +kernel, Or.inr (by decide +kernel)⟩,
      ⟨by decide +kernel, by decide +kernel, by decide +kernel, by decide +kernel⟩⟩

theorem two_timed : Timed twoEnv.clock twoFeatures 2 twoTime := by
  intro j q hj
  have h : ∀ j < twoFeatures.length, ∀ q ∈ twoFeatures[j]?,
      elapsed twoEnv.clock j = twoTime q ((j % 2 : ℕ) : ℤ) := by decide +kernel
  exact h j (List.getElem?_eq_some_iff.1 hj).1 q hj

theorem two_recorded : Recorded demoPy twoEnv.clock twoFeatures := by
  constructor
  · intro f hf q hq
    have : ∀ f ∈ twoFeatures, ∀ q ∈ f, q ∈ ([1, 2, 3] : List ℚ) := by decide +kernel
    exact (kept_small q (this f hf q hq)).1
  · intro j hj
    have : ∀ j < twoFeatures.length, elapsed twoEnv.clock j ∈ ([1, 2, 3] : List ℚ) := by decide +kernel
    exact (kept_small _ (this j hj)).2

/-- Hypotheses of `C100_traces` and `C100_covered` in an example. -/
example : twoEnv.ops = policyOps (fun _ _ => 0) (fun _ => ⟨isort, id⟩) ∧ |twoEnv.rank| < 2 ^ 31 ∧
    Ordinary (truncName "a".toList) ∧
    twoEnv.canWrite (tracePath {} twoEnv.rank "RoundRobin".toList (truncName "a".toList)) = true ∧
    (∀ f ∈ twoFeatures, f.length = 1) ∧ Timed twoEnv.clock twoFeatures 2 twoTime ∧
    Recorded demoPy twoEnv.clock twoFeatures ∧ Covers twoFeatures 2 :=
  ⟨rfl, by decide +kernel, ⟨⟨'a', [], by decide +kernel, by decide +kernel⟩, by decide +kernel⟩, rfl,
    by decide +kernel, two_timed, two_recorded,
    (C100_cycle (by simp) (by decide +kernel) (by decide) (le_refl 2)).2 (by decide)⟩

theorem six_small : ∀ k ∈ ([1, 2, 3] : List ℚ), SixDigitDecimal k ∧ k = rnd32 k ∧ k = rnd64 k ∧
    2 * 10 ^ (-37 : ℤ) ≤ |k| ∧ |k| ≤ 9 * 10 ^ (37 : ℤ) ∧
    2 * 10 ^ (-307 : ℤ) ≤ |k| ∧ |k| ≤ 9 * 10 ^ (307 : ℤ) := by
  intro k hk
  simp only [List.mem_cons, List.not_mem_nil, or_false] at hk
  rcases hk with rfl | rfl | rfl
  · exact ⟨⟨1, 0, by norm_num, by norm_num⟩, by decide +kernel⟩
  · exact ⟨⟨2, 0, by norm_num, by norm_num⟩, by decide +kernel⟩
  · exact ⟨⟨3, 0, by norm_num, by norm_num⟩, by decide +kernel⟩

/-- Hypotheses of `C100_persistent_partial` in an example. -/
example : twoEnv.canWrite (datasetPath {} (truncName "a".toList)) = true ∧ (∀ f ∈ twoFeatures, f.length ≤ 1) ∧
    (∀ f ∈ twoFeatures, ∀ x ∈ f, ∃ d, SixDigitDecimal d ∧ x = rnd32 d ∧
      (d = 0 ∨ (2 * 10 ^ (-37 : ℤ) ≤ |d| ∧ |d| ≤ 9 * 10 ^ (37 : ℤ)))) ∧
    (∀ j < twoFeatures.length, ∃ d, SixDigitDecimal d ∧ elapsed twoEnv.clock j = rnd64 d ∧
      (d = 0 ∨ (2 * 10 ^ (-307 : ℤ) ≤ |d| ∧ |d| ≤ 9 * 10 ^ (307 : ℤ)))) := by
  refine ⟨rfl, by decide +kernel, ?_, ?_⟩
  · intro f hf x hx
    have : ∀ f ∈ twoFeatures, ∀ q ∈ f, q ∈ ([1, 2, 3] : List ℚ) := by decide +kernel
    obtain ⟨h1, h2, -, h3, h4, -⟩ := six_small x (this f hf x hx)
    exact ⟨x, h1, h2, .inr ⟨h3, h4⟩⟩
  · intro j hj
    have : ∀ j < twoFeatures.length, elapsed twoEnv.clock j ∈ ([1, 2, 3] : List ℚ) := by decide +kernel
    obtain ⟨h1, -, h2, -, -, h3⟩ := six_small _ (this j hj)
    exact ⟨_, h1, h2, .inr h3⟩

/-- Hypotheses of `C100_untried` in an example: only policy 0 was tried with the feature 3. -/
example : Timed twoEnv.clock [[2], [2], [3]] 2 (fun q p => if q = [2] then (if p = 0 then 1 else 2) else
      if p = 0 then 3 else 1) ∧ (∀ j, ([[2], [2], [3]] : List Features)[j]? = some [3] → 1 < elapsed twoEnv.clock j) ∧
    Tried [[2], [2], [3]] 2 [3] 0 ∧ ¬ Tried [[2], [2], [3]] 2 [3] 1 := by
  have h : ∀ j < 3, ∀ q ∈ ([[2], [2], [3]] : List Features)[j]?, elapsed twoEnv.clock j =
      (if q = [2] then (if ((j % 2 : ℕ) : ℤ) = 0 then 1 else 2) else if ((j % 2 : ℕ) : ℤ) = 0 then 3 else 1) := by
    decide +kernel
  have h' : ∀ j < 3, ([[2], [2], [3]] : List Features)[j]? = some [3] → j = 2 := by decide +kernel
  refine ⟨fun j q hj => h j (List.getElem?_eq_some_iff.1 hj).1 q hj, fun j hj => ?_, ⟨2, rfl, rfl⟩, ?_⟩
  · rw [h' j (List.getElem?_eq_some_iff.1 hj).1 hj]
    decide +kernel
  · rintro ⟨j, hj, e⟩
    rw [h' j (List.getElem?_eq_some_iff.1 hj).1 hj] at e
    exact absurd e (by decide)

/-- What the two runs do in the example. -/
example : (match results twoEnv (exploreProgram 1 "a".toList 2 twoFeatures)
      (initWorld { traceCsv := true } fun _ => none) with
    | .ok (rets, w) => decide (policies rets = [0, 1, 0, 1, 0, 1]) &&
      (match (demoPy.createDataset .none [((w.regions 0).map Region.trace).getD []] []).1 with
      | [(f, text)] => decide (f = "Dataset-a.yaml".toList) &&
        (match results demoEnv (mappedProgram 1 "a".toList 2 [[3], [1], [2], [3]])
          (initWorld {} fun g => if g = ".apollo/datasets/Dataset-a.yaml".toList then some text else none) with
        | .ok (rets, _) => decide (policies rets = [1, 0, 0, 1])
        | .error _ => false)
      | _ => false)
    | .error _ => false) = true := by decide +kernel

theorem ok_of_match {α : Type} {x : Res α} {P : α → Bool}
    (h : (match x with | .ok y => P y | .error _ => false) = true) : ∃ y, x = .ok y ∧ P y = true := by
  cases x with
  | ok y => exact ⟨y, rfl, h⟩
  | error e => cases h

/-- C100 is false without `Covers` and, with persistent datasets, for two features.  Two features that alternate
are each tried with one of two policies only; the second run uses for the feature 3 the policy 0 that takes three
seconds though policy 1 takes two.  After a first run with two features the second aborts. -/
theorem C100_fails :
    (∃ rets w, results twoEnv (exploreProgram 1 "a".toList 2 [[3], [1], [3], [1]] ++ [.destroy 0 0])
      (initWorld { persistent := true } fun _ => none) = .ok (rets, w) ∧
      ∃ rets₂ w₂, results twoEnv (mappedProgram 1 "a".toList 2 [[3], [1]]) (initWorld {} w.files) =
        .ok (rets₂, w₂) ∧ policies rets₂ = [0, 1] ∧ twoTime [3] 1 < twoTime [3] 0) ∧
    (∃ rets w, results twoEnv (exploreProgram 2 "a".toList 2 [[3, 1], [1, 3]] ++ [.destroy 0 0])
      (initWorld { persistent := true } fun _ => none) = .ok (rets, w) ∧
      results twoEnv (mappedProgram 2 "a".toList 2 [[3, 1]]) (initWorld {} w.files) = .error .abort) := by
  constructor
  · obtain ⟨⟨rets, w⟩, h1, h2⟩ := ok_of_match (x := results twoEnv (exploreProgram 1 "a".toList 2
        [[3], [1], [3], [1]] ++ [.destroy 0 0]) (initWorld { persistent := true } fun _ => none))
      (P := fun y => match results twoEnv (mappedProgram 1 "a".toList 2 [[3], [1]]) (initWorld {} y.2.files) with
        | .ok z => decide (policies z.1 = [0, 1])
        | .error _ => false) (by decide +kernel)
    simp only at h2
    split at h2
    · next z e => exact ⟨rets, w, h1, z.1, z.2, e, of_decide_eq_true h2, by decide +kernel⟩
    · cases h2
  · obtain ⟨⟨rets, w⟩, h1, h2⟩ := ok_of_match (x := results twoEnv (exploreProgram 2 "a".toList 2
        [[3, 1], [1, 3]] ++ [.destroy 0 0]) (initWorld { persistent := true } fun _ => none))
      (P := fun y => match results twoEnv (mappedProgram 2 "a".toList 2 [[3, 1]]) (initWorld {} y.2.files) with
        | .ok _ => false
        | .error e => decide (e = .abort)) (by decide +kernel)
    refine ⟨rets, w, h1, ?_⟩
    simp only at h2
    split at h2
    · cases h2
    · next e => rw [e, of_decide_eq_true h2]

end Apollo.Props
