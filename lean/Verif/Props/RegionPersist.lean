import Verif.Proofs.RegionPersist
import Verif.Props.DatasetIO
import Verif.Props.RegionFiles

/-!
# Property C43: persistent datasets survive restarts

A region is destroyed in one run and a region of the same name is created in the next one, whose
files are those the first left.
-/

namespace Apollo.Props

open Apollo Apollo.Spec

variable {M : Type}

/-- The measurements a region holds according to the events: those it started with and one for each
of its finished executions, in order. -/
def held (h : List Ev) (r : ℕ) : Dataset :=
  ((observe h).rows r).foldl (fun ds x => ds.insert x.features x.policy x.metric)
    ((observe h).start r)

/-- The measurements of a dataset. -/
def measurements (ds : Dataset) : List (List ℚ × ℤ × ℚ) :=
  ds.map fun d => ((ofLex d.1).1, (ofLex d.1).2, d.2)

/-- C43, writing: destroying a region with persistent datasets leaves, in the file of its name, all
measurements it held, including those of executions that were still waiting, if that file can be
written (C71 says when). -/
theorem C43_written (env : Env M) (ha : Absorbing env.ops) (cfg : Cfg) (files : Str → Option Str)
    (ops : List Op) {w w' : World M} (h : exec env ops (initWorld cfg files) = .ok w)
    (hp : w.cfg.persistent = true) {r fuel : ℕ} {R : Region} (hR : w.regions r = some R)
    (hcw : env.canWrite (datasetPath w.cfg R.name) = true)
    (hd : destroyRegion env w r fuel = .ok w') (hpr : (observe w'.log).proper r = true) :
    w'.files (datasetPath w.cfg R.name) = some (Dataset.store (held w'.log r)) :=
  destroyed_self ha
    ((DataInv.invariant ha fun _ => True).exec (fun _ _ _ _ => trivial)
      ⟨logInv_init cfg files, dataInv_init env cfg files⟩ h)
    ⟨R, hR, rfl⟩ hp hcw hd hpr

/-- C43, writing: shutdown leaves the measurements of every registered region in the file of its
name. -/
theorem C43_shutdown (env : Env M) (ha : Absorbing env.ops) (cfg : Cfg) (files : Str → Option Str)
    (ops : List Op) {w w' : World M} (h : exec env ops (initWorld cfg files) = .ok w)
    (hp : w.cfg.persistent = true) (hc : w.cfg.Separate) {fuel : ℕ}
    (hd : shutdown env w fuel = .ok w') {n : Str} {r : ℕ} (hn : OMap.find w.registry n = some r)
    (hcw : env.canWrite (datasetPath w.cfg n) = true)
    (hpr : (observe w'.log).proper r = true) :
    w'.files (datasetPath w.cfg n) = some (Dataset.store (held w'.log r)) := by
  unfold shutdown at hd
  obtain ⟨w₁, h1, hd⟩ := (Res.bind_eq_ok _ _ _).1 hd
  obtain ⟨fs, rfl⟩ : ∃ fs, w₁ = { w with files := fs } := by
    unfold writeExecInfo at h1
    split at h1
    · obtain ⟨s, -, h1⟩ := (Res.bind_eq_ok _ _ _).1 h1
      cases h1
      exact write_same env w _ _
    · cases h1; exact ⟨w.files, rfl⟩
  have hD := (DataInv.invariant ha fun _ => True).exec (fun _ _ _ _ => trivial)
      ⟨logInv_init cfg files, dataInv_init env cfg files⟩ h
  have hG := (RegInv.invariant env fun _ => True).exec (fun _ _ _ _ => trivial)
      ⟨logInv_init cfg files, regInv_init cfg files⟩ h
  have hw : Closing env w.cfg { w with files := fs } := by
    refine ⟨⟨?_, hD.2⟩, ⟨?_, ?_⟩, ⟨w.cfg.globalPeriod, rfl⟩⟩
    · obtain ⟨hl, -⟩ := hD
      exact ⟨hl.1, hl.2, hl.3, hl.4, hl.5, hl.6, hl.7, hl.8, hl.9, hl.10, hl.11⟩
    · obtain ⟨hl, -⟩ := hD
      exact ⟨hl.1, hl.2, hl.3, hl.4, hl.5, hl.6, hl.7, hl.8, hl.9, hl.10, hl.11⟩
    · exact ⟨hG.2.sorted, hG.2.fresh, hG.2.nodup, hG.2.name, hG.2.first⟩
  refine hw.all ha hc hp (L := w.registry) (fun _ hx => hx) ?_ hG.2.nodup hd
    ((hG.2.sorted.find_eq_some_iff _ _).1 hn) hcw hpr
  have hs : w.registry.Pairwise fun a b => a.1 < b.1 := hG.2.sorted
  exact List.pairwise_map.2 (hs.imp fun h => ne_of_lt h)

/-- C43 is false when an execution has two or more features: the next run does not come up.  If the
region held a measurement with two features, then creating a region of that name, in any state in
which the file is the one left behind, never returns, whatever the other arguments. -/
theorem C43_fails (env : Env M) (w₂ : World M) (hp₂ : w₂.cfg.persistent = true) (name : Str)
    (ds : Dataset) (hds : ∃ e ∈ measurements ds, 2 ≤ e.1.length)
    (hfile : w₂.files (datasetPath w₂.cfg (truncName name)) = some (Dataset.store ds))
    (nf n mt : ℤ) (info yaml : Str) :
    ¬ ∃ x, createRegion env w₂ nf name n mt info yaml = .ok x := by
  rintro ⟨x, h⟩
  obtain ⟨ds', h1⟩ := createRegion_reads_file h hp₂
  rw [hfile] at h1
  obtain ⟨e, he, h2⟩ := hds
  obtain ⟨d, hd, rfl⟩ := List.mem_map.1 he
  obtain ⟨e, h3⟩ := Dataset.load_fails ⟨d, hd, h2⟩ []
  simp only [loadIfExists] at h1
  rw [h3] at h1
  cases h1

/-- C43, part: if every measurement held has at most one feature and numbers in the normal range, a
region of the same name starts in the next run with the same measurements at six significant digits.

Full statement: it starts with the same measurements.  Missing: measurements with two or more
features (`C43_fails`), digits beyond the sixth (`C43_loses_digits`), numbers outside the normal
range (`C06_tiny_metric_throws`). -/
theorem C43_restart_partial (env : Env M) (w₂ w₂' : World M) (hp₂ : w₂.cfg.persistent = true)
    (nf n mt : ℤ) (name info yaml : Str) {r : ℕ} {R : Region}
    (h : createRegion env w₂ nf name n mt info yaml = .ok (r, w₂'))
    (hR : w₂'.regions r = some R) (hl : R.params.find "load-dataset".toList = none)
    (hm : R.modelName ≠ "DatasetMap".toList)
    (ds : Dataset) (hs : ∀ e ∈ measurements ds, Storable e) (hlen : ds.size ≤ 2 ^ 31)
    (hfile : w₂.files (datasetPath w₂.cfg (truncName name)) = some (Dataset.store ds)) :
    (observe w₂'.log).start r = R.dataset ∧
    ∃ h' : List Meas,
      List.Forall₂ SixDigitCopy (measurements ds) (h'.map fun x => (x.features, x.policy, x.metric)) ∧
      R.dataset = run h' := by
  obtain ⟨hn, hds⟩ := createRegion_dataset h hR hp₂ hl hm
  rw [hn, hfile] at hds
  simp only [loadIfExists] at hds
  have hok : ∀ d ∈ ds, Dataset.EntryOk d := by
    intro d hd
    obtain ⟨h1, h2, h3, h4⟩ := hs _ (List.mem_map.2 ⟨d, hd, rfl⟩)
    exact ⟨h1, h2, h3, h4⟩
  rw [Dataset.load_store hok hlen] at hds
  refine ⟨?_, ds.map fun d => ⟨(Dataset.reread d).1, (Dataset.reread d).2.1,
    (Dataset.reread d).2.2⟩, ?_, ?_⟩
  · obtain ⟨R', m, l, h1⟩ := createRegion_ok h
    have : R' = R := by
      have := h1.regions
      rw [this, Function.update_self] at hR
      exact Option.some.inj hR
    rw [h1.log, observe_snoc, this]
    exact Function.update_self ..
  · unfold measurements
    rw [List.map_map]
    rw [List.forall₂_map_left_iff, List.forall₂_map_right_iff, List.forall₂_same]
    intro d hd
    refine ⟨?_, rfl, round6 d.2, ⟨sixDigits_round6 _, fun d' hd' => round6_nearest _ d' hd'⟩, rfl⟩
    show List.Forall₂ _ (ofLex d.1).1 ((ofLex d.1).1.map fun x => rnd32 (round6 x))
    rw [List.forall₂_map_right_iff, List.forall₂_same]
    exact fun x _ => ⟨round6 x, ⟨sixDigits_round6 _, fun d' hd' => round6_nearest _ d' hd'⟩, rfl⟩
  · rw [run_eq, List.map_map]
    exact (Except.ok.inj hds).symm

/-- C43, part: if moreover the numbers come from decimal literals of at most six significant digits,
the region starts with exactly the measurements.  Full statement and what is missing: see
`C43_restart_partial`. -/
theorem C43_exact_partial (env : Env M) (w₂ w₂' : World M) (hp₂ : w₂.cfg.persistent = true)
    (nf n mt : ℤ) (name info yaml : Str) {r : ℕ} {R : Region}
    (h : createRegion env w₂ nf name n mt info yaml = .ok (r, w₂'))
    (hR : w₂'.regions r = some R) (hl : R.params.find "load-dataset".toList = none)
    (hm : R.modelName ≠ "DatasetMap".toList)
    (hist : List Meas) (hlen : (run hist).size ≤ 2 ^ 31)
    (hfew : ∀ e ∈ entries hist, e.1.length ≤ 1)
    (hfeat : ∀ e ∈ entries hist, ∀ x ∈ e.1, ∃ d, SixDigitDecimal d ∧ x = rnd32 d ∧
      (d = 0 ∨ (2 * 10 ^ (-37 : ℤ) ≤ |d| ∧ |d| ≤ 9 * 10 ^ (37 : ℤ))))
    (hpol : ∀ e ∈ entries hist, -2 ^ 31 ≤ e.2.1 ∧ e.2.1 < 2 ^ 31)
    (hmet : ∀ e ∈ entries hist, ∃ d, SixDigitDecimal d ∧ e.2.2 = rnd64 d ∧
      (d = 0 ∨ (2 * 10 ^ (-307 : ℤ) ≤ |d| ∧ |d| ≤ 9 * 10 ^ (307 : ℤ))))
    (hfile : w₂.files (datasetPath w₂.cfg (truncName name)) = some (Dataset.store (run hist))) :
    R.dataset = run hist := by
  obtain ⟨hn, hds⟩ := createRegion_dataset h hR hp₂ hl hm
  rw [hn, hfile] at hds
  simp only [loadIfExists] at hds
  rw [C06_exact_partial hist hlen hfew hfeat hpol hmet] at hds
  exact (Except.ok.inj hds).symm

/-- A region without a file starts empty. -/
theorem C43_first_run (env : Env M) (w₂ w₂' : World M) (hp₂ : w₂.cfg.persistent = true)
    (nf n mt : ℤ) (name info yaml : Str) {r : ℕ} {R : Region}
    (h : createRegion env w₂ nf name n mt info yaml = .ok (r, w₂'))
    (hR : w₂'.regions r = some R) (hl : R.params.find "load-dataset".toList = none)
    (hm : R.modelName ≠ "DatasetMap".toList)
    (hfile : w₂.files (datasetPath w₂.cfg (truncName name)) = none) : R.dataset = [] := by
  obtain ⟨hn, hds⟩ := createRegion_dataset h hR hp₂ hl hm
  rw [hn, hfile] at hds
  exact (Except.ok.inj hds).symm

/-! ## Examples -/

/-- Persistent datasets. -/
def persistCfg : Cfg := { persistent := true }

/-- Two runs: the second region starts with what the first one held, and adds to it. -/
example : ∃ w, exec demoEnv ([demoCreate "a", demoCreate "b"] ++ demoRun 0 3 1 ++ demoRun 0 4 2 ++
      demoRun 1 5 5 ++ [.destroy 0 5, .destroy 1 5]) (initWorld persistCfg fun _ => none) = .ok w ∧
    (held w.log 0 = run [⟨[3], 0, 1⟩, ⟨[4], 1, 2⟩] ∧
      (observe w.log).proper 0 = true ∧
      w.files (datasetPath w.cfg "a".toList) = some (Dataset.store (held w.log 0)) ∧
      (match createRegion demoEnv (initWorld persistCfg w.files) 1 "a".toList 2 0
          "Static,policy=0".toList [] with
        | .ok (r, w') => decide ((w'.regions r).map Region.dataset = some (held w.log 0))
        | .error _ => false) = true) := run_ok (by decide +kernel)

/-- Two features: the second run aborts in the constructor. -/
theorem C43_fails_witness : ∃ w, exec demoEnv ([.create 2 "a".toList 2 0 "Static,policy=0".toList [],
      .beginWith 0 [1, 2], .getPolicyIndex 0 (.sync 0), .endMetric 0 (.sync 0) 5, .destroy 0 5])
        (initWorld persistCfg fun _ => none) = .ok w ∧
    (match createRegion demoEnv (initWorld persistCfg w.files) 2 "a".toList 2 0
        "Static,policy=0".toList [] with
      | .ok _ => false
      | .error e => decide (e = .abort)) = true := run_ok (by decide +kernel)

/-- Digits beyond the sixth are lost. -/
theorem C43_loses_digits : ∃ w, exec demoEnv ([demoCreate "a"] ++ demoRun 0 3 (1234567 / 8) ++
      [.destroy 0 5]) (initWorld persistCfg fun _ => none) = .ok w ∧
    (match createRegion demoEnv (initWorld persistCfg w.files) 1 "a".toList 2 0
        "Static,policy=0".toList [] with
      | .ok (r, w') => decide (held w.log 0 = run [⟨[3], 0, 1234567 / 8⟩] ∧
          (w'.regions r).map Region.dataset = some (run [⟨[3], 0, 154321⟩]))
      | .error _ => false) = true := run_ok (by decide +kernel)

/-- Shutdown writes the files of all registered regions. -/
example : ∃ w, (do
      let w ← exec demoEnv ([demoCreate "a", demoCreate "b"] ++ demoRun 0 3 1 ++ demoRun 0 4 2 ++
        demoRun 1 5 5) (initWorld persistCfg fun _ => none)
      shutdown demoEnv w 5) = .ok w ∧
    (held w.log 1 = run [⟨[5], 0, 5⟩] ∧
      w.files (datasetPath w.cfg "a".toList) = some (Dataset.store (held w.log 0)) ∧
      w.files (datasetPath w.cfg "b".toList) = some (Dataset.store (held w.log 1))) :=
  run_ok (by decide +kernel)

/-- A region that is not in the registry, since another one has its name, is not written at shutdown;
its measurements are lost. -/
theorem C43_unregistered : ∃ w, (do
      let w ← exec demoEnv ([demoCreate "a", demoCreate "a"] ++ demoRun 0 3 1 ++ demoRun 1 4 2)
        (initWorld persistCfg fun _ => none)
      shutdown demoEnv w 5) = .ok w ∧
    (held w.log 1 = run [⟨[4], 0, 2⟩] ∧
      w.files (datasetPath w.cfg "a".toList) = some (Dataset.store (run [⟨[3], 0, 1⟩]))) :=
  run_ok (by decide +kernel)

end Apollo.Props
