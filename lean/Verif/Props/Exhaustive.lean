import Verif.Proofs.Exhaustive
import Verif.Props.TwoRuns
import Verif.Spec.Exhaustive

/-!
# Property C101: exhaustive experiments
-/

namespace Apollo.Props

open Apollo Apollo.Spec Apollo.Scripts

/-- Where the traces are. -/
def tracesDir : Str := ".apollo/traces".toList

theorem traces_path (rank : ℤ) (info region : Str) :
    tracePath {} rank info region = tracesDir ++ "/".toList ++ traceName info region rank := by
  have e1 : tracesDir = ".apollo".toList ++ "/".toList ++ "traces".toList := by decide +kernel
  have e2 : "/trace-".toList = "/".toList ++ "trace-".toList := by decide +kernel
  show ".apollo".toList ++ "/".toList ++ "traces".toList ++ "/trace-".toList ++ info ++ "-region-".toList ++
    region ++ "-rank-".toList ++ fmtInt rank ++ ".csv".toList = _
  unfold traceName
  generalize "-rank-".toList = x1, ".csv".toList = x2, "-region-".toList = x3, "trace-".toList = x4,
    "/trace-".toList = x5, ".apollo".toList = x6, "/".toList = x7, "traces".toList = x8, tracesDir = x9 at *
  rw [e1, e2]
  simp only [List.append_assoc]

/-- The name of the global trace. -/
def gtraceName (rank : ℤ) : Str := "trace-rank-".toList ++ fmtInt rank ++ ".csv".toList

theorem gtraces_path (rank : ℤ) (model : Str) :
    gtracePath (runSettings model) rank = tracesDir ++ "/".toList ++ gtraceName rank := by
  have e1 : tracesDir = ".apollo".toList ++ "/".toList ++ "traces".toList := by decide +kernel
  have e2 : "/trace-rank-".toList = "/".toList ++ "trace-rank-".toList := by decide +kernel
  show ".apollo".toList ++ "/".toList ++ "traces".toList ++ "/trace-rank-".toList ++ fmtInt rank ++
    ".csv".toList = _
  unfold gtraceName
  generalize "trace-rank-".toList = x1, ".csv".toList = x2,
    "/trace-rank-".toList = x5, ".apollo".toList = x6, "/".toList = x7, "traces".toList = x8, tracesDir = x9 at *
  rw [e1, e2]
  simp only [List.append_assoc]

theorem slash_traceName {info region : Str} (hi : '/' ∉ info) (hr : '/' ∉ region) (rank : ℤ) :
    '/' ∉ traceName info region rank :=
  no_append (no_append (no_append (no_append (no_append (no_append (by decide +kernel) hi) (by decide +kernel)) hr)
    (by decide +kernel)) (slash_not_mem_fmtInt rank)) (by decide +kernel)

theorem slash_static (p : ℕ) : '/' ∉ staticInfo p := no_append (by decide +kernel) (slash_not_mem_fmtInt p)

theorem equals_roundRobin {region : Str} (hr : '=' ∉ region) (rank : ℤ) :
    '=' ∉ traceName "RoundRobin".toList region rank :=
  no_append (no_append (no_append (no_append (no_append (no_append (by decide +kernel) (by decide +kernel))
    (by decide +kernel)) hr) (by decide +kernel)) (not_mem_rank equals_digit (by decide +kernel))) (by decide +kernel)

theorem equals_gtrace (rank : ℤ) : '=' ∉ gtraceName rank :=
  no_append (no_append (by decide +kernel) (not_mem_rank equals_digit (by decide +kernel))) (by decide +kernel)

theorem slash_gtrace (rank : ℤ) : '/' ∉ gtraceName rank :=
  no_append (no_append (by decide +kernel) (slash_not_mem_fmtInt rank)) (by decide +kernel)

/-- One run of the script with known answers. -/
theorem run_one {env : Env PolicyModel} {gen : ℕ → ℕ → ℕ} {tenv : ℕ → TrainEnv}
    (ho : env.ops = policyOps gen tenv) {os : Os} (hu : Unset os) (hd : ∀ d, os.mkdir d = true)
    (hw : ∀ f, os.canWrite f = true) (hcw : ∀ f, env.canWrite f = true) {nf n : ℤ} {name info : Str}
    (hi : info ≠ []) {ms : ℕ → PolicyModel} {cs : ℕ → ℤ} (hm : Made (gen 0) info nf n (ms 0))
    (hs : ∀ j f, (ms j).getIndex f = .ok (cs j, ms (j + 1))) {fs : List Features} (hl : fs.length < 2 ^ 31)
    (fuel : ℕ) (D : Directory) :
    ∃ g, runProgram env (exhaustiveOs os info) (tuningProgram [] nf name n fs) fuel D =
      .ok ((D.put (tracePath {} env.rank info (truncName name))
        (RegionTrace.text ⟨env.rank, (ms fs.length).name, truncName name, nf.toNat,
          rowsFrom env.clock 0 1 fs cs⟩)).put (gtracePath (runSettings info) env.rank) g) := by
  have hq : Quiet (runSettings info).cfg := by rw [runSettings_cfg]; exact ⟨rfl, rfl, rfl⟩
  have hp : (runSettings info).cfg.persistent = false := by rw [runSettings_cfg]
  have ht : (runSettings info).cfg.traceCsv = true := by rw [runSettings_cfg]
  have hx : (runSettings info).cfg.storeExecInfo = false := by rw [runSettings_cfg]
  obtain ⟨rets, w, R, h1, h2, h3, h4, h5⟩ := tuned_run ho hq hi hm hs (files := D.get) (name := name) hl hp
    (hcw _)
  have hres : results env (tuningProgram [] nf name n fs) (initWorld (runSettings info).cfg D.get) =
      .ok (rets, w) := by
    have := create_default (env := env) (nf := nf) (n := n) (name := name) (ops := fs.flatMap runWith)
      (w := initWorld (runSettings info).cfg D.get) (by rw [runSettings_cfg]; exact hi)
    have e : (initWorld (runSettings info).cfg D.get : World PolicyModel).cfg.policyModel = info := by
      rw [runSettings_cfg]; rfl
    rw [e, h1] at this
    exact this
  have hex : exec env (tuningProgram [] nf name n fs) (initWorld (runSettings info).cfg D.get) = .ok w := by
    rw [results_exec, hres]; rfl
  have htext : R.trace = RegionTrace.text ⟨env.rank, (ms fs.length).name, truncName name, nf.toNat,
      rowsFrom env.clock 0 1 fs cs⟩ := by
    have := TracedRun.text ⟨gen, tenv, env, _, _, _, w, 0, R, _, ho, hex, by rw [h2.cfg]; exact ht, h2.region,
      h2.model, h2.proper⟩
    rw [this]
    simp only [TracedRun.executed, h2.rows, h3, h4]
  obtain ⟨w', hc⟩ := close_alone (env := env) h2 ht fuel
  refine ⟨w'.gtrace, ?_⟩
  have hwe : writeExecInfo env w = .ok w := by
    simp only [writeExecInfo, h2.cfg, hx, Bool.false_eq_true, if_false]
  have hpath : tracePath (runSettings info).cfg env.rank R.modelInfo R.name =
      tracePath {} env.rank info (truncName name) := by
    rw [h5, h3, runSettings_cfg]; rfl
  rw [hpath, htext] at hc
  unfold runProgram
  rw [settings_run hu, Res.bind_ok, startup_run hu hd hw, Res.bind_ok, hex, Res.bind_ok, hwe, Res.bind_ok,
    h2.registry, hc, Res.bind_ok]
  simp only [ht, if_true]
  rfl

/-! ## The runs of the script -/

/-- The trace of the run with a static policy. -/
def staticTrace (clock : ℕ → ℕ → ℤ × ℤ) (rank : ℤ) (name : Str) (nf n : ℕ) (fs : List Features) (p : ℕ) :
    RegionTrace :=
  ⟨rank, "Static,".toList ++ fmtInt (staticChoice n p), truncName name, nf,
    rowsFrom (clock p) 0 1 fs fun _ => staticChoice n p⟩

/-- The file of the trace of the run with a static policy. -/
def staticPath (rank : ℤ) (name : Str) (p : ℕ) : Str := tracePath {} rank (staticInfo p) (truncName name)

theorem runsFrom_append {envs : ℕ → Env PolicyModel} {os : Os} {ops : List Apollo.Op} {fuel : ℕ} (ms' : List Str) :
    ∀ (ms : List Str) (i : ℕ) (D D' : Directory), runsFrom envs os ops fuel i ms D = .ok D' →
      runsFrom envs os ops fuel i (ms ++ ms') D = runsFrom envs os ops fuel (i + ms.length) ms' D' := by
  intro ms
  induction ms with
  | nil => intro i D D' h; cases h; rfl
  | cons m ms ih =>
    intro i D D' h
    rw [runsFrom] at h
    obtain ⟨D1, h1, h2⟩ := (Res.bind_eq_ok _ _ _).1 h
    rw [List.cons_append, runsFrom, h1, Res.bind_ok, ih _ _ _ h2, List.length_cons, Nat.add_right_comm,
      Nat.add_assoc]

/-- The files after the runs with the first static policies. -/
structure After (D₀ : Directory) (path text : ℕ → Str) (other : Str → Prop) (k : ℕ) (D : Directory) : Prop where
  once : Once D
  has : ∀ p < k, (path p, text p) ∈ D
  only : ∀ e ∈ D, (∃ p < k, e = (path p, text p)) ∨ (e ∈ D₀ ∧ ∀ p < k, e.1 ≠ path p) ∨ other e.1

theorem After.start {D : Directory} (h : Once D) (path text : ℕ → Str) (other : Str → Prop) :
    After D path text other 0 D :=
  ⟨h, fun _ hp => absurd hp (Nat.not_lt_zero _), fun _ he => .inr (.inl ⟨he, fun _ hp => absurd hp (Nat.not_lt_zero _)⟩)⟩

theorem After.other {D₀ : Directory} {path text : ℕ → Str} {other : Str → Prop} {k : ℕ} {D : Directory}
    (h : After D₀ path text other k D) (ho : ∀ p, ¬ other (path p)) {f : Str} (hf : other f) (g : Str) :
    After D₀ path text other k (D.put f g) := by
  refine ⟨h.once.put _ _, fun p hp => mem_put.2 (.inl ⟨h.has p hp, fun e => ho p (by rw [show path p = f from e]; exact hf)⟩), fun e he => ?_⟩
  rcases mem_put.1 he with ⟨h1, -⟩ | rfl
  · exact h.only e h1
  · exact .inr (.inr hf)

theorem After.next {D₀ : Directory} {path text : ℕ → Str} {other : Str → Prop} {k : ℕ} {D : Directory}
    (h : After D₀ path text other k D) (hi : ∀ p q, path p = path q → p = q) :
    After D₀ path text other (k + 1) (D.put (path k) (text k)) := by
  refine ⟨h.once.put _ _, fun p hp => mem_put.2 ?_, fun e he => ?_⟩
  · by_cases hpk : p = k
    · exact .inr (by rw [hpk])
    · exact .inl ⟨h.has p (by omega), fun e => hpk (hi _ _ e)⟩
  · rcases mem_put.1 he with ⟨h1, h2⟩ | rfl
    · rcases h.only e h1 with ⟨p, hp, rfl⟩ | ⟨h3, h4⟩ | h3
      · exact .inl ⟨p, by omega, rfl⟩
      · refine .inr (.inl ⟨h3, fun p hp => ?_⟩)
        by_cases hpk : p = k
        · rw [hpk]; exact h2
        · exact h4 p (by omega)
      · exact .inr (.inr h3)
    · exact .inl ⟨k, by omega, rfl⟩

theorem ordinary_static' {c : ℤ} (hc : 0 ≤ c) : Ordinary ("Static,".toList ++ fmtInt c) := by
  obtain ⟨p, rfl⟩ := Int.eq_ofNat_of_zero_le hc
  have hd : ∀ c : Char, isDigit c = false → c ∉ fmtInt (p : ℤ) := fun c h => not_mem_digits h
  have e : "Static,".toList = 'S' :: "tatic,".toList := by decide +kernel
  refine ⟨⟨'S', "tatic,".toList ++ fmtInt (p : ℤ), by rw [e]; rfl, by decide +kernel⟩,
    no_append (by decide +kernel) (hd _ (by decide +kernel)), no_append (by decide +kernel) (hd _ (by decide +kernel)),
    no_append (by decide +kernel) (hd _ (by decide +kernel)), no_append (by decide +kernel) (hd _ (by decide +kernel)),
    ?_⟩
  rw [e, List.cons_append, List.map_cons]
  generalize (List.map Char.toLower ("tatic,".toList ++ fmtInt (p : ℤ))) = l
  intro h
  have key : ∀ s ∈ ["n/a", "na", "null", "nan", "none", "inf", "infinity", "true", "false"].map String.toList,
      s.head? ≠ some (Char.toLower 'S') := by decide +kernel
  exact key _ h rfl

/-- What the script needs: the runs use the library's models, every run has the rank `rank`, the user has not set
variables of the library, and files can be written. -/
structure Experiment (envs : ℕ → Env PolicyModel) (os : Os) (rank : ℤ) : Prop where
  models : ∀ i, ∃ gen tenv, (envs i).ops = policyOps gen tenv
  rank : ∀ i, (envs i).rank = rank
  unset : Unset os
  dirs : ∀ d, os.mkdir d = true
  opens : ∀ f, os.canWrite f = true
  writes : ∀ i f, (envs i).canWrite f = true

/-- The files that are written beside those of the static policies. -/
def besides (rank : ℤ) (name f : Str) : Prop :=
  f = tracePath {} rank "RoundRobin".toList (truncName name) ∨ f = tracesDir ++ "/".toList ++ gtraceName rank

theorem staticPath_in {name : Str} (hs : '/' ∉ truncName name) (rank : ℤ) (p : ℕ) :
    nameIn tracesDir (staticPath rank name p) = some (traceName (staticInfo p) (truncName name) rank) := by
  rw [staticPath, traces_path, nameIn_append _ _ (slash_traceName (slash_static p) hs rank)]

theorem staticPath_inj {name : Str} (he : '=' ∉ truncName name) (hs : '/' ∉ truncName name) {rank : ℤ} {p q : ℕ}
    (h : staticPath rank name p = staticPath rank name q) : p = q := by
  have h1 := staticPath_in hs rank p
  rw [h, staticPath_in hs rank q] at h1
  have h2 := static_found p (truncName name) rank
  rw [← Option.some.inj h1] at h2
  exact static_other he h2

theorem besides_in {rank : ℤ} {name f : Str} (he : '=' ∉ truncName name) (hs : '/' ∉ truncName name)
    (h : besides rank name f) : ∃ s, nameIn tracesDir f = some s ∧ '=' ∉ s := by
  rcases h with rfl | rfl
  · exact ⟨_, by rw [traces_path, nameIn_append _ _ (slash_traceName (by decide +kernel) hs rank)],
      equals_roundRobin he rank⟩
  · exact ⟨_, nameIn_append _ _ (slash_gtrace rank), equals_gtrace rank⟩

theorem besides_static {rank : ℤ} {name : Str} (he : '=' ∉ truncName name) (hs : '/' ∉ truncName name) (p : ℕ) :
    ¬ besides rank name (staticPath rank name p) := by
  intro h
  obtain ⟨s, h1, h2⟩ := besides_in he hs h
  rw [staticPath_in hs rank p] at h1
  have h3 := static_found p (truncName name) rank
  rw [Option.some.inj h1, static_not_found p h2] at h3
  cases h3

/-- C101 (files): the script runs the program with every static policy and once with RoundRobin; then the traces
of the static policies are there, the trace of RoundRobin and of the process are there, and nothing else is new. -/
theorem C101_runs {envs : ℕ → Env PolicyModel} {os : Os} {rank : ℤ} (hE : Experiment envs os rank) {name : Str}
    (he : '=' ∉ truncName name) (hs : '/' ∉ truncName name) {nf n N : ℕ} (hn : 0 < n) (hN : N ≤ 2 ^ 31)
    {fs : List Features} (hl : fs.length < 2 ^ 31) (fuel : ℕ) {D : Directory} (hD : Once D) :
    ∃ D', exhaustive envs os (tuningProgram [] nf name n fs) fuel N D = .ok D' ∧
      After D (staticPath rank name)
        (fun p => (staticTrace (fun p => (envs p).clock) rank name nf n fs p).text) (besides rank name) N D' := by
  have key : ∀ k ≤ N, ∃ D', runsFrom envs os (tuningProgram [] nf name n fs) fuel 0
      ((List.range k).map staticInfo) D = .ok D' ∧ After D (staticPath rank name)
        (fun p => (staticTrace (fun p => (envs p).clock) rank name nf n fs p).text) (besides rank name) k D' := by
    intro k
    induction k with
    | zero => exact fun _ => ⟨D, rfl, .start hD _ _ _⟩
    | succ k ih =>
      intro hk
      obtain ⟨D1, h1, h2⟩ := ih (by omega)
      obtain ⟨gen, tenv, ho⟩ := hE.models k
      have hc : (if (n : ℤ) ≤ k then 0 else (k : ℤ)) = staticChoice n k := by
        unfold staticChoice
        split_ifs <;> omega
      have hm := Scripts.made_static (gen 0) nf n (p := k) (by omega)
      rw [hc] at hm
      obtain ⟨g, h3⟩ := run_one ho hE.unset hE.dirs hE.opens (hE.writes k) (name := name)
        (by unfold staticInfo; simp) (ms := fun _ => .static n (staticChoice n k))
        (cs := fun _ => staticChoice n k) hm (fun _ _ => rfl) hl fuel D1
      rw [gtraces_path, hE.rank k] at h3
      refine ⟨_, ?_, (h2.next fun p q => staticPath_inj he hs).other (besides_static he hs) (.inr rfl) g⟩
      rw [List.range_succ, List.map_append, runsFrom_append _ _ _ _ _ h1]
      simp only [List.map_cons, List.map_nil, runsFrom, List.length_map, List.length_range, Nat.zero_add, h3,
        Res.bind_ok]
      rfl
  obtain ⟨D1, h1, h2⟩ := key N (le_refl _)
  obtain ⟨gen, tenv, ho⟩ := hE.models N
  obtain ⟨g, h3⟩ := run_one ho hE.unset hE.dirs hE.opens (hE.writes N) (name := name)
    (info := "RoundRobin".toList) (by decide) (ms := fun j => .roundRobin n (lastOf n j))
    (cs := fun j => (j : ℤ) % n) (made_roundRobin (gen 0) nf n) (fun j f => roundRobin_step (by exact_mod_cast hn) j f) hl fuel D1
  rw [gtraces_path, hE.rank N] at h3
  refine ⟨_, ?_, (h2.other (besides_static he hs) (.inl rfl) (RegionTrace.text ⟨rank,
    (PolicyModel.roundRobin n (lastOf n fs.length)).name, truncName name, (nf : ℤ).toNat,
    rowsFrom (envs N).clock 0 1 fs fun j => (j : ℤ) % n⟩)).other (besides_static he hs) (.inr rfl) g⟩
  unfold exhaustive exhaustiveModels
  rw [runsFrom_append _ _ _ _ _ h1]
  simp only [runsFrom, List.length_map, List.length_range, Nat.zero_add, h3, Res.bind_ok]

/-- The directory has no traces that the script could take for those of the static policies `0, …, N - 1`, unless
the runs replace them. -/
def NoStrangers (rank : ℤ) (name : Str) (N : ℕ) (D : Directory) : Prop :=
  ∀ e ∈ D, ∀ s, nameIn tracesDir e.1 = some s → '=' ∉ s ∨ ∃ p < N, e.1 = staticPath rank name p

/-- C101 (search): after the runs, in whatever order the directory is listed, the script that analyzes finds the
traces of the static policies, in the order of the policies, and nothing else. -/
theorem C101_found {D D' L : Directory} {rank : ℤ} {name : Str} (he : '=' ∉ truncName name)
    (hs : '/' ∉ truncName name) {text : ℕ → Str} {N : ℕ} (hD : NoStrangers rank name N D)
    (h : After D (staticPath rank name) text (besides rank name) N D') (hL : L.Perm D') :
    staticFiles tracesDir N L = (List.range N).map fun p => (staticPath rank name p, text p) := by
  have hLo : Once L := (hL.map Prod.fst).nodup_iff.2 h.once
  have key := csvMap_each (dir := tracesDir) (D := L) (ms := (List.range N).map staticInfo)
    (es := (List.range N).map fun p => (staticPath rank name p, text p)) (by
      rw [List.forall₂_map_left_iff, List.forall₂_map_right_iff, List.forall₂_same]
      intro p hp
      rw [List.mem_range] at hp
      refine glob_one hLo (hL.mem_iff.2 (h.has p hp)) (staticPath_in hs rank p) (static_found p _ rank) ?_
      intro e hee s hs1 hs2
      rcases h.only e (hL.mem_iff.1 hee) with ⟨q, hq, rfl⟩ | ⟨h1, h2⟩ | h1
      · simp only at hs1 ⊢
        rw [staticPath_in hs] at hs1
        rw [← Option.some.inj hs1] at hs2
        rw [static_other he hs2]
      · rcases hD e h1 s hs1 with h3 | ⟨q, hq, h3⟩
        · rw [static_not_found p h3] at hs2
          cases hs2
        · exact absurd h3 (h2 q hq)
      · obtain ⟨s', h2, h3⟩ := besides_in he hs h1
        rw [hs1] at h2
        rw [Option.some.inj h2, static_not_found p h3] at hs2
        cases hs2) [] (by
      unfold Once
      rw [List.nil_append, List.map_map]
      exact List.nodup_range.map fun p q h => staticPath_inj he hs h)
  exact key

theorem mem_static {clock : ℕ → ℤ × ℤ} {fs : List Features} {c : ℤ} {x : Row} :
    x ∈ rowsFrom clock 0 1 fs (fun _ => c) ↔
      ∃ j, ∃ h : j < fs.length, x = ⟨j, fs[j], c, elapsed clock j⟩ := by
  rw [mem_rowsFrom]
  refine exists_congr fun j => exists_congr fun h => ?_
  rw [Nat.zero_add, elapsed, show 1 + 2 * j + 1 = 2 * j + 2 by omega, show 1 + 2 * j = 2 * j + 1 by omega]

theorem staticChoice_range {n p : ℕ} (hp : p < 2 ^ 31) : 0 ≤ staticChoice n p ∧ staticChoice n p < 2 ^ 31 := by
  unfold staticChoice
  split <;> omega

/-- C101: a program that executes a region is run by run-exhaustive.py with every static policy;
analyze-traces.py --nstatic N --write-opt then writes one file for the region, however the directory is listed
and however equal times are ordered, and the program with the model Optimal, given this file, gets in every
execution the policy of the run that was fastest in the execution with this number. -/
theorem C101 (py : Py) {order : List ℚ → List ℕ} (hord : Orders order) {envs : ℕ → Env PolicyModel} {os : Os}
    {rank : ℤ} (hE : Experiment envs os rank) (hrank : |rank| < 2 ^ 31) {name : Str}
    (hname : Ordinary (truncName name)) (he : '=' ∉ truncName name) (hs : '/' ∉ truncName name) {nf n N : ℕ}
    (hn : 0 < n) (hN : 0 < N) (hN' : N ≤ 2 ^ 31) {fs : List Features} (hne : fs ≠ [])
    (hnf : ∀ f ∈ fs, f.length = nf) (hl : fs.length < 2 ^ 31)
    (hr : ∀ p < N, Recorded py (envs p).clock fs) (fuel : ℕ) {D : Directory} (hD : Once D)
    (hD' : NoStrangers rank name N D) :
    ∃ D', exhaustive envs os (tuningProgram [] nf name n fs) fuel N D = .ok D' ∧
      ∃ text, ∀ L : Directory, L.Perm D' →
        (∃ out, py.analyzeDir order tracesDir N L rank = .ok out ∧
          ∀ text', (optimalName rank (truncName name), text') ∈ out ↔ text' = text) ∧
        ∀ (env : Env PolicyModel) gen tenv, env.ops = policyOps gen tenv → env.rank = rank →
          ∀ files : Str → Option Str, files (optimalName rank (truncName name)) = some text →
            ∃ rets w, results env (tuningProgram "Optimal".toList nf name n fs) (initWorld {} files) =
                .ok (rets, w) ∧
              List.Forall₂ (FastestRun (fun p => (envs p).clock) n N) (List.range fs.length) (policies rets) := by
  obtain ⟨D', h1, h2⟩ := C101_runs hE he hs (nf := nf) hn hN' hl fuel hD
  have hrow : ∀ F ∈ (List.range N).map (staticTrace (fun p => (envs p).clock) rank name nf n fs), ∃ p < N,
      F = staticTrace (fun p => (envs p).clock) rank name nf n fs p := by
    intro F hF
    obtain ⟨p, hp, rfl⟩ := List.mem_map.1 hF
    exact ⟨p, List.mem_range.1 hp, rfl⟩
  have hat : ∀ i x, x ∈ rowsAt ((List.range N).map (staticTrace (fun p => (envs p).clock) rank name nf n fs)) rank
      (truncName name) i ↔ ∃ p < N, ∃ h : i < fs.length, x = ⟨i, fs[i], staticChoice n p, elapsed (envs p).clock i⟩ := by
    intro i x
    rw [mem_rowsAt]
    constructor
    · rintro ⟨F, hF, -, -, hx, rfl⟩
      obtain ⟨p, hp, rfl⟩ := hrow F hF
      obtain ⟨j, hj, rfl⟩ := mem_static.1 hx
      exact ⟨p, hp, hj, rfl⟩
    · rintro ⟨p, hp, hi, rfl⟩
      exact ⟨_, List.mem_map.2 ⟨p, List.mem_range.2 hp, rfl⟩, rfl, rfl, mem_static.2 ⟨i, hi, rfl⟩, rfl⟩
  have hlen : 0 < fs.length := List.length_pos_of_ne_nil hne
  obtain ⟨out, text, o1, o2, o3⟩ := C90 py hord
    (fs := (List.range N).map (staticTrace (fun p => (envs p).clock) rank name nf n fs)) (by
      intro F hF
      obtain ⟨p, hp, rfl⟩ := hrow F hF
      have hc := staticChoice_range (n := n) (p := p) (by omega)
      refine ⟨⟨ordinary_static' hc.1, hname, hrank, ?_⟩, ?_⟩
      · intro x hx
        obtain ⟨j, hj, rfl⟩ := mem_static.1 hx
        exact ⟨hnf _ (List.getElem_mem hj), by simp only; omega, by simp only; omega, hc.2⟩
      · intro x hx
        obtain ⟨j, hj, rfl⟩ := mem_static.1 hx
        exact ⟨(hr p hp).features _ (List.getElem_mem hj), (hr p hp).times j hj⟩)
    (rank := rank) (r := truncName name) (n := fs.length) hlen hl (fun i => by
      constructor
      · intro h
        obtain ⟨x, hx⟩ := List.exists_mem_of_ne_nil _ h
        obtain ⟨p, -, hi, -⟩ := (hat i x).1 hx
        exact hi
      · intro hi
        exact List.ne_nil_of_mem ((hat i _).2 ⟨0, hN, hi, rfl⟩))
  refine ⟨D', h1, text, fun L hL => ⟨⟨out, ?_, o2⟩, ?_⟩⟩
  · unfold Py.analyzeDir
    rw [C101_found he hs hD' h2 hL, List.map_map]
    rw [List.map_map] at o1
    exact o1
  · intro env gen tenv ho hrk files hf
    obtain ⟨rets, w, h3, h4⟩ := o3 env gen tenv ho hrk files hf nf name n rfl fs rfl
    refine ⟨rets, w, h3, h4.imp fun i c hc => ?_⟩
    obtain ⟨x, hx, rfl, hb⟩ := hc
    obtain ⟨p, hp, hi, rfl⟩ := (hat i x).1 hx
    exact ⟨p, hp, rfl, fun q hq => hb _ ((hat i _).2 ⟨q, hq, hi, rfl⟩)⟩

/-- C101: if the times depend only on the features and the policy, and all policies of the region were run, then
the program gets the fastest policy of all in every execution. -/
theorem C101_fastest {clock : ℕ → ℕ → ℤ × ℤ} {n N : ℕ} (hn : 0 < n) (hN : n ≤ N) {time : Features → ℤ → ℚ}
    {fs : List Features} (ht : ∀ p < N, ∀ j q, fs[j]? = some q → elapsed (clock p) j = time q (staticChoice n p))
    {cs : List ℤ} (h : List.Forall₂ (FastestRun clock n N) (List.range fs.length) cs) :
    List.Forall₂ (Fastest n time) fs cs := by
  have hlen := h.length_eq
  rw [List.length_range] at hlen
  rw [List.forall₂_iff_get] at h ⊢
  refine ⟨hlen, fun i h1 h2 => ?_⟩
  obtain ⟨p, hp, h3, h4⟩ := h.2 i (by rw [List.length_range]; exact h1) h2
  simp only [List.get_eq_getElem, List.getElem_range] at h3 h4 ⊢
  have hq : fs[i]? = some fs[i] := List.getElem?_eq_getElem h1
  rw [h3]
  refine ⟨?_, fun q hqn => ?_⟩
  · unfold staticChoice
    split <;> omega
  · have h5 := h4 q (by omega)
    rw [ht p hp i _ hq, ht q (by omega) i _ hq] at h5
    rwa [show staticChoice n q = q by simp [staticChoice, hqn]] at h5

/-! ## Where it goes wrong -/

/-- C101 without `'=' ∉ truncName name` is false: for a region with this name the search for the policy 0 finds
the trace of RoundRobin too. -/
theorem C101_name_needed : ∃ D D', exhaustive (fun _ => demoEnv) { getenv := fun _ => none }
      (tuningProgram [] 1 "-Static,policy=0-".toList 1 [[3]]) 0 1 [] = .ok D ∧
    staticFiles tracesDir 1 D = D' ∧ D'.map Prod.fst = [
      ".apollo/traces/trace-Static,policy=0-region--Static,policy=0--rank-0.csv".toList,
      ".apollo/traces/trace-RoundRobin-region--Static,policy=0--rank-0.csv".toList] := by
  obtain ⟨D, h1, h2⟩ := ok_of_match (x := exhaustive (fun _ => demoEnv) { getenv := fun _ => none }
      (tuningProgram [] 1 "-Static,policy=0-".toList 1 [[3]]) 0 1 [])
    (P := fun D => decide ((staticFiles tracesDir 1 D).map Prod.fst = [
      ".apollo/traces/trace-Static,policy=0-region--Static,policy=0--rank-0.csv".toList,
      ".apollo/traces/trace-RoundRobin-region--Static,policy=0--rank-0.csv".toList])) (by decide +kernel)
  exact ⟨D, _, h1, rfl, of_decide_eq_true h2⟩

/-- The option `--load` of analyze-traces.py looks for traces of a model `Load`.  The model strings of this
library have no capital `L`: if no file of the directory has one, the script finds nothing and fails. -/
theorem C101_load (py : Py) (dir : Str) {D : Directory} (h : ∀ e ∈ D, 'L' ∉ e.1) :
    csvMap dir D ["Load".toList] [] = [] ∧
      py.readTracefiles ((csvMap dir D ["Load".toList] []).map Prod.snd) = .error .throw := by
  have hg : globFiles dir (tracePattern "Load".toList) D = [] := by
    unfold globFiles
    rw [List.filter_eq_nil_iff]
    intro e he
    cases hs : nameIn dir e.1 with
    | none => simp
    | some s =>
      simp only
      rw [fnmatch_trace _ (by decide +kernel)]
      rintro ⟨a, b, rfl⟩
      refine h e he ?_
      unfold nameIn at hs
      split at hs
      · simp only at hs
        split at hs
        · cases hs
        · refine List.mem_of_mem_drop (i := dir.length + 1) ?_
          rw [Option.some.inj hs]
          exact List.mem_append_left _ (List.mem_append_left _ (List.mem_append_left _
            (List.mem_append_right _ (by decide +kernel))))
      · cases hs
  have h1 : csvMap dir D ["Load".toList] [] = [] := by
    simp only [csvMap, hg, List.filter_nil, List.append_nil]
  rw [h1]
  exact ⟨rfl, rfl⟩

/-! ## Examples -/

/-- The runs of an experiment: with policy 0 the first execution takes three seconds and the second one, with
policy 1 both take two. -/
def exEnvs (i : ℕ) : Env PolicyModel :=
  { demoEnv with clock := fun t =>
      ((if i = 0 then [0, 0, 3, 3, 4] else [0, 0, 2, 2, 4]).getD t 9, 0) }

/-- A plain environment. -/
def exOs : Os := { getenv := fun _ => none }

theorem ex_experiment : Experiment exEnvs exOs 0 :=
  ⟨fun _ => ⟨_, _, rfl⟩, fun _ => rfl, fun _ _ => rfl, fun _ => rfl, fun _ => rfl, fun _ _ => rfl⟩

/-- Hypotheses of `C101`, with a trace that the runs replace and another one. -/
example : Experiment exEnvs exOs 0 ∧ Ordinary (truncName "a".toList) ∧ '=' ∉ truncName "a".toList ∧
    '/' ∉ truncName "a".toList ∧ (∀ p < 2, Recorded demoPy (exEnvs p).clock [[3], [1]]) ∧
    Once [(staticPath 0 "a".toList 1, []), (".apollo/traces/trace-rank-0.csv".toList, [])] ∧
    NoStrangers 0 "a".toList 2 [(staticPath 0 "a".toList 1, []), (".apollo/traces/trace-rank-0.csv".toList, [])] := by
  refine ⟨ex_experiment, ⟨⟨'a', [], by decide +kernel, by decide +kernel⟩, by decide +kernel⟩, by decide +kernel,
    by decide +kernel, fun p hp => ⟨?_, ?_⟩, by unfold Once; decide +kernel, ?_⟩
  · intro f hf q hq
    have : ∀ f ∈ ([[3], [1]] : List Features), ∀ q ∈ f, q ∈ ([1, 2, 3] : List ℚ) := by decide +kernel
    exact (kept_small q (this f hf q hq)).1
  · intro j hj
    have : ∀ p < 2, ∀ j < 2, elapsed (exEnvs p).clock j ∈ ([1, 2, 3] : List ℚ) := by decide +kernel
    exact (kept_small _ (this p hp j hj)).2
  · intro e he s hs
    rcases List.mem_cons.1 he with rfl | he
    · exact .inr ⟨1, by decide, rfl⟩
    · rw [List.mem_singleton.1 he] at hs
      refine .inl ?_
      rw [show nameIn tracesDir ".apollo/traces/trace-rank-0.csv".toList = some "trace-rank-0.csv".toList by
        decide +kernel] at hs
      rw [← Option.some.inj hs]
      decide +kernel

/-- Hypotheses of `C101_fastest`: the times of the example. -/
example : ∀ p < 2, ∀ j q, ([[3], [1]] : List Features)[j]? = some q →
    elapsed (exEnvs p).clock j = twoTime q (staticChoice 2 p) := by
  have h : ∀ p < 2, ∀ j < 2, ∀ q ∈ ([[3], [1]] : List Features)[j]?,
      elapsed (exEnvs p).clock j = twoTime q (staticChoice 2 p) := by decide +kernel
  exact fun p hp j q hj => h p hp j (List.getElem?_eq_some_iff.1 hj).1 q hj

/-- Hypotheses of `C101_load`. -/
example : ∀ e ∈ ([(staticPath 0 "a".toList 1, []),
    (".apollo/traces/trace-DecisionTree,load-region-a-rank-0.csv".toList, [])] : Directory), 'L' ∉ e.1 := by
  decide +kernel

/-- The experiment and the replay of the example. -/
example : (match exhaustive exEnvs exOs (tuningProgram [] 1 "a".toList 2 [[3], [1]]) 0 2 [] with
    | .ok D => decide (D.map Prod.fst = [".apollo/traces/trace-Static,policy=0-region-a-rank-0.csv".toList,
        ".apollo/traces/trace-Static,policy=1-region-a-rank-0.csv".toList,
        ".apollo/traces/trace-RoundRobin-region-a-rank-0.csv".toList,
        ".apollo/traces/trace-rank-0.csv".toList]) &&
      (match demoPy.analyzeDir demoOrder tracesDir 2 D.reverse 0 with
      | .ok out => decide (out = [("opt-a-rank-0.txt".toList, "1,0".toList)]) &&
        (match results demoEnv (tuningProgram "Optimal".toList 1 "a".toList 2 [[3], [1]])
            (initWorld {} (Directory.get out)) with
        | .ok (rets, _) => decide (policies rets = [1, 0])
        | .error _ => false)
      | .error _ => false)
    | .error _ => false) = true := by decide +kernel

end Apollo.Props
