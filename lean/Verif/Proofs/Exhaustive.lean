import Verif.Model.Exhaustive
import Verif.Proofs.TwoRuns
import Verif.Proofs.DecimalRange
import Verif.Props.AnalyzeTraces
import Verif.Props.RegionWrite
import Verif.Props.Startup

/-!
# Runs of run-exhaustive.py, and the files that analyze-traces.py finds
-/

namespace Apollo.Scripts

open Apollo Apollo.Spec Apollo.Props

/-! ## Names -/

theorem fnmatch_literal (p : Str) (hp : '*' ∉ p ∧ '?' ∉ p) (q s : Str) :
    fnmatch (p ++ q) s = true ↔ ∃ t, s = p ++ t ∧ fnmatch q t = true := by
  induction p generalizing s with
  | nil => simp
  | cons c p ih =>
    have h1 : c ≠ '*' := fun h => hp.1 (by simp [h])
    have h2 : c ≠ '?' := fun h => hp.2 (by simp [h])
    have ih := ih ⟨fun h => hp.1 (by simp [h]), fun h => hp.2 (by simp [h])⟩
    cases s with
    | nil => simp [fnmatch, h1]
    | cons d s =>
      simp only [List.cons_append, fnmatch, h1, if_false, h2, decide_false, Bool.false_or, Bool.and_eq_true,
        decide_eq_true_eq, ih, List.cons.injEq]
      constructor
      · rintro ⟨rfl, t, rfl, h⟩
        exact ⟨t, ⟨rfl, rfl⟩, h⟩
      · rintro ⟨t, ⟨rfl, rfl⟩, h⟩
        exact ⟨rfl, t, rfl, h⟩

theorem fnmatch_star (p s : Str) : fnmatch ('*' :: p) s = true ↔ ∃ a t, s = a ++ t ∧ fnmatch p t = true := by
  simp only [fnmatch, if_true, List.any_eq_true, List.mem_tails]
  constructor
  · rintro ⟨t, ⟨a, rfl⟩, h⟩
    exact ⟨a, t, rfl, h⟩
  · rintro ⟨a, t, rfl, h⟩
    exact ⟨t, ⟨a, rfl⟩, h⟩

/-- What the pattern for a model matches. -/
theorem fnmatch_trace (m : Str) (hm : '*' ∉ m ∧ '?' ∉ m) (s : Str) :
    fnmatch (tracePattern m) s = true ↔
      ∃ a b, s = "trace".toList ++ a ++ m ++ "-".toList ++ b ++ ".csv".toList := by
  have e : tracePattern m = "trace".toList ++ ('*' :: (m ++ ("-".toList ++ ('*' :: (".csv".toList ++ []))))) := by
    rw [List.append_nil]
    simp only [tracePattern, List.append_assoc]
    rfl
  rw [e, fnmatch_literal _ (by decide)]
  simp only [fnmatch_star, fnmatch_literal m hm, fnmatch_literal "-".toList (by decide +kernel),
    fnmatch_literal ".csv".toList (by decide +kernel)]
  constructor
  · rintro ⟨t, rfl, a, t', rfl, t2, rfl, t3, rfl, b, t4, rfl, t5, rfl, h⟩
    have : t5 = [] := by simpa [fnmatch] using h
    exact ⟨a, b, by simp [this]⟩
  · rintro ⟨a, b, rfl⟩
    refine ⟨a ++ (m ++ ("-".toList ++ (b ++ (".csv".toList ++ [])))), by simp only [List.append_assoc, List.append_nil],
      a, _, rfl, _, rfl, _, rfl, b, _, rfl, [], rfl, rfl⟩

theorem digits_fmtInt (p : ℕ) : ∀ c ∈ fmtInt p, isDigit c = true := by
  intro c hc
  unfold fmtInt at hc
  rw [if_neg (by omega)] at hc
  exact isDigit_of_mem_natDigits hc

theorem digits_injective {p q : ℕ} (h : fmtInt p = fmtInt q) : p = q := by
  unfold fmtInt at h
  rw [if_neg (by omega), if_neg (by omega)] at h
  simpa [valDigits_natDigits] using congrArg valDigits h

theorem not_mem_digits {p : ℕ} {c : Char} (hc : isDigit c = false) : c ∉ fmtInt p := fun h => by
  rw [digits_fmtInt p c h] at hc
  cases hc

theorem not_mem_rank {rank : ℤ} {c : Char} (hc : isDigit c = false) (h : c ≠ '-') : c ∉ fmtInt rank := by
  unfold fmtInt
  split
  · rw [List.mem_cons, not_or]
    exact ⟨h, fun h' => by rw [isDigit_of_mem_natDigits h'] at hc; cases hc⟩
  · exact fun h' => by rw [isDigit_of_mem_natDigits h'] at hc; cases hc

theorem split_unique {a b a' b' : Str} {c : Char} (h : a ++ c :: b = a' ++ c :: b') (ha : c ∉ a) (ha' : c ∉ a') :
    a = a' ∧ b = b' := by
  induction a generalizing a' with
  | nil =>
    cases a' with
    | nil => simpa using h
    | cons d a' =>
      simp only [List.nil_append, List.cons_append, List.cons.injEq] at h
      exact absurd (by simp [h.1]) ha'
  | cons d a ih =>
    cases a' with
    | nil =>
      simp only [List.nil_append, List.cons_append, List.cons.injEq] at h
      exact absurd (by simp [h.1]) ha
    | cons d' a' =>
      simp only [List.cons_append, List.cons.injEq] at h
      obtain ⟨h1, h2⟩ := ih h.2 (fun h' => ha (by simp [h'])) (fun h' => ha' (by simp [h']))
      exact ⟨by rw [h.1, h1], h2⟩

theorem no_append {c : Char} {a b : Str} (ha : c ∉ a) (hb : c ∉ b) : c ∉ a ++ b := by
  rw [List.mem_append, not_or]; exact ⟨ha, hb⟩

/-- The name of a trace in its directory. -/
def traceName (info region : Str) (rank : ℤ) : Str :=
  "trace-".toList ++ info ++ "-region-".toList ++ region ++ "-rank-".toList ++ fmtInt rank ++ ".csv".toList

theorem star_digit : isDigit '*' = false := by decide +kernel
theorem quest_digit : isDigit '?' = false := by decide +kernel
theorem equals_digit : isDigit '=' = false := by decide +kernel
theorem minus_digit : isDigit '-' = false := by decide +kernel

theorem static_plain (p : ℕ) : '*' ∉ staticInfo p ∧ '?' ∉ staticInfo p :=
  ⟨no_append (by decide +kernel) (not_mem_digits star_digit),
    no_append (by decide +kernel) (not_mem_digits quest_digit)⟩

/-- The pattern of a policy finds the trace of the policy. -/
theorem static_found (p : ℕ) (region : Str) (rank : ℤ) :
    fnmatch (tracePattern (staticInfo p)) (traceName (staticInfo p) region rank) = true := by
  rw [fnmatch_trace _ (static_plain p)]
  refine ⟨"-".toList, "region-".toList ++ region ++ "-rank-".toList ++ fmtInt rank, ?_⟩
  have e1 : "trace-".toList = "trace".toList ++ "-".toList := by decide +kernel
  have e2 : "-region-".toList = "-".toList ++ "region-".toList := by decide +kernel
  unfold traceName
  generalize "-rank-".toList = x1, ".csv".toList = x2, "region-".toList = x3 at *
  generalize "-region-".toList = x4, "trace-".toList = x5 at *
  rw [e1, e2]
  simp only [List.append_assoc]

theorem no_equals_rest {region : Str} (hr : '=' ∉ region) (rank : ℤ) :
    '=' ∉ "-region-".toList ++ region ++ "-rank-".toList ++ fmtInt rank ++ ".csv".toList :=
  no_append (no_append (no_append (no_append (by decide +kernel) hr) (by decide +kernel))
    (not_mem_rank equals_digit (by decide +kernel))) (by decide +kernel)

/-- The pattern of a policy finds no names without the character `=`. -/
theorem static_not_found (p : ℕ) {s : Str} (hs : '=' ∉ s) :
    fnmatch (tracePattern (staticInfo p)) s = false := by
  by_contra h
  rw [Bool.not_eq_false, fnmatch_trace _ (static_plain p)] at h
  obtain ⟨a, b, rfl⟩ := h
  have h1 : '=' ∈ staticInfo p := List.mem_append_left _ (by decide +kernel)
  exact hs (List.mem_append_left _ (List.mem_append_left _ (List.mem_append_left _ (List.mem_append_right _ h1))))

/-- The pattern of a policy does not find the traces of other policies. -/
theorem static_other {p q : ℕ} {region : Str} (hr : '=' ∉ region) {rank : ℤ}
    (h : fnmatch (tracePattern (staticInfo p)) (traceName (staticInfo q) region rank) = true) : p = q := by
  rw [fnmatch_trace _ (static_plain p)] at h
  obtain ⟨a, b, h⟩ := h
  have e1 : traceName (staticInfo q) region rank = "trace-Static,policy".toList ++ '=' :: (fmtInt q ++
      ("-region-".toList ++ region ++ "-rank-".toList ++ fmtInt rank ++ ".csv".toList)) := by
    have : "trace-Static,policy".toList ++ ['='] = "trace-".toList ++ "Static,policy=".toList := by decide +kernel
    rw [← List.singleton_append, ← List.append_assoc, this]
    unfold traceName staticInfo
    generalize "-rank-".toList = x1, ".csv".toList = x2, "-region-".toList = x3, "trace-".toList = x4,
      "Static,policy=".toList = x5
    simp only [List.append_assoc]
  have e2 : "trace".toList ++ a ++ staticInfo p ++ "-".toList ++ b ++ ".csv".toList =
      ("trace".toList ++ a ++ "Static,policy".toList) ++ '=' :: (fmtInt p ++ '-' :: (b ++ ".csv".toList)) := by
    have : "Static,policy".toList ++ ['='] = "Static,policy=".toList := by decide +kernel
    rw [← List.singleton_append, ← List.append_assoc, List.append_assoc _ _ ['='], this]
    have h2 : "-".toList = ['-'] := by decide +kernel
    unfold staticInfo
    generalize "-".toList = x1, ".csv".toList = x2, "trace".toList = x3, "Static,policy=".toList = x4 at *
    rw [h2]
    simp only [List.append_assoc, List.nil_append, List.cons_append]
  rw [e1, e2] at h
  have hq : '=' ∉ fmtInt q ++ ("-region-".toList ++ region ++ "-rank-".toList ++ fmtInt rank ++ ".csv".toList) :=
    no_append (not_mem_digits equals_digit) (no_equals_rest hr rank)
  have hc := congrArg (List.count '=') h
  rw [List.count_append, List.count_append, List.count_cons_self, List.count_cons_self,
    List.count_eq_zero.2 hq, List.count_eq_zero.2 (show '=' ∉ "trace-Static,policy".toList by decide +kernel)] at hc
  have ha : '=' ∉ "trace".toList ++ a ++ "Static,policy".toList := List.count_eq_zero.1 (by omega)
  obtain ⟨-, h3⟩ := split_unique h (by decide +kernel) ha
  have e3 : "-region-".toList ++ region ++ "-rank-".toList ++ fmtInt rank ++ ".csv".toList =
      '-' :: ("region-".toList ++ region ++ "-rank-".toList ++ fmtInt rank ++ ".csv".toList) := by
    have : "-region-".toList = '-' :: "region-".toList := by decide +kernel
    rw [this]; rfl
  rw [e3] at h3
  obtain ⟨h4, -⟩ := split_unique h3 (not_mem_digits minus_digit) (not_mem_digits minus_digit)
  exact (digits_injective h4).symm

/-! ## Directories -/

theorem mem_put {D : Directory} {name text : Str} {e : Str × Str} :
    e ∈ D.put name text ↔ (e ∈ D ∧ e.1 ≠ name) ∨ e = (name, text) := by
  simp [Directory.put]

/-- Every name at most once. -/
def Once (D : Directory) : Prop := (D.map Prod.fst).Nodup

theorem Once.put {D : Directory} (h : Once D) (name text : Str) : Once (D.put name text) := by
  unfold Once Directory.put
  rw [List.map_append, List.nodup_append]
  refine ⟨h.sublist (List.filter_sublist.map _), by simp, ?_⟩
  intro a ha b hb
  obtain ⟨e, he, rfl⟩ := List.mem_map.1 ha
  simp only [List.map_cons, List.map_nil, List.mem_singleton] at hb
  rw [hb]
  exact of_decide_eq_true (List.mem_filter.1 he).2

theorem once_eq {D : Directory} (h : Once D) {e e' : Str × Str} (he : e ∈ D) (he' : e' ∈ D) (heq : e.1 = e'.1) :
    e = e' := List.inj_on_of_nodup_map h he he' heq

theorem nameIn_append (dir s : Str) (hs : '/' ∉ s) : nameIn dir (dir ++ "/".toList ++ s) = some s := by
  have h1 : "/".toList = ['/'] := by decide +kernel
  unfold nameIn
  rw [h1, if_pos (by rw [List.isPrefixOf_iff_prefix]; exact List.prefix_append _ _)]
  have h2 : (dir ++ ['/'] ++ s).drop (dir.length + 1) = s := by
    rw [show dir.length + 1 = (dir ++ ['/']).length by simp, List.drop_left]
  simp only [h2, hs, if_false]

/-- A search that one file of the directory matches. -/
theorem glob_one {dir pat : Str} {D : Directory} (hD : Once D) {e : Str × Str} (he : e ∈ D) {s : Str}
    (hs : nameIn dir e.1 = some s) (hm : fnmatch pat s = true)
    (hall : ∀ e' ∈ D, ∀ s', nameIn dir e'.1 = some s' → fnmatch pat s' = true → e'.1 = e.1) :
    globFiles dir pat D = [e] := by
  have hn : (globFiles dir pat D).Nodup := (List.Nodup.of_map _ hD).filter _
  have hmem : ∀ e', e' ∈ globFiles dir pat D ↔ e' = e := by
    intro e'
    unfold globFiles
    rw [List.mem_filter]
    constructor
    · rintro ⟨h1, h2⟩
      refine once_eq hD h1 he ?_
      cases hs' : nameIn dir e'.1 with
      | none => simp [hs'] at h2
      | some s' =>
        simp only [hs'] at h2
        exact hall e' h1 s' hs' h2
    · rintro rfl
      refine ⟨he, ?_⟩
      simp only [hs, hm]
  exact List.perm_singleton.1 ((List.perm_ext_iff_of_nodup hn (List.nodup_singleton e)).2 fun e' => by
    rw [hmem, List.mem_singleton])

/-- Searches that one file each matches. -/
theorem csvMap_each {dir : Str} {D : Directory} {ms : List Str} {es : List (Str × Str)}
    (h : List.Forall₂ (fun m e => globFiles dir (tracePattern m) D = [e]) ms es) :
    ∀ found : Directory, Once (found ++ es) → csvMap dir D ms found = found ++ es := by
  induction h with
  | nil => intro found _; simp [csvMap]
  | @cons m e ms es h1 _ ih =>
    intro found hf
    have hn : e.1 ∉ found.map Prod.fst := by
      unfold Once at hf
      rw [List.map_append, List.map_cons, List.nodup_append] at hf
      intro hmem
      exact hf.2.2 _ hmem _ (by simp) rfl
    rw [csvMap, h1]
    have : ([e] : Directory).filter (fun e => e.1 ∉ found.map Prod.fst) = [e] := by
      rw [List.filter_eq_self]
      intro a ha
      rw [List.mem_singleton.1 ha]
      exact decide_eq_true hn
    rw [this, ih _ (by simpa using hf), List.append_assoc, List.singleton_append]

/-! ## Runs -/

/-- The environment has no variables of the library. -/
def Unset (os : Os) : Prop := ∀ v, "APOLLO_".toList <+: v → os.getenv v = none

/-- The settings of a run of the script. -/
def runSettings (model : Str) : Settings where
  policyModel := model
  collective := 0
  localTraining := 1
  single := 0
  regionModel := 1
  globalPeriod := 0
  perRegionPeriod := 0
  tracePolicy := 0
  storeModels := 0
  traceRetrain := 0
  traceAllgather := 0
  traceBest := 0
  retrain := 0
  retrainTime := 2
  retrainRegion := 1 / 2
  traceCsv := 1
  persistent := 0
  storeExecInfo := 0
  outputDir := ".apollo".toList
  datasetsDir := "datasets".toList
  tracesDir := "traces".toList
  modelsDir := "models".toList

theorem runSettings_cfg (model : Str) : (runSettings model).cfg = { traceCsv := true, policyModel := model } := by
  simp [Settings.cfg, runSettings]

theorem settings_run {os : Os} (hu : Unset os) (model : Str) :
    readSettings (exhaustiveOs os model) = .ok (runSettings model) := by
  have hg : ∀ n d : String, "APOLLO_".toList <+: n.toList → n.toList ≠ "APOLLO_TRACE_CSV".toList →
      n.toList ≠ "APOLLO_RETRAIN_ENABLE".toList → n.toList ≠ "APOLLO_POLICY_MODEL".toList →
      safeGetEnv (exhaustiveOs os model) n d = d.toList := by
    intro n d h1 h2 h3 h4
    simp only [safeGetEnv, exhaustiveOs, h2, h3, h4, if_false, hu _ h1]
    rfl
  have h0 : ∀ n : String, ("APOLLO_".toList <+: n.toList ∧ n.toList ≠ "APOLLO_TRACE_CSV".toList ∧
      n.toList ≠ "APOLLO_RETRAIN_ENABLE".toList ∧ n.toList ≠ "APOLLO_POLICY_MODEL".toList) →
      getInt (exhaustiveOs os model) n "0" = .ok 0 := by
    rintro n ⟨a, b, c, d⟩
    unfold getInt
    rw [hg n _ a b c d, show stoi "0".toList = .ok (0, 1) by decide +kernel]
    rfl
  have h1 : ∀ n : String, ("APOLLO_".toList <+: n.toList ∧ n.toList ≠ "APOLLO_TRACE_CSV".toList ∧
      n.toList ≠ "APOLLO_RETRAIN_ENABLE".toList ∧ n.toList ≠ "APOLLO_POLICY_MODEL".toList) →
      getInt (exhaustiveOs os model) n "1" = .ok 1 := by
    rintro n ⟨a, b, c, d⟩
    unfold getInt
    rw [hg n _ a b c d, show stoi "1".toList = .ok (1, 1) by decide +kernel]
    rfl
  have hf : ∀ n d : String, ∀ v k, ("APOLLO_".toList <+: n.toList ∧ n.toList ≠ "APOLLO_TRACE_CSV".toList ∧
      n.toList ≠ "APOLLO_RETRAIN_ENABLE".toList ∧ n.toList ≠ "APOLLO_POLICY_MODEL".toList) →
      stof d.toList = .ok (v, k) → getFloat (exhaustiveOs os model) n d = .ok v := by
    rintro n d v k ⟨a, b, c, d'⟩ h
    unfold getFloat
    rw [hg n _ a b c d', h]
    rfl
  have ht : getInt (exhaustiveOs os model) "APOLLO_TRACE_CSV" "0" = .ok 1 := by
    unfold getInt safeGetEnv exhaustiveOs
    simp only [if_true]
    rw [show stoi ((some "1".toList).getD "0".toList) = .ok (1, 1) by decide +kernel]
    rfl
  have hr : getInt (exhaustiveOs os model) "APOLLO_RETRAIN_ENABLE" "0" = .ok 0 := by
    unfold getInt safeGetEnv exhaustiveOs
    simp only [if_true, show "APOLLO_RETRAIN_ENABLE".toList ≠ "APOLLO_TRACE_CSV".toList by decide +kernel, if_false]
    rw [show stoi ((some "0".toList).getD "0".toList) = .ok (0, 1) by decide +kernel]
    rfl
  have hm : safeGetEnv (exhaustiveOs os model) "APOLLO_POLICY_MODEL" "Static,policy=0" = model := by
    unfold safeGetEnv exhaustiveOs
    simp only [if_true, show "APOLLO_POLICY_MODEL".toList ≠ "APOLLO_TRACE_CSV".toList by decide +kernel,
      show "APOLLO_POLICY_MODEL".toList ≠ "APOLLO_RETRAIN_ENABLE".toList by decide +kernel, if_false]
    rfl
  unfold readSettings
  rw [h0 _ (by decide +kernel), Res.bind_ok, h1 _ (by decide +kernel), Res.bind_ok, h0 _ (by decide +kernel), Res.bind_ok,
    h1 _ (by decide +kernel), Res.bind_ok, h0 _ (by decide +kernel), Res.bind_ok, h0 _ (by decide +kernel), Res.bind_ok,
    h0 _ (by decide +kernel), Res.bind_ok, h0 _ (by decide +kernel), Res.bind_ok, h0 _ (by decide +kernel), Res.bind_ok,
    h0 _ (by decide +kernel), Res.bind_ok, h0 _ (by decide +kernel), Res.bind_ok, hr, Res.bind_ok,
    hf _ _ 2 3 (by decide +kernel) (by decide +kernel), Res.bind_ok,
    hf _ _ (1 / 2) 3 (by decide +kernel) (by decide +kernel), Res.bind_ok, ht, Res.bind_ok,
    h0 _ (by decide +kernel), Res.bind_ok, h0 _ (by decide +kernel), Res.bind_ok, hm,
    hg _ _ (by decide +kernel) (by decide +kernel) (by decide +kernel) (by decide +kernel),
    hg _ _ (by decide +kernel) (by decide +kernel) (by decide +kernel) (by decide +kernel),
    hg _ _ (by decide +kernel) (by decide +kernel) (by decide +kernel) (by decide +kernel),
    hg _ _ (by decide +kernel) (by decide +kernel) (by decide +kernel) (by decide +kernel)]
  rfl

theorem startup_run {os : Os} (hu : Unset os) (hd : ∀ d, os.mkdir d = true) (hw : ∀ f, os.canWrite f = true)
    (model : Str) : startup (exhaustiveOs os model) = .ok (runSettings model).cfg := by
  unfold startup
  rw [settings_run hu model, Res.bind_ok]
  have h1 : ∀ mpi, checkSettings mpi (runSettings model) = .ok () := by
    intro mpi
    simp [checkSettings, show (runSettings model).collective = 0 from rfl,
      show (runSettings model).localTraining = 1 from rfl, show (runSettings model).single = 0 from rfl,
      show (runSettings model).regionModel = 1 from rfl]
  have h2 : ∀ s, createDirs (exhaustiveOs os model) s = .ok () := by
    intro s
    have : ∀ d, (exhaustiveOs os model).mkdir d = true := hd
    simp only [createDirs, createDirIf, createDir, this, if_true, ite_self, Res.bind_ok]
  have h3 : ∀ s, openGtrace (exhaustiveOs os model) s = .ok () := by
    intro s
    have : ∀ f, (exhaustiveOs os model).canWrite f = true := hw
    simp only [openGtrace, this, Bool.true_eq_false, and_false, if_false]
  rw [h1, Res.bind_ok, h2, Res.bind_ok, h3, Res.bind_ok]

theorem create_default {env : Env PolicyModel} {nf n : ℤ} {name : Str} {ops : List Op} {w : World PolicyModel}
    (h : w.cfg.policyModel ≠ []) :
    results env (.create nf name n 0 [] [] :: ops) w =
      results env (.create nf name n 0 w.cfg.policyModel [] :: ops) w := by
  have : constructRegion env w nf name n 0 [] [] = constructRegion env w nf name n 0 w.cfg.policyModel [] := by
    unfold constructRegion
    simp only [if_true, if_neg h]
  simp only [results, step, createRegion, this]

/-- A run with known answers, as explore_run. -/
theorem tuned_run {env : Env PolicyModel} {gen : ℕ → ℕ → ℕ} {tenv : ℕ → TrainEnv}
    (ho : env.ops = policyOps gen tenv) {K : Cfg} (hK : Quiet K) {nf n : ℤ} {name info : Str} (hi : info ≠ [])
    {ms : ℕ → PolicyModel} {cs : ℕ → ℤ} (hm : Made (gen 0) info nf n (ms 0))
    (hs : ∀ j f, (ms j).getIndex f = .ok (cs j, ms (j + 1)))
    {files : Str → Option Str} {fs : List Features} (hl : fs.length < 2 ^ 31) (hp : K.persistent = false)
    (ht : env.canWrite (tracePath K env.rank info (truncName name)) = true) :
    ∃ rets w R, results env (.create nf name n 0 info [] :: fs.flatMap runWith) (initWorld K files) =
        .ok (rets, w) ∧
      Alone K w R (ms fs.length) (1 + 2 * fs.length) (rowsFrom env.clock 0 1 fs cs) ∧
      R.name = truncName name ∧ R.numFeatures = nf ∧ R.modelInfo = info := by
  obtain ⟨R, w1, h1, h2, h3, h4, h5, h6, -⟩ := create_alone ho hK (name := name) (files := files) hi hm
    (fun h => by rw [hp] at h; cases h) (fun _ => ht)
  obtain ⟨rets, w, R', e1, e2, e3, e4, e5, e6, -⟩ := run_all_alone (env := env) hK (fs := fs)
    (ms := ms) (cs := cs) (rows := []) h2 (by simpa using hl) (fun j hj => by
      rw [ho]
      simp only [List.length_nil, Nat.zero_add]
      exact hs j fs[j])
  refine ⟨.region 0 :: rets, w, R', ?_, ?_, e4.trans h3, e5.trans h4, e6.trans h6⟩
  · rw [← List.singleton_append, results_append, h1, Res.bind_ok, e1]
    rfl
  · simpa using e3

theorem made_static (gen : ℕ → ℕ) (nf n : ℤ) {p : ℕ} (hp : p < 2 ^ 31) :
    Made gen (staticInfo p) nf n (.static n (if n ≤ p then 0 else p)) := by
  have hwf : ∀ x ∈ [policyItem p], x.WF := by
    intro x hx
    simp only [List.mem_cons, List.not_mem_nil, or_false] at hx
    subst hx
    refine ⟨by simp [policyItem], by simp [policyItem], ?_⟩
    intro v hv
    simp only [policyItem, Option.some.injEq] at hv
    subst hv
    exact PolicyModel.comma_not_mem_fmtInt p
  obtain ⟨params, h1, h2⟩ := C30_parse "Static".toList [policyItem p] (by decide) hwf (by simp)
    (by intro x hx; simp only [List.mem_cons, List.not_mem_nil, or_false] at hx; subst hx
        exact Or.inl ⟨rfl, rfl⟩)
  have h3 : params.find "policy".toList = some (fmtInt p) := by
    rw [h2]; simp [firstValue, policyItem]
  have h0 := stoi_fmtInt (n := p) ⟨by omega, by omega⟩ [] (by simp)
  rw [List.append_nil] at h0
  have he : modelString "Static".toList [policyItem p] = staticInfo p := by
    have : "Static,policy=".toList = "Static".toList ++ (',' :: ("policy".toList ++ ['='])) := by decide +kernel
    unfold staticInfo
    rw [this]
    simp [modelString, policyItem, Item.text]
  rw [he] at h1
  refine ⟨"Static".toList, params, h1, by decide +kernel, ?_, ?_, ?_, by decide +kernel, by decide +kernel⟩
  · unfold createModel createPolicyModel
    rw [if_pos rfl]
    unfold createStatic paramOr
    rw [h3]
    simp only [readInt', h0, Res.bind_ok]
    rw [if_neg (by omega)]
    split <;> rfl
  · rw [h2]; simp [firstValue, policyItem]
  · rw [h2]; simp [firstValue, policyItem]

/-- The traces that one region closes. -/
theorem close_alone {env : Env PolicyModel} {K : Cfg} {w : World PolicyModel} {R : Region} {m : PolicyModel}
    {t : ℕ} {rows : List Row} (h : Alone K w R m t rows) (hK : K.traceCsv = true) (fuel : ℕ) :
    ∃ w', closeTraces env fuel [0] w = .ok ([(tracePath K env.rank R.modelInfo R.name, R.trace)], w') := by
  have hd : ∀ w1 : World PolicyModel, w1.regions = w.regions → drain env 0 fuel w1 = .ok w1 := by
    intro w1 h1
    cases fuel <;> simp [drain, World.region, h1, h.region, h.pending]
  obtain ⟨w', h1, -⟩ := destroy_alone (env := env) h fuel
  refine ⟨w', ?_⟩
  simp only [closeTraces]
  rw [hd { w with cfg := { w.cfg with globalPeriod := 0 } } rfl, Res.bind_ok]
  simp only [World.region, h.region, Res.bind_ok, h1, h.cfg, hK, if_true]

end Apollo.Scripts
