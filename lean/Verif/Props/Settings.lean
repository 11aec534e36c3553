import Verif.Props.Startup
import Verif.Spec.Settings

/-!
# Property C79: every setting comes from its own variable
-/

namespace Apollo.Props

open Apollo Apollo.Spec

theorem isFlag_of {os : Os} {name d : String} {n : ℤ} (h : getInt os name d = .ok n) :
    IsFlag os.getenv name d (decide (n ≠ 0)) := ⟨n, getInt_ok.1 h, by simp⟩

theorem isFlag_unique {g : List Char → Option (List Char)} {name d : String} {a b : Bool}
    (h : IsFlag g name d a) (h' : IsFlag g name d b) : a = b := by
  obtain ⟨n, h1, h2⟩ := h
  obtain ⟨m, h3, h4⟩ := h'
  rw [isInt_unique h3 h1] at h4
  rw [Bool.eq_iff_iff, h2, h4]

theorem isFloat_of {os : Os} {name d : String} {x : ℚ} (h : getFloat os name d = .ok x) :
    IsFloat os.getenv name d := by
  unfold getFloat safeGetEnv at h
  unfold IsFloat
  cases hs : stof ((os.getenv name.toList).getD d.toList) with
  | error e => rw [hs] at h; cases h
  | ok y => exact ⟨y.1, y.2, rfl⟩

theorem readSettings_from {os : Os} {s : Settings} (h : readSettings os = .ok s) :
    FromEnv os.getenv s.cfg ∧ OthersRead os.getenv := by
  unfold readSettings at h
  obtain ⟨_, h1, h⟩ := (Res.bind_eq_ok _ _ _).1 h
  obtain ⟨_, h2, h⟩ := (Res.bind_eq_ok _ _ _).1 h
  obtain ⟨_, h3, h⟩ := (Res.bind_eq_ok _ _ _).1 h
  obtain ⟨_, h4, h⟩ := (Res.bind_eq_ok _ _ _).1 h
  obtain ⟨_, h5, h⟩ := (Res.bind_eq_ok _ _ _).1 h
  obtain ⟨_, h6, h⟩ := (Res.bind_eq_ok _ _ _).1 h
  obtain ⟨_, h7, h⟩ := (Res.bind_eq_ok _ _ _).1 h
  obtain ⟨_, h8, h⟩ := (Res.bind_eq_ok _ _ _).1 h
  obtain ⟨_, h9, h⟩ := (Res.bind_eq_ok _ _ _).1 h
  obtain ⟨_, h10, h⟩ := (Res.bind_eq_ok _ _ _).1 h
  obtain ⟨_, h11, h⟩ := (Res.bind_eq_ok _ _ _).1 h
  obtain ⟨_, h12, h⟩ := (Res.bind_eq_ok _ _ _).1 h
  obtain ⟨_, h13, h⟩ := (Res.bind_eq_ok _ _ _).1 h
  obtain ⟨_, h14, h⟩ := (Res.bind_eq_ok _ _ _).1 h
  obtain ⟨_, h15, h⟩ := (Res.bind_eq_ok _ _ _).1 h
  obtain ⟨_, h16, h⟩ := (Res.bind_eq_ok _ _ _).1 h
  obtain ⟨_, h17, h⟩ := (Res.bind_eq_ok _ _ _).1 h
  cases h
  exact ⟨{
    policyModel := rfl
    collective := isFlag_of h1
    localTraining := isFlag_of h2
    single := isFlag_of h3
    regionModel := isFlag_of h4
    globalPeriod := getInt_ok.1 h5
    perRegionPeriod := getInt_ok.1 h6
    storeModels := isFlag_of h8
    retrain := isFlag_of h12
    traceCsv := isFlag_of h15
    persistent := isFlag_of h16
    storeExecInfo := isFlag_of h17
    tracePolicy := isFlag_of h7
    traceBest := isFlag_of h11
    traceAllgather := isFlag_of h10
    outputDir := rfl
    datasetsDir := rfl
    tracesDir := rfl
    modelsDir := rfl },
    ⟨⟨_, getInt_ok.1 h9⟩, isFloat_of h13, isFloat_of h14⟩⟩

/-- C79: the environment determines all settings. -/
theorem C79_determined (g : List Char → Option (List Char)) (cfg cfg' : Cfg) (h : FromEnv g cfg)
    (h' : FromEnv g cfg') : cfg = cfg' := by
  have e1 := isFlag_unique h.collective h'.collective
  have e2 := isFlag_unique h.localTraining h'.localTraining
  have e3 := isFlag_unique h.single h'.single
  have e4 := isFlag_unique h.regionModel h'.regionModel
  have e5 := isFlag_unique h.storeModels h'.storeModels
  have e6 := isFlag_unique h.retrain h'.retrain
  have e7 := isFlag_unique h.traceCsv h'.traceCsv
  have e8 := isFlag_unique h.persistent h'.persistent
  have e9 := isFlag_unique h.storeExecInfo h'.storeExecInfo
  have e10 := isFlag_unique h.tracePolicy h'.tracePolicy
  have e11 := isFlag_unique h.traceBest h'.traceBest
  have e0 := isFlag_unique h.traceAllgather h'.traceAllgather
  have e12 := isInt_unique h.globalPeriod h'.globalPeriod
  have e13 := isInt_unique h.perRegionPeriod h'.perRegionPeriod
  have e14 := h.policyModel.trans h'.policyModel.symm
  have e15 := h.outputDir.trans h'.outputDir.symm
  have e16 := h.datasetsDir.trans h'.datasetsDir.symm
  have e17 := h.tracesDir.trans h'.tracesDir.symm
  have e18 := h.modelsDir.trans h'.modelsDir.symm
  cases cfg
  cases cfg'
  simp only at e0 e1 e2 e3 e4 e5 e6 e7 e8 e9 e10 e11 e12 e13 e14 e15 e16 e17 e18
  subst e0 e1 e2 e3 e4 e5 e6 e7 e8 e9 e10 e11 e12 e13 e14 e15 e16 e17 e18
  rfl

theorem createDir_ok {os : Os} {d : Str} {u : Unit} :
    createDir os d = .ok u ↔ os.mkdir d = true := by
  unfold createDir
  split <;> simp_all

theorem createDirIf_ok {os : Os} {f : ℤ} {d : Str} {u : Unit} :
    createDirIf os f d = .ok u ↔ (decide (f ≠ 0) = true → os.mkdir d = true) := by
  unfold createDirIf
  split
  · rw [createDir_ok]; simp_all
  · simp_all

theorem readSettings_total {os : Os} {cfg : Cfg} (h : FromEnv os.getenv cfg)
    (ho : OthersRead os.getenv) : ∃ s, readSettings os = .ok s := by
  refine readSettings_exists ?_ ?_
  · intro v hv
    simp only [intVariables, List.mem_cons, List.not_mem_nil, or_false] at hv
    rcases hv with rfl | rfl | rfl | rfl | rfl | rfl | rfl | rfl | rfl | rfl | rfl | rfl | rfl | rfl |
      rfl
    · exact ⟨_, h.collective.choose_spec.1⟩
    · exact ⟨_, h.localTraining.choose_spec.1⟩
    · exact ⟨_, h.single.choose_spec.1⟩
    · exact ⟨_, h.regionModel.choose_spec.1⟩
    · exact ⟨_, h.globalPeriod⟩
    · exact ⟨_, h.perRegionPeriod⟩
    · exact ⟨_, h.tracePolicy.choose_spec.1⟩
    · exact ⟨_, h.storeModels.choose_spec.1⟩
    · exact ho.traceRetrain
    · exact ⟨_, h.traceAllgather.choose_spec.1⟩
    · exact ⟨_, h.traceBest.choose_spec.1⟩
    · exact ⟨_, h.retrain.choose_spec.1⟩
    · exact ⟨_, h.traceCsv.choose_spec.1⟩
    · exact ⟨_, h.persistent.choose_spec.1⟩
    · exact ⟨_, h.storeExecInfo.choose_spec.1⟩
  · intro v hv
    simp only [floatVariables, List.mem_cons, List.not_mem_nil, or_false] at hv
    rcases hv with rfl | rfl
    · exact ho.retrainTime
    · exact ho.retrainRegion

/-- The steps after the environment is read. -/
theorem prepared_iff {os : Os} {s : Settings} :
    (∃ u, checkSettings os.mpi s = .ok u) ∧ (∃ u, createDirs os s = .ok u) ∧
      (∃ u, openGtrace os s = .ok u) ↔
    CfgConsistent os.mpi s.cfg ∧ Prepared os.mkdir os.canWrite os.rank s.cfg := by
  have h1 : (∃ u, checkSettings os.mpi s = .ok u) ↔ CfgConsistent os.mpi s.cfg := by
    rw [checkSettings_iff]
    constructor
    · rintro ⟨u, hu⟩
      split at hu
      next h =>
        refine ⟨?_, ?_, ?_⟩
        · simp only [Settings.cfg]; rw [Bool.eq_iff_iff]; simp [h.1]
        · simp only [Settings.cfg]; rw [Bool.eq_iff_iff]; simp [h.2.1]
        · simpa [Settings.cfg] using h.2.2
      next => cases hu
    · intro h
      refine ⟨(), if_pos ?_⟩
      refine ⟨?_, ?_, ?_⟩
      · have := h.training
        simp only [Settings.cfg] at this
        rw [Bool.eq_iff_iff] at this
        simpa using this
      · have := h.models
        simp only [Settings.cfg] at this
        rw [Bool.eq_iff_iff] at this
        simpa using this
      · simpa [Settings.cfg] using h.mpi
  have h2 : (∃ u, createDirs os s = .ok u) ↔ os.mkdir s.cfg.outputDir = true ∧
      (s.cfg.persistent = true → os.mkdir (datasetsDirectory s.cfg) = true) ∧
      (s.cfg.traceCsv = true → os.mkdir (tracesDirectory s.cfg) = true) ∧
      (s.cfg.storeModels = true → os.mkdir (modelsDirectory s.cfg) = true) := by
    unfold createDirs
    constructor
    · rintro ⟨u, h⟩
      obtain ⟨_, a1, h⟩ := (Res.bind_eq_ok _ _ _).1 h
      obtain ⟨_, a2, h⟩ := (Res.bind_eq_ok _ _ _).1 h
      obtain ⟨_, a3, h⟩ := (Res.bind_eq_ok _ _ _).1 h
      exact ⟨createDir_ok.1 a1, createDirIf_ok.1 a2, createDirIf_ok.1 a3, createDirIf_ok.1 h⟩
    · rintro ⟨a1, a2, a3, a4⟩
      exact ⟨(), (Res.bind_eq_ok _ _ _).2 ⟨(), createDir_ok.2 a1,
        (Res.bind_eq_ok _ _ _).2 ⟨(), createDirIf_ok.2 a2,
        (Res.bind_eq_ok _ _ _).2 ⟨(), createDirIf_ok.2 a3, createDirIf_ok.2 a4⟩⟩⟩⟩
  have h3 : (∃ u, openGtrace os s = .ok u) ↔ (s.cfg.traceCsv = true →
      os.canWrite (tracesDirectory s.cfg ++ "/trace-rank-".toList ++ fmtInt os.rank ++
        ".csv".toList) = true) := by
    unfold openGtrace
    change _ ↔ (s.cfg.traceCsv = true → os.canWrite (gtracePath s os.rank) = true)
    simp only [Settings.cfg]
    by_cases ha : s.traceCsv = 0 <;> cases hb : os.canWrite (gtracePath s os.rank) <;> simp [ha]
  rw [h1, h2, h3]
  constructor
  · rintro ⟨a, ⟨b, c, d, e⟩, f⟩
    exact ⟨a, b, c, d, e, f⟩
  · rintro ⟨a, b⟩
    exact ⟨a, ⟨b.output, b.datasets, b.traces, b.models⟩, b.trace⟩

/-- C79: the library starts with a configuration exactly if this is what the environment says, each
setting taken from its own variable or its default, the configuration is consistent, and the
directories and the trace it needs could be created. -/
theorem C79_starts (os : Os) (cfg : Cfg) : startup os = .ok cfg ↔
    FromEnv os.getenv cfg ∧ OthersRead os.getenv ∧ CfgConsistent os.mpi cfg ∧
      Prepared os.mkdir os.canWrite os.rank cfg := by
  constructor
  · intro h
    unfold startup at h
    obtain ⟨s, h1, h⟩ := (Res.bind_eq_ok _ _ _).1 h
    obtain ⟨_, h2, h⟩ := (Res.bind_eq_ok _ _ _).1 h
    obtain ⟨_, h3, h⟩ := (Res.bind_eq_ok _ _ _).1 h
    obtain ⟨_, h4, h⟩ := (Res.bind_eq_ok _ _ _).1 h
    cases h
    obtain ⟨a, b⟩ := readSettings_from h1
    exact ⟨a, b, prepared_iff.1 ⟨⟨_, h2⟩, ⟨_, h3⟩, _, h4⟩⟩
  · rintro ⟨h1, h2, h3⟩
    obtain ⟨s, hs⟩ := readSettings_total h1 h2
    obtain rfl := C79_determined _ _ _ h1 (readSettings_from hs).1
    obtain ⟨⟨_, a1⟩, ⟨_, a2⟩, ⟨_, a3⟩⟩ := prepared_iff.2 h3
    unfold startup
    rw [hs, Res.bind_ok, a1, Res.bind_ok, a2, Res.bind_ok, a3, Res.bind_ok]

/-- C79: no other variable matters. -/
theorem C79_only (os : Os) (g : List Char → Option (List Char))
    (h : ∀ v ∈ readVariables, g v.toList = os.getenv v.toList) :
    startup { os with getenv := g } = startup os := by
  have hs : ∀ v ∈ readVariables, ∀ d, safeGetEnv { os with getenv := g } v d = safeGetEnv os v d := by
    intro v hv d
    unfold safeGetEnv
    change (g v.toList).getD _ = _
    rw [h v hv]
  have hi : ∀ v ∈ readVariables, ∀ d, getInt { os with getenv := g } v d = getInt os v d := by
    intro v hv d
    unfold getInt
    rw [hs v hv]
  have hf : ∀ v ∈ readVariables, ∀ d, getFloat { os with getenv := g } v d = getFloat os v d := by
    intro v hv d
    unfold getFloat
    rw [hs v hv]
  have hr : readSettings { os with getenv := g } = readSettings os := by
    unfold readSettings
    rw [hi "APOLLO_COLLECTIVE_TRAINING" (by decide), hi "APOLLO_LOCAL_TRAINING" (by decide),
      hi "APOLLO_SINGLE_MODEL" (by decide), hi "APOLLO_REGION_MODEL" (by decide),
      hi "APOLLO_GLOBAL_TRAIN_PERIOD" (by decide), hi "APOLLO_PER_REGION_TRAIN_PERIOD" (by decide),
      hi "APOLLO_TRACE_POLICY" (by decide), hi "APOLLO_STORE_MODELS" (by decide),
      hi "APOLLO_TRACE_RETRAIN" (by decide), hi "APOLLO_TRACE_ALLGATHER" (by decide),
      hi "APOLLO_TRACE_BEST_POLICIES" (by decide), hi "APOLLO_RETRAIN_ENABLE" (by decide),
      hf "APOLLO_RETRAIN_TIME_THRESHOLD" (by decide), hf "APOLLO_RETRAIN_REGION_THRESHOLD" (by decide),
      hi "APOLLO_TRACE_CSV" (by decide), hi "APOLLO_PERSISTENT_DATASETS" (by decide),
      hi "APOLLO_STORE_EXEC_INFO" (by decide), hs "APOLLO_POLICY_MODEL" (by decide),
      hs "APOLLO_OUTPUT_DIR" (by decide), hs "APOLLO_DATASETS_DIR" (by decide),
      hs "APOLLO_TRACES_DIR" (by decide), hs "APOLLO_MODELS_DIR" (by decide)]
  unfold startup
  rw [hr]
  rfl

/-! ## Examples -/

/-- An environment that sets several variables. -/
def someVars : Os where
  getenv := fun v =>
    if v = "APOLLO_TRACE_POLICY".toList then some "1".toList
    else if v = "APOLLO_PER_REGION_TRAIN_PERIOD".toList then some "100".toList
    else if v = "APOLLO_PERSISTENT_DATASETS".toList then some "2".toList
    else if v = "APOLLO_OUTPUT_DIR".toList then some "out".toList
    else if v = "APOLLO_TRACE_CSV".toList then some "-1".toList
    else if v = "APOLLO_POLICY_MODEL".toList then some "DecisionTree".toList
    else if v = "HOME".toList then some "/".toList
    else none

/-- The configuration it gives. -/
def someCfg : Cfg :=
  { tracePolicy := true, perRegionPeriod := 100, persistent := true, outputDir := "out".toList
    traceCsv := true, policyModel := "DecisionTree".toList }

example : startup someVars = .ok someCfg := by decide +kernel

/-- It meets the specification. -/
example : FromEnv someVars.getenv someCfg ∧ OthersRead someVars.getenv ∧
    CfgConsistent someVars.mpi someCfg ∧
    Prepared someVars.mkdir someVars.canWrite someVars.rank someCfg :=
  (C79_starts someVars someCfg).1 (by decide +kernel)

/-- Hypothesis of `C79_only` in an example: a variable the library does not read. -/
example : ∀ v ∈ readVariables, (fun w => if w = "HOME".toList then none else someVars.getenv w) v.toList =
    someVars.getenv v.toList := by decide +kernel

/-- When the directory of the traces cannot be made the library does not start. -/
example : startup { someVars with mkdir := fun d => d != "out/traces".toList } = .error .throw := by
  decide +kernel

end Apollo.Props
