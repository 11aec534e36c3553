import Verif.Model.Startup
import Verif.Spec.Startup

/-!
# Property C44: inconsistent configuration is rejected
-/

namespace Apollo.Props

open Apollo Apollo.Spec

theorem getInt_ok {os : Os} {name d : String} {n : ℤ} :
    getInt os name d = .ok n ↔ IsInt os.getenv name d n := by
  unfold getInt IsInt safeGetEnv
  cases stoi ((os.getenv name.toList).getD d.toList) with
  | error e => simp
  | ok x => obtain ⟨v, k⟩ := x; simp

theorem getInt_error {os : Os} {name d : String} {e : Err} (h : getInt os name d = .error e) :
    e = .throw := by
  unfold getInt stoi at h
  split at h
  · cases h; rfl
  · split at h <;> cases h; rfl

theorem getFloat_ok {os : Os} {name d : String} (h : IsFloat os.getenv name d) :
    ∃ x, getFloat os name d = .ok x := by
  obtain ⟨x, k, h⟩ := h
  exact ⟨x, by unfold getFloat safeGetEnv; rw [h]; rfl⟩

/-- The modes that were read. -/
def modesOf (s : Settings) : Modes := ⟨s.collective, s.localTraining, s.single, s.regionModel⟩

theorem readSettings_ok {os : Os} {s : Settings} (h : readSettings os = .ok s) :
    (modesOf s).In os.getenv := by
  unfold readSettings at h
  obtain ⟨_, h1, h⟩ := (Res.bind_eq_ok _ _ _).1 h
  obtain ⟨_, h2, h⟩ := (Res.bind_eq_ok _ _ _).1 h
  obtain ⟨_, h3, h⟩ := (Res.bind_eq_ok _ _ _).1 h
  obtain ⟨_, h4, h⟩ := (Res.bind_eq_ok _ _ _).1 h
  iterate 13 obtain ⟨_, _, h⟩ := (Res.bind_eq_ok _ _ _).1 h
  cases h
  exact ⟨getInt_ok.1 h1, getInt_ok.1 h2, getInt_ok.1 h3, getInt_ok.1 h4⟩

theorem readSettings_exists {os : Os} (hi : ∀ v ∈ intVariables, ∃ n, IsInt os.getenv v.1 v.2 n)
    (hf : ∀ v ∈ floatVariables, IsFloat os.getenv v.1 v.2) : ∃ s, readSettings os = .ok s := by
  have hi' : ∀ v ∈ intVariables, ∃ n, getInt os v.1 v.2 = .ok n := fun v hv => by
    obtain ⟨n, hn⟩ := hi v hv
    exact ⟨n, getInt_ok.2 hn⟩
  have hf' : ∀ v ∈ floatVariables, ∃ n, getFloat os v.1 v.2 = .ok n := fun v hv => getFloat_ok (hf v hv)
  simp only [intVariables, floatVariables, List.forall_mem_cons] at hi' hf'
  obtain ⟨⟨_, a1⟩, ⟨_, a2⟩, ⟨_, a3⟩, ⟨_, a4⟩, ⟨_, a5⟩, ⟨_, a6⟩, ⟨_, a7⟩, ⟨_, a8⟩, ⟨_, a9⟩, ⟨_, a10⟩,
    ⟨_, a11⟩, ⟨_, a12⟩, ⟨_, a13⟩, ⟨_, a14⟩, ⟨_, a15⟩, -⟩ := hi'
  obtain ⟨⟨_, b1⟩, ⟨_, b2⟩, -⟩ := hf'
  unfold readSettings
  simp only [a1, a2, a3, a4, a5, a6, a7, a8, a9, a10, a11, a12, a13, a14, a15, b1, b2, Res.bind_ok]
  exact ⟨_, rfl⟩

theorem isInt_unique {g : List Char → Option (List Char)} {name d : String} {m n : ℤ}
    (h : IsInt g name d m) (h' : IsInt g name d n) : m = n := by
  obtain ⟨k, h⟩ := h
  obtain ⟨k', h'⟩ := h'
  rw [h] at h'
  cases h'
  rfl

theorem checkSettings_iff {mpi : Bool} {s : Settings} :
    checkSettings mpi s = if (s.collective ≠ 0 ↔ s.localTraining = 0) ∧
      (s.single ≠ 0 ↔ s.regionModel = 0) ∧ (s.collective ≠ 0 → mpi = true) then .ok ()
      else .error .abort := by
  unfold checkSettings
  by_cases h1 : s.collective = 0 <;> by_cases h2 : s.localTraining = 0 <;>
    by_cases h3 : s.single = 0 <;> by_cases h4 : s.regionModel = 0 <;> cases mpi <;>
    simp [h1, h2, h3, h4]

/-- C44: when the library starts, its configuration is consistent and is the one in the environment. -/
theorem C44_accepts (os : Os) (cfg : Cfg) (h : startup os = .ok cfg) :
    ∃ m : Modes, m.In os.getenv ∧ m.Consistent os.mpi ∧
      (cfg.collective = true ↔ m.collective ≠ 0) ∧ (cfg.localTraining = true ↔ m.localTraining ≠ 0) ∧
      (cfg.single = true ↔ m.single ≠ 0) ∧ (cfg.regionModel = true ↔ m.region ≠ 0) := by
  unfold startup at h
  obtain ⟨s, h1, h⟩ := (Res.bind_eq_ok _ _ _).1 h
  obtain ⟨_, h2, h⟩ := (Res.bind_eq_ok _ _ _).1 h
  obtain ⟨_, h3, h⟩ := (Res.bind_eq_ok _ _ _).1 h
  obtain ⟨_, h4, h⟩ := (Res.bind_eq_ok _ _ _).1 h
  cases h
  refine ⟨modesOf s, readSettings_ok h1, ?_, ?_, ?_, ?_, ?_⟩
  · rw [checkSettings_iff] at h2
    split at h2
    · assumption
    · cases h2
  all_goals simp [Settings.cfg, modesOf]

/-- C44: with variables that are numbers, an inconsistent configuration aborts the program. -/
theorem C44_rejects (os : Os) (hi : ∀ v ∈ intVariables, ∃ n, IsInt os.getenv v.1 v.2 n)
    (hf : ∀ v ∈ floatVariables, IsFloat os.getenv v.1 v.2) (m : Modes) (hm : m.In os.getenv)
    (hc : ¬ m.Consistent os.mpi) : startup os = .error .abort := by
  obtain ⟨s, hs⟩ := readSettings_exists hi hf
  have h1 := readSettings_ok hs
  have e1 := isInt_unique h1.collective hm.collective
  have e2 := isInt_unique h1.localTraining hm.localTraining
  have e3 := isInt_unique h1.single hm.single
  have e4 := isInt_unique h1.region hm.region
  have : checkSettings os.mpi s = .error .abort := by
    rw [checkSettings_iff, if_neg]
    intro hk
    refine hc ?_
    unfold Modes.Consistent
    rw [← e1, ← e2, ← e3, ← e4]
    exact hk
  unfold startup
  simp only [hs, this, Res.bind_ok, Res.bind_error]

/-- C44: with variables that are numbers, a consistent configuration is accepted if directories and
files can be created. -/
theorem C44_starts (os : Os) (hi : ∀ v ∈ intVariables, ∃ n, IsInt os.getenv v.1 v.2 n)
    (hf : ∀ v ∈ floatVariables, IsFloat os.getenv v.1 v.2) (m : Modes) (hm : m.In os.getenv)
    (hc : m.Consistent os.mpi) (hd : ∀ d, os.mkdir d = true) (hw : ∀ f, os.canWrite f = true) :
    ∃ cfg, startup os = .ok cfg := by
  obtain ⟨s, hs⟩ := readSettings_exists hi hf
  have h1 := readSettings_ok hs
  have e1 := isInt_unique h1.collective hm.collective
  have e2 := isInt_unique h1.localTraining hm.localTraining
  have e3 := isInt_unique h1.single hm.single
  have e4 := isInt_unique h1.region hm.region
  have h2 : checkSettings os.mpi s = .ok () := by
    rw [checkSettings_iff, if_pos]
    unfold Modes.Consistent at hc
    rw [← e1, ← e2, ← e3, ← e4] at hc
    exact hc
  have hd' : ∀ f d, createDirIf os f d = .ok () := by
    intro f d
    unfold createDirIf createDir
    simp [hd]
  have h3 : createDirs os s = .ok () := by
    unfold createDirs createDir
    simp [hd, hd']
  have h4 : openGtrace os s = .ok () := by
    unfold openGtrace
    simp [hw]
  unfold startup
  simp only [hs, h2, h3, h4, Res.bind_ok]
  exact ⟨_, rfl⟩

/-- C44: a variable that is not a number makes start-up throw, it never starts. -/
theorem C44_not_a_number (os : Os) (v : String × String) (hv : v ∈ intVariables)
    (hn : ∀ n, ¬ IsInt os.getenv v.1 v.2 n) (cfg : Cfg) : startup os ≠ .ok cfg := by
  intro h
  unfold startup at h
  obtain ⟨s, h, _⟩ := (Res.bind_eq_ok _ _ _).1 h
  unfold readSettings at h
  obtain ⟨_, h1, h⟩ := (Res.bind_eq_ok _ _ _).1 h
  obtain ⟨_, h2, h⟩ := (Res.bind_eq_ok _ _ _).1 h
  obtain ⟨_, h3, h⟩ := (Res.bind_eq_ok _ _ _).1 h
  obtain ⟨_, h4, h⟩ := (Res.bind_eq_ok _ _ _).1 h
  obtain ⟨_, h5, h⟩ := (Res.bind_eq_ok _ _ _).1 h
  obtain ⟨_, h6, h⟩ := (Res.bind_eq_ok _ _ _).1 h
  obtain ⟨_, h7, h⟩ := (Res.bind_eq_ok _ _ _).1 h
  obtain ⟨_, h8, h⟩ := (Res.bind_eq_ok _ _ _).1 h
  obtain ⟨_, h9, h⟩ := (Res.bind_eq_ok _ _ _).1 h
  obtain ⟨_, h10, h⟩ := (Res.bind_eq_ok _ _ _).1 h
  obtain ⟨_, h11, h⟩ := (Res.bind_eq_ok _ _ _).1 h
  obtain ⟨_, h12, h⟩ := (Res.bind_eq_ok _ _ _).1 h
  obtain ⟨_, _, h⟩ := (Res.bind_eq_ok _ _ _).1 h
  obtain ⟨_, _, h⟩ := (Res.bind_eq_ok _ _ _).1 h
  obtain ⟨_, h13, h⟩ := (Res.bind_eq_ok _ _ _).1 h
  obtain ⟨_, h14, h⟩ := (Res.bind_eq_ok _ _ _).1 h
  obtain ⟨_, h15, h⟩ := (Res.bind_eq_ok _ _ _).1 h
  simp only [intVariables, List.mem_cons, List.not_mem_nil, or_false] at hv
  rcases hv with rfl | rfl | rfl | rfl | rfl | rfl | rfl | rfl | rfl | rfl | rfl | rfl | rfl | rfl |
    rfl
  · exact hn _ (getInt_ok.1 h1)
  · exact hn _ (getInt_ok.1 h2)
  · exact hn _ (getInt_ok.1 h3)
  · exact hn _ (getInt_ok.1 h4)
  · exact hn _ (getInt_ok.1 h5)
  · exact hn _ (getInt_ok.1 h6)
  · exact hn _ (getInt_ok.1 h7)
  · exact hn _ (getInt_ok.1 h8)
  · exact hn _ (getInt_ok.1 h9)
  · exact hn _ (getInt_ok.1 h10)
  · exact hn _ (getInt_ok.1 h11)
  · exact hn _ (getInt_ok.1 h12)
  · exact hn _ (getInt_ok.1 h13)
  · exact hn _ (getInt_ok.1 h14)
  · exact hn _ (getInt_ok.1 h15)

/-- C44: with the default environment the library starts with local training and a model per
region. -/
theorem C44_default (os : Os) (he : ∀ v, os.getenv v = none) (hd : ∀ d, os.mkdir d = true) :
    startup os = .ok { collective := false, localTraining := true, single := false
                       regionModel := true, policyModel := "Static,policy=0".toList
                       globalPeriod := 0, perRegionPeriod := 0, storeModels := false
                       retrain := false, traceCsv := false, persistent := false
                       storeExecInfo := false, outputDir := ".apollo".toList } := by
  have hg : ∀ n d, safeGetEnv os n d = d.toList := fun n d => by simp [safeGetEnv, he]
  have h0 : ∀ n, getInt os n "0" = .ok 0 := fun n => by
    unfold getInt
    rw [hg, show stoi "0".toList = .ok (0, 1) by decide +kernel]
    rfl
  have h1 : ∀ n, getInt os n "1" = .ok 1 := fun n => by
    unfold getInt
    rw [hg, show stoi "1".toList = .ok (1, 1) by decide +kernel]
    rfl
  have h2 : ∀ n, getFloat os n "2.0" = .ok 2 := fun n => by
    unfold getFloat
    rw [hg, show stof "2.0".toList = .ok (2, 3) by decide +kernel]
    rfl
  have h3 : ∀ n, getFloat os n "0.5" = .ok (1 / 2) := fun n => by
    unfold getFloat
    rw [hg, show stof "0.5".toList = .ok (1 / 2, 3) by decide +kernel]
    rfl
  unfold startup readSettings createDirs createDirIf createDir openGtrace
  simp only [h0, h1, h2, h3, hg, hd, Res.bind_ok, checkSettings_iff]
  simp [Settings.cfg]

/-! ## Examples -/

/-- An environment with one variable. -/
def oneVar (name value : String) : Os where
  getenv := fun v => if v = name.toList then some value.toList else none

/-- Hypotheses of `C44_rejects` in an example: both kinds of models enabled. -/
example : startup (oneVar "APOLLO_SINGLE_MODEL" "1") = .error .abort := by decide +kernel

example : (∀ v ∈ intVariables, ∃ n, IsInt (oneVar "APOLLO_SINGLE_MODEL" "1").getenv v.1 v.2 n) ∧
    (∀ v ∈ floatVariables, IsFloat (oneVar "APOLLO_SINGLE_MODEL" "1").getenv v.1 v.2) ∧
    (⟨0, 1, 1, 1⟩ : Modes).In (oneVar "APOLLO_SINGLE_MODEL" "1").getenv ∧
    ¬ (⟨0, 1, 1, 1⟩ : Modes).Consistent (oneVar "APOLLO_SINGLE_MODEL" "1").mpi := by
  have hi : ∀ v ∈ intVariables, (stoi (((oneVar "APOLLO_SINGLE_MODEL" "1").getenv
      v.1.toList).getD v.2.toList)).isOk := by decide +kernel
  have hf : ∀ v ∈ floatVariables, (stof (((oneVar "APOLLO_SINGLE_MODEL" "1").getenv
      v.1.toList).getD v.2.toList)).isOk := by decide +kernel
  refine ⟨fun v hv => ?_, fun v hv => ?_, ⟨⟨1, ?_⟩, ⟨1, ?_⟩, ⟨1, ?_⟩, ⟨1, ?_⟩⟩, ?_⟩
  · have := hi v hv
    revert this
    unfold IsInt
    cases stoi (((oneVar "APOLLO_SINGLE_MODEL" "1").getenv v.1.toList).getD v.2.toList) with
    | error e => intro h; cases h
    | ok x => exact fun _ => ⟨x.1, x.2, rfl⟩
  · have := hf v hv
    revert this
    unfold IsFloat
    cases stof (((oneVar "APOLLO_SINGLE_MODEL" "1").getenv v.1.toList).getD v.2.toList) with
    | error e => intro h; cases h
    | ok x => exact fun _ => ⟨x.1, x.2, rfl⟩
  all_goals first | decide +kernel | (unfold Modes.Consistent; simp)

/-- Collective training without MPI, and with it. -/
example : startup { (oneVar "" "") with getenv := fun v =>
      if v = "APOLLO_COLLECTIVE_TRAINING".toList then some "1".toList
      else if v = "APOLLO_LOCAL_TRAINING".toList then some "0".toList else none } =
    .error .abort := by decide +kernel

example : ∃ cfg, startup { (oneVar "" "") with mpi := true, getenv := fun v =>
      if v = "APOLLO_COLLECTIVE_TRAINING".toList then some "1".toList
      else if v = "APOLLO_LOCAL_TRAINING".toList then some "0".toList else none } = .ok cfg ∧
    cfg.collective = true ∧ cfg.localTraining = false := by
  refine ⟨{ collective := true, localTraining := false }, ?_, rfl, rfl⟩
  decide +kernel

/-- A word is not a number. -/
example : startup (oneVar "APOLLO_STORE_MODELS" "yes") = .error .throw := by decide +kernel

/-- A number followed by other characters is one. -/
example : startup (oneVar "APOLLO_STORE_MODELS" " 1x") = .ok { storeModels := true } := by
  decide +kernel

end Apollo.Props
