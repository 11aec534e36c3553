import Verif.Proofs.KokkosInit
import Verif.Props.KokkosRun
import Verif.Props.Startup

/-!
# C68: the options of the Kokkos connector
-/

namespace Apollo.Props

open Kokkos Spec

/-- **C68** is false: parsing has undefined behaviour for all arguments without one of the three flags
as the code spells them. -/
theorem C68_fails (args : List Str) (flush : ℤ) (g : Environ) {a : Str} (ha : a ∈ flags)
    (h : a ∉ args) : ∃ why, parseArgs args flush g = .error (.ub why) := by
  rw [parseArgs_eq]
  cases hl : parseLoop args {} flush with
  | error e => exact ⟨.overflow, by rw [parseLoop_error hl]⟩
  | ok x => exact ⟨.uninit, if_neg fun hn => h (hn a ha)⟩

/-- C68: in particular for all lists of documented options, since two of the flags are spelled in another
way in the documentation. -/
theorem C68_documented (args : List Str) (flush : ℤ) (g : Environ) (h : ∀ a ∈ args, Documented a) :
    parseArgs args flush g = .error (.ub .uninit) := by
  have hc : ∀ a ∈ args, Clear a := by
    intro a ha
    rcases h a ha with rfl | rfl | rfl | ⟨n, hn⟩
    · exact .inr (.inr (by rw [← contains_iff]; decide +kernel))
    · exact .inr (.inr (by rw [← contains_iff]; decide +kernel))
    · exact .inl (by simp [flags])
    · exact .inr (.inl ⟨n, hn⟩)
  obtain ⟨n, hn, -⟩ := parseLoop_clear (o := {}) (flush := flush) hc
  rw [parseArgs_eq, hn]
  refine if_neg fun hall => ?_
  rcases h _ (hall "--disable_retrain".toList (by simp [flags])) with h | h | h | ⟨n, h, -⟩
  · exact absurd h (by decide +kernel)
  · exact absurd h (by decide +kernel)
  · exact absurd h (by decide +kernel)
  · refine absurd (flags_not_flush (arg := "--disable_retrain".toList) (by simp [flags])) (not_not.2 ?_)
    exact ⟨[], fmtInt n, by rw [h]; rfl⟩

/-- C68, the part that holds: when all three flags are given and the flush rates are numbers, the
interval is the last one given, and the environment asks for forests that explore round robin, for models
of regions, and to store models.  Missing: everything about retraining, collective training and tracing,
see `C68_ignored`. -/
theorem C68_partial (args : List Str) (flush : ℤ) (g : Environ) (hc : ∀ a ∈ args, Clear a)
    (hf : ∀ a ∈ flags, a ∈ args) : ∃ n g', parseArgs args flush g = .ok (n, g') ∧
      FlushRate args flush n ∧
      g' "APOLLO_POLICY_MODEL".toList = some "RandomForest,explore=RoundRobin".toList ∧
      g' "APOLLO_REGION_MODEL".toList = some "1".toList ∧
      g' "APOLLO_STORE_MODELS".toList = some "1".toList := by
  obtain ⟨n, hn, hr⟩ := parseLoop_clear (o := {}) (flush := flush) hc
  refine ⟨n, afterParse g, ?_, hr, rfl, rfl, rfl⟩
  rw [parseArgs_eq, hn]
  exact if_pos hf

/-- C68: the options have no other effect on the environment: all other variables, among them those for
retraining, collective training, local training and tracing, keep their values. -/
theorem C68_ignored (args : List Str) (flush n : ℤ) (g g' : Environ)
    (h : parseArgs args flush g = .ok (n, g')) (v : Str)
    (hv : v ∉ ["APOLLO_POLICY_MODEL".toList, "APOLLO_REGION_MODEL".toList,
      "APOLLO_STORE_MODELS".toList]) : g' v = g v := by
  rw [parseArgs_eq] at h
  simp only [List.mem_cons, List.not_mem_nil, or_false, not_or] at hv
  split at h
  · cases h
  · split at h
    · cases h
      unfold afterParse
      rw [Function.update_of_ne hv.2.2, Function.update_of_ne hv.2.1, Function.update_of_ne hv.1]
    · cases h

/-- C68: whatever the environment and so whatever the options, when the library has been started by the
connector, it stores models, one for each region, trains them locally, and does not retrain. -/
theorem C68_init (os : Os) (cfg : Cfg) (h : initLibrary os = .ok cfg) :
    cfg.storeModels = true ∧ cfg.regionModel = true ∧ cfg.single = false ∧
      cfg.localTraining = true ∧ cfg.collective = false ∧ cfg.retrain = false ∧
      cfg.policyModel = (os.getenv "APOLLO_POLICY_MODEL".toList).getD "Static,policy=0".toList := by
  unfold initLibrary at h
  obtain ⟨m, hm, hc, h1, h2, h3, h4⟩ := C44_accepts _ _ h
  have e1 : m.collective = 0 := isInt_unique hm.collective ⟨1, rfl⟩
  have e2 : m.localTraining = 1 := isInt_unique hm.localTraining ⟨1, rfl⟩
  have e4 : m.region = 1 := isInt_unique hm.region ⟨1, rfl⟩
  have e3 : ¬ m.single ≠ 0 := fun hs => by
    rw [hc.2.1, e4] at hs
    cases hs
  have hcol : cfg.collective = false := by
    rw [← Bool.not_eq_true, h1, e1]; simp
  have hs : cfg.single = false := by rw [← Bool.not_eq_true, h3]; exact e3
  have hl : cfg.localTraining = true := h2.2 (by rw [e2]; decide)
  have hr : cfg.regionModel = true := h4.2 (by rw [e4]; decide)
  unfold startup at h
  obtain ⟨s, hset, h⟩ := (Res.bind_eq_ok _ _ _).1 h
  obtain ⟨_, -, h⟩ := (Res.bind_eq_ok _ _ _).1 h
  obtain ⟨_, -, h⟩ := (Res.bind_eq_ok _ _ _).1 h
  obtain ⟨_, -, h⟩ := (Res.bind_eq_ok _ _ _).1 h
  cases h
  unfold readSettings at hset
  iterate 7 obtain ⟨_, -, hset⟩ := (Res.bind_eq_ok _ _ _).1 hset
  obtain ⟨st, hst, hset⟩ := (Res.bind_eq_ok _ _ _).1 hset
  iterate 3 obtain ⟨_, -, hset⟩ := (Res.bind_eq_ok _ _ _).1 hset
  obtain ⟨rt, hrt, hset⟩ := (Res.bind_eq_ok _ _ _).1 hset
  iterate 5 obtain ⟨_, -, hset⟩ := (Res.bind_eq_ok _ _ _).1 hset
  cases hset
  have est : st = 1 := isInt_unique (getInt_ok.1 hst) ⟨1, rfl⟩
  have ert : rt = 0 := isInt_unique (getInt_ok.1 hrt) ⟨1, rfl⟩
  subst est ert
  exact ⟨rfl, hr, hs, hl, hcol, rfl, rfl⟩

/-- C68: with a single model for all regions the connector ends the program. -/
theorem C68_single (os : Os) (n : ℤ) (hn : IsInt os.getenv "APOLLO_SINGLE_MODEL" "0" n) (h0 : n ≠ 0)
    (cfg : Cfg) : initLibrary os ≠ .ok cfg := by
  intro h
  obtain ⟨m, hm, hc, -⟩ := C44_accepts _ _ h
  have e3 : m.single = n := isInt_unique hm.single hn
  have e4 : m.region = 1 := isInt_unique hm.region ⟨1, rfl⟩
  have := hc.2.1.1 (by rw [e3]; exact h0)
  rw [e4] at this
  cases this

/-- C68: a flush rate that does not begin with a number is taken as zero. -/
theorem C68_flush_word (o : Options) (flush : ℤ) (s : Str) (h : readInt s = none) :
    parseArg o flush ("--flush-rate=".toList ++ s) = .ok (o, 0) := by
  have hi : "--flush-rate=".toList <:+: "--flush-rate=".toList ++ s := ⟨[], s, rfl⟩
  have hnf : "--flush-rate=".toList ++ s ∉ flags := fun hf => flags_not_flush hf hi
  rw [parseArg_other hnf, if_pos hi, afterEquals_flush]
  unfold atoi
  rw [h]
  rfl

theorem not_ended {M : Type} {e : KEnv M} (he : e.flush = 0) {ops : List KOp} {xs : List Kokkos.Ret}
    {s s' : State M} (h : kexec e ops s = .ok (xs, s')) (b : Bool) : Kokkos.Ret.ended b ∉ xs := by
  induction ops generalizing s xs with
  | nil => simp only [kexec] at h; cases h; simp
  | cons o ops ih =>
    obtain ⟨x, s₁, ys, h1, h2, rfl⟩ := kexec_cons h
    rintro (_ | ⟨_, hm⟩)
    case cons.tail => exact ih h2 hm
    cases o with
    | endContext c =>
      have h1' : endContext e s c = .ok (.ended b, s₁) := h1
      rcases endContext_ok h1' with ⟨-, h, -⟩ | ⟨_, _, _, _, _, h, _⟩
      · cases h
      · exact h he
    | request c ctx tuning =>
      simp only [kstep] at h1
      rcases request_ok h1 with ⟨-, hx, -⟩ | ⟨-, _, _, _, _, _, _, _, _, -, -, -, -, -, -, -, hx, -⟩ <;>
        cases hx
    | _ =>
      simp only [kstep] at h1
      obtain ⟨_, _, h1⟩ := (Res.bind_eq_ok _ _ _).1 h1
      cases h1

/-- C68: with flush rate zero no context can be ended: a history in which a context is ended that was
asked for has undefined behaviour. -/
theorem C68_flush_zero {M : Type} {e : KEnv M} (he : e.flush = 0) {cfg : Cfg}
    {files : Str → Option Str} {ops : List KOp} {xs : List Kokkos.Ret} {s : State M}
    (h : kexec e ops (initState cfg files) = .ok (xs, s)) {i c : ℕ}
    (hi : ops[i]? = some (.endContext c)) : ¬ Live (ops.take i) c := by
  intro hl
  obtain ⟨b, hb, -⟩ := (C61_history h hi).2 hl
  exact not_ended he h b (List.mem_of_getElem? hb)

/-- Arguments as in `C68_partial`. -/
example : ∃ n g', parseArgs ["--flush-rate=7".toList, "--trace".toList, "--disable_retrain".toList,
      "--distributed-training".toList, "--flush-rate=20".toList] 500 (fun _ => none) = .ok (n, g') ∧
    n = 20 ∧ g' "APOLLO_RETRAIN_ENABLE".toList = none := by
  exact ⟨20, _, rfl, rfl, rfl⟩

example : ∀ a ∈ ["--flush-rate=7".toList, "--trace".toList, "--disable_retrain".toList,
    "--distributed-training".toList, "--flush-rate=20".toList], Clear a := by
  simp only [List.forall_mem_cons, List.not_mem_nil, false_imp_iff, implies_true, and_true]
  exact ⟨.inr (.inl ⟨7, by decide +kernel, by decide⟩), .inl (by decide +kernel),
    .inl (by decide +kernel), .inl (by decide +kernel),
    .inr (.inl ⟨20, by decide +kernel, by decide⟩)⟩

/-- Documented options. -/
example : ∀ a ∈ ["--flush-rate=7".toList, "--trace".toList, "--disable-retrain".toList], Documented a := by
  simp only [List.forall_mem_cons, List.not_mem_nil, false_imp_iff, implies_true, and_true]
  exact ⟨.inr (.inr (.inr ⟨7, by decide +kernel, by decide⟩)), .inr (.inr (.inl rfl)), .inl rfl⟩

/-- The connector starts the library in an empty environment, and does not with a single model. -/
example : initLibrary (oneVar "" "") = .ok { storeModels := true, traceBest := true } ∧
    initLibrary (oneVar "APOLLO_SINGLE_MODEL" "1") = .error .abort := by
  decide +kernel

/-- A flush rate that is a word, and what comes of it. -/
example : readInt "often".toList = none ∧
    (kexec { demoK with flush := 0 } (demoKDecls ++ [demoKAsk 7 100, .endContext 7])
      (initState demoKCfg fun _ => none)).map Prod.fst = .error (.ub .divByZero) ∧
    ∃ xs s, kexec { demoK with flush := 0 } (demoKDecls ++ [demoKAsk 7 100, .endContext 8])
      (initState demoKCfg fun _ => none) = .ok (xs, s) ∧ xs.length = 5 :=
  ⟨by decide +kernel, by decide +kernel, krun_ok (by decide +kernel)⟩

end Apollo.Props
