import Verif.Proofs.SharedPaths
import Verif.Props.Ranks

/-!
# Ranks with one file system: C97

`Run` is a run in which every rank has the files it reads and writes to itself; in a `SharedRun` all ranks
see the files that any of them writes.
-/

namespace Apollo.Props

open Apollo Apollo.Collective Apollo.Spec Apollo.Ranks

variable {M : Type}

/-- Ranks with the given settings, all of which see the files `F₀`, with ranks of their own, the same places
for files, no datasets that persist, and programs that do not themselves name files other ranks write. -/
structure SharedStart (env : ℕ → Env M) (cfg : ℕ → Cfg) (F₀ : Str → Option Str) (s : List (Proc M)) :
    Prop where
  files : ∀ p ∈ s, p.world.files = F₀
  settings : ∀ i p, s[i]? = some p → p.world.cfg = cfg i
  places : SamePlaces cfg s.length
  names : ∀ i, i < s.length → PlainNames (env i).ops
  ranks : ∀ i j, i < s.length → j < s.length → i ≠ j → (env i).rank ≠ (env j).rank
  mentioned : ∀ i p, s[i]? = some p → ∀ op ∈ p.todo, ∀ x, Mentioned (cfg i) op x →
    ∀ j, j < s.length → j ≠ i → ¬ Written (env j) (cfg j) x

theorem SharedStart.apart {env : ℕ → Env M} {cfg : ℕ → Cfg} {F₀ : Str → Option Str} {s : List (Proc M)}
    (h : SharedStart env cfg F₀ s) : Ranks.Apart env cfg s.length := Ranks.apart h.places h.names h.ranks

theorem SharedStart.twins {env : ℕ → Env M} {cfg : ℕ → Cfg} {F₀ : Str → Option Str} {s : List (Proc M)}
    (h : SharedStart env cfg F₀ s) : Twins env cfg s.length F₀ s s := by
  refine Twins.start rfl h.files h.settings fun i p hp op ho x hx => ?_
  have hi : i < s.length := (List.getElem?_eq_some_iff.1 hp).1
  rcases reads_apart h.places h.names h.ranks hi hx with hm | hm
  · exact h.mentioned i p hp op ho x hm
  · exact hm

/-- What the two kinds of runs have in common: the ranks are the same apart from the files, a file that a rank
may write is as the rank by itself leaves it, and a file that no rank writes is as it was. -/
structure SharedLike (env : ℕ → Env M) (cfg : ℕ → Cfg) (F₀ : Str → Option Str) (s t : List (Proc M)) :
    Prop where
  ranks : s = t.map (seeing (filesOf s))
  own : ∀ i q x, t[i]? = some q → Written (env i) (cfg i) x → filesOf s x = q.world.files x
  rest : s ≠ [] → ∀ x, (∀ i, i < s.length → ¬ Written (env i) (cfg i) x) → filesOf s x = F₀ x

theorem SharedLike.of {env : ℕ → Env M} {cfg : ℕ → Cfg} {F₀ : Str → Option Str} {n : ℕ} {s t : List (Proc M)}
    (ha : Ranks.Apart env cfg n) (h : Twins env cfg n F₀ s t) : SharedLike env cfg F₀ s t := by
  refine ⟨?_, ?_, fun hne x hx => h.rest hne x (by rw [← h.left]; exact hx)⟩
  · refine List.ext_getElem (by simp [h.left, h.right]) fun k h1 h2 => ?_
    rw [List.getElem_map]
    have h3 : k < t.length := by simpa using h2
    rw [← (h.twin k _ _ (List.getElem?_eq_getElem h1) (List.getElem?_eq_getElem h3)).same]
    exact (seeing_self (h.files _ (List.getElem_mem h1))).symm
  · intro i q x hq hw
    have hi : i < n := by rw [← h.right]; exact (List.getElem?_eq_some_iff.1 hq).1
    have h1 : i < s.length := by rw [h.left]; exact hi
    exact (h.twin i _ q (List.getElem?_eq_getElem h1) hq).files x
      fun j hj hji => ha i j x hi hj (Ne.symm hji) hw

/-- C97: a run with a shared file system is one in which every rank has files of its own.
Full statement: also with datasets that persist.  Missing: that is false (`C97_fails`). -/
theorem C97_run_partial {mpi : Mpi} {env : ℕ → Env M} {cfg : ℕ → Cfg} {F₀ : Str → Option Str} {n : ℕ}
    {s s' : List (Proc M)} (h : SharedStart env cfg F₀ s) (hr : SharedRun mpi env n s s') :
    ∃ t, Run mpi env n s t ∧ SharedLike env cfg F₀ s' t := by
  obtain ⟨t, h1, h2⟩ := h.twins.run h.apart hr
  exact ⟨t, h1, .of h.apart h2⟩

/-- And the other way round: so what `C83` to `C86` say holds with a shared file system. -/
theorem C97_back_partial {mpi : Mpi} {env : ℕ → Env M} {cfg : ℕ → Cfg} {F₀ : Str → Option Str} {n : ℕ}
    {s t : List (Proc M)} (h : SharedStart env cfg F₀ s) (hr : Run mpi env n s t) :
    ∃ s', SharedRun mpi env n s s' ∧ SharedLike env cfg F₀ s' t := by
  obtain ⟨s', h1, h2⟩ := h.twins.run' h.apart hr
  exact ⟨s', h1, .of h.apart h2⟩

/-- C97: so all files, and everything else, are the same at the end, whatever the order in which the ranks
proceed. -/
theorem C97_unique_partial {mpi : Mpi} {env : ℕ → Env M} {cfg : ℕ → Cfg} {F₀ : Str → Option Str} {n m : ℕ}
    {s b c : List (Proc M)} (h : SharedStart env cfg F₀ s) (hb : SharedRun mpi env n s b)
    (hbs : ∀ x, ¬ SharedStep mpi env b x) (hc : SharedRun mpi env m s c)
    (hcs : ∀ x, ¬ SharedStep mpi env c x) : c = b ∧ m = n := by
  obtain ⟨tb, h1, h2⟩ := h.twins.run h.apart hb
  obtain ⟨tc, h3, h4⟩ := h.twins.run h.apart hc
  have e1 : ∀ x, ¬ Step mpi env tb x := fun x hx => by
    obtain ⟨y, hy, -⟩ := h2.step' h.apart hx
    exact hbs y hy
  have e2 : ∀ x, ¬ Step mpi env tc x := fun x hx => by
    obtain ⟨y, hy, -⟩ := h4.step' h.apart hx
    exact hcs y hy
  obtain ⟨g1, g2, g3⟩ := C83_stuck h1 e1 h3
  obtain ⟨g4, -, -⟩ := C83_stuck h3 e2 h1
  have := g3 e2
  subst this
  exact ⟨h4.unique h.apart h2, by omega⟩

/-- C97: the policy models of the library have names such that the ranks write different files. -/
theorem C97_names {env : ℕ → Env M} {cfg : ℕ → Cfg} {n : ℕ} (hc : SamePlaces cfg n)
    (hn : ∀ i, i < n → PlainNames (env i).ops)
    (hr : ∀ i j, i < n → j < n → i ≠ j → (env i).rank ≠ (env j).rank) {i j : ℕ} (hi : i < n) (hj : j < n)
    (hij : i ≠ j) (x : Str) : ¬ (Written (env i) (cfg i) x ∧ Written (env j) (cfg j) x) :=
  fun h => apart hc hn hr i j x hi hj hij h.1 h.2

theorem C97_plain (gen : ℕ → ℕ → ℕ) (tenv : ℕ → TrainEnv) : PlainNames (policyOps gen tenv) :=
  plainNames_policyOps gen tenv

/-- C97: the traces of measurements of different ranks are in different files. -/
theorem C97_traces {cfg : Cfg} {i j : ℕ} (h : i ≠ j) (info info' n n' : Str) :
    tracePath cfg i info n ≠ tracePath cfg j info' n' := by
  intro hp
  unfold tracePath at hp
  have h1 := List.append_cancel_right hp
  rw [show "-rank-".toList = "-rank".toList ++ ['-'] from rfl] at h1
  have h2 := congrArg List.reverse h1
  simp only [List.reverse_append, List.append_assoc] at h2
  have hd : ∀ k : ℕ, '-' ∉ (fmtInt k).reverse := by
    intro k hk
    have hm := List.mem_reverse.1 hk
    unfold fmtInt at hm
    rw [if_neg (by omega)] at hm
    exact absurd (isDigit_of_mem_natDigits hm) (by decide)
  have h3 := (append_sep_inj (hd i) (hd j) h2).1
  have h4 := List.reverse_injective h3
  have h5 := readInt_fmtInt i [] (by simp)
  rw [h4, readInt_fmtInt j [] (by simp)] at h5
  simp only [Option.some.injEq, Prod.mk.injEq, and_true] at h5
  omega

/-! ## Examples -/

/-- As `drive`, with a shared file system. -/
def driveShared (mpi : Mpi) (env : ℕ → Env M) : List (Option ℕ) → List (Proc M) → Res (List (Proc M))
  | [], s => .ok s
  | some i :: l, s =>
    match s[i]? with
    | none => .error .unmodelled
    | some p =>
      if p.wait.isSome then .error .unmodelled else
        match p.todo with
        | [] => .error .unmodelled
        | op :: ops => do
          let x ← call (env i) p.world op
          driveShared mpi env l ((s.set i ⟨x.1, ops, x.2⟩).map (seeing x.1.files))
  | none :: l, s =>
    if s.isEmpty || s.any (fun p => p.wait.isNone) then .error .unmodelled else do
      let s ← togetherShared mpi env s
      driveShared mpi env l s

theorem driveShared_run {mpi : Mpi} {env : ℕ → Env M} {l : List (Option ℕ)} {s s' : List (Proc M)}
    (h : driveShared mpi env l s = .ok s') : SharedRun mpi env l.length s s' := by
  induction l generalizing s with
  | nil => cases h; exact .refl _
  | cons x l ih =>
    cases x with
    | none =>
      simp only [driveShared] at h
      split at h
      · cases h
      · rename_i hn
        obtain ⟨s₁, h1, h2⟩ := (Res.bind_eq_ok _ _ _).1 h
        simp only [Bool.or_eq_true, List.isEmpty_iff, List.any_eq_true, Option.isNone_iff_eq_none,
          not_or, not_exists, not_and] at hn
        exact .step (.train hn.1 hn.2 h1) (ih h2)
    | some i =>
      simp only [driveShared] at h
      split at h
      · cases h
      · rename_i p hp
        split at h
        · cases h
        · rename_i hw
          split at h
          · cases h
          · rename_i op ops ht
            obtain ⟨⟨w, k⟩, h1, h2⟩ := (Res.bind_eq_ok _ _ _).1 h
            exact .step (.call hp (by simpa using hw) ht h1) (ih h2)

theorem driveShared_ok {mpi : Mpi} {env : ℕ → Env M} {P : List (Proc M) → Prop} [DecidablePred P]
    {l : List (Option ℕ)} {s : List (Proc M)}
    (h : (match driveShared mpi env l s with | .ok w => decide (P w) | .error _ => false) = true) :
    ∃ s', SharedRun mpi env l.length s s' ∧ P s' := by
  cases hd : driveShared mpi env l s with
  | ok s' => rw [hd] at h; exact ⟨s', driveShared_run hd, of_decide_eq_true h⟩
  | error e => rw [hd] at h; cases h

theorem no_sharedStep_of_finished {mpi : Mpi} {env : ℕ → Env M} {s : List (Proc M)}
    (h : ∀ p ∈ s, p.Finished) (x : List (Proc M)) : ¬ SharedStep mpi env s x := by
  intro hs
  cases hs with
  | call hp _ ht _ =>
    have := (h _ (List.mem_of_getElem? hp)).1
    rw [ht] at this
    cases this
  | train hne hw _ =>
    obtain ⟨p, hp⟩ := List.exists_mem_of_ne_nil _ hne
    exact hw p hp (h p hp).2

theorem finished_of_all {s : List (Proc M)} (h : (s.all fun p => p.todo.isEmpty && p.wait.isNone) = true) :
    ∀ p ∈ s, p.Finished := by
  intro p hp
  have := List.all_eq_true.1 h p hp
  simp only [Bool.and_eq_true, List.isEmpty_iff, Option.isNone_iff_eq_none] at this
  exact this

/-- Settings with which trained models and best policies are written. -/
def storingCfg : Cfg := { collective := true, storeModels := true, traceBest := true }

/-- Two ranks with one region that write their models. -/
def storingRanks : List (Proc PolicyModel) :=
  startRanks storingCfg [
    [demoCreate "a"] ++ demoRun 0 7 4 ++ demoRun 0 7 3 ++ [.trainAll 0 false],
    [demoCreate "a"] ++ demoRun 0 7 2 ++ [.trainAll 0 false]]

theorem startRanks_shared {cfg : Cfg} {ps : List (List Op)} (h1 : '/' ∉ cfg.modelsDir ∧ '/' ∉ cfg.datasetsDir)
    (h2 : cfg.persistent = false) (h3 : ∀ ops ∈ ps, ∀ op ∈ ops, ∀ x, ¬ Mentioned cfg op x) :
    SharedStart ranksEnv (fun _ => cfg) (fun _ => none) (startRanks cfg ps) where
  files p hp := by obtain ⟨ops, -, rfl⟩ := List.mem_map.1 hp; rfl
  settings i p hp := by
    obtain ⟨ops, -, rfl⟩ := List.mem_map.1 (List.mem_of_getElem? hp)
    rfl
  places := ⟨fun _ _ _ _ => rfl, fun _ _ _ _ => rfl, fun _ _ => h1, fun _ _ => h2⟩
  names _ _ := C97_plain _ _
  ranks i j _ _ h := by
    show (i : ℤ) ≠ j
    exact_mod_cast h
  mentioned i p hp op ho x hx := by
    obtain ⟨ops, hm, rfl⟩ := List.mem_map.1 (List.mem_of_getElem? hp)
    exact absurd hx (h3 ops hm op ho x)

theorem demoCreate_mentions (cfg : Cfg) (name : String) (x : Str) : ¬ Mentioned cfg (demoCreate name) x := by
  intro h
  unfold demoCreate at h
  cases h with
  | yaml h => exact h rfl
  | given h1 h2 _ =>
    rw [if_neg (by decide)] at h1
    rw [show parsePolicyModel "DecisionTree,explore=RoundRobin".toList =
      .ok ("DecisionTree".toList, [("explore".toList, "RoundRobin".toList)]) by decide +kernel] at h1
    cases h1
    rw [show Params.find [("explore".toList, "RoundRobin".toList)] "load".toList = none by decide] at h2
    cases h2

/-- A program of executions of regions created by `demoCreate`. -/
theorem demo_mentions {cfg : Cfg} {op : Op} {x : Str} (h : Mentioned cfg op x)
    (hop : (∃ name, op = demoCreate name) ∨ (∃ r b, op = .trainAll r b) ∨
      ∃ r f m, op ∈ demoRun r f m) : False := by
  rcases hop with ⟨name, rfl⟩ | ⟨r, b, rfl⟩ | ⟨r, f, m, ho⟩
  · exact demoCreate_mentions cfg name x h
  · cases h
  · simp only [demoRun, List.mem_cons, List.not_mem_nil, or_false] at ho
    rcases ho with rfl | rfl | rfl | rfl <;> cases h

example : SharedStart ranksEnv (fun _ => storingCfg) (fun _ => none) storingRanks ∧
    ∃ s, SharedRun exactMpi ranksEnv 17 storingRanks s ∧ (∀ x, ¬ SharedStep exactMpi ranksEnv s x) ∧
      (∀ p ∈ s, (p.world.files (storePath storingCfg 0 "DecisionTree".toList ['a'])).isSome ∧
        (p.world.files (storePath storingCfg 1 "DecisionTree".toList ['a'])).isSome) := by
  refine ⟨startRanks_shared (by decide) rfl ?_, ?_⟩
  · intro ops ho op hop x hx
    refine demo_mentions hx ?_
    simp only [List.mem_cons, List.not_mem_nil, or_false] at ho
    rcases ho with rfl | rfl <;>
      simp only [List.mem_append, List.mem_cons, List.not_mem_nil, or_false] at hop
    · rcases hop with ((h | h) | h) | h
      · exact .inl ⟨_, h⟩
      · exact .inr (.inr ⟨_, _, _, h⟩)
      · exact .inr (.inr ⟨_, _, _, h⟩)
      · exact .inr (.inl ⟨_, _, h⟩)
    · rcases hop with (h | h) | h
      · exact .inl ⟨_, h⟩
      · exact .inr (.inr ⟨_, _, _, h⟩)
      · exact .inr (.inl ⟨_, _, h⟩)
  · obtain ⟨s, hs, h1, h2⟩ : ∃ s, SharedRun exactMpi ranksEnv 17 storingRanks s ∧
        (s.all fun p => p.todo.isEmpty && p.wait.isNone) = true ∧
        (s.all fun p => (p.world.files (storePath storingCfg 0 "DecisionTree".toList ['a'])).isSome &&
          (p.world.files (storePath storingCfg 1 "DecisionTree".toList ['a'])).isSome) = true :=
      driveShared_ok (l := turns [(0, 10), (1, 6)] ++ [none]) (by decide +kernel)
    refine ⟨s, hs, no_sharedStep_of_finished (finished_of_all h1), fun p hp => ?_⟩
    have := List.all_eq_true.1 h2 p hp
    rwa [Bool.and_eq_true] at this

/-! ## Files without the rank in their names -/

/-- What the file with the dataset of region `a` holds: features, policy and metric. -/
def persisted (cfg : Cfg) (s : List (Proc PolicyModel)) : 
    Option (List (List ℚ × ℤ × ℚ)) :=
  (filesOf s (datasetPath cfg ['a'])).bind fun t =>
    (Dataset.load [] t).toOption.map fun d => d.map fun e => ((ofLex e.1).1, (ofLex e.1).2, e.2)

/-- Two ranks that measure the region once each, and write the dataset when the region is destroyed. -/
def persistentRanks : List (Proc PolicyModel) :=
  startRanks { persistent := true } [
    [demoCreate "a"] ++ demoRun 0 7 4 ++ [.destroy 0 1],
    [demoCreate "a"] ++ demoRun 0 8 2 ++ [.destroy 0 1]]

/-- C97 fails for datasets that persist (`APOLLO_PERSISTENT_DATASETS`): the name of the file
(Region.cpp:417) does not have the rank in it, so that what is left is the dataset of the rank that was last,
and the measurements of the other one are lost.  By itself, each rank leaves its own. -/
theorem C97_fails : ∃ b c t, SharedRun exactMpi ranksEnv 12 persistentRanks b ∧
    SharedRun exactMpi ranksEnv 12 persistentRanks c ∧ Run exactMpi ranksEnv 12 persistentRanks t ∧
    (∀ p ∈ b, p.Finished) ∧ (∀ p ∈ c, p.Finished) ∧ (∀ p ∈ t, p.Finished) ∧
    persisted { persistent := true } b = some [([8], 0, 2)] ∧
    persisted { persistent := true } c = some [([7], 0, 4)] ∧
    persisted { persistent := true } (t.take 1) = some [([7], 0, 4)] ∧
    persisted { persistent := true } (t.drop 1) = some [([8], 0, 2)] := by
  obtain ⟨b, hb, h1, h2⟩ : ∃ s, SharedRun exactMpi ranksEnv 12 persistentRanks s ∧
      (s.all fun p => p.todo.isEmpty && p.wait.isNone) = true ∧
      persisted { persistent := true } s = some [([8], 0, 2)] :=
    driveShared_ok (l := turns [(0, 5), (1, 5), (0, 1), (1, 1)]) (by decide +kernel)
  obtain ⟨c, hc, h3, h4⟩ : ∃ s, SharedRun exactMpi ranksEnv 12 persistentRanks s ∧
      (s.all fun p => p.todo.isEmpty && p.wait.isNone) = true ∧
      persisted { persistent := true } s = some [([7], 0, 4)] :=
    driveShared_ok (l := turns [(0, 5), (1, 5), (1, 1), (0, 1)]) (by decide +kernel)
  obtain ⟨t, ht, h5, h6⟩ : ∃ s, Run exactMpi ranksEnv 12 persistentRanks s ∧
      (s.all fun p => p.todo.isEmpty && p.wait.isNone) = true ∧
      persisted { persistent := true } (s.take 1) = some [([7], 0, 4)] ∧
      persisted { persistent := true } (s.drop 1) = some [([8], 0, 2)] :=
    drive_ok (l := turns [(0, 6), (1, 6)]) (by decide +kernel)
  exact ⟨b, c, t, hb, hc, ht, finished_of_all h1, finished_of_all h3, finished_of_all h5, h2, h4, h6⟩

/-- C97 fails for `apollo_exec_info.csv` (Apollo.cpp:243), which is written when the program ends: here the
first rank has executed a region and says so, and then the second one, which has no regions, leaves an empty
file. -/
theorem C97_fails_info : ∃ w v w' v' : World PolicyModel,
    exec (ranksEnv 0) ([demoCreate "a"] ++ demoRun 0 7 4)
      (initWorld { storeExecInfo := true } fun _ => none) = .ok w ∧
    shutdown (ranksEnv 0) w 1 = .ok v ∧
    w' = initWorld { storeExecInfo := true } v.files ∧ shutdown (ranksEnv 1) w' 1 = .ok v' ∧
    v.files ".apollo/apollo_exec_info.csv".toList = some "a, 1\n".toList ∧
    v'.files ".apollo/apollo_exec_info.csv".toList = some [] := by
  obtain ⟨w, hw, h⟩ : ∃ w, exec (ranksEnv 0) ([demoCreate "a"] ++ demoRun 0 7 4)
      (initWorld { storeExecInfo := true } fun _ => none) = .ok w ∧
      ((shutdown (ranksEnv 0) w 1).toOption.bind fun v =>
        v.files ".apollo/apollo_exec_info.csv".toList) = some "a, 1\n".toList := run_ok (by decide +kernel)
  cases hv : shutdown (ranksEnv 0) w 1 with
  | error e => rw [hv] at h; cases h
  | ok v =>
    rw [hv] at h
    exact ⟨w, v, _, _, hw, hv, rfl, rfl, h, rfl⟩

end Apollo.Props
