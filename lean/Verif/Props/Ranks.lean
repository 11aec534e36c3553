import Verif.Proofs.RanksTrace
import Verif.Props.Region

/-!
# Several ranks: C83, C84, C85, C86

A state is a list of ranks, each with its world, the calls it has still to make, and whether it waits
in a collective training.  `Run mpi env n s s'` is any run of `n` steps, at each of which some rank that
does not wait makes its next call, or all ranks wait and train together.
-/

namespace Apollo.Props

open Apollo Apollo.Collective Apollo.Spec Apollo.Ranks

variable {M : Type}

/-! ## Runs to look at -/

/-- Ranks at the start of a program with collective training and without a global period. -/
def Started (s : List (Proc M)) : Prop :=
  ∀ p ∈ s, p.wait = none ∧ ∃ cfg files, p.world = initWorld cfg files ∧ cfg.collective = true ∧
    cfg.globalPeriod = 0

/-- The run in which the ranks proceed in the given order; `none` is a collective training. -/
def drive (mpi : Mpi) (env : ℕ → Env M) : List (Option ℕ) → List (Proc M) → Res (List (Proc M))
  | [], s => .ok s
  | some i :: l, s =>
    match s[i]? with
    | none => .error .unmodelled
    | some p =>
      if p.wait.isSome then .error .unmodelled else
        match p.todo with
        | [] => .error .unmodelled
        | op :: ops => do
          let x ← call (env i) p.world op
          drive mpi env l (s.set i ⟨x.1, ops, x.2⟩)
  | none :: l, s =>
    if s.isEmpty || s.any (fun p => p.wait.isNone) then .error .unmodelled else do
      let s ← together mpi env s
      drive mpi env l s

theorem drive_run {mpi : Mpi} {env : ℕ → Env M} {l : List (Option ℕ)} {s s' : List (Proc M)}
    (h : drive mpi env l s = .ok s') : Run mpi env l.length s s' := by
  induction l generalizing s with
  | nil => cases h; exact .refl _
  | cons x l ih =>
    cases x with
    | none =>
      simp only [drive] at h
      split at h
      · cases h
      · rename_i hn
        obtain ⟨s₁, h1, h2⟩ := (Res.bind_eq_ok _ _ _).1 h
        simp only [Bool.or_eq_true, List.isEmpty_iff, List.any_eq_true, Option.isNone_iff_eq_none,
          not_or, not_exists, not_and] at hn
        exact .step (.train hn.1 hn.2 h1) (ih h2)
    | some i =>
      simp only [drive] at h
      split at h
      · cases h
      · rename_i p hp
        split at h
        · cases h
        · rename_i hw
          split at h
          · cases h
          · rename_i op ops ht
            obtain ⟨⟨w, k⟩, h1, h2⟩ := (Res.bind_eq_ok _ _ _).1 h
            exact .step (.call hp (by simpa using hw) ht h1) (ih h2)

theorem drive_ok {mpi : Mpi} {env : ℕ → Env M} {P : List (Proc M) → Prop} [DecidablePred P]
    {l : List (Option ℕ)} {s : List (Proc M)}
    (h : (match drive mpi env l s with | .ok w => decide (P w) | .error _ => false) = true) :
    ∃ s', Run mpi env l.length s s' ∧ P s' := by
  cases hd : drive mpi env l s with
  | ok s' => rw [hd] at h; exact ⟨s', drive_run hd, of_decide_eq_true h⟩
  | error e => rw [hd] at h; cases h

/-- The rank of the process and nothing else differs. -/
def ranksEnv (i : ℕ) : Env PolicyModel := { demoEnv with rank := i }

/-- Ranks that start with the given settings and programs. -/
def startRanks (cfg : Cfg) (ps : List (List Op)) : List (Proc PolicyModel) :=
  ps.map fun ops => { world := initWorld cfg fun _ => none, todo := ops }

theorem startRanks_started {cfg : Cfg} (h1 : cfg.collective = true) (h2 : cfg.globalPeriod = 0)
    (ps : List (List Op)) : Started (startRanks cfg ps) := by
  intro p hp
  obtain ⟨ops, _, rfl⟩ := List.mem_map.1 hp
  exact ⟨rfl, cfg, _, rfl, h1, h2⟩

/-- The calls of rank `i`, and so on. -/
def turns (l : List (ℕ × ℕ)) : List (Option ℕ) := l.flatMap fun x => List.replicate x.2 (some x.1)

/-- The policy the model of the first region chooses for a feature. -/
def choice (p : Proc PolicyModel) (x : ℚ) : Option ℤ :=
  (p.world.models 0).bind fun m => ((m.getIndex [x]).toOption).map Prod.fst

/-! ## C83: the speed of the ranks does not matter -/

/-- If some run makes all calls, then every run, whatever the order in which the ranks proceed, can be
continued to the same end, after the same number of steps in all. -/
theorem C83_confluent {mpi : Mpi} {env : ℕ → Env M} {n m : ℕ} {s b c : List (Proc M)}
    (h : Run mpi env n s b) (hb : ∀ p ∈ b, p.Finished) (hc : Run mpi env m s c) :
    m ≤ n ∧ Run mpi env (n - m) c b :=
  h.descent (no_step_of_finished hb) hc

/-- So the end is the same for all runs that make all calls, and a run that cannot be continued has
made them. -/
theorem C83_unique {mpi : Mpi} {env : ℕ → Env M} {n m : ℕ} {s b c : List (Proc M)}
    (h : Run mpi env n s b) (hb : ∀ p ∈ b, p.Finished) (hc : Run mpi env m s c)
    (hs : ∀ x, ¬ Step mpi env c x) : c = b ∧ m = n := by
  obtain ⟨h1, h2⟩ := C83_confluent h hb hc
  generalize hk : n - m = k at h2
  cases h2 with
  | refl => exact ⟨rfl, by omega⟩
  | step h3 _ => exact absurd h3 (hs _)

/-- Runs that cannot be continued end alike also if not all calls are made: a failure or a rank that
waits forever does not depend on the order either. -/
theorem C83_stuck {mpi : Mpi} {env : ℕ → Env M} {n m : ℕ} {s b c : List (Proc M)}
    (h : Run mpi env n s b) (hb : ∀ x, ¬ Step mpi env b x) (hc : Run mpi env m s c) :
    m ≤ n ∧ Run mpi env (n - m) c b ∧ ((∀ x, ¬ Step mpi env c x) → c = b) := by
  obtain ⟨h1, h2⟩ := h.descent hb hc
  refine ⟨h1, h2, fun hs => ?_⟩
  generalize hk : n - m = k at h2
  cases h2 with
  | refl => rfl
  | step h3 _ => exact absurd h3 (hs _)

/-- Two ranks with one region, measured twice on the first and once on the second. -/
def twoRanks : List (Proc PolicyModel) :=
  startRanks { collective := true } [
    [demoCreate "a"] ++ demoRun 0 7 4 ++ demoRun 0 7 3 ++ [.trainAll 0 false],
    [demoCreate "a"] ++ demoRun 0 7 2 ++ [.trainAll 0 false]]

example : ∃ b, Run exactMpi ranksEnv 17 twoRanks b ∧ (∀ p ∈ b, p.Finished) ∧
    (∃ c, Run exactMpi ranksEnv 6 twoRanks c ∧ Run exactMpi ranksEnv 11 c b) := by
  obtain ⟨b, hb, h⟩ : ∃ b, Run exactMpi ranksEnv 17 twoRanks b ∧
      (b.all fun p => p.todo.isEmpty && p.wait.isNone) = true :=
    drive_ok (l := turns [(0, 10), (1, 6)] ++ [none]) (by decide +kernel)
  obtain ⟨c, hc, -⟩ : ∃ c, Run exactMpi ranksEnv 6 twoRanks c ∧ c.length = 2 :=
    drive_ok (l := turns [(1, 3), (0, 1), (1, 2)]) (by decide +kernel)
  have hf : ∀ p ∈ b, p.Finished := by
    intro p hp
    have := List.all_eq_true.1 h p hp
    simp only [Bool.and_eq_true, List.isEmpty_iff, Option.isNone_iff_eq_none] at this
    exact this
  exact ⟨b, hb, hf, c, hc, (C83_confluent hb hf hc).2⟩

/-- With local training the ranks are processes by themselves: a call is what it is for one. -/
theorem C83_local (env : Env M) (w : World M) (op : Op) (h : w.cfg.collective = false) :
    call env w op = (step env w op).map fun x => (x.2, none) := by
  rw [call_eq_step env w op (.inl h)]
  cases step env w op <;> rfl

/-! ## C85: no rank waits forever -/

/-- The collective trainings a rank has yet to take part in, without a global period. -/
def left (p : Proc M) : ℕ := trainings p.todo + if p.wait.isSome then 1 else 0

theorem trainings_cons {op : Op} (h : ∀ s c, op ≠ .trainAll s c) (ops : List Op) :
    trainings (op :: ops) = trainings ops := by
  cases op <;> first | rfl | exact absurd rfl (h _ _)

theorem Started.sound {s : List (Proc M)} (h : Started s) :
    ∀ p ∈ s, Sound (fun w => LogInv w ∧ RegInv w) p := by
  intro p hp
  obtain ⟨hw, cfg, files, e, h1, h2⟩ := h p hp
  refine ⟨?_, ?_, by rw [hw]; simp⟩
  · rw [e]; exact ⟨h1, h2⟩
  · rw [e]; exact ⟨logInv_init cfg files, regInv_init cfg files⟩

theorem reachable_sound {mpi : Mpi} {env : ℕ → Env M} {n : ℕ} {s₀ s : List (Proc M)}
    (h0 : Started s₀) (h : Run mpi env n s₀ s) : ∀ p ∈ s, Sound (fun w => LogInv w ∧ RegInv w) p :=
  Sound.run (fun i => regInv_rankwise (env i)) h0.sound h

/-- Every step takes the ranks equally far. -/
theorem left_step {mpi : Mpi} {env : ℕ → Env M} {s s' : List (Proc M)}
    (hs : ∀ p ∈ s, Sound (fun w => LogInv w ∧ RegInv w) p) (h : Step mpi env s s') :
    s'.length = s.length ∧ ∃ k, ∀ (j : ℕ) p p', s[j]? = some p → s'[j]? = some p' →
      left p = left p' + k := by
  cases h with
  | @call i p op ops w k hi hw ht hc =>
    refine ⟨by simp, 0, ?_⟩
    intro j q q' hq hq'
    by_cases hij : i = j
    · subst hij
      rw [hi] at hq
      cases hq
      have hlt := (List.getElem?_eq_some_iff.1 hi).1
      rw [List.getElem?_set_self hlt] at hq'
      cases hq'
      unfold left
      rcases call_cases (hs p (List.mem_of_getElem? hi)).explicit hc with
        ⟨st, c, rfl, rfl, rfl⟩ | ⟨hn, rfl, _⟩
      · simp [hw, ht, trainings]
      · simp [hw, ht, trainings_cons hn]
    · rw [List.getElem?_set_ne hij, hq] at hq'
      cases hq'
      rfl
  | train h0 hall ht =>
    obtain ⟨vs, ms, _, _, _, hl, hg⟩ := together_get ht
    refine ⟨hl, 1, ?_⟩
    intro j p p' hp hp'
    obtain ⟨v, p'', _, b, _, hpr⟩ := hg j p hp
    rw [hp'] at b
    cases b
    have hsp := hs p (List.mem_of_getElem? hp)
    have hw := hall p (List.mem_of_getElem? hp)
    obtain ⟨_, h2, h3⟩ := proceed_kept (regInv_rankwise (env j)).toKept (regInv_rankwise (env j)).filled
      hsp.holds.2.nodup hsp.holds hsp.wait hpr
    unfold left
    rw [h2, h3]
    cases hk : p.wait with
    | none => exact absurd hk hw
    | some k => simp

theorem left_run {mpi : Mpi} {env : ℕ → Env M} {n : ℕ} {s s' : List (Proc M)}
    (hs : ∀ p ∈ s, Sound (fun w => LogInv w ∧ RegInv w) p) (h : Run mpi env n s s') :
    s'.length = s.length ∧ ∃ k, ∀ (j : ℕ) p p', s[j]? = some p → s'[j]? = some p' →
      left p = left p' + k := by
  induction h with
  | refl => exact ⟨rfl, 0, fun j p p' h h' => by rw [h] at h'; cases h'; rfl⟩
  | @step n s₁ s₂ s₃ h1 h2 ih =>
    obtain ⟨l1, k1, e1⟩ := left_step hs h1
    obtain ⟨l2, k2, e2⟩ := ih (Sound.step (fun i => regInv_rankwise (env i)) hs h1)
    refine ⟨l2.trans l1, k2 + k1, ?_⟩
    intro j p p' hp hp'
    have hlt : j < s₂.length := by rw [l1]; exact (List.getElem?_eq_some_iff.1 hp).1
    rw [e1 j p s₂[j] hp (List.getElem?_eq_getElem hlt), e2 j s₂[j] p' (List.getElem?_eq_getElem hlt) hp']
    omega

/-- C85 without a global period: if all ranks call `Apollo::train` equally often, then no rank waits for
ranks that do not come; a run ends because all calls are made, or because a call fails.
Full statement: also with a global training period.  Missing: that is false (`C85_fails`). -/
theorem C85_partial {mpi : Mpi} {env : ℕ → Env M} {n k : ℕ} {s₀ s : List (Proc M)} (h0 : Started s₀)
    (hk : ∀ p ∈ s₀, trainings p.todo = k) (h : Run mpi env n s₀ s) (hs : ∀ x, ¬ Step mpi env s x) :
    (∀ p ∈ s, p.Finished) ∨
    (∃ (i : ℕ) (p : Proc M) (op : Op) (ops : List Op) (e : Err), s[i]? = some p ∧ p.wait = none ∧
      p.todo = op :: ops ∧ step (env i) p.world op = .error e) ∨
    ((∀ p ∈ s, p.wait ≠ none) ∧ ∃ e, together mpi env s = .error e) := by
  rcases stuck_cases hs with hf | ⟨i, p, op, ops, e, hi, hw, ht, hc⟩ | hf | ⟨_, ⟨p, hp, hpw⟩, q, hq, hqf⟩
  · exact .inl hf
  · refine .inr (.inl ⟨i, p, op, ops, e, hi, hw, ht, ?_⟩)
    have hsp := reachable_sound h0 h p (List.mem_of_getElem? hi)
    have hn : ∀ st c, op ≠ .trainAll st c := by
      rintro st c rfl
      simp only [call, hsp.explicit.1, if_true] at hc
      cases hc
    rw [call_eq_step _ _ _ (.inr ⟨hsp.explicit.2, hn⟩)] at hc
    cases hx : step (env i) p.world op with
    | error e' => rw [hx] at hc; cases hc; rfl
    | ok x => rw [hx] at hc; cases hc
  · exact .inr (.inr hf)
  · exfalso
    obtain ⟨hl, k', hleft⟩ := left_run h0.sound h
    obtain ⟨i, hi⟩ := List.mem_iff_getElem?.1 hp
    obtain ⟨j, hj⟩ := List.mem_iff_getElem?.1 hq
    have hlt : i < s₀.length := by rw [← hl]; exact (List.getElem?_eq_some_iff.1 hi).1
    have hlt' : j < s₀.length := by rw [← hl]; exact (List.getElem?_eq_some_iff.1 hj).1
    have e1 := hleft i s₀[i] p (List.getElem?_eq_getElem hlt) hi
    have e2 := hleft j s₀[j] q (List.getElem?_eq_getElem hlt') hj
    have hz : ∀ x ∈ s₀, left x = k := by
      intro x hx
      unfold left
      rw [hk x hx, (h0 x hx).1]
      rfl
    rw [hz _ (List.getElem_mem hlt)] at e1
    rw [hz _ (List.getElem_mem hlt')] at e2
    have h3 : left q = 0 := by
      unfold left
      rw [hqf.1, hqf.2]
      rfl
    have h4 : 1 ≤ left p := by
      unfold left
      cases hx : p.wait with
      | none => exact absurd hx hpw
      | some _ => simp
    omega

example : Started twoRanks ∧ (∀ p ∈ twoRanks, trainings p.todo = 1) ∧
    ∃ s, Run exactMpi ranksEnv 17 twoRanks s ∧ (∀ x, ¬ Step exactMpi ranksEnv s x) ∧
      s.map (fun p => p.world.executions) = [2, 1] := by
  refine ⟨startRanks_started rfl rfl _, by simp [twoRanks, startRanks, trainings, demoRun, demoCreate], ?_⟩
  obtain ⟨b, hb, h, h'⟩ : ∃ b, Run exactMpi ranksEnv 17 twoRanks b ∧
      ((b.all fun p => p.todo.isEmpty && p.wait.isNone) = true ∧
        b.map (fun p => p.world.executions) = [2, 1]) :=
    drive_ok (l := turns [(1, 6), (0, 10)] ++ [none]) (by decide +kernel)
  refine ⟨b, hb, no_step_of_finished fun p hp => ?_, h'⟩
  have := List.all_eq_true.1 h p hp
  simp only [Bool.and_eq_true, List.isEmpty_iff, Option.isNone_iff_eq_none] at this
  exact this

/-- C85 is false with a global training period: two ranks with the same settings, of which one executes
the region twice and the other once, and a collective training due at every second execution.  However
they proceed, the first waits forever. -/
theorem C85_fails : ∃ (s₀ : List (Proc PolicyModel)) (n : ℕ) (s : List (Proc PolicyModel)),
    (∀ p ∈ s₀, p.wait = none ∧
      p.world = initWorld { collective := true, globalPeriod := 2 } fun _ => none) ∧
    (∀ p ∈ s₀, trainings p.todo = 0) ∧
    Run exactMpi ranksEnv n s₀ s ∧ (∀ x, ¬ Step exactMpi ranksEnv s x) ∧
    (∃ p ∈ s, p.wait ≠ none) ∧ (∃ p ∈ s, p.Finished) ∧
    ∀ m c, Run exactMpi ranksEnv m s₀ c → (∀ x, ¬ Step exactMpi ranksEnv c x) → c = s := by
  let s₀ := startRanks { collective := true, globalPeriod := 2 }
    [[demoCreate "a"] ++ demoRun 0 7 4 ++ demoRun 0 7 3, [demoCreate "a"] ++ demoRun 0 7 2]
  obtain ⟨s, hs, h⟩ : ∃ s, Run exactMpi ranksEnv 14 s₀ s ∧
      s.map (fun p => (p.todo.isEmpty, p.wait.isSome)) = [(true, true), (true, false)] :=
    drive_ok (l := turns [(0, 9), (1, 5)]) (by decide +kernel)
  have hl : s.length = 2 := by simpa using congrArg List.length h
  obtain ⟨p, q, rfl⟩ := List.length_eq_two.1 hl
  simp only [List.map_cons, List.map_nil, List.cons.injEq, Prod.mk.injEq, List.isEmpty_iff,
    and_true, Option.isSome_iff_ne_none, Option.isSome_eq_false_iff, Option.isNone_iff_eq_none] at h
  obtain ⟨⟨h1, h2⟩, h3, h4⟩ := h
  have hstuck : ∀ x, ¬ Step exactMpi ranksEnv [p, q] x := by
    intro x hx
    cases hx with
    | @call i r op ops w k hi hw ht hc =>
      have := List.mem_of_getElem? hi
      simp only [List.mem_cons, List.not_mem_nil, or_false] at this
      rcases this with rfl | rfl
      · rw [h1] at ht; cases ht
      · rw [h3] at ht; cases ht
    | train h0 hall ht => exact hall q (by simp) h4
  refine ⟨s₀, 14, [p, q], ?_, ?_, hs, hstuck, ⟨p, by simp, h2⟩, ⟨q, by simp, h3, h4⟩, ?_⟩
  · simp [s₀, startRanks]
  · simp [s₀, startRanks, trainings, demoRun, demoCreate]
  · intro m c hc hst
    exact (C83_stuck hs hstuck hc).2.2 hst

/-- The condition is necessary: if a run makes all calls, the ranks called `Apollo::train` equally
often. -/
theorem C85_equal {mpi : Mpi} {env : ℕ → Env M} {n : ℕ} {s₀ s : List (Proc M)} (h0 : Started s₀)
    (h : Run mpi env n s₀ s) (hf : ∀ p ∈ s, p.Finished) :
    ∃ k, ∀ p ∈ s₀, trainings p.todo = k := by
  obtain ⟨hl, k, hleft⟩ := left_run h0.sound h
  refine ⟨k, fun p hp => ?_⟩
  obtain ⟨i, hi⟩ := List.mem_iff_getElem?.1 hp
  have hlt : i < s.length := by rw [hl]; exact (List.getElem?_eq_some_iff.1 hi).1
  have e1 := hleft i p s[i] hi (List.getElem?_eq_getElem hlt)
  have hq := hf _ (List.getElem_mem hlt)
  unfold left at e1
  rw [hq.1, hq.2, (h0 p hp).1] at e1
  simpa [trainings] using e1

/-- Why a run cannot be continued, with or without a global period: all calls are made, a call or the
collective training fails, or ranks wait for others that are done. -/
theorem C85_reasons {mpi : Mpi} {env : ℕ → Env M} {s : List (Proc M)}
    (h : ∀ x, ¬ Step mpi env s x) :
    (∀ p ∈ s, p.Finished) ∨
    (∃ (i : ℕ) (p : Proc M) (op : Op) (ops : List Op) (e : Err), s[i]? = some p ∧ p.wait = none ∧
      p.todo = op :: ops ∧ call (env i) p.world op = .error e) ∨
    ((∀ p ∈ s, p.wait ≠ none) ∧ ∃ e, together mpi env s = .error e) ∨
    ((∀ p ∈ s, p.wait ≠ none ∨ p.Finished) ∧ (∃ p ∈ s, p.wait ≠ none) ∧ ∃ p ∈ s, p.Finished) :=
  stuck_cases h

/-! ## C84: the same policies on all ranks -/

/-- C84: after a collective training, two ranks hold the same for every pair of features and policy of a
region they both have, if at most two ranks held a metric for it before.
Full statement: for any number of ranks.  Missing: that is false (`C50_fails`, `C84_fails`). -/
theorem C84_data_partial {env : ℕ → Env M} {k : ℕ} {s₀ s s' : List (Proc M)} (h0 : Started s₀)
    (hr : Run exactMpi env k s₀ s) (hfit : ∀ p ∈ s, Fit p.world) (hall : ∀ p ∈ s, p.wait ≠ none)
    (hlen : s.length ≤ 2 ^ 31) (h : together exactMpi env s = .ok s') {i j : ℕ} {p q p' q' : Proc M}
    (hp : s[i]? = some p) (hq : s[j]? = some q) (hp' : s'[i]? = some p') (hq' : s'[j]? = some q')
    (h1 : p.world.cfg.single = false) (h2 : q.world.cfg.single = false) (h3 : Quiet p) (h4 : Quiet q)
    {n : Str} {a b : ℕ} (ha : (n, a) ∈ p.world.registry) (hb : (n, b) ∈ q.world.registry)
    (f : Features) (x : ℤ) (hx : (s.filterMap fun r => holds r.world n f x).length ≤ 2) :
    holds p'.world n f x = holds q'.world n f x := by
  have hs := reachable_sound h0 hr
  obtain ⟨vs, vs', hg, hl, hw, hmet, hget, hall'⟩ := together_region hs hfit hall hlen h
  obtain ⟨v, v', p₁, b1, b2, b3, b4, b5⟩ := hall' i p hp
  obtain ⟨u, u', q₁, c1, c2, c3, c4, c5⟩ := hall' j q hq
  rw [hp'] at b3
  cases b3
  rw [hq'] at c3
  cases c3
  obtain ⟨L, hL, hLs, hA⟩ := b5 h1 h3 n a ha
  obtain ⟨K, hK, hKs, hB⟩ := c5 h2 h4 n b hb
  have sorted := fun (r : Proc M) (hr : r ∈ s) => (hs r hr).holds.2.sorted
  have key : ∀ (p p' : Proc M) (a : ℕ) (L : LReg) (e : Env M), OMap.Sorted p.world.registry →
      (n, a) ∈ p.world.registry → After e L.dataset p p' a →
      holds p'.world n f x = OMap.find L.dataset (mkKey f x) := by
    intro p p' a L e hso ha hA
    obtain ⟨R, hR, hR'⟩ := hA.region
    unfold holds
    rw [hA.registry, (hso.find_eq_some_iff n a).2 ha, Option.bind_some, hR', Option.bind_some]
  rw [key p p' a L _ (sorted p (List.mem_of_getElem? hp)) ha hA,
    key q q' b K _ (sorted q (List.mem_of_getElem? hq)) hb hB]
  have hri : hasRegion v n := by
    unfold hasRegion
    obtain ⟨R, hR, _⟩ := hA.region
    rw [(viewOf_find b4).2, ((sorted p (List.mem_of_getElem? hp)).find_eq_some_iff n a).2 ha,
      Option.bind_some, hR]
    rfl
  have hrj : hasRegion u n := by
    unfold hasRegion
    obtain ⟨R, hR, _⟩ := hB.region
    rw [(viewOf_find c4).2, ((sorted q (List.mem_of_getElem? hq)).find_eq_some_iff n b).2 hb,
      Option.bind_some, hR]
    rfl
  have := C50_metric_partial hw hl hg b1 b2 c1 c2 hri hrj f x (by rw [hmet]; exact hx)
  unfold metricOn at this
  rwa [hL, hK, Option.bind_some, Option.bind_some] at this

/-- C84: and their models then choose the same policy for all features, if they were to be trained and
differed at most in what they explored, some rank has measured the region, every pair was measured on at
most two ranks, and the ranks agree on the number of features.
Full statement: for any number of ranks, and with contexts still pending.  Missing: both are false
(`C84_fails`, `C84_fails_pending`). -/
theorem C84_partial {env : ℕ → Env PolicyModel} {gen : ℕ → ℕ → ℕ → ℕ} {tenv : ℕ → ℕ → TrainEnv}
    {draws : ℕ → ℕ} (he : ∀ i, (env i).ops = policyOps (gen i) (tenv i))
    (hσ : ∀ i t, SortSpec (tenv i t).sort) (hd : ∀ i t, (tenv i t).draws = draws)
    {k : ℕ} {s₀ s s' : List (Proc PolicyModel)} (h0 : Started s₀)
    (hr : Run exactMpi env k s₀ s) (hfit : ∀ p ∈ s, Fit p.world) (hall : ∀ p ∈ s, p.wait ≠ none)
    (hlen : s.length ≤ 2 ^ 31) (h : together exactMpi env s = .ok s') {i j : ℕ}
    {p q p' q' : Proc PolicyModel}
    (hp : s[i]? = some p) (hq : s[j]? = some q) (hp' : s'[i]? = some p') (hq' : s'[j]? = some q')
    (h1 : p.world.cfg.single = false) (h2 : q.world.cfg.single = false) (h3 : Quiet p) (h4 : Quiet q)
    {n : Str} {a b : ℕ} (ha : (n, a) ∈ p.world.registry) (hb : (n, b) ∈ q.world.registry)
    {m m' : PolicyModel} (hm : p.world.models a = some m) (hm' : q.world.models b = some m')
    (halike : Alike m m')
    (hmeas : ∃ r ∈ s, ∃ f x, (holds r.world n f x).isSome)
    (htwo : ∀ f x, (s.filterMap fun r => holds r.world n f x).length ≤ 2)
    {nf : ℕ} (hnf : ∀ r ∈ s, ∀ f x, (holds r.world n f x).isSome → f.length = nf) :
    ∃ m₁ m₁', p'.world.models a = some m₁ ∧ q'.world.models b = some m₁' ∧
      m₁.isTrainable = false ∧ m₁'.isTrainable = false ∧
      ∀ f, (m₁.getIndex f).map Prod.fst = (m₁'.getIndex f).map Prod.fst := by
  have hs := reachable_sound h0 hr
  obtain ⟨vs, vs', hg, hl, hw, hmet, hget, hall'⟩ := together_region hs hfit hall hlen h
  obtain ⟨v, v', p₁, b1, b2, b3, b4, b5⟩ := hall' i p hp
  obtain ⟨u, u', q₁, c1, c2, c3, c4, c5⟩ := hall' j q hq
  rw [hp'] at b3
  cases b3
  rw [hq'] at c3
  cases c3
  obtain ⟨L, hL, hLs, hA⟩ := b5 h1 h3 n a ha
  obtain ⟨K, hK, hKs, hB⟩ := c5 h2 h4 n b hb
  have hLK : L.dataset = K.dataset := C50_partial hw hl hg b2 c2 hL hK fun f x => by
    rw [hmet]; exact htwo f x
  have hri : hasRegion v n := by
    unfold hasRegion
    obtain ⟨R, hR, _⟩ := hA.region
    rw [(viewOf_find b4).2, ((hs p (List.mem_of_getElem? hp)).holds.2.sorted.find_eq_some_iff n a).2 ha,
      Option.bind_some, hR]
    rfl
  have hunion := fun f x => C49_union hw hl hg b1 b2 hri f x
  have hsize : L.dataset.size ≠ 0 := by
    obtain ⟨r, hr, f, x, hx⟩ := hmeas
    have : (metricOn v' n f x).isSome := by
      rw [hunion]
      obtain ⟨jr, hjr⟩ := List.mem_iff_getElem?.1 hr
      obtain ⟨vr, _, _, d1, _, _, d4, _⟩ := hall' jr r hjr
      exact ⟨vr, List.mem_of_getElem? d1, by rw [holds_view d4]; exact hx⟩
    unfold metricOn at this
    rw [hL, Option.bind_some] at this
    intro hz
    have hnil : L.dataset = [] := List.length_eq_zero_iff.1 hz
    rw [hnil] at this
    cases this
  have hkeys : ∀ f x y, OMap.find L.dataset (mkKey f x) = some y → f.length = nf := by
    intro f x y hy
    have : (metricOn v' n f x).isSome := by
      unfold metricOn
      rw [hL, Option.bind_some, hy]
      rfl
    rw [hunion] at this
    obtain ⟨vr, hvr, hx⟩ := this
    obtain ⟨r, hr, e⟩ := hget vr hvr
    rw [holds_view e] at hx
    exact hnf r hr f x hx
  obtain ⟨m₁, e1, e2⟩ := hA.model m hm
  obtain ⟨m₁', e3, e4⟩ := hB.model m' hm'
  rw [he] at e2 e4
  have t1 : (policyOps (gen i) (tenv i)).isTrainable m = true := halike.trainable
  have t2 : (policyOps (gen j) (tenv j)).isTrainable m' = true := halike.symm.trainable
  have f1 : ∃ t, m.train (tenv i t) L.dataset = .ok m₁ := by
    rcases e2 with ⟨hx | hx, _⟩ | ⟨_, _, t, hx⟩
    · rw [t1] at hx; cases hx
    · exact absurd hx hsize
    · exact ⟨t, hx⟩
  have f2 : ∃ t, m'.train (tenv j t) K.dataset = .ok m₁' := by
    rcases e4 with ⟨hx | hx, _⟩ | ⟨_, _, t, hx⟩
    · rw [t2] at hx; cases hx
    · rw [← hLK] at hx; exact absurd hx hsize
    · exact ⟨t, hx⟩
  obtain ⟨t, f1⟩ := f1
  obtain ⟨t', f2⟩ := f2
  rw [← hLK] at f2
  exact ⟨m₁, m₁', e1, e3, alike_train (hσ i t) (hσ j t') (by rw [hd, hd]) halike hLs hkeys f1 f2⟩

/-- A rank with one region of one feature, measured for feature 7. -/
structure OneRegion (p : Proc PolicyModel) (n : Str) (ds : List (ℤ × ℚ)) : Prop where
  registry : p.world.registry = [(n, 0)]
  region : ∃ R, p.world.regions 0 = some R ∧ R.numFeatures = 1 ∧ R.pending = [] ∧
    R.dataset = ds.map fun x => (mkKey [7] x.1, x.2)

theorem OneRegion.holds {p : Proc PolicyModel} {n : Str} {ds : List (ℤ × ℚ)} (h : OneRegion p n ds)
    {f : Features} {x : ℤ} {m : ℚ} (hm : holds p.world n f x = some m) :
    f = [7] ∧ (x, m) ∈ ds := by
  obtain ⟨R, h1, h2, h3, h4⟩ := h.region
  have hf : OMap.find p.world.registry n = some 0 := by simp [h.registry, OMap.find]
  unfold Spec.holds at hm
  rw [hf, Option.bind_some, h1, Option.bind_some] at hm
  have hmem := OMap.mem_of_find_eq_some hm
  rw [h4] at hmem
  obtain ⟨y, hy, e⟩ := List.mem_map.1 hmem
  simp only [mkKey, Prod.mk.injEq, toLex_inj] at e
  obtain ⟨⟨rfl, rfl⟩, rfl⟩ := e
  exact ⟨rfl, hy⟩

theorem OneRegion.fit {p : Proc PolicyModel} {n : Str} {ds : List (ℤ × ℚ)} (h : OneRegion p n ds)
    (hn : n.length ≤ 63 ∧ nul ∉ n) (hs : OMap.Sorted (ds.map fun x => (mkKey [7] x.1, x.2)))
    (hd : ∀ x ∈ ds, (-2 ^ 31 ≤ x.1 ∧ x.1 < 2 ^ 31) ∧ fmt64.Finite x.2) (h7 : fmt32.Finite 7) :
    Fit p.world := by
  obtain ⟨R, h1, h2, h3, h4⟩ := h.region
  have key : ∀ {n' r}, (n', r) ∈ p.world.registry → n' = n ∧ r = 0 := by
    intro n' r hm
    rw [h.registry] at hm
    simpa using hm
  refine ⟨?_, ?_, ?_, ?_⟩
  · intro n' r R' hm hR
    obtain ⟨rfl, rfl⟩ := key hm
    rw [h1] at hR
    cases hR
    rw [h4]
    exact hs
  · intro n' r hm
    obtain ⟨rfl, rfl⟩ := key hm
    exact hn
  · intro n' r R' hm hR
    obtain ⟨rfl, rfl⟩ := key hm
    rw [h1] at hR
    cases hR
    rw [h2]
    norm_num
  · intro n' r R' f x m hm hR hx
    obtain ⟨rfl, rfl⟩ := key hm
    have : Spec.holds p.world n' f x = some m := by
      have hf : OMap.find p.world.registry n' = some 0 := by simp [h.registry, OMap.find]
      unfold Spec.holds
      rw [hf, Option.bind_some, hR, Option.bind_some, hx]
    obtain ⟨rfl, hmem⟩ := h.holds this
    rw [h1] at hR
    cases hR
    rw [h2]
    exact ⟨rfl, by simpa using h7, hd _ hmem⟩

/-- What is looked at. -/
structure Facts where
  registry : List (List Char × ℕ)
  numFeatures : Option ℤ
  pending : Option Bool
  data : Option (List (List ℚ × ℤ × ℚ))
  untrained : Bool
  waits : Bool
  deriving DecidableEq

def facts (p : Proc PolicyModel) : Facts where
  registry := p.world.registry
  numFeatures := (p.world.regions 0).map (·.numFeatures)
  pending := (p.world.regions 0).map (·.pending.isEmpty)
  data := (p.world.regions 0).map fun R =>
    R.dataset.map fun e => ((ofLex e.1).1, (ofLex e.1).2, e.2)
  untrained := match p.world.models 0 with
    | some (.tree 2 true _ t) => decide (t = TreeImpl.new 2 2)
    | _ => false
  waits := match p.wait with | some (.train 0 false) => !p.world.cfg.single | _ => false

/-- The facts about a rank with one region of one feature, measured for feature 7. -/
def oneFacts (ds : List (ℤ × ℚ)) : Facts :=
  ⟨[(['a'], 0)], some 1, some true, some (ds.map fun x => ([7], x.1, x.2)), true, true⟩

theorem facts_region {p : Proc PolicyModel} {ds : List (ℤ × ℚ)} (h : facts p = oneFacts ds) :
    OneRegion p ['a'] ds := by
  unfold facts oneFacts at h
  simp only [Facts.mk.injEq] at h
  obtain ⟨h1, h3, h4, h5, _⟩ := h
  cases h2 : p.world.regions 0 with
  | none => rw [h2] at h3; cases h3
  | some R =>
    rw [h2] at h3 h4 h5
    refine ⟨h1, R, h2, Option.some.inj h3, List.isEmpty_iff.1 (Option.some.inj h4), ?_⟩
    have := congrArg (List.map fun e : List ℚ × ℤ × ℚ => (mkKey e.1 e.2.1, e.2.2)) (Option.some.inj h5)
    simpa [Function.comp_def, mkKey] using this

theorem facts_model {p : Proc PolicyModel} {ds : List (ℤ × ℚ)} (h : facts p = oneFacts ds) :
    (∃ e, p.world.models 0 = some (.tree 2 true e (TreeImpl.new 2 2))) ∧
      p.wait = some (.train 0 false) ∧ p.world.cfg.single = false := by
  unfold facts oneFacts at h
  simp only [Facts.mk.injEq] at h
  obtain ⟨_, _, _, _, h3, h4⟩ := h
  constructor
  · revert h3
    split
    · rename_i e t hm
      intro h
      rw [hm, of_decide_eq_true h]
      exact ⟨e, rfl⟩
    · intro h; cases h
  · revert h4
    split
    · rename_i hw
      intro h
      exact ⟨hw, by simpa using h⟩
    · intro h; cases h

/-- The two ranks when both wait. -/
theorem twoRanks_wait : ∃ p q, Run exactMpi ranksEnv 16 twoRanks [p, q] ∧
    OneRegion p ['a'] [(0, 4), (1, 3)] ∧ OneRegion q ['a'] [(0, 2)] ∧
    (∀ r ∈ [p, q], r.wait = some (.train 0 false) ∧ r.world.cfg.single = false) ∧
    (∃ m m', p.world.models 0 = some m ∧ q.world.models 0 = some m' ∧ Alike m m') ∧
    ∃ p' q', together exactMpi ranksEnv [p, q] = .ok [p', q'] ∧ choice p' 7 = some 0 ∧
      choice q' 7 = some 0 := by
  obtain ⟨s, hs, h1, h2⟩ : ∃ s, Run exactMpi ranksEnv 16 twoRanks s ∧
      (s.map facts = [oneFacts [(0, 4), (1, 3)], oneFacts [(0, 2)]] ∧
      ((together exactMpi ranksEnv s).toOption.map fun s' => s'.map (choice · 7)) = some [some 0, some 0]) :=
    drive_ok (l := turns [(0, 10), (1, 6)]) (by decide +kernel)
  have hl : s.length = 2 := by simpa using congrArg List.length h1
  obtain ⟨p, q, rfl⟩ := List.length_eq_two.1 hl
  obtain ⟨h3, h4⟩ := List.cons.inj h1
  obtain ⟨h4, _⟩ := List.cons.inj h4
  obtain ⟨⟨e, k1⟩, k2⟩ := facts_model h3
  obtain ⟨⟨e', k1'⟩, k2'⟩ := facts_model h4
  refine ⟨p, q, hs, facts_region h3, facts_region h4, by simpa using ⟨k2, k2'⟩,
    ⟨_, _, k1, k1', .tree 2 e e' _ (.new 2 2)⟩, ?_⟩
  cases ht : together exactMpi ranksEnv [p, q] with
  | error e => rw [ht] at h2; cases h2
  | ok s' =>
    rw [ht] at h2
    have h2 : s'.map (choice · 7) = [some 0, some 0] := Option.some.inj h2
    have hl : s'.length = 2 := by simpa using congrArg List.length h2
    obtain ⟨p', q', rfl⟩ := List.length_eq_two.1 hl
    obtain ⟨h5, h6⟩ := List.cons.inj h2
    obtain ⟨h6, _⟩ := List.cons.inj h6
    exact ⟨p', q', rfl, h5, h6⟩

theorem twoRanks_fit {p q : Proc PolicyModel} (h1 : OneRegion p ['a'] [(0, 4), (1, 3)])
    (h2 : OneRegion q ['a'] [(0, 2)]) : ∀ r ∈ [p, q], Fit r.world := by
  have h7 : fmt32.Finite 7 := finite32_nat (n := 7) (by norm_num)
  have f2 : fmt64.Finite 2 := finite64_nat (n := 2) (by norm_num)
  have f3 : fmt64.Finite 3 := finite64_nat (n := 3) (by norm_num)
  have f4 : fmt64.Finite 4 := finite64_nat (n := 4) (by norm_num)
  intro r hr
  simp only [List.mem_cons, List.not_mem_nil, or_false] at hr
  rcases hr with rfl | rfl
  · exact h1.fit (by decide) (by unfold OMap.Sorted; decide +kernel) (by simp [f3, f4]) h7
  · exact h2.fit (by decide) (by unfold OMap.Sorted; decide +kernel) (by simp [f2]) h7

example : ∃ p q p' q', Started twoRanks ∧ Run exactMpi ranksEnv 16 twoRanks [p, q] ∧
    (∀ r ∈ [p, q], Fit r.world) ∧ (∀ r ∈ [p, q], r.wait ≠ none) ∧
    together exactMpi ranksEnv [p, q] = .ok [p', q'] ∧ Quiet p ∧ Quiet q ∧
    (['a'], 0) ∈ p.world.registry ∧ (['a'], 0) ∈ q.world.registry ∧
    (∃ m m', p.world.models 0 = some m ∧ q.world.models 0 = some m' ∧ Alike m m') ∧
    (∃ r ∈ [p, q], ∃ f x, (holds r.world ['a'] f x).isSome) ∧
    (∀ f x, ([p, q].filterMap fun r => holds r.world ['a'] f x).length ≤ 2) ∧
    (∀ r ∈ [p, q], ∀ f x, (holds r.world ['a'] f x).isSome → f.length = 1) ∧
    choice p' 7 = some 0 ∧ choice q' 7 = some 0 := by
  obtain ⟨p, q, h1, h2, h3, h4, h5, p', q', h6, h7, h8⟩ := twoRanks_wait
  refine ⟨p, q, p', q', startRanks_started rfl rfl _, h1, twoRanks_fit h2 h3, ?_, h6, ?_, ?_,
    by simp [h2.registry], by simp [h3.registry], h5, ⟨p, by simp, [7], 0, ?_⟩, ?_, ?_, h7, h8⟩
  · intro r hr; rw [(h4 r hr).1]; simp
  · exact .inl ⟨0, (h4 p (by simp)).1⟩
  · exact .inl ⟨0, (h4 q (by simp)).1⟩
  · obtain ⟨R, k1, -, -, k4⟩ := h2.region
    simp [holds, h2.registry, OMap.find, k1, k4]
  · intro f x
    exact (List.length_filterMap_le _ _).trans (by simp)
  · intro r hr f x hx
    obtain ⟨m, hm⟩ := Option.isSome_iff_exists.1 hx
    simp only [List.mem_cons, List.not_mem_nil, or_false] at hr
    rcases hr with rfl | rfl
    · rw [(h2.holds hm).1]; rfl
    · rw [(h3.holds hm).1]; rfl

/-- With local training, what follows the gathering is the whole training. -/
theorem C84_local (env : Env M) (w : World M) (st : ℤ) (c : Bool) (h : w.cfg.collective = false) :
    apolloTrain env w st c = resume env w (.train st c) := by
  unfold apolloTrain apolloTrainWith
  rw [h]
  rfl

/-- C84: a rank by itself receives nothing new: its collective training is what local training is
(`C84_local`). -/
theorem C84_alone {env : ℕ → Env M} {k : ℕ} {s₀ : List (Proc M)} {p : Proc M} {s' : List (Proc M)}
    (h0 : Started s₀) (hr : Run exactMpi env k s₀ [p]) (hfit : Fit p.world) {wt : Wait}
    (hw : p.wait = some wt) (ht : p.world.cfg.traceAllgather = false)
    (h : together exactMpi env [p] = .ok s') :
    ∃ w', s' = [{ p with world := w', wait := none }] ∧ resume (env 0) p.world wt = .ok w' := by
  have hs := reachable_sound h0 hr p (by simp)
  unfold together at h
  obtain ⟨vs, hv, h⟩ := (Res.bind_eq_ok _ _ _).1 h
  obtain ⟨ms, hm, h⟩ := (Res.bind_eq_ok _ _ _).1 h
  simp only [List.map_cons, List.map_nil, views] at hv
  obtain ⟨v, hv1, hv⟩ := (Res.bind_eq_ok _ _ _).1 hv
  simp only [Res.bind_ok] at hv
  cases hv
  simp only [proceedAll] at h
  obtain ⟨p', hp, h⟩ := (Res.bind_eq_ok _ _ _).1 h
  simp only [Res.bind_ok] at h
  cases h
  unfold proceed at hp
  rw [hw] at hp
  simp only [traceGather, ht, Bool.false_eq_true, if_false, Res.bind_ok] at hp
  obtain ⟨w₁, h1, hp⟩ := (Res.bind_eq_ok _ _ _).1 hp
  obtain ⟨w₂, h2, hp⟩ := (Res.bind_eq_ok _ _ _).1 hp
  cases hp
  have hwf := wellFormed_view hs.holds.2.sorted hfit hv1
  obtain ⟨bufs, ms', h3, h4, h5, h6⟩ := C48_received (ranks := [v]) (by simpa using hwf) (by simp)
  have hms : ms' = ms := by
    unfold received at hm
    rw [h3, Res.bind_ok] at hm
    simp only at hm
    split at hm
    · cases hm
    · rw [h4] at hm; cases hm; rfl
  subst hms
  have habs : ∀ l : List Msg, (∀ m ∈ l, m.rank = 0) → l.foldl (absorb ((0 : ℕ) : ℤ)) v = v := by
    intro l
    induction l with
    | nil => intro _; rfl
    | cons m l ih =>
      intro hl
      rw [List.foldl_cons]
      have : absorb ((0 : ℕ) : ℤ) v m = v := by
        unfold absorb
        rw [if_pos (by rw [hl m (by simp)]; rfl)]
      rw [this]
      exact ih fun m hm => hl m (List.mem_cons_of_mem _ hm)
  have hrank : ∀ m ∈ ms', m.rank = 0 := by
    intro m hm
    obtain ⟨j, regs, hj, e, _⟩ := (h6 m).1 hm
    have : j < 1 := by simpa using (List.getElem?_eq_some_iff.1 hj).1
    rw [e]
    omega
  rw [habs ms' hrank] at h1
  have hw₁ : w₁ = p.world := by
    obtain ⟨e1, e2, e3⟩ := putBack_ok h1 hs.holds.2.nodup
    have : w₁.regions = p.world.regions := by
      funext r
      by_cases hr : r ∈ p.world.registry.map Prod.snd
      · obtain ⟨⟨n, r'⟩, hm, rfl⟩ := List.mem_map.1 hr
        obtain ⟨R, hR, hR'⟩ := e3 n r' hm
        rw [hR', (viewOf_find hv1).2, (hs.holds.2.sorted.find_eq_some_iff n r').2 hm]
        simp only [Option.bind_some]
        rw [hR]
        rfl
      · exact e2 r hr
    rw [e1, this]
  rw [hw₁] at h2
  exact ⟨w₂, rfl, h2⟩

/-- C84 is false of three ranks: the first and the last hold different averages of the same three
measurements of policy 0, one below and one above the measurement of policy 1, and choose differently
for the only features measured. -/
theorem C84_fails : ∃ (s₀ : List (Proc PolicyModel)) (n : ℕ) (s s' : List (Proc PolicyModel))
    (p q : Proc PolicyModel), Started s₀ ∧ (∀ r ∈ s₀, trainings r.todo = 1) ∧
    Run exactMpi ranksEnv n s₀ s ∧ (∀ r ∈ s, Quiet r ∧ r.wait ≠ none) ∧
    together exactMpi ranksEnv s = .ok s' ∧ s'[0]? = some p ∧ s'[2]? = some q ∧
    choice p 7 = some 0 ∧ choice q 7 = some 1 ∧
    holds p.world ['a'] [7] 0 = some 5 ∧ holds q.world ['a'] [7] 0 = some 6 := by
  let s₀ := startRanks { collective := true } [
    [demoCreate "a"] ++ demoRun 0 7 4 ++ demoRun 0 7 (11 / 2) ++ [.trainAll 0 false],
    [demoCreate "a"] ++ demoRun 0 7 8 ++ [.trainAll 0 false],
    [demoCreate "a"] ++ demoRun 0 7 4 ++ [.trainAll 0 false]]
  obtain ⟨s, hs, h1, h2, h3⟩ : ∃ s, Run exactMpi ranksEnv 22 s₀ s ∧
      (s.map facts = [oneFacts [(0, 4), (1, 11 / 2)], oneFacts [(0, 8)], oneFacts [(0, 4)]] ∧
      ((together exactMpi ranksEnv s).toOption.map fun s' => s'.map (choice · 7)) =
        some [some 0, some 0, some 1] ∧
      ((together exactMpi ranksEnv s).toOption.map fun s' => s'.map fun p => holds p.world ['a'] [7] 0) =
        some [some 5, some 5, some 6]) :=
    drive_ok (l := turns [(2, 6), (0, 10), (1, 6)]) (by decide +kernel)
  cases ht : together exactMpi ranksEnv s with
  | error e => rw [ht] at h2; cases h2
  | ok s' =>
    rw [ht] at h2 h3
    have h2 : s'.map (choice · 7) = [some 0, some 0, some 1] := Option.some.inj h2
    have h3 : s'.map (fun p => holds p.world ['a'] [7] 0) = [some 5, some 5, some 6] := Option.some.inj h3
    have hl : s'.length = 3 := by simpa using congrArg List.length h2
    obtain ⟨p, x, q, rfl⟩ := List.length_eq_three.1 hl
    simp only [List.map_cons, List.map_nil, List.cons.injEq, and_true] at h2 h3
    refine ⟨s₀, 22, s, _, p, q, startRanks_started rfl rfl _,
      by simp [s₀, startRanks, trainings, demoRun, demoCreate], hs, ?_, ht, rfl, rfl, h2.1, h2.2.2,
      h3.1, h3.2.2⟩
    intro r hr
    have : ∃ ds, facts r = oneFacts ds := by
      have hm : facts r ∈ s.map facts := List.mem_map.2 ⟨r, hr, rfl⟩
      rw [h1] at hm
      simp only [List.mem_cons, List.not_mem_nil, or_false] at hm
      rcases hm with h | h | h <;> exact ⟨_, h⟩
    obtain ⟨ds, hd⟩ := this
    have hw := (facts_model hd).2.1
    exact ⟨.inl ⟨0, hw⟩, by rw [hw]; simp⟩

/-- A context is complete at the second poll. -/
def slowEnv (i : ℕ) : Env PolicyModel :=
  { ranksEnv i with poll := fun _ log n => if .waiting (.heap n) ∈ log then .done 1 else .waiting }

/-- C84 is false of two ranks if a context is pending: `Apollo::train` gathers before `Region::train`
collects, so only the rank itself sees the measurement. -/
theorem C84_fails_pending : ∃ (s₀ : List (Proc PolicyModel)) (n : ℕ) (s s' : List (Proc PolicyModel))
    (p q : Proc PolicyModel), Started s₀ ∧ (∀ r ∈ s₀, trainings r.todo = 1) ∧
    Run exactMpi slowEnv n s₀ s ∧ (∀ r ∈ s, r.wait = some (.train 0 true)) ∧
    together exactMpi slowEnv s = .ok s' ∧ s' = [p, q] ∧
    choice p 7 = some 1 ∧ choice q 7 = some 0 ∧
    holds p.world ['a'] [7] 1 = some 1 ∧ holds q.world ['a'] [7] 1 = none := by
  let s₀ := startRanks { collective := true } [
    [demoCreate "a"] ++ demoRun 0 7 4 ++
      [.begin 0 .async, .setFeature 0 (.heap 0) 7, .getPolicyIndex 0 (.heap 0), .endCtx 0 (.heap 0),
        .trainAll 0 true],
    [demoCreate "a"] ++ demoRun 0 7 4 ++ [.trainAll 0 true]]
  obtain ⟨s, hs, h1, h2, h3⟩ : ∃ s, Run exactMpi slowEnv 16 s₀ s ∧
      ((s.all fun p => match p.wait with | some (.train 0 true) => true | _ => false) = true ∧
      ((together exactMpi slowEnv s).toOption.map fun s' => s'.map (choice · 7)) =
        some [some 1, some 0] ∧
      ((together exactMpi slowEnv s).toOption.map fun s' => s'.map fun p => holds p.world ['a'] [7] 1) =
        some [some 1, none]) :=
    drive_ok (l := turns [(1, 6), (0, 10)]) (by decide +kernel)
  cases ht : together exactMpi slowEnv s with
  | error e => rw [ht] at h2; cases h2
  | ok s' =>
    rw [ht] at h2 h3
    have h2 : s'.map (choice · 7) = [some 1, some 0] := Option.some.inj h2
    have h3 : s'.map (fun p => holds p.world ['a'] [7] 1) = [some 1, none] := Option.some.inj h3
    have hl : s'.length = 2 := by simpa using congrArg List.length h2
    obtain ⟨p, q, rfl⟩ := List.length_eq_two.1 hl
    simp only [List.map_cons, List.map_nil, List.cons.injEq, and_true] at h2 h3
    refine ⟨s₀, 16, s, _, p, q, startRanks_started rfl rfl _,
      by simp [s₀, startRanks, trainings, demoRun, demoCreate], hs, ?_, ht, rfl, h2.1, h2.2,
      h3.1, h3.2⟩
    intro r hr
    have := List.all_eq_true.1 h1 r hr
    split at this
    · assumption
    · cases this

/-! ## C86: the trace of what is exchanged -/

/-- C86: with APOLLO_TRACE_ALLGATHER, a collective training leaves the same lines in the files of all
ranks: one for each measurement held by some rank, and no other; the name of the file has the step and
the rank. -/
theorem C86_trace {env : ℕ → Env M} {k : ℕ} {s₀ s s' : List (Proc M)} (h0 : Started s₀)
    (hr : Run exactMpi env k s₀ s) (hfit : ∀ p ∈ s, Fit p.world)
    (hlen : s.length ≤ 2 ^ 31) (h : together exactMpi env s = .ok s') :
    ∃ hs : List Held, hs.Nodup ∧
      (∀ x, x ∈ hs ↔ ∃ (j : ℕ) (p : Proc M), s[j]? = some p ∧ x.rank = j ∧
        holds p.world x.name x.features x.policy = some x.metric) ∧
      ∃ ls : List Str, ∀ (j : ℕ) (p p' : Proc M) (st : ℤ) (c : Bool), s[j]? = some p →
        s'[j]? = some p' → p.wait = some (.train st c) → p.world.cfg.traceAllgather = true →
        (env j).canWrite (gatherFile st (env j).rank) = true →
        List.Forall₂ IsGatherLine hs ls ∧
          p'.world.files (gatherFile st (env j).rank) = some (gatherHeader ++ ls.flatten) := by
  obtain ⟨ms, h1, h2, h3⟩ := together_trace (reachable_sound h0 hr) hfit hlen h
  refine ⟨ms.map heldOf, h1.map heldOf_injective, ?_, ?_⟩
  · intro x
    rw [List.mem_map]
    constructor
    · rintro ⟨m, hm, rfl⟩
      exact (h2 m).1 hm
    · intro hx
      exact ⟨⟨x.rank, x.features, x.policy, x.name, x.metric⟩, (h2 _).2 hx, rfl⟩
  · cases ht : gatherLines ms with
    | ok t =>
      obtain ⟨ls, h6, rfl⟩ := gatherLines_ok ht
      refine ⟨ls, fun j p p' st c hp hp' hk htr hc => ⟨h6, ?_⟩⟩
      obtain ⟨t, h4, h5⟩ := (h3 j p p' st c hp hp' hk).1 htr hc
      rw [ht] at h4
      cases h4
      exact h5
    | error e =>
      refine ⟨[], fun j p p' st c hp hp' hk htr hc => ?_⟩
      obtain ⟨t, h4, _⟩ := (h3 j p p' st c hp hp' hk).1 htr hc
      rw [ht] at h4
      cases h4

theorem isTrunc_unique {x : ℚ} {n n' : ℤ} (h : IsTrunc x n) (h' : IsTrunc x n') : n = n' := by
  obtain ⟨a, b, c⟩ := h
  obtain ⟨a', b', c'⟩ := h'
  have e : |n| = |n'| := by
    have h1 : ((|n| : ℤ) : ℚ) < ((|n'| + 1 : ℤ) : ℚ) := by push_cast; linarith
    have h2 : ((|n'| : ℤ) : ℚ) < ((|n| + 1 : ℤ) : ℚ) := by push_cast; linarith
    have h3 := Int.cast_lt.1 h1
    have h4 := Int.cast_lt.1 h2
    omega
  rcases abs_eq_abs.1 e with h | h
  · exact h
  · subst h
    push_cast at a c
    have h0 : x * (n' : ℚ) = 0 := by linarith
    rcases mul_eq_zero.1 h0 with h1 | h1
    · rw [h1, abs_zero] at a'
      have := abs_nonpos_iff.1 a'
      rw [Int.cast_eq_zero] at this
      omega
    · rw [Int.cast_eq_zero] at h1
      omega

/-- C86: the truncated numbers are those of one list, so the lines are determined by the
measurements. -/
theorem C86_lines {hs : List Held} {ls ls' : List Str} (h : List.Forall₂ IsGatherLine hs ls)
    (h' : List.Forall₂ IsGatherLine hs ls') : ls = ls' := by
  induction h generalizing ls' with
  | nil => cases h'; rfl
  | cons a _ ih =>
    cases h' with
    | cons a' b' =>
      obtain ⟨ns, h1, rfl⟩ := a
      obtain ⟨ns', h2, rfl⟩ := a'
      have : ns = ns' := by
        clear ih b'
        revert h1 h2
        generalize Held.features _ = fs
        intro h1
        induction h1 generalizing ns' with
        | nil => intro h2; cases h2; rfl
        | cons x _ ih =>
          intro h2
          cases h2 with
          | cons y z => rw [ih _ z, isTrunc_unique x y]
      rw [this, ih b']

/-- The same two ranks, traced. -/
def tracedRanks : List (Proc PolicyModel) :=
  startRanks { collective := true, traceAllgather := true } [
    [demoCreate "a"] ++ demoRun 0 7 4 ++ demoRun 0 7 3 ++ [.trainAll 0 false],
    [demoCreate "a"] ++ demoRun 0 7 2 ++ [.trainAll 0 false]]

/-- What each of them finds in its file. -/
def tracedText : Str := (
  "rank, region_name, features, policy, time_avg\n" ++
  "0, a, [ 7, ], 0, 4\n" ++
  "0, a, [ 7, ], 1, 3\n" ++
  "1, a, [ 7, ], 0, 2\n").toList

example : ∃ p q s', Started tracedRanks ∧ Run exactMpi ranksEnv 16 tracedRanks [p, q] ∧
    (∀ r ∈ [p, q], Fit r.world ∧ r.wait = some (.train 0 false)) ∧
    together exactMpi ranksEnv [p, q] = .ok s' ∧
    s'.map (fun p => p.world.files "step-0-rank-0-allgather.txt".toList) =
      [some tracedText, none] ∧
    s'.map (fun p => p.world.files "step-0-rank-1-allgather.txt".toList) =
      [none, some tracedText] := by
  obtain ⟨s, hs, h1, h2, h3⟩ : ∃ s, Run exactMpi ranksEnv 16 tracedRanks s ∧
      (s.map facts = [oneFacts [(0, 4), (1, 3)], oneFacts [(0, 2)]] ∧
      ((together exactMpi ranksEnv s).toOption.map fun s' =>
        s'.map fun p => p.world.files "step-0-rank-0-allgather.txt".toList) =
        some [some tracedText, none] ∧
      ((together exactMpi ranksEnv s).toOption.map fun s' =>
        s'.map fun p => p.world.files "step-0-rank-1-allgather.txt".toList) =
        some [none, some tracedText]) :=
    drive_ok (l := turns [(0, 10), (1, 6)]) (by decide +kernel)
  have hl : s.length = 2 := by simpa using congrArg List.length h1
  obtain ⟨p, q, rfl⟩ := List.length_eq_two.1 hl
  obtain ⟨h4, h5⟩ := List.cons.inj h1
  obtain ⟨h5, _⟩ := List.cons.inj h5
  cases ht : together exactMpi ranksEnv [p, q] with
  | error e => rw [ht] at h2; cases h2
  | ok s' =>
    rw [ht] at h2 h3
    refine ⟨p, q, s', startRanks_started rfl rfl _, hs, fun r hr => ⟨twoRanks_fit (facts_region h4)
      (facts_region h5) r hr, ?_⟩, ht, Option.some.inj h2, Option.some.inj h3⟩
    simp only [List.mem_cons, List.not_mem_nil, or_false] at hr
    rcases hr with rfl | rfl
    · exact (facts_model h4).2.1
    · exact (facts_model h5).2.1

/-- C86: the features are printed as integers; one that is out of the range of `int` is undefined
behaviour on all ranks that trace, also for a measurement of another rank. -/
theorem C86_overflow : ∃ (s₀ : List (Proc PolicyModel)) (n : ℕ) (s : List (Proc PolicyModel)),
    Started s₀ ∧ Run exactMpi ranksEnv n s₀ s ∧ (∀ r ∈ s, r.wait ≠ none) ∧
    together exactMpi ranksEnv s = .error (.ub .overflow) := by
  let s₀ := startRanks { collective := true, traceAllgather := true } [
    [demoCreate "a"] ++ demoRun 0 (2 ^ 31) 4 ++ [.trainAll 0 false], [demoCreate "a", .trainAll 0 false]]
  obtain ⟨s, hs, h1, h2⟩ : ∃ s, Run exactMpi ranksEnv 8 s₀ s ∧
      ((s.all fun p => p.wait.isSome) = true ∧
      (match together exactMpi ranksEnv s with
        | .error e => some e
        | .ok _ => none) = some (.ub .overflow)) :=
    drive_ok (l := turns [(0, 6), (1, 2)]) (by decide +kernel)
  refine ⟨s₀, 8, s, startRanks_started rfl rfl _, hs, ?_, ?_⟩
  · intro r hr
    have := List.all_eq_true.1 h1 r hr
    exact Option.isSome_iff_ne_none.1 this
  · cases ht : together exactMpi ranksEnv s with
    | error e => rw [ht] at h2; rw [Option.some.inj h2]
    | ok _ => rw [ht] at h2; cases h2

/-- C86: without APOLLO_TRACE_ALLGATHER no such file is written. -/
theorem C86_untraced {env : ℕ → Env M} {k : ℕ} {s₀ s s' : List (Proc M)} (h0 : Started s₀)
    (hr : Run exactMpi env k s₀ s) (hfit : ∀ p ∈ s, Fit p.world)
    (hlen : s.length ≤ 2 ^ 31) (h : together exactMpi env s = .ok s') {j : ℕ} {p p' : Proc M}
    (hp : s[j]? = some p) (hp' : s'[j]? = some p') {st : ℤ} {c : Bool}
    (hw : p.wait = some (.train st c)) (ht : p.world.cfg.traceAllgather = false) (st' rank : ℤ) :
    p'.world.files (gatherFile st' rank) = p.world.files (gatherFile st' rank) := by
  obtain ⟨ms, h1, h2, h3⟩ := together_trace (reachable_sound h0 hr) hfit hlen h
  exact (h3 j p p' st c hp hp' hw).2 ht _ (gatherPath_spared _ _ _)

end Apollo.Props
