import Verif.Proofs.RegionHush
import Verif.Props.KokkosInit
import Verif.Props.Settings

/-!
# Property C80: tracing policies only observes

APOLLO_TRACE_POLICY and APOLLO_TRACE_BEST_POLICIES add files whose names end with `policies.txt`, and
change nothing else, with one exception: features are converted to `int`, which is undefined for those that
do not fit.
-/

namespace Apollo.Props

open Apollo Apollo.Spec

variable {M : Type}

/-- The configuration without these traces. -/
def Untraced (cfg : Cfg) : Cfg := { cfg with tracePolicy := false, traceBest := false }

theorem samePolicyTraces_of {v w : World M} (h : hush v = hush w) : SameButPolicyTraces v w where
  cfg := ⟨w.cfg.tracePolicy, w.cfg.traceBest, by
    have hc : ({ v.cfg with tracePolicy := false, traceBest := false } : Cfg) =
        { w.cfg with tracePolicy := false, traceBest := false } := congrArg World.cfg h
    exact (congrArg (fun c : Cfg => ({ c with
      tracePolicy := w.cfg.tracePolicy, traceBest := w.cfg.traceBest } : Cfg)) hc).symm⟩
  regions := (congrArg World.regions h).symm
  models := (congrArg World.models h).symm
  nextRegion := (congrArg World.nextRegion h).symm
  ctxs := (congrArg World.ctxs h).symm
  nextCtx := (congrArg World.nextCtx h).symm
  registry := (congrArg World.registry h).symm
  executions := (congrArg World.executions h).symm
  files := fun p hp => by
    rw [← hush_files (w := w) hp, ← hush_files (w := v) hp, h]
  tick := (congrArg World.tick h).symm
  gtrace := (congrArg World.gtrace h).symm
  log := (congrArg World.log h).symm

/-- The three ways in which a traced run may relate to the untraced one. -/
theorem traced_cases (env : Env M) (cfg : Cfg) (files : Str → Option Str) (ops : List Op)
    (hp : ¬ "policies.txt".toList <:+: cfg.policyModel) (ho : ∀ op ∈ ops, NoTraceLoaded op) :
    (∃ xs w w', results env ops (initWorld cfg files) = .ok (xs, w) ∧
      results env ops (initWorld (Untraced cfg) files) = .ok (xs, w') ∧ SameButPolicyTraces w' w) ∨
    (∃ e, results env ops (initWorld cfg files) = .error e ∧
      results env ops (initWorld (Untraced cfg) files) = .error e) ∨
    ((cfg.tracePolicy = true ∨ cfg.traceBest = true) ∧
      results env ops (initWorld cfg files) = .error (.ub .overflow) ∧
      ∀ xs w', results env ops (initWorld (Untraced cfg) files) = .ok (xs, w') →
        ∃ e ∈ w'.log, ¬ EvFits e) := by
  have h1 := results_sim env ops (initWorld cfg files) (given_init cfg files) hp ho
  have h2 := results_sim env ops (initWorld (Untraced cfg) files) (given_init _ files) hp ho
  rw [show hush (initWorld (Untraced cfg) files : World M) = hush (initWorld cfg files) from rfl] at h2
  have h2' : (∃ v, results env ops (initWorld (Untraced cfg) files) = .ok v ∧
      results env ops (hush (initWorld cfg files)) = .ok (v.1, hush v.2)) ∨
      ∃ e, results env ops (initWorld (Untraced cfg) files) = .error e ∧
        results env ops (hush (initWorld cfg files)) = .error e := by
    rcases h2 with ⟨v, a, b, -⟩ | h2 | ⟨ht, -⟩
    · exact .inl ⟨v, a, b⟩
    · exact .inr h2
    · rcases ht with ht | ht <;> cases ht
  rcases h1 with ⟨v, a, b, -⟩ | ⟨e, a, b⟩ | ⟨ht, a, b⟩
  · rcases h2' with ⟨u, c, d⟩ | ⟨e, c, d⟩
    · rw [b] at d
      have d : (v.1, hush v.2) = (u.1, hush u.2) := Except.ok.inj d
      have d1 : v.1 = u.1 := (Prod.mk.inj d).1
      have d2 : hush v.2 = hush u.2 := (Prod.mk.inj d).2
      refine .inl ⟨v.1, v.2, u.2, a, ?_, samePolicyTraces_of d2.symm⟩
      rw [c, d1]
    · rw [b] at d; cases d
  · rcases h2' with ⟨u, c, d⟩ | ⟨e', c, d⟩
    · rw [b] at d; cases d
    · rw [b] at d
      cases d
      exact .inr (.inl ⟨e, a, c⟩)
  · refine .inr (.inr ⟨ht, a, fun xs w' h => ?_⟩)
    rcases h2' with ⟨u, c, d⟩ | ⟨e', c, d⟩
    · rw [h] at c
      cases c
      exact (b _ d).2
    · rw [h] at c; cases c

/-- C80: whatever the program, the models and the file system, if a run with these traces returns then so
does the run without them; each call returns the same, and all regions, models, datasets, contexts and
all other files are the same.  Assumed is only that no model is loaded from the files of the traces. -/
theorem C80_observes (env : Env M) (cfg : Cfg) (files : Str → Option Str) (ops : List Op)
    (hp : ¬ "policies.txt".toList <:+: cfg.policyModel) (ho : ∀ op ∈ ops, NoTraceLoaded op)
    (xs : List Ret) (w : World M) (h : results env ops (initWorld cfg files) = .ok (xs, w)) :
    ∃ w', results env ops (initWorld { cfg with tracePolicy := false, traceBest := false } files) =
      .ok (xs, w') ∧ SameButPolicyTraces w' w := by
  rcases traced_cases env cfg files ops hp ho with ⟨ys, v, w', a, b, c⟩ | ⟨e, a, -⟩ | ⟨-, a, -⟩
  · rw [h] at a
    cases a
    exact ⟨w', b, c⟩
  · rw [h] at a; cases a
  · rw [h] at a; cases a

/-- The full claim of C80: switching these traces on does not change the outcome of any program. -/
def C80 : Prop :=
  ∀ (M : Type) (env : Env M) (cfg : Cfg) (files : Str → Option Str) (ops : List Op)
    (xs : List Ret) (w : World M), ¬ "policies.txt".toList <:+: cfg.policyModel →
    (∀ op ∈ ops, NoTraceLoaded op) →
    results env ops (initWorld { cfg with tracePolicy := false, traceBest := false } files) =
      .ok (xs, w) →
    ∃ w', results env ops (initWorld cfg files) = .ok (xs, w') ∧ SameButPolicyTraces w w'

/-- C80 for runs in which all features, given and trained with, fit in `int`. -/
theorem C80_partial (env : Env M) (cfg : Cfg) (files : Str → Option Str) (ops : List Op)
    (hp : ¬ "policies.txt".toList <:+: cfg.policyModel) (ho : ∀ op ∈ ops, NoTraceLoaded op)
    (xs : List Ret) (w : World M)
    (h : results env ops (initWorld { cfg with tracePolicy := false, traceBest := false } files) =
      .ok (xs, w)) (hf : ∀ e ∈ w.log, EvFits e) :
    ∃ w', results env ops (initWorld cfg files) = .ok (xs, w') ∧ SameButPolicyTraces w w' := by
  change results env ops (initWorld (Untraced cfg) files) = _ at h
  rcases traced_cases env cfg files ops hp ho with ⟨ys, v, w', a, b, c⟩ | ⟨e, a, b⟩ | ⟨-, a, b⟩
  · rw [h] at b
    cases b
    exact ⟨v, a, c⟩
  · rw [h] at b; cases b
  · obtain ⟨e, he, hn⟩ := b xs w h
    exact absurd (hf e he) hn

/-- C80: the runs that fail are those that fail in the same way without the traces, and those that convert
a feature that does not fit. -/
theorem C80_failures (env : Env M) (cfg : Cfg) (files : Str → Option Str) (ops : List Op)
    (hp : ¬ "policies.txt".toList <:+: cfg.policyModel) (ho : ∀ op ∈ ops, NoTraceLoaded op) (e : Err)
    (h : results env ops (initWorld cfg files) = .error e) :
    results env ops (initWorld { cfg with tracePolicy := false, traceBest := false } files) =
      .error e ∨ ((cfg.tracePolicy = true ∨ cfg.traceBest = true) ∧ e = .ub .overflow) := by
  rcases traced_cases env cfg files ops hp ho with ⟨ys, v, w', a, -, -⟩ | ⟨e', a, b⟩ | ⟨ht, a, -⟩
  · rw [h] at a; cases a
  · rw [h] at a
    cases a
    exact .inl b
  · rw [h] at a
    cases a
    exact .inr ⟨ht, rfl⟩

/-! ## Features that do not fit -/

/-- An execution with the feature 3·10^9, then training. -/
def largeOps : List Op :=
  [demoCreate "a"] ++ demoRun 0 3000000000 1 ++ [.train 0 0 false false]

theorem results_ok {P : World M → Prop} [DecidablePred P] {x : Res (List Ret × World M)}
    (h : (match x with | .ok w => decide (P w.2) | .error _ => false) = true) :
    ∃ xs w, x = .ok (xs, w) ∧ P w := by
  cases x with
  | ok w => exact ⟨w.1, w.2, rfl, of_decide_eq_true h⟩
  | error e => cases h

theorem large_untraced : ∃ xs w, results demoEnv largeOps
      (initWorld { tracePolicy := false, traceBest := false } fun _ => none) = .ok (xs, w) ∧
    w.executions = 1 := results_ok (by decide +kernel)

theorem large_traced : (match results demoEnv largeOps
      (initWorld { tracePolicy := true } fun _ => none) with
    | .ok _ => false
    | .error e => decide (e = .ub .overflow)) = true := by decide +kernel

theorem large_best : (match results demoEnv largeOps
      (initWorld { traceBest := true } fun _ => none) with
    | .ok _ => false
    | .error e => decide (e = .ub .overflow)) = true := by decide +kernel

/-- C80 is false, for each of the two traces: without it the program runs, with it it is undefined. -/
theorem C80_fails : ¬ C80 ∧ ∃ env : Env PolicyModel, ∃ files ops xs w,
    results env ops (initWorld { tracePolicy := false, traceBest := false } files) = .ok (xs, w) ∧
    results env ops (initWorld { tracePolicy := true, traceBest := false } files) =
      .error (.ub .overflow) ∧
    results env ops (initWorld { tracePolicy := false, traceBest := true } files) =
      .error (.ub .overflow) := by
  obtain ⟨xs, w, h, -⟩ := large_untraced
  have h1 : results demoEnv largeOps (initWorld { tracePolicy := true } fun _ => none) =
      .error (.ub .overflow) := by
    have := large_traced
    split at this
    · cases this
    · next e he => rw [he, of_decide_eq_true this]
  have h2 : results demoEnv largeOps (initWorld { traceBest := true } fun _ => none) =
      .error (.ub .overflow) := by
    have := large_best
    split at this
    · cases this
    · next e he => rw [he, of_decide_eq_true this]
  refine ⟨fun hc => ?_, demoEnv, fun _ => none, largeOps, xs, w, h, h1, h2⟩
  obtain ⟨w', a, -⟩ := hc PolicyModel demoEnv { tracePolicy := true } (fun _ => none) largeOps xs w
    (by decide +kernel) (by decide +kernel) h
  rw [h1] at a
  cases a

/-- C80: a library started by the Kokkos connector always traces the best policies. -/
theorem C80_kokkos (os : Os) (cfg : Cfg) (h : Kokkos.initLibrary os = .ok cfg) :
    cfg.traceBest = true := by
  unfold Kokkos.initLibrary at h
  obtain ⟨hf, -⟩ := (C79_starts _ _).1 h
  obtain ⟨n, hn, hb⟩ := hf.traceBest
  have : n = 1 := isInt_unique hn ⟨1, rfl⟩
  rw [hb, this]
  decide

/-! ## Examples -/

/-- The hypotheses of `C80_observes` and `C80_partial` are met by a run with both traces, which writes
both files; that without is the same except for these files. -/
example : (¬ "policies.txt".toList <:+: ({} : Cfg).policyModel) ∧
    (∀ op ∈ demoOps ++ [.train 0 7 false false], NoTraceLoaded op) ∧
    (∃ xs w, results demoEnv (demoOps ++ [.train 0 7 false false])
      (initWorld { tracePolicy := true, traceBest := true } fun _ => none) = .ok (xs, w) ∧
      ((w.files "rank-0-policies.txt".toList).map (fun s => decide (100 < s.length)) = some true ∧
        w.files "step-7-rank-0-a-best_policies.txt".toList =
          some "=== Rank 0 BEST POLICIES Region a ===\n[ 3, ] P:0 T: 0.5\n[ 4, ] P:1 T: 0.25\n".toList)) ∧
    ∃ xs w, results demoEnv (demoOps ++ [.train 0 7 false false])
      (initWorld { tracePolicy := false, traceBest := false } fun _ => none) = .ok (xs, w) ∧
      ((∀ e ∈ w.log, EvFits e) ∧ w.files "rank-0-policies.txt".toList = none) :=
  ⟨by decide +kernel, by decide +kernel, results_ok (by decide +kernel), results_ok (by decide +kernel)⟩

end Apollo.Props
