import Verif.Proofs.PolicyLines
import Verif.Props.PolicyTrace

/-!
# Property C81: the policy trace has a line for each policy handed out

With APOLLO_TRACE_POLICY the file `rank-<rank>-policies.txt` is extended, in order, by one line for each
policy that the library hands out.  The line names the rank, the region, the kind of model, the features
that were set, without their fractions, and the policy.
-/

namespace Apollo.Props

open Apollo Apollo.Spec

variable {M : Type}

/-- C81 for any models that keep their names. -/
theorem C81_trace (env : Env M) (ha : Kinds env.ops) (cfg : Cfg) (files : Str → Option Str)
    (ops : List Op) (w : World M) (h : exec env ops (initWorld cfg files) = .ok w)
    (ht : cfg.tracePolicy = true) (hc : env.canWrite (policyTraceFile env.rank) = true) :
    ∃ ls, IsPolicyTrace env.rank cfg ops w.log ls ∧
      (w.files (policyTraceFile env.rank)).getD [] =
        (files (policyTraceFile env.rank)).getD [] ++ ls.flatten :=
  (traced_exec ha ht hc (traced_init env cfg files) h).2.text

/-- C81: whatever the program and the configuration, the trace is what was in the file before, followed by
a line for each answer. -/
theorem C81_file (env : Env PolicyModel) (gen : ℕ → ℕ → ℕ) (tenv : ℕ → TrainEnv)
    (he : env.ops = policyOps gen tenv) (cfg : Cfg) (files : Str → Option Str)
    (ops : List Op) (w : World PolicyModel) (h : exec env ops (initWorld cfg files) = .ok w)
    (ht : cfg.tracePolicy = true) (hc : env.canWrite (policyTraceFile env.rank) = true) :
    ∃ ls, IsPolicyTrace env.rank cfg ops w.log ls ∧
      (w.files (policyTraceFile env.rank)).getD [] =
        (files (policyTraceFile env.rank)).getD [] ++ ls.flatten :=
  C81_trace env (by rw [he]; exact policyOps_kinds gen tenv) cfg files ops w h ht hc

/-- C81 for regions with a PolicyNet. -/
theorem C81_file_net {α : Type} [Arith α] [Stored α] (env : Env (AnyModel α)) (gen : ℕ → ℕ → ℕ)
    (tenv : ℕ → TrainEnv) (d : NetDraws α) (he : env.ops = netOps gen tenv d) (cfg : Cfg)
    (files : Str → Option Str) (ops : List Op) (w : World (AnyModel α))
    (h : exec env ops (initWorld cfg files) = .ok w)
    (ht : cfg.tracePolicy = true) (hc : env.canWrite (policyTraceFile env.rank) = true) :
    ∃ ls, IsPolicyTrace env.rank cfg ops w.log ls ∧
      (w.files (policyTraceFile env.rank)).getD [] =
        (files (policyTraceFile env.rank)).getD [] ++ ls.flatten :=
  C81_trace env (by rw [he]; exact netOps_kinds gen tenv d) cfg files ops w h ht hc

/-- C81: the text of a line is determined by the answer, for contexts that are executed. -/
theorem C81_line (rank : ℤ) (region kind : Str) (a : Answer) (s t : Str) (hi : a.inTime = true)
    (hs : IsPolicyLine rank region kind a s) (ht : IsPolicyLine rank region kind a t) : s = t := by
  obtain ⟨ns, h1, rfl⟩ := hs
  obtain ⟨ms, h2, rfl⟩ := ht
  have hu : ∀ {x : ℚ} {n m : ℤ}, IsTrunc x n → IsTrunc x m → n = m := by
    rintro x n m ⟨a1, a2, a3⟩ ⟨b1, b2, b3⟩
    have e : |n| = |m| := by
      have c1 := lt_of_le_of_lt a1 b2
      have c2 := lt_of_le_of_lt b1 a2
      rw [← Int.cast_abs, ← Int.cast_abs] at c1 c2
      have c1 : |n| < |m| + 1 := by exact_mod_cast c1
      have c2 : |m| < |n| + 1 := by exact_mod_cast c2
      omega
    rcases abs_eq_abs.1 e with e | e
    · exact e
    · rcases lt_trichotomy n 0 with hn | hn | hn
      · have hm : 0 < m := by omega
        have hx : x = 0 := le_antisymm
          (nonpos_of_mul_nonneg_left a3 (by exact_mod_cast hn))
          (nonneg_of_mul_nonneg_left b3 (by exact_mod_cast hm))
        rw [hx, abs_zero] at a1
        have := abs_nonpos_iff.1 a1
        have : n = 0 := by exact_mod_cast this
        omega
      · omega
      · have hm : m < 0 := by omega
        have hx : x = 0 := le_antisymm
          (nonpos_of_mul_nonneg_left b3 (by exact_mod_cast hm))
          (nonneg_of_mul_nonneg_left a3 (by exact_mod_cast hn))
        rw [hx, abs_zero] at a1
        have := abs_nonpos_iff.1 a1
        have : n = 0 := by exact_mod_cast this
        omega
  have key : ∀ (f : Features) (ns ms : List ℤ), List.Forall₂ IsTrunc f ns →
      List.Forall₂ IsTrunc f ms → ns = ms := by
    intro f ns ms h1 h2
    induction h1 generalizing ms with
    | nil => cases h2; rfl
    | cons e _ ih =>
      cases h2 with
      | cons e' h' => rw [hu e e', ih _ h']
  rw [key _ _ _ (h1 hi) (h2 hi)]

/-- C81: without APOLLO_TRACE_POLICY, or when the file cannot be opened, the file stays as it is. -/
theorem C81_untouched (env : Env M) (cfg : Cfg) (files : Str → Option Str) (ops : List Op) (w : World M)
    (h : exec env ops (initWorld cfg files) = .ok w)
    (ht : cfg.tracePolicy = false ∨ env.canWrite (policyTraceFile env.rank) = false) :
    w.files (policyTraceFile env.rank) = files (policyTraceFile env.rank) := by
  have hw : FileHolds (policiesPath env.rank) (files (policyTraceFile env.rank))
      (initWorld cfg files : World M) := rfl
  rcases ht with ht | hc
  · exact ((untraced_invariant env (fun _ => True) ht (files (policyTraceFile env.rank))).exec
      (fun _ _ _ _ => trivial) ⟨⟨cfg.globalPeriod, rfl⟩, hw⟩ h).2
  · exact (FileHolds.invariant (fun _ => True) (files (policyTraceFile env.rank)) hc).exec
      (fun _ _ _ _ => trivial) hw h

/-! ## Examples -/

/-- The trace of two executions, with features that have fractions. -/
def linesOps : List Op :=
  [demoCreate "a", .create 1 "b".toList 2 0 "Static,policy=1".toList []] ++ demoRun 0 (5 / 2) 1 ++
    demoRun 1 (-7 / 2) 1

/-- The hypotheses of `C81_file` are met by a run that extends the trace of an earlier one. -/
example : demoEnv.canWrite (policyTraceFile 0) = true ∧ ∃ w, exec demoEnv linesOps
    (initWorld { tracePolicy := true } fun p => if p = "rank-0-policies.txt".toList then
      some "old\n".toList else none) = .ok w ∧
      (w.files "rank-0-policies.txt".toList = some ("old\n".toList ++
        "Rank 0 region a model DecisionTree features [ 2, ] policy 0\n".toList ++
        "Rank 0 region b model Static,1 features [ -3, ] policy 1\n".toList) ∧
      (given w.log).all (·.inTime) = true) :=
  ⟨by decide +kernel, run_ok (by decide +kernel)⟩

end Apollo.Props
