import Verif.Model.KokkosInit
import Verif.Spec.KokkosInit
import Verif.Proofs.DecimalRange

/-!
# Lemmas about the options of the Kokkos connector
-/

namespace Apollo.Kokkos

open Spec

theorem contains_iff (p s : Str) : contains p s = true ↔ p <:+: s := by
  induction s with
  | nil => simp [contains]
  | cons c s ih =>
    simp [contains, ih, List.infix_cons_iff]

theorem afterEquals_flush (s : Str) : afterEquals ("--flush-rate=".toList ++ s) = s := by
  rfl

theorem flags_not_flush {arg : Str} (h : arg ∈ flags) : ¬ "--flush-rate=".toList <:+: arg := by
  rw [← contains_iff]
  simp only [flags, List.mem_cons, List.not_mem_nil, or_false] at h
  rcases h with rfl | rfl | rfl <;> decide +kernel

theorem atoi_fmtInt {n : ℤ} (h : -2 ^ 31 ≤ n ∧ n < 2 ^ 31) : atoi (fmtInt n) = .ok n := by
  have := readInt_fmtInt n [] (by simp)
  rw [List.append_nil] at this
  unfold atoi
  rw [this]
  simp only
  rw [if_neg (by omega)]

/-- What an argument does to the options. -/
def mark (o : Options) (arg : Str) : Options :=
  { disableRetrain := if arg = "--disable_retrain".toList then some true else o.disableRetrain
    distributed := if arg = "--distributed-training".toList then some true else o.distributed
    trace := if arg = "--trace".toList then some true else o.trace }

theorem parseArg_flag {o : Options} {flush : ℤ} {arg : Str} (h : arg ∈ flags) :
    parseArg o flush arg = .ok (mark o arg, flush) := by
  simp only [flags, List.mem_cons, List.not_mem_nil, or_false] at h
  rcases h with rfl | rfl | rfl
  · unfold parseArg
    rw [if_pos rfl]
    rfl
  · unfold parseArg
    rw [if_neg (by decide +kernel), if_pos rfl]
    rfl
  · unfold parseArg
    rw [if_neg (by decide +kernel), if_neg (by decide +kernel), if_pos rfl]
    rfl

theorem mark_other {o : Options} {arg : Str} (h : arg ∉ flags) : mark o arg = o := by
  simp only [flags, List.mem_cons, List.not_mem_nil, or_false, not_or] at h
  unfold mark
  rw [if_neg h.1, if_neg h.2.1, if_neg h.2.2]

theorem parseArg_other {o : Options} {flush : ℤ} {arg : Str} (h : arg ∉ flags) :
    parseArg o flush arg = if "--flush-rate=".toList <:+: arg then
      (atoi (afterEquals arg)).map fun n => (o, n) else .ok (o, flush) := by
  simp only [flags, List.mem_cons, List.not_mem_nil, or_false, not_or] at h
  unfold parseArg
  rw [if_neg h.1, if_neg h.2.1, if_neg h.2.2]
  simp only [contains_iff]
  by_cases hf : "--flush-rate=".toList <:+: arg
  · rw [if_pos hf, if_pos hf]
    cases atoi (afterEquals arg) <;> rfl
  · rw [if_neg hf, if_neg hf]

theorem parseArg_ok {o o' : Options} {flush flush' : ℤ} {arg : Str}
    (h : parseArg o flush arg = .ok (o', flush')) : o' = mark o arg := by
  by_cases hf : arg ∈ flags
  · rw [parseArg_flag hf] at h
    cases h
    rfl
  · rw [parseArg_other hf] at h
    rw [mark_other hf]
    split at h
    · cases ha : atoi (afterEquals arg) with
      | error e => rw [ha] at h; cases h
      | ok n => rw [ha] at h; cases h; rfl
    · cases h
      rfl

theorem parseArg_error {o : Options} {flush : ℤ} {arg : Str} {e : Err}
    (h : parseArg o flush arg = .error e) : e = .ub .overflow := by
  by_cases hf : arg ∈ flags
  · rw [parseArg_flag hf] at h
    cases h
  · rw [parseArg_other hf] at h
    split at h
    · unfold atoi at h
      split at h
      · cases h
      · split at h <;> cases h
        rfl
    · cases h

theorem parseArg_clear {o : Options} {flush : ℤ} {arg : Str} (h : Clear arg) :
    ∃ n, parseArg o flush arg = .ok (mark o arg, n) ∧
      (FlushOption arg n ∨ ¬ "--flush-rate=".toList <:+: arg ∧ n = flush) := by
  by_cases hf : arg ∈ flags
  · exact ⟨flush, parseArg_flag hf, .inr ⟨flags_not_flush hf, rfl⟩⟩
  · rcases h with h | ⟨n, hn⟩ | h
    · exact absurd h hf
    · refine ⟨n, ?_, .inl hn⟩
      rw [parseArg_other hf, mark_other hf, if_pos ⟨[], fmtInt n, by rw [hn.1]; rfl⟩, hn.1,
        afterEquals_flush, atoi_fmtInt hn.2]
      rfl
    · exact ⟨flush, by rw [parseArg_other hf, mark_other hf, if_neg h], .inr ⟨h, rfl⟩⟩

theorem parseLoop_ok {args : List Str} {o o' : Options} {flush flush' : ℤ}
    (h : parseLoop args o flush = .ok (o', flush')) : o' = args.foldl mark o := by
  induction args generalizing o flush with
  | nil => cases h; rfl
  | cons arg args ih =>
    unfold parseLoop at h
    obtain ⟨⟨o1, f1⟩, h1, h⟩ := (Res.bind_eq_ok _ _ _).1 h
    rw [ih h, parseArg_ok h1]
    rfl

theorem parseLoop_error {args : List Str} {o : Options} {flush : ℤ} {e : Err}
    (h : parseLoop args o flush = .error e) : e = .ub .overflow := by
  induction args generalizing o flush with
  | nil => cases h
  | cons arg args ih =>
    unfold parseLoop at h
    cases h1 : parseArg o flush arg with
    | error e' =>
      rw [h1] at h
      cases h
      exact parseArg_error h1
    | ok x => rw [h1] at h; exact ih h

theorem parseLoop_clear {args : List Str} {o : Options} {flush : ℤ} (h : ∀ a ∈ args, Clear a) :
    ∃ n, parseLoop args o flush = .ok (args.foldl mark o, n) ∧ FlushRate args flush n := by
  induction args generalizing o flush with
  | nil => exact ⟨flush, rfl, .inr ⟨by simp, rfl⟩⟩
  | cons arg args ih =>
    obtain ⟨n, h1, h2⟩ := parseArg_clear (o := o) (flush := flush) (h arg (by simp))
    obtain ⟨m, h3, h4⟩ := ih (o := mark o arg) (flush := n) (fun a ha => h a (by simp [ha]))
    refine ⟨m, ?_, ?_⟩
    · unfold parseLoop
      rw [h1, Res.bind_ok]
      exact h3
    · rcases h4 with ⟨pre, a, post, rfl, hm, hp⟩ | ⟨hn, rfl⟩
      · exact .inl ⟨arg :: pre, a, post, rfl, hm, hp⟩
      · rcases h2 with h2 | ⟨h2, rfl⟩
        · exact .inl ⟨[], arg, args, rfl, h2, hn⟩
        · exact .inr ⟨List.forall_mem_cons.2 ⟨h2, hn⟩, rfl⟩

theorem foldl_flag {f : Options → Option Bool} {s : Str}
    (hf : ∀ o a, f (mark o a) = if a = s then some true else f o) (args : List Str) (o : Options) :
    f (args.foldl mark o) = if s ∈ args then some true else f o := by
  induction args generalizing o with
  | nil => simp
  | cons a args ih =>
    rw [List.foldl_cons, ih, hf]
    by_cases h : s ∈ args <;> by_cases ha : a = s
    · simp [h]
    · simp [h]
    · simp [ha]
    · simp [h, ha, Ne.symm ha]

theorem foldl_disable (args : List Str) (o : Options) : (args.foldl mark o).disableRetrain =
    if "--disable_retrain".toList ∈ args then some true else o.disableRetrain :=
  foldl_flag (f := Options.disableRetrain) (fun _ _ => rfl) args o

theorem foldl_distributed (args : List Str) (o : Options) : (args.foldl mark o).distributed =
    if "--distributed-training".toList ∈ args then some true else o.distributed :=
  foldl_flag (f := Options.distributed) (fun _ _ => rfl) args o

theorem foldl_trace (args : List Str) (o : Options) : (args.foldl mark o).trace =
    if "--trace".toList ∈ args then some true else o.trace :=
  foldl_flag (f := Options.trace) (fun _ _ => rfl) args o

/-- The environment after the options have been parsed, whatever they are. -/
def afterParse (g : Environ) : Environ :=
  Function.update (Function.update (Function.update g
    "APOLLO_POLICY_MODEL".toList (some "RandomForest,explore=RoundRobin".toList))
    "APOLLO_REGION_MODEL".toList (some "1".toList)) "APOLLO_STORE_MODELS".toList (some "1".toList)

theorem setenv_refused {g : Environ} {name value : Str} (h : '=' ∈ name) : setenv g name value = g :=
  if_pos (.inr h)

theorem setenv_done {g : Environ} {name value : Str} (h : ¬ (name = [] ∨ '=' ∈ name)) :
    setenv g name value = Function.update g name (some value) :=
  if_neg h

theorem exportSettings_eq (g : Environ) (a b c d : Str) : exportSettings g a b c d = afterParse g := by
  unfold exportSettings afterParse
  simp only
  rw [setenv_refused (name := "APOLLO_COLLECTIVE_TRAINING=".toList) (by decide +kernel),
    setenv_refused (name := "APOLLO_LOCAL_TRAINING=".toList) (by decide +kernel),
    setenv_refused (name := "APOLLO_RETRAIN_ENABLE=".toList) (by decide +kernel),
    setenv_refused (name := "APOLLO_TRACE_BEST_POLICIES=".toList) (by decide +kernel),
    setenv_done (name := "APOLLO_POLICY_MODEL".toList) (by decide +kernel),
    setenv_done (name := "APOLLO_REGION_MODEL".toList) (by decide +kernel),
    setenv_done (name := "APOLLO_STORE_MODELS".toList) (by decide +kernel)]

theorem parseArgs_eq (args : List Str) (flush : ℤ) (g : Environ) : parseArgs args flush g =
    match parseLoop args {} flush with
    | .error e => .error e
    | .ok (_, n) => if (∀ a ∈ flags, a ∈ args) then .ok (n, afterParse g) else .error (.ub .uninit) := by
  unfold parseArgs
  cases h : parseLoop args {} flush with
  | error e => rfl
  | ok x =>
    obtain ⟨o, n⟩ := x
    have ho := parseLoop_ok h
    rw [Res.bind_ok]
    simp only
    rw [ho, foldl_disable, foldl_distributed, foldl_trace]
    have hfl : (∀ a ∈ flags, a ∈ args) ↔ "--disable_retrain".toList ∈ args ∧
        "--distributed-training".toList ∈ args ∧ "--trace".toList ∈ args := by
      simp only [flags, List.forall_mem_cons, List.not_mem_nil, false_imp_iff, implies_true, and_true]
    simp only [hfl, exportSettings_eq]
    generalize "--disable_retrain".toList = s1
    generalize "--distributed-training".toList = s2
    generalize "--trace".toList = s3
    by_cases h1 : s1 ∈ args <;> by_cases h2 : s2 ∈ args <;> by_cases h3 : s3 ∈ args <;>
      simp [h1, h2, h3, readOption]

end Apollo.Kokkos
