import Verif.Proofs.KokkosKernels
import Verif.Props.KokkosRun

/-!
# C108: kernels that are measured are fenced
-/

namespace Apollo.Props

open Kokkos Spec

variable {M : Type} {e : KEnv M} {cfg : Cfg} {files : Str → Option Str}

/-- At the end of a kernel the same device is fenced as at its begin, or none both times. -/
theorem C108_device (s s' : Session M) (kind : KernelKind) {dev : ℕ} (hd : dev < 2 ^ 32) {x : Seen}
    (h : call e s (.kernel kind dev) = .ok (x, s')) :
    s' = s ∧ x = if s.fence = true ∧ 0 < s.tool.unconverged then .kernel (some dev) (some dev)
      else .kernel none none := by
  simp only [call] at h
  cases h
  refine ⟨rfl, ?_⟩
  simp only [beginKernel, endKernel, invokeFence, fences, Nat.mod_eq_of_lt hd]
  by_cases h1 : s.fence = true <;> by_cases h2 : 0 < s.tool.unconverged <;> simp [h1, h2]

/-- **C108** in full: when a kernel runs between a request and the end of its context, and the end changes
what the regions have measured, then the kernel was fenced before and after. -/
def C108 (e : KEnv M) (cfg : Cfg) (files : Str → Option Str) : Prop :=
  ∀ (pre mid₁ mid₂ : List Call) (c : ℕ) (ctx : List (ℕ × Value)) (tuning : List ℕ) (kind : KernelKind) (dev : ℕ)
    (xs : List Seen) (x : Seen) (s s' : Session M),
    calls e (pre ++ .tool (.request c ctx tuning) :: (mid₁ ++ .kernel kind dev :: mid₂))
      ⟨initState cfg files, false⟩ = .ok (xs, s) →
    call e s (.tool (.endContext c)) = .ok (x, s') →
    tuning ≠ [] → (∀ o ∈ toolOps (mid₁ ++ mid₂), o ≠ .endContext c ∧ ¬ Asks o c) →
    .provide true ∈ pre → (∀ o ∈ pre ++ mid₁, o ≠ .provide false) → dev < 2 ^ 32 →
    (∃ r, samplesOf s' r ≠ samplesOf s r) →
    xs[pre.length + 1 + mid₁.length]? = some (.kernel (some dev) (some dev))

/-- What is left of **C108**: as above, when models are final once trained, problems with different variables
have different names, and at every flush all problems asked for so far had been measured.  Missing: the flushes
at which a problem was not yet measured, and problems with the same names; there it is false
(`C108_nested_fails`, `C108_names_fails`). -/
theorem C108_measured_partial (ho : OneShot e.env.ops) (he : DotAborts e.env) (hp : cfg.persistent = false)
    (hs : cfg.single = false) {pre mid₁ mid₂ : List Call} {c : ℕ} {ctx : List (ℕ × Value)} {tuning : List ℕ}
    {kind : KernelKind} {dev : ℕ} {xs : List Seen} {x : Seen} {s s' : Session M}
    (h : calls e (pre ++ .tool (.request c ctx tuning) :: (mid₁ ++ .kernel kind dev :: mid₂))
      ⟨initState cfg files, false⟩ = .ok (xs, s))
    (hend : call e s (.tool (.endContext c)) = .ok (x, s'))
    (ht : tuning ≠ []) (hopen : ∀ o ∈ toolOps (mid₁ ++ mid₂), o ≠ .endContext c ∧ ¬ Asks o c)
    (hf : .provide true ∈ pre) (hf' : ∀ o ∈ pre ++ mid₁, o ≠ .provide false) (hd : dev < 2 ^ 32)
    (hn : NamesApart (toolOps (pre ++ .tool (.request c ctx tuning) :: (mid₁ ++ .kernel kind dev :: mid₂))))
    (hm : MeasuredAtFlushes (toolOps (pre ++ .tool (.request c ctx tuning) :: (mid₁ ++ .kernel kind dev :: mid₂)))
      (toolRets xs))
    (hq : ∃ r, samplesOf s' r ≠ samplesOf s r) :
    xs[pre.length + 1 + mid₁.length]? = some (.kernel (some dev) (some dev)) := by
  obtain ⟨q, hq⟩ := hq
  have hall := calls_tool h
  have e1 : pre ++ .tool (.request c ctx tuning) :: (mid₁ ++ .kernel kind dev :: mid₂) =
    (pre ++ .tool (.request c ctx tuning) :: mid₁) ++ .kernel kind dev :: mid₂ := by simp
  have e2 : toolOps (pre ++ .tool (.request c ctx tuning) :: mid₁) =
      toolOps pre ++ .request c ctx tuning :: toolOps mid₁ := by rw [toolOps_append]; rfl
  have e3 : toolOps (pre ++ .tool (.request c ctx tuning) :: (mid₁ ++ .kernel kind dev :: mid₂)) =
      toolOps pre ++ .request c ctx tuning :: toolOps (mid₁ ++ mid₂) := by
    rw [toolOps_append]
    simp only [toolOps, toolOps_append]
  have e4 : toolOps (pre ++ .tool (.request c ctx tuning) :: (mid₁ ++ .kernel kind dev :: mid₂)) =
      toolOps (pre ++ .tool (.request c ctx tuning) :: mid₁) ++ toolOps mid₂ := by
    rw [e1, toolOps_append]; rfl
  rw [e1] at h
  obtain ⟨ys, t, zs, h1, h2, rfl, hlen⟩ := calls_append h
  obtain ⟨y, t', zs, h3, h4, rfl⟩ := calls_cons h2
  obtain ⟨rfl, rfl⟩ := C108_device t t' kind hd h3
  have hpre := calls_tool h1
  have hpost := calls_tool h4
  have i0 := Ledger.init e.env hs files
  have l1 : Ledger e.env _ _ s.tool := Ledger.exec ho he (pre := []) (ps := []) i0 hall (by simpa using hn)
    (by simpa using hm)
  have hlr : (toolRets ys).length = (toolOps (pre ++ .tool (.request c ctx tuning) :: mid₁)).length :=
    kexec_rets hpre
  have l2 : Ledger e.env ([] ++ toolOps (pre ++ .tool (.request c ctx tuning) :: mid₁)) ([] ++ toolRets ys)
      t'.tool := by
    refine Ledger.exec ho he (pre := []) (ps := []) i0 hpre ?_ ?_
    · rw [e4] at hn
      exact NamesApart.prefix hn
    · rw [e4, toolRets_append] at hm
      exact MeasuredAtFlushes.prefix hlr hm
  simp only [List.nil_append] at l1 l2
  have a1 : AskedFor (toolOps (pre ++ .tool (.request c ctx tuning) :: (mid₁ ++ .kernel kind dev :: mid₂))) c
      (ctx.map Prod.fst ++ tuning) := ⟨toolOps pre, ctx, tuning, _, e3, ht, rfl, hopen⟩
  have a2 : AskedFor (toolOps (pre ++ .tool (.request c ctx tuning) :: mid₁)) c
      (ctx.map Prod.fst ++ tuning) := ⟨toolOps pre, ctx, tuning, _, e2, ht, rfl, fun o hmem => hopen o (by
        rw [toolOps_append]; exact List.mem_append_left _ hmem)⟩
  obtain ⟨r, c1, c2⟩ := l1.opened c _ a1
  obtain ⟨r', c3, c4⟩ := l2.opened c _ a2
  have hr : r' < t'.tool.world.nextRegion := l2.kinv.fresh _ _ c4
  have hrr : r = r' := by
    have b1 := (l2.kinv.exec hpost).2.1 _ c4
    rw [← find_some_iff l1.kinv.sorted] at b1 c2
    exact Option.some.inj (c2.symm.trans b1)
  have p1 : s.tool.world.cfg.persistent = false := by
    rw [((kexec_runs hall).aged ho i0.dom).persistent]
    exact hp
  simp only [call] at hend
  obtain ⟨⟨y, u⟩, h5, h6⟩ := (Res.bind_eq_ok _ _ _).1 hend
  cases h6
  obtain ⟨m, hmod, htr⟩ := changed_learns ho l1 p1 c1 h5 hq
  subst hrr
  obtain ⟨m', hmod', htr'⟩ := ((kexec_runs hpost).aged ho l2.dom).learns r m hr hmod htr
  have hpos := l2.new r m' hmod' htr'
  have hfence : t'.fence = true := by
    refine calls_fence h1 ?_ (.inr (List.mem_append_left _ hf))
    intro hmem
    simp only [List.mem_append, List.mem_cons, reduceCtorEq, false_or] at hmem
    exact hf' _ (List.mem_append.2 hmem) rfl
  rw [List.getElem?_append_right (by simp [hlen]; omega), hlen,
    show pre.length + 1 + mid₁.length - (pre ++ Call.tool (.request c ctx tuning) :: mid₁).length = 0 by
      simp; omega, if_pos ⟨hfence, hpos⟩]
  rfl

/-- Models of the library without policy networks are final once trained. -/
theorem C108_models (gen : ℕ → ℕ → ℕ) (tenv : ℕ → TrainEnv) : OneShot (policyOps gen tenv) where
  train := by
    intro t ds m m' h
    simp only [policyOps] at h ⊢
    cases m with
    | null => simp [PolicyModel.train] at h
    | tree n b ex t =>
      simp only [PolicyModel.train] at h
      obtain ⟨_, -, h⟩ := (Res.bind_eq_ok _ _ _).1 h
      cases h; rfl
    | forest n b ex t =>
      simp only [PolicyModel.train] at h
      obtain ⟨_, -, h⟩ := (Res.bind_eq_ok _ _ _).1 h
      cases h; rfl
    | _ => simp only [PolicyModel.train] at h; cases h; rfl
  index := by
    intro m f c m' h hm
    simp only [policyOps] at h hm ⊢
    cases m with
    | tree n b ex t =>
      cases b with
      | true => rfl
      | false =>
        simp only [PolicyModel.getIndex, Bool.not_false, if_true] at h
        obtain ⟨_, -, h⟩ := (Res.bind_eq_ok _ _ _).1 h
        cases h; exact hm
    | forest n b ex t =>
      cases b with
      | true => rfl
      | false =>
        simp only [PolicyModel.getIndex, Bool.not_false, if_true] at h
        obtain ⟨_, -, h⟩ := (Res.bind_eq_ok _ _ _).1 h
        cases h; exact hm
    | null => simp [PolicyModel.getIndex] at h
    | static _ _ => simp only [PolicyModel.getIndex] at h; cases h; exact hm
    | roundRobin n l =>
      simp only [PolicyModel.getIndex] at h
      split at h <;> cases h
      exact hm
    | random n g =>
      simp only [PolicyModel.getIndex] at h
      split at h <;> cases h <;> exact hm
    | optimal q =>
      cases q <;> simp only [PolicyModel.getIndex] at h <;> cases h
      exact hm
    | datasetMap n b =>
      simp only [PolicyModel.getIndex] at h
      split at h <;> cases h
      exact hm

/-! ## Flushes at which a problem was not measured -/

/-- Whether calls were all made and what was seen satisfies a test. -/
theorem calls_ok {P : List Seen → Session M → Prop} [∀ xs s, Decidable (P xs s)]
    {x : Res (List Seen × Session M)}
    (h : (match x with | .ok w => decide (P w.1 w.2) | .error _ => false) = true) :
    ∃ xs s, x = .ok (xs, s) ∧ P xs s := by
  cases x with
  | ok w => exact ⟨w.1, w.2, rfl, of_decide_eq_true h⟩
  | error e => cases h

/-- The fence and two tuning variables. -/
def kernelDecls : List Call :=
  [.provide true, .tool (.declareOutput 1 "tile".toList (.set [.int 4, .int 8])),
   .tool (.declareOutput 2 "team".toList (.set [.int 1, .int 2]))]

/-- A history with a kernel on device 0 in context 1, which is then ended: the kernel is not fenced and measured. -/
theorem unfenced {e : KEnv PolicyModel} {cfg : Cfg} (before inside : List Call) (t : List ℕ) (r : ℕ)
    (h : (match calls e (before ++ .tool (.request 1 [] t) :: (inside ++ [.kernel .parallelFor 0]))
        ⟨initState cfg fun _ => none, false⟩ with
      | .error _ => false
      | .ok (xs, s) => match call e s (.tool (.endContext 1)) with
        | .error _ => false
        | .ok (_, s') => decide ((samplesOf s' r).map Dataset.size ≠ (samplesOf s r).map Dataset.size) &&
          decide (xs[before.length + 1 + inside.length]? = some (.kernel none none))) = true)
    (ht : t ≠ []) (ho : ∀ o ∈ toolOps inside, o ≠ .endContext 1 ∧ ¬ Asks o 1)
    (hf : Call.provide true ∈ before) (hf' : ∀ o ∈ before ++ inside, o ≠ .provide false) :
    ¬ C108 e cfg fun _ => none := by
  intro hc
  split at h
  · cases h
  rename_i xs s h1
  split at h
  · cases h
  rename_i x s' h2
  rw [Bool.and_eq_true] at h
  have h3 := of_decide_eq_true h.1
  have h4 := of_decide_eq_true h.2
  have := hc before inside [] 1 [] t .parallelFor 0 xs x s s' h1 h2 ht (by simpa using ho) hf hf' (by norm_num)
    ⟨r, fun h => h3 (by rw [h])⟩
  rw [h4] at this
  cases this

/-- The library with a training at every end of a context. -/
def kernelEnv : KEnv PolicyModel where
  env := demoEnv
  flush := 1

/-- **C108** is false: another kernel is tuned inside the context; at its end the regions are trained and the
number of regions to train is set to 0, but the region of the outer context was not measured yet and is
measured without a fence. -/
theorem C108_nested_fails : ¬ C108 kernelEnv demoKCfg fun _ => none :=
  unfenced kernelDecls [.tool (.request 2 [] [2]), .tool (.endContext 2)] [1] 0 (by decide +kernel)
    (by simp) (by simp [toolOps, Asks]) (by simp [kernelDecls]) (by simp [kernelDecls])

/-- **C108** is false for variables with the same name: their regions have the same name too, only one of them
is registered and trained, and the other is measured without a fence ever after. -/
theorem C108_names_fails : ¬ C108 demoK demoKCfg fun _ => none :=
  unfenced (kernelDecls ++ [.tool (.declareOutput 3 "tile".toList (.set [.int 4, .int 8])),
      .tool (.request 1 [] [1]), .tool (.endContext 1), .tool (.request 1 [] [3]), .tool (.endContext 1)])
    [] [3] 1 (by decide +kernel) (by simp) (by simp [toolOps]) (by simp [kernelDecls]) (by simp [kernelDecls])

/-! ## Hypotheses -/

/-- Three problems; before the third, all regions are trained. -/
def kernelPre : List Call := kernelDecls ++
  [.tool (.request 1 [] [1]), .kernel .parallelFor 0, .tool (.endContext 1), .tool (.request 2 [] [2]),
   .tool (.endContext 2)]

/-- The hypotheses of `C108_measured_partial`: a flush after two contexts; then a new problem, whose kernel on
device 5 is fenced. -/
example : OneShot demoK.env.ops ∧ DotAborts demoK.env ∧ demoKCfg.persistent = false ∧ demoKCfg.single = false ∧
    (∃ xs s, calls demoK (kernelPre ++ .tool (.request 3 [] [1, 2]) :: ([] ++ .kernel .parallelReduce 5 :: []))
        ⟨initState demoKCfg fun _ => none, false⟩ = .ok (xs, s) ∧
      (match call demoK s (.tool (.endContext 3)) with
        | .error _ => False
        | .ok (_, s') => samplesOf s' 2 ≠ samplesOf s 2) ∧
      MeasuredAtFlushes (toolOps (kernelPre ++ .tool (.request 3 [] [1, 2]) :: ([] ++ .kernel .parallelReduce 5 :: [])))
        (toolRets xs) ∧ Ret.ended true ∈ toolRets xs ∧
      xs[kernelPre.length + 1]? = some (.kernel (some 5) (some 5))) ∧
    NamesApart (toolOps (kernelPre ++ .tool (.request 3 [] [1, 2]) :: ([] ++ .kernel .parallelReduce 5 :: []))) ∧
    Call.provide true ∈ kernelPre ∧ ∀ o ∈ kernelPre ++ [], o ≠ Call.provide false := by
  have hops : toolOps (kernelPre ++ .tool (.request 3 [] [1, 2]) :: ([] ++ .kernel .parallelReduce 5 :: [])) =
      [.declareOutput 1 "tile".toList (.set [.int 4, .int 8]), .declareOutput 2 "team".toList (.set [.int 1, .int 2]),
       .request 1 [] [1], .endContext 1, .request 2 [] [2], .endContext 2, .request 3 [] [1, 2]] := rfl
  refine ⟨C108_models _ _, (C62_models _ _).1 _ rfl, rfl, rfl, ?_, ?_, by simp [kernelPre, kernelDecls],
    by simp [kernelPre, kernelDecls]⟩
  · obtain ⟨xs, s, h1, h2⟩ := calls_ok (x := calls demoK
        (kernelPre ++ .tool (.request 3 [] [1, 2]) :: ([] ++ .kernel .parallelReduce 5 :: []))
        ⟨initState demoKCfg fun _ => none, false⟩)
      (P := fun xs s => (match call demoK s (.tool (.endContext 3)) with
        | .error _ => false
        | .ok (_, s') => decide ((samplesOf s' 2).map Dataset.size ≠ (samplesOf s 2).map Dataset.size)) = true ∧
        toolRets xs = [.unit, .unit, .values 0 [.int 4], .ended false, .values 1 [.int 1], .ended true,
          .values 2 [.int 4, .int 1]] ∧ xs[kernelPre.length + 1]? = some (.kernel (some 5) (some 5)))
      (by decide +kernel)
    obtain ⟨h2, h3, h4⟩ := h2
    refine ⟨xs, s, h1, ?_, ?_, by rw [h3]; decide, h4⟩
    · split at h2
      · cases h2
      · exact fun h => of_decide_eq_true h2 (by rw [h])
    · rw [h3, hops]
      intro j hj o ho k hk
      have hj5 : j = 5 := by
        have hlt := (List.getElem?_eq_some_iff.1 hj).1
        simp only [List.length_cons, List.length_nil] at hlt
        interval_cases j <;> simp at hj ⊢
      subst hj5
      obtain ⟨c, ctx, t, rfl, -, rfl⟩ := hk
      simp only [List.take_succ_cons, List.take_zero, List.mem_cons, reduceCtorEq, KOp.request.injEq,
        List.not_mem_nil, or_false, false_or] at ho
      rcases ho with ⟨rfl, rfl, rfl⟩ | ⟨rfl, rfl, rfl⟩
      · exact ⟨[_, _, _], 1, [_, _], rfl, [_, _], [], [1], [], rfl, by simp, rfl, by simp⟩
      · exact ⟨[_, _, _, _, _], 2, [], rfl, [_, _, _, _], [], [2], [], rfl, by simp, rfl, by simp⟩
  · rw [hops]
    generalize hg : ([.declareOutput 1 "tile".toList (.set [.int 4, .int 8]),
      .declareOutput 2 "team".toList (.set [.int 1, .int 2]), .request 1 [] [1], .endContext 1, .request 2 [] [2],
      .endContext 2, .request 3 [] [1, 2]] : List KOp) = ops
    have hd : ∀ id n, DeclaredAs ops id n → (id = 1 ∧ n = "tile".toList) ∨ (id = 2 ∧ n = "team".toList) := by
      intro id n h
      subst hg
      rcases h with h | ⟨c, h⟩
      · simp at h
      · simp only [List.mem_cons, KOp.declareOutput.injEq, reduceCtorEq, List.not_mem_nil, or_false] at h
        tauto
    have hk : ∀ o ∈ ops, ∀ k, AsksFor o k → k = [1] ∨ k = [2] ∨ k = [1, 2] := by
      rintro o ho k ⟨c, ctx, t, rfl, -, rfl⟩
      subst hg
      simp only [List.mem_cons, reduceCtorEq, KOp.request.injEq, List.not_mem_nil, or_false, false_or] at ho
      rcases ho with ⟨-, rfl, rfl⟩ | ⟨-, rfl, rfl⟩ | ⟨-, rfl, rfl⟩ <;> simp
    intro o ho o' ho' k k' name a1 a2 ⟨ns, b1, b2⟩ ⟨ns', b3, b4⟩
    have n1 : ∀ n, DeclaredAs ops 1 n → n = "tile".toList := fun n h => by simpa using hd 1 n h
    have n2 : ∀ n, DeclaredAs ops 2 n → n = "team".toList := fun n h => by simpa using hd 2 n h
    have key : ∀ (k : List ℕ) (ns : List Str), k = [1] ∨ k = [2] ∨ k = [1, 2] → List.Forall₂ (DeclaredAs ops) k ns →
        (k = [1] ∧ ns = ["tile".toList]) ∨ (k = [2] ∧ ns = ["team".toList]) ∨
          (k = [1, 2] ∧ ns = ["tile".toList, "team".toList]) := by
      rintro k ns (rfl | rfl | rfl) h
      · cases h with
        | cons h1 h2 => cases h2; simp [n1 _ h1]
      · cases h with
        | cons h1 h2 => cases h2; simp [n2 _ h1]
      · cases h with
        | cons h1 h2 =>
          cases h2 with
          | cons h2 h3 => cases h3; simp [n1 _ h1, n2 _ h2]
    rw [b2] at b4
    rcases key k ns (hk o ho k a1) b1 with ⟨rfl, rfl⟩ | ⟨rfl, rfl⟩ | ⟨rfl, rfl⟩ <;>
      rcases key k' ns' (hk o' ho' k' a2) b3 with ⟨rfl, rfl⟩ | ⟨rfl, rfl⟩ | ⟨rfl, rfl⟩ <;>
      first | rfl | exact absurd b4 (by decide)

/-- A kernel as in `C108_device`. -/
example : (0 : ℕ) < 2 ^ 32 ∧ ∃ xs s, calls demoK kernelPre ⟨initState demoKCfg fun _ => none, false⟩ = .ok (xs, s) ∧
    (s.fence = true ∧ s.tool.unconverged = 0) := by
  refine ⟨by norm_num, calls_ok (P := fun _ s => s.fence = true ∧ s.tool.unconverged = 0) (by decide +kernel)⟩

end Apollo.Props
