import Verif.Proofs.RegionData
import Verif.Proofs.DecimalRange
import Verif.Spec.Trace

/-!
# The trace of a region holds the rows of its executions
-/

namespace Apollo

open Spec

variable {M : Type}

/-- Models keep their name. -/
structure Named (ops : ModelOps M) : Prop where
  index : ∀ m f p m', ops.getIndex m f = .ok (p, m') → ops.name m' = ops.name m
  train : ∀ t ds m m', ops.train t ds m = .ok m' → ops.name m' = ops.name m

theorem Named.retrained {env : Env M} (ha : Named env.ops) {m m' : M}
    (h : Retrained env m m') : env.ops.name m' = env.ops.name m := by
  induction h with
  | refl => rfl
  | tail _ h ih =>
    obtain ⟨t, ds, h⟩ := h
    rw [ha.train _ _ _ _ h, ih]

/-- A line with the given columns. -/
def lineOf (ws : List Str) : Str := [' '].intercalate ws ++ ['\n']

theorem intercalate_cons {ws : List Str} (h : ws ≠ []) (x : Str) :
    [' '].intercalate (x :: ws) = x ++ ' ' :: [' '].intercalate ws := by
  cases ws with
  | nil => exact absurd rfl h
  | cons y ys => simp [List.intercalate]

theorem intercalate_append {ws vs : List Str} (hv : vs ≠ []) :
    [' '].intercalate (ws ++ vs) = (ws.map fun w => w ++ [' ']).flatten ++ [' '].intercalate vs := by
  induction ws with
  | nil => rfl
  | cons x xs ih =>
    rw [List.cons_append, intercalate_cons (by simp [hv]), ih]
    simp

theorem traceRow_eq (rank : ℤ) (mn : Str) (R : Region) (C : Ctx) (x : ℚ) :
    traceRow rank mn R C x = lineOf (rowColumns rank mn R.name ⟨C.idx, C.features, C.policy, x⟩) := by
  unfold lineOf rowColumns traceRow
  rw [intercalate_append (by simp), intercalate_cons (by simp)]
  simp [List.intercalate, Function.comp_def]

theorem headerColumns_eq (n : ℕ) : Apollo.headerColumns n =
    ((List.range n).map fun i : ℕ => " f".toList ++ fmtInt i).flatten := by
  induction n with
  | zero => rfl
  | succ n ih =>
    rw [List.range_succ, List.map_append, List.flatten_append, ← ih]
    simp [Apollo.headerColumns]

theorem traceHeader_eq (nf : ℤ) : traceHeader nf = lineOf (Spec.headerColumns nf.toNat) := by
  unfold lineOf Spec.headerColumns traceHeader
  have h : ∀ (l : List ℕ), [' '].intercalate ("idx".toList :: (l.map (fun i : ℕ => 'f' :: fmtInt i) ++
      ["policy".toList, "xtime".toList])) = "idx".toList ++
      ((l.map fun i : ℕ => " f".toList ++ fmtInt i).flatten ++ " policy xtime".toList) := by
    intro l
    rw [intercalate_cons (by simp), intercalate_append (by simp)]
    congr 1
    induction l with
    | nil => decide
    | cons a l ih =>
      simp only [List.map_cons, List.flatten_cons, List.append_assoc]
      rw [← ih]
      simp
  rw [headerColumns_eq]
  simp only [List.cons_append, List.nil_append, List.append_assoc]
  rw [intercalate_cons (by simp), intercalate_cons (by simp), intercalate_cons (by simp), h]
  simp

/-- The text of a trace. -/
def traceText (rank : ℤ) (mn name : Str) (nf : ℤ) (rows : List Row) : Str :=
  ((traceTable rank mn name nf.toNat rows).map lineOf).flatten

theorem traceText_snoc (rank : ℤ) (mn name : Str) (nf : ℤ) (rows : List Row) (x : Row) :
    traceText rank mn name nf (rows ++ [x]) =
      traceText rank mn name nf rows ++ lineOf (rowColumns rank mn name x) := by
  simp [traceText, traceTable]

/-- The traces agree with the log. -/
def TraceInv (env : Env M) (w : World M) : Prop :=
  w.cfg.traceCsv = true → ∀ r R m, w.regions r = some R → w.models r = some m →
    (observe w.log).proper r = true →
    R.trace = traceText env.rank (env.ops.name m) R.name R.numFeatures ((observe w.log).rows r)

/-- Steps that change neither traces nor what the observer knows of executions. -/
theorem TraceInv.frame {env : Env M} {w w' : World M} (hw : TraceInv env w)
    (hc : w'.cfg.traceCsv = w.cfg.traceCsv)
    (hr : ∀ r R, w'.regions r = some R → ∃ R', w.regions r = some R' ∧ R.trace = R'.trace ∧
      R.name = R'.name ∧ R.numFeatures = R'.numFeatures)
    (hm : ∀ r m', w'.models r = some m' → ∃ m, w.models r = some m ∧
      env.ops.name m' = env.ops.name m)
    (ho : (observe w'.log).proper = (observe w.log).proper)
    (h2 : (observe w'.log).rows = (observe w.log).rows) : TraceInv env w' := by
  intro ht r R m hR hmm hp
  obtain ⟨R', hR', e1, e2, e3⟩ := hr r R hR
  obtain ⟨m₀, hm₀, e4⟩ := hm r m hmm
  rw [e1, e2, e3, e4, h2]
  exact hw (by rw [← hc]; exact ht) r R' m₀ hR' hm₀ (by rw [← ho]; exact hp)

theorem TraceInv.finished {env : Env M} (ha : Named env.ops) {w w' : World M} {r : ℕ}
    {c : CtxPtr} {metric : ℚ} {R : Region} {m : M} {C : Ctx} {l : List Ev} (hI : LogInv w)
    (hw : TraceInv env w)
    (h : Collected env (w.emit (.finished r c metric)) r c metric R m C l w') : TraceInv env w' := by
  have hob : observe w'.log = (observe w.log).next (.finished r c metric) := by
    rw [h.log, observe_trained _ _ h.events]; exact observe_snoc _ _
  have hR : w.regions r = some R := h.region
  have hC : w.ctxs c = some C := h.ctx
  have hM : w.models r = some m := h.model
  intro ht r' R' m' hR' hm' hp
  rw [h.cfg] at ht
  have ht : w.cfg.traceCsv = true := ht
  obtain ⟨m₀, hm₀, hch⟩ := h.chain r' m' hm'
  have hm₁ : w.models r' = some m₀ := hm₀
  rw [ha.retrained hch]
  rw [hob] at hp ⊢
  simp only [Observer.next] at hp ⊢
  rw [h.regions] at hR'
  by_cases heq : r' = r
  · subst heq
    rw [hM] at hm₁
    cases hm₁
    rw [Function.update_self] at hp hR' ⊢
    cases hR'
    simp only [Bool.and_eq_true, beq_iff_eq] at hp
    obtain ⟨⟨⟨h1, h2⟩, h3⟩, h4⟩ := hp
    obtain ⟨p, hp⟩ := Option.isSome_iff_exists.1 h3
    have hf := hI.feats c C hC h2
    have hpo := hI.pol c C hC h2 p hp
    have hi := hI.cidx c C hC
    have hd := hw ht _ R m hR hM h1
    have hte : (w.emit (.finished r' c metric)).cfg.traceCsv = true := ht
    simp only [recRegion, hte, if_true, hp, Option.getD_some]
    rw [traceText_snoc, traceRow_eq, hf, hpo, hi, hd]
  · rw [Function.update_of_ne heq] at hR' hp ⊢
    exact hw ht r' R' m₀ hR' hm₁ hp

theorem TraceInv.stable {env : Env M} (ha : Named env.ops) (F : ℕ → Prop) :
    Stable env F (fun w : World M => LogInv w ∧ TraceInv env w) := by
  refine Stable.of ?_ ?_ ?_ ?_
  · rintro w l w' ht ⟨hI, hw⟩
    have ho : observe w'.log = observe w.log := by rw [ht.log, observe_trained _ _ ht.events]
    refine ⟨hI.trained ht, hw.frame (by rw [ht.cfg]) ?_ ?_ (by rw [ho]) (by rw [ho])⟩
    · intro r R hR; rw [ht.regions] at hR; exact ⟨R, hR, rfl, rfl, rfl⟩
    · intro r m' hm
      obtain ⟨m, h1, h2⟩ := ht.chain r m' hm
      exact ⟨m, h1, ha.retrained h2⟩
  · rintro w c ⟨hI, hw⟩
    refine ⟨(LogInv.stable env F).waiting _ _ hI, hw.frame rfl (fun r R h => ⟨R, h, rfl, rfl, rfl⟩)
      (fun r m h => ⟨m, h, rfl⟩) ?_ ?_⟩
    all_goals show _ = _; simp only [World.emit]; rw [observe_snoc]; rfl
  · rintro w r c m w' ⟨hI, hw⟩ h
    obtain ⟨R, m, C, l, h1⟩ := collectContext_ok h
    exact ⟨hI.finished h1, hw.finished ha hI h1⟩
  · rintro w r R cs ⟨hI, hw⟩ hR
    refine ⟨(LogInv.stable env F).pending _ _ _ _ hI hR, hw.frame rfl ?_ (fun r m h => ⟨m, h, rfl⟩)
      rfl rfl⟩
    intro r' R' h
    have h : Function.update w.regions r _ r' = some R' := h
    by_cases heq : r' = r
    · subst heq; rw [Function.update_self] at h; cases h; exact ⟨R, hR, rfl, rfl, rfl⟩
    · rw [Function.update_of_ne heq] at h; exact ⟨R', h, rfl, rfl, rfl⟩

/-- Steps that emit one event about a context. -/
theorem TraceInv.emit {env : Env M} {w w' : World M} (hw : TraceInv env w) (e : Ev)
    (hc : w'.cfg.traceCsv = w.cfg.traceCsv) (hr : w'.regions = w.regions)
    (hm : ∀ r m', w'.models r = some m' → ∃ m, w.models r = some m ∧
      env.ops.name m' = env.ops.name m)
    (hl : w'.log = w.log ++ [e])
    (ho : ∀ o : Observer, (o.next e).proper = o.proper ∧ (o.next e).rows = o.rows) :
    TraceInv env w' := by
  refine hw.frame hc (fun r R h => ⟨R, by rw [← hr]; exact h, rfl, rfl, rfl⟩) hm ?_ ?_
  all_goals rw [hl, observe_snoc]
  · exact (ho _).1
  · exact (ho _).2

theorem TraceInv.invariant {env : Env M} (ha : Named env.ops) (F : ℕ → Prop) :
    Invariant env F (fun w : World M => LogInv w ∧ TraceInv env w) where
  toKept := (TraceInv.stable ha F).kept
  finish := (TraceInv.stable ha F).finish
  created := by
    rintro w nf name n mt info yaml r w' ⟨hI, hw⟩ h
    refine ⟨(LogInv.invariant env F).created _ _ _ _ _ _ _ _ _ hI h, ?_⟩
    obtain ⟨R, m, l, h1⟩ := createRegion_ok h
    have hob : observe w'.log =
        (observe w.log).next (.created r R.dataset (env.ops.isTrainable m)) := by
      rw [h1.log, observe_snoc, observe_trained _ _ h1.events]
    intro ht r' R' m' hR' hm' hp
    rw [h1.cfg] at ht
    rw [hob] at hp ⊢
    simp only [Observer.next] at hp ⊢
    rw [h1.regions] at hR'
    by_cases heq : r' = r
    · subst heq
      rw [Function.update_self] at hR'
      cases hR'
      rw [(observe_fresh_reg (r := r') _).2]
      · rw [h1.trace ht, h1.numFeatures, traceHeader_eq]
        simp [traceText, traceTable]
      · intro e he hc
        have := hI.evReg e he _ hc
        have := h1.id
        omega
    · rw [Function.update_of_ne heq] at hR'
      obtain ⟨m₀, hm₀, hch⟩ := h1.chain r' m' heq hm'
      rw [ha.retrained hch]
      exact hw ht r' R' m₀ hR' hm₀ hp
  began := by
    rintro w r c R C w' ⟨hI, hw⟩ h
    refine ⟨hI.began h, hw.frame (by rw [h.cfg]) ?_ (fun r m hm => ⟨m, by rw [← h.models]; exact hm, rfl⟩)
      ?_ ?_⟩
    · intro r' R' h'
      rw [h.regions] at h'
      by_cases heq : r' = r
      · subst heq; rw [Function.update_self] at h'; cases h'; exact ⟨R, h.region, rfl, rfl, rfl⟩
      · rw [Function.update_of_ne heq] at h'; exact ⟨R', h', rfl, rfl, rfl⟩
    all_goals rw [h.log, observe_snoc]; rfl
  assigned := by
    rintro w c C f ⟨hI, hw⟩ hC
    exact ⟨(LogInv.invariant env F).assigned _ _ _ _ hI hC,
      hw.emit (.assigned c f) rfl rfl (fun r m h => ⟨m, h, rfl⟩) rfl (fun _ => ⟨rfl, rfl⟩)⟩
  feature := by
    rintro w c C v ⟨hI, hw⟩ hC
    exact ⟨(LogInv.invariant env F).feature _ _ _ _ hI hC,
      hw.emit (.feature c v) rfl rfl (fun r m h => ⟨m, h, rfl⟩) rfl (fun _ => ⟨rfl, rfl⟩)⟩
  chose := by
    rintro w r c R m C p m' ⟨hI, hw⟩ hR hm hC hp
    refine ⟨(LogInv.invariant env F).chose _ _ _ _ _ _ _ _ hI hR hm hC hp,
      hw.emit (.chose r c p) rfl rfl ?_ rfl (fun _ => ⟨rfl, rfl⟩)⟩
    intro r' m₁ h
    have h : Function.update w.models r (some m') r' = some m₁ := h
    by_cases heq : r' = r
    · subst heq
      rw [Function.update_self] at h
      cases h
      exact ⟨m, hm, ha.index _ _ _ _ hp⟩
    · rw [Function.update_of_ne heq] at h; exact ⟨m₁, h, rfl⟩
  stop := by
    rintro w c C t ⟨hI, hw⟩ hC
    exact ⟨(LogInv.invariant env F).stop _ _ _ _ hI hC,
      hw.frame rfl (fun r R h => ⟨R, h, rfl, rfl, rfl⟩) (fun r m h => ⟨m, h, rfl⟩) rfl rfl⟩
  ended := by
    rintro w r c R ⟨hI, hw⟩ hR hC hne
    refine ⟨(LogInv.invariant env F).ended _ _ _ _ hI hR hC hne,
      hw.frame rfl ?_ (fun r m h => ⟨m, h, rfl⟩) ?_ ?_⟩
    · intro r' R' h'
      have h' : Function.update w.regions r _ r' = some R' := h'
      by_cases heq : r' = r
      · subst heq; rw [Function.update_self] at h'; cases h'; exact ⟨R, hR, rfl, rfl, rfl⟩
      · rw [Function.update_of_ne heq] at h'; exact ⟨R', h', rfl, rfl, rfl⟩
    all_goals simp only [World.emit, World.setRegion]; rw [observe_snoc]; rfl
  period := by
    rintro w ⟨hI, hw⟩
    exact ⟨(LogInv.invariant env F).period _ hI, hw⟩
  destroyed := by
    rintro w r R ⟨hI, hw⟩ hR hp
    obtain ⟨f1, f2, f3, f4, f5, f6, f7, f8, f9⟩ := afterDestroy_frame env w r R
    refine ⟨hI.destroyed hR, hw.frame (by rw [f8]) ?_ ?_ ?_ ?_⟩
    · intro r' R' h'
      rw [f1] at h'
      by_cases heq : r' = r
      · subst heq; simp at h'
      · rw [Function.update_of_ne heq] at h'; exact ⟨R', h', rfl, rfl, rfl⟩
    · intro r' m' h'
      rw [f2] at h'
      by_cases heq : r' = r
      · subst heq; simp at h'
      · rw [Function.update_of_ne heq] at h'; exact ⟨m', h', rfl⟩
    all_goals rw [f4, observe_snoc]; rfl

theorem traceInv_init (env : Env M) (cfg : Cfg) (files : Str → Option Str) :
    TraceInv env (initWorld cfg files : World M) := by
  have hr : (initWorld cfg files : World M).regions = fun _ => none := rfl
  generalize (initWorld cfg files : World M) = w at hr
  intro _ r R m h
  rw [hr] at h
  cases h

/-- The models of the library. -/
theorem policyOps_named (gen : ℕ → ℕ → ℕ) (tenv : ℕ → TrainEnv) : Named (policyOps gen tenv) := by
  constructor
  · intro m f p m' h
    cases m with
    | tree n b e t =>
      simp only [policyOps, PolicyModel.getIndex] at h
      split at h
      · obtain ⟨c, _, h⟩ := (Res.bind_eq_ok _ _ _).1 h
        cases h
        rfl
      · obtain ⟨c, _, h⟩ := (Res.bind_eq_ok _ _ _).1 h
        cases h
        rfl
    | forest n b e t =>
      simp only [policyOps, PolicyModel.getIndex] at h
      split at h
      · obtain ⟨c, _, h⟩ := (Res.bind_eq_ok _ _ _).1 h
        cases h
        rfl
      · obtain ⟨c, _, h⟩ := (Res.bind_eq_ok _ _ _).1 h
        cases h
        rfl
    | null => cases h
    | static n c => cases h; rfl
    | roundRobin n c =>
      simp only [policyOps, PolicyModel.getIndex] at h
      split at h <;> cases h
      rfl
    | random n g =>
      simp only [policyOps, PolicyModel.getIndex] at h
      split at h <;> cases h <;> rfl
    | optimal q =>
      cases q <;> cases h
      rfl
    | datasetMap n b =>
      simp only [policyOps, PolicyModel.getIndex] at h
      split at h <;> cases h
      rfl
  · intro t ds m m' h
    cases m with
    | tree n b e t =>
      obtain ⟨c, _, h⟩ := (Res.bind_eq_ok _ _ _).1 h
      cases h
      rfl
    | forest n b e t =>
      obtain ⟨c, _, h⟩ := (Res.bind_eq_ok _ _ _).1 h
      cases h
      rfl
    | null => cases h
    | static n c => cases h; rfl
    | roundRobin n c => cases h; rfl
    | random n g => cases h; rfl
    | optimal q => cases h; rfl
    | datasetMap n b => cases h; rfl

/-! ## Reading the text back -/

/-- No blanks or line feeds. -/
def Plain (w : Str) : Prop := ' ' ∉ w ∧ '\n' ∉ w

theorem plain_of_num {w : Str} (h : ∀ c ∈ w, numChar c) : Plain w := by
  constructor
  · intro hm
    have := (h _ hm).not_space
    revert this
    decide
  · intro hm
    have := (h _ hm).not_space
    revert this
    decide

theorem plain_fmtInt (n : ℤ) : Plain (fmtInt n) := plain_of_num (fmtInt_spec n).1

theorem plain_fmtG6 (q : ℚ) : Plain (fmtG6 q) := plain_of_num (numChar_fmtG6 q)

theorem plain_headerColumns (nf : ℕ) : ∀ w ∈ Spec.headerColumns nf, Plain w := by
  intro w hw
  simp only [Spec.headerColumns, List.mem_append, List.mem_map, List.mem_cons, List.not_mem_nil,
    or_false] at hw
  rcases hw with ((rfl | rfl | rfl | rfl) | ⟨i, -, rfl⟩) | rfl | rfl
  any_goals (constructor <;> decide)
  have := plain_fmtInt i
  exact ⟨by simp [this.1], by simp [this.2]⟩

theorem plain_rowColumns {rank : ℤ} {mn name : Str} (hm : Plain mn) (hn : Plain name) (x : Row) :
    ∀ w ∈ rowColumns rank mn name x, Plain w := by
  intro w hw
  simp only [rowColumns, List.mem_append, List.mem_map, List.mem_cons, List.not_mem_nil,
    or_false] at hw
  rcases hw with ((rfl | rfl | rfl | rfl) | ⟨i, -, rfl⟩) | rfl | rfl
  · exact plain_fmtInt _
  · exact hm
  · exact hn
  · exact plain_fmtInt _
  · exact plain_fmtG6 _
  · exact plain_fmtInt _
  · exact plain_fmtG6 _

theorem lines_flatten (ls : List Str) (h : ∀ l ∈ ls, '\n' ∉ l) :
    lines (ls.map fun l => l ++ ['\n']).flatten = ls := by
  have e : (ls.map fun l => l ++ ['\n']).flatten = ['\n'].intercalate (ls ++ [[]]) := by
    induction ls with
    | nil => rfl
    | cons x xs ih =>
      rw [List.map_cons, List.flatten_cons, ih fun l hl => h l (by simp [hl])]
      cases xs with
      | nil => simp [List.intercalate]
      | cons y ys => simp [List.intercalate]
  unfold lines
  rw [e, List.splitOn_intercalate]
  · simp
  · intro l hl
    rcases List.mem_append.1 hl with hl | hl
    · exact h l hl
    · simp at hl; subst hl; simp
  · simp

theorem readTable_eq (t : List (List Str)) (hne : ∀ ws ∈ t, ws ≠ [])
    (h : ∀ ws ∈ t, ∀ w ∈ ws, Plain w) : readTable (t.map lineOf).flatten = t := by
  have e : t.map lineOf = (t.map fun ws => [' '].intercalate ws).map fun l => l ++ ['\n'] := by
    simp [lineOf]
  unfold readTable
  rw [e, lines_flatten]
  · rw [List.map_map]
    conv_rhs => rw [← List.map_id t]
    refine List.map_congr_left fun ws hws => ?_
    simp only [Function.comp_def, columns, id]
    exact List.splitOn_intercalate _ (fun w hw => (h ws hws w hw).1) (hne ws hws)
  · intro l hl
    obtain ⟨ws, hws, rfl⟩ := List.mem_map.1 hl
    intro hm
    have hcol := h ws hws
    clear hws hl h hne e
    induction ws with
    | nil => simp [List.intercalate] at hm
    | cons x xs ih =>
      cases xs with
      | nil =>
        have : [' '].intercalate [x] = x := by simp [List.intercalate]
        rw [this] at hm
        exact (hcol x (by simp)).2 hm
      | cons y ys =>
        rw [intercalate_cons (by simp)] at hm
        rcases List.mem_append.1 hm with hm | hm
        · exact (hcol x (by simp)).2 hm
        · rcases List.mem_cons.1 hm with hm | hm
          · revert hm; decide
          · exact ih hm fun w hw => hcol w (by simp [hw])

end Apollo
