import Verif.Proofs.TraceFiles

/-!
# What programs put into the streams of their regions
-/

namespace Apollo

open Spec

variable {M : Type}

/-- What two states of a region have in common. -/
structure Older (R₀ R : Region) : Prop where
  trace : R₀.trace <+: R.trace
  name : R.name = R₀.name
  info : R.modelInfo = R₀.modelInfo
  nf : R.numFeatures = R₀.numFeatures

/-- What happened between two states without the creation of a region. -/
structure Grown (w₀ w : World M) : Prop where
  next : w.nextRegion = w₀.nextRegion
  cfg : { w.cfg with globalPeriod := 0 } = { w₀.cfg with globalPeriod := 0 }
  old : ∀ r R, w.regions r = some R → ∃ R₀, w₀.regions r = some R₀ ∧ Older R₀ R

theorem Grown.refl (w : World M) : Grown w w :=
  ⟨rfl, rfl, fun _ R h => ⟨R, h, List.prefix_rfl, rfl, rfl, rfl⟩⟩

theorem Grown.frame {w₀ w w' : World M} (h : Grown w₀ w) (hn : w'.nextRegion = w.nextRegion)
    (hc : { w'.cfg with globalPeriod := 0 } = { w.cfg with globalPeriod := 0 })
    (hr : ∀ r R, w'.regions r = some R → ∃ R', w.regions r = some R' ∧ Older R' R) : Grown w₀ w' := by
  refine ⟨hn.trans h.next, hc.trans h.cfg, fun r R hR => ?_⟩
  obtain ⟨R', hR', h1⟩ := hr r R hR
  obtain ⟨R₀, hR₀, h2⟩ := h.old r R' hR'
  exact ⟨R₀, hR₀, h2.trace.trans h1.trace, h1.name.trans h2.name, h1.info.trans h2.info, h1.nf.trans h2.nf⟩

theorem Grown.same {w₀ w w' : World M} (h : Grown w₀ w) (hn : w'.nextRegion = w.nextRegion) (hc : w'.cfg = w.cfg)
    (hr : w'.regions = w.regions) : Grown w₀ w' :=
  h.frame hn (by rw [hc]) fun r R hR => ⟨R, by rw [← hr]; exact hR, List.prefix_rfl, rfl, rfl, rfl⟩

theorem Grown.update {w₀ w w' : World M} (h : Grown w₀ w) (hn : w'.nextRegion = w.nextRegion) (hc : w'.cfg = w.cfg)
    {r : ℕ} {R R' : Region} (hR : w.regions r = some R)
    (hr : w'.regions = Function.update w.regions r (some R')) (ho : Older R R') : Grown w₀ w' := by
  refine h.frame hn (by rw [hc]) fun r' R₁ hR₁ => ?_
  rw [hr] at hR₁
  by_cases he : r' = r
  · subst he
    rw [Function.update_self] at hR₁
    cases hR₁
    exact ⟨R, hR, ho⟩
  · rw [Function.update_of_ne he] at hR₁
    exact ⟨R₁, hR₁, List.prefix_rfl, rfl, rfl, rfl⟩

theorem Older.refl (R : Region) : Older R R := ⟨List.prefix_rfl, rfl, rfl, rfl⟩

theorem Grown.finish {env : Env M} {w₀ w w' : World M} (h : Grown w₀ w) {r : ℕ} {c : CtxPtr} {x : ℚ}
    (hf : collectContext env (w.emit (.finished r c x)) r c x = .ok w') : Grown w₀ w' := by
  obtain ⟨R, m, C, l, h1⟩ := collectContext_ok hf
  refine h.update h1.nextRegion h1.cfg h1.region h1.regions ⟨?_, rfl, rfl, rfl⟩
  simp only [recRegion]
  split
  · exact List.prefix_append _ _
  · exact List.prefix_rfl

theorem Grown.stepwise (env : Env M) (F : ℕ → Prop) (w₀ : World M) : Stepwise env F (Grown w₀) where
  toKept := by
    refine Stable.kept (Stable.of ?_ ?_ ?_ ?_)
    · intro w l w' ht h
      exact h.same ht.nextRegion ht.cfg ht.regions
    · intro w c h
      exact h.same rfl rfl rfl
    · intro w r c m w' h hf
      exact h.finish hf
    · intro w r R cs h hR
      exact h.update rfl rfl hR rfl ⟨List.prefix_rfl, rfl, rfl, rfl⟩
  finish := fun w r c m w' h hf => h.finish hf
  began := fun w r c R C w' h hb => h.update hb.nextRegion hb.cfg hb.region hb.regions ⟨List.prefix_rfl, rfl, rfl, rfl⟩
  assigned := fun w c C f h _ => h.same rfl rfl rfl
  feature := fun w c C v h _ => h.same rfl rfl rfl
  chose := fun w r c R m C p m' h _ _ _ _ => h.same rfl rfl rfl
  stop := fun w c C t h _ => h.same rfl rfl rfl
  ended := fun w r c R h hR _ _ => h.update rfl rfl hR rfl ⟨List.prefix_rfl, rfl, rfl, rfl⟩
  period := fun w h => h.frame rfl rfl fun r R hR => ⟨R, hR, Older.refl R⟩
  destroyed := by
    intro w r R h hR _
    obtain ⟨f, hf⟩ := afterDestroy_eq env w r R
    rw [hf]
    refine h.frame rfl rfl fun r' R' hR' => ?_
    have hR' : Function.update w.regions r none r' = some R' := hR'
    by_cases he : r' = r
    · subst he
      simp at hR'
    · rw [Function.update_of_ne he] at hR'
      exact ⟨R', hR', Older.refl R'⟩

/-- Calls other than the creation of a region. -/
theorem grown_step {env : Env M} {w w' : World M} {op : Op} {x : Ret}
    (hc : ∀ nf name n mt info yaml, op ≠ .create nf name n mt info yaml)
    (h : step env w op = .ok (x, w')) : Grown w w' :=
  (Grown.stepwise env (fun _ => True) w).step (fun _ _ _ _ => trivial)
    (fun nf name n mt info yaml e => absurd e (hc nf name n mt info yaml)) (Grown.refl w) h

theorem grown_drain {env : Env M} {w w' : World M} {r fuel : ℕ}
    (h : drain env r fuel { w with cfg := { w.cfg with globalPeriod := 0 } } = .ok w') : Grown w w' :=
  (Grown.stepwise env (fun _ => True) w).toKept.drain
    ((Grown.stepwise env (fun _ => True) w).period w (Grown.refl w)) h

/-! ## What is put into the streams -/

/-- The region a step is about, apart from the writing of buffers. -/
def DiskOp.region : DiskOp → Option ℕ
  | .opened r _ => some r
  | .put r _ => some r
  | .flush _ _ => none
  | .close r => some r

theorem textOf_append (r : ℕ) (a b : List DiskOp) : textOf r (a ++ b) = textOf r a ++ textOf r b := by
  simp [textOf]

theorem textOf_other {r : ℕ} {ops : List DiskOp} (h : ∀ op ∈ ops, op.region ≠ some r) : textOf r ops = [] := by
  unfold textOf
  rw [List.flatten_eq_nil_iff]
  intro l hl
  rw [List.mem_map] at hl
  obtain ⟨op, ho, rfl⟩ := hl
  have := h op ho
  cases op with
  | put r' s =>
    have hr : r' ≠ r := fun e => this (by rw [e]; rfl)
    simp [DiskOp.text, hr]
  | _ => rfl

theorem textOf_puts {w w' : World M} {r : ℕ} (h : r < w.nextRegion) :
    textOf r (puts w w') = (w'.traceOf r).drop (w.traceOf r).length := by
  unfold puts textOf
  generalize w.nextRegion = n at h
  induction n with
  | zero => omega
  | succ n ih =>
    rw [List.range_succ, List.map_append, List.map_append, List.flatten_append]
    by_cases hr : r < n
    · rw [ih hr]
      have : n ≠ r := by omega
      simp [DiskOp.text, this]
    · have : r = n := by omega
      subst this
      have h0 : ((List.map (DiskOp.text r) (List.map (fun r₁ : ℕ => DiskOp.put r₁
          ((w'.traceOf r₁).drop (w.traceOf r₁).length)) (List.range r)))).flatten = [] := by
        rw [List.flatten_eq_nil_iff]
        intro l hl
        simp only [List.map_map, List.mem_map, List.mem_range, Function.comp_apply] at hl
        obtain ⟨k, hk, rfl⟩ := hl
        have : k ≠ r := by omega
        simp [DiskOp.text, this]
      rw [h0]
      simp [DiskOp.text]

theorem mem_puts {w w' : World M} {op : DiskOp} (h : op ∈ puts w w') :
    ∃ r s, op = .put r s ∧ r < w.nextRegion := by
  simp only [puts, List.mem_map, List.mem_range] at h
  obtain ⟨r, hr, rfl⟩ := h
  exact ⟨r, _, rfl, hr⟩

/-- What was put after `Grown`. -/
theorem puts_grown {w w' : World M} (h : Grown w w') {r : ℕ} {R₀ R : Region} (hr : r < w.nextRegion)
    (h0 : w.regions r = some R₀) (h1 : w'.regions r = some R) : R₀.trace ++ textOf r (puts w w') = R.trace := by
  obtain ⟨R', hR', ho⟩ := h.old r R h1
  rw [h0] at hR'
  cases hR'
  rw [textOf_puts hr]
  obtain ⟨s, hs⟩ := ho.trace
  simp [World.traceOf, h0, h1, ← hs]

/-- The stream of the region was opened once, and `t` was put into it. -/
structure Stream1 (ops : List DiskOp) (r : ℕ) (path t : Str) : Prop where
  ex : ∃ a b, ops = a ++ .opened r path :: b ∧ (∀ op ∈ a, op.region ≠ some r) ∧
    (∀ op ∈ b, (∀ p, op ≠ .opened r p) ∧ op ≠ .close r) ∧ textOf r b = t

theorem Stream1.append {ops l : List DiskOp} {r : ℕ} {path t : Str} (h : Stream1 ops r path t)
    (hl : ∀ op ∈ l, (∀ p, op ≠ .opened r p) ∧ op ≠ .close r) : Stream1 (ops ++ l) r path (t ++ textOf r l) := by
  obtain ⟨a, b, rfl, h1, h2, rfl⟩ := h.ex
  refine ⟨a, b ++ l, by simp, h1, ?_, by rw [textOf_append]⟩
  intro op ho
  rcases List.mem_append.1 ho with ho | ho
  · exact h2 op ho
  · exact hl op ho

/-- The streams follow the traces. -/
structure Follows (env : Env M) (w : World M) (ops : List DiskOp) : Prop where
  log : LogInv w
  fresh : ∀ op ∈ ops, ∀ r, op.region = some r → r < w.nextRegion
  live : w.cfg.traceCsv = true → ∀ r R, w.regions r = some R →
    Stream1 ops r (tracePath w.cfg env.rank R.modelInfo R.name) R.trace

theorem follows_init (env : Env M) (cfg : Cfg) (files : Str → Option Str) :
    Follows env (initWorld cfg files : World M) [] := by
  refine ⟨logInv_init cfg files, by simp, ?_⟩
  intro _ r R h
  have : (initWorld cfg files : World M).regions r = none := rfl
  rw [this] at h
  cases h

theorem Follows.flush {env : Env M} {w : World M} {ops : List DiskOp} (h : Follows env w ops) (r k : ℕ) :
    Follows env w (ops ++ [.flush r k]) := by
  refine ⟨h.log, ?_, fun ht r' R hR => ?_⟩
  · intro op ho r' hr
    rcases List.mem_append.1 ho with ho | ho
    · exact h.fresh op ho r' hr
    · simp only [List.mem_singleton] at ho
      subst ho
      cases hr
  · have := (h.live ht r' R hR).append (l := [.flush r k]) (by simp)
    simpa [textOf, DiskOp.text] using this

theorem tracePath_cfg {c c' : Cfg} (h : { c with globalPeriod := 0 } = { c' with globalPeriod := 0 }) :
    c.traceCsv = c'.traceCsv ∧ ∀ rank info name, tracePath c rank info name = tracePath c' rank info name := by
  have h1 := congrArg Cfg.traceCsv h
  have h2 := congrArg Cfg.outputDir h
  have h3 := congrArg Cfg.tracesDir h
  simp only at h1 h2 h3
  exact ⟨h1, fun rank info name => by unfold tracePath; rw [h2, h3]⟩

/-- The rows of a call, for the regions that still exist. -/
theorem Follows.puts {env : Env M} {w w' : World M} {ops : List DiskOp} (h : Follows env w ops)
    (hs : Grown w w') (hl : LogInv w') : Follows env w' (ops ++ Apollo.puts w w') := by
  obtain ⟨hc, hp⟩ := tracePath_cfg hs.cfg
  refine ⟨hl, ?_, fun ht r R hR => ?_⟩
  · intro op ho r hr
    rw [hs.next]
    rcases List.mem_append.1 ho with ho | ho
    · exact h.fresh op ho r hr
    · obtain ⟨r', s, rfl, hlt⟩ := mem_puts ho
      cases hr
      exact hlt
  · obtain ⟨R₀, hR₀, ho⟩ := hs.old r R hR
    have hlt : r < w.nextRegion := by
      by_contra hn
      rw [h.log.regFresh r (by omega)] at hR₀
      cases hR₀
    have := (h.live (by rw [← hc]; exact ht) r R₀ hR₀).append (l := Apollo.puts w w') (by
      intro op ho
      obtain ⟨r', s, rfl, -⟩ := mem_puts ho
      simp)
    rw [puts_grown hs hlt hR₀ hR] at this
    rw [hp, ho.info, ho.name]
    exact this

theorem Follows.create {env : Env M} {w w' : World M} {ops : List DiskOp} (h : Follows env w ops)
    {nf n mt : ℤ} {name info yaml : Str} {r : ℕ} {R : Region}
    (hc : createRegion env w nf name n mt info yaml = .ok (r, w')) (hR : w'.regions r = some R)
    (hl : LogInv w') : Follows env w' (ops ++
      [.opened r (tracePath w'.cfg env.rank R.modelInfo R.name), .put r R.trace]) := by
  obtain ⟨R', m, l, hA⟩ := createRegion_ok hc
  have hid := hA.id
  have hnx := hA.nextRegion
  refine ⟨hl, ?_, fun ht r' R₁ hR₁ => ?_⟩
  · intro op ho r' hr
    rcases List.mem_append.1 ho with ho | ho
    · have := h.fresh op ho r' hr
      omega
    · simp only [List.mem_cons, List.not_mem_nil, or_false] at ho
      rcases ho with rfl | rfl <;> simp only [DiskOp.region, Option.some.injEq] at hr <;> omega
  · by_cases he : r' = r
    · subst he
      rw [hR] at hR₁
      cases hR₁
      refine ⟨ops, [.put r' R.trace], rfl, ?_, by simp, by simp [textOf, DiskOp.text]⟩
      intro op ho hr
      have := h.fresh op ho r' hr
      omega
    · rw [hA.regions, Function.update_of_ne he] at hR₁
      have := (h.live (by rw [← hA.cfg]; exact ht) r' R₁ hR₁).append
        (l := [.opened r (tracePath w'.cfg env.rank R.modelInfo R.name), .put r R.trace]) (by
          intro op ho
          simp only [List.mem_cons, List.not_mem_nil, or_false] at ho
          rcases ho with rfl | rfl
          · refine ⟨fun p hp => ?_, by simp⟩
            simp only [DiskOp.opened.injEq] at hp
            exact he hp.1.symm
          · simp)
      rw [textOf_other, List.append_nil] at this
      · rw [hA.cfg]
        rw [hA.cfg] at this
        exact this
      · intro op ho
        simp only [List.mem_cons, List.not_mem_nil, or_false] at ho
        rcases ho with rfl | rfl <;> simp only [DiskOp.region, ne_eq, Option.some.injEq] <;>
          exact fun e => he e.symm

theorem Follows.destroy {env : Env M} {w w₁ : World M} {ops : List DiskOp} (h : Follows env w ops) {r : ℕ}
    {R : Region} (hs : Grown w w₁) (hl₁ : LogInv w₁) (hl : LogInv (afterDestroy env w₁ r R))
    (hR : w₁.regions r = some R) :
    Follows env (afterDestroy env w₁ r R) (ops ++ (Apollo.puts w w₁ ++ [.close r])) := by
  have h1 := h.puts hs hl₁
  obtain ⟨f, hf⟩ := afterDestroy_eq env w₁ r R
  have hlt : r < w₁.nextRegion := by
    by_contra hn
    rw [hl₁.regFresh r (by omega)] at hR
    cases hR
  rw [hf] at hl ⊢
  rw [← List.append_assoc]
  refine ⟨hl, ?_, fun ht r' R' hR' => ?_⟩
  · intro op ho r' hr
    rcases List.mem_append.1 ho with ho | ho
    · exact h1.fresh op ho r' hr
    · simp only [List.mem_singleton] at ho
      subst ho
      cases hr
      exact hlt
  · have hR' : Function.update w₁.regions r none r' = some R' := hR'
    have he : r' ≠ r := by
      intro e
      subst e
      simp at hR'
    rw [Function.update_of_ne he] at hR'
    have := (h1.live ht r' R' hR').append (l := [.close r]) (by
      simp only [List.mem_singleton, forall_eq, ne_eq, reduceCtorEq, not_false_eq_true, implies_true, true_and,
        DiskOp.close.injEq]
      exact fun e => he e.symm)
    simp only [textOf, DiskOp.text, List.map_cons, List.map_nil, List.flatten_cons, List.flatten_nil,
      List.append_nil] at this
    exact this

/-- One call. -/
theorem Follows.call {env : Env M} {w w' : World M} {ops o : List DiskOp} (h : Follows env w ops) {op : Op}
    (hc : tracedStep env w op = .ok (o, w')) : Follows env w' (ops ++ o) := by
  unfold tracedStep at hc
  obtain ⟨⟨x, w₁⟩, h1, hc⟩ := (Res.bind_eq_ok _ _ _).1 hc
  have hl : LogInv w₁ := (LogInv.invariant env fun _ => True).step (fun _ _ _ _ => trivial) h.log h1
  simp only at hc
  split at hc
  next ht =>
    split at hc
    next nf name n mt info yaml r =>
      obtain ⟨R, hR, hc⟩ := (Res.bind_eq_ok _ _ _).1 hc
      simp only [Except.ok.injEq, Prod.mk.injEq] at hc
      obtain ⟨rfl, rfl⟩ := hc
      simp only [step] at h1
      obtain ⟨⟨r₁, w₂⟩, h2, h1⟩ := (Res.bind_eq_ok _ _ _).1 h1
      simp only [Except.ok.injEq, Prod.mk.injEq, Ret.region.injEq] at h1
      obtain ⟨rfl, rfl⟩ := h1
      exact h.create h2 (World.region_ok.1 hR) hl
    next r fuel =>
      obtain ⟨w₂, h2, hc⟩ := (Res.bind_eq_ok _ _ _).1 hc
      simp only [Except.ok.injEq, Prod.mk.injEq] at hc
      obtain ⟨rfl, rfl⟩ := hc
      simp only [step] at h1
      obtain ⟨w₃, h3, h1⟩ := (Res.bind_eq_ok _ _ _).1 h1
      simp only [Except.ok.injEq, Prod.mk.injEq] at h1
      obtain ⟨-, rfl⟩ := h1
      obtain ⟨w₄, R, h4, hR, hp, rfl⟩ := destroyRegion_ok h3
      rw [h2] at h4
      cases h4
      have hl₂ : LogInv w₂ := (LogInv.invariant env fun _ => True).toKept.drain
        ((LogInv.invariant env fun _ => True).period _ h.log) h2
      exact h.destroy (grown_drain h2) hl₂ hl hR
    next hn1 hn2 =>
      simp only [Except.ok.injEq, Prod.mk.injEq] at hc
      obtain ⟨rfl, rfl⟩ := hc
      refine h.puts (grown_step ?_ h1) hl
      rintro nf name n mt info yaml rfl
      simp only [step] at h1
      obtain ⟨⟨r₁, w₂⟩, h2, h1⟩ := (Res.bind_eq_ok _ _ _).1 h1
      simp only [Except.ok.injEq, Prod.mk.injEq] at h1
      exact hn2 _ _ _ _ _ _ r₁ rfl h1.1.symm
  next ht =>
    simp only [Except.ok.injEq, Prod.mk.injEq] at hc
    obtain ⟨rfl, rfl⟩ := hc
    rw [List.append_nil]
    have hcfg : w₁.cfg.traceCsv = w.cfg.traceCsv := by
      cases op with
      | create nf name n mt info yaml =>
        simp only [step] at h1
        obtain ⟨⟨r₁, w₂⟩, h2, h1⟩ := (Res.bind_eq_ok _ _ _).1 h1
        simp only [Except.ok.injEq, Prod.mk.injEq] at h1
        obtain ⟨-, rfl⟩ := h1
        obtain ⟨R', m, l, hA⟩ := createRegion_ok h2
        rw [hA.cfg]
      | _ => exact (tracePath_cfg (grown_step (by simp) h1).cfg).1
    have hnext : w.nextRegion ≤ w₁.nextRegion := by
      cases op with
      | create nf name n mt info yaml =>
        simp only [step] at h1
        obtain ⟨⟨r₁, w₂⟩, h2, h1⟩ := (Res.bind_eq_ok _ _ _).1 h1
        simp only [Except.ok.injEq, Prod.mk.injEq] at h1
        obtain ⟨-, rfl⟩ := h1
        obtain ⟨R', m, l, hA⟩ := createRegion_ok h2
        have := hA.id
        have := hA.nextRegion
        omega
      | _ => exact (grown_step (by simp) h1).next.ge
    refine ⟨hl, fun op ho r hr => ?_, fun ht' => absurd (hcfg ▸ ht') ht⟩
    have := h.fresh op ho r hr
    omega

/-- A program. -/
theorem Follows.exec {env : Env M} : ∀ {evs : List TEv} {w w' : World M} {ops o : List DiskOp},
    Follows env w ops → tracedExec env evs w = .ok (o, w') → Follows env w' (ops ++ o) := by
  intro evs
  induction evs with
  | nil =>
    intro w w' ops o h he
    simp only [tracedExec, Except.ok.injEq, Prod.mk.injEq] at he
    obtain ⟨rfl, rfl⟩ := he
    simpa using h
  | cons e evs ih =>
    intro w w' ops o h he
    cases e with
    | flush r k =>
      simp only [tracedExec] at he
      obtain ⟨⟨o₁, w₁⟩, h1, he⟩ := (Res.bind_eq_ok _ _ _).1 he
      simp only [Except.ok.injEq, Prod.mk.injEq] at he
      obtain ⟨rfl, rfl⟩ := he
      have := ih (h.flush r k) h1
      simpa using this
    | call op =>
      simp only [tracedExec] at he
      obtain ⟨⟨o₁, w₁⟩, h1, he⟩ := (Res.bind_eq_ok _ _ _).1 he
      obtain ⟨⟨o₂, w₂⟩, h2, he⟩ := (Res.bind_eq_ok _ _ _).1 he
      simp only [Except.ok.injEq, Prod.mk.injEq] at he
      obtain ⟨rfl, rfl⟩ := he
      have := ih (h.call h1) h2
      simpa using this

/-- The calls among the events. -/
def callsOf (evs : List TEv) : List Op := evs.filterMap fun | .call op => some op | .flush _ _ => none

theorem tracedExec_exec {env : Env M} : ∀ {evs : List TEv} {w w' : World M} {o : List DiskOp},
    tracedExec env evs w = .ok (o, w') → exec env (callsOf evs) w = .ok w' := by
  intro evs
  induction evs with
  | nil =>
    intro w w' o he
    simp only [tracedExec, Except.ok.injEq, Prod.mk.injEq] at he
    obtain ⟨rfl, rfl⟩ := he
    rfl
  | cons e evs ih =>
    intro w w' o he
    cases e with
    | flush r k =>
      simp only [tracedExec] at he
      obtain ⟨⟨o₁, w₁⟩, h1, he⟩ := (Res.bind_eq_ok _ _ _).1 he
      simp only [Except.ok.injEq, Prod.mk.injEq] at he
      obtain ⟨rfl, rfl⟩ := he
      exact ih h1
    | call op =>
      simp only [tracedExec] at he
      obtain ⟨⟨o₁, w₁⟩, h1, he⟩ := (Res.bind_eq_ok _ _ _).1 he
      obtain ⟨⟨o₂, w₂⟩, h2, he⟩ := (Res.bind_eq_ok _ _ _).1 he
      simp only [Except.ok.injEq, Prod.mk.injEq] at he
      obtain ⟨rfl, rfl⟩ := he
      have hs : ∃ x, step env w op = .ok (x, w₁) := by
        unfold tracedStep at h1
        obtain ⟨⟨x, w₃⟩, h3, h1⟩ := (Res.bind_eq_ok _ _ _).1 h1
        refine ⟨x, ?_⟩
        rw [h3]
        simp only at h1
        split at h1
        · split at h1
          · obtain ⟨R, hR, h1⟩ := (Res.bind_eq_ok _ _ _).1 h1
            simp only [Except.ok.injEq, Prod.mk.injEq] at h1
            rw [h1.2]
          · obtain ⟨w₄, h4, h1⟩ := (Res.bind_eq_ok _ _ _).1 h1
            simp only [Except.ok.injEq, Prod.mk.injEq] at h1
            rw [h1.2]
          · simp only [Except.ok.injEq, Prod.mk.injEq] at h1
            rw [h1.2]
        · simp only [Except.ok.injEq, Prod.mk.injEq] at h1
          rw [h1.2]
      obtain ⟨x, hx⟩ := hs
      show exec env (op :: callsOf evs) w = _
      rw [exec, hx, Res.bind_ok]
      exact ih h2

/-! ## Regions that were destroyed -/

/-- The region was destroyed after these executions. -/
structure Gone (r : ℕ) (rows : List Row) (pr : Bool) (w : World M) : Prop where
  used : r < w.nextRegion
  dead : w.regions r = none
  rows : (observe w.log).rows r = rows
  proper : (observe w.log).proper r = pr

theorem Gone.frame {r : ℕ} {rows : List Row} {pr : Bool} {w w' : World M} (h : Gone r rows pr w)
    (hn : w'.nextRegion = w.nextRegion) (hr : w'.regions r = none)
    (ho : (observe w'.log).rows r = (observe w.log).rows r)
    (hp : (observe w'.log).proper r = (observe w.log).proper r) : Gone r rows pr w' :=
  ⟨by rw [hn]; exact h.used, hr, ho.trans h.rows, hp.trans h.proper⟩

theorem Gone.ne {r r' : ℕ} {rows : List Row} {pr : Bool} {w : World M} {R : Region} (h : Gone r rows pr w)
    (hR : w.regions r' = some R) : r ≠ r' := by
  rintro rfl
  rw [h.dead] at hR
  cases hR

theorem Gone.finish {env : Env M} {r r' : ℕ} {rows : List Row} {pr : Bool} {w w' : World M} (h : Gone r rows pr w)
    {c : CtxPtr} {x : ℚ} (hf : collectContext env (w.emit (.finished r' c x)) r' c x = .ok w') :
    Gone r rows pr w' := by
  obtain ⟨R, m, C, l, h1⟩ := collectContext_ok hf
  have hR : w.regions r' = some R := h1.region
  have hne := h.ne hR
  have hob : observe w'.log = (observe w.log).next (.finished r' c x) := by
    rw [h1.log, observe_trained _ _ h1.events]; exact observe_snoc _ _
  refine h.frame h1.nextRegion ?_ ?_ ?_
  · rw [h1.regions, Function.update_of_ne hne]
    exact h.dead
  · rw [hob]
    simp only [Observer.next, Function.update_of_ne hne]
  · rw [hob]
    simp only [Observer.next, Function.update_of_ne hne]

theorem Gone.set {r r' : ℕ} {rows : List Row} {pr : Bool} {w : World M} {R R' : Region} (h : Gone r rows pr w)
    (hR : w.regions r' = some R) : Function.update w.regions r' (some R') r = none := by
  rw [Function.update_of_ne (h.ne hR)]
  exact h.dead

theorem Gone.invariant (env : Env M) (F : ℕ → Prop) (r : ℕ) (rows : List Row) (pr : Bool) :
    Invariant env F (Gone (M := M) r rows pr) where
  toKept := by
    refine Stable.kept (Stable.of ?_ ?_ ?_ ?_)
    · intro w l w' ht h
      have ho : observe w'.log = observe w.log := by rw [ht.log, observe_trained _ _ ht.events]
      exact h.frame ht.nextRegion (by rw [ht.regions]; exact h.dead) (by rw [ho]) (by rw [ho])
    · intro w c h
      exact h.frame rfl h.dead (by simp only [World.emit, observe_snoc, Observer.next])
        (by simp only [World.emit, observe_snoc, Observer.next])
    · intro w r' c m w' h hf
      exact h.finish hf
    · intro w r' R cs h hR
      exact h.frame rfl (h.set hR) rfl rfl
  finish := fun w r' c m w' h hf => h.finish hf
  began := fun w r' c R C w' h hb => h.frame hb.nextRegion (by rw [hb.regions]; exact h.set hb.region)
    (by simp only [hb.log, observe_snoc, Observer.next]) (by simp only [hb.log, observe_snoc, Observer.next])
  assigned := fun w c C f h _ => h.frame rfl h.dead
    (by simp only [World.emit, World.setCtx, observe_snoc, Observer.next])
    (by simp only [World.emit, World.setCtx, observe_snoc, Observer.next])
  feature := fun w c C v h _ => h.frame rfl h.dead
    (by simp only [World.emit, World.setCtx, observe_snoc, Observer.next])
    (by simp only [World.emit, World.setCtx, observe_snoc, Observer.next])
  chose := fun w r' c R m C p m' h _ _ _ _ => h.frame rfl h.dead
    (by simp only [World.emit, World.setCtx, World.setModel, observe_snoc, Observer.next])
    (by simp only [World.emit, World.setCtx, World.setModel, observe_snoc, Observer.next])
  stop := fun w c C t h _ => h.frame rfl h.dead rfl rfl
  ended := fun w r' c R h hR _ _ => h.frame rfl (h.set hR)
    (by simp only [World.emit, World.setRegion, observe_snoc, Observer.next])
    (by simp only [World.emit, World.setRegion, observe_snoc, Observer.next])
  period := fun w h => h.frame rfl h.dead rfl rfl
  destroyed := by
    intro w r' R h hR _
    obtain ⟨f1, f2, f3, f4, f5, f6, _⟩ := afterDestroy_frame env w r' R
    refine h.frame f5 ?_ ?_ ?_
    · rw [f1, Function.update_of_ne (h.ne hR)]
      exact h.dead
    · rw [f4, observe_snoc]
      rfl
    · rw [f4, observe_snoc]
      rfl
  created := by
    intro w nf name n mt info yaml r' w' h hc
    obtain ⟨R, m, l, hA⟩ := createRegion_ok hc
    have hu := h.used
    have hid := hA.id
    have ho : observe w'.log = (observe w.log).next (.created r' R.dataset (env.ops.isTrainable m)) := by
      rw [hA.log, observe_snoc, observe_trained _ _ hA.events]
    refine ⟨by rw [hA.nextRegion]; omega, ?_, ?_, ?_⟩
    · rw [hA.regions, Function.update_of_ne (by omega)]
      exact h.dead
    · rw [ho]
      exact h.rows
    · rw [ho]
      exact h.proper

/-- The name of the model of a region. -/
theorem names_drain {env : Env M} (ha : Named env.ops) {w w' : World M} {r fuel : ℕ} {k : Str}
    (hw : ∀ m, w.models r = some m → env.ops.name m = k)
    (h : drain env r fuel { w with cfg := { w.cfg with globalPeriod := 0 } } = .ok w') :
    ∀ m, w'.models r = some m → env.ops.name m = k := by
  have hk : Stable env (fun _ => True) (fun w : World M => ∀ m, w.models r = some m → env.ops.name m = k) := by
    refine Stable.of ?_ ?_ ?_ ?_
    · intro w l w' ht h m hm
      obtain ⟨m₀, h1, h2⟩ := ht.chain r m hm
      rw [ha.retrained h2]
      exact h m₀ h1
    · intro w c h
      exact h
    · intro w r' c x w' h hf m hm
      obtain ⟨R, m₁, C, l, h1⟩ := collectContext_ok hf
      obtain ⟨m₀, h2, h3⟩ := h1.chain r m hm
      rw [ha.retrained h3]
      exact h m₀ h2
    · intro w r' R cs h hR
      exact h
  exact hk.kept.drain (w := { w with cfg := { w.cfg with globalPeriod := 0 } }) hw h

/-- The file of a region whose stream alone writes to it, while the region exists. -/
theorem Stream1.owns {ops : List DiskOp} {r : ℕ} {path t : Str} (h : Stream1 ops r path t)
    (ho : ∀ r', .opened r' path ∈ ops → r' = r) : Owns (diskRun ops) r path t := by
  obtain ⟨a, b, rfl, h1, h2, rfl⟩ := h.ex
  have ha : Unused (diskRun a) path := by
    refine Unused.run (d := {}) (fun r o hr => by cases hr) ?_
    rintro op hop r' rfl
    have := ho r' (by simp [hop])
    subst this
    exact h1 _ hop rfl
  have hb := (ha.opened r).run (ops := b) (by
    intro op hop
    cases op with
    | opened r' p =>
      have h3 : r' ≠ r := by
        rintro rfl
        exact (h2 _ hop).1 p rfl
      refine ⟨h3, ?_⟩
      rintro rfl
      exact h3 (ho r' (by simp [hop]))
    | close r' =>
      rintro rfl
      exact (h2 _ hop).2 rfl
    | put => trivial
    | flush => trivial)
  simpa [diskRun, List.foldl_append] using hb

/-! ## The calls of a program -/

theorem tracedStep_step {env : Env M} {w w' : World M} {op : Op} {o : List DiskOp}
    (h : tracedStep env w op = .ok (o, w')) : ∃ x, step env w op = .ok (x, w') := by
  obtain ⟨o', w'', h1, h2⟩ : ∃ (o' : List DiskOp) (w'' : World M), tracedExec env [.call op] w = .ok (o', w'') ∧
      w'' = w' := by
    refine ⟨o ++ [], w', ?_, rfl⟩
    simp only [tracedExec]
    rw [h, Res.bind_ok]
    rfl
  subst h2
  have := tracedExec_exec h1
  obtain ⟨⟨x, w₁⟩, h3, h4⟩ := (Res.bind_eq_ok _ _ _).1 this
  cases h4
  exact ⟨x, h3⟩

theorem tracedStep_destroy {env : Env M} {w w' : World M} {r fuel : ℕ} {o : List DiskOp}
    (ht : w.cfg.traceCsv = true) (h : tracedStep env w (.destroy r fuel) = .ok (o, w')) :
    ∃ w₁ R, drain env r fuel { w with cfg := { w.cfg with globalPeriod := 0 } } = .ok w₁ ∧
      w₁.regions r = some R ∧ o = Apollo.puts w w₁ ++ [.close r] ∧ w' = afterDestroy env w₁ r R := by
  unfold tracedStep at h
  obtain ⟨⟨x, w₂⟩, h1, h⟩ := (Res.bind_eq_ok _ _ _).1 h
  simp only at h
  rw [if_pos ht] at h
  obtain ⟨w₁, h2, h⟩ := (Res.bind_eq_ok _ _ _).1 h
  simp only [Except.ok.injEq, Prod.mk.injEq] at h
  obtain ⟨rfl, rfl⟩ := h
  simp only [step] at h1
  obtain ⟨w₃, h3, h1⟩ := (Res.bind_eq_ok _ _ _).1 h1
  simp only [Except.ok.injEq, Prod.mk.injEq] at h1
  obtain ⟨-, rfl⟩ := h1
  obtain ⟨w₄, R, h4, hR, hp, rfl⟩ := destroyRegion_ok h3
  rw [h2] at h4
  cases h4
  exact ⟨w₁, R, h2, hR, rfl, rfl⟩

/-- The configuration, apart from the period. -/
theorem cfg_step {env : Env M} {w w' : World M} {op : Op} {x : Ret} (h : step env w op = .ok (x, w')) :
    { w'.cfg with globalPeriod := 0 } = { w.cfg with globalPeriod := 0 } ∧ w.nextRegion ≤ w'.nextRegion := by
  cases op with
  | create nf name n mt info yaml =>
    simp only [step] at h
    obtain ⟨⟨r₁, w₂⟩, h2, h1⟩ := (Res.bind_eq_ok _ _ _).1 h
    simp only [Except.ok.injEq, Prod.mk.injEq] at h1
    obtain ⟨-, rfl⟩ := h1
    obtain ⟨R', m, l, hA⟩ := createRegion_ok h2
    have := hA.id
    have := hA.nextRegion
    exact ⟨by rw [hA.cfg], by omega⟩
  | _ =>
    have hs := grown_step (by simp) h
    exact ⟨hs.cfg, hs.next.ge⟩

theorem cfg_exec {env : Env M} : ∀ {ops : List Op} {w w' : World M}, exec env ops w = .ok w' →
    { w'.cfg with globalPeriod := 0 } = { w.cfg with globalPeriod := 0 } := by
  intro ops
  induction ops with
  | nil =>
    intro w w' h
    cases h
    rfl
  | cons op ops ih =>
    intro w w' h
    obtain ⟨⟨x, w₁⟩, h1, h2⟩ := (Res.bind_eq_ok _ _ _).1 h
    exact (ih h2).trans (cfg_step h1).1

/-- Streams of old regions are not opened again. -/
theorem not_reopened {env : Env M} : ∀ {evs : List TEv} {w w' : World M} {o : List DiskOp} {r : ℕ} {p : Str},
    tracedExec env evs w = .ok (o, w') → r < w.nextRegion → .opened r p ∉ o := by
  intro evs
  induction evs with
  | nil =>
    intro w w' o r p h hr
    simp only [tracedExec, Except.ok.injEq, Prod.mk.injEq] at h
    obtain ⟨rfl, rfl⟩ := h
    simp
  | cons e evs ih =>
    intro w w' o r p h hr
    cases e with
    | flush r k =>
      simp only [tracedExec] at h
      obtain ⟨⟨o₁, w₁⟩, h1, h⟩ := (Res.bind_eq_ok _ _ _).1 h
      simp only [Except.ok.injEq, Prod.mk.injEq] at h
      obtain ⟨rfl, rfl⟩ := h
      simpa using ih h1 hr
    | call op =>
      simp only [tracedExec] at h
      obtain ⟨⟨o₁, w₁⟩, h1, h⟩ := (Res.bind_eq_ok _ _ _).1 h
      obtain ⟨⟨o₂, w₂⟩, h2, h⟩ := (Res.bind_eq_ok _ _ _).1 h
      simp only [Except.ok.injEq, Prod.mk.injEq] at h
      obtain ⟨rfl, rfl⟩ := h
      obtain ⟨x, hx⟩ := tracedStep_step h1
      have hle := (cfg_step hx).2
      have h3 := ih (r := r) (p := p) h2 (lt_of_lt_of_le hr hle)
      rw [List.mem_append, not_or]
      refine ⟨?_, h3⟩
      intro hin
      unfold tracedStep at h1
      obtain ⟨⟨x', w₃⟩, h4, h1⟩ := (Res.bind_eq_ok _ _ _).1 h1
      simp only at h1
      split at h1
      · split at h1
        next nf name n mt info yaml r' =>
          obtain ⟨R, hR, h1⟩ := (Res.bind_eq_ok _ _ _).1 h1
          simp only [Except.ok.injEq, Prod.mk.injEq] at h1
          obtain ⟨rfl, rfl⟩ := h1
          simp only [step] at h4
          obtain ⟨⟨r₁, w₄⟩, h5, h4⟩ := (Res.bind_eq_ok _ _ _).1 h4
          simp only [Except.ok.injEq, Prod.mk.injEq, Ret.region.injEq] at h4
          obtain ⟨rfl, rfl⟩ := h4
          obtain ⟨R', m, l, hA⟩ := createRegion_ok h5
          have := hA.id
          simp only [List.mem_cons, DiskOp.opened.injEq, reduceCtorEq, List.not_mem_nil, or_false] at hin
          omega
        · obtain ⟨w₄, h5, h1⟩ := (Res.bind_eq_ok _ _ _).1 h1
          simp only [Except.ok.injEq, Prod.mk.injEq] at h1
          obtain ⟨rfl, rfl⟩ := h1
          rcases List.mem_append.1 hin with hin | hin
          · obtain ⟨_, _, he, _⟩ := mem_puts hin
            cases he
          · simp at hin
        · simp only [Except.ok.injEq, Prod.mk.injEq] at h1
          obtain ⟨rfl, rfl⟩ := h1
          obtain ⟨_, _, he, _⟩ := mem_puts hin
          cases he
      · simp only [Except.ok.injEq, Prod.mk.injEq] at h1
        obtain ⟨rfl, rfl⟩ := h1
        simp at hin

/-- How the text of a trace reads. -/
theorem read_traceText {rank : ℤ} {mn name : Str} {nf : ℤ} {rows : List Row} (hk : Plain mn) (hn : Plain name) :
    readTable (traceText rank mn name nf rows) = traceTable rank mn name nf.toNat rows := by
  unfold traceText
  refine readTable_eq _ ?_ ?_
  · intro ws hws
    simp only [traceTable, List.mem_cons, List.mem_map] at hws
    rcases hws with rfl | ⟨x, -, rfl⟩
    · simp [Spec.headerColumns]
    · simp [rowColumns]
  · intro ws hws
    simp only [traceTable, List.mem_cons, List.mem_map] at hws
    rcases hws with rfl | ⟨x, -, rfl⟩
    · exact plain_headerColumns _
    · exact plain_rowColumns hk hn x

end Apollo
