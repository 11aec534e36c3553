import Verif.Proofs.RegionInv

/-!
# The state of regions and contexts agrees with the observed events
-/

namespace Apollo

open Spec

variable {M : Type}

theorem observe_snoc (h : List Ev) (e : Ev) : observe (h ++ [e]) = (observe h).next e := by
  simp [observe]

theorem observe_trained (h l : List Ev) (hl : ∀ e ∈ l, ∃ r ds, e = Ev.trained r ds) :
    observe (h ++ l) = observe h := by
  induction l using List.reverseRecOn with
  | nil => simp
  | append_singleton l e ih =>
    rw [← List.append_assoc, observe_snoc, ih fun e he => hl e (by simp [he])]
    obtain ⟨r, ds, rfl⟩ := hl e (by simp)
    rfl

/-- The context an event is about (those the observer looks at). -/
def evCtx : Ev → Option CtxPtr
  | .began _ c => some c
  | .assigned c _ => some c
  | .feature c _ => some c
  | .chose _ c _ => some c
  | .ended _ c => some c
  | .finished _ c _ => some c
  | _ => none

/-- The region an event is about. -/
def evRegion : Ev → Option ℕ
  | .created r _ _ => some r
  | .began r _ => some r
  | .chose r _ _ => some r
  | .ended r _ => some r
  | .finished r _ _ => some r
  | .destroyed r => some r
  | _ => none

/-- The context was allocated. -/
def Known (w : World M) : CtxPtr → Prop
  | .sync r => r < w.nextRegion
  | .heap n => n < w.nextCtx

/-- The state agrees with the log. -/
structure LogInv (w : World M) : Prop where
  regFresh : ∀ r, w.nextRegion ≤ r → w.regions r = none
  ctxFresh : ∀ c C, w.ctxs c = some C → Known w c
  evCtx : ∀ e ∈ w.log, ∀ c, evCtx e = some c → Known w c
  evReg : ∀ e ∈ w.log, ∀ r, evRegion e = some r → r < w.nextRegion
  live : ∀ r, (w.ctxs (.sync r)).isSome = (w.regions r).isSome
  liveM : ∀ r, (w.models r).isSome = (w.regions r).isSome
  count : w.executions = (observe w.log).finished
  idx : ∀ r R, w.regions r = some R → R.idx = (observe w.log).begins r
  cidx : ∀ c C, w.ctxs c = some C → C.idx = (observe w.log).index c
  feats : ∀ c C, w.ctxs c = some C → (observe w.log).isOpen c = true →
    C.features = (observe w.log).features c
  pol : ∀ c C, w.ctxs c = some C → (observe w.log).isOpen c = true →
    ∀ p, (observe w.log).policy c = some p → C.policy = p

/-- Nothing is known about contexts and regions that no event is about. -/
theorem observe_fresh_ctx {h : List Ev} {c : CtxPtr} (hc : ∀ e ∈ h, evCtx e ≠ some c) :
    (observe h).index c = 0 ∧ (observe h).isOpen c = false ∧ (observe h).owner c = none := by
  induction h using List.reverseRecOn with
  | nil => simp [observe]
  | append_singleton h e ih =>
    have ih := ih fun e he => hc e (by simp [he])
    have hn := hc e (by simp)
    rw [observe_snoc]
    cases e <;> simp only [Observer.next] <;> simp only [evCtx, ne_eq, Option.some.injEq] at hn <;>
      simp [ih, Ne.symm hn]

theorem observe_fresh_reg {h : List Ev} {r : ℕ} (hc : ∀ e ∈ h, evRegion e ≠ some r) :
    (observe h).begins r = 0 ∧ (observe h).rows r = [] := by
  induction h using List.reverseRecOn with
  | nil => simp [observe]
  | append_singleton h e ih =>
    have ih := ih fun e he => hc e (by simp [he])
    have hn := hc e (by simp)
    rw [observe_snoc]
    cases e <;> simp only [Observer.next] <;>
      simp only [evRegion, ne_eq, Option.some.injEq] at hn <;> simp [ih, Ne.symm hn]

theorem logInv_init (cfg : Cfg) (files : Str → Option Str) :
    LogInv (initWorld cfg files : World M) := by
  have hr : (initWorld cfg files : World M).regions = fun _ => none := rfl
  have hc : (initWorld cfg files : World M).ctxs = fun _ => none := rfl
  have hl : (initWorld cfg files : World M).log = [] := rfl
  have hm : (initWorld cfg files : World M).models = fun _ => none := rfl
  have hx : (initWorld cfg files : World M).executions = 0 := rfl
  generalize (initWorld cfg files : World M) = w at hr hc hl hm hx
  refine ⟨?_, ?_, ?_, ?_, ?_, ?_, ?_, ?_, ?_, ?_, ?_⟩ <;> simp [hr, hc, hl, hm, hx, observe]

theorem LogInv.trained {env : Env M} {w w' : World M} {l : List Ev} (h : Trained env w l w')
    (hw : LogInv w) : LogInv w' := by
  have ho : observe w'.log = observe w.log := by rw [h.log, observe_trained _ _ h.events]
  have hk : ∀ c, Known w' c ↔ Known w c := by
    intro c; cases c <;> simp [Known, h.nextRegion, h.nextCtx]
  have he : ∀ e ∈ l, Apollo.evCtx e = none ∧ evRegion e = none := by
    intro e he
    obtain ⟨r, ds, rfl⟩ := h.events e he
    exact ⟨rfl, rfl⟩
  refine ⟨?_, ?_, ?_, ?_, ?_, ?_, ?_, ?_, ?_, ?_, ?_⟩
  · intro r hr; rw [h.regions]; exact hw.regFresh r (by rw [← h.nextRegion]; exact hr)
  · intro c C hC; rw [hk]; exact hw.ctxFresh c C (by rw [← h.ctxs]; exact hC)
  · intro e hm c hc
    rw [hk]
    rw [h.log] at hm
    rcases List.mem_append.1 hm with hm | hm
    · exact hw.evCtx e hm c hc
    · rw [(he e hm).1] at hc; cases hc
  · intro e hm c hc
    rw [h.nextRegion]
    rw [h.log] at hm
    rcases List.mem_append.1 hm with hm | hm
    · exact hw.evReg e hm c hc
    · rw [(he e hm).2] at hc; cases hc
  · intro r; rw [h.ctxs, h.regions]; exact hw.live r
  · intro r; rw [h.live, h.regions]; exact hw.liveM r
  · rw [h.executions, ho]; exact hw.count
  · intro r R hR; rw [ho]; exact hw.idx r R (by rw [← h.regions]; exact hR)
  · intro c C hC; rw [ho]; exact hw.cidx c C (by rw [← h.ctxs]; exact hC)
  · intro c C hC hop; rw [ho] at hop ⊢; exact hw.feats c C (by rw [← h.ctxs]; exact hC) hop
  · intro c C hC hop; rw [ho] at hop ⊢; exact hw.pol c C (by rw [← h.ctxs]; exact hC) hop

/-- The observer knows as much about each context and region as before. -/
theorem LogInv.same {w w' : World M} (hw : LogInv w) (e : Ev)
    (ho : (observe w.log).next e = observe w.log)
    (hr : ∀ r, (w'.regions r).isSome = (w.regions r).isSome)
    (hi : ∀ r R, w'.regions r = some R → ∃ R', w.regions r = some R' ∧ R.idx = R'.idx)
    (hn : w'.nextRegion = w.nextRegion) (hm : ∀ r, (w'.models r).isSome = (w.models r).isSome)
    (hc : w'.ctxs = w.ctxs) (hnc : w'.nextCtx = w.nextCtx) (hx : w'.executions = w.executions)
    (hl : w'.log = w.log ++ [e]) (hec : ∀ c, Apollo.evCtx e = some c → Known w c)
    (her : ∀ r, evRegion e = some r → r < w.nextRegion) : LogInv w' := by
  have hob : observe w'.log = observe w.log := by rw [hl, observe_snoc, ho]
  have hk : ∀ c, Known w' c ↔ Known w c := by
    intro c; cases c <;> simp [Known, hn, hnc]
  refine ⟨?_, ?_, ?_, ?_, ?_, ?_, ?_, ?_, ?_, ?_, ?_⟩
  · intro r h
    have h1 := hw.regFresh r (by rw [← hn]; exact h)
    have h2 := hr r
    rw [h1] at h2
    simpa using h2
  · intro c C hC; rw [hk]; exact hw.ctxFresh c C (by rw [← hc]; exact hC)
  · intro e' hm c hc
    rw [hk]
    rw [hl] at hm
    rcases List.mem_append.1 hm with hm | hm
    · exact hw.evCtx e' hm c hc
    · rw [List.mem_singleton] at hm; subst hm; exact hec c hc
  · intro e' hm c hc
    rw [hn]
    rw [hl] at hm
    rcases List.mem_append.1 hm with hm | hm
    · exact hw.evReg e' hm c hc
    · rw [List.mem_singleton] at hm; subst hm; exact her c hc
  · intro r; rw [hc, hr]; exact hw.live r
  · intro r; rw [hm, hr]; exact hw.liveM r
  · rw [hx, hob]; exact hw.count
  · intro r R hR
    obtain ⟨R', h1, h2⟩ := hi r R hR
    rw [hob, h2]; exact hw.idx r R' h1
  · intro c C hC; rw [hob]; exact hw.cidx c C (by rw [← hc]; exact hC)
  · intro c C hC hop; rw [hob] at hop ⊢; exact hw.feats c C (by rw [← hc]; exact hC) hop
  · intro c C hC hop; rw [hob] at hop ⊢; exact hw.pol c C (by rw [← hc]; exact hC) hop

/-- A context that is assigned, with an event about it. -/
theorem LogInv.setCtx {w w' : World M} (hw : LogInv w) (c : CtxPtr) (C C' : Ctx) (e : List Ev)
    (hC : w.ctxs c = some C)
    (ho : ∀ o : Observer, (e.foldl Observer.next o).isOpen = o.isOpen ∧
      (e.foldl Observer.next o).finished = o.finished ∧
      (e.foldl Observer.next o).begins = o.begins ∧ (e.foldl Observer.next o).index = o.index)
    (hoc : ∀ (o : Observer) c', c' ≠ c →
      (e.foldl Observer.next o).features c' = o.features c' ∧
      (e.foldl Observer.next o).policy c' = o.policy c')
    (hf : ∀ o : Observer, C.features = o.features c → C'.features = (e.foldl Observer.next o).features c)
    (hp : ∀ o : Observer, (∀ p, o.policy c = some p → C.policy = p) →
      ∀ p, (e.foldl Observer.next o).policy c = some p → C'.policy = p)
    (hci : C'.idx = C.idx) (hcs : w'.ctxs = Function.update w.ctxs c (some C'))
    (hr : w'.regions = w.regions)
    (hn : w'.nextRegion = w.nextRegion) (hm : ∀ r, (w'.models r).isSome = (w.models r).isSome)
    (hnc : w'.nextCtx = w.nextCtx) (hx : w'.executions = w.executions)
    (hl : w'.log = w.log ++ e) (hec : ∀ e' ∈ e, ∀ c, Apollo.evCtx e' = some c → Known w c)
    (her : ∀ e' ∈ e, ∀ r, evRegion e' = some r → r < w.nextRegion) : LogInv w' := by
  have hob : observe w'.log = e.foldl Observer.next (observe w.log) := by
    rw [hl, observe, List.foldl_append]; rfl
  obtain ⟨h1, h2, h3, h4⟩ := ho (observe w.log)
  have hk : ∀ c, Known w' c ↔ Known w c := by
    intro c; cases c <;> simp [Known, hn, hnc]
  have hcc : ∀ c' C₁, w'.ctxs c' = some C₁ → (c' = c ∧ C₁ = C') ∨ (c' ≠ c ∧ w.ctxs c' = some C₁) := by
    intro c' C₁ h
    by_cases heq : c' = c
    · subst heq
      rw [hcs, Function.update_self] at h
      exact .inl ⟨rfl, (Option.some.inj h).symm⟩
    · rw [hcs, Function.update_of_ne heq] at h
      exact .inr ⟨heq, h⟩
  refine ⟨?_, ?_, ?_, ?_, ?_, ?_, ?_, ?_, ?_, ?_, ?_⟩
  · intro r h; rw [hr]; exact hw.regFresh r (by rw [← hn]; exact h)
  · intro c' C₁ h
    rw [hk]
    rcases hcc c' C₁ h with ⟨rfl, rfl⟩ | ⟨_, h⟩
    · exact hw.ctxFresh _ C hC
    · exact hw.ctxFresh _ _ h
  · intro e' hm c hc
    rw [hk]
    rw [hl] at hm
    rcases List.mem_append.1 hm with hm | hm
    · exact hw.evCtx e' hm c hc
    · exact hec e' hm c hc
  · intro e' hm c hc
    rw [hn]
    rw [hl] at hm
    rcases List.mem_append.1 hm with hm | hm
    · exact hw.evReg e' hm c hc
    · exact her e' hm c hc
  · intro r
    rw [hr, ← hw.live r, hcs]
    by_cases heq : CtxPtr.sync r = c
    · subst heq; simp [hC]
    · rw [Function.update_of_ne heq]
  · intro r; rw [hm, hr]; exact hw.liveM r
  · rw [hx, hob, h2]; exact hw.count
  · intro r R hR; rw [hob, h3]; exact hw.idx r R (by rw [← hr]; exact hR)
  · intro c' C₁ h
    rw [hob, h4]
    rcases hcc c' C₁ h with ⟨rfl, rfl⟩ | ⟨_, h⟩
    · rw [hci]; exact hw.cidx _ _ hC
    · exact hw.cidx _ _ h
  · intro c' C₁ h hop
    rw [hob, h1] at hop
    rw [hob]
    rcases hcc c' C₁ h with ⟨rfl, rfl⟩ | ⟨hne, h⟩
    · exact hf _ (hw.feats _ _ hC hop)
    · rw [(hoc _ c' hne).1]; exact hw.feats _ _ h hop
  · intro c' C₁ h hop
    rw [hob, h1] at hop
    rw [hob]
    rcases hcc c' C₁ h with ⟨rfl, rfl⟩ | ⟨hne, h⟩
    · exact hp _ (hw.pol _ _ hC hop)
    · rw [(hoc _ c' hne).2]; exact hw.pol _ _ h hop

theorem LogInv.region_lt {w : World M} (hw : LogInv w) {r : ℕ} {R : Region}
    (h : w.regions r = some R) : r < w.nextRegion := by
  by_contra hn
  rw [hw.regFresh r (by omega)] at h
  cases h

theorem LogInv.began {env : Env M} {w w' : World M} {r : ℕ} {c : CtxPtr} {R : Region} {C : Ctx}
    (hw : LogInv w) (h : BeganAs env w r c R C w') : LogInv w' := by
  have hob : observe w'.log = (observe w.log).next (.began r c) := by rw [h.log, observe_snoc]
  have hmono : ∀ c', Known w c' → Known w' c' := by
    intro c' hk
    rcases h.ctx with ⟨_, _, hn⟩ | ⟨_, _, hn⟩ <;>
      cases c' <;> simp only [Known, h.nextRegion, hn] at hk ⊢ <;> omega
  have hk : Known w' c := by
    rcases h.ctx with ⟨rfl, hC, _⟩ | ⟨rfl, _, hn⟩
    · exact hmono _ (hw.ctxFresh _ _ hC)
    · simp [Known, hn]
  have hr := hw.region_lt h.region
  have hcc : ∀ c' C₁, w'.ctxs c' = some C₁ →
      (c' = c ∧ C₁.features = [] ∧ C₁.idx = R.idx.toNat) ∨ (c' ≠ c ∧ w.ctxs c' = some C₁) := by
    intro c' C₁ h'
    by_cases heq : c' = c
    · subst heq
      rw [h.ctxs, Function.update_self] at h'
      cases h'
      exact .inl ⟨rfl, rfl, rfl⟩
    · rw [h.ctxs, Function.update_of_ne heq] at h'
      exact .inr ⟨heq, h'⟩
  have hidx := hw.idx r R h.region
  refine ⟨?_, ?_, ?_, ?_, ?_, ?_, ?_, ?_, ?_, ?_, ?_⟩
  · intro r' h'
    rw [h.nextRegion] at h'
    rw [h.regions, Function.update_of_ne (by omega)]
    exact hw.regFresh r' h'
  · intro c' C₁ h'
    rcases hcc c' C₁ h' with ⟨rfl, _⟩ | ⟨_, h'⟩
    · exact hk
    · exact hmono _ (hw.ctxFresh _ _ h')
  · intro e hm c' hc
    rw [h.log] at hm
    rcases List.mem_append.1 hm with hm | hm
    · exact hmono _ (hw.evCtx e hm c' hc)
    · rw [List.mem_singleton] at hm; subst hm
      cases hc; exact hk
  · intro e hm r' hc
    rw [h.log] at hm
    rw [h.nextRegion]
    rcases List.mem_append.1 hm with hm | hm
    · exact hw.evReg e hm r' hc
    · rw [List.mem_singleton] at hm; subst hm
      cases hc; exact hr
  · intro r'
    rw [h.regions, h.ctxs]
    have := hw.live r'
    by_cases heq : r' = r
    · subst heq
      rw [Function.update_self]
      rw [h.region] at this
      by_cases hc : CtxPtr.sync r' = c
      · subst hc; simp
      · rw [Function.update_of_ne hc, this]; rfl
    · rw [Function.update_of_ne heq, ← this, Function.update_of_ne]
      rcases h.ctx with ⟨rfl, _⟩ | ⟨rfl, _⟩
      · simpa using heq
      · simp
  · intro r'
    rw [h.models, h.regions, hw.liveM]
    by_cases heq : r' = r
    · subst heq; simp [h.region]
    · rw [Function.update_of_ne heq]
  · rw [h.executions, hob]; exact hw.count
  · intro r' R' h'
    rw [hob]
    simp only [Observer.next]
    by_cases heq : r' = r
    · subst heq
      rw [h.regions, Function.update_self] at h'
      cases h'
      simp [hidx]
    · rw [h.regions, Function.update_of_ne heq] at h'
      rw [Function.update_of_ne heq]
      exact hw.idx r' R' h'
  · intro c' C₁ h'
    rw [hob]
    simp only [Observer.next]
    rcases hcc c' C₁ h' with ⟨rfl, _, h2⟩ | ⟨hne, h'⟩
    · simp [h2, hidx]
    · rw [Function.update_of_ne hne]; exact hw.cidx _ _ h'
  · intro c' C₁ h'
    rw [hob]
    simp only [Observer.next]
    rcases hcc c' C₁ h' with ⟨rfl, h2, _⟩ | ⟨hne, h'⟩
    · simp [h2]
    · rw [Function.update_of_ne hne, Function.update_of_ne hne]; exact hw.feats _ _ h'
  · intro c' C₁ h'
    rw [hob]
    simp only [Observer.next]
    rcases hcc c' C₁ h' with ⟨rfl, h2, _⟩ | ⟨hne, h'⟩
    · simp
    · rw [Function.update_of_ne hne, Function.update_of_ne hne]; exact hw.pol _ _ h'

theorem recRegion_idx (env : Env M) (w : World M) (R : Region) (m : M) (C : Ctx) (metric : ℚ) :
    (recRegion env w R m C metric).idx = R.idx := by
  simp only [recRegion]

theorem recCtx_idx (env : Env M) (w : World M) (m : M) (C : Ctx) :
    (recCtx env w m C).idx = C.idx := by
  simp only [recCtx]

theorem LogInv.finished {env : Env M} {w w' : World M} {r : ℕ} {c : CtxPtr} {metric : ℚ}
    {R : Region} {m : M} {C : Ctx} {l : List Ev} (hw : LogInv w)
    (h : Collected env (w.emit (.finished r c metric)) r c metric R m C l w') : LogInv w' := by
  have hob : observe w'.log = (observe w.log).next (.finished r c metric) := by
    rw [h.log, observe_trained _ _ h.events]; exact observe_snoc _ _
  have hk : ∀ c', Known w' c' ↔ Known w c' := by
    intro c'
    cases c' <;> simp [Known, h.nextRegion, h.nextCtx, World.emit]
  have hR : w.regions r = some R := h.region
  have hC : w.ctxs c = some C := h.ctx
  have hr := hw.region_lt hR
  have hcc : ∀ c' C₁, w'.ctxs c' = some C₁ →
      (c' = c ∧ c = .sync r ∧ C₁.idx = C.idx) ∨ (c' ≠ c ∧ w.ctxs c' = some C₁) := by
    intro c' C₁ h'
    by_cases heq : c' = c
    · subst heq
      rw [h.ctxs, Function.update_self] at h'
      split at h'
      · cases h'
        exact .inl ⟨rfl, by assumption, recCtx_idx _ _ _ _⟩
      · cases h'
    · rw [h.ctxs, Function.update_of_ne heq] at h'
      exact .inr ⟨heq, h'⟩
  have hev : ∀ e ∈ w'.log, e ∈ w.log ∨ e = .finished r c metric ∨ ∃ r ds, e = .trained r ds := by
    intro e hm
    rw [h.log] at hm
    rcases List.mem_append.1 hm with hm | hm
    · rcases List.mem_append.1 hm with hm | hm
      · exact .inl hm
      · exact .inr (.inl (List.mem_singleton.1 hm))
    · exact .inr (.inr (h.events e hm))
  refine ⟨?_, ?_, ?_, ?_, ?_, ?_, ?_, ?_, ?_, ?_, ?_⟩
  · intro r' h'
    rw [h.nextRegion] at h'
    have h' : w.nextRegion ≤ r' := h'
    rw [h.regions, Function.update_of_ne (by omega)]
    exact hw.regFresh r' h'
  · intro c' C₁ h'
    rw [hk]
    rcases hcc c' C₁ h' with ⟨rfl, _⟩ | ⟨_, h'⟩
    · exact hw.ctxFresh _ _ hC
    · exact hw.ctxFresh _ _ h'
  · intro e hm c' hc
    rw [hk]
    rcases hev e hm with hm | rfl | ⟨r, ds, rfl⟩
    · exact hw.evCtx e hm c' hc
    · cases hc; exact hw.ctxFresh _ _ hC
    · cases hc
  · intro e hm r' hc
    rw [h.nextRegion]
    rcases hev e hm with hm | rfl | ⟨r, ds, rfl⟩
    · exact hw.evReg e hm r' hc
    · cases hc; exact hr
    · cases hc
  · intro r'
    have := hw.live r'
    rw [h.regions, h.ctxs]
    show (Function.update w.ctxs c _ _).isSome = (Function.update w.regions r _ _).isSome
    by_cases heq : r' = r
    · subst heq
      rw [hR] at this
      rw [Function.update_self]
      by_cases hc : CtxPtr.sync r' = c
      · subst hc; simp
      · rw [Function.update_of_ne hc, this]; rfl
    · rw [Function.update_of_ne heq, ← this, Function.update_of_ne]
      rcases h.own with rfl | ⟨n, rfl⟩
      · simpa using heq
      · simp
  · intro r'
    rw [h.live, h.regions]
    show (w.models r').isSome = (Function.update w.regions r _ _).isSome
    rw [hw.liveM]
    by_cases heq : r' = r
    · subst heq; simp [hR]
    · rw [Function.update_of_ne heq]
  · rw [h.executions, hob]
    simp only [Observer.next, World.emit, hw.count]
  · intro r' R' h'
    rw [hob]
    simp only [Observer.next]
    by_cases heq : r' = r
    · subst heq
      rw [h.regions, Function.update_self] at h'
      cases h'
      rw [recRegion_idx]
      exact hw.idx _ _ hR
    · rw [h.regions, Function.update_of_ne heq] at h'
      exact hw.idx r' R' h'
  · intro c' C₁ h'
    rw [hob]
    simp only [Observer.next]
    rcases hcc c' C₁ h' with ⟨rfl, _, h2⟩ | ⟨hne, h'⟩
    · rw [h2]; exact hw.cidx _ _ hC
    · exact hw.cidx _ _ h'
  · intro c' C₁ h'
    rw [hob]
    simp only [Observer.next]
    rcases hcc c' C₁ h' with ⟨rfl, h2, _⟩ | ⟨hne, h'⟩
    · simp
    · rw [Function.update_of_ne hne]; exact hw.feats _ _ h'
  · intro c' C₁ h'
    rw [hob]
    simp only [Observer.next]
    rcases hcc c' C₁ h' with ⟨rfl, h2, _⟩ | ⟨hne, h'⟩
    · simp
    · rw [Function.update_of_ne hne]; exact hw.pol _ _ h'

theorem LogInv.created {env : Env M} {w w' : World M} {nf n mt : ℤ} {name yaml : Str} {r : ℕ}
    {R : Region} {m : M} {l : List Ev} (hw : LogInv w)
    (h : CreatedAs env w nf name n mt yaml r R m l w') : LogInv w' := by
  have hob : observe w'.log =
      (observe w.log).next (.created r R.dataset (env.ops.isTrainable m)) := by
    rw [h.log, observe_snoc, observe_trained _ _ h.events]
  have hmono : ∀ c', Known w c' → Known w' c' := by
    intro c' hk
    have := h.id
    cases c' <;> simp only [Known, h.nextRegion, h.nextCtx] at hk ⊢ <;> omega
  have hid := h.id
  have hcc : ∀ c' C₁, w'.ctxs c' = some C₁ →
      (c' = .sync r ∧ C₁ = {}) ∨ (c' ≠ .sync r ∧ w.ctxs c' = some C₁) := by
    intro c' C₁ h'
    by_cases heq : c' = .sync r
    · subst heq
      rw [h.ctxs, Function.update_self] at h'
      cases h'
      exact .inl ⟨rfl, rfl⟩
    · rw [h.ctxs, Function.update_of_ne heq] at h'
      exact .inr ⟨heq, h'⟩
  have hfresh := observe_fresh_ctx (h := w.log) (c := .sync r) (by
    intro e he hc
    have : r < w.nextRegion := hw.evCtx e he _ hc
    omega)
  have hev : ∀ e ∈ w'.log, e ∈ w.log ∨ e = .created r R.dataset (env.ops.isTrainable m) ∨
      ∃ r ds, e = .trained r ds := by
    intro e hm
    rw [h.log] at hm
    rcases List.mem_append.1 hm with hm | hm
    · rcases List.mem_append.1 hm with hm | hm
      · exact .inl hm
      · exact .inr (.inr (h.events e hm))
    · exact .inr (.inl (List.mem_singleton.1 hm))
  refine ⟨?_, ?_, ?_, ?_, ?_, ?_, ?_, ?_, ?_, ?_, ?_⟩
  · intro r' h'
    rw [h.nextRegion] at h'
    rw [h.regions, Function.update_of_ne (by omega)]
    exact hw.regFresh r' (by omega)
  · intro c' C₁ h'
    rcases hcc c' C₁ h' with ⟨rfl, _⟩ | ⟨_, h'⟩
    · simp [Known, h.nextRegion]
    · exact hmono _ (hw.ctxFresh _ _ h')
  · intro e hm c' hc
    rcases hev e hm with hm | rfl | ⟨r, ds, rfl⟩
    · exact hmono _ (hw.evCtx e hm c' hc)
    · cases hc
    · cases hc
  · intro e hm r' hc
    rw [h.nextRegion]
    rcases hev e hm with hm | rfl | ⟨r, ds, rfl⟩
    · have := hw.evReg e hm r' hc; omega
    · cases hc; omega
    · cases hc
  · intro r'
    have := hw.live r'
    rw [h.regions, h.ctxs]
    by_cases heq : r' = r
    · subst heq; simp
    · rw [Function.update_of_ne heq, ← this, Function.update_of_ne (by simpa using heq)]
  · intro r'
    rw [h.regions]
    by_cases heq : r' = r
    · subst heq; simp [h.model]
    · rw [Function.update_of_ne heq, h.live r' heq, hw.liveM]
  · rw [h.executions, hob]; exact hw.count
  · intro r' R' h'
    rw [hob]; simp only [Observer.next]
    by_cases heq : r' = r
    · subst heq
      rw [h.regions, Function.update_self] at h'
      cases h'
      rw [h.idx, (observe_fresh_reg _).1]; rfl
      intro e he hc
      have := hw.evReg e he _ hc
      omega
    · rw [h.regions, Function.update_of_ne heq] at h'
      exact hw.idx r' R' h'
  · intro c' C₁ h'
    rw [hob]; simp only [Observer.next]
    rcases hcc c' C₁ h' with ⟨rfl, rfl⟩ | ⟨hne, h'⟩
    · rw [hfresh.1]
    · exact hw.cidx _ _ h'
  · intro c' C₁ h'
    rw [hob]; simp only [Observer.next]
    rcases hcc c' C₁ h' with ⟨rfl, rfl⟩ | ⟨hne, h'⟩
    · rw [hfresh.2.1]; simp
    · exact hw.feats _ _ h'
  · intro c' C₁ h'
    rw [hob]; simp only [Observer.next]
    rcases hcc c' C₁ h' with ⟨rfl, rfl⟩ | ⟨hne, h'⟩
    · rw [hfresh.2.1]; simp
    · exact hw.pol _ _ h'

theorem LogInv.destroyed {w : World M} {r : ℕ} {R : Region} (hw : LogInv w)
    (hR : w.regions r = some R) : LogInv (afterDestroy env w r R) := by
  have hf : ∃ w₁ : World M, w₁.regions = w.regions ∧ w₁.models = w.models ∧ w₁.ctxs = w.ctxs ∧
      w₁.log = w.log ∧ w₁.nextRegion = w.nextRegion ∧ w₁.nextCtx = w.nextCtx ∧
      w₁.executions = w.executions ∧ afterDestroy env w r R = ({ w₁ with
        regions := Function.update w₁.regions r none
        models := Function.update w₁.models r none
        ctxs := Function.update w₁.ctxs (.sync r) none } : World M).emit (.destroyed r) := by
    obtain ⟨f, hf⟩ := afterDestroy_eq env w r R
    exact ⟨{ w with files := f }, rfl, rfl, rfl, rfl, rfl, rfl, rfl, hf⟩
  obtain ⟨w₁, h1, h2, h3, h4, h5, h6, h7, h8⟩ := hf
  rw [h8]
  have hob : observe (w₁.log ++ [.destroyed r]) = observe w.log := by rw [observe_snoc, h4]; rfl
  have hk : ∀ c, Known w₁ c ↔ Known w c := by
    intro c; cases c <;> simp [Known, h5, h6]
  have hcc : ∀ c' C₁, (Function.update w₁.ctxs (.sync r) none) c' = some C₁ →
      w.ctxs c' = some C₁ := by
    intro c' C₁ h'
    by_cases heq : c' = .sync r
    · subst heq; simp at h'
    · rw [Function.update_of_ne heq, h3] at h'; exact h'
  refine ⟨?_, ?_, ?_, ?_, ?_, ?_, ?_, ?_, ?_, ?_, ?_⟩
  · intro r' h'
    show Function.update w₁.regions r none r' = none
    by_cases heq : r' = r
    · subst heq; simp
    · rw [Function.update_of_ne heq, h1]
      exact hw.regFresh r' (by rw [← h5]; exact h')
  · intro c' C₁ h'
    exact (hk c').2 (hw.ctxFresh c' C₁ (hcc c' C₁ h'))
  · intro e hm c' hc
    refine (hk c').2 ?_
    rcases List.mem_append.1 hm with hm | hm
    · exact hw.evCtx e (by rw [← h4]; exact hm) c' hc
    · rw [List.mem_singleton] at hm; subst hm; cases hc
  · intro e hm r' hc
    show r' < w₁.nextRegion
    rw [h5]
    rcases List.mem_append.1 hm with hm | hm
    · exact hw.evReg e (by rw [← h4]; exact hm) r' hc
    · rw [List.mem_singleton] at hm; subst hm; cases hc; exact hw.region_lt hR
  · intro r'
    show (Function.update w₁.ctxs (.sync r) none (.sync r')).isSome =
      (Function.update w₁.regions r none r').isSome
    by_cases heq : r' = r
    · subst heq; simp
    · rw [Function.update_of_ne heq, Function.update_of_ne (by simpa using heq), h1, h3]
      exact hw.live r'
  · intro r'
    show (Function.update w₁.models r none r').isSome =
      (Function.update w₁.regions r none r').isSome
    by_cases heq : r' = r
    · subst heq; simp
    · rw [Function.update_of_ne heq, Function.update_of_ne heq, h1, h2]
      exact hw.liveM r'
  · show w₁.executions = (observe (w₁.log ++ [.destroyed r])).finished
    rw [hob, h7]; exact hw.count
  · intro r' R' h'
    have h' : Function.update w₁.regions r none r' = some R' := h'
    show R'.idx = (observe (w₁.log ++ [.destroyed r])).begins r'
    rw [hob]
    by_cases heq : r' = r
    · subst heq; simp at h'
    · rw [Function.update_of_ne heq, h1] at h'
      exact hw.idx r' R' h'
  · intro c' C₁ h'
    show C₁.idx = (observe (w₁.log ++ [.destroyed r])).index c'
    rw [hob]
    exact hw.cidx _ _ (hcc _ _ h')
  · intro c' C₁ h'
    show (observe (w₁.log ++ [.destroyed r])).isOpen c' = true →
      C₁.features = (observe (w₁.log ++ [.destroyed r])).features c'
    rw [hob]
    exact hw.feats _ _ (hcc _ _ h')
  · intro c' C₁ h'
    show (observe (w₁.log ++ [.destroyed r])).isOpen c' = true →
      ∀ p, (observe (w₁.log ++ [.destroyed r])).policy c' = some p → C₁.policy = p
    rw [hob]
    exact hw.pol _ _ (hcc _ _ h')

/-- Changing other members of a region. -/
theorem LogInv.setRegion {w : World M} (hw : LogInv w) {r : ℕ} {R R' : Region}
    (hR : w.regions r = some R) (hi : R'.idx = R.idx) : LogInv (w.setRegion r R') := by
  refine ⟨?_, hw.ctxFresh, hw.evCtx, hw.evReg, ?_, ?_, hw.count, ?_, hw.cidx, hw.feats, hw.pol⟩
  · intro r' h'
    show Function.update w.regions r _ r' = none
    rw [Function.update_of_ne]
    · exact hw.regFresh r' h'
    · rintro rfl
      rw [hw.regFresh _ h'] at hR; cases hR
  · intro r'
    show (w.ctxs _).isSome = (Function.update w.regions r _ r').isSome
    rw [hw.live]
    by_cases heq : r' = r
    · subst heq; simp [hR]
    · rw [Function.update_of_ne heq]
  · intro r'
    show (w.models _).isSome = (Function.update w.regions r _ r').isSome
    rw [hw.liveM]
    by_cases heq : r' = r
    · subst heq; simp [hR]
    · rw [Function.update_of_ne heq]
  · intro r' R₁ h'
    have h' : Function.update w.regions r _ r' = some R₁ := h'
    by_cases heq : r' = r
    · subst heq
      rw [Function.update_self] at h'
      cases h'
      rw [hi]; exact hw.idx _ _ hR
    · rw [Function.update_of_ne heq] at h'; exact hw.idx _ _ h'

theorem LogInv.stable (env : Env M) (F : ℕ → Prop) : Stable env F (LogInv (M := M)) := by
  refine Stable.of (fun w l w' h hw => hw.trained h) ?_ ?_ ?_
  · intro w c hw
    exact hw.same (.waiting c) rfl (fun _ => rfl) (fun _ R h => ⟨R, h, rfl⟩) rfl (fun _ => rfl) rfl rfl
      rfl rfl (fun _ h => by cases h) (fun _ h => by cases h)
  · intro w r c m w' hw h
    obtain ⟨R, m, C, l, h1⟩ := collectContext_ok h
    exact hw.finished h1
  · intro w r R cs hw hR
    exact hw.setRegion hR rfl

theorem LogInv.invariant (env : Env M) (F : ℕ → Prop) : Invariant env F (LogInv (M := M)) where
  toKept := (LogInv.stable env F).kept
  finish := (LogInv.stable env F).finish
  created := by
    intro w nf name n mt info yaml r w' hw h
    obtain ⟨R, m, l, h1⟩ := createRegion_ok h
    exact hw.created h1
  began := fun w r c R C w' hw h => hw.began h
  assigned := by
    intro w c C f hw hC
    refine hw.setCtx c C { C with features := f } [.assigned c f] hC ?_ ?_ ?_ ?_ rfl rfl rfl rfl
      (fun _ => rfl) rfl rfl rfl ?_ ?_
    · intro o; simp [Observer.next]
    · intro o c' h; simp [Observer.next, h]
    · intro o h; simp [Observer.next]
    · intro o h; simpa [Observer.next] using h
    · intro e he c' hc
      rw [List.mem_singleton] at he; subst he; cases hc
      exact hw.ctxFresh _ _ hC
    · intro e he r hc
      rw [List.mem_singleton] at he; subst he; cases hc
  feature := by
    intro w c C v hw hC
    refine hw.setCtx c C { C with features := C.features ++ [v] } [.feature c v] hC ?_ ?_ ?_ ?_ rfl
      rfl rfl rfl (fun _ => rfl) rfl rfl rfl ?_ ?_
    · intro o; simp [Observer.next]
    · intro o c' h; simp [Observer.next, h]
    · intro o h; simp [Observer.next, h]
    · intro o h; simpa [Observer.next] using h
    · intro e he c' hc
      rw [List.mem_singleton] at he; subst he; cases hc
      exact hw.ctxFresh _ _ hC
    · intro e he r hc
      rw [List.mem_singleton] at he; subst he; cases hc
  chose := by
    intro w r c R m C p m' hw hR hm hC hp
    refine hw.setCtx c C { C with policy := p } [.chose r c p] hC ?_ ?_ ?_ ?_ rfl
      rfl rfl rfl ?_ rfl rfl rfl ?_ ?_
    · intro o; simp [Observer.next]
    · intro o c' h; simp [Observer.next, h]
    · intro o h; simpa [Observer.next] using h
    · intro o h; simp [Observer.next]
    · intro r'
      show (Function.update w.models r _ r').isSome = _
      by_cases heq : r' = r
      · subst heq; simp [hm]
      · rw [Function.update_of_ne heq]
    · intro e he c' hc
      rw [List.mem_singleton] at he; subst he; cases hc
      exact hw.ctxFresh _ _ hC
    · intro e he r hc
      rw [List.mem_singleton] at he; subst he; cases hc
      exact hw.region_lt hR
  stop := by
    intro w c C t hw hC
    refine hw.setCtx c C { C with stop := some t } [] hC ?_ ?_ ?_ ?_ rfl
      rfl rfl rfl (fun _ => rfl) rfl rfl (by simp [World.setCtx]) ?_ ?_ <;> simp
  ended := by
    intro w r c R hw hR hC hne
    refine (hw.setRegion (R' := { R with pending := R.pending ++ [c] }) hR rfl).same (.ended r c) rfl
      (fun _ => rfl) (fun _ R h => ⟨R, h, rfl⟩) rfl (fun _ => rfl) rfl rfl rfl rfl ?_ ?_
    · intro c' hc
      cases hc
      obtain ⟨C, hC⟩ := Option.isSome_iff_exists.1 hC
      exact hw.ctxFresh _ _ hC
    · intro r' hr
      cases hr
      exact hw.region_lt hR
  period := by
    intro w hw
    exact ⟨hw.1, hw.2, hw.3, hw.4, hw.5, hw.6, hw.7, hw.8, hw.9, hw.10, hw.11⟩
  destroyed := by
    intro w r R hw hR hp
    exact hw.destroyed hR

end Apollo
