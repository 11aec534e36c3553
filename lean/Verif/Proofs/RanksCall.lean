import Verif.Proofs.Ranks
import Verif.Proofs.RegionTrain

/-!
# Several ranks: the calls between the collective trainings
-/

namespace Apollo.Ranks

open Apollo Apollo.Collective

variable {M : Type}

theorem record_models (env : Env M) (w : World M) (r : ℕ) (R : Region) (m : M) (c : CtxPtr) (C : Ctx)
    (x : ℚ) : (record env w r R m c C x).models = w.models ∧
      (record env w r R m c C x).cfg = w.cfg := by
  unfold record
  cases w.cfg.traceCsv <;> simp only [Bool.false_eq_true, if_false, if_true] <;> split <;> exact ⟨rfl, rfl⟩

/-- Without a collective training in it, collecting an execution is what it is for one process. -/
theorem collectCall_eq (env : Env M) (w : World M) (r : ℕ) (c : CtxPtr) (x : ℚ) (pending : Bool)
    (h : w.cfg.collective = false ∨ w.cfg.globalPeriod = 0) :
    collectCall env w r c x pending =
      (collectContext env w r c x >>= fun w => (if pending then collectPending env w r else .ok w)
        >>= fun w => .ok (w, none)) := by
  unfold collectCall
  cases hR : w.region r with
  | error e => simp only [collectContext, hR]; rfl
  | ok R =>
  cases hm : w.model r with
  | error e => simp only [collectContext, hR, hm, Res.bind_ok]; rfl
  | ok m =>
  cases hC : w.ctx c with
  | error e => simp only [collectContext, hR, hm, hC, Res.bind_ok]; rfl
  | ok C =>
  simp only [Res.bind_ok]
  obtain ⟨h1, h2⟩ := record_models env w r R m c C x
  have hm' : (record env w r R m c C x).model r = .ok m := by
    rw [World.model_ok] at hm ⊢; rw [h1]; exact hm
  have hd : globalDue env (record env w r R m c C x) r = .ok (env.ops.isTrainable m &&
      decide (w.cfg.globalPeriod ≠ 0 ∧
        (record env w r R m c C x).executions % (w.cfg.globalPeriod % 2 ^ 64).toNat = 0)) := by
    unfold globalDue
    rw [hm', Res.bind_ok, h2]
  rw [hd, Res.bind_ok]
  rw [if_neg (by rcases h with h | h <;> simp [h])]
  cases pending <;> rfl

theorem endCall_eq (env : Env M) (w : World M) (r : ℕ) (c : CtxPtr)
    (h : w.cfg.collective = false ∨ w.cfg.globalPeriod = 0) :
    endCall env w r c = (endCtx env w r c >>= fun w => .ok (w, none)) := by
  unfold endCall endCtx
  split
  · cases hR : w.region r with
    | error e => rfl
    | ok R =>
    cases hC : w.ctx c with
    | error e => rfl
    | ok C =>
    simp only [Res.bind_ok]
    cases hs : syncMetric { C with stop := some (seconds (env.clock w.tick)) } with
    | error e => rfl
    | ok x =>
    simp only [Res.bind_ok]
    rw [collectCall_eq _ _ _ _ _ _ (by exact h)]
    rfl
  · rfl

theorem endMetric_call_eq (env : Env M) (w : World M) (r : ℕ) (c : CtxPtr) (x : ℚ)
    (h : w.cfg.collective = false ∨ w.cfg.globalPeriod = 0) :
    collectCall env (w.emit (.finished r c x)) r c x true =
      (endMetric env w r c x >>= fun w => .ok (w, none)) := by
  rw [collectCall_eq _ _ _ _ _ _ (by exact h)]
  unfold endMetric
  cases collectContext env (w.emit (.finished r c x)) r c x <;> rfl

/-- With local training, or without a global period, a call is what it is for one process, unless it
is a collective training. -/
theorem call_eq_step (env : Env M) (w : World M) (op : Op)
    (h : w.cfg.collective = false ∨
      w.cfg.globalPeriod = 0 ∧ ∀ s c, op ≠ .trainAll s c) :
    call env w op = (step env w op >>= fun x => .ok (x.2, none)) := by
  have h' : w.cfg.collective = false ∨ w.cfg.globalPeriod = 0 := h.imp_right And.left
  cases op with
  | trainAll s c =>
    have hf : w.cfg.collective = false := h.resolve_right fun h => h.2 s c rfl
    simp only [call, hf, Bool.false_eq_true, if_false, step]
    cases apolloTrain env w s c <;> rfl
  | endMetric r c x =>
    simp only [call, step]
    rw [endMetric_call_eq env w r c x h']
    cases endMetric env w r c x <;> rfl
  | endMetricCur r x =>
    simp only [call, step]
    cases currentCtx w r with
    | error e => rfl
    | ok c =>
      simp only [Res.bind_ok]
      rw [endMetric_call_eq env w r c x h']
      cases endMetric env w r c x <;> rfl
  | endCtx r c =>
    simp only [call, step]
    rw [endCall_eq env w r c h']
    cases endCtx env w r c <;> rfl
  | endCur r =>
    simp only [call, step]
    cases currentCtx w r with
    | error e => rfl
    | ok c =>
      simp only [Res.bind_ok]
      rw [endCall_eq env w r c h']
      cases endCtx env w r c <;> rfl
  | _ => rfl

/-! ## Collective training at the calls of `Apollo::train` only -/

/-- Collective training without a global period. -/
def Explicit (w : World M) : Prop := w.cfg.collective = true ∧ w.cfg.globalPeriod = 0

theorem Explicit.of {w w' : World M} (h : Explicit w) (e : w'.cfg = w.cfg) : Explicit w' := by
  unfold Explicit; rw [e]; exact h

theorem Explicit.stable (env : Env M) (F : ℕ → Prop) : Stable env F (Explicit (M := M)) := by
  refine Stable.of ?_ ?_ ?_ ?_
  · intro w l w' ht hw; exact hw.of ht.cfg
  · intro w c hw; exact hw.of rfl
  · intro w r c m w' hw h
    obtain ⟨R, m', C, l, h1⟩ := collectContext_ok h
    exact hw.of h1.cfg
  · intro w r R cs hw hR; exact hw.of rfl

theorem Explicit.invariant (env : Env M) (F : ℕ → Prop) : Invariant env F (Explicit (M := M)) where
  toKept := (Explicit.stable env F).kept
  finish := (Explicit.stable env F).finish
  created := by
    intro w nf name n mt info yaml r w' hw h
    obtain ⟨R, m, l, h1⟩ := createRegion_ok h
    exact hw.of h1.cfg
  began := fun w r c R C w' hw h => hw.of h.cfg
  assigned := fun w c C f hw _ => hw.of rfl
  feature := fun w c C v hw _ => hw.of rfl
  chose := fun w r c R m C p m' hw _ _ _ _ => hw.of rfl
  stop := fun w c C t hw _ => hw.of rfl
  ended := fun w r c R hw _ _ _ => hw.of rfl
  period := fun w hw => ⟨hw.1, rfl⟩
  destroyed := by
    intro w r R hw _ _
    obtain ⟨f1, f2, f3, f4, f5, f6, f7, f8, f9⟩ := afterDestroy_frame env w r R
    exact hw.of f8

end Apollo.Ranks
