import Verif.Proofs.RegionPending
import Verif.Model.RegionPolicy

/-!
# The dataset of a region holds the measurements of its executions
-/

namespace Apollo

open Spec

variable {M : Type}

/-- Models that are not trainable stay so. -/
structure Absorbing (ops : ModelOps M) : Prop where
  index : ∀ m f p m', ops.getIndex m f = .ok (p, m') → ops.isTrainable m' = true →
    ops.isTrainable m = true
  train : ∀ t ds m m', ops.train t ds m = .ok m' → ops.isTrainable m' = true →
    ops.isTrainable m = true

theorem Absorbing.retrained {env : Env M} (ha : Absorbing env.ops) {m m' : M}
    (h : Retrained env m m') (ht : env.ops.isTrainable m' = true) :
    env.ops.isTrainable m = true := by
  induction h with
  | refl => exact ht
  | tail _ h ih =>
    obtain ⟨t, ds, h⟩ := h
    exact ih (ha.train _ _ _ _ h ht)

/-- The measurements inserted in order. -/
def insertRows (ds : Dataset) (rows : List Row) : Dataset :=
  rows.foldl (fun ds x => ds.insert x.features x.policy x.metric) ds

/-- The datasets of regions that learn agree with the log. -/
def DataInv (env : Env M) (w : World M) : Prop :=
  ∀ r R m, w.regions r = some R → w.models r = some m →
    (w.cfg.persistent = true ∨ env.ops.isTrainable m = true) →
    (observe w.log).proper r = true →
    R.dataset = insertRows ((observe w.log).start r) ((observe w.log).rows r)

theorem LogInv.model_of {w : World M} (hw : LogInv w) {r : ℕ} {R : Region}
    (h : w.regions r = some R) : ∃ m, w.models r = some m := by
  have := hw.liveM r
  rw [h] at this
  exact Option.isSome_iff_exists.1 this

/-- Steps that change neither datasets nor what the observer knows of executions. -/
theorem DataInv.frame {env : Env M} {w w' : World M} (hw : DataInv env w)
    (hc : w'.cfg.persistent = w.cfg.persistent)
    (hr : ∀ r R, w'.regions r = some R → ∃ R', w.regions r = some R' ∧ R.dataset = R'.dataset)
    (hm : ∀ r m', w'.models r = some m' → ∃ m, w.models r = some m ∧
      (env.ops.isTrainable m' = true → env.ops.isTrainable m = true))
    (ho : (observe w'.log).proper = (observe w.log).proper)
    (h1 : (observe w'.log).start = (observe w.log).start)
    (h2 : (observe w'.log).rows = (observe w.log).rows) : DataInv env w' := by
  intro r R m hR hmm hl hp
  obtain ⟨R', hR', e⟩ := hr r R hR
  obtain ⟨m₀, hm₀, ht⟩ := hm r m hmm
  rw [e, h1, h2]
  refine hw r R' m₀ hR' hm₀ ?_ (by rw [← ho]; exact hp)
  rw [hc] at hl
  exact hl.imp id ht

theorem DataInv.finished {env : Env M} (ha : Absorbing env.ops) {w w' : World M} {r : ℕ}
    {c : CtxPtr} {metric : ℚ} {R : Region} {m : M} {C : Ctx} {l : List Ev} (hI : LogInv w)
    (hw : DataInv env w)
    (h : Collected env (w.emit (.finished r c metric)) r c metric R m C l w') : DataInv env w' := by
  have hob : observe w'.log = (observe w.log).next (.finished r c metric) := by
    rw [h.log, observe_trained _ _ h.events]; exact observe_snoc _ _
  have hR : w.regions r = some R := h.region
  have hC : w.ctxs c = some C := h.ctx
  have hM : w.models r = some m := h.model
  intro r' R' m' hR' hm' hl hp
  obtain ⟨m₀, hm₀, hch⟩ := h.chain r' m' hm'
  have hm₁ : w.models r' = some m₀ := hm₀
  rw [h.cfg] at hl
  have hl₁ : w.cfg.persistent = true ∨ env.ops.isTrainable m₀ = true := hl.imp id (ha.retrained hch)
  rw [hob] at hp ⊢
  simp only [Observer.next] at hp ⊢
  rw [h.regions] at hR'
  by_cases heq : r' = r
  · subst heq
    rw [hM] at hm₁
    cases hm₁
    rw [Function.update_self] at hp hR' ⊢
    cases hR'
    simp only [Bool.and_eq_true, beq_iff_eq] at hp
    obtain ⟨⟨⟨h1, h2⟩, h3⟩, h4⟩ := hp
    obtain ⟨p, hp⟩ := Option.isSome_iff_exists.1 h3
    have hf := hI.feats c C hC h2
    have hpo := hI.pol c C hC h2 p hp
    have hd := hw _ R m hR hM hl₁ h1
    have hle : learns env (w.emit (.finished r' c metric)) m = true := by
      simp only [learns, Bool.or_eq_true]
      exact hl₁
    simp only [recRegion, hle, if_true, insertRows, List.foldl_append, List.foldl_cons,
      List.foldl_nil, hp, Option.getD_some]
    rw [hf, hpo, hd]
    rfl
  · rw [Function.update_of_ne heq] at hR' hp ⊢
    exact hw r' R' m₀ hR' hm₁ hl₁ hp

theorem DataInv.stable {env : Env M} (ha : Absorbing env.ops) (F : ℕ → Prop) :
    Stable env F (fun w : World M => LogInv w ∧ DataInv env w) := by
  refine Stable.of ?_ ?_ ?_ ?_
  · rintro w l w' ht ⟨hI, hw⟩
    have ho : observe w'.log = observe w.log := by rw [ht.log, observe_trained _ _ ht.events]
    refine ⟨hI.trained ht, hw.frame (by rw [ht.cfg]) ?_ ?_ (by rw [ho]) (by rw [ho]) (by rw [ho])⟩
    · intro r R hR; rw [ht.regions] at hR; exact ⟨R, hR, rfl⟩
    · intro r m' hm
      obtain ⟨m, h1, h2⟩ := ht.chain r m' hm
      exact ⟨m, h1, ha.retrained h2⟩
  · rintro w c ⟨hI, hw⟩
    refine ⟨(LogInv.stable env F).waiting _ _ hI, hw.frame rfl (fun r R h => ⟨R, h, rfl⟩)
      (fun r m h => ⟨m, h, id⟩) ?_ ?_ ?_⟩
    all_goals show _ = _; simp only [World.emit]; rw [observe_snoc]; rfl
  · rintro w r c m w' ⟨hI, hw⟩ h
    obtain ⟨R, m, C, l, h1⟩ := collectContext_ok h
    exact ⟨hI.finished h1, hw.finished ha hI h1⟩
  · rintro w r R cs ⟨hI, hw⟩ hR
    refine ⟨(LogInv.stable env F).pending _ _ _ _ hI hR, hw.frame rfl ?_ (fun r m h => ⟨m, h, id⟩)
      rfl rfl rfl⟩
    intro r' R' h
    have h : Function.update w.regions r _ r' = some R' := h
    by_cases heq : r' = r
    · subst heq; rw [Function.update_self] at h; cases h; exact ⟨R, hR, rfl⟩
    · rw [Function.update_of_ne heq] at h; exact ⟨R', h, rfl⟩

/-- Steps that emit one event about a context. -/
theorem DataInv.emit {env : Env M} {w w' : World M} (hw : DataInv env w) (e : Ev)
    (hc : w'.cfg.persistent = w.cfg.persistent) (hr : w'.regions = w.regions)
    (hm : ∀ r m', w'.models r = some m' → ∃ m, w.models r = some m ∧
      (env.ops.isTrainable m' = true → env.ops.isTrainable m = true))
    (hl : w'.log = w.log ++ [e])
    (ho : ∀ o : Observer, (o.next e).proper = o.proper ∧ (o.next e).start = o.start ∧
      (o.next e).rows = o.rows) : DataInv env w' := by
  refine hw.frame hc (fun r R h => ⟨R, by rw [← hr]; exact h, rfl⟩) hm ?_ ?_ ?_
  all_goals rw [hl, observe_snoc]
  · exact (ho _).1
  · exact (ho _).2.1
  · exact (ho _).2.2

theorem DataInv.invariant {env : Env M} (ha : Absorbing env.ops) (F : ℕ → Prop) :
    Invariant env F (fun w : World M => LogInv w ∧ DataInv env w) where
  toKept := (DataInv.stable ha F).kept
  finish := (DataInv.stable ha F).finish
  created := by
    rintro w nf name n mt info yaml r w' ⟨hI, hw⟩ h
    refine ⟨(LogInv.invariant env F).created _ _ _ _ _ _ _ _ _ hI h, ?_⟩
    obtain ⟨R, m, l, h1⟩ := createRegion_ok h
    have hob : observe w'.log =
        (observe w.log).next (.created r R.dataset (env.ops.isTrainable m)) := by
      rw [h1.log, observe_snoc, observe_trained _ _ h1.events]
    intro r' R' m' hR' hm' hl hp
    rw [hob] at hp ⊢
    simp only [Observer.next] at hp ⊢
    rw [h1.regions] at hR'
    by_cases heq : r' = r
    · subst heq
      rw [Function.update_self] at hR' ⊢
      cases hR'
      rw [(observe_fresh_reg (r := r') _).2]
      · rfl
      · intro e he hc
        have := hI.evReg e he _ hc
        have := h1.id
        omega
    · rw [Function.update_of_ne heq] at hR' ⊢
      obtain ⟨m₀, hm₀, hch⟩ := h1.chain r' m' heq hm'
      rw [h1.cfg] at hl
      exact hw r' R' m₀ hR' hm₀ (hl.imp id (ha.retrained hch)) hp
  began := by
    rintro w r c R C w' ⟨hI, hw⟩ h
    refine ⟨hI.began h, hw.frame (by rw [h.cfg]) ?_ (fun r m hm => ⟨m, by rw [← h.models]; exact hm, id⟩)
      ?_ ?_ ?_⟩
    · intro r' R' h'
      rw [h.regions] at h'
      by_cases heq : r' = r
      · subst heq; rw [Function.update_self] at h'; cases h'; exact ⟨R, h.region, rfl⟩
      · rw [Function.update_of_ne heq] at h'; exact ⟨R', h', rfl⟩
    all_goals rw [h.log, observe_snoc]; rfl
  assigned := by
    rintro w c C f ⟨hI, hw⟩ hC
    exact ⟨(LogInv.invariant env F).assigned _ _ _ _ hI hC,
      hw.emit (.assigned c f) rfl rfl (fun r m h => ⟨m, h, id⟩) rfl (fun _ => ⟨rfl, rfl, rfl⟩)⟩
  feature := by
    rintro w c C v ⟨hI, hw⟩ hC
    exact ⟨(LogInv.invariant env F).feature _ _ _ _ hI hC,
      hw.emit (.feature c v) rfl rfl (fun r m h => ⟨m, h, id⟩) rfl (fun _ => ⟨rfl, rfl, rfl⟩)⟩
  chose := by
    rintro w r c R m C p m' ⟨hI, hw⟩ hR hm hC hp
    refine ⟨(LogInv.invariant env F).chose _ _ _ _ _ _ _ _ hI hR hm hC hp,
      hw.emit (.chose r c p) rfl rfl ?_ rfl (fun _ => ⟨rfl, rfl, rfl⟩)⟩
    intro r' m₁ h
    have h : Function.update w.models r (some m') r' = some m₁ := h
    by_cases heq : r' = r
    · subst heq
      rw [Function.update_self] at h
      cases h
      exact ⟨m, hm, ha.index _ _ _ _ hp⟩
    · rw [Function.update_of_ne heq] at h; exact ⟨m₁, h, id⟩
  stop := by
    rintro w c C t ⟨hI, hw⟩ hC
    exact ⟨(LogInv.invariant env F).stop _ _ _ _ hI hC,
      hw.frame rfl (fun r R h => ⟨R, h, rfl⟩) (fun r m h => ⟨m, h, id⟩) rfl rfl rfl⟩
  ended := by
    rintro w r c R ⟨hI, hw⟩ hR hC hne
    refine ⟨(LogInv.invariant env F).ended _ _ _ _ hI hR hC hne,
      hw.frame rfl ?_ (fun r m h => ⟨m, h, id⟩) ?_ ?_ ?_⟩
    · intro r' R' h'
      have h' : Function.update w.regions r _ r' = some R' := h'
      by_cases heq : r' = r
      · subst heq; rw [Function.update_self] at h'; cases h'; exact ⟨R, hR, rfl⟩
      · rw [Function.update_of_ne heq] at h'; exact ⟨R', h', rfl⟩
    all_goals simp only [World.emit, World.setRegion]; rw [observe_snoc]; rfl
  period := by
    rintro w ⟨hI, hw⟩
    exact ⟨(LogInv.invariant env F).period _ hI, hw⟩
  destroyed := by
    rintro w r R ⟨hI, hw⟩ hR hp
    obtain ⟨f1, f2, f3, f4, f5, f6, f7, f8, f9⟩ := afterDestroy_frame env w r R
    refine ⟨hI.destroyed hR, hw.frame (by rw [f8]) ?_ ?_ ?_ ?_ ?_⟩
    · intro r' R' h'
      rw [f1] at h'
      by_cases heq : r' = r
      · subst heq; simp at h'
      · rw [Function.update_of_ne heq] at h'; exact ⟨R', h', rfl⟩
    · intro r' m' h'
      rw [f2] at h'
      by_cases heq : r' = r
      · subst heq; simp at h'
      · rw [Function.update_of_ne heq] at h'; exact ⟨m', h', id⟩
    all_goals rw [f4, observe_snoc]; rfl

theorem dataInv_init (env : Env M) (cfg : Cfg) (files : Str → Option Str) :
    DataInv env (initWorld cfg files : World M) := by
  have hr : (initWorld cfg files : World M).regions = fun _ => none := rfl
  generalize (initWorld cfg files : World M) = w at hr
  intro r R m h
  rw [hr] at h
  cases h

/-- The models of the library. -/
theorem policyOps_absorbing (gen : ℕ → ℕ → ℕ) (tenv : ℕ → TrainEnv) :
    Absorbing (policyOps gen tenv) := by
  constructor
  · intro m f p m' h ht
    cases m with
    | tree n b e t =>
      cases b with
      | true => rfl
      | false =>
        simp only [policyOps, PolicyModel.getIndex, Bool.not_false, if_true] at h
        obtain ⟨c, _, h⟩ := (Res.bind_eq_ok _ _ _).1 h
        cases h
        exact ht
    | forest n b e t =>
      cases b with
      | true => rfl
      | false =>
        simp only [policyOps, PolicyModel.getIndex, Bool.not_false, if_true] at h
        obtain ⟨c, _, h⟩ := (Res.bind_eq_ok _ _ _).1 h
        cases h
        exact ht
    | null => cases h
    | static n c => cases h; exact ht
    | roundRobin n c =>
      simp only [policyOps, PolicyModel.getIndex] at h
      split at h <;> cases h
      exact ht
    | random n g =>
      simp only [policyOps, PolicyModel.getIndex] at h
      split at h <;> cases h <;> exact ht
    | optimal q =>
      cases q <;> cases h
      exact ht
    | datasetMap n b =>
      simp only [policyOps, PolicyModel.getIndex] at h
      split at h <;> cases h
      exact ht
  · intro t ds m m' h ht
    cases m with
    | tree n b e t =>
      obtain ⟨c, _, h⟩ := (Res.bind_eq_ok _ _ _).1 h
      cases h
      cases ht
    | forest n b e t =>
      obtain ⟨c, _, h⟩ := (Res.bind_eq_ok _ _ _).1 h
      cases h
      cases ht
    | null => cases h
    | static n c => cases h; exact ht
    | roundRobin n c => cases h; exact ht
    | random n g => cases h; exact ht
    | optimal q => cases h; exact ht
    | datasetMap n b => cases h; exact ht

end Apollo
