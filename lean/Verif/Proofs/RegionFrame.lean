import Verif.Proofs.RegionWrite
import Verif.Spec.SharedFiles

/-!
# What a call does with the files of others

`mix` replaces the files a rank does not write.  Every function commutes with it if the files it reads
are the same, and leaves the files it does not write as they are.
-/

namespace Apollo.Frame

open Apollo Spec

variable {M : Type}

open Classical in
/-- The world with other contents of the files the rank does not write. -/
noncomputable def mix (env : Env M) (F : Str → Option Str) (w : World M) : World M :=
  { w with files := fun p => if Written env w.cfg p then w.files p else F p }

/-- The settings without the global period, which destroying a region ends. -/
def still (c : Cfg) : Cfg := { c with globalPeriod := 0 }

/-- The rank writes the file, or it is not replaced. -/
def Same (env : Env M) (F : Str → Option Str) (w : World M) (p : Str) : Prop :=
  Written env w.cfg p ∨ F p = w.files p

/-- Later in an execution. -/
structure Later (env : Env M) (w v : World M) : Prop where
  cfg : still v.cfg = still w.cfg
  files : ∀ p, ¬ Written env w.cfg p → v.files p = w.files p

theorem written_period {env : Env M} {c d : Cfg}
    (h : still c = still d) {p : Str}
    (hp : Written env c p) : Written env d p := by
  have e1 : c.outputDir = d.outputDir := by simpa [still] using congrArg Cfg.outputDir h
  have e2 : c.modelsDir = d.modelsDir := by simpa [still] using congrArg Cfg.modelsDir h
  have e3 : c.datasetsDir = d.datasetsDir := by simpa [still] using congrArg Cfg.datasetsDir h
  have e4 : c.persistent = d.persistent := by simpa [still] using congrArg Cfg.persistent h
  cases hp with
  | step s n hm =>
    unfold stepPath
    rw [e1, e2]
    exact .step s n hm
  | latest n hm =>
    unfold storePath
    rw [e1, e2]
    exact .latest n hm
  | best s n => exact .best s n
  | policies => exact .policies
  | gathered s => exact .gathered s
  | dataset n hp =>
    unfold datasetPath
    rw [e1, e3]
    exact .dataset n (e4 ▸ hp)

section
variable {env : Env M} {F : Str → Option Str}

theorem Later.written {w v : World M} (h : Later env w v) (p : Str) :
    Written env v.cfg p ↔ Written env w.cfg p :=
  ⟨written_period h.cfg, written_period h.cfg.symm⟩

theorem Later.of {w v : World M} (h1 : still v.cfg = still w.cfg)
    (h2 : v.files = w.files) : Later env w v := ⟨h1, fun _ _ => by rw [h2]⟩

theorem Later.refl (w : World M) : Later env w w := .of rfl rfl

theorem Later.trans {u v w : World M} (h : Later env u v) (h' : Later env v w) : Later env u w :=
  ⟨h'.cfg.trans h.cfg, fun p hp => (h'.files p (mt (h.written p).1 hp)).trans (h.files p hp)⟩

theorem Later.same {w v : World M} (h : Later env w v) {p : Str} (hp : Same env F w p) :
    Same env F v p := by
  by_cases hw : Written env w.cfg p
  · exact .inl ((h.written p).2 hw)
  · rcases hp with hp | hp
    · exact absurd hp hw
    · exact .inr (hp.trans (h.files p hw).symm)

theorem Later.datasets {w v : World M} (h : Later env w v)
    (hp : ∀ n, Same env F w (datasetPath w.cfg n)) (n : Str) : Same env F v (datasetPath v.cfg n) := by
  have e1 : v.cfg.outputDir = w.cfg.outputDir := by simpa [still] using congrArg Cfg.outputDir h.cfg
  have e3 : v.cfg.datasetsDir = w.cfg.datasetsDir := by simpa [still] using congrArg Cfg.datasetsDir h.cfg
  have := h.same (hp n)
  unfold datasetPath at this ⊢
  rwa [e1, e3]

theorem mix_cfg (w : World M) : (mix env F w).cfg = w.cfg := rfl
theorem mix_region (w : World M) (r : ℕ) : (mix env F w).region r = w.region r := rfl
theorem mix_model (w : World M) (r : ℕ) : (mix env F w).model r = w.model r := rfl
theorem mix_ctx (w : World M) (c : CtxPtr) : (mix env F w).ctx c = w.ctx c := rfl

theorem mix_files {w : World M} {p : Str} (h : Same env F w p) : (mix env F w).files p = w.files p := by
  unfold mix
  dsimp only
  split
  · rfl
  next hn => exact h.resolve_left hn

theorem mix_write {w : World M} {p : Str} (s : Option Str) (h : Written env w.cfg p) :
    mix env F (w.write env p s) = (mix env F w).write env p s := by
  unfold World.write
  cases s with
  | none => rfl
  | some s =>
    dsimp only
    split
    · unfold mix
      congr 1
      funext q
      by_cases hq : q = p
      · subst hq; simp [h]
      · simp [hq]
    · rfl

theorem write_later {w : World M} {p : Str} (s : Option Str) (h : Written env w.cfg p) :
    Later env w (w.write env p s) := by
  unfold World.write
  cases s with
  | none => exact Later.refl w
  | some s =>
    dsimp only
    split
    · refine ⟨rfl, fun q hq => ?_⟩
      have : q ≠ p := fun e => hq (e ▸ h)
      simp [this]
    · exact Later.refl w

end

/-! ## Simulation -/

/-- Results that carry a world. -/
class Carries (M : outParam Type) (β : Type) where
  over : (World M → World M) → β → β
  world : β → World M

instance : Carries M (World M) := ⟨fun f => f, id⟩
instance {α : Type} : Carries M (α × World M) := ⟨fun f x => (x.1, f x.2), Prod.snd⟩
instance {α : Type} : Carries M (World M × α) := ⟨fun f x => (f x.1, x.2), Prod.fst⟩

open Carries

/-- `y` is `x` with other contents of the files the rank does not write. -/
def Sim {β : Type} [Carries M β] (env : Env M) (F : Str → Option Str) (w : World M) (x y : Res β) :
    Prop :=
  (∃ v, x = .ok v ∧ y = .ok (over (mix env F) v) ∧ Later env w (world v)) ∨
  (∃ e, x = .error e ∧ y = .error e)

variable {env : Env M} {F : Str → Option Str}

section
variable {β γ : Type} [Carries M β] [Carries M γ] {w : World M}

theorem Sim.ok {v : β} (h : Later env w (world v)) : Sim env F w (.ok v) (.ok (over (mix env F) v)) :=
  .inl ⟨v, rfl, rfl, h⟩

theorem Sim.error (e : Err) : Sim (β := β) env F w (.error e) (.error e) := .inr ⟨e, rfl, rfl⟩

theorem Sim.weaken {v : World M} {x y : Res β} (h : Sim env F v x y) (hl : Later env w v) :
    Sim env F w x y := by
  rcases h with ⟨u, h1, h2, h3⟩ | h
  · exact .inl ⟨u, h1, h2, hl.trans h3⟩
  · exact .inr h

theorem Sim.read {δ : Type} {f g : δ → Res β} (a : Res δ)
    (h : ∀ b, a = .ok b → Sim env F w (f b) (g b)) : Sim env F w (a >>= f) (a >>= g) := by
  cases ha : a with
  | error e => exact Sim.error e
  | ok b => exact h b ha

theorem Sim.bind' {x y : Res β} {f : β → Res γ} (h : Sim env F w x y)
    (hf : ∀ v, Later env w (world v) → Sim env F (world v) (f v) (f (over (mix env F) v))) :
    Sim env F w (x >>= f) (y >>= f) := by
  rcases h with ⟨v, rfl, rfl, h3⟩ | ⟨e, rfl, rfl⟩
  · exact (hf v h3).weaken h3
  · exact Sim.error e

theorem Sim.bind {x y : Res β} {f : β → Res γ} (h : Sim env F w x y)
    (hf : ∀ v, Sim env F (world v) (f v) (f (over (mix env F) v))) : Sim env F w (x >>= f) (y >>= f) :=
  h.bind' fun v _ => hf v

theorem Sim.write {p : Str} (s : Option Str) (h : Written env w.cfg p) :
    Sim env F w (.ok (w.write env p s)) (.ok ((mix env F w).write env p s)) := by
  rw [← mix_write s h]
  exact Sim.ok (write_later s h)

end

/-! ## Training -/

/-- The part of training after the model is replaced. -/
def trainStore (env : Env M) (s : ℤ) (R : Region) (m' : M) (w : World M) : Res (World M) :=
  if w.cfg.retrain then .error .throw
  else if w.cfg.storeModels then do
    let t ← env.ops.store m'
    let w := w.write env (stepPath w.cfg env.rank (env.ops.name m') s R.name) t
    .ok (w.write env (storePath w.cfg env.rank (env.ops.name m') R.name) t)
  else .ok w

/-- The part of training after the trace. -/
def trainRest (env : Env M) (r : ℕ) (s : ℤ) (R : Region) (w : World M) : Res (World M) := do
  let m ← w.model r
  let m' ← env.ops.train w.tick R.dataset m
  trainStore env s R m' (((w.setModel r m').advance).emit (.trained r R.dataset))

theorem trainStore_sim (env : Env M) (s : ℤ) (R : Region) (m' : M) (w : World M) :
    Sim env F w (trainStore env s R m' w) (trainStore env s R m' (mix env F w)) := by
  unfold trainStore
  change Sim env F w _ (if w.cfg.retrain then _ else if w.cfg.storeModels then _ else _)
  split
  · exact Sim.error _
  · split
    · refine Sim.read _ fun t ht => ?_
      cases t with
      | none => exact Sim.ok (Later.refl w)
      | some t =>
      generalize ht' : some t = t at ht
      dsimp only
      have h1 : Written env w.cfg (stepPath w.cfg env.rank (env.ops.name m') s R.name) :=
        .step _ _ (ht'.symm ▸ ht)
      have h2 : Written env (w.write env (stepPath w.cfg env.rank (env.ops.name m') s R.name) t).cfg
          (storePath (w.write env (stepPath w.cfg env.rank (env.ops.name m') s R.name) t).cfg env.rank
            (env.ops.name m') R.name) := .latest _ (ht'.symm ▸ ht)
      have e : mix env F ((w.write env (stepPath w.cfg env.rank (env.ops.name m') s R.name) t).write env
          (storePath (w.write env (stepPath w.cfg env.rank (env.ops.name m') s R.name) t).cfg env.rank
            (env.ops.name m') R.name) t) = _ := (mix_write t h2).trans (by rw [mix_write t h1])
      have e2 : ((mix env F w).write env (stepPath (mix env F w).cfg env.rank (env.ops.name m') s
          R.name) t).cfg = (w.write env (stepPath w.cfg env.rank (env.ops.name m') s R.name) t).cfg := by
        rw [write_cfg, write_cfg]; rfl
      rw [e2]
      refine Eq.mp (congrArg (fun z => Sim env F w _ (.ok z)) e) (Sim.ok ?_)
      exact (write_later t h1).trans (write_later t h2)
    · exact Sim.ok (Later.refl w)

theorem trainRest_sim (env : Env M) (r : ℕ) (s : ℤ) (R : Region) (w : World M) :
    Sim env F w (trainRest env r s R w) (trainRest env r s R (mix env F w)) := by
  unfold trainRest
  rw [mix_model]
  refine Sim.read _ fun m _ => Sim.read (env.ops.train w.tick R.dataset m) fun m' _ => ?_
  exact (trainStore_sim env s R m' (((w.setModel r m').advance).emit (.trained r R.dataset))).weaken
    (Later.of rfl rfl)

theorem traceBest_sim (env : Env M) (w : World M) (R : Region) (s : ℤ) :
    Sim env F w (traceBest env w R s) (traceBest env (mix env F w) R s) := by
  unfold traceBest
  change Sim env F w _ (if w.cfg.traceBest then _ else _)
  split
  · exact Sim.read _ fun t _ => Sim.write _ (.best ..)
  · exact Sim.ok (Later.refl w)

theorem tracePolicy_sim (env : Env M) (w : World M) (R : Region) (m : M) (f : Features) (c : ℤ) :
    Sim env F w (tracePolicy env w R m f c) (tracePolicy env (mix env F w) R m f c) := by
  unfold tracePolicy
  change Sim env F w _ (if w.cfg.tracePolicy then _ else _)
  split
  · refine Sim.read _ fun t _ => ?_
    unfold World.append
    rw [mix_files (.inl (.policies : Written env w.cfg (policiesPath env.rank)))]
    exact Sim.write _ .policies
  · exact Sim.ok (Later.refl w)

theorem trainBody_sim (env : Env M) (w : World M) (r : ℕ) (s : ℤ) :
    Sim env F w (trainBody env w r s) (trainBody env (mix env F w) r s) := by
  unfold trainBody
  rw [mix_region]
  refine Sim.read _ fun R _ => ?_
  change Sim env F w _ (if R.dataset.size = 0 then _ else if !w.cfg.regionModel then _ else _)
  split
  · exact Sim.ok (Later.refl w)
  · split
    · exact Sim.error _
    · change Sim env F w (traceBest env w R s >>= trainRest env r s R)
        (traceBest env (mix env F w) R s >>= trainRest env r s R)
      exact (traceBest_sim env w R s).bind fun v => trainRest_sim env r s R v

theorem trainNoCollect_sim (env : Env M) (w : World M) (r : ℕ) (s : ℤ) (f : Bool) :
    Sim env F w (trainNoCollect env w r s f) (trainNoCollect env (mix env F w) r s f) := by
  unfold trainNoCollect
  rw [mix_model]
  refine Sim.read _ fun m _ => ?_
  split
  · exact Sim.ok (Later.refl w)
  · exact trainBody_sim env w r s

theorem mergeDatasets_mix (w : World M) (rs : List ℕ) (acc : Dataset) :
    mergeDatasets (mix env F w) rs acc = mergeDatasets w rs acc := by
  induction rs generalizing acc with
  | nil => rfl
  | cons r rs ih =>
    simp only [mergeDatasets]
    rw [mix_region]
    exact bind_congr fun R => ih _

theorem trainAllWith_sim (env : Env M) (ds : Dataset) (rs : List ℕ) (w : World M) :
    Sim env F w (trainAllWith env ds rs w) (trainAllWith env ds rs (mix env F w)) := by
  induction rs generalizing w with
  | nil => exact Sim.ok (Later.refl w)
  | cons r rs ih =>
    simp only [trainAllWith]
    rw [mix_region, mix_model]
    refine Sim.read _ fun R _ => Sim.read _ fun m _ => Sim.read (env.ops.train w.tick ds m) fun m' _ => ?_
    exact (ih _).weaken (Later.of rfl rfl)

theorem forRegions_sim {body : World M → ℕ → Res (World M)}
    (hb : ∀ w r, Sim env F w (body w r) (body (mix env F w) r)) (rs : List ℕ) (w : World M) :
    Sim env F w (forRegions body rs w) (forRegions body rs (mix env F w)) := by
  induction rs generalizing w with
  | nil => exact Sim.ok (Later.refl w)
  | cons r rs ih =>
    simp only [forRegions]
    exact (hb w r).bind fun v => ih v

theorem apolloTrainWith_sim (env : Env M) {one : World M → ℕ → Res (World M)}
    (hb : ∀ w r, Sim env F w (one w r) (one (mix env F w) r)) (w : World M) :
    Sim env F w (apolloTrainWith env one w) (apolloTrainWith env one (mix env F w)) := by
  unfold apolloTrainWith
  change Sim env F w _ (if w.cfg.collective then _ else if w.cfg.single then _ else _)
  split
  · exact Sim.error _
  · split
    · rw [mergeDatasets_mix]
      exact Sim.read _ fun ds _ => trainAllWith_sim env ds _ w
    · exact forRegions_sim hb _ w

theorem apolloTrainNoCollect_sim (env : Env M) (w : World M) (s : ℤ) :
    Sim env F w (apolloTrainNoCollect env w s) (apolloTrainNoCollect env (mix env F w) s) := by
  refine apolloTrainWith_sim env (fun w r => ?_) w
  unfold trainNoCollectOf
  rw [mix_region]
  exact Sim.read _ fun _ _ => trainNoCollect_sim env w r s false

theorem autoTrain_sim (env : Env M) (w : World M) (r : ℕ) :
    Sim env F w (autoTrain env w r) (autoTrain env (mix env F w) r) := by
  unfold autoTrain
  rw [mix_region, mix_model]
  refine Sim.read _ fun R _ => Sim.read _ fun m _ => ?_
  change Sim env F w _ (if !env.ops.isTrainable m then _ else
    if w.cfg.globalPeriod ≠ 0 ∧ w.executions % (w.cfg.globalPeriod % 2 ^ 64).toNat = 0 then _ else
    if w.cfg.perRegionPeriod ≠ 0 ∧ R.idx.tmod w.cfg.perRegionPeriod = 0 then _ else
    if 0 < R.minTraining ∧ R.minTraining ≤ R.dataset.size then _ else _)
  split
  · exact Sim.ok (Later.refl w)
  · split
    · exact apolloTrainNoCollect_sim env w _
    · split
      · exact trainNoCollect_sim env w r _ _
      · split
        · exact trainNoCollect_sim env w r _ _
        · exact Sim.ok (Later.refl w)

/-! ## Executions -/

theorem record_mix (env : Env M) (w : World M) (r : ℕ) (R : Region) (m : M) (c : CtxPtr) (C : Ctx)
    (x : ℚ) : record env (mix env F w) r R m c C x = mix env F (record env w r R m c C x) := by
  have e1 : (mix env F w).cfg.traceCsv = w.cfg.traceCsv := rfl
  have e2 : (mix env F w).cfg.persistent = w.cfg.persistent := rfl
  unfold record
  by_cases ht : w.cfg.traceCsv = true <;>
    by_cases hp : (w.cfg.persistent || env.ops.isTrainable m) = true
  · rw [if_pos ht, if_pos (show (mix env F w).cfg.traceCsv = true from ht)]
    dsimp only
    rw [if_pos hp, if_pos (show ((mix env F w).cfg.persistent || env.ops.isTrainable m) = true from hp),
      if_pos ht, if_pos (show (mix env F w).cfg.traceCsv = true from ht)]
    rfl
  · rw [if_pos ht, if_pos (show (mix env F w).cfg.traceCsv = true from ht)]
    dsimp only
    rw [if_neg hp, if_neg (show ¬ ((mix env F w).cfg.persistent || env.ops.isTrainable m) = true from hp),
      if_pos ht, if_pos (show (mix env F w).cfg.traceCsv = true from ht)]
    rfl
  · rw [if_neg ht, if_neg (show ¬ (mix env F w).cfg.traceCsv = true from ht)]
    dsimp only
    rw [if_pos hp, if_pos (show ((mix env F w).cfg.persistent || env.ops.isTrainable m) = true from hp),
      if_neg ht, if_neg (show ¬ (mix env F w).cfg.traceCsv = true from ht)]
    rfl
  · rw [if_neg ht, if_neg (show ¬ (mix env F w).cfg.traceCsv = true from ht)]
    dsimp only
    rw [if_neg hp, if_neg (show ¬ ((mix env F w).cfg.persistent || env.ops.isTrainable m) = true from hp),
      if_neg ht, if_neg (show ¬ (mix env F w).cfg.traceCsv = true from ht)]
    rfl

theorem record_later (env : Env M) (w : World M) (r : ℕ) (R : Region) (m : M) (c : CtxPtr) (C : Ctx)
    (x : ℚ) : Later env w (record env w r R m c C x) := by
  obtain ⟨f1, f2, f3, f4, f5, f6, f7, f8, f9, f10⟩ := record_frame env w r R m c C x
  exact Later.of (by rw [f1]) (by assumption)

theorem destroyContext_sim (w : World M) (r : ℕ) (c : CtxPtr) :
    Sim env F w (destroyContext w r c) (destroyContext (mix env F w) r c) := by
  unfold destroyContext
  split
  · exact Sim.ok (Later.refl w)
  · cases c with
    | sync _ => exact Sim.error _
    | heap n =>
      dsimp only
      rw [mix_ctx]
      exact Sim.read _ fun _ _ => Sim.ok (Later.of rfl rfl)

theorem collectContext_sim (env : Env M) (w : World M) (r : ℕ) (c : CtxPtr) (x : ℚ) :
    Sim env F w (collectContext env w r c x) (collectContext env (mix env F w) r c x) := by
  unfold collectContext
  rw [mix_region, mix_model, mix_ctx]
  refine Sim.read _ fun R _ => Sim.read _ fun m _ => Sim.read _ fun C _ => ?_
  dsimp only
  rw [record_mix]
  refine Sim.weaken ?_ (record_later env w r R m c C x)
  refine (autoTrain_sim env _ r).bind fun w₁ => ?_
  refine (destroyContext_sim _ r c).bind fun w₂ => ?_
  change Sim env F _ _ (w₂.region r >>= _)
  exact Sim.read _ fun R₂ _ => Sim.ok (Later.of rfl rfl)

theorem tryCollect_sim (env : Env M) (w : World M) (r : ℕ) (c : CtxPtr) :
    Sim env F w (tryCollect env w r c) (tryCollect env (mix env F w) r c) := by
  unfold tryCollect
  rw [mix_ctx]
  refine Sim.read _ fun C _ => ?_
  cases c with
  | sync r' =>
    dsimp only
    refine Sim.read _ fun x _ => ?_
    refine Sim.weaken ?_ (Later.of (w := w) (v := w.emit (.finished r (.sync r') x)) rfl rfl)
    exact (collectContext_sim env (w.emit (.finished r (.sync r') x)) r _ x).bind fun v =>
      Sim.ok (Later.refl _)
  | heap n =>
    dsimp only
    change Sim env F w _ (match env.poll w.tick w.log n with | .waiting => _ | .done x => _ | .failed => _)
    cases env.poll w.tick w.log n with
    | waiting => exact Sim.ok (Later.of rfl rfl)
    | failed => exact Sim.error _
    | done x =>
      dsimp only
      refine Sim.weaken ?_ (Later.of (w := w) (v := w.advance.emit (.finished r (.heap n) x))
        rfl rfl)
      exact (collectContext_sim env (w.advance.emit (.finished r (.heap n) x)) r _ x).bind fun v =>
        Sim.ok (Later.refl _)

theorem collectLoop_sim (env : Env M) (r : ℕ) (cs : List CtxPtr) (w : World M) :
    Sim env F w (collectLoop env r cs w) (collectLoop env r cs (mix env F w)) := by
  induction cs generalizing w with
  | nil => exact Sim.ok (Later.refl w)
  | cons c cs ih =>
    simp only [collectLoop]
    refine (tryCollect_sim env w r c).bind fun x => ?_
    obtain ⟨d, w₁⟩ := x
    exact (ih w₁).bind fun x => Sim.ok (Later.refl _)

theorem collectPending_sim (env : Env M) (w : World M) (r : ℕ) :
    Sim env F w (collectPending env w r) (collectPending env (mix env F w) r) := by
  unfold collectPending
  rw [mix_region]
  refine Sim.read _ fun R _ => ?_
  refine (collectLoop_sim env r R.pending w).bind fun x => ?_
  obtain ⟨kept, w₁⟩ := x
  change Sim env F _ _ (w₁.region r >>= _)
  exact Sim.read _ fun R₂ _ => Sim.ok (Later.of rfl rfl)

theorem regionTrain_sim (env : Env M) (w : World M) (r : ℕ) (s : ℤ) (c f : Bool) :
    Sim env F w (regionTrain env w r s c f) (regionTrain env (mix env F w) r s c f) := by
  unfold regionTrain
  rw [mix_region, mix_model]
  refine Sim.read _ fun R _ => Sim.read _ fun m _ => ?_
  split
  · exact Sim.ok (Later.refl w)
  · cases c with
    | false => exact trainBody_sim env w r s
    | true =>
      simp only [if_true]
      exact (collectPending_sim env w r).bind fun v => trainBody_sim env v r s

theorem apolloTrain_sim (env : Env M) (w : World M) (s : ℤ) (c : Bool) :
    Sim env F w (apolloTrain env w s c) (apolloTrain env (mix env F w) s c) :=
  apolloTrainWith_sim env (fun w r => regionTrain_sim env w r s c false) w

/-! ## The interface -/

theorem createContext_sim (env : Env M) (w : World M) (r : ℕ) (k : TimingKind) :
    Sim env F w (createContext env w r k) (createContext env (mix env F w) r k) := by
  unfold createContext
  cases k with
  | sync =>
    dsimp only
    rw [mix_ctx]
    exact Sim.read _ fun _ _ => Sim.ok (Later.of rfl rfl)
  | async =>
    dsimp only
    split
    · exact Sim.error _
    · exact Sim.ok (Later.of rfl rfl)

theorem begin_sim (env : Env M) (w : World M) (r : ℕ) (k : TimingKind) :
    Sim env F w (begin env w r k) (begin env (mix env F w) r k) := by
  unfold begin
  rw [mix_region]
  refine Sim.read _ fun R _ => ?_
  refine (createContext_sim env w r k).bind fun x => ?_
  obtain ⟨c, w₁⟩ := x
  change Sim env F _ _ (w₁.region r >>= _)
  refine Sim.read _ fun R _ => ?_
  change Sim env F _ _ (w₁.ctx c >>= _)
  refine Sim.read _ fun C _ => ?_
  split
  · exact Sim.ok (Later.of rfl rfl)
  · exact Sim.error _

theorem beginWith_sim (env : Env M) (w : World M) (r : ℕ) (f : Features) :
    Sim env F w (beginWith env w r f) (beginWith env (mix env F w) r f) := by
  unfold beginWith
  refine (begin_sim env w r _).bind fun x => ?_
  obtain ⟨c, w₁⟩ := x
  change Sim env F _ _ (w₁.ctx c >>= _)
  exact Sim.read _ fun C _ => Sim.ok (Later.of rfl rfl)

theorem setFeature_sim (w : World M) (c : CtxPtr) (v : ℚ) :
    Sim env F w (setFeature w c v) (setFeature (mix env F w) c v) := by
  unfold setFeature
  rw [mix_ctx]
  exact Sim.read _ fun C _ => Sim.ok (Later.of rfl rfl)

theorem getPolicyIndex_sim (env : Env M) (w : World M) (r : ℕ) (c : CtxPtr) :
    Sim env F w (getPolicyIndex env w r c) (getPolicyIndex env (mix env F w) r c) := by
  unfold getPolicyIndex
  rw [mix_region, mix_model, mix_ctx]
  refine Sim.read _ fun R _ => Sim.read _ fun m _ => Sim.read _ fun C hC => Sim.read _ fun x _ => ?_
  obtain ⟨p, m'⟩ := x
  dsimp only
  exact (tracePolicy_sim env w R m' C.features p).bind fun v => Sim.ok (Later.of rfl rfl)

theorem endMetric_sim (env : Env M) (w : World M) (r : ℕ) (c : CtxPtr) (x : ℚ) :
    Sim env F w (endMetric env w r c x) (endMetric env (mix env F w) r c x) := by
  unfold endMetric
  refine Sim.weaken ?_ (Later.of (w := w) (v := w.emit (.finished r c x)) rfl rfl)
  exact (collectContext_sim env (w.emit (.finished r c x)) r c x).bind fun v =>
    collectPending_sim env v r

theorem endCtx_sim (env : Env M) (w : World M) (r : ℕ) (c : CtxPtr) :
    Sim env F w (endCtx env w r c) (endCtx env (mix env F w) r c) := by
  unfold endCtx
  rw [mix_region, mix_ctx]
  refine Sim.read _ fun R _ => Sim.read _ fun C _ => ?_
  dsimp only
  split
  · refine Sim.read _ fun x _ => ?_
    exact (collectContext_sim env ((((w.setCtx c
      { C with stop := some (seconds (env.clock w.tick)) }).advance)).emit (.finished r c x)) r c
        x).weaken (Later.of rfl rfl)
  · exact (collectPending_sim env ((((w.setCtx c
      { C with stop := some (seconds (env.clock w.tick)) }).advance).setRegion r
        { R with pending := R.pending ++ [c] }).emit (.ended r c)) r).weaken
      (Later.of rfl rfl)

theorem currentCtx_mix (w : World M) (r : ℕ) : currentCtx (mix env F w) r = currentCtx w r := rfl

/-! ## Construction and destruction -/

theorem loadYaml_mix {env : Env M} {w : World M} {yaml : Str} {m : M}
    (h : yaml ≠ [] → Same env F w yaml) :
    loadYaml env (mix env F w) yaml m = loadYaml env w yaml m := by
  unfold loadYaml
  split
  · rfl
  next hy => rw [mix_files (h hy)]

theorem loadModel_mix {env : Env M} {w : World M} {name mn : Str} {ps : Params} {m : M}
    (h1 : ∀ v, ps.find "load".toList = some v → v ≠ [] → Same env F w v)
    (h2 : Same env F w (loadPath w.cfg env.rank mn name)) :
    loadModel env (mix env F w) name mn ps m = loadModel env w name mn ps m := by
  unfold loadModel
  split
  · rfl
  next v hv =>
    dsimp only
    rw [mix_files]
    · rfl
    · change Same env F w (if v = [] then loadPath w.cfg env.rank mn name else v)
      split
      · exact h2
      next hn => exact h1 v hv hn

theorem resolveStaticRegion_load {r mn info mn' info' v : Str} {ps ps' : Params}
    (h : resolveStaticRegion r mn ps info = .ok (mn', ps', info'))
    (hv : ps'.find "load".toList = some v) : ps.find "load".toList = some v := by
  unfold resolveStaticRegion at h
  split at h
  · split at h
    · cases h
    · cases h
      exact absurd hv (by simp [Params.find])
  · cases h; exact hv

theorem constructRegion_sim (env : Env M) (w : World M) (nf : ℤ) (name : Str) (n mt : ℤ)
    (info yaml : Str)
    (ho : ∀ p, Read env w.cfg (.create nf name n mt info yaml) p → Same env F w p) :
    Sim env F w (constructRegion env w nf name n mt info yaml)
      (constructRegion env (mix env F w) nf name n mt info yaml) := by
  unfold constructRegion
  dsimp only
  change Sim env F w _ (parsePolicyModel (if info = [] then w.cfg.policyModel else info) >>= _)
  refine Sim.read _ fun x h1 => ?_
  obtain ⟨mn, ps⟩ := x
  dsimp only
  refine Sim.read _ fun x h2 => ?_
  obtain ⟨mn', ps', info'⟩ := x
  dsimp only
  refine Sim.read (env.ops.create w.tick mn' nf n ps') fun m hm => ?_
  rw [loadYaml_mix fun h => ho _ (.yaml h)]
  refine Sim.read _ fun m' _ => ?_
  rw [loadModel_mix (fun v hv hn => ho _ (.given h1 (resolveStaticRegion_load h2 hv) hn))
    (ho _ (.latest hm))]
  refine Sim.read _ fun m'' _ => ?_
  exact Sim.ok (Later.of rfl rfl)

theorem loadPersistent_sim (env : Env M) (w : World M) (r : ℕ)
    (ho : ∀ n, Same env F w (datasetPath w.cfg n)) :
    Sim env F w (loadPersistent env w r) (loadPersistent env (mix env F w) r) := by
  unfold loadPersistent
  change Sim env F w _ (if !w.cfg.persistent then _ else _)
  split
  · exact Sim.ok (Later.refl w)
  · rw [mix_region]
    refine Sim.read _ fun R _ => ?_
    rw [mix_cfg, mix_files (ho _)]
    refine Sim.read _ fun ds _ => ?_
    exact (autoTrain_sim env (w.setRegion r { R with dataset := ds }) r).weaken
      (Later.of rfl rfl)

theorem loadDatasetParam_sim (env : Env M) (w : World M) (r : ℕ)
    (ho : ∀ n, Same env F w (datasetPath w.cfg n)) :
    Sim env F w (loadDatasetParam env w r) (loadDatasetParam env (mix env F w) r) := by
  unfold loadDatasetParam
  rw [mix_region]
  refine Sim.read _ fun R _ => ?_
  rw [mix_cfg, mix_files (ho _)]
  split
  · exact Sim.ok (Later.refl w)
  · cases w.files (datasetPath w.cfg R.name) with
    | none => exact Sim.error _
    | some s =>
      dsimp only
      refine Sim.read _ fun ds _ => ?_
      split
      · exact Sim.error _
      · exact (regionTrain_sim env (w.setRegion r { R with dataset := ds }) r _ _ _).weaken
          (Later.of rfl rfl)

theorem loadOptimalFile_sim (env : Env M) (w : World M) (r : ℕ)
    (ho : ∀ n, Same env F w (optimalPath env.rank n)) :
    Sim env F w (loadOptimalFile env w r) (loadOptimalFile env (mix env F w) r) := by
  unfold loadOptimalFile
  rw [mix_region]
  refine Sim.read _ fun R _ => ?_
  rw [mix_files (ho _)]
  split
  · cases w.files (optimalPath env.rank R.name) with
    | none => exact Sim.error _
    | some s =>
      dsimp only
      rw [mix_model]
      exact Sim.read _ fun m _ => Sim.read _ fun m _ => Sim.ok (Later.of rfl rfl)
  · exact Sim.ok (Later.refl w)

theorem loadDatasetMap_sim (env : Env M) (w : World M) (r : ℕ)
    (ho : ∀ n, Same env F w (datasetPath w.cfg n)) :
    Sim env F w (loadDatasetMap env w r) (loadDatasetMap env (mix env F w) r) := by
  unfold loadDatasetMap
  rw [mix_region]
  refine Sim.read _ fun R _ => ?_
  rw [mix_cfg, mix_files (ho _)]
  split
  · cases w.files (datasetPath w.cfg R.name) with
    | none => exact Sim.error _
    | some s =>
      dsimp only
      refine Sim.read _ fun ds _ => ?_
      split
      · exact Sim.error _
      · rw [mix_model]
        exact Sim.read _ fun m _ => Sim.read (env.ops.train w.tick ds m) fun m _ =>
          Sim.ok (Later.of rfl rfl)
  · exact Sim.ok (Later.refl w)

theorem startTrace_sim (env : Env M) (w : World M) (r : ℕ) :
    Sim env F w (startTrace env w r) (startTrace env (mix env F w) r) := by
  unfold startTrace
  rw [mix_region]
  refine Sim.read _ fun R _ => ?_
  change Sim env F w _ (if w.cfg.traceCsv then
    (if env.canWrite (tracePath w.cfg env.rank R.modelInfo R.name) then _ else _) else _)
  split
  · split
    · exact Sim.ok (Later.of rfl rfl)
    · exact Sim.error _
  · exact Sim.ok (Later.refl w)

theorem createRegion_sim (env : Env M) (w : World M) (nf : ℤ) (name : Str) (n mt : ℤ)
    (info yaml : Str)
    (ho : ∀ p, Read env w.cfg (.create nf name n mt info yaml) p → Same env F w p) :
    Sim env F w (createRegion env w nf name n mt info yaml)
      (createRegion env (mix env F w) nf name n mt info yaml) := by
  have hd : ∀ n, Same env F w (datasetPath w.cfg n) := fun n => ho _ .dataset
  have hp : ∀ n, Same env F w (optimalPath env.rank n) := fun n => ho _ .optimal
  unfold createRegion
  refine (constructRegion_sim env w nf name n mt info yaml ho).bind' fun x l₁ => ?_
  obtain ⟨r, w₁⟩ := x
  refine (loadPersistent_sim env w₁ r (l₁.datasets hd)).bind' fun w₂ l₂ => ?_
  have l₂ := l₁.trans l₂
  refine (loadDatasetParam_sim env w₂ r (l₂.datasets hd)).bind' fun w₃ l₃ => ?_
  have l₃ := l₂.trans l₃
  refine (loadOptimalFile_sim env w₃ r fun n => l₃.same (hp n)).bind' fun w₄ l₄ => ?_
  have l₄ := l₃.trans l₄
  refine (loadDatasetMap_sim env w₄ r (l₄.datasets hd)).bind fun w₅ => ?_
  refine (startTrace_sim env w₅ r).bind fun w₆ => ?_
  change Sim env F _ _ (w₆.region r >>= fun R => w₆.model r >>= _)
  exact Sim.read _ fun R _ => Sim.read _ fun m _ => Sim.ok (Later.of rfl rfl)

theorem drain_sim (env : Env M) (r : ℕ) (fuel : ℕ) (w : World M) :
    Sim env F w (drain env r fuel w) (drain env r fuel (mix env F w)) := by
  induction fuel generalizing w with
  | zero =>
    simp only [drain]
    rw [mix_region]
    refine Sim.read _ fun R _ => ?_
    split
    · exact Sim.ok (Later.refl w)
    · exact Sim.error _
  | succ fuel ih =>
    simp only [drain]
    rw [mix_region]
    refine Sim.read _ fun R _ => ?_
    split
    · exact Sim.ok (Later.refl w)
    · exact (collectPending_sim env w r).bind fun v => ih v

theorem destroyRegion_sim (env : Env M) (w : World M) (r : ℕ) (fuel : ℕ) :
    Sim env F w (destroyRegion env w r fuel) (destroyRegion env (mix env F w) r fuel) := by
  unfold destroyRegion
  rw [mix_region]
  refine Sim.read _ fun R _ => ?_
  dsimp only
  refine Sim.weaken ?_ (show Later env w { w with cfg := { w.cfg with globalPeriod := 0 } } from
    Later.of rfl rfl)
  have e0 : ({ mix env F w with cfg := { (mix env F w).cfg with globalPeriod := 0 } } : World M) =
      mix env F { w with cfg := { w.cfg with globalPeriod := 0 } } := by
    unfold mix
    dsimp only
    congr 1
    funext p
    have : Written env w.cfg p ↔ Written env { w.cfg with globalPeriod := 0 } p :=
      ⟨written_period (c := w.cfg) (d := { w.cfg with globalPeriod := 0 }) rfl,
        written_period (c := { w.cfg with globalPeriod := 0 }) (d := w.cfg) rfl⟩
    classical exact if_congr this rfl rfl
  rw [e0]
  refine (drain_sim env r fuel { w with cfg := { w.cfg with globalPeriod := 0 } }).bind fun w₁ => ?_
  change Sim env F _ _ (w₁.region r >>= _)
  refine Sim.read _ fun R _ => ?_
  change Sim env F w₁ (.ok (afterDestroy env w₁ r R)) (.ok (afterDestroy env (mix env F w₁) r R))
  by_cases hp : w₁.cfg.persistent = true
  · have e1 : (if (mix env F w₁).cfg.persistent then (mix env F w₁).write env
        (datasetPath (mix env F w₁).cfg R.name) (some R.dataset.store) else mix env F w₁) =
        mix env F (if w₁.cfg.persistent then w₁.write env (datasetPath w₁.cfg R.name)
          (some R.dataset.store) else w₁) := by
      change (if w₁.cfg.persistent then _ else _) = _
      rw [if_pos hp, if_pos hp, mix_write _ (.dataset _ hp)]
      rfl
    have e : afterDestroy env (mix env F w₁) r R = mix env F (afterDestroy env w₁ r R) := by
      unfold afterDestroy
      rw [e1]
      rfl
    rw [e]
    refine Sim.ok ?_
    show Later env w₁ (afterDestroy env w₁ r R)
    unfold afterDestroy
    rw [if_pos hp]
    exact (write_later _ (.dataset _ hp)).trans (Later.of rfl rfl)
  · have e : afterDestroy env (mix env F w₁) r R = mix env F (afterDestroy env w₁ r R) := by
      unfold afterDestroy
      rw [if_neg hp, if_neg (show ¬ (mix env F w₁).cfg.persistent = true from hp)]
      rfl
    rw [e]
    refine Sim.ok ?_
    show Later env w₁ (afterDestroy env w₁ r R)
    unfold afterDestroy
    rw [if_neg hp]
    exact Later.of rfl rfl

/-! ## Programs -/

theorem step_sim (env : Env M) (w : World M) (op : Op) (ho : ∀ p, Read env w.cfg op p → Same env F w p) :
    Sim env F w (step env w op) (step env (mix env F w) op) := by
  cases op with
  | create nf name n mt info yaml =>
    exact (createRegion_sim env w nf name n mt info yaml ho).bind fun x => Sim.ok (Later.refl _)
  | destroy r fuel => exact (destroyRegion_sim env w r fuel).bind fun x => Sim.ok (Later.refl _)
  | begin r kind => exact (begin_sim env w r kind).bind fun x => Sim.ok (Later.refl _)
  | beginWith r f => exact (beginWith_sim env w r f).bind fun x => Sim.ok (Later.refl _)
  | setFeature r c v => exact (setFeature_sim w c v).bind fun x => Sim.ok (Later.refl _)
  | getPolicyIndex r c =>
    exact (getPolicyIndex_sim env w r c).bind fun x => Sim.ok (Later.refl _)
  | endMetric r c m => exact (endMetric_sim env w r c m).bind fun x => Sim.ok (Later.refl _)
  | endCtx r c => exact (endCtx_sim env w r c).bind fun x => Sim.ok (Later.refl _)
  | setFeatureCur r v =>
    exact Sim.read (currentCtx w r) fun c _ => (setFeature_sim w c v).bind fun x => Sim.ok (Later.refl _)
  | getPolicyIndexCur r =>
    exact Sim.read (currentCtx w r) fun c _ =>
      (getPolicyIndex_sim env w r c).bind fun x => Sim.ok (Later.refl _)
  | endMetricCur r m =>
    exact Sim.read (currentCtx w r) fun c _ =>
      (endMetric_sim env w r c m).bind fun x => Sim.ok (Later.refl _)
  | endCur r =>
    exact Sim.read (currentCtx w r) fun c _ => (endCtx_sim env w r c).bind fun x => Sim.ok (Later.refl _)
  | collect r => exact (collectPending_sim env w r).bind fun x => Sim.ok (Later.refl _)
  | train r s c f => exact (regionTrain_sim env w r s c f).bind fun x => Sim.ok (Later.refl _)
  | trainAll s c => exact (apolloTrain_sim env w s c).bind fun x => Sim.ok (Later.refl _)

end Apollo.Frame
