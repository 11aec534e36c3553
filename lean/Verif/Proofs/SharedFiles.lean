import Verif.Proofs.RegionFrame
import Verif.Model.SharedFiles

/-!
# Ranks with one file system and ranks with files of their own
-/

namespace Apollo.Frame

open Apollo Spec Ranks Collective

variable {M : Type} {env : Env M} {F : Str → Option Str}

/-! ## The calls of a rank -/

theorem globalDue_mix (env : Env M) (w : World M) (r : ℕ) :
    globalDue env (mix env F w) r = globalDue env w r := rfl

theorem collectCall_sim (env : Env M) (w : World M) (r : ℕ) (c : CtxPtr) (x : ℚ) (pending : Bool) :
    Sim env F w (collectCall env w r c x pending) (collectCall env (mix env F w) r c x pending) := by
  unfold collectCall
  rw [mix_region, mix_model, mix_ctx]
  refine Sim.read _ fun R _ => Sim.read _ fun m _ => Sim.read _ fun C _ => ?_
  dsimp only
  rw [record_mix, globalDue_mix]
  refine Sim.read _ fun due _ => ?_
  change Sim env F w _ (if w.cfg.collective && due then _ else _)
  split
  · exact Sim.ok (record_later env w r R m c C x)
  · refine (collectContext_sim env w r c x).bind fun v => ?_
    cases pending with
    | false => exact Sim.ok (Later.refl _)
    | true => exact (collectPending_sim env v r).bind fun u => Sim.ok (Later.refl _)

theorem endCall_sim (env : Env M) (w : World M) (r : ℕ) (c : CtxPtr) :
    Sim env F w (endCall env w r c) (endCall env (mix env F w) r c) := by
  unfold endCall
  split
  · rw [mix_region, mix_ctx]
    refine Sim.read _ fun R _ => Sim.read _ fun C _ => ?_
    dsimp only
    refine Sim.read _ fun x _ => ?_
    exact (collectCall_sim env ((((w.setCtx c
      { C with stop := some (seconds (env.clock w.tick)) }).advance)).emit (.finished r c x)) r c
        x false).weaken (Later.of rfl rfl)
  · exact (endCtx_sim env w r c).bind fun v => Sim.ok (Later.refl _)

theorem call_sim (env : Env M) (w : World M) (op : Op)
    (ho : ∀ p, Read env w.cfg op p → Same env F w p) :
    Sim env F w (call env w op) (call env (mix env F w) op) := by
  have hs : Sim env F w (step env w op >>= fun x => .ok (x.2, (none : Option Wait)))
      (step env (mix env F w) op >>= fun x => .ok (x.2, (none : Option Wait))) :=
    (step_sim env w op ho).bind fun x => Sim.ok (Later.refl _)
  cases op with
  | trainAll s c =>
    change Sim env F w (if w.cfg.collective then _ else _) (if w.cfg.collective then _ else _)
    split
    · exact Sim.ok (v := (w, some (Wait.train s c))) (Later.refl _)
    · exact (apolloTrain_sim env w s c).bind fun v => Sim.ok (Later.refl _)
  | endMetric r c m =>
    exact (collectCall_sim env (w.emit (.finished r c m)) r c m true).weaken (Later.of rfl rfl)
  | endMetricCur r m =>
    exact Sim.read (currentCtx w r) fun c _ =>
      (collectCall_sim env (w.emit (.finished r c m)) r c m true).weaken (Later.of rfl rfl)
  | endCtx r c => exact endCall_sim env w r c
  | endCur r => exact Sim.read (currentCtx w r) fun c _ => endCall_sim env w r c
  | _ => exact hs

/-! ## The collective training of a rank -/

theorem traceGather_sim (env : Env M) (s : ℤ) (ms : List Msg) (w : World M) :
    Sim env F w (traceGather env s ms w) (traceGather env s ms (mix env F w)) := by
  unfold traceGather
  change Sim env F w _ (if w.cfg.traceAllgather then _ else _)
  split
  · exact Sim.read _ fun t _ => Sim.write _ (.gathered ..)
  · exact Sim.ok (Later.refl w)

theorem putBack_sim (env : Env M) (regs : Registry) (rs : List (Str × ℕ)) (w : World M) :
    Sim env F w (putBack regs rs w) (putBack regs rs (mix env F w)) := by
  induction rs generalizing w with
  | nil => exact Sim.ok (Later.refl w)
  | cons x rs ih =>
    obtain ⟨n, r⟩ := x
    simp only [putBack]
    rw [mix_region]
    refine Sim.read _ fun R _ => ?_
    cases OMap.find regs n with
    | none => exact ih w
    | some L => exact (ih (w.setRegion r { R with dataset := L.dataset })).weaken (Later.of rfl rfl)

theorem ranksTrainRest_sim (env : Env M) {one : World M → ℕ → Res (World M)}
    (hb : ∀ w r, Sim env F w (one w r) (one (mix env F w) r)) (w : World M) :
    Sim env F w (Ranks.trainRest env one w) (Ranks.trainRest env one (mix env F w)) := by
  unfold Ranks.trainRest
  change Sim env F w _ (if w.cfg.single then _ else _)
  split
  · rw [mergeDatasets_mix]
    exact Sim.read _ fun ds _ => trainAllWith_sim env ds _ w
  · exact forRegions_sim hb _ w

theorem resume_sim (env : Env M) (w : World M) (k : Wait) :
    Sim env F w (resume env w k) (resume env (mix env F w) k) := by
  cases k with
  | train s c => exact ranksTrainRest_sim env (fun w r => regionTrain_sim env w r s c false) w
  | finish s r c pending =>
    unfold resume
    dsimp only
    refine (ranksTrainRest_sim env (fun w r => ?_) w).bind fun v => ?_
    · unfold trainNoCollectOf
      rw [mix_region]
      exact Sim.read _ fun _ _ => trainNoCollect_sim env w r s false
    · refine (destroyContext_sim _ r c).bind fun v₂ => ?_
      change Sim env F _ _ (v₂.region r >>= _)
      refine Sim.read _ fun R _ => ?_
      cases pending with
      | false => exact Sim.ok (Later.of rfl rfl)
      | true =>
        exact (collectPending_sim env (v₂.setRegion r { R with current := none }) r).weaken
          (Later.of rfl rfl)

end Apollo.Frame

namespace Apollo.Ranks

open Apollo Spec Collective Frame

variable {M : Type} {env : ℕ → Env M} {cfg : ℕ → Cfg} {n : ℕ}

/-- No other rank writes the file. -/
def NoOther (env : ℕ → Env M) (cfg : ℕ → Cfg) (n i : ℕ) (x : Str) : Prop :=
  ∀ j, j < n → j ≠ i → ¬ Written (env j) (cfg j) x

/-- A rank with a shared file system and the same rank with files of its own. -/
structure Twin (env : ℕ → Env M) (cfg : ℕ → Cfg) (n : ℕ) (F : Str → Option Str) (i : ℕ)
    (p q : Proc M) : Prop where
  same : seeing q.world.files p = q
  settings : still p.world.cfg = still (cfg i)
  files : ∀ x, NoOther env cfg n i x → F x = q.world.files x
  reads : ∀ op ∈ p.todo, ∀ x, Read (env i) (cfg i) op x → NoOther env cfg n i x

theorem Twin.move {F G : Str → Option Str} {i : ℕ} {p q : Proc M} (h : Twin env cfg n F i p q)
    (hG : ∀ x, NoOther env cfg n i x → G x = F x) (H : Str → Option Str) :
    Twin env cfg n G i (seeing H p) q :=
  ⟨h.same, h.settings, fun x hx => (hG x hx).trans (h.files x hx), h.reads⟩

theorem read_still {env : Env M} {c d : Cfg} (h : still c = still d) {op : Op} {x : Str}
    (hr : Read env c op x) : Read env d op x := by
  have e1 : c.outputDir = d.outputDir := by simpa [still] using congrArg Cfg.outputDir h
  have e2 : c.modelsDir = d.modelsDir := by simpa [still] using congrArg Cfg.modelsDir h
  have e3 : c.datasetsDir = d.datasetsDir := by simpa [still] using congrArg Cfg.datasetsDir h
  have e4 : c.policyModel = d.policyModel := by simpa [still] using congrArg Cfg.policyModel h
  cases hr with
  | yaml h => exact .yaml h
  | given h1 h2 h3 => exact .given (by rw [← e4]; exact h1) h2 h3
  | latest h1 =>
    unfold loadPath
    rw [e1, e2]
    exact .latest h1
  | dataset =>
    unfold datasetPath
    rw [e1, e3]
    exact .dataset
  | optimal => exact .optimal

/-- The ranks write different files. -/
def Apart (env : ℕ → Env M) (cfg : ℕ → Cfg) (n : ℕ) : Prop :=
  ∀ i j x, i < n → j < n → i ≠ j → Written (env i) (cfg i) x → ¬ Written (env j) (cfg j) x

section
variable {F : Str → Option Str} {i : ℕ} {p q : Proc M} (ha : Apart env cfg n) (hi : i < n)
  (h : Twin env cfg n F i p q)
include ha hi h

/-- The world of the rank with files of its own. -/
theorem Twin.mix_eq : mix (env i) q.world.files (seeing F p).world = q.world := by
  rw [← h.same]
  unfold mix seeing
  dsimp only
  congr 1
  funext x
  split
  next hw =>
    have hw' : Written (env i) (cfg i) x := written_period h.settings hw
    have := h.files x fun j hj hji => ha i j x hi hj (Ne.symm hji) hw'
    rw [this]
  · rfl

omit ha hi in
theorem Twin.later {w : World M} {ops : List Op} {k : Option Wait}
    (hl : Later (env i) (seeing F p).world w) (ht : ∀ op ∈ ops, op ∈ p.todo) :
    Twin env cfg n w.files i ⟨w, ops, k⟩ ⟨mix (env i) q.world.files w, ops, k⟩ ∧
      ∀ x, ¬ Written (env i) (cfg i) x → w.files x = F x := by
  have hw : ∀ x, ¬ Written (env i) (cfg i) x → w.files x = F x := fun x hx =>
    hl.files x fun hh => hx (written_period (c := p.world.cfg) h.settings hh)
  have hc : still w.cfg = still (cfg i) := hl.cfg.trans h.settings
  refine ⟨⟨rfl, hc, fun x hx => ?_, fun op ho => h.reads op (ht op ho)⟩, hw⟩
  unfold mix
  dsimp only
  split
  · rfl
  next hn =>
    exact (hw x fun hh => hn (written_period hc.symm hh)).trans (h.files x hx)

/-- A call. -/
theorem Twin.call {op : Op} {ops : List Op} (ht : p.todo = op :: ops) :
    (∃ e, call (env i) (seeing F p).world op = .error e ∧ call (env i) q.world op = .error e) ∨
    ∃ (w w' : World M) (k : Option Wait), call (env i) (seeing F p).world op = .ok (w, k) ∧
      call (env i) q.world op = .ok (w', k) ∧ Twin env cfg n w.files i ⟨w, ops, k⟩ ⟨w', ops, k⟩ ∧
      ∀ x, ¬ Written (env i) (cfg i) x → w.files x = F x := by
  have hr : ∀ x, Read (env i) (seeing F p).world.cfg op x →
      Same (env i) q.world.files (seeing F p).world x := by
    intro x hx
    exact .inr (h.files x (h.reads op (by rw [ht]; exact List.mem_cons_self) x
      (read_still (c := p.world.cfg) h.settings hx))).symm
  have hs := call_sim (F := q.world.files) (env i) (seeing F p).world op hr
  rw [h.mix_eq ha hi] at hs
  rcases hs with ⟨⟨w, k⟩, h1, h2, h3⟩ | ⟨e, h1, h2⟩
  · obtain ⟨h4, h5⟩ := h.later (w := w) (ops := ops) (k := k) h3
      (by rw [ht]; exact fun o ho => List.mem_cons_of_mem _ ho)
    exact .inr ⟨w, _, k, h1, h2, h4, h5⟩
  · exact .inl ⟨e, h1, h2⟩

/-- What follows the gathering. -/
theorem Twin.proceed (ms : List Msg) (v : Registry) :
    (∃ e, proceed (env i) ms i v (seeing F p) = .error e ∧ proceed (env i) ms i v q = .error e) ∨
    ∃ p' q', proceed (env i) ms i v (seeing F p) = .ok p' ∧ proceed (env i) ms i v q = .ok q' ∧
      Twin env cfg n p'.world.files i p' q' ∧
      ∀ x, ¬ Written (env i) (cfg i) x → p'.world.files x = F x := by
  have hm := h.mix_eq ha hi
  have hq : q.wait = p.wait := by rw [← h.same]; rfl
  have hqt : q.todo = p.todo := by rw [← h.same]; rfl
  unfold Ranks.proceed
  rw [hq, show (seeing F p).wait = p.wait from rfl]
  cases hk : p.wait with
  | none =>
    refine .inr ⟨seeing F p, q, rfl, rfl, ?_, fun _ _ => rfl⟩
    exact ⟨h.same, h.settings, h.files, h.reads⟩
  | some k =>
    dsimp only
    have hs : Sim (env i) q.world.files (seeing F p).world
        (traceGather (env i) k.step ms (seeing F p).world >>= fun w =>
          putBack (ms.foldl (absorb i) v) w.registry w >>= fun w => resume (env i) w k)
        (traceGather (env i) k.step ms (mix (env i) q.world.files (seeing F p).world) >>= fun w =>
          putBack (ms.foldl (absorb i) v) w.registry w >>= fun w => resume (env i) w k) := by
      refine (traceGather_sim (env i) k.step ms _).bind fun w => ?_
      exact (putBack_sim (env i) _ w.registry w).bind fun w => resume_sim (env i) w k
    rw [hm] at hs
    have e1 : ∀ (r : Proc M), (do
        let w ← traceGather (env i) k.step ms r.world
        let w ← putBack (ms.foldl (absorb i) v) w.registry w
        let w ← resume (env i) w k
        (.ok { r with world := w, wait := none } : Res (Proc M))) =
        (traceGather (env i) k.step ms r.world >>= fun w =>
          putBack (ms.foldl (absorb i) v) w.registry w >>= fun w => resume (env i) w k) >>= fun w =>
            .ok { r with world := w, wait := none } := by
      intro r
      simp only [bind_assoc]
    rw [e1, e1]
    rcases hs with ⟨w, h1, h2, h3⟩ | ⟨e, h1, h2⟩
    · obtain ⟨h4, h5⟩ := h.later (w := w) (ops := p.todo) (k := none) h3 (fun _ ho => ho)
      refine .inr ⟨_, _, by rw [h1]; rfl, by rw [h2]; rfl, ?_, h5⟩
      rw [hqt]
      exact h4
    · exact .inl ⟨e, by rw [h1]; rfl, by rw [h2]; rfl⟩

end

/-- All ranks from number `i` on. -/
theorem proceed_twins (ha : Apart env cfg n) (ms : List Msg) (ps : List (Proc M)) :
    ∀ (qs : List (Proc M)) (vs : List Registry) (i : ℕ) (F : Str → Option Str),
    ps.length = qs.length → vs.length = ps.length → i + ps.length = n →
    (∀ k p q, ps[k]? = some p → qs[k]? = some q → Twin env cfg n F (i + k) p q) →
    (∃ e, proceedShared env ms i vs F ps = .error e ∧ proceedAll env ms i vs qs = .error e) ∨
    ∃ ps' qs' F', proceedShared env ms i vs F ps = .ok (ps', F') ∧ proceedAll env ms i vs qs = .ok qs' ∧
      ps'.length = ps.length ∧ qs'.length = ps.length ∧
      (∀ k p q, ps'[k]? = some p → qs'[k]? = some q → Twin env cfg n F' (i + k) p q) ∧
      ∀ x, (∀ j, i ≤ j → j < n → ¬ Written (env j) (cfg j) x) → F' x = F x := by
  induction ps with
  | nil =>
    intro qs vs i F hl hv _ _
    obtain rfl := List.eq_nil_of_length_eq_zero hl.symm
    obtain rfl := List.eq_nil_of_length_eq_zero hv
    exact .inr ⟨[], [], F, rfl, rfl, rfl, rfl, fun k p q h => by simp at h, fun _ _ => rfl⟩
  | cons p ps ih =>
    intro qs vs i F hl hv hn ht
    cases qs with
    | nil => simp at hl
    | cons q qs =>
    cases vs with
    | nil => simp at hv
    | cons v vs =>
    have hi : i < n := by simp at hn; omega
    have h0 : Twin env cfg n F i p q := ht 0 p q rfl rfl
    simp only [proceedShared, proceedAll]
    rcases h0.proceed ha hi ms v with ⟨e, h1, h2⟩ | ⟨p', q', h1, h2, h3, h4⟩
    · rw [h1, h2]
      exact .inl ⟨e, rfl, rfl⟩
    · rw [h1, h2, Res.bind_ok, Res.bind_ok]
      have htail : ∀ k a b, ps[k]? = some a → qs[k]? = some b →
          Twin env cfg n p'.world.files (i + 1 + k) a b := by
        intro k a b ha' hb
        have := ht (k + 1) a b (by simpa using ha') (by simpa using hb)
        rw [show i + (k + 1) = i + 1 + k by omega] at this
        refine ⟨this.same, this.settings, fun x hx => ?_, this.reads⟩
        exact (h4 x (hx i hi (by omega))).trans (this.files x hx)
      rcases ih qs vs (i + 1) p'.world.files (by simpa using hl) (by simpa using hv)
        (by simp at hn; omega) htail with ⟨e, h5, h6⟩ | ⟨ps', qs', F', h5, h6, h7, h8, h9, h10⟩
      · rw [h5, h6]
        exact .inl ⟨e, rfl, rfl⟩
      · rw [h5, h6]
        refine .inr ⟨p' :: ps', q' :: qs', F', rfl, rfl, by simp [h7], by simp [h8], ?_, ?_⟩
        · intro k a b ha' hb
          cases k with
          | zero =>
            simp only [List.getElem?_cons_zero, Option.some.injEq] at ha' hb
            subst ha' hb
            refine ⟨h3.same, h3.settings, fun x hx => ?_, h3.reads⟩
            exact (h10 x fun j hj hjn => hx j hjn (by omega)).trans (h3.files x hx)
          | succ k =>
            have := h9 k a b (by simpa using ha') (by simpa using hb)
            rwa [show i + 1 + k = i + (k + 1) by omega] at this
        · intro x hx
          exact (h10 x fun j hj => hx j (by omega)).trans (h4 x (hx i le_rfl hi))

/-! ## All ranks -/

/-- Ranks with a shared file system, which was `F₀` at first, and the same ranks with files of their own. -/
structure Twins (env : ℕ → Env M) (cfg : ℕ → Cfg) (n : ℕ) (F₀ : Str → Option Str)
    (s t : List (Proc M)) : Prop where
  left : s.length = n
  right : t.length = n
  files : ∀ p ∈ s, p.world.files = filesOf s
  twin : ∀ k p q, s[k]? = some p → t[k]? = some q → Twin env cfg n (filesOf s) k p q
  rest : s ≠ [] → ∀ x, (∀ j, j < n → ¬ Written (env j) (cfg j) x) → filesOf s x = F₀ x

theorem seeing_self {p : Proc M} {F : Str → Option Str} (h : p.world.files = F) : seeing F p = p := by
  subst h
  rfl

theorem filesOf_map {F : Str → Option Str} {s : List (Proc M)} (h : s ≠ []) :
    filesOf (s.map (seeing F)) = F := by
  cases s with
  | nil => exact absurd rfl h
  | cons p s => rfl

variable {mpi : Mpi} {F₀ : Str → Option Str}

theorem Twins.call (ha : Apart env cfg n) {s t : List (Proc M)} (h : Twins env cfg n F₀ s t) {i : ℕ}
    {p q : Proc M} (hp : s[i]? = some p) (hq : t[i]? = some q) {op : Op} {ops : List Op}
    (ht : p.todo = op :: ops) :
    (∃ e, call (env i) p.world op = .error e ∧ call (env i) q.world op = .error e) ∨
    ∃ (w w' : World M) (k : Option Wait), call (env i) p.world op = .ok (w, k) ∧
      call (env i) q.world op = .ok (w', k) ∧
      Twins env cfg n F₀ ((s.set i ⟨w, ops, k⟩).map (seeing w.files)) (t.set i ⟨w', ops, k⟩) := by
  have hi : i < n := by rw [← h.left]; exact (List.getElem?_eq_some_iff.1 hp).1
  have hne : s ≠ [] := by rintro rfl; simp at hp
  have h0 := h.twin i p q hp hq
  have e0 : seeing (filesOf s) p = p := seeing_self (h.files p (List.mem_of_getElem? hp))
  rcases h0.call ha hi ht with ⟨e, h1, h2⟩ | ⟨w, w', k, h1, h2, h3, h4⟩
  · rw [e0] at h1
    exact .inl ⟨e, h1, h2⟩
  · rw [e0] at h1
    have hne' : s.set i ⟨w, ops, k⟩ ≠ [] := by
      intro hh
      exact hne (by simpa using congrArg List.length hh)
    have ef := filesOf_map (F := w.files) hne'
    refine .inr ⟨w, w', k, h1, h2, ⟨by simpa using h.left, by simpa using h.right, ?_, ?_, ?_⟩⟩
    · intro a ha'
      rw [ef]
      obtain ⟨b, -, rfl⟩ := List.mem_map.1 ha'
      rfl
    · intro j a b ha' hb
      rw [ef]
      rw [List.getElem?_map] at ha'
      by_cases hji : i = j
      · subst hji
        rw [List.getElem?_set_self (by rw [h.left]; exact hi)] at ha'
        rw [List.getElem?_set_self (by rw [h.right]; exact hi)] at hb
        cases ha'
        cases hb
        exact h3.move (fun _ _ => rfl) _
      · rw [List.getElem?_set_ne hji] at ha' hb
        obtain ⟨a', ha₁, rfl⟩ := Option.map_eq_some_iff.1 ha'
        exact (h.twin j a' b ha₁ hb).move (fun x hx => h4 x (hx i hi hji)) _
    · intro _ x hx
      rw [ef]
      exact (h4 x (hx i hi)).trans (h.rest hne x hx)

theorem views_eq : ∀ {ws vs : List (World M)}, List.Forall₂ (fun w v => ∃ F, v = { w with files := F }) ws vs →
    views vs = views ws := by
  intro ws vs h
  induction h with
  | nil => rfl
  | @cons w v ws vs hw _ ih =>
    obtain ⟨F, rfl⟩ := hw
    simp only [views]
    rw [ih]
    have : ∀ rs, viewOf ({ w with files := F } : World M) rs = viewOf w rs := by
      intro rs
      induction rs with
      | nil => rfl
      | cons x rs ih =>
        obtain ⟨n, r⟩ := x
        simp only [viewOf]
        rw [ih]
        rfl
    rw [this]

theorem views_length : ∀ {ws : List (World M)} {vs : List Registry}, views ws = .ok vs →
    vs.length = ws.length
  | [], _, h => by cases h; rfl
  | w :: ws, vs, h => by
    simp only [views] at h
    obtain ⟨v, -, h⟩ := (Res.bind_eq_ok _ _ _).1 h
    obtain ⟨vs', h2, h⟩ := (Res.bind_eq_ok _ _ _).1 h
    cases h
    simp [views_length h2]

theorem Twins.views {s t : List (Proc M)} (h : Twins env cfg n F₀ s t) :
    views (t.map Proc.world) = views (s.map Proc.world) := by
  refine views_eq ?_
  rw [List.forall₂_iff_get]
  refine ⟨by simp [h.left, h.right], fun k h1 h2 => ?_⟩
  simp only [List.length_map] at h1 h2
  have := (h.twin k s[k] t[k] (List.getElem?_eq_getElem h1) (List.getElem?_eq_getElem h2)).same
  simp only [List.get_eq_getElem, List.getElem_map]
  exact ⟨t[k].world.files, by rw [← this]; rfl⟩

theorem Twins.together (ha : Apart env cfg n) {s t : List (Proc M)} (h : Twins env cfg n F₀ s t)
    (hne : s ≠ []) :
    (∃ e, togetherShared mpi env s = .error e ∧ together mpi env t = .error e) ∨
    ∃ s' t', togetherShared mpi env s = .ok s' ∧ together mpi env t = .ok t' ∧
      Twins env cfg n F₀ s' t' := by
  unfold togetherShared Ranks.together
  rw [h.views]
  cases hv : Ranks.views (s.map Proc.world) with
  | error e => exact .inl ⟨e, rfl, rfl⟩
  | ok vs =>
    rw [Res.bind_ok, Res.bind_ok]
    cases hm : received mpi vs with
    | error e => exact .inl ⟨e, rfl, rfl⟩
    | ok ms =>
      rw [Res.bind_ok, Res.bind_ok]
      have hlen : vs.length = s.length := by simpa using views_length hv
      rcases proceed_twins ha ms s t vs 0 (filesOf s) (h.left.trans h.right.symm) hlen
        (by rw [h.left]; omega) (fun k p q hp hq => by rw [Nat.zero_add]; exact h.twin k p q hp hq) with
        ⟨e, h5, h6⟩ | ⟨ps', qs', F', h5, h6, h7, h8, h9, h10⟩
      · exact .inl ⟨e, by rw [h5]; rfl, by rw [h6]⟩
      · refine .inr ⟨ps'.map (seeing F'), qs', by rw [h5]; rfl, by rw [h6], ?_⟩
        have hne' : ps' ≠ [] := by
          rintro rfl
          exact hne (List.eq_nil_of_length_eq_zero h7.symm)
        have ef := filesOf_map (F := F') hne'
        refine ⟨by simp [h7, h.left], by simp [h8, h.left], ?_, ?_, ?_⟩
        · intro a ha'
          rw [ef]
          obtain ⟨b, -, rfl⟩ := List.mem_map.1 ha'
          rfl
        · intro k a b ha' hb
          rw [ef]
          rw [List.getElem?_map] at ha'
          obtain ⟨a', ha₁, rfl⟩ := Option.map_eq_some_iff.1 ha'
          have := h9 k a' b ha₁ hb
          rw [Nat.zero_add] at this
          exact this.move (fun _ _ => rfl) _
        · intro _ x hx
          rw [ef]
          exact (h10 x fun j _ hj => hx j hj).trans (h.rest hne x hx)

theorem Twins.get {s t : List (Proc M)} (h : Twins env cfg n F₀ s t) {i : ℕ} {p : Proc M}
    (hp : s[i]? = some p) : ∃ q, t[i]? = some q ∧ q.wait = p.wait ∧ q.todo = p.todo := by
  have hi : i < t.length := by rw [h.right, ← h.left]; exact (List.getElem?_eq_some_iff.1 hp).1
  have := (h.twin i p t[i] hp (List.getElem?_eq_getElem hi)).same
  refine ⟨_, List.getElem?_eq_getElem hi, ?_, ?_⟩ <;> rw [← this] <;> rfl

theorem Twins.get' {s t : List (Proc M)} (h : Twins env cfg n F₀ s t) {i : ℕ} {q : Proc M}
    (hq : t[i]? = some q) : ∃ p, s[i]? = some p ∧ q.wait = p.wait ∧ q.todo = p.todo := by
  have hi : i < s.length := by rw [h.left, ← h.right]; exact (List.getElem?_eq_some_iff.1 hq).1
  have := (h.twin i s[i] q (List.getElem?_eq_getElem hi) hq).same
  refine ⟨_, List.getElem?_eq_getElem hi, ?_, ?_⟩ <;> rw [← this] <;> rfl

theorem Twins.step (ha : Apart env cfg n) {s t s' : List (Proc M)} (h : Twins env cfg n F₀ s t)
    (hs : SharedStep mpi env s s') : ∃ t', Step mpi env t t' ∧ Twins env cfg n F₀ s' t' := by
  cases hs with
  | @call i p op ops w k hp hw ht hc =>
    obtain ⟨q, hq, e1, e2⟩ := h.get hp
    rcases h.call ha hp hq ht with ⟨e, h1, -⟩ | ⟨w₁, w', k', h1, h2, h3⟩
    · rw [hc] at h1; cases h1
    · rw [hc] at h1
      cases h1
      exact ⟨_, .call hq (e1.trans hw) (e2.trans ht) h2, h3⟩
  | train hne hw hc =>
    rcases h.together (mpi := mpi) ha hne with ⟨e, h1, -⟩ | ⟨s₁, t', h1, h2, h3⟩
    · rw [hc] at h1; cases h1
    · rw [hc] at h1
      cases h1
      refine ⟨t', .train ?_ ?_ h2, h3⟩
      · rintro rfl
        exact hne (List.eq_nil_of_length_eq_zero (h.left.trans h.right.symm))
      · intro q hq
        obtain ⟨i, hi⟩ := List.mem_iff_getElem?.1 hq
        obtain ⟨p, hp, e, -⟩ := h.get' hi
        rw [e]
        exact hw p (List.mem_of_getElem? hp)

theorem Twins.step' (ha : Apart env cfg n) {s t t' : List (Proc M)} (h : Twins env cfg n F₀ s t)
    (hs : Step mpi env t t') : ∃ s', SharedStep mpi env s s' ∧ Twins env cfg n F₀ s' t' := by
  cases hs with
  | @call i q op ops w k hq hw ht hc =>
    obtain ⟨p, hp, e1, e2⟩ := h.get' hq
    rcases h.call ha hp hq (e2.symm.trans ht) with ⟨e, -, h1⟩ | ⟨w₁, w', k', h1, h2, h3⟩
    · rw [hc] at h1; cases h1
    · rw [hc] at h2
      cases h2
      exact ⟨_, .call hp (e1.symm.trans hw) (e2.symm.trans ht) h1, h3⟩
  | train hne hw hc =>
    have hne' : s ≠ [] := by
      rintro rfl
      exact hne (List.eq_nil_of_length_eq_zero (h.right.trans h.left.symm))
    rcases h.together (mpi := mpi) ha hne' with ⟨e, -, h1⟩ | ⟨s₁, t₁, h1, h2, h3⟩
    · rw [hc] at h1; cases h1
    · rw [hc] at h2
      cases h2
      refine ⟨s₁, .train hne' ?_ h1, h3⟩
      intro p hp
      obtain ⟨i, hi⟩ := List.mem_iff_getElem?.1 hp
      obtain ⟨q, hq, e, -⟩ := h.get hi
      rw [← e]
      exact hw q (List.mem_of_getElem? hq)

theorem Twins.run (ha : Apart env cfg n) {s t s' : List (Proc M)} {k : ℕ} (h : Twins env cfg n F₀ s t)
    (hs : SharedRun mpi env k s s') : ∃ t', Run mpi env k t t' ∧ Twins env cfg n F₀ s' t' := by
  induction hs generalizing t with
  | refl => exact ⟨t, .refl t, h⟩
  | step h1 _ ih =>
    obtain ⟨t₁, h2, h3⟩ := h.step ha h1
    obtain ⟨t₂, h4, h5⟩ := ih h3
    exact ⟨t₂, .step h2 h4, h5⟩

theorem Twins.run' (ha : Apart env cfg n) {s t t' : List (Proc M)} {k : ℕ} (h : Twins env cfg n F₀ s t)
    (hs : Run mpi env k t t') : ∃ s', SharedRun mpi env k s s' ∧ Twins env cfg n F₀ s' t' := by
  induction hs generalizing s with
  | refl => exact ⟨s, .refl s, h⟩
  | step h1 _ ih =>
    obtain ⟨t₁, h2, h3⟩ := h.step' ha h1
    obtain ⟨t₂, h4, h5⟩ := ih h3
    exact ⟨t₂, .step h2 h4, h5⟩

/-- The ranks with files of their own determine those with a shared file system. -/
theorem Twins.unique (ha : Apart env cfg n) {s s' t : List (Proc M)} (h : Twins env cfg n F₀ s t)
    (h' : Twins env cfg n F₀ s' t) : s = s' := by
  by_cases hn : n = 0
  · rw [List.eq_nil_of_length_eq_zero (h.left.trans hn), List.eq_nil_of_length_eq_zero (h'.left.trans hn)]
  have hne : s ≠ [] := fun e => hn (by rw [← h.left, e]; rfl)
  have hne' : s' ≠ [] := fun e => hn (by rw [← h'.left, e]; rfl)
  have hF : filesOf s = filesOf s' := by
    funext x
    by_cases hx : ∃ j, j < n ∧ Written (env j) (cfg j) x
    · obtain ⟨j, hj, hw⟩ := hx
      have hno : NoOther env cfg n j x := fun k hk hkj => ha j k x hj hk (Ne.symm hkj) hw
      have g1 := List.getElem?_eq_getElem (l := s) (by rw [h.left]; exact hj)
      have g2 := List.getElem?_eq_getElem (l := s') (by rw [h'.left]; exact hj)
      have g3 := List.getElem?_eq_getElem (l := t) (by rw [h.right]; exact hj)
      exact ((h.twin j _ _ g1 g3).files x hno).trans ((h'.twin j _ _ g2 g3).files x hno).symm
    · have hx : ∀ j, j < n → ¬ Written (env j) (cfg j) x := fun j hj hw => hx ⟨j, hj, hw⟩
      exact (h.rest hne x hx).trans (h'.rest hne' x hx).symm
  refine List.ext_getElem (h.left.trans h'.left.symm) fun k h1 h2 => ?_
  have h3 : k < t.length := by rw [h.right, ← h.left]; exact h1
  have e1 := (h.twin k _ _ (List.getElem?_eq_getElem h1) (List.getElem?_eq_getElem h3)).same
  have e2 := (h'.twin k _ _ (List.getElem?_eq_getElem h2) (List.getElem?_eq_getElem h3)).same
  have f1 := seeing_self (h.files _ (List.getElem_mem h1))
  have f2 := seeing_self (h'.files _ (List.getElem_mem h2))
  rw [← f1, ← f2, hF]
  have := congrArg (seeing (filesOf s')) (e1.trans e2.symm)
  exact this

/-- At first. -/
theorem Twins.start {s : List (Proc M)} (hn : s.length = n) (hF : ∀ p ∈ s, p.world.files = F₀)
    (hc : ∀ i p, s[i]? = some p → p.world.cfg = cfg i)
    (hr : ∀ i p, s[i]? = some p → ∀ op ∈ p.todo, ∀ x, Read (env i) (cfg i) op x → NoOther env cfg n i x) :
    Twins env cfg n F₀ s s := by
  have ef : s ≠ [] → filesOf s = F₀ := by
    intro hne
    cases s with
    | nil => exact absurd rfl hne
    | cons p s => exact hF p List.mem_cons_self
  refine ⟨hn, hn, ?_, ?_, fun hne x _ => by rw [ef hne]⟩
  · intro p hp
    rw [ef (List.ne_nil_of_mem hp)]
    exact hF p hp
  · intro k p q hp hq
    rw [hp] at hq
    cases hq
    have hm := List.mem_of_getElem? hp
    refine ⟨rfl, by rw [hc k p hp], fun x _ => ?_, hr k p hp⟩
    rw [ef (List.ne_nil_of_mem hm), hF p hm]

end Apollo.Ranks
