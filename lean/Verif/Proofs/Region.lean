import Verif.Model.Region

/-!
# What the functions of regions change

Training changes models, files and the tick, and adds `trained` events; `collectContext` is described
completely up to training.
-/

namespace Apollo

variable {M : Type}

/-- One model results from the other by training. -/
def Retrained (env : Env M) : M → M → Prop :=
  Relation.ReflTransGen fun m m' => ∃ t ds, env.ops.train t ds m = .ok m'

/-- One model results from the other by trainings with the data in the events about region `r`. -/
def TrainedOn (env : Env M) (l : List Ev) (r : ℕ) : M → M → Prop :=
  Relation.ReflTransGen fun m m' => ∃ t ds, Ev.trained r ds ∈ l ∧ env.ops.train t ds m = .ok m'

theorem TrainedOn.retrained {env : Env M} {l : List Ev} {r : ℕ} {m m' : M}
    (h : TrainedOn env l r m m') : Retrained env m m' :=
  Relation.ReflTransGen.mono (fun _ _ ⟨t, ds, _, h⟩ => ⟨t, ds, h⟩) _ _ h

theorem TrainedOn.mono {env : Env M} {l l' : List Ev} {r : ℕ} {m m' : M} (hl : ∀ e ∈ l, e ∈ l')
    (h : TrainedOn env l r m m') : TrainedOn env l' r m m' :=
  Relation.ReflTransGen.mono (fun _ _ ⟨t, ds, hm, h⟩ => ⟨t, ds, hl _ hm, h⟩) _ _ h

/-- Only training happened between two worlds; `l` are the events. -/
structure Trained (env : Env M) (w : World M) (l : List Ev) (w' : World M) : Prop where
  cfg : w'.cfg = w.cfg
  regions : w'.regions = w.regions
  nextRegion : w'.nextRegion = w.nextRegion
  ctxs : w'.ctxs = w.ctxs
  nextCtx : w'.nextCtx = w.nextCtx
  registry : w'.registry = w.registry
  executions : w'.executions = w.executions
  gtrace : w'.gtrace = w.gtrace
  log : w'.log = w.log ++ l
  events : ∀ e ∈ l, ∃ r ds, e = .trained r ds
  live : ∀ r, (w'.models r).isSome = (w.models r).isSome
  models : ∀ r, (∀ ds, Ev.trained r ds ∉ l) → w'.models r = w.models r
  tick : w.tick ≤ w'.tick
  steps : ∀ r m', w'.models r = some m' → ∃ m, w.models r = some m ∧ TrainedOn env l r m m'
  data : w.cfg.single = false → ∀ r ds, Ev.trained r ds ∈ l →
    ∃ R, w.regions r = some R ∧ R.dataset = ds

theorem Trained.chain {env : Env M} {w w' : World M} {l : List Ev} (h : Trained env w l w') (r : ℕ)
    (m' : M) (hm : w'.models r = some m') : ∃ m, w.models r = some m ∧ Retrained env m m' := by
  obtain ⟨m, h1, h2⟩ := h.steps r m' hm
  exact ⟨m, h1, h2.retrained⟩

theorem Trained.refl (env : Env M) (w : World M) : Trained env w [] w where
  cfg := rfl
  regions := rfl
  nextRegion := rfl
  ctxs := rfl
  nextCtx := rfl
  registry := rfl
  executions := rfl
  gtrace := rfl
  log := (List.append_nil _).symm
  events := by simp
  live := fun _ => rfl
  models := fun _ _ => rfl
  tick := le_refl _
  steps := fun _ m h => ⟨m, h, .refl⟩
  data := by simp

theorem Trained.trans {env : Env M} {w₁ w₂ w₃ : World M} {l₁ l₂ : List Ev} 
    (h₁ : Trained env w₁ l₁ w₂) (h₂ : Trained env w₂ l₂ w₃) : Trained env w₁ (l₁ ++ l₂) w₃ where
  cfg := by rw [h₂.cfg, h₁.cfg]
  regions := by rw [h₂.regions, h₁.regions]
  nextRegion := by rw [h₂.nextRegion, h₁.nextRegion]
  ctxs := by rw [h₂.ctxs, h₁.ctxs]
  nextCtx := by rw [h₂.nextCtx, h₁.nextCtx]
  registry := by rw [h₂.registry, h₁.registry]
  executions := by rw [h₂.executions, h₁.executions]
  gtrace := by rw [h₂.gtrace, h₁.gtrace]
  log := by rw [h₂.log, h₁.log, List.append_assoc]
  events := by
    intro e he
    rcases List.mem_append.1 he with he | he
    · exact h₁.events e he
    · exact h₂.events e he
  live := fun r => by rw [h₂.live, h₁.live]
  models := by
    intro r hr
    rw [h₂.models r fun ds hd => hr ds (List.mem_append_right _ hd),
      h₁.models r fun ds hd => hr ds (List.mem_append_left _ hd)]
  tick := le_trans h₁.tick h₂.tick
  steps := by
    intro r m h
    obtain ⟨m₂, h2, c2⟩ := h₂.steps r m h
    obtain ⟨m₁, h1, c1⟩ := h₁.steps r m₂ h2
    exact ⟨m₁, h1, (c1.mono fun _ => List.mem_append_left _).trans
      (c2.mono fun _ => List.mem_append_right _)⟩
  data := by
    intro hs r ds h
    rcases List.mem_append.1 h with h | h
    · exact h₁.data hs r ds h
    · rw [← h₁.regions]
      exact h₂.data (by rw [h₁.cfg]; exact hs) r ds h

theorem trained_advance (env : Env M) (w : World M) : Trained env w [] w.advance where
  cfg := rfl
  regions := rfl
  nextRegion := rfl
  ctxs := rfl
  nextCtx := rfl
  registry := rfl
  executions := rfl
  gtrace := rfl
  log := (List.append_nil _).symm
  events := by simp
  live := fun _ => rfl
  models := fun _ _ => rfl
  tick := Nat.le_succ _
  steps := fun _ m h => ⟨m, h, .refl⟩
  data := by simp

/-- Writing a file changes nothing but the files. -/
theorem write_same (env : Env M) (w : World M) (p : Str) (s : Option Str) :
    ∃ f, w.write env p s = { w with files := f } := by
  cases s with
  | none => exact ⟨w.files, rfl⟩
  | some s =>
    unfold World.write
    dsimp only
    split
    · exact ⟨_, rfl⟩
    · exact ⟨w.files, rfl⟩

theorem write_models (env : Env M) (w : World M) (p : Str) (s : Option Str) :
    (w.write env p s).models = w.models := by
  obtain ⟨f, hf⟩ := write_same env w p s
  rw [hf]

theorem write_cfg (env : Env M) (w : World M) (p : Str) (s : Option Str) :
    (w.write env p s).cfg = w.cfg := by
  obtain ⟨f, hf⟩ := write_same env w p s
  rw [hf]

theorem trained_write (env : Env M) (w : World M) (p : Str) (s : Option Str) :
    Trained env w [] (w.write env p s) := by
  cases s with
  | none => exact Trained.refl env w
  | some s =>
    unfold World.write
    dsimp only
    split
    · exact {
      cfg := rfl, regions := rfl, nextRegion := rfl, ctxs := rfl, nextCtx := rfl, registry := rfl,
      executions := rfl, gtrace := rfl, log := (List.append_nil _).symm, events := by simp,
      live := fun _ => rfl, models := fun _ _ => rfl, tick := le_refl _,
      steps := fun _ m h => ⟨m, h, .refl⟩, data := by simp }
    · exact Trained.refl env w

theorem World.region_ok {w : World M} {r : ℕ} {R : Region} :
    w.region r = .ok R ↔ w.regions r = some R := by
  unfold World.region
  cases w.regions r <;> simp

theorem World.model_ok {w : World M} {r : ℕ} {m : M} :
    w.model r = .ok m ↔ w.models r = some m := by
  unfold World.model
  cases w.models r <;> simp

theorem World.ctx_ok {w : World M} {c : CtxPtr} {C : Ctx} :
    w.ctx c = .ok C ↔ w.ctxs c = some C := by
  unfold World.ctx
  cases w.ctxs c <;> simp

/-- One training of the model of a region. -/
theorem trained_train {env : Env M} {w : World M} {r : ℕ} {m : M} (hm : w.models r = some m)
    {m' : M} {t : ℕ} {ds : Dataset} (ht : env.ops.train t ds m = .ok m')
    (hd : w.cfg.single = false → ∃ R, w.regions r = some R ∧ R.dataset = ds) :
    Trained env w [.trained r ds] (((w.setModel r m').advance).emit (.trained r ds)) where
  cfg := rfl
  regions := rfl
  nextRegion := rfl
  ctxs := rfl
  nextCtx := rfl
  registry := rfl
  executions := rfl
  gtrace := rfl
  log := rfl
  events := by simp
  live := by
    intro r'
    simp only [World.emit, World.advance, World.setModel]
    by_cases h : r' = r
    · subst h; simp [hm]
    · simp [h]
  models := by
    intro r' hr
    simp only [World.emit, World.advance, World.setModel]
    have : r' ≠ r := by
      rintro rfl
      exact hr ds (by simp)
    simp [this]
  tick := Nat.le_succ _
  data := by
    intro hs r' ds' h
    rw [List.mem_singleton] at h
    cases h
    exact hd hs
  steps := by
    intro r' m₁ h
    have h : Function.update w.models r (some m') r' = some m₁ := h
    by_cases heq : r' = r
    · subst heq
      rw [Function.update_self] at h
      cases h
      exact ⟨m, hm, .single ⟨t, ds, by simp, ht⟩⟩
    · rw [Function.update_of_ne heq] at h
      exact ⟨m₁, h, .refl⟩

/-- Models that are not trainable are not among the trained ones, except that of region `x`. -/
def Calm (env : Env M) (x : Option ℕ) (w : World M) (l : List Ev) : Prop :=
  w.cfg.single = false → ∀ r m, some r ≠ x → w.models r = some m → env.ops.isTrainable m = false →
    ∀ ds, Ev.trained r ds ∉ l

theorem calm_nil (env : Env M) (x : Option ℕ) (w : World M) : Calm env x w [] := by
  intro _ _ _ _ _ _ _ h
  cases h

theorem Calm.trans {env : Env M} {x : Option ℕ} {w₁ w₂ : World M} {l₁ l₂ : List Ev}
    (h₁ : Calm env x w₁ l₁) (hc : w₂.cfg.single = w₁.cfg.single)
    (hm : ∀ r, some r ≠ x → (∀ ds, Ev.trained r ds ∉ l₁) → w₂.models r = w₁.models r)
    (h₂ : Calm env x w₂ l₂) : Calm env x w₁ (l₁ ++ l₂) := by
  intro hs r m hx hr ht ds hd
  rcases List.mem_append.1 hd with hd | hd
  · exact h₁ hs r m hx hr ht ds hd
  · exact h₂ (by rw [hc]; exact hs) r m hx (by rw [hm r hx (h₁ hs r m hx hr ht)]; exact hr) ht ds hd

/-- Tracing the best policies changes nothing but the files. -/
theorem traceBest_same {env : Env M} {w w' : World M} {R : Region} {s : ℤ}
    (h : traceBest env w R s = .ok w') : ∃ f, w' = { w with files := f } := by
  unfold traceBest at h
  split at h
  · obtain ⟨t, -, h⟩ := (Res.bind_eq_ok _ _ _).1 h
    cases h
    exact write_same env w _ _
  · cases h
    exact ⟨w.files, rfl⟩

theorem trained_traceBest {env : Env M} {w w' : World M} {R : Region} {s : ℤ}
    (h : traceBest env w R s = .ok w') : Trained env w [] w' := by
  unfold traceBest at h
  split at h
  · obtain ⟨t, -, h⟩ := (Res.bind_eq_ok _ _ _).1 h
    cases h
    exact trained_write env w _ _
  · cases h
    exact Trained.refl env w

/-- Tracing a policy changes nothing but the files. -/
theorem tracePolicy_same {env : Env M} {w w' : World M} {R : Region} {m : M} {f : Features} {p : ℤ}
    (h : tracePolicy env w R m f p = .ok w') : ∃ F, w' = { w with files := F } := by
  unfold tracePolicy at h
  split at h
  · obtain ⟨t, -, h⟩ := (Res.bind_eq_ok _ _ _).1 h
    cases h
    exact write_same env w _ _
  · cases h
    exact ⟨w.files, rfl⟩

/-- The training of one region, exactly. -/
theorem trainBody_exact {env : Env M} {w w' : World M} {r : ℕ} {s : ℤ}
    (h : trainBody env w r s = .ok w') :
    ∃ R, w.regions r = some R ∧
      ((R.dataset.size = 0 ∧ w' = w) ∨
        (R.dataset.size ≠ 0 ∧ Trained env w [.trained r R.dataset] w' ∧ ∃ m m', w.models r = some m ∧
          env.ops.train w.tick R.dataset m = .ok m' ∧ w'.models r = some m')) := by
  unfold trainBody at h
  obtain ⟨R, hR, h⟩ := (Res.bind_eq_ok _ _ _).1 h
  refine ⟨R, World.region_ok.1 hR, ?_⟩
  split at h
  next he => cases h; exact .inl ⟨he, rfl⟩
  next he =>
    refine .inr ⟨he, ?_⟩
    split at h
    · cases h
    · obtain ⟨w₀, hb, h⟩ := (Res.bind_eq_ok _ _ _).1 h
      obtain ⟨F, rfl⟩ := traceBest_same hb
      obtain ⟨m, hm, h⟩ := (Res.bind_eq_ok _ _ _).1 h
      obtain ⟨m', hm', h⟩ := (Res.bind_eq_ok _ _ _).1 h
      have ht := (trained_traceBest hb).trans
        (trained_train (World.model_ok.1 hm) hm' fun _ => ⟨R, World.region_ok.1 hR, rfl⟩)
      have hmod : ∀ w₁ : World M, w₁.models =
          (((w.setModel r m').advance).emit (.trained r R.dataset)).models →
          w₁.models r = some m' := by
        intro w₁ h; rw [h]; simp [World.emit, World.advance, World.setModel]
      dsimp only at h
      split at h
      · cases h
      · split at h
        · obtain ⟨s', hs, h⟩ := (Res.bind_eq_ok _ _ _).1 h
          cases h
          refine ⟨(ht.trans (trained_write env _ _ _)).trans (trained_write env _ _ _), m, m',
            World.model_ok.1 hm, hm', hmod _ ?_⟩
          rw [write_models, write_models]
          rfl
        · cases h
          exact ⟨ht, m, m', World.model_ok.1 hm, hm', hmod _ rfl⟩

theorem trainBody_trained {env : Env M} {w w' : World M} {r : ℕ} {s : ℤ}
    (h : trainBody env w r s = .ok w') : ∃ l, Trained env w l w' ∧ Calm env (some r) w l := by
  obtain ⟨R, _, ⟨_, rfl⟩ | ⟨_, ht, _⟩⟩ := trainBody_exact h
  · exact ⟨_, Trained.refl env w', calm_nil _ _ _⟩
  · refine ⟨_, ht, ?_⟩
    intro _ r' m hx _ _ ds hd
    rw [List.mem_singleton] at hd
    cases hd
    exact hx rfl

theorem Calm.mono {env : Env M} {w : World M} {l : List Ev} (h : Calm env none w l) (x : Option ℕ) :
    Calm env x w l :=
  fun hs r m _ hm ht ds => h hs r m (by simp) hm ht ds

theorem trainNoCollect_trained {env : Env M} {w w' : World M} {r : ℕ} {s : ℤ}
    (h : trainNoCollect env w r s false = .ok w') :
    ∃ l, Trained env w l w' ∧ Calm env none w l := by
  unfold trainNoCollect at h
  obtain ⟨m, hm, h⟩ := (Res.bind_eq_ok _ _ _).1 h
  have hm := World.model_ok.1 hm
  split at h
  · cases h; exact ⟨_, Trained.refl env w, calm_nil _ _ _⟩
  next hc =>
    simp only [Bool.not_false, Bool.true_and, Bool.not_eq_eq_eq_not, Bool.not_true,
      Bool.not_eq_false] at hc
    obtain ⟨l, hl, hk⟩ := trainBody_trained h
    refine ⟨l, hl, ?_⟩
    intro hs r' m' _ hm' ht ds
    refine hk hs r' m' ?_ hm' ht ds
    intro he
    cases he
    rw [hm] at hm'
    cases hm'
    rw [ht] at hc
    cases hc

theorem trainAllWith_trained {env : Env M} {ds : Dataset} {rs : List ℕ} {w w' : World M}
    (hs : w.cfg.single = true) (h : trainAllWith env ds rs w = .ok w') : ∃ l, Trained env w l w' := by
  induction rs generalizing w with
  | nil => simp only [trainAllWith] at h; cases h; exact ⟨_, Trained.refl env _⟩
  | cons r rs ih =>
    simp only [trainAllWith] at h
    obtain ⟨R, hR, h⟩ := (Res.bind_eq_ok _ _ _).1 h
    obtain ⟨m, hm, h⟩ := (Res.bind_eq_ok _ _ _).1 h
    obtain ⟨m', hm', h⟩ := (Res.bind_eq_ok _ _ _).1 h
    obtain ⟨l, hl⟩ := ih (w := (w.setModel r m').advance.emit (.trained r ds)) hs h
    exact ⟨_, (trained_train (World.model_ok.1 hm) hm' (by simp [hs])).trans hl⟩

theorem forRegions_induct {body : World M → ℕ → Res (World M)} (P : World M → Prop)
    (hb : ∀ w r w', P w → body w r = .ok w' → P w') {rs : List ℕ} {w w' : World M} (hw : P w)
    (h : forRegions body rs w = .ok w') : P w' := by
  induction rs generalizing w with
  | nil => simp only [forRegions] at h; cases h; exact hw
  | cons r rs ih =>
    simp only [forRegions] at h
    obtain ⟨w₁, h1, h⟩ := (Res.bind_eq_ok _ _ _).1 h
    exact ih (hb _ _ _ hw h1) h

theorem trainNoCollectOf_trained {env : Env M} {w w' : World M} {r : ℕ} {s : ℤ}
    (h : trainNoCollectOf env s w r = .ok w') : ∃ l, Trained env w l w' ∧ Calm env none w l := by
  unfold trainNoCollectOf at h
  obtain ⟨R, hR, h⟩ := (Res.bind_eq_ok _ _ _).1 h
  exact trainNoCollect_trained h

theorem apolloTrainNoCollect_trained {env : Env M} {w w' : World M} {s : ℤ}
    (h : apolloTrainNoCollect env w s = .ok w') : ∃ l, Trained env w l w' ∧ Calm env none w l := by
  unfold apolloTrainNoCollect apolloTrainWith at h
  split at h
  · cases h
  · split at h
    next hs =>
      obtain ⟨ds, hds, h⟩ := (Res.bind_eq_ok _ _ _).1 h
      obtain ⟨l, hl⟩ := trainAllWith_trained hs h
      refine ⟨l, hl, ?_⟩
      intro hs'
      rw [hs] at hs'
      cases hs'
    · refine forRegions_induct (fun w' => ∃ l, Trained env w l w' ∧ Calm env none w l) ?_
        ⟨_, Trained.refl env w, calm_nil _ _ _⟩ h
      rintro w₁ r w₂ ⟨l, hl, hk⟩ h2
      obtain ⟨l', hl', hk'⟩ := trainNoCollectOf_trained h2
      exact ⟨_, hl.trans hl', hk.trans (by rw [hl.cfg]) (fun r _ => hl.models r) hk'⟩

theorem autoTrain_trained {env : Env M} {w w' : World M} {r : ℕ}
    (h : autoTrain env w r = .ok w') : ∃ l, Trained env w l w' ∧ Calm env none w l := by
  unfold autoTrain at h
  obtain ⟨R, hR, h⟩ := (Res.bind_eq_ok _ _ _).1 h
  obtain ⟨m, hm, h⟩ := (Res.bind_eq_ok _ _ _).1 h
  split at h
  · cases h; exact ⟨_, Trained.refl env w, calm_nil _ _ _⟩
  · split at h
    · exact apolloTrainNoCollect_trained h
    · split at h
      · exact trainNoCollect_trained h
      · split at h
        · exact trainNoCollect_trained h
        · cases h; exact ⟨_, Trained.refl env w, calm_nil _ _ _⟩

/-- Training one region trains no other. -/
theorem trainBody_alone {env : Env M} {w w' : World M} {r : ℕ} {s : ℤ} {l : List Ev}
    (h : trainBody env w r s = .ok w') (hl : w'.log = w.log ++ l) :
    ∀ r' ds, Ev.trained r' ds ∈ l → r' = r := by
  intro r' ds hd
  obtain ⟨R, _, ⟨_, rfl⟩ | ⟨_, ht, _⟩⟩ := trainBody_exact h
  · rw [List.self_eq_append_right.1 hl] at hd
    cases hd
  · rw [ht.log, List.append_cancel_left_eq] at hl
    rw [← hl, List.mem_singleton] at hd
    cases hd
    rfl

theorem trainNoCollect_alone {env : Env M} {w w' : World M} {r : ℕ} {s : ℤ} {f : Bool} {l : List Ev}
    (h : trainNoCollect env w r s f = .ok w') (hl : w'.log = w.log ++ l) :
    ∀ r' ds, Ev.trained r' ds ∈ l → r' = r := by
  unfold trainNoCollect at h
  obtain ⟨m, hm, h⟩ := (Res.bind_eq_ok _ _ _).1 h
  split at h
  · cases h
    rw [List.self_eq_append_right.1 hl]
    intro _ _ hd
    cases hd
  · exact trainBody_alone h hl

/-- Without a global period the training at the end of an execution trains no other region. -/
theorem autoTrain_alone {env : Env M} {w w' : World M} {r : ℕ} {l : List Ev}
    (hg : w.cfg.globalPeriod = 0) (h : autoTrain env w r = .ok w') (hl : w'.log = w.log ++ l) :
    ∀ r' ds, Ev.trained r' ds ∈ l → r' = r := by
  have hnil : w' = w → ∀ r' ds, Ev.trained r' ds ∈ l → r' = r := by
    rintro rfl
    rw [List.self_eq_append_right.1 hl]
    intro _ _ hd
    cases hd
  unfold autoTrain at h
  obtain ⟨R, hR, h⟩ := (Res.bind_eq_ok _ _ _).1 h
  obtain ⟨m, hm, h⟩ := (Res.bind_eq_ok _ _ _).1 h
  split at h
  · cases h; exact hnil rfl
  · split at h
    · exact absurd hg ‹_ ∧ _›.1
    · split at h
      · exact trainNoCollect_alone h hl
      · split at h
        · exact trainNoCollect_alone h hl
        · cases h; exact hnil rfl

/-! ## `collectContext` -/

/-- Whether a region with model `m` records measurements. -/
def learns (env : Env M) (w : World M) (m : M) : Bool := w.cfg.persistent || env.ops.isTrainable m

/-- The region after an execution was recorded. -/
def recRegion (env : Env M) (w : World M) (R : Region) (m : M) (C : Ctx) (metric : ℚ) : Region :=
  { R with
    trace := if w.cfg.traceCsv then R.trace ++ traceRow env.rank (env.ops.name m) R C metric
      else R.trace
    dataset := if learns env w m then R.dataset.insert C.features C.policy metric else R.dataset
    current := none }

/-- The context after an execution was recorded. -/
def recCtx (env : Env M) (w : World M) (m : M) (C : Ctx) : Ctx :=
  { C with features := if learns env w m then [] else C.features }

/-- What `collectContext` does, up to training. -/
structure Collected (env : Env M) (w : World M) (r : ℕ) (c : CtxPtr) (metric : ℚ) (R : Region)
    (m : M) (C : Ctx) (l : List Ev) (w' : World M) : Prop where
  region : w.regions r = some R
  model : w.models r = some m
  ctx : w.ctxs c = some C
  own : c = .sync r ∨ ∃ n, c = .heap n
  cfg : w'.cfg = w.cfg
  regions : w'.regions = Function.update w.regions r (some (recRegion env w R m C metric))
  nextRegion : w'.nextRegion = w.nextRegion
  ctxs : w'.ctxs = Function.update w.ctxs c
    (if c = .sync r then some (recCtx env w m C) else none)
  nextCtx : w'.nextCtx = w.nextCtx
  registry : w'.registry = w.registry
  executions : w'.executions = w.executions + 1
  log : w'.log = w.log ++ l
  events : ∀ e ∈ l, ∃ r ds, e = .trained r ds
  live : ∀ r, (w'.models r).isSome = (w.models r).isSome
  models : ∀ r, (∀ ds, Ev.trained r ds ∉ l) → w'.models r = w.models r
  tick : w.tick ≤ w'.tick
  steps : ∀ r m', w'.models r = some m' → ∃ m, w.models r = some m ∧ TrainedOn env l r m m'
  data : w.cfg.single = false → ∀ r ds, Ev.trained r ds ∈ l →
    ∃ R, w'.regions r = some R ∧ R.dataset = ds
  calm : Calm env none w l
  gtrace : w'.gtrace = if w.cfg.traceCsv then w.gtrace ++ gtraceRow (env.wall w.tick) R C
    else w.gtrace

theorem Collected.chain {env : Env M} {w w' : World M} {r : ℕ} {c : CtxPtr} {metric : ℚ}
    {R : Region} {m : M} {C : Ctx} {l : List Ev} (h : Collected env w r c metric R m C l w')
    (r' : ℕ) (m' : M) (hm : w'.models r' = some m') :
    ∃ m, w.models r' = some m ∧ Retrained env m m' := by
  obtain ⟨m, h1, h2⟩ := h.steps r' m' hm
  exact ⟨m, h1, h2.retrained⟩

theorem record_regions (env : Env M) (w : World M) (r : ℕ) (R : Region) (m : M) (c : CtxPtr)
    (C : Ctx) (metric : ℚ) :
    (record env w r R m c C metric).regions = Function.update w.regions r
      (some { recRegion env w R m C metric with current := R.current }) := by
  unfold record recRegion learns
  by_cases ht : w.cfg.traceCsv <;>
    cases hl : (w.cfg.persistent || env.ops.isTrainable m) <;>
    simp [ht, hl, World.setRegion, World.setCtx]

theorem record_ctxs (env : Env M) (w : World M) (r : ℕ) (R : Region) (m : M) (c : CtxPtr)
    (C : Ctx) (metric : ℚ) (hC : w.ctxs c = some C) :
    (record env w r R m c C metric).ctxs = Function.update w.ctxs c (some (recCtx env w m C)) := by
  unfold record recCtx learns
  by_cases ht : w.cfg.traceCsv <;>
    cases hl : (w.cfg.persistent || env.ops.isTrainable m) <;>
    simp [ht, hl, World.setRegion, World.setCtx]
  all_goals exact hC

theorem record_frame (env : Env M) (w : World M) (r : ℕ) (R : Region) (m : M) (c : CtxPtr)
    (C : Ctx) (metric : ℚ) :
    (record env w r R m c C metric).cfg = w.cfg ∧
    (record env w r R m c C metric).models = w.models ∧
    (record env w r R m c C metric).nextRegion = w.nextRegion ∧
    (record env w r R m c C metric).nextCtx = w.nextCtx ∧
    (record env w r R m c C metric).registry = w.registry ∧
    (record env w r R m c C metric).executions = w.executions + 1 ∧
    (record env w r R m c C metric).tick = w.tick ∧
    (record env w r R m c C metric).files = w.files ∧
    (record env w r R m c C metric).log = w.log ∧
    (record env w r R m c C metric).gtrace = (if w.cfg.traceCsv then
      w.gtrace ++ gtraceRow (env.wall w.tick) R C else w.gtrace) := by
  unfold record
  by_cases ht : w.cfg.traceCsv <;>
    cases hl : (w.cfg.persistent || env.ops.isTrainable m) <;>
    simp [ht, hl, World.setRegion, World.setCtx]

/-- The steps of `collectContext`. -/
theorem collectContext_steps {env : Env M} {w w' : World M} {r : ℕ} {c : CtxPtr} {metric : ℚ}
    (h : collectContext env w r c metric = .ok w') :
    ∃ R m C w₁ w₂ R₂, w.regions r = some R ∧ w.models r = some m ∧ w.ctxs c = some C ∧
      autoTrain env (record env w r R m c C metric) r = .ok w₁ ∧
      destroyContext w₁ r c = .ok w₂ ∧ w₂.regions r = some R₂ ∧
      w' = w₂.setRegion r { R₂ with current := none } := by
  unfold collectContext at h
  obtain ⟨R, hR, h⟩ := (Res.bind_eq_ok _ _ _).1 h
  obtain ⟨m, hm, h⟩ := (Res.bind_eq_ok _ _ _).1 h
  obtain ⟨C, hC, h⟩ := (Res.bind_eq_ok _ _ _).1 h
  obtain ⟨w₁, h1, h⟩ := (Res.bind_eq_ok _ _ _).1 h
  obtain ⟨w₂, h2, h⟩ := (Res.bind_eq_ok _ _ _).1 h
  obtain ⟨R₂, h3, h⟩ := (Res.bind_eq_ok _ _ _).1 h
  cases h
  exact ⟨R, m, C, w₁, w₂, R₂, World.region_ok.1 hR, World.model_ok.1 hm, World.ctx_ok.1 hC, h1, h2,
    World.region_ok.1 h3, rfl⟩

theorem destroyContext_ok {w w' : World M} {r : ℕ} {c : CtxPtr}
    (h : destroyContext w r c = .ok w') :
    (c = .sync r ∧ w' = w) ∨
      (∃ n, c = .heap n ∧ (w.ctxs c).isSome ∧
        w' = { w with ctxs := Function.update w.ctxs c none }) := by
  unfold destroyContext at h
  split at h
  · cases h; exact Or.inl ⟨‹_›, rfl⟩
  · cases c with
    | sync r' => cases h
    | heap n =>
      simp only at h
      obtain ⟨C, hC, h⟩ := (Res.bind_eq_ok _ _ _).1 h
      cases h
      exact Or.inr ⟨n, rfl, by rw [World.ctx_ok.1 hC]; rfl, rfl⟩

theorem collectContext_ok {env : Env M} {w w' : World M} {r : ℕ} {c : CtxPtr} {metric : ℚ}
    (h : collectContext env w r c metric = .ok w') :
    ∃ R m C l, Collected env w r c metric R m C l w' := by
  obtain ⟨R, m, C, w₁, w₂, R₂, hR, hm, hC, h1, h2, h3, rfl⟩ := collectContext_steps h
  obtain ⟨l, hl, hk⟩ := autoTrain_trained h1
  obtain ⟨f1, f2, f3, f4, f5, f6, f7, f8, f9, f10⟩ := record_frame env w r R m c C metric
  have hreg := record_regions env w r R m c C metric
  have hctx := record_ctxs env w r R m c C metric hC
  have hw2 : w₂.regions = w₁.regions ∧ w₂.cfg = w₁.cfg ∧ w₂.nextRegion = w₁.nextRegion ∧
      w₂.nextCtx = w₁.nextCtx ∧ w₂.registry = w₁.registry ∧ w₂.executions = w₁.executions ∧
      w₂.log = w₁.log ∧ w₂.models = w₁.models ∧
      w₂.ctxs = (if c = .sync r then w₁.ctxs else Function.update w₁.ctxs c none) ∧
      (c = .sync r ∨ ∃ n, c = .heap n) ∧ w₂.tick = w₁.tick ∧ w₂.gtrace = w₁.gtrace := by
    rcases destroyContext_ok h2 with ⟨rfl, rfl⟩ | ⟨n, rfl, _, rfl⟩
    · simp
    · simp
  obtain ⟨e1, e2, e3, e4, e5, e6, e7, e8, e9, e10, e11, e12⟩ := hw2
  have hR2 : R₂ = { recRegion env w R m C metric with current := R.current } := by
    rw [e1, hl.regions, hreg] at h3
    simpa using h3.symm
  refine ⟨R, m, C, l, hR, hm, hC, e10, ?_, ?_, ?_, ?_, ?_, ?_, ?_, ?_, hl.events, ?_, ?_, ?_, ?_, ?_, ?_, ?_⟩
  · simp only [World.setRegion]; rw [e2, hl.cfg, f1]
  · simp only [World.setRegion]
    rw [e1, hl.regions, hreg, hR2, Function.update_idem]
    rfl
  · simp only [World.setRegion]; rw [e3, hl.nextRegion, f3]
  · simp only [World.setRegion]
    rw [e9, hl.ctxs, hctx]
    split
    · rfl
    · rw [Function.update_idem]
  · simp only [World.setRegion]; rw [e4, hl.nextCtx, f4]
  · simp only [World.setRegion]; rw [e5, hl.registry, f5]
  · simp only [World.setRegion]; rw [e6, hl.executions, f6]
  · simp only [World.setRegion]; rw [e7, hl.log, f9]
  · intro r'; simp only [World.setRegion]; rw [e8, hl.live, f2]
  · intro r' hr; simp only [World.setRegion]; rw [e8, hl.models r' hr, f2]
  · simp only [World.setRegion]; rw [e11, ← f7]; exact hl.tick
  · intro r' m' hm'
    simp only [World.setRegion] at hm'
    rw [e8] at hm'
    rw [← f2]
    exact hl.steps r' m' hm'
  · intro hs r' ds hd
    obtain ⟨R', h4, h5⟩ := hl.data (by rw [f1]; exact hs) r' ds hd
    simp only [World.setRegion]
    rw [hreg] at h4
    by_cases hr : r' = r
    · subst hr
      rw [Function.update_self] at h4
      cases h4
      exact ⟨_, Function.update_self .., by rw [hR2]; exact h5⟩
    · rw [Function.update_of_ne hr] at h4
      refine ⟨R', ?_, h5⟩
      rw [Function.update_of_ne hr, e1, hl.regions, hreg, Function.update_of_ne hr]
      exact h4
  · intro hs r' m' hx hm' ht
    exact hk (by rw [f1]; exact hs) r' m' hx (by rw [f2]; exact hm') ht
  · simp only [World.setRegion]; rw [e12, hl.gtrace, f10]

/-! ## Predicates that survive collecting and training -/

/-- A predicate on worlds that is kept by training, polling, recording an execution and changes of
the list of pending contexts.  `F` are the regions on which training may be forced; a training starts
in the world `w₀`, where the model must be trainable unless forced, and the model is trained in `w`,
after collection of pending contexts. -/
structure Stable (env : Env M) (F : ℕ → Prop) (P : World M → Prop) : Prop where
  advance : ∀ w, P w → P w.advance
  body : ∀ w₀ w r s w', P w₀ → P w →
    (F r ∨ ∃ m, w₀.models r = some m ∧ env.ops.isTrainable m = true) →
    trainBody env w r s = .ok w' → P w'
  single : ∀ w ds rs w', P w → w.cfg.single = true → trainAllWith env ds rs w = .ok w' → P w'
  waiting : ∀ w c, P w → P (w.emit (.waiting c))
  finish : ∀ w r c m w', P w →
    collectContext env (w.emit (.finished r c m)) r c m = .ok w' → P w'
  pending : ∀ w r R cs, P w → w.regions r = some R → P (w.setRegion r { R with pending := cs })

/-- It is enough that the predicate is kept by all training. -/
theorem Stable.of {env : Env M} {F : ℕ → Prop} {P : World M → Prop}
    (trained : ∀ w l w', Trained env w l w' → P w → P w')
    (waiting : ∀ w c, P w → P (w.emit (.waiting c)))
    (finish : ∀ w r c m w', P w →
      collectContext env (w.emit (.finished r c m)) r c m = .ok w' → P w')
    (pending : ∀ w r R cs, P w → w.regions r = some R →
      P (w.setRegion r { R with pending := cs })) : Stable env F P where
  advance := fun w h => trained _ _ _ (trained_advance env w) h
  body := by
    intro w₀ w r s w' _ hw _ h
    obtain ⟨l, hl, _⟩ := trainBody_trained h
    exact trained _ _ _ hl hw
  single := by
    intro w ds rs w' hw hs h
    obtain ⟨l, hl⟩ := trainAllWith_trained hs h
    exact trained _ _ _ hl hw
  waiting := waiting
  finish := finish
  pending := pending

/-- A predicate on worlds that is kept by training and by the collection of pending contexts. -/
structure Kept (env : Env M) (F : ℕ → Prop) (P : World M → Prop) : Prop where
  advance : ∀ w, P w → P w.advance
  body : ∀ w₀ w r s w', P w₀ → P w →
    (F r ∨ ∃ m, w₀.models r = some m ∧ env.ops.isTrainable m = true) →
    trainBody env w r s = .ok w' → P w'
  single : ∀ w ds rs w', P w → w.cfg.single = true → trainAllWith env ds rs w = .ok w' → P w'
  collect : ∀ w r w', P w → collectPending env w r = .ok w' → P w'

/-- It is enough that the predicate is kept by all training. -/
theorem Kept.of {env : Env M} {F : ℕ → Prop} {P : World M → Prop}
    (trained : ∀ w l w', Trained env w l w' → P w → P w')
    (collect : ∀ w r w', P w → collectPending env w r = .ok w' → P w') : Kept env F P where
  advance := fun w h => trained _ _ _ (trained_advance env w) h
  body := by
    intro w₀ w r s w' _ hw _ h
    obtain ⟨l, hl, _⟩ := trainBody_trained h
    exact trained _ _ _ hl hw
  single := by
    intro w ds rs w' hw hs h
    obtain ⟨l, hl⟩ := trainAllWith_trained hs h
    exact trained _ _ _ hl hw
  collect := collect

section Stable

variable {env : Env M} {F : ℕ → Prop} {P : World M → Prop}

theorem tryCollect_ok {w w' : World M} {r : ℕ} {c : CtxPtr} {b : Bool}
    (h : tryCollect env w r c = .ok (b, w')) :
    (∃ n, c = .heap n ∧ env.poll w.tick w.log n = .waiting ∧ b = false ∧
      w' = (w.advance).emit (.waiting c)) ∨
    (∃ n m, c = .heap n ∧ env.poll w.tick w.log n = .done m ∧ b = true ∧
      collectContext env ((w.advance).emit (.finished r c m)) r c m = .ok w') ∨
    (∃ r' m, c = .sync r' ∧ b = true ∧
      collectContext env (w.emit (.finished r c m)) r c m = .ok w') := by
  unfold tryCollect at h
  obtain ⟨C, hC, h⟩ := (Res.bind_eq_ok _ _ _).1 h
  cases c with
  | sync r' =>
    simp only at h
    obtain ⟨m, hm, h⟩ := (Res.bind_eq_ok _ _ _).1 h
    obtain ⟨w₁, h1, h⟩ := (Res.bind_eq_ok _ _ _).1 h
    cases h
    exact Or.inr (Or.inr ⟨r', m, rfl, rfl, h1⟩)
  | heap n =>
    simp only at h
    cases hp : env.poll w.tick w.log n with
    | failed => rw [hp] at h; cases h
    | waiting =>
      rw [hp] at h
      cases h
      exact Or.inl ⟨n, rfl, hp, rfl, rfl⟩
    | done m =>
      rw [hp] at h
      simp only at h
      obtain ⟨w₁, h1, h⟩ := (Res.bind_eq_ok _ _ _).1 h
      cases h
      exact Or.inr (Or.inl ⟨n, m, rfl, hp, rfl, h1⟩)

theorem Stable.tryCollect (hP : Stable env F P) {w w' : World M} {r : ℕ} {c : CtxPtr} {b : Bool}
    (hw : P w) (h : tryCollect env w r c = .ok (b, w')) : P w' := by
  rcases tryCollect_ok h with ⟨n, rfl, _, _, rfl⟩ | ⟨n, m, rfl, _, _, h⟩ | ⟨r', m, rfl, _, h⟩
  · exact hP.waiting _ _ (hP.advance _ hw)
  · exact hP.finish _ _ _ _ _ (hP.advance _ hw) h
  · exact hP.finish _ _ _ _ _ hw h

theorem Stable.collectLoop (hP : Stable env F P) {r : ℕ} {cs kept : List CtxPtr} {w w' : World M}
    (hw : P w) (h : collectLoop env r cs w = .ok (kept, w')) : P w' := by
  induction cs generalizing w kept with
  | nil => simp only [Apollo.collectLoop] at h; cases h; exact hw
  | cons c cs ih =>
    simp only [Apollo.collectLoop] at h
    obtain ⟨⟨b, w₁⟩, h1, h⟩ := (Res.bind_eq_ok _ _ _).1 h
    obtain ⟨⟨k, w₂⟩, h2, h⟩ := (Res.bind_eq_ok _ _ _).1 h
    cases h
    exact ih (hP.tryCollect hw h1) h2

theorem collectPending_ok {w w' : World M} {r : ℕ} (h : collectPending env w r = .ok w') :
    ∃ R kept w₁ R₁, w.regions r = some R ∧ collectLoop env r R.pending w = .ok (kept, w₁) ∧
      w₁.regions r = some R₁ ∧ w' = w₁.setRegion r { R₁ with pending := kept } := by
  unfold collectPending at h
  obtain ⟨R, hR, h⟩ := (Res.bind_eq_ok _ _ _).1 h
  obtain ⟨⟨kept, w₁⟩, h1, h⟩ := (Res.bind_eq_ok _ _ _).1 h
  obtain ⟨R₁, hR₁, h⟩ := (Res.bind_eq_ok _ _ _).1 h
  cases h
  exact ⟨R, kept, w₁, R₁, World.region_ok.1 hR, h1, World.region_ok.1 hR₁, rfl⟩

theorem Stable.collectPending (hP : Stable env F P) {w w' : World M} {r : ℕ} (hw : P w)
    (h : collectPending env w r = .ok w') : P w' := by
  obtain ⟨R, kept, w₁, R₁, _, h1, hR₁, rfl⟩ := collectPending_ok h
  exact hP.pending _ _ _ _ (hP.collectLoop hw h1) hR₁

theorem Stable.kept (hP : Stable env F P) : Kept env F P where
  advance := hP.advance
  body := hP.body
  single := hP.single
  collect := fun _ _ _ hw h => hP.collectPending hw h

theorem regionTrain_ok {w w' : World M} {r : ℕ} {s : ℤ} {collect force : Bool}
    (h : regionTrain env w r s collect force = .ok w') :
    (w' = w ∧ force = false ∧ ∃ m, w.models r = some m ∧ env.ops.isTrainable m = false) ∨
    ((force = true ∨ ∃ m, w.models r = some m ∧ env.ops.isTrainable m = true) ∧ ∃ w₁,
      ((collect = true ∧ collectPending env w r = .ok w₁) ∨ (collect = false ∧ w₁ = w)) ∧
      trainBody env w₁ r s = .ok w') := by
  unfold regionTrain at h
  obtain ⟨R, hR, h⟩ := (Res.bind_eq_ok _ _ _).1 h
  obtain ⟨m, hm, h⟩ := (Res.bind_eq_ok _ _ _).1 h
  have hm := World.model_ok.1 hm
  split at h
  next hc =>
    cases h
    simp only [Bool.and_eq_true, Bool.not_eq_eq_eq_not, Bool.not_true] at hc
    exact Or.inl ⟨rfl, hc.1, m, hm, hc.2⟩
  next hc =>
    simp only [Bool.and_eq_true, Bool.not_eq_eq_eq_not, Bool.not_true, not_and_or,
      Bool.not_eq_false] at hc
    refine Or.inr ⟨hc.imp id fun h => ⟨m, hm, h⟩, ?_⟩
    obtain ⟨w₁, h1, h⟩ := (Res.bind_eq_ok _ _ _).1 h
    refine ⟨w₁, ?_, h⟩
    cases collect with
    | true => simp only [if_true] at h1; exact Or.inl ⟨rfl, h1⟩
    | false =>
      simp only [Bool.false_eq_true, if_false] at h1
      cases h1
      exact Or.inr ⟨rfl, rfl⟩

theorem Kept.regionTrain (hP : Kept env F P) {w w' : World M} {r : ℕ} {s : ℤ}
    {collect force : Bool} (hf : force = true → F r) (hw : P w)
    (h : regionTrain env w r s collect force = .ok w') : P w' := by
  rcases regionTrain_ok h with ⟨rfl, _⟩ | ⟨h0, w₁, h1, h⟩
  · exact hw
  · refine hP.body w w₁ r s w' hw ?_ (h0.imp hf id) h
    rcases h1 with ⟨_, h1⟩ | ⟨_, rfl⟩
    · exact hP.collect _ _ _ hw h1
    · exact hw

theorem Kept.apolloTrain (hP : Kept env F P) {w w' : World M} {s : ℤ} {collect : Bool}
    (hw : P w) (h : apolloTrain env w s collect = .ok w') : P w' := by
  unfold Apollo.apolloTrain apolloTrainWith at h
  split at h
  · cases h
  · split at h
    · obtain ⟨ds, _, h⟩ := (Res.bind_eq_ok _ _ _).1 h
      exact hP.single _ _ _ _ hw ‹_› h
    · exact forRegions_induct P (fun _ _ _ hw h => hP.regionTrain (by simp) hw h) hw h

theorem Kept.drain (hP : Kept env F P) {r fuel : ℕ} {w w' : World M} (hw : P w)
    (h : drain env r fuel w = .ok w') : P w' := by
  induction fuel generalizing w with
  | zero =>
    simp only [Apollo.drain] at h
    obtain ⟨R, _, h⟩ := (Res.bind_eq_ok _ _ _).1 h
    split at h
    · cases h; exact hw
    · cases h
  | succ n ih =>
    simp only [Apollo.drain] at h
    obtain ⟨R, _, h⟩ := (Res.bind_eq_ok _ _ _).1 h
    split at h
    · cases h; exact hw
    · obtain ⟨w₁, h1, h⟩ := (Res.bind_eq_ok _ _ _).1 h
      exact ih (hP.collect _ _ _ hw h1) h

end Stable

end Apollo
