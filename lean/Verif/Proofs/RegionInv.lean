import Verif.Proofs.Region

/-!
# Construction of regions, and the induction principle for programs
-/

namespace Apollo

variable {M : Type}

/-- One model results from the other by trainings with the data in the events about region `r`, or
by loading if `L`. -/
def Evolved (env : Env M) (L : Prop) (l : List Ev) (r : ℕ) : M → M → Prop :=
  Relation.ReflTransGen fun m m' => (∃ t ds, Ev.trained r ds ∈ l ∧ env.ops.train t ds m = .ok m') ∨
    (L ∧ ∃ s, env.ops.load s m = .ok m')

theorem Evolved.mono {env : Env M} {L L' : Prop} {l l' : List Ev} {r : ℕ} {m m' : M} (hL : L → L')
    (hl : ∀ e ∈ l, e ∈ l') (h : Evolved env L l r m m') : Evolved env L' l' r m m' :=
  Relation.ReflTransGen.mono (fun _ _ h => h.imp (fun ⟨t, ds, hm, h⟩ => ⟨t, ds, hl _ hm, h⟩)
    (fun ⟨h1, h2⟩ => ⟨hL h1, h2⟩)) _ _ h

theorem TrainedOn.evolved {env : Env M} {l : List Ev} {r : ℕ} {m m' : M}
    (h : TrainedOn env l r m m') (L : Prop) : Evolved env L l r m m' :=
  Relation.ReflTransGen.mono (fun _ _ h => .inl h) _ _ h

/-- Region `r` has the given kind of model. -/
def World.kindIs (w : World M) (r : ℕ) (name : Str) : Prop :=
  ∃ R, w.regions r = some R ∧ R.modelName = name

/-- Steps of the constructor: the dataset and trace of region `r` may change, and models are trained
or loaded. -/
structure Built (env : Env M) (r : ℕ) (w : World M) (l : List Ev) (w' : World M) : Prop where
  cfg : w'.cfg = w.cfg
  regions : ∃ R ds tr, w.regions r = some R ∧
    w'.regions = Function.update w.regions r (some { R with dataset := ds, trace := tr })
  nextRegion : w'.nextRegion = w.nextRegion
  ctxs : w'.ctxs = w.ctxs
  nextCtx : w'.nextCtx = w.nextCtx
  registry : w'.registry = w.registry
  executions : w'.executions = w.executions
  gtrace : w'.gtrace = w.gtrace
  log : w'.log = w.log ++ l
  events : ∀ e ∈ l, ∃ r ds, e = .trained r ds
  live : ∀ r, (w'.models r).isSome = (w.models r).isSome
  models : ∀ r', r' ≠ r → (∀ ds, Ev.trained r' ds ∉ l) → w'.models r' = w.models r'
  tick : w.tick ≤ w'.tick
  steps : ∀ r' m', r' ≠ r → w'.models r' = some m' →
    ∃ m, w.models r' = some m ∧ TrainedOn env l r' m m'
  origin : ∀ m', w'.models r = some m' →
    ∃ m, w.models r = some m ∧ Evolved env (w.kindIs r "Optimal".toList) l r m m'
  data : w.cfg.single = false → ∀ r' ds, r' ≠ r → Ev.trained r' ds ∈ l →
    ∃ R, w.regions r' = some R ∧ R.dataset = ds
  calm : Calm env (some r) w l
  alone : w.cfg.globalPeriod = 0 → ∀ r' ds, Ev.trained r' ds ∈ l → r' = r

theorem Built.chain {env : Env M} {r : ℕ} {w w' : World M} {l : List Ev} (h : Built env r w l w')
    (r' : ℕ) (m' : M) (hr : r' ≠ r) (hm : w'.models r' = some m') :
    ∃ m, w.models r' = some m ∧ Retrained env m m' := by
  obtain ⟨m, h1, h2⟩ := h.steps r' m' hr hm
  exact ⟨m, h1, h2.retrained⟩

theorem Trained.built {env : Env M} {r : ℕ} {w w' : World M} {l : List Ev}
    (h : Trained env w l w') (hk : Calm env (some r) w l)
    (ha : w.cfg.globalPeriod = 0 → ∀ r' ds, Ev.trained r' ds ∈ l → r' = r) {R : Region}
    (hR : w.regions r = some R) : Built env r w l w' where
  cfg := h.cfg
  regions := ⟨R, R.dataset, R.trace, hR, by
    rw [h.regions]
    exact (by rw [← hR]; exact (Function.update_eq_self _ _).symm)⟩
  nextRegion := h.nextRegion
  ctxs := h.ctxs
  nextCtx := h.nextCtx
  registry := h.registry
  executions := h.executions
  gtrace := h.gtrace
  log := h.log
  events := h.events
  live := h.live
  models := fun r' _ hr => h.models r' hr
  tick := h.tick
  steps := fun r' m' _ hm => h.steps r' m' hm
  origin := fun m' hm => by
    obtain ⟨m, h1, h2⟩ := h.steps r m' hm
    exact ⟨m, h1, h2.evolved _⟩
  data := fun hs r' ds _ hd => h.data hs r' ds hd
  calm := hk
  alone := ha

theorem Built.trans {env : Env M} {r : ℕ} {w₁ w₂ w₃ : World M} {l₁ l₂ : List Ev}
    (h₁ : Built env r w₁ l₁ w₂) (h₂ : Built env r w₂ l₂ w₃) : Built env r w₁ (l₁ ++ l₂) w₃ where
  cfg := by rw [h₂.cfg, h₁.cfg]
  regions := by
    obtain ⟨R, ds, tr, e1, e2⟩ := h₁.regions
    obtain ⟨R', ds', tr', e3, e4⟩ := h₂.regions
    refine ⟨R, ds', tr', e1, ?_⟩
    rw [e4, e2, Function.update_idem]
    rw [e2, Function.update_self, Option.some.injEq] at e3
    subst e3
    rfl
  nextRegion := by rw [h₂.nextRegion, h₁.nextRegion]
  ctxs := by rw [h₂.ctxs, h₁.ctxs]
  nextCtx := by rw [h₂.nextCtx, h₁.nextCtx]
  registry := by rw [h₂.registry, h₁.registry]
  executions := by rw [h₂.executions, h₁.executions]
  gtrace := by rw [h₂.gtrace, h₁.gtrace]
  log := by rw [h₂.log, h₁.log, List.append_assoc]
  events := by
    intro e he
    rcases List.mem_append.1 he with he | he
    · exact h₁.events e he
    · exact h₂.events e he
  live := fun r => by rw [h₂.live, h₁.live]
  models := by
    intro r' hne hr
    rw [h₂.models r' hne fun ds hd => hr ds (List.mem_append_right _ hd),
      h₁.models r' hne fun ds hd => hr ds (List.mem_append_left _ hd)]
  tick := le_trans h₁.tick h₂.tick
  steps := by
    intro r' m hne h
    obtain ⟨m₂, h2, c2⟩ := h₂.steps r' m hne h
    obtain ⟨m₁, h1, c1⟩ := h₁.steps r' m₂ hne h2
    exact ⟨m₁, h1, (c1.mono fun _ => List.mem_append_left _).trans
      (c2.mono fun _ => List.mem_append_right _)⟩
  origin := by
    intro m h
    obtain ⟨m₂, h2, c2⟩ := h₂.origin m h
    obtain ⟨m₁, h1, c1⟩ := h₁.origin m₂ h2
    refine ⟨m₁, h1, (c1.mono id fun _ => List.mem_append_left _).trans
      (c2.mono ?_ fun _ => List.mem_append_right _)⟩
    rintro ⟨R₂, hR₂, hn⟩
    obtain ⟨R, ds, tr, e1, e2⟩ := h₁.regions
    rw [e2, Function.update_self] at hR₂
    cases hR₂
    exact ⟨R, e1, hn⟩
  data := by
    intro hs r' ds hne h
    rcases List.mem_append.1 h with h | h
    · exact h₁.data hs r' ds hne h
    · obtain ⟨R', h3, h4⟩ := h₂.data (by rw [h₁.cfg]; exact hs) r' ds hne h
      obtain ⟨R, _, tr, e1, e2⟩ := h₁.regions
      rw [e2, Function.update_of_ne hne] at h3
      exact ⟨R', h3, h4⟩
  calm := h₁.calm.trans (by rw [h₁.cfg])
    (fun r' hx => h₁.models r' fun he => hx (by rw [he])) h₂.calm
  alone := by
    intro hg r' ds hd
    rcases List.mem_append.1 hd with hd | hd
    · exact h₁.alone hg r' ds hd
    · exact h₂.alone (by rw [h₁.cfg]; exact hg) r' ds hd

theorem Built.region {env : Env M} {r : ℕ} {w w' : World M} {l : List Ev}
    (h : Built env r w l w') :
    ∃ R, w'.regions r = some R := by
  obtain ⟨R, ds, tr, _, e⟩ := h.regions
  exact ⟨_, by rw [e, Function.update_self]⟩

theorem built_refl {env : Env M} {r : ℕ} {w : World M} {R : Region} (hR : w.regions r = some R) :
    Built env r w [] w := (Trained.refl env w).built (calm_nil _ _ _) (by simp) hR

theorem built_setDataset {env : Env M} {r : ℕ} {w : World M} {R : Region}
    (hR : w.regions r = some R) (ds : Dataset) : Built env r w [] (w.setRegion r { R with dataset := ds }) where
  cfg := rfl
  regions := ⟨R, ds, R.trace, hR, rfl⟩
  nextRegion := rfl
  ctxs := rfl
  nextCtx := rfl
  registry := rfl
  executions := rfl
  gtrace := rfl
  log := (List.append_nil _).symm
  events := by simp
  live := fun _ => rfl
  models := fun _ _ _ => rfl
  tick := le_refl _
  steps := fun _ m _ h => ⟨m, h, .refl⟩
  origin := fun m h => ⟨m, h, .refl⟩
  data := by simp
  calm := calm_nil _ _ _
  alone := by simp

theorem built_setModel {env : Env M} {r : ℕ} {w : World M} {R : Region}
    (hR : w.regions r = some R) {m : M} (hm : w.models r = some m) {m' : M} {s : Option Str}
    (hn : R.modelName = "Optimal".toList) (hl : env.ops.load s m = .ok m') :
    Built env r w [] (w.setModel r m') where
  cfg := rfl
  regions := ⟨R, R.dataset, R.trace, hR, by
    rw [← hR]; exact (Function.update_eq_self _ _).symm⟩
  nextRegion := rfl
  ctxs := rfl
  nextCtx := rfl
  registry := rfl
  executions := rfl
  gtrace := rfl
  log := (List.append_nil _).symm
  events := by simp
  live := by
    intro r'
    simp only [World.setModel]
    by_cases h : r' = r
    · subst h; simp [hm]
    · simp [h]
  models := fun r' hne _ => by simp [World.setModel, hne]
  tick := le_refl _
  steps := fun r' m hne h => ⟨m, by simpa [World.setModel, hne] using h, .refl⟩
  origin := fun m₁ h => by
    have h : Function.update w.models r (some m') r = some m₁ := h
    rw [Function.update_self] at h
    cases h
    exact ⟨m, hm, .single (.inr ⟨⟨R, hR, hn⟩, s, hl⟩)⟩
  data := by simp
  calm := calm_nil _ _ _
  alone := by simp

theorem loadPersistent_built {env : Env M} {w w' : World M} {r : ℕ} {R : Region}
    (hR : w.regions r = some R) (h : loadPersistent env w r = .ok w') : ∃ l, Built env r w l w' := by
  unfold loadPersistent at h
  split at h
  · cases h; exact ⟨_, built_refl hR⟩
  · obtain ⟨R', hR', h⟩ := (Res.bind_eq_ok _ _ _).1 h
    obtain ⟨ds, hds, h⟩ := (Res.bind_eq_ok _ _ _).1 h
    obtain ⟨l, hl, hk⟩ := autoTrain_trained h
    have b := built_setDataset (env := env) (World.region_ok.1 hR') ds
    obtain ⟨R₂, hR₂⟩ := b.region
    exact ⟨_, b.trans (hl.built (hk.mono _) (fun hg => autoTrain_alone hg h hl.log) hR₂)⟩

/-- Without pending contexts, collecting does nothing. -/
theorem collectPending_nil {env : Env M} {w w' : World M} {r : ℕ} {R : Region}
    (hR : w.regions r = some R) (hp : R.pending = []) (h : collectPending env w r = .ok w') :
    w' = w := by
  obtain ⟨R₀, kept, w₁, R₁, h0, h1, h2, rfl⟩ := collectPending_ok h
  rw [hR] at h0
  cases h0
  rw [hp] at h1
  simp only [collectLoop] at h1
  cases h1
  rw [hR] at h2
  cases h2
  rw [World.setRegion]
  have : ({ R with pending := [] } : Region) = R := by rw [← hp]
  rw [this, ← hR, Function.update_eq_self]

theorem regionTrain_built {env : Env M} {w w' : World M} {r : ℕ} {s : ℤ} {collect force : Bool}
    {R : Region} (hR : w.regions r = some R) (hp : R.pending = [])
    (h : regionTrain env w r s collect force = .ok w') : ∃ l, Trained env w l w' ∧ Calm env (some r) w l ∧
      ∀ r' ds, Ev.trained r' ds ∈ l → r' = r := by
  rcases regionTrain_ok h with ⟨rfl, _⟩ | ⟨_, w₁, h1, h2⟩
  · exact ⟨_, Trained.refl env _, calm_nil _ _ _, by simp⟩
  · obtain ⟨l, hl, hk⟩ := trainBody_trained h2
    rcases h1 with ⟨_, h1⟩ | ⟨_, rfl⟩
    · rw [collectPending_nil hR hp h1] at hl hk h2; exact ⟨_, hl, hk, trainBody_alone h2 hl.log⟩
    · exact ⟨_, hl, hk, trainBody_alone h2 hl.log⟩

theorem loadDatasetParam_built {env : Env M} {w w' : World M} {r : ℕ} {R : Region}
    (hR : w.regions r = some R) (hp : R.pending = []) (h : loadDatasetParam env w r = .ok w') :
    ∃ l, Built env r w l w' := by
  unfold loadDatasetParam at h
  obtain ⟨R', hR', h⟩ := (Res.bind_eq_ok _ _ _).1 h
  have hR' := World.region_ok.1 hR'
  rw [hR] at hR'
  cases hR'
  split at h
  · cases h; exact ⟨_, built_refl hR⟩
  · split at h
    · cases h
    · obtain ⟨ds, hds, h⟩ := (Res.bind_eq_ok _ _ _).1 h
      split at h
      · cases h
      · have b := built_setDataset (env := env) hR ds
        have hr : (w.setRegion r { R with dataset := ds }).regions r =
            some { R with dataset := ds } := by simp [World.setRegion]
        obtain ⟨l, hl, hk, ha⟩ := regionTrain_built hr hp h
        exact ⟨_, b.trans (hl.built hk (fun _ => ha) hr)⟩

theorem loadOptimalFile_built {env : Env M} {w w' : World M} {r : ℕ} {R : Region}
    (hR : w.regions r = some R) (h : loadOptimalFile env w r = .ok w') : ∃ l, Built env r w l w' := by
  unfold loadOptimalFile at h
  obtain ⟨R', hR', h⟩ := (Res.bind_eq_ok _ _ _).1 h
  have hR' := World.region_ok.1 hR'
  rw [hR] at hR'
  cases hR'
  split at h
  next hn =>
    split at h
    · cases h
    · obtain ⟨m, hm, h⟩ := (Res.bind_eq_ok _ _ _).1 h
      obtain ⟨m', hm', h⟩ := (Res.bind_eq_ok _ _ _).1 h
      cases h
      exact ⟨_, built_setModel hR (World.model_ok.1 hm) hn hm'⟩
  · cases h; exact ⟨_, built_refl hR⟩

theorem loadDatasetMap_built {env : Env M} {w w' : World M} {r : ℕ} {R : Region}
    (hR : w.regions r = some R) (h : loadDatasetMap env w r = .ok w') : ∃ l, Built env r w l w' := by
  unfold loadDatasetMap at h
  obtain ⟨R', hR', h⟩ := (Res.bind_eq_ok _ _ _).1 h
  have hR' := World.region_ok.1 hR'
  rw [hR] at hR'
  cases hR'
  split at h
  · split at h
    · cases h
    · obtain ⟨ds, hds, h⟩ := (Res.bind_eq_ok _ _ _).1 h
      split at h
      · cases h
      · obtain ⟨m, hm, h⟩ := (Res.bind_eq_ok _ _ _).1 h
        obtain ⟨m', hm', h⟩ := (Res.bind_eq_ok _ _ _).1 h
        cases h
        have b := built_setDataset (env := env) hR ds
        obtain ⟨R₂, hR₂⟩ := b.region
        exact ⟨_, b.trans ((trained_train (by exact World.model_ok.1 hm) hm'
          fun _ => ⟨_, Function.update_self .., rfl⟩).built
          (fun _ r' _ hx _ _ ds' hd => hx (by rw [List.mem_singleton] at hd; cases hd; rfl))
          (fun _ r' ds' hd => by rw [List.mem_singleton] at hd; cases hd; rfl) hR₂)⟩
  · cases h; exact ⟨_, built_refl hR⟩

theorem startTrace_cases {w w' : World M} {r : ℕ} (h : startTrace env w r = .ok w') :
    ∃ R, w.region r = .ok R ∧
      ((w.cfg.traceCsv = true ∧ env.canWrite (tracePath w.cfg env.rank R.modelInfo R.name) = true ∧
        w' = w.setRegion r { R with trace := traceHeader R.numFeatures }) ∨
      (w.cfg.traceCsv = false ∧ w' = w)) := by
  unfold startTrace at h
  obtain ⟨R, hR, h⟩ := (Res.bind_eq_ok _ _ _).1 h
  refine ⟨R, hR, ?_⟩
  split at h
  next ht =>
    split at h
    next hc => cases h; exact .inl ⟨ht, hc, rfl⟩
    next => cases h
  next ht => cases h; exact .inr ⟨by simpa using ht, rfl⟩

theorem startTrace_ok {w w' : World M} {r : ℕ} {R : Region} (hR : w.regions r = some R)
    (h : startTrace env w r = .ok w') :
    w' = if w.cfg.traceCsv then w.setRegion r { R with trace := traceHeader R.numFeatures }
      else w := by
  unfold startTrace at h
  obtain ⟨R', hR', h⟩ := (Res.bind_eq_ok _ _ _).1 h
  have hR' := World.region_ok.1 hR'
  rw [hR] at hR'
  cases hR'
  split at h
  · split at h
    · cases h; simp_all
    · cases h
  · cases h; simp_all

/-- The model of a region may come from a file. -/
def Loads (yaml : Str) (R : Region) : Prop :=
  yaml ≠ [] ∨ R.params.find "load".toList ≠ none ∨ R.modelName = "Optimal".toList

theorem loadYaml_evolved {env : Env M} {w : World M} {yaml : Str} {m m' : M} {r : ℕ}
    (h : loadYaml env w yaml m = .ok m') : Evolved env (yaml ≠ []) [] r m m' := by
  unfold loadYaml at h
  split at h
  · cases h; exact .refl
  next hy => exact .single (.inr ⟨hy, _, h⟩)

theorem loadModel_evolved {env : Env M} {w : World M} {name mn : Str} {params : Params} {m m' : M}
    {r : ℕ} (h : loadModel env w name mn params m = .ok m') :
    Evolved env (params.find "load".toList ≠ none) [] r m m' := by
  unfold loadModel at h
  split at h
  · cases h; exact .refl
  next v hv =>
    dsimp only at h
    split at h
    · cases h
    · exact .single (.inr ⟨by rw [hv]; simp, _, h⟩)

theorem constructRegion_ok {env : Env M} {w w' : World M} {nf n mt : ℤ} {name info yaml : Str}
    {r : ℕ} (h : constructRegion env w nf name n mt info yaml = .ok (r, w')) :
    ∃ (R : Region) (m : M), r = w.nextRegion ∧
      (∃ m₀, env.ops.create w.tick R.modelName nf n R.params = .ok m₀ ∧
        Evolved env (Loads yaml R) [] r m₀ m) ∧ R.name = truncName name ∧ R.numFeatures = nf ∧
      R.numPolicies = n ∧ R.minTraining = mt ∧ R.dataset = [] ∧ R.idx = 0 ∧ R.current = none ∧
      R.pending = [] ∧ R.trace = [] ∧
      w' = (((({ w with nextRegion := r + 1 } : World M).setRegion r R).setModel r m).setCtx
        (.sync r) {}).advance := by
  unfold constructRegion at h
  obtain ⟨⟨mn, ps⟩, h1, h⟩ := (Res.bind_eq_ok _ _ _).1 h
  obtain ⟨⟨mn', ps', info'⟩, h2, h⟩ := (Res.bind_eq_ok _ _ _).1 h
  obtain ⟨m₀, h3, h⟩ := (Res.bind_eq_ok _ _ _).1 h
  obtain ⟨m₁, h4, h⟩ := (Res.bind_eq_ok _ _ _).1 h
  obtain ⟨m, h5, h⟩ := (Res.bind_eq_ok _ _ _).1 h
  cases h
  refine ⟨_, m, rfl, ⟨m₀, h3, ?_⟩, rfl, rfl, rfl, rfl, rfl, rfl, rfl, rfl, rfl, rfl⟩
  exact ((loadYaml_evolved h4).mono .inl fun _ => id).trans
    ((loadModel_evolved h5).mono (fun h => .inr (.inl h)) fun _ => id)

/-- The state after a region was created. -/
structure CreatedAs (env : Env M) (w : World M) (nf : ℤ) (name : Str) (n mt : ℤ) (yaml : Str) (r : ℕ)
    (R : Region) (m : M) (l : List Ev) (w' : World M) : Prop where
  id : r = w.nextRegion
  name : R.name = truncName name
  numFeatures : R.numFeatures = nf
  numPolicies : R.numPolicies = n
  minTraining : R.minTraining = mt
  idx : R.idx = 0
  current : R.current = none
  pending : R.pending = []
  trace : w.cfg.traceCsv = true → R.trace = traceHeader nf
  cfg : w'.cfg = w.cfg
  regions : w'.regions = Function.update w.regions r (some R)
  nextRegion : w'.nextRegion = r + 1
  ctxs : w'.ctxs = Function.update w.ctxs (.sync r) (some {})
  nextCtx : w'.nextCtx = w.nextCtx
  registry : w'.registry = OMap.insertNew R.name r w.registry
  executions : w'.executions = w.executions
  gtrace : w'.gtrace = w.gtrace
  log : w'.log = w.log ++ l ++ [.created r R.dataset (env.ops.isTrainable m)]
  events : ∀ e ∈ l, ∃ r ds, e = .trained r ds
  live : ∀ r', r' ≠ r → (w'.models r').isSome = (w.models r').isSome
  model : w'.models r = some m
  models : ∀ r', r' ≠ r → (∀ ds, Ev.trained r' ds ∉ l) → w'.models r' = w.models r'
  tick : w.tick ≤ w'.tick
  steps : ∀ r' m', r' ≠ r → w'.models r' = some m' →
    ∃ m, w.models r' = some m ∧ TrainedOn env l r' m m'
  origin : ∃ t m₀, env.ops.create t R.modelName nf n R.params = .ok m₀ ∧
    Evolved env (Loads yaml R) l r m₀ m
  data : w.cfg.single = false → ∀ r' ds, r' ≠ r → Ev.trained r' ds ∈ l →
    ∃ R, w.regions r' = some R ∧ R.dataset = ds
  calm : Calm env (some r) w l
  alone : w.cfg.globalPeriod = 0 → ∀ r' ds, Ev.trained r' ds ∈ l → r' = r

theorem CreatedAs.chain {env : Env M} {w w' : World M} {nf n mt : ℤ} {name yaml : Str} {r : ℕ}
    {R : Region} {m : M} {l : List Ev} (h : CreatedAs env w nf name n mt yaml r R m l w')
    (r' : ℕ) (m' : M) (hr : r' ≠ r) (hm : w'.models r' = some m') :
    ∃ m, w.models r' = some m ∧ Retrained env m m' := by
  obtain ⟨m, h1, h2⟩ := h.steps r' m' hr hm
  exact ⟨m, h1, h2.retrained⟩

theorem createRegion_ok {env : Env M} {w w' : World M} {nf n mt : ℤ} {name info yaml : Str}
    {r : ℕ} (h : createRegion env w nf name n mt info yaml = .ok (r, w')) :
    ∃ R m l, CreatedAs env w nf name n mt yaml r R m l w' := by
  unfold createRegion at h
  obtain ⟨⟨r₀, w₀⟩, h0, h⟩ := (Res.bind_eq_ok _ _ _).1 h
  obtain ⟨w₁, h1, h⟩ := (Res.bind_eq_ok _ _ _).1 h
  obtain ⟨w₂, h2, h⟩ := (Res.bind_eq_ok _ _ _).1 h
  obtain ⟨w₃, h3, h⟩ := (Res.bind_eq_ok _ _ _).1 h
  obtain ⟨w₄, h4, h⟩ := (Res.bind_eq_ok _ _ _).1 h
  obtain ⟨w₅, h5, h⟩ := (Res.bind_eq_ok _ _ _).1 h
  obtain ⟨R, hR, h⟩ := (Res.bind_eq_ok _ _ _).1 h
  obtain ⟨mc, hmc, h⟩ := (Res.bind_eq_ok _ _ _).1 h
  have hR := World.region_ok.1 hR
  have hmc := World.model_ok.1 hmc
  simp only [Except.ok.injEq, Prod.mk.injEq] at h
  obtain ⟨rfl, rfl⟩ := h
  obtain ⟨R₀, m, hid, ⟨m₀, hcr, hev⟩, a1, a2, a3, a4, a5, a6, a7, a8, a9, hw0⟩ := constructRegion_ok h0
  have hR0 : w₀.regions r₀ = some R₀ := by
    rw [hw0]; simp [World.setRegion, World.setModel, World.setCtx, World.advance]
  obtain ⟨l1, b1⟩ := loadPersistent_built hR0 h1
  obtain ⟨R₁, e1, e2, e3, e4⟩ := b1.regions
  rw [hR0] at e3
  cases e3
  have hR1 : w₁.regions r₀ = some { R₀ with dataset := e1, trace := e2 } := by
    rw [e4, Function.update_self]
  obtain ⟨l2, b2⟩ := loadDatasetParam_built hR1 a8 h2
  have b12 := b1.trans b2
  obtain ⟨R₂, hR2⟩ := b12.region
  obtain ⟨l3, b3⟩ := loadOptimalFile_built hR2 h3
  have b13 := b12.trans b3
  obtain ⟨R₃, hR3⟩ := b13.region
  obtain ⟨l4, b4⟩ := loadDatasetMap_built hR3 h4
  have b := b13.trans b4
  obtain ⟨R₄, ds, tr, c1, c2⟩ := b.regions
  rw [hR0] at c1
  cases c1
  have hR4 : w₄.regions r₀ = some { R₀ with dataset := ds, trace := tr } := by
    rw [c2, Function.update_self]
  have h5 := startTrace_ok hR4 h5
  have w5 : ∃ tr', (w₀.cfg.traceCsv = true → tr' = traceHeader nf) ∧
      w₅.regions = Function.update w₀.regions r₀ (some { R₀ with dataset := ds, trace := tr' }) ∧
      w₅.cfg = w₄.cfg ∧ w₅.nextRegion = w₄.nextRegion ∧ w₅.ctxs = w₄.ctxs ∧
      w₅.nextCtx = w₄.nextCtx ∧ w₅.registry = w₄.registry ∧ w₅.executions = w₄.executions ∧
      w₅.gtrace = w₄.gtrace ∧ w₅.log = w₄.log ∧ w₅.models = w₄.models ∧ w₅.tick = w₄.tick := by
    by_cases ht : w₄.cfg.traceCsv = true
    · rw [if_pos ht] at h5
      refine ⟨traceHeader nf, fun _ => rfl, ?_⟩
      rw [h5]
      simp only [World.setRegion, c2, Function.update_idem, a2, and_self]
    · rw [if_neg ht] at h5
      refine ⟨tr, fun hh => absurd (by rw [b.cfg]; exact hh) ht, ?_⟩
      rw [h5]
      simp only [c2, and_self]
  obtain ⟨tr', k0, k1, k2, k3, k4, k5, k6, k7, k8, k9, k10, k11⟩ := w5
  rw [k1, Function.update_self] at hR
  cases hR
  refine ⟨{ R₀ with dataset := ds, trace := tr' }, mc, l1 ++ l2 ++ l3 ++ l4, hid, a1, a2, a3, a4, a6, a7, a8, ?_, ?_, ?_, ?_, ?_, ?_, ?_,
    ?_, ?_, ?_, b.events, ?_, ?_, ?_, ?_, ?_, ?_, ?_, ?_, fun hg => b.alone (by rw [hw0]; exact hg)⟩
  · intro ht
    exact k0 (by rw [hw0]; exact ht)
  · show w₅.cfg = _
    rw [k2, b.cfg, hw0]; rfl
  · show w₅.regions = _
    rw [k1, hw0]
    simp [World.setRegion, World.setModel, World.setCtx, World.advance, Function.update_idem]
  · show w₅.nextRegion = _
    rw [k3, b.nextRegion, hw0]; rfl
  · show w₅.ctxs = _
    rw [k4, b.ctxs, hw0]; rfl
  · show w₅.nextCtx = _
    rw [k5, b.nextCtx, hw0]; rfl
  · show OMap.insertNew _ _ w₅.registry = _
    rw [k6, b.registry, hw0]; rfl
  · show w₅.executions = _
    rw [k7, b.executions, hw0]; rfl
  · show w₅.gtrace = _
    rw [k8, b.gtrace, hw0]; rfl
  · show w₅.log ++ _ = _
    rw [k9, b.log, hw0]; rfl
  · intro r' hne
    show (w₅.models r').isSome = _
    rw [k10, b.live, hw0]
    simp [World.setRegion, World.setModel, World.setCtx, World.advance, hne]
  · exact hmc
  · intro r' hne hr
    show w₅.models r' = _
    rw [k10, b.models r' hne hr, hw0]
    simp [World.setRegion, World.setModel, World.setCtx, World.advance, hne]
  · show w.tick ≤ w₅.tick
    rw [k11]
    refine le_trans ?_ b.tick
    rw [hw0]
    exact Nat.le_succ _
  · intro r' m' hne hm
    have hm : w₅.models r' = some m' := hm
    rw [k10] at hm
    obtain ⟨m₁, h1, c1⟩ := b.steps r' m' hne hm
    refine ⟨m₁, ?_, c1⟩
    rw [hw0] at h1
    simpa [World.setRegion, World.setModel, World.setCtx, World.advance, hne] using h1
  · have hmc' : w₅.models r₀ = some mc := hmc
    rw [k10] at hmc'
    obtain ⟨m₁, h1, c1⟩ := b.origin mc hmc'
    have hm1 : w₀.models r₀ = some m := by
      rw [hw0]; simp [World.setRegion, World.setModel, World.setCtx, World.advance]
    rw [hm1] at h1
    cases h1
    refine ⟨_, m₀, hcr, (hev.mono id (by simp)).trans (c1.mono ?_ fun _ => id)⟩
    rintro ⟨R', hR', hn⟩
    rw [hR0] at hR'
    cases hR'
    exact .inr (.inr hn)
  · intro hs r' ds' hne hd
    obtain ⟨R', h1, h2⟩ := b.data (by rw [hw0]; exact hs) r' ds' hne hd
    refine ⟨R', ?_, h2⟩
    rw [hw0] at h1
    simpa [World.setRegion, World.setModel, World.setCtx, World.advance, hne] using h1
  · intro hs r' m' hx hm' ht
    have hne : r' ≠ r₀ := fun he => hx (by rw [he])
    refine b.calm (by rw [hw0]; exact hs) r' m' hx ?_ ht
    rw [hw0]
    simpa [World.setRegion, World.setModel, World.setCtx, World.advance, hne] using hm'

/-! ## `begin` -/

/-- The state after `begin`. -/
structure BeganAs (env : Env M) (w : World M) (r : ℕ) (c : CtxPtr) (R : Region) (C : Ctx)
    (w' : World M) : Prop where
  region : w.regions r = some R
  ctx : (c = .sync r ∧ w.ctxs c = some C ∧ w'.nextCtx = w.nextCtx) ∨
    (c = .heap w.nextCtx ∧ C = {} ∧ w'.nextCtx = w.nextCtx + 1)
  range : R.idx + 1 < 2 ^ 31
  cfg : w'.cfg = w.cfg
  regions : w'.regions = Function.update w.regions r
    (some { R with current := some c, idx := R.idx + 1 })
  nextRegion : w'.nextRegion = w.nextRegion
  ctxs : w'.ctxs = Function.update w.ctxs c (some { C with
    features := [], idx := R.idx.toNat, start := some (seconds (env.clock w.tick)) })
  registry : w'.registry = w.registry
  executions : w'.executions = w.executions
  gtrace : w'.gtrace = w.gtrace
  log : w'.log = w.log ++ [.began r c]
  models : w'.models = w.models
  tick : w'.tick = w.tick + 1
  files : w'.files = w.files

theorem begin_ok {env : Env M} {w w' : World M} {r : ℕ} {k : TimingKind} {c : CtxPtr}
    (h : begin env w r k = .ok (c, w')) : ∃ R C, BeganAs env w r c R C w' := by
  unfold begin at h
  obtain ⟨R, hR, h⟩ := (Res.bind_eq_ok _ _ _).1 h
  obtain ⟨⟨c₀, w₀⟩, h0, h⟩ := (Res.bind_eq_ok _ _ _).1 h
  obtain ⟨R', hR', h⟩ := (Res.bind_eq_ok _ _ _).1 h
  obtain ⟨C', hC', h⟩ := (Res.bind_eq_ok _ _ _).1 h
  have hR := World.region_ok.1 hR
  have hR' := World.region_ok.1 hR'
  have hC' := World.ctx_ok.1 hC'
  dsimp only at h hR' hC'
  split at h
  next hlt =>
    simp only [Except.ok.injEq, Prod.mk.injEq] at h
    obtain ⟨rfl, rfl⟩ := h
    cases k with
    | sync =>
      simp only [createContext] at h0
      obtain ⟨C, hC, h0⟩ := (Res.bind_eq_ok _ _ _).1 h0
      have hC := World.ctx_ok.1 hC
      simp only [Except.ok.injEq, Prod.mk.injEq] at h0
      obtain ⟨rfl, rfl⟩ := h0
      simp only [World.setCtx, Function.update_self, Option.some.injEq] at hC' hR'
      rw [hR] at hR'
      cases hR'
      subst hC'
      refine ⟨R, C, hR, Or.inl ⟨rfl, hC, rfl⟩, hlt, rfl, rfl, rfl, ?_, rfl, rfl, rfl, rfl, rfl, rfl, rfl⟩
      simp only [World.emit, World.advance, World.setCtx, World.setRegion, Function.update_idem]
    | async =>
      simp only [createContext] at h0
      split at h0
      · cases h0
      · simp only [Except.ok.injEq, Prod.mk.injEq] at h0
        obtain ⟨rfl, rfl⟩ := h0
        simp only [World.setCtx, Function.update_self, Option.some.injEq] at hC' hR'
        rw [hR] at hR'
        cases hR'
        subst hC'
        refine ⟨R, {}, hR, Or.inr ⟨rfl, rfl, rfl⟩, hlt, rfl, rfl, rfl, ?_, rfl, rfl, rfl, rfl, rfl,
          rfl, rfl⟩
        simp only [World.emit, World.advance, World.setCtx, World.setRegion, Function.update_idem]
  next => cases h

/-! ## Induction over programs -/

/-- The world after the destructor of region `r` has drained the pending contexts. -/
def afterDestroy (env : Env M) (w : World M) (r : ℕ) (R : Region) : World M :=
  let w := if w.cfg.persistent then
      w.write env (datasetPath w.cfg R.name) (some R.dataset.store) else w
  ({ w with
      regions := Function.update w.regions r none
      models := Function.update w.models r none
      ctxs := Function.update w.ctxs (.sync r) none } : World M).emit (.destroyed r)

/-- It differs from the world before in what is said here, and in the files. -/
theorem afterDestroy_eq (env : Env M) (w : World M) (r : ℕ) (R : Region) :
    ∃ f, afterDestroy env w r R = ({ w with
      files := f
      regions := Function.update w.regions r none
      models := Function.update w.models r none
      ctxs := Function.update w.ctxs (.sync r) none } : World M).emit (.destroyed r) := by
  unfold afterDestroy
  dsimp only
  split
  · obtain ⟨f, hf⟩ := write_same env w (datasetPath w.cfg R.name) (some R.dataset.store)
    rw [hf]
    exact ⟨f, rfl⟩
  · exact ⟨w.files, rfl⟩

/-- A predicate kept by every call that returns, except the creation of regions; the request for a policy
is one step, with the line it adds to a trace. -/
structure Callwise (env : Env M) (F : ℕ → Prop) (P : World M → Prop) : Prop
    extends Kept env F P where
  finish : ∀ w r c m w', P w →
    collectContext env (w.emit (.finished r c m)) r c m = .ok w' → P w'
  began : ∀ w r c R C w', P w → BeganAs env w r c R C w' → P w'
  assigned : ∀ w c C f, P w → w.ctxs c = some C →
    P ((w.setCtx c { C with features := f }).emit (.assigned c f))
  feature : ∀ w c C v, P w → w.ctxs c = some C →
    P ((w.setCtx c { C with features := C.features ++ [v] }).emit (.feature c v))
  asked : ∀ w r c p w', P w → getPolicyIndex env w r c = .ok (p, w') → P w'
  stop : ∀ w c C t, P w → w.ctxs c = some C → P (w.setCtx c { C with stop := some t })
  ended : ∀ w r c R, P w → w.regions r = some R → (w.ctxs c).isSome → c ≠ .sync r →
    P ((w.setRegion r { R with pending := R.pending ++ [c] }).emit (.ended r c))
  period : ∀ w, P w → P { w with cfg := { w.cfg with globalPeriod := 0 } }
  destroyed : ∀ w r R, P w → w.regions r = some R → R.pending = [] → P (afterDestroy env w r R)

/-- A predicate kept by every call that returns, except the creation of regions. -/
structure Stepwise (env : Env M) (F : ℕ → Prop) (P : World M → Prop) : Prop
    extends Kept env F P where
  finish : ∀ w r c m w', P w →
    collectContext env (w.emit (.finished r c m)) r c m = .ok w' → P w'
  began : ∀ w r c R C w', P w → BeganAs env w r c R C w' → P w'
  assigned : ∀ w c C f, P w → w.ctxs c = some C →
    P ((w.setCtx c { C with features := f }).emit (.assigned c f))
  feature : ∀ w c C v, P w → w.ctxs c = some C →
    P ((w.setCtx c { C with features := C.features ++ [v] }).emit (.feature c v))
  traced : ∀ w R m f p w', P w → tracePolicy env w R m f p = .ok w' → P w' := by
    intro w R m f p w' hw h
    obtain ⟨F, rfl⟩ := tracePolicy_same h
    first
      | exact hw
      | exact { hw with }
      | exact ⟨{ hw.1 with }, hw.2⟩
      | exact ⟨hw.1, { hw.2 with }⟩
      | exact ⟨{ hw.1 with }, { hw.2 with }⟩
  chose : ∀ w r c R m C p m', P w → w.regions r = some R → w.models r = some m →
    w.ctxs c = some C → env.ops.getIndex m C.features = .ok (p, m') →
    P (((w.setModel r m').setCtx c { C with policy := p }).emit (.chose r c p))
  stop : ∀ w c C t, P w → w.ctxs c = some C → P (w.setCtx c { C with stop := some t })
  ended : ∀ w r c R, P w → w.regions r = some R → (w.ctxs c).isSome → c ≠ .sync r →
    P ((w.setRegion r { R with pending := R.pending ++ [c] }).emit (.ended r c))
  period : ∀ w, P w → P { w with cfg := { w.cfg with globalPeriod := 0 } }
  destroyed : ∀ w r R, P w → w.regions r = some R → R.pending = [] → P (afterDestroy env w r R)

/-- A predicate kept by every call that returns. -/
structure Invariant (env : Env M) (F : ℕ → Prop) (P : World M → Prop) : Prop
    extends Stepwise env F P where
  created : ∀ w nf name n mt info yaml r w', P w →
    createRegion env w nf name n mt info yaml = .ok (r, w') → P w'

theorem drain_empty {env : Env M} {r fuel : ℕ} {w w' : World M}
    (h : drain env r fuel w = .ok w') : ∃ R, w'.regions r = some R ∧ R.pending = [] := by
  induction fuel generalizing w with
  | zero =>
    simp only [Apollo.drain] at h
    obtain ⟨R, hR, h⟩ := (Res.bind_eq_ok _ _ _).1 h
    split at h
    · cases h; exact ⟨R, World.region_ok.1 hR, ‹_›⟩
    · cases h
  | succ n ih =>
    simp only [Apollo.drain] at h
    obtain ⟨R, hR, h⟩ := (Res.bind_eq_ok _ _ _).1 h
    split at h
    · cases h; exact ⟨R, World.region_ok.1 hR, ‹_›⟩
    · obtain ⟨w₁, h1, h⟩ := (Res.bind_eq_ok _ _ _).1 h
      exact ih h

theorem destroyRegion_ok {env : Env M} {w w' : World M} {r fuel : ℕ}
    (h : destroyRegion env w r fuel = .ok w') :
    ∃ w₁ R, drain env r fuel { w with cfg := { w.cfg with globalPeriod := 0 } } = .ok w₁ ∧
      w₁.regions r = some R ∧ R.pending = [] ∧ w' = afterDestroy env w₁ r R := by
  unfold destroyRegion at h
  obtain ⟨R₀, h0, h⟩ := (Res.bind_eq_ok _ _ _).1 h
  obtain ⟨w₁, h1, h⟩ := (Res.bind_eq_ok _ _ _).1 h
  obtain ⟨R, hR, h⟩ := (Res.bind_eq_ok _ _ _).1 h
  cases h
  obtain ⟨R', hR', hp⟩ := drain_empty h1
  have hR := World.region_ok.1 hR
  rw [hR] at hR'
  cases hR'
  exact ⟨w₁, R, h1, hR, hp, rfl⟩

theorem beginWith_ok {env : Env M} {w w' : World M} {r : ℕ} {f : Features} {c : CtxPtr}
    (h : beginWith env w r f = .ok (c, w')) :
    ∃ w₁ C, begin env w r .sync = .ok (c, w₁) ∧ w₁.ctxs c = some C ∧
      w' = (w₁.setCtx c { C with features := f }).emit (.assigned c f) := by
  unfold beginWith at h
  obtain ⟨⟨c₁, w₁⟩, h1, h⟩ := (Res.bind_eq_ok _ _ _).1 h
  obtain ⟨C, hC, h⟩ := (Res.bind_eq_ok _ _ _).1 h
  cases h
  exact ⟨w₁, C, h1, World.ctx_ok.1 hC, rfl⟩

theorem getPolicyIndex_trace {env : Env M} {w w' : World M} {r : ℕ} {c : CtxPtr} {p : ℤ}
    (h : getPolicyIndex env w r c = .ok (p, w')) :
    ∃ R m C m' w₀, w.regions r = some R ∧ w.models r = some m ∧ w.ctxs c = some C ∧
      env.ops.getIndex m C.features = .ok (p, m') ∧
      tracePolicy env w R m' C.features p = .ok w₀ ∧
      w' = ((w₀.setModel r m').setCtx c { C with policy := p }).emit (.chose r c p) := by
  unfold getPolicyIndex at h
  obtain ⟨R, hR, h⟩ := (Res.bind_eq_ok _ _ _).1 h
  obtain ⟨m, hm, h⟩ := (Res.bind_eq_ok _ _ _).1 h
  obtain ⟨C, hC, h⟩ := (Res.bind_eq_ok _ _ _).1 h
  obtain ⟨⟨p', m'⟩, h1, h⟩ := (Res.bind_eq_ok _ _ _).1 h
  obtain ⟨w₀, h2, h⟩ := (Res.bind_eq_ok _ _ _).1 h
  cases h
  exact ⟨R, m, C, m', w₀, World.region_ok.1 hR, World.model_ok.1 hm, World.ctx_ok.1 hC, h1, h2, rfl⟩

theorem getPolicyIndex_ok {env : Env M} {w w' : World M} {r : ℕ} {c : CtxPtr} {p : ℤ}
    (h : getPolicyIndex env w r c = .ok (p, w')) :
    ∃ R m C m' F, w.regions r = some R ∧ w.models r = some m ∧ w.ctxs c = some C ∧
      env.ops.getIndex m C.features = .ok (p, m') ∧
      w' = ((({ w with files := F } : World M).setModel r m').setCtx c { C with policy := p }).emit
        (.chose r c p) := by
  obtain ⟨R, m, C, m', w₀, h1, h2, h3, h4, h5, rfl⟩ := getPolicyIndex_trace h
  obtain ⟨F, rfl⟩ := tracePolicy_same h5
  exact ⟨R, m, C, m', F, h1, h2, h3, h4, rfl⟩

theorem setFeature_ok {w w' : World M} {c : CtxPtr} {v : ℚ} (h : setFeature w c v = .ok w') :
    ∃ C, w.ctxs c = some C ∧
      w' = (w.setCtx c { C with features := C.features ++ [v] }).emit (.feature c v) := by
  unfold setFeature at h
  obtain ⟨C, hC, h⟩ := (Res.bind_eq_ok _ _ _).1 h
  cases h
  exact ⟨C, World.ctx_ok.1 hC, rfl⟩

theorem endMetric_ok {env : Env M} {w w' : World M} {r : ℕ} {c : CtxPtr} {m : ℚ}
    (h : endMetric env w r c m = .ok w') :
    ∃ w₁, collectContext env (w.emit (.finished r c m)) r c m = .ok w₁ ∧
      collectPending env w₁ r = .ok w' := (Res.bind_eq_ok _ _ _).1 h

theorem endCtx_ok {env : Env M} {w w' : World M} {r : ℕ} {c : CtxPtr}
    (h : endCtx env w r c = .ok w') :
    ∃ R C, w.regions r = some R ∧ w.ctxs c = some C ∧
      ((∃ m, c = .sync r ∧
          syncMetric { C with stop := some (seconds (env.clock w.tick)) } = .ok m ∧
          collectContext env (((w.setCtx c { C with
            stop := some (seconds (env.clock w.tick)) }).advance).emit (.finished r c m)) r c m =
            .ok w') ∨
        (c ≠ .sync r ∧ collectPending env ((((w.setCtx c { C with
            stop := some (seconds (env.clock w.tick)) }).advance).setRegion r
              { R with pending := R.pending ++ [c] }).emit (.ended r c)) r = .ok w')) := by
  unfold endCtx at h
  obtain ⟨R, hR, h⟩ := (Res.bind_eq_ok _ _ _).1 h
  obtain ⟨C, hC, h⟩ := (Res.bind_eq_ok _ _ _).1 h
  refine ⟨R, C, World.region_ok.1 hR, World.ctx_ok.1 hC, ?_⟩
  dsimp only at h
  split at h
  next he =>
    obtain ⟨m, hm, h⟩ := (Res.bind_eq_ok _ _ _).1 h
    exact Or.inl ⟨m, he, hm, h⟩
  next he => exact Or.inr ⟨he, h⟩

theorem currentCtx_ok {w : World M} {r : ℕ} {c : CtxPtr} (h : currentCtx w r = .ok c) :
    ∃ R, w.regions r = some R ∧ R.current = some c := by
  unfold currentCtx at h
  obtain ⟨R, hR, h⟩ := (Res.bind_eq_ok _ _ _).1 h
  split at h
  · cases h; exact ⟨R, World.region_ok.1 hR, ‹_›⟩
  · cases h

section

variable {env : Env M} {F : ℕ → Prop} {P : World M → Prop}

theorem Callwise.destroyRegion (hP : Callwise env F P) {w w' : World M} {r fuel : ℕ} (hw : P w)
    (h : destroyRegion env w r fuel = .ok w') : P w' := by
  obtain ⟨w₁, R, h1, hR, hp, rfl⟩ := destroyRegion_ok h
  exact hP.destroyed _ _ _ (hP.toKept.drain (hP.period _ hw) h1) hR hp

theorem Callwise.endMetric (hP : Callwise env F P) {w w' : World M} {r : ℕ} {c : CtxPtr} {m : ℚ}
    (hw : P w) (h : endMetric env w r c m = .ok w') : P w' := by
  obtain ⟨w₁, h1, h2⟩ := endMetric_ok h
  exact hP.collect _ _ _ (hP.finish _ _ _ _ _ hw h1) h2

theorem Callwise.endCtx (hP : Callwise env F P) {w w' : World M} {r : ℕ} {c : CtxPtr}
    (hw : P w) (h : endCtx env w r c = .ok w') : P w' := by
  obtain ⟨R, C, hR, hC, h | h⟩ := endCtx_ok h
  · obtain ⟨m, rfl, _, h⟩ := h
    exact hP.finish _ _ _ _ _ (hP.advance _ (hP.stop _ _ _ _ hw hC)) h
  · obtain ⟨hne, h⟩ := h
    refine hP.collect _ _ _ ?_ h
    refine hP.ended _ _ _ _ (hP.advance _ (hP.stop _ _ _ _ hw hC)) ?_ ?_ hne
    · exact hR
    · simp [World.advance, World.setCtx]

theorem Callwise.setFeature (hP : Callwise env F P) {w w' : World M} {c : CtxPtr} {v : ℚ}
    (hw : P w) (h : setFeature w c v = .ok w') : P w' := by
  obtain ⟨C, hC, rfl⟩ := setFeature_ok h
  exact hP.feature _ _ _ _ hw hC

theorem Callwise.step (hP : Callwise env F P) {w w' : World M} {op : Op} {x : Ret}
    (hf : ∀ r s c, op = .train r s c true → F r)
    (hc : ∀ nf name n mt info yaml, op = .create nf name n mt info yaml → ∀ r w', P w →
      createRegion env w nf name n mt info yaml = .ok (r, w') → P w') (hw : P w)
    (h : step env w op = .ok (x, w')) : P w' := by
  cases op with
  | create nf name n mt info yaml =>
    obtain ⟨⟨r, w₁⟩, h1, h⟩ := (Res.bind_eq_ok _ _ _).1 h
    cases h
    exact hc _ _ _ _ _ _ rfl _ _ hw h1
  | destroy r fuel =>
    obtain ⟨w₁, h1, h⟩ := (Res.bind_eq_ok _ _ _).1 h
    cases h
    exact hP.destroyRegion hw h1
  | begin r kind =>
    obtain ⟨⟨c, w₁⟩, h1, h⟩ := (Res.bind_eq_ok _ _ _).1 h
    cases h
    obtain ⟨R, C, hb⟩ := begin_ok h1
    exact hP.began _ _ _ _ _ _ hw hb
  | beginWith r f =>
    obtain ⟨⟨c, w₁⟩, h1, h⟩ := (Res.bind_eq_ok _ _ _).1 h
    cases h
    obtain ⟨w₁, C₁, h2, hC₁, rfl⟩ := beginWith_ok h1
    obtain ⟨R, C, hb⟩ := begin_ok h2
    exact hP.assigned _ _ _ _ (hP.began _ _ _ _ _ _ hw hb) hC₁
  | setFeature r c v =>
    obtain ⟨w₁, h1, h⟩ := (Res.bind_eq_ok _ _ _).1 h
    cases h
    exact hP.setFeature hw h1
  | getPolicyIndex r c =>
    obtain ⟨⟨p, w₁⟩, h1, h⟩ := (Res.bind_eq_ok _ _ _).1 h
    cases h
    exact hP.asked _ _ _ _ _ hw h1
  | endMetric r c m =>
    obtain ⟨w₁, h1, h⟩ := (Res.bind_eq_ok _ _ _).1 h
    cases h
    exact hP.endMetric hw h1
  | endCtx r c =>
    obtain ⟨w₁, h1, h⟩ := (Res.bind_eq_ok _ _ _).1 h
    cases h
    exact hP.endCtx hw h1
  | setFeatureCur r v =>
    obtain ⟨c, _, h⟩ := (Res.bind_eq_ok _ _ _).1 h
    obtain ⟨w₁, h1, h⟩ := (Res.bind_eq_ok _ _ _).1 h
    cases h
    exact hP.setFeature hw h1
  | getPolicyIndexCur r =>
    obtain ⟨c, _, h⟩ := (Res.bind_eq_ok _ _ _).1 h
    obtain ⟨⟨p, w₁⟩, h1, h⟩ := (Res.bind_eq_ok _ _ _).1 h
    cases h
    exact hP.asked _ _ _ _ _ hw h1
  | endMetricCur r m =>
    obtain ⟨c, _, h⟩ := (Res.bind_eq_ok _ _ _).1 h
    obtain ⟨w₁, h1, h⟩ := (Res.bind_eq_ok _ _ _).1 h
    cases h
    exact hP.endMetric hw h1
  | endCur r =>
    obtain ⟨c, _, h⟩ := (Res.bind_eq_ok _ _ _).1 h
    obtain ⟨w₁, h1, h⟩ := (Res.bind_eq_ok _ _ _).1 h
    cases h
    exact hP.endCtx hw h1
  | collect r =>
    obtain ⟨w₁, h1, h⟩ := (Res.bind_eq_ok _ _ _).1 h
    cases h
    exact hP.collect _ _ _ hw h1
  | train r s c f =>
    obtain ⟨w₁, h1, h⟩ := (Res.bind_eq_ok _ _ _).1 h
    cases h
    exact hP.toKept.regionTrain (fun hh => hf r s c (by rw [hh])) hw h1
  | trainAll s c =>
    obtain ⟨w₁, h1, h⟩ := (Res.bind_eq_ok _ _ _).1 h
    cases h
    exact hP.toKept.apolloTrain hw h1

theorem Callwise.exec (hP : Callwise env F P) {ops : List Op} {w w' : World M}
    (hf : ∀ r s c, Op.train r s c true ∈ ops → F r)
    (hc : ∀ nf name n mt info yaml, Op.create nf name n mt info yaml ∈ ops → ∀ w r w', P w →
      createRegion env w nf name n mt info yaml = .ok (r, w') → P w') (hw : P w)
    (h : exec env ops w = .ok w') : P w' := by
  induction ops generalizing w with
  | nil => simp only [Apollo.exec] at h; cases h; exact hw
  | cons op ops ih =>
    simp only [Apollo.exec] at h
    obtain ⟨⟨x, w₁⟩, h1, h⟩ := (Res.bind_eq_ok _ _ _).1 h
    exact ih (fun r s c hm => hf r s c (List.mem_cons_of_mem _ hm))
      (fun nf name n mt info yaml hm => hc nf name n mt info yaml (List.mem_cons_of_mem _ hm))
      (hP.step (fun r s c ho => hf r s c (by rw [ho]; exact List.mem_cons_self))
        (fun nf name n mt info yaml ho => hc nf name n mt info yaml
          (by rw [ho]; exact List.mem_cons_self) w) hw h1) h

theorem Stepwise.getPolicyIndex (hP : Stepwise env F P) {w w' : World M} {r : ℕ} {c : CtxPtr}
    {p : ℤ} (hw : P w) (h : getPolicyIndex env w r c = .ok (p, w')) : P w' := by
  obtain ⟨R, m, C, m', w₀, h1, h2, h3, h4, h5, rfl⟩ := getPolicyIndex_trace h
  have hw₀ := hP.traced _ _ _ _ _ _ hw h5
  obtain ⟨F, rfl⟩ := tracePolicy_same h5
  exact hP.chose _ _ _ _ _ _ _ _ hw₀ h1 h2 h3 h4

theorem Stepwise.callwise (hP : Stepwise env F P) : Callwise env F P :=
  { hP with asked := fun _ _ _ _ _ hw h => hP.getPolicyIndex hw h }

theorem Stepwise.destroyRegion (hP : Stepwise env F P) {w w' : World M} {r fuel : ℕ} (hw : P w)
    (h : destroyRegion env w r fuel = .ok w') : P w' :=
  hP.callwise.destroyRegion hw h

theorem Stepwise.endMetric (hP : Stepwise env F P) {w w' : World M} {r : ℕ} {c : CtxPtr} {m : ℚ}
    (hw : P w) (h : endMetric env w r c m = .ok w') : P w' :=
  hP.callwise.endMetric hw h

theorem Stepwise.endCtx (hP : Stepwise env F P) {w w' : World M} {r : ℕ} {c : CtxPtr}
    (hw : P w) (h : endCtx env w r c = .ok w') : P w' :=
  hP.callwise.endCtx hw h

theorem Stepwise.setFeature (hP : Stepwise env F P) {w w' : World M} {c : CtxPtr} {v : ℚ}
    (hw : P w) (h : setFeature w c v = .ok w') : P w' :=
  hP.callwise.setFeature hw h

theorem Stepwise.step (hP : Stepwise env F P) {w w' : World M} {op : Op} {x : Ret}
    (hf : ∀ r s c, op = .train r s c true → F r)
    (hc : ∀ nf name n mt info yaml, op = .create nf name n mt info yaml → ∀ r w', P w →
      createRegion env w nf name n mt info yaml = .ok (r, w') → P w') (hw : P w)
    (h : step env w op = .ok (x, w')) : P w' :=
  hP.callwise.step hf hc hw h

theorem Stepwise.exec (hP : Stepwise env F P) {ops : List Op} {w w' : World M}
    (hf : ∀ r s c, Op.train r s c true ∈ ops → F r)
    (hc : ∀ nf name n mt info yaml, Op.create nf name n mt info yaml ∈ ops → ∀ w r w', P w →
      createRegion env w nf name n mt info yaml = .ok (r, w') → P w') (hw : P w)
    (h : exec env ops w = .ok w') : P w' :=
  hP.callwise.exec hf hc hw h

theorem Invariant.step (hP : Invariant env F P) {w w' : World M} {op : Op} {x : Ret}
    (hf : ∀ r s c, op = .train r s c true → F r) (hw : P w)
    (h : step env w op = .ok (x, w')) : P w' :=
  hP.toStepwise.step hf (fun _ _ _ _ _ _ _ => hP.created _ _ _ _ _ _ _) hw h

theorem Invariant.exec (hP : Invariant env F P) {ops : List Op} {w w' : World M}
    (hf : ∀ r s c, Op.train r s c true ∈ ops → F r) (hw : P w)
    (h : exec env ops w = .ok w') : P w' :=
  hP.toStepwise.exec hf (fun _ _ _ _ _ _ _ w => hP.created w _ _ _ _ _ _) hw h

end

end Apollo
