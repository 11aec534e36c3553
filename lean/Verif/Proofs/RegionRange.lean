import Verif.Proofs.RegionData
import Verif.Proofs.Answers

/-!
# Policies chosen by regions are in range
-/

namespace Apollo

open Spec

variable {M : Type}

/-- What a region and its model are built from. -/
structure Kind where
  modelName : Str
  params : Params
  n : ℤ
  nf : ℤ

/-- The kind of a region. -/
def Region.kind (R : Region) : Kind := ⟨R.modelName, R.params, R.numPolicies, R.numFeatures⟩

/-- Kinds `K` of models that satisfy `A` as long as they are trained with `D`, and answer in range then.
`Y` is whether models may be loaded from a file given to the constructor. -/
structure Ranged (ops : ModelOps M) (Y : Prop) (K : Kind → Prop) (D : Kind → Dataset → Prop)
    (A : Kind → M → Prop) : Prop where
  create : ∀ t k m, K k → ops.create t k.modelName k.nf k.n k.params = .ok m → A k m
  index : ∀ k m f p m', K k → A k m → ops.getIndex m f = .ok (p, m') → (0 ≤ p ∧ p < k.n) ∧ A k m'
  train : ∀ k t ds m m', K k → A k m → D k ds → ops.train t ds m = .ok m' → A k m'
  load : ∀ k s m m', K k → A k m →
    Y ∨ k.params.find "load".toList ≠ none ∨ k.modelName = "Optimal".toList →
    ops.load s m = .ok m' → A k m'

section

variable {env : Env M} {Y : Prop} {K : Kind → Prop} {D : Kind → Dataset → Prop}
  {A : Kind → M → Prop}

theorem Ranged.steps (hg : Ranged env.ops Y K D A) {k : Kind} {l : List Ev} {r : ℕ} {m m' : M}
    (hk : K k) (hD : ∀ ds, Ev.trained r ds ∈ l → D k ds) (h : TrainedOn env l r m m')
    (hm : A k m) : A k m' := by
  induction h with
  | refl => exact hm
  | tail _ h ih =>
    obtain ⟨t, ds, hd, h⟩ := h
    exact hg.train _ _ _ _ _ hk ih (hD ds hd) h

theorem Ranged.evolved (hg : Ranged env.ops Y K D A) {k : Kind} {L : Prop} {l : List Ev} {r : ℕ}
    {m m' : M} (hk : K k) (hL : L → Y ∨ k.params.find "load".toList ≠ none ∨
      k.modelName = "Optimal".toList)
    (hD : ∀ ds, Ev.trained r ds ∈ l → D k ds) (h : Evolved env L l r m m') (hm : A k m) :
    A k m' := by
  induction h with
  | refl => exact hm
  | tail _ h ih =>
    rcases h with ⟨t, ds, hd, h⟩ | ⟨hl, s, h⟩
    · exact hg.train _ _ _ _ _ hk ih (hD ds hd) h
    · exact hg.load _ _ _ _ hk ih (hL hl) h

/-- The models of regions trained with good data are good. -/
def ModelInv (K : Kind → Prop) (D : Kind → Dataset → Prop) (A : Kind → M → Prop) (w : World M) :
    Prop :=
  ∀ r R m, w.regions r = some R → w.models r = some m → K R.kind →
    (∀ ds, Ev.trained r ds ∈ w.log → D R.kind ds) → A R.kind m

theorem ModelInv.frame {w w' : World M} (hw : ModelInv K D A w)
    (hr : ∀ r R', w'.regions r = some R' → ∃ R, w.regions r = some R ∧ R'.kind = R.kind)
    (hl : ∀ e ∈ w.log, e ∈ w'.log)
    (hm : ∀ r m' k, w'.models r = some m' → K k → (∀ ds, Ev.trained r ds ∈ w'.log → D k ds) →
      ∃ m, w.models r = some m ∧ (A k m → A k m')) : ModelInv K D A w' := by
  intro r R' m' hR' hm' hK hD
  obtain ⟨R, hR, hk⟩ := hr r R' hR'
  obtain ⟨m, hm₀, ha⟩ := hm r m' R'.kind hm' hK hD
  refine ha ?_
  rw [hk] at hK hD ⊢
  exact hw r R m hR hm₀ hK fun ds hd => hD ds (hl _ hd)

/-- A changed region keeps its kind. -/
theorem kind_update {w : World M} {r : ℕ} {R R₁ : Region} (hR : w.regions r = some R)
    (hk : R₁.kind = R.kind) {rs : ℕ → Option Region}
    (hrs : rs = Function.update w.regions r (some R₁)) :
    ∀ r' R', rs r' = some R' → ∃ R, w.regions r' = some R ∧ R'.kind = R.kind := by
  intro r' R' h
  rw [hrs] at h
  by_cases heq : r' = r
  · subst heq; rw [Function.update_self] at h; cases h; exact ⟨R, hR, hk⟩
  · rw [Function.update_of_ne heq] at h; exact ⟨R', h, rfl⟩

theorem ModelInv.trained (hg : Ranged env.ops Y K D A) {w w' : World M} {l : List Ev}
    (h : Trained env w l w') (hw : ModelInv K D A w) : ModelInv K D A w' := by
  refine hw.frame (fun r R hR => ⟨R, by rw [← h.regions]; exact hR, rfl⟩)
    (fun e he => by rw [h.log]; exact List.mem_append_left _ he) ?_
  intro r m' k hm' hK hD
  obtain ⟨m, h1, h2⟩ := h.steps r m' hm'
  exact ⟨m, h1, hg.steps hK (fun ds hd => hD ds (by rw [h.log]; exact List.mem_append_right _ hd)) h2⟩

theorem ModelInv.finished (hg : Ranged env.ops Y K D A) {w w' : World M} {r : ℕ} {c : CtxPtr}
    {metric : ℚ} {R : Region} {m : M} {C : Ctx} {l : List Ev}
    (h : Collected env (w.emit (.finished r c metric)) r c metric R m C l w')
    (hw : ModelInv K D A w) : ModelInv K D A w' := by
  refine hw.frame (kind_update (R := R) (R₁ := recRegion env (w.emit (.finished r c metric)) R m C metric)
    h.region rfl h.regions) (fun e he => ?_) ?_
  · rw [h.log]; simp [World.emit, he]
  · intro r' m' k hm' hK hD
    obtain ⟨m, h1, h2⟩ := h.steps r' m' hm'
    exact ⟨m, h1, hg.steps hK
      (fun ds hd => hD ds (by rw [h.log]; exact List.mem_append_right _ hd)) h2⟩

theorem ModelInv.same {w w' : World M} {e : Ev} (hw : ModelInv K D A w)
    (hr : w'.regions = w.regions) (hl : w'.log = w.log ++ [e]) (hm : w'.models = w.models) :
    ModelInv K D A w' :=
  hw.frame (fun r R hR => ⟨R, by rw [← hr]; exact hR, rfl⟩)
    (fun e he => by rw [hl]; exact List.mem_append_left _ he)
    (fun r m _ hm' _ _ => ⟨m, by rw [← hm]; exact hm', id⟩)

theorem ModelInv.stable (hg : Ranged env.ops Y K D A) (F : ℕ → Prop) :
    Stable env F (ModelInv K D A : World M → Prop) := by
  refine Stable.of (fun w l w' ht hw => hw.trained hg ht) ?_ ?_ ?_
  · intro w c hw
    exact hw.same rfl rfl rfl
  · intro w r c m w' hw h
    obtain ⟨R, m, C, l, h1⟩ := collectContext_ok h
    exact hw.finished hg h1
  · intro w r R cs hw hR
    exact hw.frame (kind_update (R₁ := { R with pending := cs }) hR rfl rfl) (fun e he => he) (fun r m _ hm _ _ => ⟨m, hm, id⟩)

theorem ModelInv.created (hg : Ranged env.ops Y K D A) {w w' : World M} {nf n mt : ℤ}
    {name yaml : Str} (hy : yaml ≠ [] → Y) {r : ℕ} {R : Region} {m : M} {l : List Ev}
    (h : CreatedAs env w nf name n mt yaml r R m l w') (hw : ModelInv K D A w) :
    ModelInv K D A w' := by
  intro r' R' m' hR' hm' hK hD
  rw [h.regions] at hR'
  have hsub : ∀ e, e ∈ w.log ∨ e ∈ l → e ∈ w'.log := by
    intro e he; rw [h.log]; simp only [List.mem_append]; exact .inl he
  by_cases heq : r' = r
  · subst heq
    rw [Function.update_self] at hR'
    cases hR'
    have := h.model
    rw [hm'] at this
    cases this
    obtain ⟨t, m₀, hc, he⟩ := h.origin
    refine hg.evolved hK ?_ (fun ds hd => hD ds (hsub _ (.inr hd))) he
      (hg.create t R.kind m₀ hK ?_)
    · exact fun hh => hh.imp hy id
    · rw [← h.numFeatures, ← h.numPolicies] at hc
      exact hc
  · rw [Function.update_of_ne heq] at hR'
    obtain ⟨m₀, hm₀, hs⟩ := h.steps r' m' heq hm'
    exact hg.steps hK (fun ds hd => hD ds (hsub _ (.inr hd))) hs
      (hw r' R' m₀ hR' hm₀ hK fun ds hd => hD ds (hsub _ (.inl hd)))

theorem afterDestroy_parts (env : Env M) (w : World M) (r : ℕ) (R : Region) :
    (afterDestroy env w r R).regions = Function.update w.regions r none ∧
    (afterDestroy env w r R).models = Function.update w.models r none ∧
    (afterDestroy env w r R).log = w.log ++ [.destroyed r] ∧
    (afterDestroy env w r R).cfg = w.cfg ∧ (afterDestroy env w r R).nextRegion = w.nextRegion := by
  obtain ⟨f, hf⟩ := afterDestroy_eq env w r R
  rw [hf]
  exact ⟨rfl, rfl, rfl, rfl, rfl⟩

theorem ModelInv.chose (hg : Ranged env.ops Y K D A) {w : World M} {r : ℕ} {c : CtxPtr} {m : M}
    {C : Ctx} {p : ℤ} {m' : M} (hw : ModelInv K D A w)
    (hm : w.models r = some m)
    (hp : env.ops.getIndex m C.features = .ok (p, m')) :
    ModelInv K D A (((w.setModel r m').setCtx c { C with policy := p }).emit (.chose r c p)) := by
  refine hw.frame (fun r R hR => ⟨R, hR, rfl⟩) (fun e he => List.mem_append_left _ he) ?_
  intro r' m₁ k h hK _
  have h : Function.update w.models r (some m') r' = some m₁ := h
  by_cases heq : r' = r
  · subst heq
    rw [Function.update_self] at h
    cases h
    exact ⟨m, hm, fun ha => (hg.index _ _ _ _ _ hK ha hp).2⟩
  · rw [Function.update_of_ne heq] at h
    exact ⟨m₁, h, id⟩

theorem ModelInv.stepwise (hg : Ranged env.ops Y K D A) (F : ℕ → Prop) :
    Stepwise env F (ModelInv K D A : World M → Prop) where
  toKept := (ModelInv.stable hg F).kept
  finish := (ModelInv.stable hg F).finish
  began := by
    intro w r c R C w' hw h
    exact hw.frame (kind_update (R := R)
      (R₁ := { R with current := some c, idx := R.idx + 1 }) h.region rfl h.regions)
      (fun e he => by rw [h.log]; exact List.mem_append_left _ he)
      (fun r m _ hm _ _ => ⟨m, by rw [← h.models]; exact hm, id⟩)
  assigned := fun w c C f hw _ => hw.same rfl rfl rfl
  feature := fun w c C f hw _ => hw.same rfl rfl rfl
  chose := by
    intro w r c R m C p m' hw hR hm hC hp
    exact hw.chose hg hm hp
  stop := fun w c C t hw _ => hw
  ended := by
    intro w r c R hw hR _ _
    exact hw.frame (kind_update (R₁ := { R with pending := R.pending ++ [c] }) hR rfl rfl)
      (fun e he => List.mem_append_left _ he)
      (fun r m _ hm _ _ => ⟨m, hm, id⟩)
  period := fun w hw => hw
  destroyed := by
    intro w r R hw hR _
    obtain ⟨e1, e2, e3, -⟩ := afterDestroy_parts env w r R
    intro r' R' m' hR' hm' hK hD
    rw [e1] at hR'
    rw [e2] at hm'
    by_cases heq : r' = r
    · subst heq; rw [Function.update_self] at hR'; cases hR'
    · rw [Function.update_of_ne heq] at hR' hm'
      exact hw r' R' m' hR' hm' hK fun ds hd => hD ds (by rw [e3]; exact List.mem_append_left _ hd)

theorem modelInv_init (cfg : Cfg) (files : Str → Option Str) :
    ModelInv K D A (initWorld cfg files : World M) := by
  have hr : (initWorld cfg files : World M).regions = fun _ => none := rfl
  intro r R m hR
  rw [hr] at hR
  cases hR

/-! ## Regions that read no files -/

/-- A region that reads no dataset starts empty and untrained. -/
theorem createRegion_quiet {w w' : World M} {nf n mt : ℤ} {name info yaml : Str}
    {r : ℕ} (hp : w.cfg.persistent = false)
    (h : createRegion env w nf name n mt info yaml = .ok (r, w')) :
    ∃ R b, w'.regions r = some R ∧ (R.params.find "load-dataset".toList = none →
      R.modelName ≠ "DatasetMap".toList → R.dataset = [] ∧ w'.log = w.log ++ [.created r [] b]) := by
  unfold createRegion at h
  obtain ⟨⟨r₀, w₀⟩, h0, h⟩ := (Res.bind_eq_ok _ _ _).1 h
  obtain ⟨w₁, h1, h⟩ := (Res.bind_eq_ok _ _ _).1 h
  obtain ⟨w₂, h2, h⟩ := (Res.bind_eq_ok _ _ _).1 h
  obtain ⟨w₃, h3, h⟩ := (Res.bind_eq_ok _ _ _).1 h
  obtain ⟨w₄, h4, h⟩ := (Res.bind_eq_ok _ _ _).1 h
  obtain ⟨w₅, h5, h⟩ := (Res.bind_eq_ok _ _ _).1 h
  obtain ⟨R, hR, h⟩ := (Res.bind_eq_ok _ _ _).1 h
  obtain ⟨mc, hmc, h⟩ := (Res.bind_eq_ok _ _ _).1 h
  have hR := World.region_ok.1 hR
  simp only [Except.ok.injEq, Prod.mk.injEq] at h
  obtain ⟨rfl, rfl⟩ := h
  refine ⟨R, env.ops.isTrainable mc, hR, fun hl hn => ?_⟩
  obtain ⟨R₀, m, hid, -, a1, a2, a3, a4, a5, a6, a7, a8, a9, hw0⟩ := constructRegion_ok h0
  have hR0 : w₀.regions r₀ = some R₀ := by
    rw [hw0]; simp [World.setRegion, World.setModel, World.setCtx, World.advance]
  have hc0 : w₀.cfg = w.cfg := by rw [hw0]; rfl
  have hl0 : w₀.log = w.log := by rw [hw0]; rfl
  -- nothing is read
  unfold loadPersistent at h1
  rw [if_pos (by rw [hc0, hp]; rfl)] at h1
  cases h1
  -- the parameters of the region do not change any more
  have e5 : ∃ tr : Region → Str, w₅.regions r₀ = (w₄.regions r₀).map fun R => { R with trace := tr R } := by
    obtain ⟨R', hR', ⟨-, -, rfl⟩ | ⟨-, rfl⟩⟩ := startTrace_cases h5
    · have hR' := World.region_ok.1 hR'
      refine ⟨fun R => traceHeader R.numFeatures, ?_⟩
      simp [World.setRegion, hR']
    · exact ⟨fun R => R.trace, by simp⟩
  have l5 : w₅.log = w₄.log := by
    obtain ⟨R', hR', ⟨-, -, rfl⟩ | ⟨-, rfl⟩⟩ := startTrace_cases h5 <;> rfl
  obtain ⟨tr, e5⟩ := e5
  -- what was created
  obtain ⟨l2, b2⟩ := loadDatasetParam_built hR0 a8 h2
  obtain ⟨R₂, ds2, tr2, c2, d2⟩ := b2.regions
  rw [hR0] at c2
  cases c2
  have hR2 : w₂.regions r₀ = some { R₀ with dataset := ds2, trace := tr2 } := by
    rw [d2, Function.update_self]
  obtain ⟨l3, b3⟩ := loadOptimalFile_built hR2 h3
  obtain ⟨R₃, ds3, tr3, c3, d3⟩ := b3.regions
  rw [hR2] at c3
  cases c3
  have hR3 : w₃.regions r₀ = some { R₀ with dataset := ds3, trace := tr3 } := by
    rw [d3, Function.update_self]
  obtain ⟨l4, b4⟩ := loadDatasetMap_built hR3 h4
  obtain ⟨R₄, ds4, tr4, c4, d4⟩ := b4.regions
  rw [hR3] at c4
  cases c4
  have hR4 : w₄.regions r₀ = some { R₀ with dataset := ds4, trace := tr4 } := by
    rw [d4, Function.update_self]
  have hps : R.params = R₀.params ∧ R.modelName = R₀.modelName ∧ R.dataset = ds4 := by
    rw [hR, hR4] at e5
    simp only [Option.map_some, Option.some.injEq] at e5
    rw [e5]
    exact ⟨rfl, rfl, rfl⟩
  rw [hps.1] at hl
  rw [hps.2.1] at hn
  -- `load-dataset`
  unfold loadDatasetParam at h2
  obtain ⟨R', hR', h2⟩ := (Res.bind_eq_ok _ _ _).1 h2
  have hR' := World.region_ok.1 hR'
  rw [hR0] at hR'
  cases hR'
  rw [hl] at h2
  cases h2
  rw [hR0] at hR2
  -- `Optimal`
  have l3' : w₃.log = w₀.log ∧ w₃.regions r₀ = w₀.regions r₀ := by
    unfold loadOptimalFile at h3
    obtain ⟨R', hR', h3⟩ := (Res.bind_eq_ok _ _ _).1 h3
    split at h3
    · split at h3
      · cases h3
      · obtain ⟨m, hm, h3⟩ := (Res.bind_eq_ok _ _ _).1 h3
        obtain ⟨m', hm', h3⟩ := (Res.bind_eq_ok _ _ _).1 h3
        cases h3
        exact ⟨rfl, rfl⟩
    · cases h3; exact ⟨rfl, rfl⟩
  -- `DatasetMap`
  unfold loadDatasetMap at h4
  obtain ⟨R', hR', h4⟩ := (Res.bind_eq_ok _ _ _).1 h4
  have hR' := World.region_ok.1 hR'
  rw [hR3] at hR'
  cases hR'
  rw [if_neg hn] at h4
  cases h4
  have hds : ds4 = [] := by
    rw [l3'.2, hR0] at hR4
    simp only [Option.some.injEq] at hR4
    rw [← a5, hR4]
  have hdR : R.dataset = [] := by rw [hps.2.2, hds]
  refine ⟨hdR, ?_⟩
  show w₅.log ++ _ = _
  rw [l5, l3'.1, hl0, hdR]

/-! ## The data a region trains with -/

/-- Regions of the kind read no dataset when they are created, unless datasets are persistent. -/
def Kind.quiet (k : Kind) : Prop :=
  k.params.find "load-dataset".toList = none ∧ k.modelName ≠ "DatasetMap".toList

/-- What is asked of a history for region `r` with `n` policies: executions are proper, policies for
its contexts were asked from the region itself, and what it read from files is in range (or it reads
none, `q`). -/
structure Clean (q : Prop) (r : ℕ) (n : ℤ) (h : List Ev) : Prop where
  proper : (observe h).proper r = true
  asked : ∀ pre r' c p post, h = pre ++ .chose r' c p :: post → (observe pre).owner c = some r →
    r' = r
  start : q ∨ ∀ pre ds b post, h = pre ++ .created r ds b :: post →
    DataIn n ds ∧ ∀ ds', Ev.trained r ds' ∈ pre → DataIn n ds'

theorem proper_mono (h l : List Ev) (r : ℕ) (hp : (observe (h ++ l)).proper r = true) :
    (observe h).proper r = true := by
  induction l using List.reverseRecOn with
  | nil => simpa using hp
  | append_singleton l e ih =>
    rw [← List.append_assoc, observe_snoc] at hp
    refine ih ?_
    cases e with
    | finished r' c m =>
      simp only [Observer.next] at hp
      by_cases heq : r = r'
      · subst heq
        rw [Function.update_self] at hp
        simp only [Bool.and_eq_true] at hp
        exact hp.1.1.1
      · rwa [Function.update_of_ne heq] at hp
    | _ => exact hp

theorem Clean.mono {q : Prop} {r : ℕ} {n : ℤ} {h l : List Ev} (hc : Clean q r n (h ++ l)) :
    Clean q r n h where
  proper := proper_mono _ _ _ hc.proper
  asked := fun pre r' c p post he => hc.asked pre r' c p (post ++ l) (by rw [he]; simp)
  start := hc.start.imp id fun hs pre ds b post he => hs pre ds b (post ++ l) (by rw [he]; simp)

theorem owner_began {h : List Ev} {c : CtxPtr} {r : ℕ} (ho : (observe h).owner c = some r) :
    Ev.began r c ∈ h := by
  induction h using List.reverseRecOn with
  | nil => simp [observe] at ho
  | append_singleton h e ih =>
    rw [observe_snoc] at ho
    cases e with
    | began r' c' =>
      simp only [Observer.next] at ho
      by_cases heq : c = c'
      · subst heq
        rw [Function.update_self] at ho
        cases ho
        simp
      · rw [Function.update_of_ne heq] at ho
        exact List.mem_append_left _ (ih ho)
    | _ => exact List.mem_append_left _ (ih ho)

/-- The data of region `r` is in range. -/
structure OwnInv (K : Kind → Prop) (r : ℕ) (w : World M) : Prop where
  old : ∀ ds, Ev.trained r ds ∈ w.log → r < w.nextRegion
  data : ∀ R, w.regions r = some R → K R.kind →
    Clean (w.cfg.persistent = false ∧ R.kind.quiet) r R.numPolicies w.log →
    DataIn R.numPolicies R.dataset ∧
    (∀ ds, Ev.trained r ds ∈ w.log → DataIn R.numPolicies ds) ∧
    ∀ c p, (observe w.log).isOpen c = true → (observe w.log).owner c = some r →
      (observe w.log).policy c = some p → 0 ≤ p ∧ p < R.numPolicies

/-- All that is needed together. -/
structure RangeInv (K : Kind → Prop) (A : Kind → M → Prop) (r : ℕ) (w : World M) : Prop where
  log : LogInv w
  single : w.cfg.single = false
  model : ModelInv K (fun k => DataIn k.n) A w
  own : OwnInv K r w

theorem LogInv.lt_of {w : World M} (hw : LogInv w) {r : ℕ} {R : Region}
    (h : w.regions r = some R) : r < w.nextRegion := by
  by_contra hc
  have := hw.regFresh r (by omega)
  rw [h] at this
  cases this

theorem OwnInv.trained {w w' : World M} {l : List Ev} {r : ℕ} (hI : LogInv w)
    (hs : w.cfg.single = false) (h : Trained env w l w') (hw : OwnInv K r w) : OwnInv K r w' := by
  constructor
  · intro ds hd
    rw [h.log] at hd
    rw [h.nextRegion]
    rcases List.mem_append.1 hd with hd | hd
    · exact hw.old ds hd
    · obtain ⟨R, hR, -⟩ := h.data hs r ds hd
      exact hI.lt_of hR
  · intro R hR hK hc
    rw [h.regions] at hR
    rw [h.log, h.cfg] at hc
    obtain ⟨h1, h2, h3⟩ := hw.data R hR hK hc.mono
    refine ⟨h1, ?_, ?_⟩
    · intro ds hd
      rw [h.log] at hd
      rcases List.mem_append.1 hd with hd | hd
      · exact h2 ds hd
      · obtain ⟨R', hR', e⟩ := h.data hs r ds hd
        rw [hR] at hR'
        cases hR'
        rw [← e]; exact h1
    · rw [h.log, observe_trained _ _ h.events]; exact h3

/-- Steps that keep datasets and add one event that opens no context and chooses nothing. -/
theorem OwnInv.emit {w w' : World M} {e : Ev} {r : ℕ} (hw : OwnInv K r w)
    (hr : ∀ R', w'.regions r = some R' → ∃ R, w.regions r = some R ∧ R'.kind = R.kind ∧
      R'.dataset = R.dataset)
    (hn : w'.nextRegion = w.nextRegion) (hcf : w'.cfg = w.cfg) (hl : w'.log = w.log ++ [e])
    (he : ∀ r ds, e ≠ .trained r ds)
    (ho : ∀ (o : Observer) c p, (o.next e).isOpen c = true → (o.next e).owner c = some r →
      (o.next e).policy c = some p → o.isOpen c = true ∧ o.owner c = some r ∧ o.policy c = some p) :
    OwnInv K r w' := by
  have ht : ∀ ds, Ev.trained r ds ∈ w'.log → Ev.trained r ds ∈ w.log := by
    intro ds hd
    rw [hl] at hd
    rcases List.mem_append.1 hd with hd | hd
    · exact hd
    · rw [List.mem_singleton] at hd; exact absurd hd.symm (he _ _)
  constructor
  · intro ds hd
    rw [hn]; exact hw.old ds (ht ds hd)
  · intro R' hR' hK hc
    obtain ⟨R, hR, hk, hd⟩ := hr R' hR'
    have hnp : R'.numPolicies = R.numPolicies := congrArg Kind.n hk
    rw [hl, hnp, hcf, hk] at hc
    rw [hk] at hK
    obtain ⟨h1, h2, h3⟩ := hw.data R hR hK hc.mono
    rw [hnp, hd]
    refine ⟨h1, fun ds h => h2 ds (ht ds h), ?_⟩
    rw [hl, observe_snoc]
    intro c p a b d
    obtain ⟨a, b, d⟩ := ho _ _ _ a b d
    exact h3 c p a b d

theorem OwnInv.finished {w w' : World M} {r₁ : ℕ} {c : CtxPtr} {metric : ℚ} {R₁ : Region} {m : M}
    {C : Ctx} {l : List Ev} {r : ℕ} (hI : LogInv w) (hs : w.cfg.single = false)
    (h : Collected env (w.emit (.finished r₁ c metric)) r₁ c metric R₁ m C l w')
    (hw : OwnInv K r w) : OwnInv K r w' := by
  have hlog : w'.log = w.log ++ (.finished r₁ c metric :: l) := by
    rw [h.log]; simp [World.emit]
  have hob : observe w'.log = (observe w.log).next (.finished r₁ c metric) := by
    rw [h.log, observe_trained _ _ h.events]; exact observe_snoc _ _
  have hnx : w'.nextRegion = w.nextRegion := h.nextRegion
  have hreg : w'.regions = Function.update w.regions r₁
    (some (recRegion env (w.emit (.finished r₁ c metric)) R₁ m C metric)) := h.regions
  have hR₁ : w.regions r₁ = some R₁ := h.region
  have hC : w.ctxs c = some C := h.ctx
  constructor
  · intro ds hd
    rw [hlog] at hd
    rw [hnx]
    rcases List.mem_append.1 hd with hd | hd
    · exact hw.old ds hd
    · rcases List.mem_cons.1 hd with hd | hd
      · cases hd
      · obtain ⟨R', hR', -⟩ := h.data hs r ds hd
        rw [hreg] at hR'
        by_cases heq : r = r₁
        · subst heq; exact hI.lt_of hR₁
        · rw [Function.update_of_ne heq] at hR'; exact hI.lt_of hR'
  · intro R' hR' hK hc
    obtain ⟨R, hR, hk⟩ := kind_update hR₁ (R₁ :=
      recRegion env (w.emit (.finished r₁ c metric)) R₁ m C metric) rfl hreg r R' hR'
    have hnp : R'.numPolicies = R.numPolicies := congrArg Kind.n hk
    have hp := hc.proper
    rw [hlog, hnp, h.cfg, hk] at hc
    rw [hk] at hK
    obtain ⟨h1, h2, h3⟩ := hw.data R hR hK hc.mono
    have hd : DataIn R'.numPolicies R'.dataset := by
      rw [hnp]
      rw [hreg] at hR'
      by_cases heq : r = r₁
      · subst heq
        rw [hR] at hR₁
        cases hR₁
        rw [Function.update_self] at hR'
        cases hR'
        rw [hob] at hp
        simp only [Observer.next, Function.update_self, Bool.and_eq_true, beq_iff_eq] at hp
        obtain ⟨⟨⟨-, p2⟩, p3⟩, p4⟩ := hp
        obtain ⟨p, hp⟩ := Option.isSome_iff_exists.1 p3
        have hpo := hI.pol c C hC p2 p hp
        unfold recRegion
        dsimp only
        split
        · exact h1.insert _ _ (by rw [hpo]; exact h3 c p p2 p4 hp)
        · exact h1
      · rw [Function.update_of_ne heq, hR] at hR'
        cases hR'
        exact h1
    refine ⟨hd, ?_, ?_⟩
    · intro ds hm
      rw [hlog] at hm
      rcases List.mem_append.1 hm with hm | hm
      · rw [hnp]; exact h2 ds hm
      · rcases List.mem_cons.1 hm with hm | hm
        · cases hm
        · obtain ⟨R'', hR'', e⟩ := h.data hs r ds hm
          rw [hR'] at hR''
          cases hR''
          rw [← e]; exact hd
    · rw [hob, hnp]
      intro c' p a b d
      simp only [Observer.next] at a b d
      by_cases heq : c' = c
      · subst heq; rw [Function.update_self] at a; cases a
      · rw [Function.update_of_ne heq] at a
        exact h3 c' p a b d

theorem OwnInv.created {w w' : World M} {nf n mt : ℤ} {name info yaml : Str} {r₁ : ℕ}
    {R₁ : Region} {m : M} {l : List Ev} {r : ℕ} (hI : LogInv w) (hs : w.cfg.single = false)
    (h₀ : createRegion env w nf name n mt info yaml = .ok (r₁, w'))
    (h : CreatedAs env w nf name n mt yaml r₁ R₁ m l w') (hw : OwnInv K r w) : OwnInv K r w' := by
  have hid := h.id
  have hob : observe w'.log =
      (observe w.log).next (.created r₁ R₁.dataset (env.ops.isTrainable m)) := by
    rw [h.log, observe_snoc, observe_trained _ _ h.events]
  constructor
  · intro ds hd
    rw [h.nextRegion]
    by_cases heq : r = r₁
    · omega
    · rw [h.log] at hd
      simp only [List.mem_append, List.mem_singleton, reduceCtorEq, or_false] at hd
      rcases hd with hd | hd
      · have := hw.old ds hd; omega
      · obtain ⟨R', hR', -⟩ := h.data hs r ds heq hd
        have := hI.lt_of hR'
        omega
  · intro R' hR' hK hc
    rw [h.regions] at hR'
    by_cases heq : r = r₁
    · subst heq
      rw [Function.update_self] at hR'
      cases hR'
      have hst : DataIn R₁.numPolicies R₁.dataset ∧
          ∀ ds', Ev.trained r ds' ∈ w.log ++ l → DataIn R₁.numPolicies ds' := by
        rcases hc.start with ⟨hp, hq⟩ | hst
        · rw [h.cfg] at hp
          obtain ⟨R', b, hR', hq'⟩ := createRegion_quiet hp h₀
          rw [h.regions, Function.update_self] at hR'
          cases hR'
          obtain ⟨q1, q2⟩ := hq' hq.1 hq.2
          rw [h.log, q1] at q2
          have hl : l = [] := by
            rw [List.append_assoc, List.append_cancel_left_eq] at q2
            have := congrArg List.length q2
            simp only [List.length_append, List.length_singleton] at this
            exact List.length_eq_zero_iff.1 (by omega)
          rw [q1, hl, List.append_nil]
          exact ⟨by simp [DataIn], fun ds hd => absurd (hw.old ds hd) (by omega)⟩
        · exact hst (w.log ++ l) _ _ [] h.log
      obtain ⟨s1, s2⟩ := hst
      refine ⟨s1, ?_, ?_⟩
      · intro ds hd
        rw [h.log] at hd
        rcases List.mem_append.1 hd with hd | hd
        · exact s2 ds hd
        · rw [List.mem_singleton] at hd; cases hd
      · rw [hob]
        intro c p a b d
        have b : (observe w.log).owner c = some r := b
        have := hI.evReg _ (owner_began b) r rfl
        omega
    · rw [Function.update_of_ne heq] at hR'
      have hc' : Clean (w.cfg.persistent = false ∧ R'.kind.quiet) r R'.numPolicies w.log := by
        rw [h.log, List.append_assoc, h.cfg] at hc; exact hc.mono
      obtain ⟨h1, h2, h3⟩ := hw.data R' hR' hK hc'
      refine ⟨h1, ?_, ?_⟩
      · intro ds hd
        rw [h.log] at hd
        simp only [List.mem_append, List.mem_singleton, reduceCtorEq, or_false] at hd
        rcases hd with hd | hd
        · exact h2 ds hd
        · obtain ⟨R'', hR'', e⟩ := h.data hs r ds heq hd
          rw [hR'] at hR''
          cases hR''
          rw [← e]; exact h1
      · rw [hob]; exact h3

theorem OwnInv.began {w w' : World M} {r₁ : ℕ} {c : CtxPtr} {R : Region} {C : Ctx} {r : ℕ}
    (h : BeganAs env w r₁ c R C w') (hw : OwnInv K r w) : OwnInv K r w' := by
  refine hw.emit ?_ h.nextRegion h.cfg h.log (by simp) ?_
  · intro R' hR'
    rw [h.regions] at hR'
    by_cases heq : r = r₁
    · subst heq; rw [Function.update_self] at hR'; cases hR'; exact ⟨R, h.region, rfl, rfl⟩
    · rw [Function.update_of_ne heq] at hR'; exact ⟨R', hR', rfl, rfl⟩
  · intro o c' p a b d
    simp only [Observer.next] at a b d
    by_cases heq : c' = c
    · subst heq; rw [Function.update_self] at d; cases d
    · rw [Function.update_of_ne heq] at a b d
      exact ⟨a, b, d⟩

theorem OwnInv.chose (hg : Ranged env.ops Y K (fun k => DataIn k.n) A) {w : World M} {r₁ : ℕ}
    {c : CtxPtr} {m : M} {C : Ctx} {p : ℤ} {m' : M} {r : ℕ}
    (hm : ModelInv K (fun k => DataIn k.n) A w) (hw : OwnInv K r w)
    (hm₁ : w.models r₁ = some m)
    (hp : env.ops.getIndex m C.features = .ok (p, m')) :
    OwnInv K r (((w.setModel r₁ m').setCtx c { C with policy := p }).emit (.chose r₁ c p)) := by
  have ht : ∀ ds, Ev.trained r ds ∈ w.log ++ [.chose r₁ c p] → Ev.trained r ds ∈ w.log := by
    intro ds hd
    simpa using hd
  constructor
  · exact fun ds hd => hw.old ds (ht ds hd)
  · intro R hR hK hc
    have hR : w.regions r = some R := hR
    have hc : Clean (w.cfg.persistent = false ∧ R.kind.quiet) r R.numPolicies
      (w.log ++ [.chose r₁ c p]) := hc
    obtain ⟨h1, h2, h3⟩ := hw.data R hR hK hc.mono
    refine ⟨h1, fun ds hd => h2 ds (ht ds hd), ?_⟩
    intro c' p' a b d
    simp only [World.emit, World.setCtx, World.setModel] at a b d
    rw [observe_snoc] at a b d
    simp only [Observer.next] at a b d
    by_cases heq : c' = c
    · subst heq
      rw [Function.update_self] at d
      cases d
      obtain rfl := hc.asked w.log r₁ c' p [] rfl b
      exact (hg.index R.kind m _ _ _ hK (hm r₁ R m hR hm₁ hK h2) hp).1
    · rw [Function.update_of_ne heq] at d
      exact h3 c' p' a b d

theorem RangeInv.stable (hg : Ranged env.ops Y K (fun k => DataIn k.n) A) (r : ℕ) (F : ℕ → Prop) :
    Stable env F (RangeInv K A r : World M → Prop) := by
  refine Stable.of ?_ ?_ ?_ ?_
  · intro w l w' ht hw
    exact ⟨hw.log.trained ht, by rw [ht.cfg]; exact hw.single, hw.model.trained hg ht,
      hw.own.trained hw.log hw.single ht⟩
  · intro w c hw
    exact ⟨(LogInv.stable env F).waiting _ _ hw.log, hw.single, hw.model.same rfl rfl rfl,
      hw.own.emit (fun R h => ⟨R, h, rfl, rfl⟩) rfl rfl rfl (by simp) (fun _ _ _ a b d => ⟨a, b, d⟩)⟩
  · intro w r c m w' hw h
    obtain ⟨R, m, C, l, h1⟩ := collectContext_ok h
    exact ⟨hw.log.finished h1, by rw [h1.cfg]; exact hw.single, hw.model.finished hg h1,
      hw.own.finished hw.log hw.single h1⟩
  · intro w r₁ R cs hw hR
    refine ⟨(LogInv.stable env F).pending _ _ _ _ hw.log hR, hw.single,
      (ModelInv.stable hg F).pending _ _ _ _ hw.model hR, hw.own.old, ?_⟩
    intro R' hR' hK hc
    have hR' : Function.update w.regions r₁ (some { R with pending := cs }) r = some R' := hR'
    by_cases heq : r = r₁
    · subst heq
      rw [Function.update_self] at hR'
      cases hR'
      exact hw.own.data R hR hK hc
    · rw [Function.update_of_ne heq] at hR'
      exact hw.own.data R' hR' hK hc

theorem RangeInv.stepwise (hg : Ranged env.ops Y K (fun k => DataIn k.n) A) (r : ℕ)
    (F : ℕ → Prop) : Stepwise env F (RangeInv K A r : World M → Prop) where
  toKept := (RangeInv.stable hg r F).kept
  finish := (RangeInv.stable hg r F).finish
  began := fun w r₁ c R C w' hw h => ⟨hw.log.began h, by rw [h.cfg]; exact hw.single,
    (ModelInv.stepwise hg F).began _ _ _ _ _ _ hw.model h, hw.own.began h⟩
  assigned := fun w c C f hw hC => ⟨(LogInv.invariant env F).assigned _ _ _ _ hw.log hC, hw.single,
    (ModelInv.stepwise hg F).assigned _ _ _ _ hw.model hC,
    hw.own.emit (fun R h => ⟨R, h, rfl, rfl⟩) rfl rfl rfl (by simp) (fun _ _ _ a b d => ⟨a, b, d⟩)⟩
  feature := fun w c C f hw hC => ⟨(LogInv.invariant env F).feature _ _ _ _ hw.log hC, hw.single,
    (ModelInv.stepwise hg F).feature _ _ _ _ hw.model hC,
    hw.own.emit (fun R h => ⟨R, h, rfl, rfl⟩) rfl rfl rfl (by simp) (fun _ _ _ a b d => ⟨a, b, d⟩)⟩
  traced := by
    intro w R m f p w' hw h
    obtain ⟨F, rfl⟩ := tracePolicy_same h
    exact ⟨{ hw.log with }, hw.single, hw.model, { hw.own with }⟩
  chose := fun w r₁ c R m C p m' hw hR hm hC hp =>
    ⟨(LogInv.invariant env F).chose _ _ _ _ _ _ _ _ hw.log hR hm hC hp, hw.single,
      hw.model.chose hg hm hp, hw.own.chose hg hw.model hm hp⟩
  stop := fun w c C t hw hC => ⟨(LogInv.invariant env F).stop _ _ _ _ hw.log hC, hw.single, hw.model,
    hw.own.old, hw.own.data⟩
  ended := by
    intro w r₁ c R hw hR h1 h2
    refine ⟨(LogInv.invariant env F).ended _ _ _ _ hw.log hR h1 h2, hw.single,
      (ModelInv.stepwise hg F).ended _ _ _ _ hw.model hR h1 h2, ?_⟩
    refine hw.own.emit ?_ rfl rfl rfl (by simp) (fun _ _ _ a b d => ⟨a, b, d⟩)
    intro R' hR'
    have hR' : Function.update w.regions r₁ _ r = some R' := hR'
    by_cases heq : r = r₁
    · subst heq; rw [Function.update_self] at hR'; cases hR'; exact ⟨R, hR, rfl, rfl⟩
    · rw [Function.update_of_ne heq] at hR'; exact ⟨R', hR', rfl, rfl⟩
  period := fun w hw => ⟨(LogInv.invariant env F).period _ hw.log, hw.single, hw.model,
    hw.own.old, hw.own.data⟩
  destroyed := by
    intro w r₁ R hw hR hp
    obtain ⟨e1, e2, e3, e4, e5⟩ := afterDestroy_parts env w r₁ R
    refine ⟨(LogInv.invariant env F).destroyed _ _ _ hw.log hR hp, by rw [e4]; exact hw.single,
      (ModelInv.stepwise hg F).destroyed _ _ _ hw.model hR hp, ?_⟩
    refine hw.own.emit ?_ e5 e4 e3 (by simp) (fun _ _ _ a b d => ⟨a, b, d⟩)
    intro R' hR'
    rw [e1] at hR'
    by_cases heq : r = r₁
    · subst heq; rw [Function.update_self] at hR'; cases hR'
    · rw [Function.update_of_ne heq] at hR'; exact ⟨R', hR', rfl, rfl⟩

theorem RangeInv.created (hg : Ranged env.ops Y K (fun k => DataIn k.n) A) {w w' : World M}
    {nf n mt : ℤ} {name info yaml : Str} (hy : yaml ≠ [] → Y) {r₁ r : ℕ} (hw : RangeInv K A r w)
    (h : createRegion env w nf name n mt info yaml = .ok (r₁, w')) : RangeInv K A r w' := by
  obtain ⟨R, m, l, h1⟩ := createRegion_ok h
  exact ⟨hw.log.created h1, by rw [h1.cfg]; exact hw.single, hw.model.created hg hy h1,
    hw.own.created hw.log hw.single h h1⟩

theorem rangeInv_init (cfg : Cfg) (hs : cfg.single = false) (files : Str → Option Str) (r : ℕ) :
    RangeInv K A r (initWorld cfg files : World M) := by
  refine ⟨logInv_init cfg files, hs, modelInv_init cfg files, ?_, ?_⟩
  · intro ds hd; cases hd
  · intro R hR
    have hr : (initWorld cfg files : World M).regions = fun _ => none := rfl
    rw [hr] at hR
    cases hR

end

end Apollo
