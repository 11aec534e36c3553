import Verif.Proofs.RegionFiles
import Verif.Proofs.RegionTrain
import Verif.Proofs.RegionData

/-!
# Helpers for the persistent datasets
-/

namespace Apollo

open Spec

variable {M : Type} {env : Env M}

/-! ## What a region starts with -/

theorem createRegion_dataset {w w' : World M} {nf n mt : ℤ} {name info yaml : Str} {r : ℕ}
    {R : Region} (h : createRegion env w nf name n mt info yaml = .ok (r, w'))
    (hR : w'.regions r = some R) (hp : w.cfg.persistent = true)
    (hl : R.params.find "load-dataset".toList = none) (hm : R.modelName ≠ "DatasetMap".toList) :
    R.name = truncName name ∧
      loadIfExists [] (w.files (datasetPath w.cfg R.name)) = .ok R.dataset := by
  unfold createRegion at h
  obtain ⟨⟨r₀, w₀⟩, h0, h⟩ := (Res.bind_eq_ok _ _ _).1 h
  obtain ⟨w₁, h1, h⟩ := (Res.bind_eq_ok _ _ _).1 h
  obtain ⟨w₂, h2, h⟩ := (Res.bind_eq_ok _ _ _).1 h
  obtain ⟨w₃, h3, h⟩ := (Res.bind_eq_ok _ _ _).1 h
  obtain ⟨w₄, h4, h⟩ := (Res.bind_eq_ok _ _ _).1 h
  obtain ⟨w₅, h5, h⟩ := (Res.bind_eq_ok _ _ _).1 h
  obtain ⟨R₅, hR₅, h⟩ := (Res.bind_eq_ok _ _ _).1 h
  obtain ⟨mc, hmc, h⟩ := (Res.bind_eq_ok _ _ _).1 h
  simp only [Except.ok.injEq, Prod.mk.injEq] at h
  obtain ⟨rfl, rfl⟩ := h
  have hR : w₅.regions r₀ = some R := hR
  obtain ⟨R₀, hR0, e1, hds0, hp0, hf0, hc0⟩ : ∃ R₀ : Region, w₀.regions r₀ = some R₀ ∧
      R₀.name = truncName name ∧ R₀.dataset = [] ∧ R₀.pending = [] ∧ w₀.files = w.files ∧
      w₀.cfg = w.cfg := by
    unfold constructRegion at h0
    obtain ⟨⟨mn, ps⟩, g1, h0⟩ := (Res.bind_eq_ok _ _ _).1 h0
    obtain ⟨⟨mn', ps', info'⟩, g2, h0⟩ := (Res.bind_eq_ok _ _ _).1 h0
    obtain ⟨m₀, g3, h0⟩ := (Res.bind_eq_ok _ _ _).1 h0
    obtain ⟨m₀', g4, h0⟩ := (Res.bind_eq_ok _ _ _).1 h0
    obtain ⟨m₁, g5, hfin0⟩ := (Res.bind_eq_ok _ _ _).1 h0
    simp only [Except.ok.injEq, Prod.mk.injEq] at hfin0
    obtain ⟨hr0, hw0⟩ := hfin0
    refine ⟨_, by rw [← hw0, ← hr0]; exact Function.update_self .., rfl, rfl, rfl, ?_, ?_⟩
    · rw [← hw0]; rfl
    · rw [← hw0]; rfl
  -- the dataset is loaded here
  obtain ⟨ds, hds, hR1⟩ : ∃ ds, loadIfExists [] (w.files (datasetPath w.cfg R₀.name)) = .ok ds ∧
      w₁.regions r₀ = some { R₀ with dataset := ds } := by
    unfold loadPersistent at h1
    rw [hc0, hp] at h1
    simp only [Bool.not_true, Bool.false_eq_true, if_false] at h1
    obtain ⟨R', hR', h1⟩ := (Res.bind_eq_ok _ _ _).1 h1
    have hR' := World.region_ok.1 hR'
    rw [hR0] at hR'
    cases hR'
    obtain ⟨ds, hds, h1⟩ := (Res.bind_eq_ok _ _ _).1 h1
    rw [hds0, hf0] at hds
    refine ⟨ds, hds, ?_⟩
    obtain ⟨l, ht, -⟩ := autoTrain_trained h1
    rw [ht.regions]
    exact Function.update_self ..
  -- the later steps leave it
  obtain ⟨l2, b2⟩ := loadDatasetParam_built hR1 hp0 h2
  obtain ⟨Rb, db, tb, hRb, eb⟩ := b2.regions
  rw [hR1] at hRb; cases hRb
  have hR2 : w₂.regions r₀ = some { R₀ with dataset := db, trace := tb } := by
    rw [eb, Function.update_self]
  obtain ⟨l3, b3⟩ := loadOptimalFile_built hR2 h3
  obtain ⟨Rc, dc, tc, hRc, ec⟩ := b3.regions
  rw [hR2] at hRc; cases hRc
  have hR3 : w₃.regions r₀ = some { R₀ with dataset := dc, trace := tc } := by
    rw [ec, Function.update_self]
  obtain ⟨l4, b4⟩ := loadDatasetMap_built hR3 h4
  obtain ⟨Rd, dd, td, hRd, ed⟩ := b4.regions
  rw [hR3] at hRd; cases hRd
  have hR4 : w₄.regions r₀ = some { R₀ with dataset := dd, trace := td } := by
    rw [ed, Function.update_self]
  have h5 := startTrace_ok hR4 h5
  have hfin : R.name = R₀.name ∧ R.modelName = R₀.modelName ∧ R.params = R₀.params ∧
      R.dataset = dd := by
    rw [h5] at hR
    split at hR
    · simp only [World.setRegion, Function.update_self, Option.some.injEq] at hR
      subst hR; exact ⟨rfl, rfl, rfl, rfl⟩
    · rw [hR4] at hR; cases hR; exact ⟨rfl, rfl, rfl, rfl⟩
  obtain ⟨f1, f2, f3, f4⟩ := hfin
  have q2 : w₂ = w₁ := by
    unfold loadDatasetParam at h2
    obtain ⟨R', hR', h2⟩ := (Res.bind_eq_ok _ _ _).1 h2
    have hR' := World.region_ok.1 hR'
    rw [hR1] at hR'
    cases hR'
    dsimp only at h2
    rw [← f3, hl] at h2
    cases h2; rfl
  have q3 : w₃.regions r₀ = w₂.regions r₀ := by
    unfold loadOptimalFile at h3
    obtain ⟨R', hR', h3⟩ := (Res.bind_eq_ok _ _ _).1 h3
    split at h3
    · split at h3
      · cases h3
      · obtain ⟨m, _, h3⟩ := (Res.bind_eq_ok _ _ _).1 h3
        obtain ⟨m', _, h3⟩ := (Res.bind_eq_ok _ _ _).1 h3
        cases h3; rfl
    · cases h3; rfl
  have q4 : w₄ = w₃ := by
    unfold loadDatasetMap at h4
    obtain ⟨R', hR', h4⟩ := (Res.bind_eq_ok _ _ _).1 h4
    have hR' := World.region_ok.1 hR'
    rw [hR3] at hR'
    cases hR'
    rw [if_neg (fun hh => hm (f2.trans hh))] at h4
    cases h4; rfl
  have hdd : dd = ds := by
    have := hR4
    rw [q4, q3, q2, hR1, Option.some.injEq, Region.mk.injEq] at this
    exact this.2.2.2.2.2.2.2.1.symm
  rw [f1, f4, hdd]
  exact ⟨e1, hds⟩

/-- The constructor reads the file of the dataset. -/
theorem createRegion_reads_file {w : World M} {nf n mt : ℤ} {name info yaml : Str}
    {x : ℕ × World M} (h : createRegion env w nf name n mt info yaml = .ok x)
    (hp : w.cfg.persistent = true) :
    ∃ ds, loadIfExists [] (w.files (datasetPath w.cfg (truncName name))) = .ok ds := by
  unfold createRegion at h
  obtain ⟨⟨r₀, w₀⟩, h0, h⟩ := (Res.bind_eq_ok _ _ _).1 h
  obtain ⟨w₁, h1, h⟩ := (Res.bind_eq_ok _ _ _).1 h
  unfold constructRegion at h0
  obtain ⟨⟨mn, ps⟩, g1, h0⟩ := (Res.bind_eq_ok _ _ _).1 h0
  obtain ⟨⟨mn', ps', info'⟩, g2, h0⟩ := (Res.bind_eq_ok _ _ _).1 h0
  obtain ⟨m₀, g3, h0⟩ := (Res.bind_eq_ok _ _ _).1 h0
  obtain ⟨m₀', g4, h0⟩ := (Res.bind_eq_ok _ _ _).1 h0
  obtain ⟨m₁, g5, hfin0⟩ := (Res.bind_eq_ok _ _ _).1 h0
  simp only [Except.ok.injEq, Prod.mk.injEq] at hfin0
  obtain ⟨hr0, hw0⟩ := hfin0
  obtain ⟨R₀, hR0, e1, e2, e3, e4⟩ : ∃ R₀ : Region, w₀.regions r₀ = some R₀ ∧
      R₀.name = truncName name ∧ R₀.dataset = [] ∧ w₀.files = w.files ∧ w₀.cfg = w.cfg := by
    refine ⟨_, by rw [← hw0, ← hr0]; exact Function.update_self .., rfl, rfl, ?_, ?_⟩
    · rw [← hw0]; rfl
    · rw [← hw0]; rfl
  unfold loadPersistent at h1
  rw [e4, hp] at h1
  simp only [Bool.not_true, Bool.false_eq_true, if_false] at h1
  obtain ⟨R', hR', h1⟩ := (Res.bind_eq_ok _ _ _).1 h1
  have hR' := World.region_ok.1 hR'
  rw [hR0] at hR'
  cases hR'
  obtain ⟨ds, hds, h1⟩ := (Res.bind_eq_ok _ _ _).1 h1
  rw [e1, e2, e3] at hds
  exact ⟨ds, hds⟩

/-! ## What destroying one region leaves alone -/

theorem drain_local {P : World M → Prop} {r : ℕ}
    (advance : ∀ w, P w → P w.advance)
    (waiting : ∀ w c, P w → P (w.emit (.waiting c)))
    (finish : ∀ w c m w', P w →
      collectContext env (w.emit (.finished r c m)) r c m = .ok w' → P w')
    (pending : ∀ w R cs, P w → w.regions r = some R → P (w.setRegion r { R with pending := cs }))
    {fuel : ℕ} {w w' : World M} (hw : P w) (h : drain env r fuel w = .ok w') : P w' := by
  have try1 : ∀ {w w' : World M} {c b}, P w → tryCollect env w r c = .ok (b, w') → P w' := by
    intro w w' c b hw h
    rcases tryCollect_ok h with ⟨n, rfl, _, _, rfl⟩ | ⟨n, m, rfl, _, _, h⟩ | ⟨r', m, rfl, _, h⟩
    · exact waiting _ _ (advance _ hw)
    · exact finish _ _ _ _ (advance _ hw) h
    · exact finish _ _ _ _ hw h
  have loop : ∀ {cs : List CtxPtr} {w w' : World M} {kept}, P w →
      collectLoop env r cs w = .ok (kept, w') → P w' := by
    intro cs
    induction cs with
    | nil => intro w w' kept hw h; simp only [collectLoop] at h; cases h; exact hw
    | cons c cs ih =>
      intro w w' kept hw h
      simp only [collectLoop] at h
      obtain ⟨⟨b, w₁⟩, h1, h⟩ := (Res.bind_eq_ok _ _ _).1 h
      obtain ⟨⟨k, w₂⟩, h2, h⟩ := (Res.bind_eq_ok _ _ _).1 h
      cases h
      exact ih (try1 hw h1) h2
  induction fuel generalizing w with
  | zero =>
    simp only [drain] at h
    obtain ⟨R, _, h⟩ := (Res.bind_eq_ok _ _ _).1 h
    split at h
    · cases h; exact hw
    · cases h
  | succ n ih =>
    simp only [drain] at h
    obtain ⟨R, _, h⟩ := (Res.bind_eq_ok _ _ _).1 h
    split at h
    · cases h; exact hw
    · obtain ⟨w₁, h1, h⟩ := (Res.bind_eq_ok _ _ _).1 h
      refine ih ?_ h
      obtain ⟨R, kept, w₂, R₁, _, h2, hR₁, rfl⟩ := collectPending_ok h1
      exact pending _ _ _ (loop hw h2) hR₁

/-- What the observer knows of the executions of a region. -/
def SameRows (r : ℕ) (o o' : Observer) : Prop :=
  o'.rows r = o.rows r ∧ o'.start r = o.start r ∧ o'.proper r = o.proper r

theorem SameRows.trans {r : ℕ} {o₁ o₂ o₃ : Observer} (h : SameRows r o₁ o₂) (h' : SameRows r o₂ o₃) :
    SameRows r o₁ o₃ :=
  ⟨h'.1.trans h.1, h'.2.1.trans h.2.1, h'.2.2.trans h.2.2⟩

theorem drain_rows {r r₀ fuel : ℕ} (hne : r₀ ≠ r) {w w' : World M}
    (h : drain env r fuel w = .ok w') : SameRows r₀ (observe w.log) (observe w'.log) := by
  refine drain_local (P := fun v => SameRows r₀ (observe w.log) (observe v.log))
    (fun v hv => hv) ?_ ?_ (fun v R cs hv _ => hv) ⟨rfl, rfl, rfl⟩ h
  · intro v c hv
    refine hv.trans ?_
    change SameRows r₀ _ (observe (v.log ++ [.waiting c]))
    rw [observe_snoc]
    exact ⟨rfl, rfl, rfl⟩
  · intro v c m v' hv h
    obtain ⟨R, m₀, C, l, h1⟩ := collectContext_ok h
    refine hv.trans ?_
    have : observe v'.log = (observe v.log).next (.finished r c m) := by
      rw [h1.log, observe_trained _ _ h1.events]; exact observe_snoc _ _
    rw [this]
    exact ⟨Function.update_of_ne hne _ _, rfl, Function.update_of_ne hne _ _⟩

/-- The file of a dataset. -/
def FileIs (cfg : Cfg) (n : Str) (x : Option Str) (w : World M) : Prop :=
  CfgIs cfg w ∧ w.files (datasetPath cfg n) = x

theorem FileIs.of {cfg : Cfg} {n : Str} {x : Option Str} {w w' : World M} (h : FileIs cfg n x w)
    (h1 : w'.cfg = w.cfg) (h2 : w'.files = w.files) : FileIs cfg n x w' :=
  ⟨h.1.of h1, by rw [h2]; exact h.2⟩

theorem trainAllWith_files {ds : Dataset} {rs : List ℕ} {w w' : World M}
    (h : trainAllWith env ds rs w = .ok w') : w'.files = w.files ∧ w'.cfg = w.cfg := by
  induction rs generalizing w with
  | nil => simp only [trainAllWith] at h; cases h; exact ⟨rfl, rfl⟩
  | cons r rs ih =>
    simp only [trainAllWith] at h
    obtain ⟨R, hR, h⟩ := (Res.bind_eq_ok _ _ _).1 h
    obtain ⟨m, hm, h⟩ := (Res.bind_eq_ok _ _ _).1 h
    obtain ⟨m', hm', h2⟩ := (Res.bind_eq_ok _ _ _).1 h
    exact ih (w := ((w.setModel r m').advance.emit (Ev.trained r ds))) h2

theorem FileIs.body {cfg : Cfg} (hc : cfg.Separate) {n : Str} {x : Option Str} {w w' : World M}
    {r : ℕ} {s : ℤ} (hw : FileIs cfg n x w) (h : trainBody env w r s = .ok w') :
    FileIs cfg n x w' := by
  obtain ⟨R, -, ⟨-, rfl⟩ | ⟨-, w₀, hb, hR, m, m', hm, -, hst⟩⟩ := trainBody_files h
  · exact hw
  · replace hw : FileIs cfg n x w₀ := by
      have hf := traceBest_files hb
      obtain ⟨F, rfl⟩ := traceBest_same hb
      exact ⟨hw.1, (hf _).trans hw.2⟩
    clear h hb
    generalize w₀ = w at *
    rcases hst with ⟨-, rfl⟩ | ⟨-, t, -, rfl⟩
    · exact hw.of rfl rfl
    · obtain ⟨⟨G, hG⟩, hf⟩ := hw
      have e1 : storePath w.cfg env.rank (env.ops.name m') R.name =
          storePath cfg env.rank (env.ops.name m') R.name := by rw [hG]; rfl
      have e2 : stepPath w.cfg env.rank (env.ops.name m') s R.name =
          stepPath cfg env.rank (env.ops.name m') s R.name := by rw [hG]; rfl
      refine ⟨⟨G, ?_⟩, ?_⟩
      · rw [write_cfg, write_cfg]; exact hG
      · rw [e1, e2, write_files_ne _ (datasetPath_ne hc), write_files_ne _ (datasetPath_ne_step hc)]
        exact hf

theorem FileIs.stable (env : Env M) (F : ℕ → Prop) {cfg : Cfg} (hc : cfg.Separate) (n : Str)
    (x : Option Str) : Stable env F (FileIs (M := M) cfg n x) where
  advance := fun _ hw => hw.of rfl rfl
  body := fun _ _ _ _ _ _ hw _ h => hw.body hc h
  single := fun _ _ _ _ hw _ h => hw.of (trainAllWith_files h).2 (trainAllWith_files h).1
  waiting := fun _ _ hw => hw.of rfl rfl
  finish := by
    intro w r c x' w' hw h
    obtain ⟨R, m, C, w₁, w₂, R₂, hR, hm, hC, h1, h2, h3, rfl⟩ := collectContext_steps h
    obtain ⟨f1, f2, f3, f4, f5, f6, f7, f8, f9, f10⟩ :=
      record_frame env (w.emit (.finished r c x')) r R m c C x'
    have a1 : FileIs cfg n x w₁ := autoTrain_induct (FileIs cfg n x)
      (fun _ _ _ _ hw h => hw.body hc h)
      (fun _ _ _ _ hw _ h => hw.of (trainAllWith_files h).2 (trainAllWith_files h).1)
      (FileIs.of (w := w) hw f1 f8) h1
    have a2 : FileIs cfg n x w₂ := by
      rcases destroyContext_ok h2 with ⟨-, rfl⟩ | ⟨n, -, -, rfl⟩
      · exact a1
      · exact a1.of rfl rfl
    exact a2.of rfl rfl
  pending := fun _ _ _ _ hw _ => hw.of rfl rfl

/-- Name and liveness of a region. -/
def NameIs (r : ℕ) (n : Str) (w : World M) : Prop := ∃ R, w.regions r = some R ∧ R.name = n

theorem NameIs.stable (env : Env M) (F : ℕ → Prop) (r : ℕ) (n : Str) :
    Stable env F (NameIs (M := M) r n) := by
  have upd : ∀ {w : World M} {r' : ℕ} {R₀ R₁ : Region}, NameIs r n w → w.regions r' = some R₀ →
      R₁.name = R₀.name → ∃ R, Function.update w.regions r' (some R₁) r = some R ∧ R.name = n := by
    rintro w r' R₀ R₁ ⟨R, hR, hn⟩ h0 h1
    by_cases heq : r = r'
    · subst heq
      rw [hR] at h0
      cases h0
      exact ⟨R₁, Function.update_self .., h1.trans hn⟩
    · exact ⟨R, by rw [Function.update_of_ne heq]; exact hR, hn⟩
  refine Stable.of ?_ ?_ ?_ ?_
  · rintro w l w' ht ⟨R, hR, hn⟩
    exact ⟨R, by rw [ht.regions]; exact hR, hn⟩
  · exact fun w c hw => hw
  · intro w r' c m w' hw h
    obtain ⟨R, m, C, l, h1⟩ := collectContext_ok h
    unfold NameIs
    rw [h1.regions]
    exact upd (w := w) hw h1.region rfl
  · exact fun w r' R cs hw hR => upd (R₁ := { R with pending := cs }) hw hR rfl

theorem destroyed_rows {r r₀ fuel : ℕ} (hne : r₀ ≠ r) {w w' : World M}
    (h : destroyRegion env w r fuel = .ok w') : SameRows r₀ (observe w.log) (observe w'.log) := by
  obtain ⟨w₁, R, hdr, hR, -, rfl⟩ := destroyRegion_ok h
  have h1 : SameRows r₀ (observe w.log) (observe w₁.log) :=
    drain_rows (w := { w with cfg := { w.cfg with globalPeriod := 0 } }) hne hdr
  refine h1.trans ?_
  rw [(afterDestroy_frame env w₁ r R).2.2.2.1, observe_snoc]
  exact ⟨rfl, rfl, rfl⟩

theorem destroyed_file {cfg : Cfg} (hc : cfg.Separate) {r fuel : ℕ} {n k : Str} {w w' : World M}
    (hw : CfgIs cfg w) (hk : NameIs r k w) (hne : n ≠ k)
    (h : destroyRegion env w r fuel = .ok w') :
    w'.files (datasetPath cfg n) = w.files (datasetPath cfg n) := by
  obtain ⟨w₁, R, hdr, hR, -, rfl⟩ := destroyRegion_ok h
  have h0 : FileIs cfg n (w.files (datasetPath cfg n))
      { w with cfg := { w.cfg with globalPeriod := 0 } } := by
    obtain ⟨G, hG⟩ := hw
    exact ⟨⟨0, by rw [hG]⟩, rfl⟩
  have h1 := (FileIs.stable env (fun _ => True) hc n _).kept.drain h0 hdr
  have h2 : NameIs r k w₁ := (NameIs.stable env (fun _ => True) r k).kept.drain
    (w := { w with cfg := { w.cfg with globalPeriod := 0 } }) hk hdr
  obtain ⟨R', hR', hn⟩ := h2
  rw [hR] at hR'
  cases hR'
  obtain ⟨⟨G, hG⟩, h1⟩ := h1
  have hne' : datasetPath cfg n ≠ datasetPath w₁.cfg R.name := by
    have : datasetPath w₁.cfg R.name = datasetPath cfg R.name := by rw [hG]; rfl
    rw [this, hn]
    exact fun h => hne (datasetPath_inj h)
  unfold afterDestroy
  dsimp only
  split
  · exact (write_files_ne (w := w₁) (some R.dataset.store) hne').trans h1
  · exact h1

/-- The file written for a region that is destroyed. -/
theorem destroyed_self (ha : Absorbing env.ops) {r fuel : ℕ} {k : Str} {w w' : World M}
    (hw : LogInv w ∧ DataInv env w) (hk : NameIs r k w) (hp : w.cfg.persistent = true)
    (hcw : env.canWrite (datasetPath w.cfg k) = true)
    (h : destroyRegion env w r fuel = .ok w') (hpr : (observe w'.log).proper r = true) :
    w'.files (datasetPath w.cfg k) =
      some (Dataset.store (insertRows ((observe w'.log).start r) ((observe w'.log).rows r))) := by
  obtain ⟨w₁, R, hdr, hR, -, rfl⟩ := destroyRegion_ok h
  have hI : LogInv w₁ ∧ DataInv env w₁ := (DataInv.invariant ha fun _ => True).toKept.drain
    ((DataInv.invariant ha fun _ => True).period _ hw) hdr
  obtain ⟨R', hR', hn⟩ : NameIs r k w₁ := (NameIs.stable env (fun _ => True) r k).kept.drain
    (w := { w with cfg := { w.cfg with globalPeriod := 0 } }) hk hdr
  rw [hR] at hR'
  cases hR'
  obtain ⟨G, hG⟩ : CfgIs w.cfg w₁ := (CfgIs.stable env (fun _ => True) w.cfg).kept.drain
      (w := { w with cfg := { w.cfg with globalPeriod := 0 } }) ⟨0, rfl⟩ hdr
  rw [(afterDestroy_frame env w₁ r R).2.2.2.1, observe_snoc] at hpr ⊢
  obtain ⟨m, hm⟩ := hI.1.model_of hR
  have hds := hI.2 r R m hR hm (Or.inl (by rw [hG]; exact hp)) hpr
  have e1 : datasetPath w₁.cfg R.name = datasetPath w.cfg k := by rw [hG, hn]; rfl
  unfold afterDestroy
  dsimp only
  rw [if_pos (by rw [hG]; exact hp), e1, hds]
  simp [World.write, Observer.next, World.emit, hcw]

/-! ## All regions at shutdown -/

theorem destroyRegion_registry {r fuel : ℕ} {w w' : World M}
    (h : destroyRegion env w r fuel = .ok w') : w'.registry = w.registry := by
  obtain ⟨w₁, R, hdr, hR, -, rfl⟩ := destroyRegion_ok h
  rw [(afterDestroy_frame env w₁ r R).2.2.2.2.2.2.2.2]
  have : Stable env (fun _ => True) (fun v : World M => v.registry = w.registry) := by
    refine Stable.of ?_ (fun _ _ h => h) ?_ (fun _ _ _ _ h _ => h)
    · intro w l w' ht hw; rw [ht.registry]; exact hw
    · intro w r c m w' hw h
      obtain ⟨R, m, C, l, h1⟩ := collectContext_ok h
      rw [h1.registry]; exact hw
  exact this.kept.drain (w := { w with cfg := { w.cfg with globalPeriod := 0 } }) rfl hdr

/-- What holds between the steps of the shutdown. -/
structure Closing (env : Env M) (cfg : Cfg) (w : World M) : Prop where
  data : LogInv w ∧ DataInv env w
  reg : LogInv w ∧ RegInv w
  cfg : CfgIs cfg w

theorem Closing.destroy (ha : Absorbing env.ops) {cfg : Cfg} {w w' : World M} {r fuel : ℕ}
    (hw : Closing env cfg w) (h : destroyRegion env w r fuel = .ok w') : Closing env cfg w' :=
  ⟨(DataInv.invariant ha fun _ => True).toStepwise.destroyRegion hw.data h,
    (RegInv.invariant env fun _ => True).toStepwise.destroyRegion hw.reg h,
    (CfgIs.invariant env (fun _ => True) cfg).toStepwise.destroyRegion hw.cfg h⟩

theorem Closing.name {cfg : Cfg} {w w' : World M} {r fuel : ℕ} {k : Str}
    (hw : Closing env cfg w) (hk : (k, r) ∈ w.registry)
    (h : destroyRegion env w r fuel = .ok w') : NameIs r k w := by
  unfold destroyRegion at h
  obtain ⟨R, hR, -⟩ := (Res.bind_eq_ok _ _ _).1 h
  have hR := World.region_ok.1 hR
  exact ⟨R, hR, hw.reg.2.name _ _ _ hk hR⟩

/-- Destroying other regions leaves the file and the rows of a region. -/
theorem Closing.others (ha : Absorbing env.ops) {cfg : Cfg} (hc : cfg.Separate)
    {L : List (Str × ℕ)} {w w' : World M} {fuel : ℕ} {n : Str} {r₀ : ℕ}
    (hw : Closing env cfg w) (hL : ∀ x ∈ L, x ∈ w.registry)
    (hn : ∀ x ∈ L, n ≠ x.1) (hr : ∀ x ∈ L, r₀ ≠ x.2)
    (h : forRegions (fun w r => destroyRegion env w r fuel) (L.map Prod.snd) w = .ok w') :
    w'.files (datasetPath cfg n) = w.files (datasetPath cfg n) ∧
      SameRows r₀ (observe w.log) (observe w'.log) := by
  induction L generalizing w with
  | nil => simp only [List.map_nil, forRegions] at h; cases h; exact ⟨rfl, rfl, rfl, rfl⟩
  | cons x L ih =>
    simp only [List.map_cons, forRegions] at h
    obtain ⟨w₁, h1, h2⟩ := (Res.bind_eq_ok _ _ _).1 h
    obtain ⟨k, r⟩ := x
    have hk := hw.name (hL _ List.mem_cons_self) h1
    have a := destroyed_file hc hw.cfg hk (hn _ List.mem_cons_self) h1
    have b := destroyed_rows (hr _ List.mem_cons_self) h1
    obtain ⟨c, d⟩ := ih (hw.destroy ha h1)
      (fun x hx => by rw [destroyRegion_registry h1]; exact hL _ (List.mem_cons_of_mem _ hx))
      (fun x hx => hn _ (List.mem_cons_of_mem _ hx))
      (fun x hx => hr _ (List.mem_cons_of_mem _ hx)) h2
    exact ⟨c.trans a, b.trans d⟩

theorem Closing.all (ha : Absorbing env.ops) {cfg : Cfg} (hc : cfg.Separate)
    (hp : cfg.persistent = true) {L : List (Str × ℕ)} {w w' : World M} {fuel : ℕ}
    (hw : Closing env cfg w) (hL : ∀ x ∈ L, x ∈ w.registry)
    (hn : (L.map Prod.fst).Nodup) (hr : (L.map Prod.snd).Nodup)
    (h : forRegions (fun w r => destroyRegion env w r fuel) (L.map Prod.snd) w = .ok w')
    {n : Str} {r : ℕ} (hm : (n, r) ∈ L) (hcw : env.canWrite (datasetPath cfg n) = true)
    (hpr : (observe w'.log).proper r = true) :
    w'.files (datasetPath cfg n) =
      some (Dataset.store (insertRows ((observe w'.log).start r) ((observe w'.log).rows r))) := by
  induction L generalizing w with
  | nil => cases hm
  | cons x L ih =>
    simp only [List.map_cons, forRegions] at h
    simp only [List.map_cons, List.nodup_cons] at hn hr
    obtain ⟨w₁, h1, h2⟩ := (Res.bind_eq_ok _ _ _).1 h
    have hL' : ∀ x ∈ L, x ∈ w₁.registry := fun x hx => by
      rw [destroyRegion_registry h1]; exact hL _ (List.mem_cons_of_mem _ hx)
    rcases List.mem_cons.1 hm with rfl | hm
    · have hk := hw.name (hL _ List.mem_cons_self) h1
      obtain ⟨a, b, c, d⟩ := (hw.destroy ha h1).others ha hc (n := n) (r₀ := r) hL'
        (fun x hx h => hn.1 (List.mem_map.2 ⟨x, hx, h.symm⟩))
        (fun x hx h => hr.1 (List.mem_map.2 ⟨x, hx, h.symm⟩)) h2
      obtain ⟨G, hG⟩ := hw.cfg
      have := destroyed_self ha hw.data hk (by rw [hG]; exact hp) (by rw [hG]; exact hcw) h1
        (by rw [← d]; exact hpr)
      rw [a, b, c, ← this, hG]
      rfl
    · exact ih (hw.destroy ha h1) hL' hn.2 hr.2 h2 hm

end Apollo
