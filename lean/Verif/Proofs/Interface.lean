import Verif.Spec.Interface
import Verif.Proofs.RegionHush

/-!
# The state of the library while it is used as specified: definitions and training
-/

namespace Apollo

open Spec

variable {M : Type}

/-- The entries of a dataset have `k` features and policies below `n`. -/
def DataOk (fits : ℚ → Prop) (k : ℕ) (n : ℤ) (ds : Dataset) : Prop :=
  ∀ e ∈ ds, (ofLex e.1).1.length = k ∧ (0 ≤ (ofLex e.1).2 ∧ (ofLex e.1).2 < n) ∧
    ∀ v ∈ (ofLex e.1).1, fits v

/-- The context has `k` features and a policy below `n`, and was begun. -/
def CtxOk (fits : ℚ → Prop) (k : ℕ) (n : ℤ) (C : Ctx) : Prop :=
  C.features.length = k ∧ (0 ≤ C.policy ∧ C.policy < n) ∧ (∀ v ∈ C.features, fits v) ∧
    C.start.isSome

/-- Features fit into an int. -/
def Whole (ρ : UseRules) : Prop := ∀ s v, ρ.fits s v → FitsInt v

/-- What is needed of the models, the surroundings and the known model strings.  `Good s k n ds m`:
a model `m` for the model string `s`, `k` features and `n` policies whose region has the data `ds`. -/
structure Safe (env : Env M) (Good : Str → ℕ → ℤ → Dataset → M → Prop) (ρ : UseRules) (pm : Str) : Prop where
  grow : ∀ {s k n ds m}, Good s k n ds m → ∀ f p x, Good s k n (ds.insert f p x) m
  index : ∀ {s k n ds m f}, 1 ≤ n → Good s k n ds m → f.length = k → (∀ v ∈ f, ρ.fits s v) →
    ∃ p m', env.ops.getIndex m f = .ok (p, m') ∧ (0 ≤ p ∧ p < n) ∧ Good s k n ds m'
  train : ∀ {s k n ds m}, 1 ≤ n → Good s k n ds m → DataOk (ρ.fits s) k n ds → ds.length ≠ 0 →
    ds.length ≤ ρ.most → ∀ t, ∃ m', env.ops.train t ds m = .ok m' ∧ Good s k n ds m' ∧
      (Whole ρ → ∃ s, env.ops.store m' = .ok s)
  makes : ∀ {name info n nf}, ρ.known name info n → 1 ≤ n → 0 ≤ nf → ∀ t, ∃ mn ps mn' ps' info' m,
    parsePolicyModel (if info = [] then pm else info) = .ok (mn, ps) ∧
    resolveStaticRegion (truncName name) mn ps (if info = [] then pm else info) = .ok (mn', ps', info') ∧
    env.ops.create t mn' nf n ps' = .ok m ∧ ps'.find "load".toList = none ∧
    ps'.find "load-dataset".toList = none ∧ mn' ≠ "Optimal".toList ∧ mn' ≠ "DatasetMap".toList ∧
    Good info nf.toNat n [] m
  poll : ∀ t l i, env.poll t l i ≠ .failed
  async : ρ.async → env.async

/-- The settings under which the interface is used. -/
structure CfgOk (env : Env M) (ρ : UseRules) (pm : Str) (cfg : Cfg) : Prop where
  model : cfg.policyModel = pm
  collective : cfg.collective = false
  single : cfg.single = false
  regionModel : cfg.regionModel = true
  retrain : cfg.retrain = false
  persistent : cfg.persistent = false
  best : cfg.traceBest → Whole ρ
  policy : cfg.tracePolicy → Whole ρ
  store : cfg.storeModels → Whole ρ
  csv : cfg.traceCsv → ∀ p, env.canWrite p

/-- The objects of a region the user knows; `P` are its pending contexts. -/
structure RegOk (Good : Str → ℕ → ℤ → Dataset → M → Prop) (ρ : UseRules) (w : World M) (P : List CtxPtr)
    (r : ℕ) (g : RegUse) (R : Region) (m : M) (C : Ctx) : Prop where
  region : w.regions r = some R
  model : w.models r = some m
  ctx : w.ctxs (.sync r) = some C
  pos : 1 ≤ g.policies
  policy : 0 ≤ C.policy ∧ C.policy < g.policies
  idx : R.idx = g.begins
  data : DataOk (ρ.fits g.model) g.features g.policies R.dataset
  good : Good g.model g.features g.policies R.dataset m
  size : R.dataset.length + P.length ≤ g.ends
  most : g.ends ≤ ρ.most
  current : ∀ c, g.current = some c → R.current = some c

/-- The state of the process agrees with what the user knows.  `P` are the pending contexts of each
region; the list of the region `x`, if any, is under revision. -/
structure Sane (env : Env M) (Good : Str → ℕ → ℤ → Dataset → M → Prop) (ρ : UseRules) (pm : Str) (u : Use)
    (P : ℕ → List CtxPtr) (x : Option ℕ) (w : World M) : Prop where
  regs : ∀ r g, u.regs r = some g → ∃ R m C, RegOk Good ρ w (P r) r g R m C
  fresh : ∀ r g, u.regs r = some g → r < u.nregs
  nregs : w.nextRegion = u.nregs
  nctx : w.nextCtx = u.nctx
  opens : ∀ c r k g, u.opens c = some (r, k) → u.regs r = some g →
    (∃ C, w.ctxs c = some C ∧ CtxOk (ρ.fits g.model) k g.policies C) ∧
      (c = .sync r ∨ ∃ i, c = .heap i ∧ i < u.nctx)
  pend : ∀ r g c, u.regs r = some g → c ∈ P r → u.opens c = none ∧
    (∃ i, c = .heap i ∧ i < u.nctx) ∧
    ∃ C, w.ctxs c = some C ∧ CtxOk (ρ.fits g.model) g.features g.policies C
  nodup : ∀ r g, u.regs r = some g → (P r).Nodup
  disj : ∀ r r' g g' c, u.regs r = some g → u.regs r' = some g' → c ∈ P r → c ∈ P r' → r = r'
  held : ∀ r g R, u.regs r = some g → some r ≠ x → w.regions r = some R → R.pending = P r
  registry : u.destroyed = false → ∀ r ∈ w.registry.map Prod.snd, ∃ g, u.regs r = some g
  distinct : (w.registry.map Prod.snd).Nodup
  bound : ∀ r ∈ w.registry.map Prod.snd, r < u.nregs
  period : u.destroyed = true → w.cfg.globalPeriod = 0
  cfg : CfgOk env ρ pm w.cfg
  older : ∀ c r k, u.opens c = some (r, k) → r < u.nregs

variable {env : Env M} {Good : Str → ℕ → ℤ → Dataset → M → Prop} {ρ : UseRules} {pm : Str} {u : Use}
  {P : ℕ → List CtxPtr} {x : Option ℕ} {w : World M}

/-- Nothing else of the state matters. -/
theorem Sane.same (hw : Sane env Good ρ pm u P x w) {w' : World M} (h1 : w'.cfg = w.cfg)
    (h2 : w'.regions = w.regions) (h3 : w'.models = w.models) (h4 : w'.nextRegion = w.nextRegion)
    (h5 : w'.ctxs = w.ctxs) (h6 : w'.nextCtx = w.nextCtx) (h7 : w'.registry = w.registry) :
    Sane env Good ρ pm u P x w' := by
  cases w
  cases w'
  simp only at h1 h2 h3 h4 h5 h6 h7
  subst h1 h2 h3 h4 h5 h6 h7
  exact ⟨fun r g h => by
    obtain ⟨R, m, C, h⟩ := hw.regs r g h
    exact ⟨R, m, C, h.1, h.2, h.3, h.4, h.5, h.6, h.7, h.8, h.9, h.10, h.11⟩, hw.2, hw.3, hw.4, hw.5,
    hw.6, hw.7, hw.8, hw.9, hw.10, hw.11, hw.12, hw.13, hw.14, hw.15⟩

theorem Sane.emit (hw : Sane env Good ρ pm u P x w) (e : Ev) :
    Sane env Good ρ pm u P x (w.emit e) := hw.same rfl rfl rfl rfl rfl rfl rfl

theorem Sane.advance (hw : Sane env Good ρ pm u P x w) :
    Sane env Good ρ pm u P x w.advance := hw.same rfl rfl rfl rfl rfl rfl rfl

theorem Sane.write (hw : Sane env Good ρ pm u P x w) (p : Str) (s : Option Str) :
    Sane env Good ρ pm u P x (w.write env p s) := by
  unfold World.write
  split
  · exact hw
  · split
    · exact hw.same rfl rfl rfl rfl rfl rfl rfl
    · exact hw

/-- A region gets another model. -/
theorem Sane.setModel (hw : Sane env Good ρ pm u P x w) {r : ℕ} {g : RegUse} (hg : u.regs r = some g)
    {m' : M} (hm : ∀ R, w.regions r = some R → Good g.model g.features g.policies R.dataset m') :
    Sane env Good ρ pm u P x (w.setModel r m') := by
  refine ⟨fun r' g' h' => ?_, hw.2, hw.3, hw.4, hw.5, hw.6, hw.7, hw.8, hw.9, hw.10, hw.11, hw.12,
    hw.13, hw.14, hw.15⟩
  obtain ⟨R, m, C, h⟩ := hw.regs r' g' h'
  by_cases hr : r' = r
  · subst hr
    rw [hg] at h'
    cases h'
    exact ⟨R, m', C, h.1, Function.update_self .., h.3, h.4, h.5, h.6, h.7, hm R h.1, h.9, h.10, h.11⟩
  · exact ⟨R, m, C, h.1, by rw [← h.2]; exact Function.update_of_ne hr .., h.3, h.4, h.5, h.6, h.7, h.8,
      h.9, h.10, h.11⟩

/-! ## Training -/

theorem bestText_safe {fits : ℚ → Prop} {k : ℕ} {n : ℤ} {ds : Dataset} (hd : DataOk fits k n ds)
    (h : ∀ v, fits v → FitsInt v) (rank : ℤ) (name : Str) : ∃ s, bestText rank name ds = .ok s := by
  rcases bestText_cases rank name ds with h' | ⟨h', -⟩
  · exact h'
  · exact absurd (fun e he v hv => h v ((hd e he).2.2 v hv)) h'

theorem trainBody_safe (hs : Safe env Good ρ pm) (hw : Sane env Good ρ pm u P x w) {r : ℕ}
    {g : RegUse} (hg : u.regs r = some g) (s : ℤ) :
    ∃ w', trainBody env w r s = .ok w' ∧ Sane env Good ρ pm u P x w' := by
  obtain ⟨R, m, C, h⟩ := hw.regs r g hg
  have hb : ∃ w₁, traceBest env w R s = .ok w₁ ∧ Sane env Good ρ pm u P x w₁ ∧
      w₁.regions = w.regions ∧ w₁.models = w.models ∧ w₁.cfg = w.cfg := by
    unfold traceBest
    split
    next hb =>
      obtain ⟨t, ht⟩ := bestText_safe h.data (hw.cfg.best hb _) env.rank R.name
      rw [ht]
      refine ⟨_, rfl, hw.write _ _, ?_, write_models .., write_cfg ..⟩
      unfold World.write
      split
      · rfl
      · split <;> rfl
    · exact ⟨w, rfl, hw, rfl, rfl, rfl⟩
  obtain ⟨w₁, hb1, hw1, e1, e2, e3⟩ := hb
  unfold trainBody
  rw [World.region_ok.2 h.region, Res.bind_ok]
  dsimp only
  by_cases h0 : R.dataset.size = 0
  · rw [if_pos h0]; exact ⟨w, rfl, hw⟩
  · rw [if_neg h0, hw.cfg.regionModel, if_neg (by simp), hb1, Res.bind_ok,
      World.model_ok.2 (e2 ▸ h.model), Res.bind_ok]
    obtain ⟨m', t1, t2, t3⟩ := hs.train h.pos h.good h.data h0
      (le_trans (le_trans (Nat.le_add_right _ _) h.size) h.most) w₁.tick
    rw [t1, Res.bind_ok]
    have hw2 : Sane env Good ρ pm u P x
        (((w₁.setModel r m').advance).emit (.trained r R.dataset)) :=
      ((hw1.setModel hg fun R' hR' => by
        rw [e1, h.region] at hR'; cases hR'; exact t2).advance).emit _
    have hret : (((w₁.setModel r m').advance).emit (.trained r R.dataset)).cfg.retrain = false :=
      hw2.cfg.retrain
    rw [hret, if_neg (by simp)]
    split
    next hst =>
      obtain ⟨s', hs'⟩ := t3 (hw2.cfg.store hst)
      rw [hs', Res.bind_ok]
      exact ⟨_, rfl, (hw2.write _ _).write _ _⟩
    · exact ⟨_, rfl, hw2⟩

theorem trainNoCollect_safe (hs : Safe env Good ρ pm) (hw : Sane env Good ρ pm u P x w) {r : ℕ}
    {g : RegUse} (hg : u.regs r = some g) (s : ℤ) (f : Bool) :
    ∃ w', trainNoCollect env w r s f = .ok w' ∧ Sane env Good ρ pm u P x w' := by
  obtain ⟨R, m, C, h⟩ := hw.regs r g hg
  unfold trainNoCollect
  rw [World.model_ok.2 h.model, Res.bind_ok]
  split
  · exact ⟨w, rfl, hw⟩
  · exact trainBody_safe hs hw hg s

theorem forRegions_safe {body : World M → ℕ → Res (World M)} (I : World M → Prop) : ∀ (l : List ℕ),
    (∀ w r, I w → r ∈ l → ∃ w', body w r = .ok w' ∧ I w') → ∀ w, I w →
    ∃ w', forRegions body l w = .ok w' ∧ I w' := by
  intro l
  induction l with
  | nil => intro _ w hw; exact ⟨w, rfl, hw⟩
  | cons r l ih =>
    intro h w hw
    obtain ⟨w₁, h1, h2⟩ := h w r hw List.mem_cons_self
    obtain ⟨w₂, h3, h4⟩ := ih (fun w r hw hr => h w r hw (List.mem_cons_of_mem _ hr)) w₁ h2
    refine ⟨w₂, ?_, h4⟩
    unfold forRegions
    rw [h1, Res.bind_ok]
    exact h3

theorem autoTrain_safe (hs : Safe env Good ρ pm) (hw : Sane env Good ρ pm u P x w) {r : ℕ}
    {g : RegUse} (hg : u.regs r = some g) :
    ∃ w', autoTrain env w r = .ok w' ∧ Sane env Good ρ pm u P x w' := by
  obtain ⟨R, m, C, h⟩ := hw.regs r g hg
  unfold autoTrain
  rw [World.region_ok.2 h.region, Res.bind_ok, World.model_ok.2 h.model, Res.bind_ok]
  split
  · exact ⟨w, rfl, hw⟩
  split
  next hp =>
    have hd : u.destroyed = false := by
      by_contra hd
      exact hp.1 (hw.period (by simpa using hd))
    unfold apolloTrainNoCollect apolloTrainWith
    rw [hw.cfg.collective, hw.cfg.single, if_neg (by simp), if_neg (by simp)]
    refine forRegions_safe (Sane env Good ρ pm u P x) _ (fun w' r' hw' hr' => ?_) w hw
    obtain ⟨g', hg'⟩ := hw.registry hd r' hr'
    obtain ⟨R', m', C', h'⟩ := hw'.regs r' g' hg'
    unfold trainNoCollectOf
    rw [World.region_ok.2 h'.region, Res.bind_ok]
    exact trainNoCollect_safe hs hw' hg' _ _
  split
  · exact trainNoCollect_safe hs hw hg _ _
  split
  · exact trainNoCollect_safe hs hw hg _ _
  · exact ⟨w, rfl, hw⟩

end Apollo
