import Verif.Proofs.RegionSolo
import Verif.Proofs.RegionFiles
import Verif.Spec.Replay

/-!
# Regions follow their events

Helpers for C113.
-/

namespace Apollo

open Spec

variable {M : Type}

/-- A predicate kept by training one region, and by training all with the same data, is kept by the training at
the end of an execution. -/
theorem autoTrain_keeps {env : Env M} {P : World M → Prop}
    (body : ∀ w r s w', P w → trainBody env w r s = .ok w' → P w')
    (single : ∀ w ds rs w', P w → w.cfg.single = true → trainAllWith env ds rs w = .ok w' → P w')
    {w w' : World M} {r : ℕ} (hw : P w) (h : autoTrain env w r = .ok w') : P w' := by
  have noCollect : ∀ w r s w', P w → trainNoCollect env w r s false = .ok w' → P w' := by
    intro w r s w' hw h
    unfold trainNoCollect at h
    obtain ⟨m, -, h⟩ := (Res.bind_eq_ok _ _ _).1 h
    split at h
    · cases h; exact hw
    · exact body _ _ _ _ hw h
  unfold autoTrain at h
  obtain ⟨R, hR, h⟩ := (Res.bind_eq_ok _ _ _).1 h
  obtain ⟨m, hm, h⟩ := (Res.bind_eq_ok _ _ _).1 h
  split at h
  · cases h; exact hw
  · split at h
    · unfold apolloTrainNoCollect apolloTrainWith at h
      split at h
      · cases h
      · split at h
        next hs =>
          obtain ⟨ds, hds, h⟩ := (Res.bind_eq_ok _ _ _).1 h
          exact single _ _ _ _ hw hs h
        · refine forRegions_induct P ?_ hw h
          intro w₁ r₁ w₂ hw₁ h2
          unfold trainNoCollectOf at h2
          obtain ⟨R, hR, h2⟩ := (Res.bind_eq_ok _ _ _).1 h2
          exact noCollect _ _ _ _ hw₁ h2
    · split at h
      · exact noCollect _ _ _ _ hw h
      · split at h
        · exact noCollect _ _ _ _ hw h
        · cases h; exact hw

/-- What region `r` holds follows from the events since `h`. -/
structure Follow (env : Env M) (cfg : Cfg) (mt : ℤ) (r : ℕ) (h : List Ev) (s₀ : HeldState M) (w : World M) :
    Prop where
  lt : r < w.nextRegion
  single : w.cfg.single = cfg.single
  persistent : w.cfg.persistent = cfg.persistent
  story : ∃ l s, w.log = h ++ l ∧ Replay (rules env cfg mt) cfg.single r h s₀ l s ∧
    (∀ m, w.models r = some m → m = s.model) ∧ ∀ R, w.regions r = some R → R.dataset = s.data

section

variable {env : Env M} {cfg : Cfg} {mt : ℤ} {r : ℕ} {h : List Ev} {s₀ : HeldState M}

/-- Steps without an event for the region. -/
theorem Follow.same {w w' : World M} (hw : Follow env cfg mt r h s₀ w) (hn : w.nextRegion ≤ w'.nextRegion)
    (hs : w'.cfg.single = w.cfg.single) (hp : w'.cfg.persistent = w.cfg.persistent) {l : List Ev}
    (hl : w'.log = w.log ++ l)
    (he : ∀ e ∈ l, (∀ c p, e ≠ .chose r c p) ∧ (∀ ds, e ≠ .trained r ds) ∧ ∀ c x, e ≠ .finished r c x)
    (hm : ∀ m, w'.models r = some m → w.models r = some m)
    (hr : ∀ R, w'.regions r = some R → ∃ R', w.regions r = some R' ∧ R.dataset = R'.dataset) :
    Follow env cfg mt r h s₀ w' := by
  obtain ⟨l₀, s, h1, h2, h3, h4⟩ := hw.story
  refine ⟨lt_of_lt_of_le hw.lt hn, hs.trans hw.single, hp.trans hw.persistent, l₀ ++ l, s, ?_, ?_, fun m h => h3 m (hm m h), ?_⟩
  · rw [hl, h1, List.append_assoc]
  · clear hl h1 h3 h4
    induction l using List.reverseRecOn with
    | nil => simpa using h2
    | append_singleton l e ih =>
      rw [← List.append_assoc]
      obtain ⟨a, b, c⟩ := he e (by simp)
      exact .event (ih fun e h => he e (by simp [h])) (.other e a b c)
  · intro R hR
    obtain ⟨R', h5, h6⟩ := hr R hR
    rw [h6]
    exact h4 R' h5

theorem Follow.quiet {w w' : World M} (hw : Follow env cfg mt r h s₀ w) (hn : w.nextRegion ≤ w'.nextRegion)
    (hs : w'.cfg.single = w.cfg.single) (hp : w'.cfg.persistent = w.cfg.persistent)
    (hl : w'.log = w.log) (hm : ∀ m, w'.models r = some m → w.models r = some m)
    (hr : ∀ R, w'.regions r = some R → ∃ R', w.regions r = some R' ∧ R.dataset = R'.dataset) :
    Follow env cfg mt r h s₀ w' :=
  hw.same hn hs hp (l := []) (by rw [hl, List.append_nil]) (by simp) hm hr

/-- One training. -/
theorem Follow.train {w w' : World M} (hw : Follow env cfg mt r h s₀ w) {r₁ : ℕ} {ds : Dataset} {t : ℕ} {m m' : M}
    (hn : w'.nextRegion = w.nextRegion) (hc : w'.cfg = w.cfg) (hr : w'.regions = w.regions)
    (hl : w'.log = w.log ++ [.trained r₁ ds]) (hm : w.models r₁ = some m)
    (ht : env.ops.train t ds m = .ok m') (hm' : w'.models r₁ = some m')
    (ho : ∀ r', r' ≠ r₁ → w'.models r' = w.models r')
    (hd : w.cfg.single = false → ∃ R, w.regions r₁ = some R ∧ R.dataset = ds) : Follow env cfg mt r h s₀ w' := by
  by_cases heq : r₁ = r
  · subst heq
    obtain ⟨l, s, h1, h2, h3, h4⟩ := hw.story
    have e := h3 m hm
    subst e
    refine ⟨by rw [hn]; exact hw.lt, by rw [hc]; exact hw.single, by rw [hc]; exact hw.persistent,
      l ++ [.trained r₁ ds], { s with model := m' }, by rw [hl, h1, List.append_assoc], .event h2 (.trained ds t m' ?_ ht), ?_, ?_⟩
    · intro hs
      obtain ⟨R, hR, rfl⟩ := hd (by rw [hw.single]; exact hs)
      exact h4 R hR
    · intro m₁ h5
      rw [hm'] at h5
      cases h5
      rfl
    · intro R hR
      rw [hr] at hR
      exact h4 R hR
  · refine hw.same (le_of_eq hn.symm) (by rw [hc]) (by rw [hc]) hl ?_ ?_ ?_
    · intro e he
      rw [List.mem_singleton] at he
      subst he
      simp [heq]
    · intro m₁ h1
      rw [← ho r (Ne.symm heq)]
      exact h1
    · intro R hR
      exact ⟨R, by rw [← hr]; exact hR, rfl⟩

theorem Follow.body {w w' : World M} {r₁ : ℕ} {st : ℤ} (hw : Follow env cfg mt r h s₀ w)
    (hb : trainBody env w r₁ st = .ok w') : Follow env cfg mt r h s₀ w' := by
  obtain ⟨R, hR, ⟨-, rfl⟩ | ⟨-, ht, m, m', h1, h2, h3⟩⟩ := trainBody_exact hb
  · exact hw
  · refine hw.train ht.nextRegion ht.cfg ht.regions ht.log h1 h2 h3 ?_ fun _ => ⟨R, hR, rfl⟩
    intro r' hne
    exact ht.models r' fun ds hd => by
      rw [List.mem_singleton] at hd
      cases hd
      exact hne rfl

theorem Follow.all {ds : Dataset} {rs : List ℕ} {w w' : World M} (hw : Follow env cfg mt r h s₀ w)
    (hs : w.cfg.single = true) (hb : trainAllWith env ds rs w = .ok w') : Follow env cfg mt r h s₀ w' := by
  induction rs generalizing w with
  | nil => simp only [trainAllWith] at hb; cases hb; exact hw
  | cons r₁ rs ih =>
    simp only [trainAllWith] at hb
    obtain ⟨R, hR, hb⟩ := (Res.bind_eq_ok _ _ _).1 hb
    obtain ⟨m, hm, hb⟩ := (Res.bind_eq_ok _ _ _).1 hb
    obtain ⟨m', hm', hb⟩ := (Res.bind_eq_ok _ _ _).1 hb
    refine ih (w := (w.setModel r₁ m').advance.emit (.trained r₁ ds)) ?_ hs hb
    refine hw.train rfl rfl rfl rfl (World.model_ok.1 hm) hm' (by simp [World.emit, World.advance, World.setModel]) ?_ (by simp [hs])
    intro r' hne
    simp [World.emit, World.advance, World.setModel, hne]

theorem Follow.auto {w w' : World M} {r₁ : ℕ} (hw : Follow env cfg mt r h s₀ w)
    (hb : autoTrain env w r₁ = .ok w') : Follow env cfg mt r h s₀ w' :=
  autoTrain_keeps (fun _ _ _ _ hw h => Follow.body hw h) (fun _ _ _ _ hw hs h => Follow.all hw hs h) hw hb

/-- The end of an execution. -/
theorem Follow.finish {w w' : World M} {r₁ : ℕ} {c : CtxPtr} {x : ℚ} (hI : LogInv w) (hw : Follow env cfg mt r h s₀ w)
    (hb : collectContext env (w.emit (.finished r₁ c x)) r₁ c x = .ok w') : Follow env cfg mt r h s₀ w' := by
  obtain ⟨R, m, C, w₁, w₂, R₂, hR, hm, hC, h1, h2, h3, rfl⟩ := collectContext_steps hb
  obtain ⟨f1, f2, f3, f4, f5, f6, f7, f8, f9, f10⟩ := record_frame env (w.emit (.finished r₁ c x)) r₁ R m c C x
  have hreg := record_regions env (w.emit (.finished r₁ c x)) r₁ R m c C x
  have hR' : w.regions r₁ = some R := hR
  have hm' : w.models r₁ = some m := hm
  have hC' : w.ctxs c = some C := hC
  have a1 : Follow env cfg mt r h s₀ (record env (w.emit (.finished r₁ c x)) r₁ R m c C x) := by
    generalize record env (w.emit (.finished r₁ c x)) r₁ R m c C x = v at *
    by_cases heq : r₁ = r
    · subst heq
      obtain ⟨l, s, h4, h5, h6, h7⟩ := hw.story
      have e := h6 m hm'
      have e2 := h7 R hR'
      subst e
      refine ⟨by rw [f3]; exact hw.lt, by rw [f1]; exact hw.single, by rw [f1]; exact hw.persistent,
        l ++ [.finished r₁ c x], _, ?_, .event h5 (.finished c x C.features C.policy ?_ ?_ _ rfl), ?_, ?_⟩
      · rw [f9, ← List.append_assoc, ← h4]; rfl
      · rw [← h4]; exact hI.feats c C hC'
      · rw [← h4]; exact hI.pol c C hC'
      · intro m₁ hm₁
        rw [f2] at hm₁
        exact h6 m₁ hm₁
      · intro R₁ hR₁
        rw [hreg, Function.update_self] at hR₁
        cases hR₁
        have hp : (w.emit (.finished r₁ c x)).cfg.persistent = cfg.persistent := hw.persistent
        have hl : learns env (w.emit (.finished r₁ c x)) s.model = true ↔
            cfg.persistent = true ∨ env.ops.isTrainable s.model = true := by simp [learns, hp]
        simp only [recRegion, rules, ← e2]
        exact if_congr hl rfl rfl
    · refine hw.same (le_of_eq f3.symm) (by rw [f1]; rfl) (by rw [f1]; rfl) (l := [.finished r₁ c x]) (by rw [f9]; rfl) ?_ ?_ ?_
      · intro e he
        rw [List.mem_singleton] at he
        subst he
        simp [heq]
      · intro m₁ h4; rw [f2] at h4; exact h4
      · intro R₁ h4
        rw [hreg, Function.update_of_ne (Ne.symm heq)] at h4
        exact ⟨R₁, h4, rfl⟩
  have a2 := a1.auto h1
  have a3 : Follow env cfg mt r h s₀ w₂ := by
    rcases destroyContext_ok h2 with ⟨rfl, rfl⟩ | ⟨n, rfl, _, rfl⟩
    · exact a2
    · exact a2.quiet le_rfl rfl rfl rfl (fun _ h => h) fun R h => ⟨R, h, rfl⟩
  exact a3.quiet le_rfl rfl rfl rfl (fun _ h => h) (update_dataset h3 rfl rfl)

theorem Follow.stable (env : Env M) (F : ℕ → Prop) :
    Stable env F (fun w : World M => LogInv w ∧ Follow env cfg mt r h s₀ w) where
  advance := fun w hw => ⟨(LogInv.stable env F).advance w hw.1,
    hw.2.quiet le_rfl rfl rfl rfl (fun _ h => h) fun R h => ⟨R, h, rfl⟩⟩
  body := fun w₀ w r₁ s w' hw₀ hw hF hb => ⟨(LogInv.stable env F).body w₀ w r₁ s w' hw₀.1 hw.1 hF hb, hw.2.body hb⟩
  single := fun w ds rs w' hw hs hb => ⟨(LogInv.stable env F).single w ds rs w' hw.1 hs hb, hw.2.all hs hb⟩
  waiting := fun w c hw => ⟨(LogInv.stable env F).waiting w c hw.1,
    hw.2.same le_rfl rfl rfl rfl (by simp) (fun _ h => h) fun R h => ⟨R, h, rfl⟩⟩
  finish := fun w r₁ c x w' hw hb => ⟨(LogInv.stable env F).finish w r₁ c x w' hw.1 hb, hw.2.finish hw.1 hb⟩
  pending := fun w r₁ R cs hw hR => ⟨(LogInv.stable env F).pending w r₁ R cs hw.1 hR,
    hw.2.quiet le_rfl rfl rfl rfl (fun _ h => h) (update_dataset hR rfl rfl)⟩

/-- Another region is created. -/
theorem Follow.created {w w' : World M} {nf n mt₁ : ℤ} {name info yaml : Str} {r₁ : ℕ} (hI : LogInv w)
    (hw : Follow env cfg mt r h s₀ w) (hc : createRegion env w nf name n mt₁ info yaml = .ok (r₁, w')) :
    Follow env cfg mt r h s₀ w' := by
  unfold createRegion at hc
  obtain ⟨⟨r₀, w₀⟩, h0, hc⟩ := (Res.bind_eq_ok _ _ _).1 hc
  obtain ⟨w₁, h1, hc⟩ := (Res.bind_eq_ok _ _ _).1 hc
  obtain ⟨w₂, h2, hc⟩ := (Res.bind_eq_ok _ _ _).1 hc
  obtain ⟨w₃, h3, hc⟩ := (Res.bind_eq_ok _ _ _).1 hc
  obtain ⟨w₄, h4, hc⟩ := (Res.bind_eq_ok _ _ _).1 hc
  obtain ⟨w₅, h5, hc⟩ := (Res.bind_eq_ok _ _ _).1 hc
  obtain ⟨R, hR, hc⟩ := (Res.bind_eq_ok _ _ _).1 hc
  obtain ⟨mc, hmc, hc⟩ := (Res.bind_eq_ok _ _ _).1 hc
  simp only [Except.ok.injEq, Prod.mk.injEq] at hc
  obtain ⟨rfl, rfl⟩ := hc
  obtain ⟨R₀, m, hid, -, -, -, -, -, -, -, -, hp0, -, hw0⟩ := constructRegion_ok h0
  have hne : r ≠ r₀ := by have := hw.lt; omega
  have a0 : Follow env cfg mt r h s₀ w₀ := by
    rw [hw0]
    refine hw.quiet (by show _ ≤ r₀ + 1; omega) rfl rfl rfl ?_ ?_
    · intro m₁ h
      simpa [World.setRegion, World.setModel, World.setCtx, World.advance, hne] using h
    · intro R₁ h
      exact ⟨R₁, by simpa [World.setRegion, World.setModel, World.setCtx, World.advance, hne] using h, rfl⟩
  have set : ∀ {v : World M} (R : Region), Follow env cfg mt r h s₀ v → Follow env cfg mt r h s₀ (v.setRegion r₀ R) := by
    intro v R hv
    refine hv.quiet le_rfl rfl rfl rfl (fun _ h => h) fun R₁ h => ⟨R₁, ?_, rfl⟩
    simpa [World.setRegion, hne] using h
  have hR0 : w₀.regions r₀ = some R₀ := by
    rw [hw0]; simp [World.setRegion, World.setModel, World.setCtx, World.advance]
  obtain ⟨l1, b1⟩ := loadPersistent_built hR0 h1
  obtain ⟨R₁', e1, e2, e3, e4⟩ := b1.regions
  rw [hR0] at e3
  cases e3
  have hR1 : w₁.regions r₀ = some { R₀ with dataset := e1, trace := e2 } := by
    rw [e4, Function.update_self]
  have a1 : Follow env cfg mt r h s₀ w₁ := by
    unfold loadPersistent at h1
    split at h1
    · cases h1; exact a0
    · obtain ⟨R, hR, h1⟩ := (Res.bind_eq_ok _ _ _).1 h1
      obtain ⟨ds, hds, h1⟩ := (Res.bind_eq_ok _ _ _).1 h1
      exact (set _ a0).auto h1
  have a2 : Follow env cfg mt r h s₀ w₂ := by
    unfold loadDatasetParam at h2
    obtain ⟨R, hR, h2⟩ := (Res.bind_eq_ok _ _ _).1 h2
    have hR := World.region_ok.1 hR
    rw [hR1] at hR
    cases hR
    split at h2
    · cases h2; exact a1
    · split at h2
      · cases h2
      · obtain ⟨ds, hds, h2⟩ := (Res.bind_eq_ok _ _ _).1 h2
        split at h2
        · cases h2
        · rcases regionTrain_ok h2 with ⟨rfl, -⟩ | ⟨-, v, ⟨-, hv⟩ | ⟨-, rfl⟩, hb⟩
          · exact set _ a1
          · rw [collectPending_nil (Function.update_self ..) (by exact hp0) hv] at hb
            exact (set _ a1).body hb
          · exact (set _ a1).body hb
  have a3 : Follow env cfg mt r h s₀ w₃ := by
    unfold loadOptimalFile at h3
    obtain ⟨R, hR, h3⟩ := (Res.bind_eq_ok _ _ _).1 h3
    split at h3
    · split at h3
      · cases h3
      · obtain ⟨_, _, h3⟩ := (Res.bind_eq_ok _ _ _).1 h3
        obtain ⟨_, _, h3⟩ := (Res.bind_eq_ok _ _ _).1 h3
        cases h3
        refine a2.quiet le_rfl rfl rfl rfl (fun m₁ h => ?_) fun R h => ⟨R, h, rfl⟩
        simpa [World.setModel, hne] using h
    · cases h3; exact a2
  have a4 : Follow env cfg mt r h s₀ w₄ := by
    unfold loadDatasetMap at h4
    obtain ⟨R, hR, h4⟩ := (Res.bind_eq_ok _ _ _).1 h4
    split at h4
    · split at h4
      · cases h4
      · obtain ⟨ds, hds, h4⟩ := (Res.bind_eq_ok _ _ _).1 h4
        split at h4
        · cases h4
        · obtain ⟨m₁, hm₁, h4⟩ := (Res.bind_eq_ok _ _ _).1 h4
          obtain ⟨m₂, hm₂, h4⟩ := (Res.bind_eq_ok _ _ _).1 h4
          cases h4
          refine (set { R with dataset := ds } a3).train rfl rfl rfl rfl (by exact World.model_ok.1 hm₁) hm₂
            (by simp [World.emit, World.advance, World.setModel]) ?_ fun _ => ⟨_, Function.update_self .., rfl⟩
          intro r' hr'
          simp [World.emit, World.advance, World.setModel, hr', World.setRegion]
    · cases h4; exact a3
  have a5 : Follow env cfg mt r h s₀ w₅ := by
    obtain ⟨R, hR', ⟨-, -, rfl⟩ | ⟨-, rfl⟩⟩ := startTrace_cases h5
    · exact set _ a4
    · exact a4
  refine a5.same le_rfl rfl rfl rfl ?_ (fun _ h => h) fun R h => ⟨R, h, rfl⟩
  intro e he
  rw [List.mem_singleton] at he
  subst he
  simp

theorem Follow.invariant (env : Env M) (F : ℕ → Prop) :
    Invariant env F (fun w : World M => LogInv w ∧ Follow env cfg mt r h s₀ w) where
  toKept := (Follow.stable env F).kept
  finish := (Follow.stable env F).finish
  created := fun w nf name n mt₁ info yaml r₁ w' hw hc =>
    ⟨(LogInv.invariant env F).created w nf name n mt₁ info yaml r₁ w' hw.1 hc, hw.2.created hw.1 hc⟩
  began := fun w r₁ c R C w' hw hb => ⟨(LogInv.invariant env F).began w r₁ c R C w' hw.1 hb,
    hw.2.same (le_of_eq hb.nextRegion.symm) (by rw [hb.cfg]) (by rw [hb.cfg]) hb.log (by simp)
      (fun m h => by rw [← hb.models]; exact h) (update_dataset hb.region hb.regions rfl)⟩
  assigned := fun w c C f hw hC => ⟨(LogInv.invariant env F).assigned w c C f hw.1 hC,
    hw.2.same le_rfl rfl rfl rfl (by simp) (fun _ h => h) fun R h => ⟨R, h, rfl⟩⟩
  feature := fun w c C f hw hC => ⟨(LogInv.invariant env F).feature w c C f hw.1 hC,
    hw.2.same le_rfl rfl rfl rfl (by simp) (fun _ h => h) fun R h => ⟨R, h, rfl⟩⟩
  traced := fun w R m f p w' hw hb => ⟨(LogInv.invariant env F).traced w R m f p w' hw.1 hb, by
    obtain ⟨F, rfl⟩ := tracePolicy_same hb
    exact hw.2.quiet le_rfl rfl rfl rfl (fun _ h => h) fun R h => ⟨R, h, rfl⟩⟩
  chose := by
    intro w r₁ c R m C p m' hw hR hm hC hg
    refine ⟨(LogInv.invariant env F).chose w r₁ c R m C p m' hw.1 hR hm hC hg, ?_⟩
    by_cases heq : r₁ = r
    · subst heq
      obtain ⟨l, s, h1, h2, h3, h4⟩ := hw.2.story
      have e := h3 m hm
      subst e
      refine ⟨hw.2.lt, hw.2.single, hw.2.persistent, l ++ [.chose r₁ c p], { s with model := m' }, ?_,
        .event h2 (.chose c p C.features m' ?_ hg), ?_, fun R h => h4 R h⟩
      · rw [← List.append_assoc, ← h1]; rfl
      · rw [← h1]; exact hw.1.feats c C hC
      · intro m₁ h5
        have h5 : Function.update w.models r₁ (some m') r₁ = some m₁ := h5
        rw [Function.update_self] at h5
        cases h5
        rfl
    · refine hw.2.same le_rfl rfl rfl (l := [.chose r₁ c p]) rfl ?_ ?_ fun R h => ⟨R, h, rfl⟩
      · intro e he
        rw [List.mem_singleton] at he
        subst he
        simp [heq]
      · intro m₁ h5
        have h5 : Function.update w.models r₁ (some m') r = some m₁ := h5
        rw [Function.update_of_ne (Ne.symm heq)] at h5
        exact h5
  stop := fun w c C t hw hC => ⟨(LogInv.invariant env F).stop w c C t hw.1 hC,
    hw.2.quiet le_rfl rfl rfl rfl (fun _ h => h) fun R h => ⟨R, h, rfl⟩⟩
  ended := fun w r₁ c R hw hR hC hne => ⟨(LogInv.invariant env F).ended w r₁ c R hw.1 hR hC hne,
    hw.2.same le_rfl rfl rfl rfl (by simp) (fun _ h => h) (update_dataset hR rfl rfl)⟩
  period := fun w hw => ⟨(LogInv.invariant env F).period w hw.1,
    hw.2.quiet le_rfl rfl rfl rfl (fun _ h => h) fun R h => ⟨R, h, rfl⟩⟩
  destroyed := by
    intro w r₁ R hw hR hp
    refine ⟨(LogInv.invariant env F).destroyed w r₁ R hw.1 hR hp, ?_⟩
    obtain ⟨f, hf⟩ := afterDestroy_eq env w r₁ R
    rw [hf]
    refine hw.2.same le_rfl rfl rfl rfl (by simp) ?_ ?_
    · intro m₁ h
      have h : Function.update w.models r₁ none r = some m₁ := h
      by_cases heq : r = r₁
      · subst heq; simp at h
      · rw [Function.update_of_ne heq] at h; exact h
    · intro R₁ h
      have h : Function.update w.regions r₁ none r = some R₁ := h
      by_cases heq : r = r₁
      · subst heq; simp at h
      · rw [Function.update_of_ne heq] at h; exact ⟨R₁, h, rfl⟩

/-- What was held before the last event. -/
theorem Spec.Replay.snoc {ρ : Rules M} {single : Bool} {l : List Ev} {e : Ev} {s : HeldState M}
    (hr : Replay ρ single r h s₀ (l ++ [e]) s) :
    ∃ s₁, Replay ρ single r h s₀ l s₁ ∧ Hears ρ single r (observe (h ++ l)) s₁ e s := by
  generalize hk : l ++ [e] = k at hr
  cases hr with
  | start => simp at hk
  | event h1 h2 =>
    obtain ⟨rfl, hk'⟩ := List.append_inj' hk rfl
    obtain rfl : e = _ := by simpa using hk'
    exact ⟨_, h1, h2⟩

theorem Spec.Replay.take {ρ : Rules M} {single : Bool} {l l' : List Ev} {s : HeldState M}
    (hr : Replay ρ single r h s₀ (l ++ l') s) : ∃ s₁, Replay ρ single r h s₀ l s₁ := by
  induction l' using List.reverseRecOn generalizing s with
  | nil => exact ⟨s, by simpa using hr⟩
  | append_singleton l' e ih =>
    rw [← List.append_assoc] at hr
    obtain ⟨s₁, h1, -⟩ := hr.snoc
    exact ih h1

end

end Apollo
