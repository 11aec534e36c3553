import Verif.Proofs.RegionRange

/-!
# The files written by regions
-/

namespace Apollo

open Spec

variable {M : Type}

/-! ## Paths -/

theorem append_sep_inj {α : Type} {c : α} {a b x y : List α} (ha : c ∉ a) (hb : c ∉ b)
    (h : a ++ c :: x = b ++ c :: y) : a = b ∧ x = y := by
  induction a generalizing b with
  | nil =>
    cases b with
    | nil => exact ⟨rfl, by simpa using h⟩
    | cons d b =>
      simp only [List.nil_append, List.cons_append, List.cons.injEq] at h
      exact absurd (by rw [h.1]; exact List.mem_cons_self) hb
  | cons d a ih =>
    cases b with
    | nil =>
      simp only [List.nil_append, List.cons_append, List.cons.injEq] at h
      exact absurd (by rw [← h.1]; exact List.mem_cons_self) ha
    | cons e b =>
      simp only [List.cons_append, List.cons.injEq] at h
      obtain ⟨h1, h2⟩ := ih (fun h => ha (List.mem_cons_of_mem _ h))
        (fun h => hb (List.mem_cons_of_mem _ h)) h.2
      exact ⟨by rw [h.1, h1], h2⟩

theorem storePath_eq (cfg : Cfg) (rank : ℤ) (k n : Str) : storePath cfg rank k n =
    (cfg.outputDir ++ "/".toList ++ cfg.modelsDir ++ "/".toList) ++ (k ++ '-' :: ("latest-rank-".toList ++
      fmtInt rank ++ "-".toList ++ n ++ ".yaml".toList)) := by
  simp [storePath]

theorem stepPath_eq (cfg : Cfg) (rank : ℤ) (k : Str) (step : ℤ) (n : Str) :
    stepPath cfg rank k step n =
    (cfg.outputDir ++ "/".toList ++ cfg.modelsDir ++ "/".toList) ++ (k ++ '-' :: ("step-".toList ++
      fmtInt step ++ "-rank-".toList ++ fmtInt rank ++ "-".toList ++ n ++ ".yaml".toList)) := by
  simp [stepPath]

/-- The path to load from is the path stored to. -/
theorem loadPath_eq (cfg : Cfg) (rank : ℤ) (k n : Str) :
    loadPath cfg rank k n = storePath cfg rank k n := by
  simp [loadPath, storePath]

theorem storePath_inj {cfg : Cfg} {rank : ℤ} {k n k' n' : Str} (hk : '-' ∉ k) (hk' : '-' ∉ k')
    (h : storePath cfg rank k n = storePath cfg rank k' n') : k = k' ∧ n = n' := by
  rw [storePath_eq, storePath_eq] at h
  obtain ⟨h1, h2⟩ := append_sep_inj hk hk' (List.append_cancel_left h)
  refine ⟨h1, ?_⟩
  have := List.append_cancel_right h2
  exact List.append_cancel_left this

theorem stepPath_ne {cfg : Cfg} {rank : ℤ} {k n k' n' : Str} {step : ℤ} (hk : '-' ∉ k)
    (hk' : '-' ∉ k') : stepPath cfg rank k step n ≠ storePath cfg rank k' n' := by
  intro h
  rw [storePath_eq, stepPath_eq] at h
  obtain ⟨_, h2⟩ := append_sep_inj hk hk' (List.append_cancel_left h)
  simp at h2

/-- Models and datasets go to different directories. -/
def Cfg.Separate (cfg : Cfg) : Prop :=
  cfg.datasetsDir ≠ cfg.modelsDir ∧ '/' ∉ cfg.datasetsDir ∧ '/' ∉ cfg.modelsDir

theorem datasetPath_ne {cfg : Cfg} (hc : cfg.Separate) {rank : ℤ} {k n n' : Str} :
    datasetPath cfg n ≠ storePath cfg rank k n' := by
  intro h
  obtain ⟨h1, h2, h3⟩ := hc
  have e1 : datasetPath cfg n = (cfg.outputDir ++ "/".toList) ++ (cfg.datasetsDir ++ '/' ::
      ("Dataset-".toList ++ n ++ ".yaml".toList)) := by simp [datasetPath]
  rw [e1, storePath_eq] at h
  have h := h.trans (show _ = (cfg.outputDir ++ "/".toList) ++ (cfg.modelsDir ++ '/' ::
    (k ++ '-' :: ("latest-rank-".toList ++ fmtInt rank ++ "-".toList ++ n' ++ ".yaml".toList))) by simp)
  exact h1 (append_sep_inj h2 h3 (List.append_cancel_left h)).1

theorem datasetPath_inj {cfg : Cfg} {n n' : Str} (h : datasetPath cfg n = datasetPath cfg n') :
    n = n' := by
  simp only [datasetPath] at h
  exact List.append_cancel_left (List.append_cancel_right h)

theorem datasetPath_ne_step {cfg : Cfg} (hc : cfg.Separate) {rank : ℤ} {k n n' : Str} {s : ℤ} :
    datasetPath cfg n ≠ stepPath cfg rank k s n' := by
  intro h
  obtain ⟨h1, h2, h3⟩ := hc
  have e1 : datasetPath cfg n = (cfg.outputDir ++ "/".toList) ++ (cfg.datasetsDir ++ '/' ::
      ("Dataset-".toList ++ n ++ ".yaml".toList)) := by simp [datasetPath]
  rw [e1, stepPath_eq] at h
  have h := h.trans (show _ = (cfg.outputDir ++ "/".toList) ++ (cfg.modelsDir ++ '/' ::
    (k ++ '-' :: ("step-".toList ++ fmtInt s ++ "-rank-".toList ++ fmtInt rank ++ "-".toList ++ n' ++
      ".yaml".toList))) by simp)
  exact h1 (append_sep_inj h2 h3 (List.append_cancel_left h)).1

/-- Paths of stored models and datasets, and paths of the traces of policies. -/
theorem txt_ne_yaml {a b : Str} : a ++ "policies.txt".toList ≠ b ++ ".yaml".toList := by
  intro h
  have := congrArg List.getLast? h
  rw [List.getLast?_append, List.getLast?_append] at this
  rw [show "policies.txt".toList.getLast? = some 't' from by decide,
    show ".yaml".toList.getLast? = some 'l' from by decide] at this
  cases this

theorem policiesPath_eq (rank : ℤ) :
    policiesPath rank = ("rank-".toList ++ fmtInt rank ++ "-".toList) ++ "policies.txt".toList := by
  unfold policiesPath
  rw [show "-policies.txt".toList = "-".toList ++ "policies.txt".toList from by decide]
  simp only [List.append_assoc]

theorem bestPath_eq (rank s : ℤ) (n : Str) : bestPath rank s n =
    ("step-".toList ++ fmtInt s ++ "-rank-".toList ++ fmtInt rank ++ "-".toList ++ n ++
      "-best_".toList) ++ "policies.txt".toList := by
  unfold bestPath
  rw [show "-best_policies.txt".toList = "-best_".toList ++ "policies.txt".toList from by decide]
  simp only [List.append_assoc]

/-! ## Training, with the files -/

theorem write_files_ne {env : Env M} {w : World M} {p p' : Str} (t : Option Str) (h : p ≠ p') :
    (w.write env p' t).files p = w.files p := by
  cases t with
  | none => rfl
  | some t => unfold World.write; dsimp only; split <;> simp [h]

/-- The trace of the best policies leaves the other files alone. -/
theorem traceBest_files {env : Env M} {w w' : World M} {R : Region} {s : ℤ}
    (h : traceBest env w R s = .ok w') (p : Str) :
    w'.files (p ++ ".yaml".toList) = w.files (p ++ ".yaml".toList) := by
  unfold traceBest at h
  split at h
  · obtain ⟨t, -, h⟩ := (Res.bind_eq_ok _ _ _).1 h
    cases h
    rw [bestPath_eq]
    exact write_files_ne _ txt_ne_yaml.symm
  · cases h
    rfl

theorem tracePolicy_files {env : Env M} {w w' : World M} {R : Region} {m : M} {f : Features} {c : ℤ}
    (h : tracePolicy env w R m f c = .ok w') (p : Str) :
    w'.files (p ++ ".yaml".toList) = w.files (p ++ ".yaml".toList) := by
  unfold tracePolicy at h
  split at h
  · obtain ⟨t, -, h⟩ := (Res.bind_eq_ok _ _ _).1 h
    cases h
    rw [policiesPath_eq]
    exact write_files_ne _ txt_ne_yaml.symm
  · cases h
    rfl

/-- Training of one region: nothing, or the model is replaced and perhaps stored. -/
theorem trainBody_files {env : Env M} {w w' : World M} {r : ℕ} {s : ℤ}
    (h : trainBody env w r s = .ok w') :
    ∃ R, w.regions r = some R ∧ ((R.dataset.size = 0 ∧ w' = w) ∨
      (R.dataset.size ≠ 0 ∧ ∃ w₀, traceBest env w R s = .ok w₀ ∧ w₀.regions r = some R ∧
        ∃ m m', w₀.models r = some m ∧
        env.ops.train w₀.tick R.dataset m = .ok m' ∧
        ((w₀.cfg.storeModels = false ∧
            w' = ((w₀.setModel r m').advance).emit (.trained r R.dataset)) ∨
          (w₀.cfg.storeModels = true ∧ ∃ t, env.ops.store m' = .ok t ∧
            w' = ((((w₀.setModel r m').advance).emit (.trained r R.dataset)).write
              env (stepPath w₀.cfg env.rank (env.ops.name m') s R.name) t).write
                env (storePath w₀.cfg env.rank (env.ops.name m') R.name) t)))) := by
  unfold trainBody at h
  obtain ⟨R, hR, h⟩ := (Res.bind_eq_ok _ _ _).1 h
  refine ⟨R, World.region_ok.1 hR, ?_⟩
  split at h
  next he => cases h; exact .inl ⟨he, rfl⟩
  next he =>
    refine .inr ⟨he, ?_⟩
    split at h
    · cases h
    · obtain ⟨w₀, hb, h⟩ := (Res.bind_eq_ok _ _ _).1 h
      refine ⟨w₀, hb, ?_, ?_⟩
      · obtain ⟨F, rfl⟩ := traceBest_same hb
        exact World.region_ok.1 hR
      obtain ⟨m, hm, h⟩ := (Res.bind_eq_ok _ _ _).1 h
      obtain ⟨m', hm', h⟩ := (Res.bind_eq_ok _ _ _).1 h
      refine ⟨m, m', World.model_ok.1 hm, hm', ?_⟩
      dsimp only at h
      split at h
      · cases h
      · split at h
        next hst =>
          obtain ⟨t, ht, h⟩ := (Res.bind_eq_ok _ _ _).1 h
          cases h
          refine .inr ⟨hst, t, ht, ?_⟩
          rw [write_cfg]
          rfl
        next hst =>
          cases h
          exact .inl ⟨Bool.eq_false_iff.2 hst, rfl⟩

/-- A predicate kept by the training of regions is kept by `autoTrain`. -/
theorem autoTrain_induct {env : Env M} (P : World M → Prop)
    (body : ∀ w r s w', P w → trainBody env w r s = .ok w' → P w')
    (single : ∀ w ds rs w', P w → w.cfg.single = true → trainAllWith env ds rs w = .ok w' → P w')
    {w w' : World M} {r : ℕ} (hw : P w) (h : autoTrain env w r = .ok w') : P w' := by
  have one : ∀ w r s w', P w → trainNoCollect env w r s false = .ok w' → P w' := by
    intro w r s w' hw h
    unfold trainNoCollect at h
    obtain ⟨m, hm, h⟩ := (Res.bind_eq_ok _ _ _).1 h
    split at h
    · cases h; exact hw
    · exact body _ _ _ _ hw h
  unfold autoTrain at h
  obtain ⟨R, hR, h⟩ := (Res.bind_eq_ok _ _ _).1 h
  obtain ⟨m, hm, h⟩ := (Res.bind_eq_ok _ _ _).1 h
  split at h
  · cases h; exact hw
  · split at h
    · unfold apolloTrainNoCollect apolloTrainWith at h
      split at h
      · cases h
      · split at h
        next hs =>
          obtain ⟨ds, hds, h⟩ := (Res.bind_eq_ok _ _ _).1 h
          exact single _ _ _ _ hw hs h
        · refine forRegions_induct P ?_ hw h
          intro w r w' hw h
          unfold trainNoCollectOf at h
          obtain ⟨R, hR, h⟩ := (Res.bind_eq_ok _ _ _).1 h
          exact one _ _ _ _ hw h
    · split at h
      · exact one _ _ _ _ hw h
      · split at h
        · exact one _ _ _ _ hw h
        · cases h; exact hw

/-! ## Stored models -/

/-- Models that write files have names without `-`, and choosing a policy does not change what would
be written. -/
structure Storing (ops : ModelOps M) : Prop where
  index : ∀ m f p m', ops.getIndex m f = .ok (p, m') →
    ops.store m' = ops.store m ∧ ops.name m' = ops.name m
  dash : ∀ m t, ops.store m = .ok (some t) → '-' ∉ ops.name m

/-- The model of the region is changed by its constructor otherwise than by training. -/
def Region.reads (R : Region) : Prop :=
  R.modelName = "DatasetMap".toList ∨ R.modelName = "Optimal".toList

/-- The file of a trained region holds its model, provided that it can be written. -/
def Latest (env : Env M) (w : World M) (R : Region) (m : M) : Prop :=
  ∃ s, env.ops.store m = .ok s ∧
    ∀ t, s = some t → env.canWrite (storePath w.cfg env.rank (env.ops.name m) R.name) = true →
      w.files (storePath w.cfg env.rank (env.ops.name m) R.name) = some t

structure StoreInv (env : Env M) (w : World M) : Prop where
  lt : ∀ r R, w.regions r = some R → r < w.nextRegion
  ev : ∀ r ds, Ev.trained r ds ∈ w.log → r < w.nextRegion
  names : ∀ r R r' R', w.regions r = some R → w.regions r' = some R' → R.name = R'.name → r = r'
  stored : w.cfg.storeModels = true → w.cfg.single = false → w.cfg.Separate →
    ∀ r R m, w.regions r = some R → w.models r = some m → ¬ R.reads →
      (∃ ds, Ev.trained r ds ∈ w.log) → Latest env w R m

/-- Steps that leave the stored models as they are. -/
theorem StoreInv.frame {env : Env M} {w w' : World M} (hw : StoreInv env w)
    (hcfg : ∃ G, w'.cfg = { w.cfg with globalPeriod := G })
    (hn : w.nextRegion ≤ w'.nextRegion)
    (hr : ∀ r R, w'.regions r = some R → ∃ R₀, w.regions r = some R₀ ∧ R.name = R₀.name ∧
      R.modelName = R₀.modelName)
    (hm : ∀ r R m, w'.regions r = some R → w'.models r = some m → ¬ R.reads →
      ∃ m₀, w.models r = some m₀ ∧ env.ops.store m = env.ops.store m₀ ∧
        env.ops.name m = env.ops.name m₀)
    (hl : ∀ r ds, Ev.trained r ds ∈ w'.log → r < w'.nextRegion ∧
      ∀ R, w'.regions r = some R → ¬ R.reads → ∃ ds, Ev.trained r ds ∈ w.log)
    (hf : w.cfg.Separate → ∀ k n, w'.files (storePath w.cfg env.rank k n) =
      w.files (storePath w.cfg env.rank k n)) : StoreInv env w' := by
  obtain ⟨G, hcfg⟩ := hcfg
  refine ⟨?_, fun r ds h => (hl r ds h).1, ?_, ?_⟩
  · intro r R hR
    obtain ⟨R₀, h, -⟩ := hr r R hR
    exact lt_of_lt_of_le (hw.lt _ _ h) hn
  · intro r R r' R' hR hR' he
    obtain ⟨R₀, h, e, -⟩ := hr r R hR
    obtain ⟨R₀', h', e', -⟩ := hr r' R' hR'
    exact hw.names _ _ _ _ h h' (by rw [← e, ← e', he])
  · intro h1 h2 h3 r R m hR hM hrd ht
    rw [hcfg] at h1 h2 h3
    have h3 : w.cfg.Separate := h3
    obtain ⟨R₀, h, e, e2⟩ := hr r R hR
    obtain ⟨m₀, hm₀, e3, e4⟩ := hm r R m hR hM hrd
    obtain ⟨ds, hds⟩ := ht
    have hrd₀ : ¬ R₀.reads := by unfold Region.reads at hrd ⊢; rw [← e2]; exact hrd
    obtain ⟨s, h4, h5⟩ := hw.stored h1 h2 h3 r R₀ m₀ h hm₀ hrd₀ ((hl r ds hds).2 R hR hrd)
    refine ⟨s, by rw [e3]; exact h4, fun t ht => ?_⟩
    rw [e4, e, hcfg]
    intro hcw
    have := h5 t ht hcw
    rw [← hf h3] at this
    exact this

theorem write_frame (env : Env M) (w : World M) (p : Str) (t : Option Str) :
    (w.write env p t).cfg = w.cfg ∧ (w.write env p t).regions = w.regions ∧
    (w.write env p t).models = w.models ∧ (w.write env p t).nextRegion = w.nextRegion ∧
    (w.write env p t).log = w.log := by
  cases t with
  | none => simp [World.write]
  | some t => unfold World.write; dsimp only; split <;> simp

/-- Other files were written. -/
theorem StoreInv.files {env : Env M} {w : World M} (hw : StoreInv env w) {F : Str → Option Str}
    (h : ∀ p, F (p ++ ".yaml".toList) = w.files (p ++ ".yaml".toList)) :
    StoreInv env ({ w with files := F } : World M) :=
  hw.frame ⟨w.cfg.globalPeriod, rfl⟩ le_rfl (fun _ R h => ⟨R, h, rfl, rfl⟩)
    (fun _ _ m _ h _ => ⟨m, h, rfl, rfl⟩) (fun r ds h => ⟨hw.ev r ds h, fun _ _ _ => ⟨ds, h⟩⟩)
    fun _ _ _ => h _

theorem StoreInv.body {env : Env M} (hs : Storing env.ops) {w w' : World M} {r : ℕ} {s : ℤ}
    (hw : StoreInv env w) (h : trainBody env w r s = .ok w') : StoreInv env w' := by
  obtain ⟨R, -, ⟨-, rfl⟩ | ⟨-, w₀, hb, hR, m, m', hm, -, hst⟩⟩ := trainBody_files h
  · exact hw
  replace hw : StoreInv env w₀ := by
    have hf := traceBest_files hb
    obtain ⟨F, rfl⟩ := traceBest_same hb
    exact hw.files hf
  clear h hb
  generalize w₀ = w at *
  -- what does not depend on the files
  have key : w'.cfg = w.cfg ∧ w'.regions = w.regions ∧
      w'.models = Function.update w.models r (some m') ∧ w'.nextRegion = w.nextRegion ∧
      w'.log = w.log ++ [.trained r R.dataset] := by
    rcases hst with ⟨-, rfl⟩ | ⟨-, t, -, rfl⟩
    · exact ⟨rfl, rfl, rfl, rfl, rfl⟩
    · obtain ⟨a1, a2, a3, a4, a5⟩ := write_frame env ((((w.setModel r m').advance).emit
        (.trained r R.dataset)).write env (stepPath w.cfg env.rank (env.ops.name m') s R.name) t)
        (storePath w.cfg env.rank (env.ops.name m') R.name) t
      obtain ⟨b1, b2, b3, b4, b5⟩ := write_frame env (((w.setModel r m').advance).emit
        (.trained r R.dataset)) (stepPath w.cfg env.rank (env.ops.name m') s R.name) t
      exact ⟨a1.trans b1, a2.trans b2, a3.trans b3, a4.trans b4, a5.trans b5⟩
  obtain ⟨k1, k2, k3, k4, k5⟩ := key
  refine ⟨by rw [k2, k4]; exact hw.lt, ?_, by rw [k2]; exact hw.names, ?_⟩
  · intro r' ds hd
    rw [k5, List.mem_append, List.mem_singleton] at hd
    rw [k4]
    rcases hd with hd | hd
    · exact hw.ev _ _ hd
    · cases hd; exact hw.lt _ _ hR
  · intro h1 h2 h3 r' R' m₁ hR' hm₁ hrd ⟨ds, hds⟩
    rw [k1] at h1 h2 h3
    rw [k2] at hR'
    rcases hst with ⟨hst, -⟩ | ⟨-, t, ht, rfl⟩
    · rw [hst] at h1; cases h1
    · by_cases heq : r' = r
      · subst heq
        rw [hR] at hR'
        cases hR'
        rw [k3, Function.update_self, Option.some.injEq] at hm₁
        subst hm₁
        refine ⟨t, ht, fun t' ht' => ?_⟩
        rw [k1]
        subst ht'
        intro hcw
        simp [World.write, hcw]
      · rw [k3, Function.update_of_ne heq] at hm₁
        rw [k5, List.mem_append, List.mem_singleton] at hds
        rcases hds with hds | hds
        · obtain ⟨u, hu, hu'⟩ := hw.stored h1 h2 h3 r' R' m₁ hR' hm₁ hrd ⟨ds, hds⟩
          refine ⟨u, hu, fun t' ht' => ?_⟩
          rw [k1]
          intro hcw
          have h0 := hu' t' ht' hcw
          subst ht'
          have hd1 := hs.dash _ _ hu
          cases t with
          | none => exact h0
          | some t =>
            have hd2 := hs.dash _ _ ht
            rw [write_files_ne, write_files_ne]
            · exact h0
            · exact (stepPath_ne hd2 hd1).symm
            · intro he
              obtain ⟨-, e2⟩ := storePath_inj hd1 hd2 he
              exact heq (hw.names _ _ _ _ hR' hR e2)
        · cases hds; exact absurd rfl heq

theorem StoreInv.single {env : Env M} {w w' : World M} {ds : Dataset} {rs : List ℕ}
    (hw : StoreInv env w) (h1 : w.cfg.single = true) (h : trainAllWith env ds rs w = .ok w') :
    StoreInv env w' := by
  induction rs generalizing w with
  | nil => simp only [trainAllWith] at h; cases h; exact hw
  | cons r rs ih =>
    simp only [trainAllWith] at h
    obtain ⟨R, hR, h⟩ := (Res.bind_eq_ok _ _ _).1 h
    obtain ⟨m, hm, h⟩ := (Res.bind_eq_ok _ _ _).1 h
    obtain ⟨m', hm', h⟩ := (Res.bind_eq_ok _ _ _).1 h
    refine ih (w := (w.setModel r m').advance.emit (.trained r ds)) ⟨hw.lt, ?_, hw.names, ?_⟩ h1 h
    · intro r' ds' hd
      have hd : _ ∈ w.log ++ [Ev.trained r ds] := hd
      rw [List.mem_append, List.mem_singleton] at hd
      rcases hd with hd | hd
      · exact hw.ev _ _ hd
      · cases hd; exact hw.lt _ _ (World.region_ok.1 hR)
    · intro _ h2
      have h2 : w.cfg.single = false := h2
      rw [h1] at h2; cases h2

/-- Steps that change neither models, names, trainings nor files. -/
theorem StoreInv.same {env : Env M} {w w' : World M} (hw : StoreInv env w)
    (hcfg : w'.cfg = w.cfg) (hn : w'.nextRegion = w.nextRegion)
    (hr : ∀ r R, w'.regions r = some R → ∃ R₀, w.regions r = some R₀ ∧ R.name = R₀.name ∧
      R.modelName = R₀.modelName) (hm : w'.models = w.models)
    (hl : ∀ r ds, Ev.trained r ds ∈ w'.log → Ev.trained r ds ∈ w.log)
    (hf : w'.files = w.files) : StoreInv env w' := by
  refine hw.frame ⟨w.cfg.globalPeriod, by rw [hcfg]⟩ hn.ge hr ?_ ?_ (fun _ _ _ => by rw [hf])
  · intro r R m _ h _; rw [hm] at h; exact ⟨m, h, rfl, rfl⟩
  · intro r ds h; rw [hn]; exact ⟨hw.ev _ _ (hl _ _ h), fun _ _ _ => ⟨ds, hl _ _ h⟩⟩

theorem regions_update {w w' : World M} {r : ℕ} {R R' : Region} (hR : w.regions r = some R)
    (h : w'.regions = Function.update w.regions r (some R')) (h1 : R'.name = R.name)
    (h2 : R'.modelName = R.modelName) : ∀ r R, w'.regions r = some R →
      ∃ R₀, w.regions r = some R₀ ∧ R.name = R₀.name ∧ R.modelName = R₀.modelName := by
  intro r' R₁ hR₁
  rw [h] at hR₁
  by_cases heq : r' = r
  · subst heq
    rw [Function.update_self, Option.some.injEq] at hR₁
    subst hR₁
    exact ⟨R, hR, h1, h2⟩
  · rw [Function.update_of_ne heq] at hR₁; exact ⟨R₁, hR₁, rfl, rfl⟩

theorem emit_trained {w : World M} {e : Ev} (he : ∀ r ds, e ≠ .trained r ds) :
    ∀ r ds, Ev.trained r ds ∈ (w.emit e).log → Ev.trained r ds ∈ w.log := by
  intro r ds h
  rcases List.mem_append.1 h with h | h
  · exact h
  · rw [List.mem_singleton] at h; exact absurd h.symm (he r ds)

theorem StoreInv.auto {env : Env M} (hs : Storing env.ops) {w w' : World M} {r : ℕ}
    (hw : StoreInv env w) (h : autoTrain env w r = .ok w') : StoreInv env w' :=
  autoTrain_induct (StoreInv env) (fun _ _ _ _ hw h => hw.body hs h)
    (fun _ _ _ _ hw h1 h => hw.single h1 h) hw h

theorem StoreInv.collect {env : Env M} (hs : Storing env.ops) {w w' : World M} {r : ℕ} {c : CtxPtr}
    {x : ℚ} (hw : StoreInv env w) (h : collectContext env w r c x = .ok w') : StoreInv env w' := by
  obtain ⟨R, m, C, w₁, w₂, R₂, hR, hm, hC, h1, h2, h3, rfl⟩ := collectContext_steps h
  obtain ⟨f1, f2, f3, f4, f5, f6, f7, f8, f9, f10⟩ := record_frame env w r R m c C x
  have a1 : StoreInv env (record env w r R m c C x) := by
    refine hw.same f1 f3 (regions_update hR (record_regions env w r R m c C x) rfl rfl) f2 ?_ f8
    rw [f9]; exact fun _ _ => id
  have a2 := a1.auto hs h1
  have a3 : StoreInv env w₂ := by
    rcases destroyContext_ok h2 with ⟨-, rfl⟩ | ⟨n, -, -, rfl⟩
    · exact a2
    · exact a2.same rfl rfl (fun r R h => ⟨R, h, rfl, rfl⟩) rfl (fun _ _ => id) rfl
  exact a3.same rfl rfl (regions_update h3 rfl rfl rfl) rfl (fun _ _ => id) rfl

theorem StoreInv.stable {env : Env M} (hs : Storing env.ops) (F : ℕ → Prop) :
    Stable env F (StoreInv env) where
  advance := fun _ hw => hw.same rfl rfl (fun r R h => ⟨R, h, rfl, rfl⟩) rfl (fun _ _ => id) rfl
  body := fun _ _ _ _ _ _ hw _ h => hw.body hs h
  single := fun _ _ _ _ hw h1 h => hw.single h1 h
  waiting := fun _ c hw => hw.same rfl rfl (fun r R h => ⟨R, h, rfl, rfl⟩) rfl
    (emit_trained (by simp)) rfl
  finish := by
    intro w r c m w' hw h
    have h1 : StoreInv env (w.emit (.finished r c m)) := hw.same rfl rfl
      (fun r R h => ⟨R, h, rfl, rfl⟩) rfl (emit_trained (by simp)) rfl
    exact h1.collect hs h
  pending := fun _ _ _ _ hw hR => hw.same rfl rfl (regions_update hR rfl rfl rfl) rfl
    (fun _ _ => id) rfl

theorem StoreInv.stepwise {env : Env M} (hs : Storing env.ops) (F : ℕ → Prop) :
    Stepwise env F (StoreInv env) where
  toKept := (StoreInv.stable hs F).kept
  finish := (StoreInv.stable hs F).finish
  began := by
    intro w r c R C w' hw h
    refine hw.same h.cfg h.nextRegion (regions_update h.region h.regions rfl rfl) h.models ?_ h.files
    rw [h.log]
    exact emit_trained (w := w) (by simp)
  assigned := fun _ _ _ _ hw _ => hw.same rfl rfl (fun r R h => ⟨R, h, rfl, rfl⟩) rfl
    (emit_trained (by simp)) rfl
  feature := fun _ _ _ _ hw _ => hw.same rfl rfl (fun r R h => ⟨R, h, rfl, rfl⟩) rfl
    (emit_trained (by simp)) rfl
  traced := by
    intro w R m f p w' hw h
    have hf := tracePolicy_files h
    obtain ⟨F, rfl⟩ := tracePolicy_same h
    exact hw.files hf
  chose := by
    intro w r c R m C p m' hw hR hm hC hi
    obtain ⟨e1, e2⟩ := hs.index _ _ _ _ hi
    refine hw.frame ⟨w.cfg.globalPeriod, rfl⟩ le_rfl (fun r R h => ⟨R, h, rfl, rfl⟩) ?_ ?_
      (fun _ _ _ => rfl)
    · intro r' R' m₁ _ h _
      have h : Function.update w.models r (some m') r' = some m₁ := h
      by_cases heq : r' = r
      · subst heq
        rw [Function.update_self] at h
        cases h
        exact ⟨m, hm, e1, e2⟩
      · rw [Function.update_of_ne heq] at h; exact ⟨m₁, h, rfl, rfl⟩
    · intro r' ds h
      have h := emit_trained (e := .chose r c p) (by simp) r' ds h
      exact ⟨hw.ev _ _ h, fun _ _ _ => ⟨ds, h⟩⟩
  stop := fun _ _ _ _ hw _ => hw.same rfl rfl (fun r R h => ⟨R, h, rfl, rfl⟩) rfl
    (fun _ _ => id) rfl
  ended := fun _ _ _ _ hw hR _ _ => hw.same rfl rfl (regions_update hR rfl rfl rfl) rfl
    (emit_trained (by simp)) rfl
  period := by
    intro w hw
    exact hw.frame ⟨0, rfl⟩ le_rfl (fun r R h => ⟨R, h, rfl, rfl⟩)
      (fun r R m _ h _ => ⟨m, h, rfl, rfl⟩) (fun r ds h => ⟨hw.ev _ _ h, fun _ _ _ => ⟨ds, h⟩⟩)
      (fun _ _ _ => rfl)
  destroyed := by
    intro w r R hw hR hp
    have e : ∀ w₁ : World M, (({ w₁ with
      regions := Function.update w₁.regions r none
      models := Function.update w₁.models r none
      ctxs := Function.update w₁.ctxs (.sync r) none } : World M).emit (.destroyed r)).files =
        w₁.files := fun _ => rfl
    have hk : (afterDestroy env w r R).cfg = w.cfg ∧ (afterDestroy env w r R).nextRegion = w.nextRegion ∧
        (afterDestroy env w r R).regions = Function.update w.regions r none ∧
        (afterDestroy env w r R).models = Function.update w.models r none ∧
        (afterDestroy env w r R).log = w.log ++ [.destroyed r] ∧
        (w.cfg.Separate → ∀ k n, (afterDestroy env w r R).files (storePath w.cfg env.rank k n) =
          w.files (storePath w.cfg env.rank k n)) := by
      obtain ⟨e1, e2, e3, e4, e5⟩ := afterDestroy_parts env w r R
      refine ⟨e4, e5, e1, e2, e3, fun hc k n => ?_⟩
      unfold afterDestroy
      dsimp only
      split
      · rw [e, write_files_ne _ (datasetPath_ne hc).symm]
      · rfl
    obtain ⟨k1, k2, k3, k4, k5, k6⟩ := hk
    refine hw.frame ⟨w.cfg.globalPeriod, by rw [k1]⟩ k2.ge ?_ ?_ ?_ k6
    · intro r' R' h
      rw [k3] at h
      by_cases heq : r' = r
      · subst heq; rw [Function.update_self] at h; cases h
      · rw [Function.update_of_ne heq] at h; exact ⟨R', h, rfl, rfl⟩
    · intro r' R' m _ h _
      rw [k4] at h
      by_cases heq : r' = r
      · subst heq; rw [Function.update_self] at h; cases h
      · rw [Function.update_of_ne heq] at h; exact ⟨m, h, rfl, rfl⟩
    · intro r' ds h
      rw [k5] at h
      have h := emit_trained (w := w) (e := .destroyed r) (by simp) r' ds h
      rw [k2]
      exact ⟨hw.ev _ _ h, fun _ _ _ => ⟨ds, h⟩⟩

/-! ## Creation -/

theorem constructRegion_modelName {env : Env M} {w w' : World M} {nf n mt : ℤ}
    {name info yaml : Str} {r : ℕ} (h : constructRegion env w nf name n mt info yaml = .ok (r, w')) :
    ∃ R m, r = w.nextRegion ∧ R.name = truncName name ∧ R.pending = [] ∧
      w' = (((({ w with nextRegion := r + 1 } : World M).setRegion r R).setModel r m).setCtx
        (.sync r) {}).advance := by
  obtain ⟨R, m, h1, -, h2, -, -, -, -, -, -, h3, -, h4⟩ := constructRegion_ok h
  exact ⟨R, m, h1, h2, h3, h4⟩

theorem StoreInv.construct {env : Env M} {w w' : World M} {nf n mt : ℤ} {name info yaml : Str}
    {r : ℕ} (hw : StoreInv env w) (hnew : ∀ r R, w.regions r = some R → R.name ≠ truncName name)
    (h : constructRegion env w nf name n mt info yaml = .ok (r, w')) : StoreInv env w' := by
  obtain ⟨Rn, m, rfl, hn, -, rfl⟩ := constructRegion_modelName h
  have hreg : ∀ r R₁, Function.update w.regions w.nextRegion (some Rn) r = some R₁ →
      (r = w.nextRegion ∧ R₁ = Rn) ∨ (r ≠ w.nextRegion ∧ w.regions r = some R₁) := by
    intro r R₁ h
    by_cases heq : r = w.nextRegion
    · subst heq; rw [Function.update_self] at h; cases h; exact .inl ⟨rfl, rfl⟩
    · rw [Function.update_of_ne heq] at h; exact .inr ⟨heq, h⟩
  refine ⟨?_, ?_, ?_, ?_⟩
  · intro r R₁ h
    rcases hreg r R₁ h with ⟨rfl, -⟩ | ⟨-, h⟩
    · exact Nat.lt_succ_self _
    · exact Nat.lt_succ_of_lt (hw.lt _ _ h)
  · intro r ds h; exact Nat.lt_succ_of_lt (hw.ev _ _ h)
  · intro r R₁ r' R₁' h h' he
    rcases hreg r R₁ h with ⟨rfl, e⟩ | ⟨-, h3⟩ <;> rcases hreg r' R₁' h' with ⟨rfl, e'⟩ | ⟨-, h4⟩
    · rfl
    · exact absurd (by rw [← he, e, hn]) (hnew _ _ h4)
    · exact absurd (by rw [he, e', hn]) (hnew _ _ h3)
    · exact hw.names _ _ _ _ h3 h4 he
  · intro h1 h2 h3 r R₁ m₁ hR hm hrd ht
    rcases hreg r R₁ hR with ⟨rfl, -⟩ | ⟨hne, hR⟩
    · obtain ⟨ds, hd⟩ := ht
      exact absurd (hw.ev _ _ hd) (lt_irrefl _)
    · have hm : Function.update w.models w.nextRegion (some m) r = some m₁ := hm
      rw [Function.update_of_ne hne] at hm
      exact hw.stored h1 h2 h3 r R₁ m₁ hR hm hrd ht

theorem StoreInv.created {env : Env M} (hs : Storing env.ops) {w w' : World M} {nf n mt : ℤ}
    {name info yaml : Str} {r : ℕ} (hw : StoreInv env w)
    (hnew : ∀ r R, w.regions r = some R → R.name ≠ truncName name)
    (h : createRegion env w nf name n mt info yaml = .ok (r, w')) : StoreInv env w' := by
  unfold createRegion at h
  obtain ⟨⟨r₀, w₀⟩, h0, h⟩ := (Res.bind_eq_ok _ _ _).1 h
  obtain ⟨w₁, h1, h⟩ := (Res.bind_eq_ok _ _ _).1 h
  obtain ⟨w₂, h2, h⟩ := (Res.bind_eq_ok _ _ _).1 h
  obtain ⟨w₃, h3, h⟩ := (Res.bind_eq_ok _ _ _).1 h
  obtain ⟨w₄, h4, h⟩ := (Res.bind_eq_ok _ _ _).1 h
  obtain ⟨w₅, h5, h⟩ := (Res.bind_eq_ok _ _ _).1 h
  obtain ⟨R, hR, h⟩ := (Res.bind_eq_ok _ _ _).1 h
  obtain ⟨mc, hmc, h⟩ := (Res.bind_eq_ok _ _ _).1 h
  simp only [Except.ok.injEq, Prod.mk.injEq] at h
  obtain ⟨rfl, rfl⟩ := h
  have a0 := hw.construct hnew h0
  have a1 : StoreInv env w₁ := by
    unfold loadPersistent at h1
    split at h1
    · cases h1; exact a0
    · obtain ⟨R', hR', h1⟩ := (Res.bind_eq_ok _ _ _).1 h1
      obtain ⟨ds, hds, h1⟩ := (Res.bind_eq_ok _ _ _).1 h1
      have : StoreInv env (w₀.setRegion r₀ { R' with dataset := ds }) :=
        a0.same rfl rfl (regions_update (World.region_ok.1 hR') rfl rfl rfl) rfl (fun _ _ => id) rfl
      exact this.auto hs h1
  have a2 : StoreInv env w₂ := by
    unfold loadDatasetParam at h2
    obtain ⟨R', hR', h2⟩ := (Res.bind_eq_ok _ _ _).1 h2
    split at h2
    · cases h2; exact a1
    · split at h2
      · cases h2
      · obtain ⟨ds, hds, h2⟩ := (Res.bind_eq_ok _ _ _).1 h2
        split at h2
        · cases h2
        · have : StoreInv env (w₁.setRegion r₀ { R' with dataset := ds }) :=
            a1.same rfl rfl (regions_update (World.region_ok.1 hR') rfl rfl rfl) rfl
              (fun _ _ => id) rfl
          exact (StoreInv.stepwise hs (fun _ => True)).toKept.regionTrain (fun _ => trivial) this h2
  have a3 : StoreInv env w₃ := by
    unfold loadOptimalFile at h3
    obtain ⟨R', hR', h3⟩ := (Res.bind_eq_ok _ _ _).1 h3
    split at h3
    next hn =>
      split at h3
      · cases h3
      · obtain ⟨m, hm, h3⟩ := (Res.bind_eq_ok _ _ _).1 h3
        obtain ⟨m', hm', h3⟩ := (Res.bind_eq_ok _ _ _).1 h3
        cases h3
        refine a2.frame ⟨w₂.cfg.globalPeriod, rfl⟩ le_rfl (fun r R h => ⟨R, h, rfl, rfl⟩) ?_
          (fun r ds h => ⟨a2.ev _ _ h, fun _ _ _ => ⟨ds, h⟩⟩) (fun _ _ _ => rfl)
        intro r' R₁ m₁ hR₁ hm₁ hrd
        have hm₁ : Function.update w₂.models r₀ (some m') r' = some m₁ := hm₁
        by_cases heq : r' = r₀
        · subst heq
          have hR₁ : w₂.regions r' = some R₁ := hR₁
          rw [World.region_ok.1 hR'] at hR₁
          cases hR₁
          exact absurd (Or.inr hn) hrd
        · rw [Function.update_of_ne heq] at hm₁; exact ⟨m₁, hm₁, rfl, rfl⟩
    · cases h3; exact a2
  have a4 : StoreInv env w₄ := by
    unfold loadDatasetMap at h4
    obtain ⟨R', hR', h4⟩ := (Res.bind_eq_ok _ _ _).1 h4
    split at h4
    next hn =>
      split at h4
      · cases h4
      · obtain ⟨ds, hds, h4⟩ := (Res.bind_eq_ok _ _ _).1 h4
        split at h4
        · cases h4
        · obtain ⟨m, hm, h4⟩ := (Res.bind_eq_ok _ _ _).1 h4
          obtain ⟨m', hm', h4⟩ := (Res.bind_eq_ok _ _ _).1 h4
          cases h4
          have hR' := World.region_ok.1 hR'
          have hreads : ∀ R₁, Function.update w₃.regions r₀ (some { R' with dataset := ds }) r₀ =
              some R₁ → R₁.reads := by
            intro R₁ h
            rw [Function.update_self] at h
            cases h
            exact Or.inl hn
          refine a3.frame ⟨w₃.cfg.globalPeriod, rfl⟩ le_rfl
            (regions_update hR' (R' := { R' with dataset := ds }) rfl rfl rfl) ?_ ?_ (fun _ _ _ => rfl)
          · intro r' R₁ m₁ hR₁ hm₁ hrd
            have hm₁ : Function.update w₃.models r₀ (some m') r' = some m₁ := hm₁
            by_cases heq : r' = r₀
            · subst heq
              exact absurd (hreads _ hR₁) hrd
            · rw [Function.update_of_ne heq] at hm₁; exact ⟨m₁, hm₁, rfl, rfl⟩
          · intro r' ds' h
            have h : _ ∈ w₃.log ++ [Ev.trained r₀ ds] := h
            rw [List.mem_append, List.mem_singleton] at h
            rcases h with h | h
            · exact ⟨a3.ev _ _ h, fun _ _ _ => ⟨ds', h⟩⟩
            · cases h
              exact ⟨a3.lt _ _ hR', fun R₁ hR₁ hrd => absurd (hreads _ hR₁) hrd⟩
    · cases h4; exact a3
  have a5 : StoreInv env w₅ := by
    obtain ⟨R', hR', ⟨-, -, rfl⟩ | ⟨-, rfl⟩⟩ := startTrace_cases h5
    · exact a4.same rfl rfl (regions_update (World.region_ok.1 hR') rfl rfl rfl) rfl
        (fun _ _ => id) rfl
    · exact a4
  exact a5.same rfl rfl (fun r R h => ⟨R, h, rfl, rfl⟩) rfl (emit_trained (by simp)) rfl

/-- A region whose model is not trainable after loading, or that reads no dataset, keeps it during
construction. -/
theorem createRegion_loads {env : Env M} {w w' : World M} {nf n mt : ℤ} {name info : Str}
    {r : ℕ} {R : Region} (h : createRegion env w nf name n mt info [] = .ok (r, w'))
    (hR : w'.regions r = some R) (hl : R.params.find "load".toList = some []) :
    ∃ t m₀ m₁, w.files (loadPath w.cfg env.rank R.modelName R.name) = some t ∧
      env.ops.create w.tick R.modelName nf n R.params = .ok m₀ ∧
      env.ops.load (some t) m₀ = .ok m₁ ∧
      (env.ops.isTrainable m₁ = false ∨
        w.cfg.persistent = false ∧ R.params.find "load-dataset".toList = none →
        ¬ R.reads → w'.models r = some m₁) := by
  unfold createRegion at h
  obtain ⟨⟨r₀, w₀⟩, h0, h⟩ := (Res.bind_eq_ok _ _ _).1 h
  obtain ⟨w₁, h1, h⟩ := (Res.bind_eq_ok _ _ _).1 h
  obtain ⟨w₂, h2, h⟩ := (Res.bind_eq_ok _ _ _).1 h
  obtain ⟨w₃, h3, h⟩ := (Res.bind_eq_ok _ _ _).1 h
  obtain ⟨w₄, h4, h⟩ := (Res.bind_eq_ok _ _ _).1 h
  obtain ⟨w₅, h5, h⟩ := (Res.bind_eq_ok _ _ _).1 h
  obtain ⟨R₅, hR₅, h⟩ := (Res.bind_eq_ok _ _ _).1 h
  obtain ⟨mc, hmc, h⟩ := (Res.bind_eq_ok _ _ _).1 h
  simp only [Except.ok.injEq, Prod.mk.injEq] at h
  obtain ⟨rfl, rfl⟩ := h
  have hR : w₅.regions r₀ = some R := hR
  -- the members set first
  unfold constructRegion at h0
  obtain ⟨⟨mn, ps⟩, g1, h0⟩ := (Res.bind_eq_ok _ _ _).1 h0
  obtain ⟨⟨mn', ps', info'⟩, g2, h0⟩ := (Res.bind_eq_ok _ _ _).1 h0
  obtain ⟨m₀, g3, h0⟩ := (Res.bind_eq_ok _ _ _).1 h0
  obtain ⟨m₀', g4, h0⟩ := (Res.bind_eq_ok _ _ _).1 h0
  obtain ⟨m₁, g5, hfin0⟩ := (Res.bind_eq_ok _ _ _).1 h0
  simp only [loadYaml, if_true, Except.ok.injEq] at g4
  subst g4
  simp only [Except.ok.injEq, Prod.mk.injEq] at hfin0
  obtain ⟨hr0, hw0⟩ := hfin0
  have hcfg0 : w₀.cfg = w.cfg := by rw [← hw0]; rfl
  obtain ⟨R₀, hR0, e1, e2, e3, hp0, hm0⟩ : ∃ R₀ : Region, w₀.regions r₀ = some R₀ ∧
      R₀.name = truncName name ∧ R₀.modelName = mn' ∧ R₀.params = ps' ∧ R₀.pending = [] ∧
      w₀.models r₀ = some m₁ := by
    refine ⟨_, by rw [← hw0, ← hr0]; exact Function.update_self .., rfl, rfl, rfl, rfl, ?_⟩
    rw [← hw0, ← hr0]; exact Function.update_self ..
  -- later steps keep them
  obtain ⟨l1, b1⟩ := loadPersistent_built hR0 h1
  obtain ⟨Ra, da, ta, hRa, ea⟩ := b1.regions
  rw [hR0] at hRa; cases hRa
  have hR1 : w₁.regions r₀ = some { R₀ with dataset := da, trace := ta } := by
    rw [ea, Function.update_self]
  obtain ⟨l2, b2⟩ := loadDatasetParam_built hR1 hp0 h2
  obtain ⟨Rb, db, tb, hRb, eb⟩ := b2.regions
  rw [hR1] at hRb; cases hRb
  have hR2 : w₂.regions r₀ = some { R₀ with dataset := db, trace := tb } := by
    rw [eb, Function.update_self]
  obtain ⟨l3, b3⟩ := loadOptimalFile_built hR2 h3
  obtain ⟨Rc, dc, tc, hRc, ec⟩ := b3.regions
  rw [hR2] at hRc; cases hRc
  have hR3 : w₃.regions r₀ = some { R₀ with dataset := dc, trace := tc } := by
    rw [ec, Function.update_self]
  obtain ⟨l4, b4⟩ := loadDatasetMap_built hR3 h4
  obtain ⟨Rd, dd, td, hRd, ed⟩ := b4.regions
  rw [hR3] at hRd; cases hRd
  have hR4 : w₄.regions r₀ = some { R₀ with dataset := dd, trace := td } := by
    rw [ed, Function.update_self]
  have h5 := startTrace_ok hR4 h5
  have hfin : R.name = R₀.name ∧ R.modelName = R₀.modelName ∧ R.params = R₀.params := by
    rw [h5] at hR
    split at hR
    · simp only [World.setRegion, Function.update_self, Option.some.injEq] at hR
      subst hR; exact ⟨rfl, rfl, rfl⟩
    · rw [hR4] at hR; cases hR; exact ⟨rfl, rfl, rfl⟩
  obtain ⟨f1, f2, f3⟩ := hfin
  rw [f3, e3] at hl
  unfold loadModel at g5
  rw [hl] at g5
  simp only [if_true] at g5
  rw [f1, f2, f3, e1, e2, e3]
  split at g5
  · cases g5
  next t ht =>
    refine ⟨t, m₀, m₁, ht, g3, g5, fun htr hrd => ?_⟩
    have hrd0 : ¬ R₀.reads := by unfold Region.reads at hrd ⊢; rw [← f2]; exact hrd
    have q1 : w₁.models r₀ = some m₁ := by
      unfold loadPersistent at h1
      split at h1
      · cases h1; exact hm0
      next hper =>
        obtain ⟨R', hR', h1⟩ := (Res.bind_eq_ok _ _ _).1 h1
        obtain ⟨ds, hds, h1⟩ := (Res.bind_eq_ok _ _ _).1 h1
        unfold autoTrain at h1
        obtain ⟨R', hR', h1⟩ := (Res.bind_eq_ok _ _ _).1 h1
        obtain ⟨m', hm', h1⟩ := (Res.bind_eq_ok _ _ _).1 h1
        have hm' : w₀.models r₀ = some m' := World.model_ok.1 hm'
        rw [hm0] at hm'
        cases hm'
        rcases htr with htr | htr
        · rw [if_pos (by rw [htr]; rfl)] at h1
          cases h1
          exact hm0
        · exact absurd (by rw [hcfg0, htr.1]; rfl) hper
    have q2 : w₂.models r₀ = some m₁ := by
      unfold loadDatasetParam at h2
      obtain ⟨R', hR', h2⟩ := (Res.bind_eq_ok _ _ _).1 h2
      split at h2
      · cases h2; exact q1
      next hld =>
        have htr : env.ops.isTrainable m₁ = false := by
          rcases htr with htr | htr
          · exact htr
          · have hR' := World.region_ok.1 hR'
            rw [hR1] at hR'
            cases hR'
            dsimp only at hld
            rw [e3, htr.2] at hld
            cases hld
        split at h2
        · cases h2
        · obtain ⟨ds, hds, h2⟩ := (Res.bind_eq_ok _ _ _).1 h2
          split at h2
          · cases h2
          · rcases regionTrain_ok h2 with ⟨rfl, -⟩ | ⟨hh, -⟩
            · exact q1
            · rcases hh with hh | ⟨m', hm', ht'⟩
              · cases hh
              · have hm' : w₁.models r₀ = some m' := hm'
                rw [q1] at hm'
                cases hm'
                rw [htr] at ht'
                cases ht'
    have q3 : w₃ = w₂ := by
      unfold loadOptimalFile at h3
      obtain ⟨R', hR', h3⟩ := (Res.bind_eq_ok _ _ _).1 h3
      have hR' := World.region_ok.1 hR'
      rw [hR2] at hR'
      cases hR'
      rw [if_neg (fun hh => hrd0 (Or.inr hh))] at h3
      cases h3; rfl
    have q4 : w₄ = w₃ := by
      unfold loadDatasetMap at h4
      obtain ⟨R', hR', h4⟩ := (Res.bind_eq_ok _ _ _).1 h4
      have hR' := World.region_ok.1 hR'
      rw [hR3] at hR'
      cases hR'
      rw [if_neg (fun hh => hrd0 (Or.inl hh))] at h4
      cases h4; rfl
    show w₅.models r₀ = some m₁
    rw [h5]
    split
    · show w₄.models r₀ = _; rw [q4, q3, q2]
    · rw [q4, q3, q2]

/-- The names given to the regions a program creates. -/
def Op.created : Op → Option Str
  | .create _ name _ _ _ _ => some (truncName name)
  | _ => none

/-- Live regions have names from the list. -/
def NamedIn (N : List Str) (w : World M) : Prop := ∀ r R, w.regions r = some R → R.name ∈ N

theorem NamedIn.of {N : List Str} {w w' : World M} (hw : NamedIn N w)
    (h : ∀ r R, w'.regions r = some R → ∃ R₀, w.regions r = some R₀ ∧ R.name = R₀.name) :
    NamedIn N w' := by
  intro r R hR
  obtain ⟨R₀, h1, h2⟩ := h r R hR
  rw [h2]
  exact hw _ _ h1

theorem regions_name {w w' : World M} {r : ℕ} {R R' : Region} (hR : w.regions r = some R)
    (h : w'.regions = Function.update w.regions r (some R')) (h1 : R'.name = R.name) :
    ∀ r R, w'.regions r = some R → ∃ R₀, w.regions r = some R₀ ∧ R.name = R₀.name := by
  intro r' R₁ hR₁
  rw [h] at hR₁
  by_cases heq : r' = r
  · subst heq
    rw [Function.update_self, Option.some.injEq] at hR₁
    subst hR₁
    exact ⟨R, hR, h1⟩
  · rw [Function.update_of_ne heq] at hR₁; exact ⟨R₁, hR₁, rfl⟩

theorem NamedIn.stepwise (env : Env M) (F : ℕ → Prop) (N : List Str) :
    Stepwise env F (NamedIn (M := M) N) := by
  have hst : Stable env F (NamedIn (M := M) N) := by
    refine Stable.of ?_ ?_ ?_ ?_
    · intro w l w' ht hw
      exact hw.of fun r R h => ⟨R, by rw [← ht.regions]; exact h, rfl⟩
    · intro w c hw; exact hw
    · intro w r c m w' hw h
      obtain ⟨R, m, C, l, h1⟩ := collectContext_ok h
      exact NamedIn.of (w := w) hw (regions_name (w := w) h1.region h1.regions rfl)
    · intro w r R cs hw hR; exact hw.of (regions_name hR rfl rfl)
  exact {
    toKept := hst.kept
    finish := hst.finish
    began := fun w r c R C w' hw h => hw.of (regions_name h.region h.regions rfl)
    assigned := fun _ _ _ _ hw _ => hw
    feature := fun _ _ _ _ hw _ => hw
    chose := fun _ _ _ _ _ _ _ _ hw _ _ _ _ => hw
    stop := fun _ _ _ _ hw _ => hw
    ended := fun _ _ _ _ hw hR _ _ => hw.of (regions_name hR rfl rfl)
    period := fun _ hw => hw
    destroyed := by
      intro w r R hw _ _ r' R' h
      have e : (afterDestroy env w r R).regions = Function.update w.regions r none := by
        obtain ⟨f, hf⟩ := afterDestroy_eq env w r R; rw [hf]; rfl
      rw [e] at h
      by_cases heq : r' = r
      · subst heq; rw [Function.update_self] at h; cases h
      · rw [Function.update_of_ne heq] at h; exact hw _ _ h }

/-- Programs whose regions have different names keep the files of trained models up to date. -/
theorem StoreInv.exec {env : Env M} (hs : Storing env.ops) {ops : List Op} {N : List Str}
    {w w' : World M} (hw : StoreInv env w) (hN : NamedIn N w)
    (hd : (N ++ ops.filterMap Op.created).Nodup) (h : exec env ops w = .ok w') :
    StoreInv env w' := by
  induction ops generalizing w N with
  | nil => simp only [Apollo.exec] at h; cases h; exact hw
  | cons op ops ih =>
    simp only [Apollo.exec] at h
    obtain ⟨⟨x, w₁⟩, h1, h⟩ := (Res.bind_eq_ok _ _ _).1 h
    have hstep : (∀ nf name n mt info yaml, op ≠ .create nf name n mt info yaml) →
        StoreInv env w₁ ∧ NamedIn N w₁ := by
      intro hne
      refine ⟨(StoreInv.stepwise hs fun _ => True).step (fun _ _ _ _ => trivial) ?_ hw h1,
        (NamedIn.stepwise env (fun _ => True) N).step (fun _ _ _ _ => trivial) ?_ hN h1⟩
      all_goals intro nf name n mt info yaml he; exact absurd he (hne nf name n mt info yaml)
    have simple : Op.created op = none →
        (∀ nf name n mt info yaml, op ≠ .create nf name n mt info yaml) := by
      intro he nf name n mt info yaml h
      subst h
      cases he
    cases hop : Op.created op with
    | none =>
      obtain ⟨b1, b2⟩ := hstep (simple hop)
      refine ih b1 b2 ?_ h
      simpa [List.filterMap_cons, hop] using hd
    | some nm =>
      cases op with
      | create nf name n mt info yaml =>
        simp only [Op.created, Option.some.injEq] at hop
        obtain ⟨⟨r, w₂⟩, h2, h1⟩ := (Res.bind_eq_ok _ _ _).1 h1
        cases h1
        have hd' : (N ++ truncName name :: ops.filterMap Op.created).Nodup := by
          simpa [List.filterMap_cons, Op.created] using hd
        refine ih (N := N ++ [truncName name]) (hw.created hs ?_ h2) ?_ (by simpa using hd') h
        · intro r' R' hR' he
          have h3 := hN _ _ hR'
          rw [he] at h3
          exact (List.disjoint_of_nodup_append hd') h3 List.mem_cons_self
        · obtain ⟨R, m, l, hc⟩ := createRegion_ok h2
          intro r' R' hR'
          rw [hc.regions] at hR'
          by_cases heq : r' = r
          · subst heq; rw [Function.update_self] at hR'; cases hR'; rw [hc.name]; simp
          · rw [Function.update_of_ne heq] at hR'
            exact List.mem_append_left _ (hN _ _ hR')
      | _ => simp [Op.created] at hop

end Apollo
