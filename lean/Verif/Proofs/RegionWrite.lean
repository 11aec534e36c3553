import Verif.Proofs.RegionPersist
import Verif.Proofs.RegionQuiet

/-!
# Files that cannot be opened for writing
-/

namespace Apollo

variable {M : Type} {env : Env M}

/-- The contents of a file. -/
def FileHolds (p : Str) (x : Option Str) (w : World M) : Prop := w.files p = x

theorem FileHolds.of {p : Str} {x : Option Str} {w w' : World M} (h : FileHolds p x w)
    (e : w'.files = w.files) : FileHolds p x w' := by unfold FileHolds; rw [e]; exact h

/-- No dataset, model or list of best policies is written to the file. -/
def Spared (env : Env M) (p : Str) : Prop :=
  env.canWrite p = false ∨ ((∀ cfg name, datasetPath cfg name ≠ p) ∧
    (∀ cfg rank k s name, stepPath cfg rank k s name ≠ p) ∧
    (∀ cfg rank k name, storePath cfg rank k name ≠ p) ∧ ∀ rank s name, bestPath rank s name ≠ p)

theorem Spared.dataset {p : Str} (h : Spared env p) (cfg : Cfg) (name : Str) :
    env.canWrite p = false ∨ datasetPath cfg name ≠ p := h.imp id fun h => h.1 cfg name

theorem Spared.step {p : Str} (h : Spared env p) (cfg : Cfg) (rank : ℤ) (k : Str) (s : ℤ) (name : Str) :
    env.canWrite p = false ∨ stepPath cfg rank k s name ≠ p := h.imp id fun h => h.2.1 cfg rank k s name

theorem Spared.latest {p : Str} (h : Spared env p) (cfg : Cfg) (rank : ℤ) (k name : Str) :
    env.canWrite p = false ∨ storePath cfg rank k name ≠ p := h.imp id fun h => h.2.2.1 cfg rank k name

theorem Spared.best {p : Str} (h : Spared env p) (rank s : ℤ) (name : Str) :
    env.canWrite p = false ∨ bestPath rank s name ≠ p := h.imp id fun h => h.2.2.2 rank s name

theorem FileHolds.write {p : Str} {x : Option Str} {w : World M} {q : Str}
    (hp : env.canWrite p = false ∨ q ≠ p) (h : FileHolds p x w) (t : Option Str) :
    FileHolds p x (w.write env q t) := by
  cases t with
  | none => exact h
  | some t =>
    unfold World.write
    dsimp only
    split
    next hc =>
      show Function.update w.files q (some t) p = x
      rw [Function.update_of_ne (by
        rintro rfl
        rcases hp with hp | hp
        · rw [hp] at hc; cases hc
        · exact hp rfl)]
      exact h
    next => exact h

theorem FileHolds.body {p : Str} {x : Option Str} (hp : Spared env p) {w w' : World M}
    {r : ℕ} {s : ℤ} (hw : FileHolds p x w) (h : trainBody env w r s = .ok w') : FileHolds p x w' := by
  obtain ⟨R, -, ⟨-, rfl⟩ | ⟨-, w₀, hb, hR, m, m', hm, -, hst⟩⟩ := trainBody_files h
  · exact hw
  · replace hw : FileHolds p x w₀ := by
      unfold traceBest at hb
      split at hb
      · obtain ⟨t, -, hb⟩ := (Res.bind_eq_ok _ _ _).1 hb
        cases hb
        exact FileHolds.write (hp.best _ _ _) hw _
      · cases hb
        exact hw
    rcases hst with ⟨-, rfl⟩ | ⟨-, t, -, rfl⟩
    · exact hw.of rfl
    · refine FileHolds.write (hp.latest _ _ _ _) (FileHolds.write (hp.step _ _ _ _ _) ?_ _) _
      exact hw

theorem FileHolds.auto {p : Str} {x : Option Str} (hp : Spared env p) {w w' : World M}
    {r : ℕ} (hw : FileHolds p x w) (h : autoTrain env w r = .ok w') : FileHolds p x w' :=
  autoTrain_induct (FileHolds p x) (fun _ _ _ _ hw h => hw.body hp h)
    (fun _ _ _ _ hw _ h => hw.of (trainAllWith_files h).1) hw h

theorem FileHolds.stable (F : ℕ → Prop) {p : Str} (x : Option Str) (hp : Spared env p) :
    Stable env F (FileHolds (M := M) p x) where
  advance := fun _ hw => hw.of rfl
  body := fun _ _ _ _ _ _ hw _ h => hw.body hp h
  single := fun _ _ _ _ hw _ h => hw.of (trainAllWith_files h).1
  waiting := fun _ _ hw => hw.of rfl
  finish := by
    intro w r c x' w' hw h
    obtain ⟨R, m, C, w₁, w₂, R₂, hR, hm, hC, h1, h2, h3, rfl⟩ := collectContext_steps h
    obtain ⟨f1, f2, f3, f4, f5, f6, f7, f8, f9, f10⟩ :=
      record_frame env (w.emit (.finished r c x')) r R m c C x'
    have a1 : FileHolds p x w₁ := FileHolds.auto hp (FileHolds.of (w := w) hw f8) h1
    have a2 : FileHolds p x w₂ := by
      rcases destroyContext_ok h2 with ⟨-, rfl⟩ | ⟨n, -, -, rfl⟩
      · exact a1
      · exact a1.of rfl
    exact a2.of rfl
  pending := fun _ _ _ _ hw _ => hw.of rfl

theorem FileHolds.created {p : Str} {x : Option Str} (hp : Spared env p) {w w' : World M}
    {nf n mt : ℤ} {name info yaml : Str} {r : ℕ} (hw : FileHolds p x w)
    (h : createRegion env w nf name n mt info yaml = .ok (r, w')) : FileHolds p x w' := by
  unfold createRegion at h
  obtain ⟨⟨r₀, w₀⟩, h0, h⟩ := (Res.bind_eq_ok _ _ _).1 h
  obtain ⟨w₁, h1, h⟩ := (Res.bind_eq_ok _ _ _).1 h
  obtain ⟨w₂, h2, h⟩ := (Res.bind_eq_ok _ _ _).1 h
  obtain ⟨w₃, h3, h⟩ := (Res.bind_eq_ok _ _ _).1 h
  obtain ⟨w₄, h4, h⟩ := (Res.bind_eq_ok _ _ _).1 h
  obtain ⟨w₅, h5, h⟩ := (Res.bind_eq_ok _ _ _).1 h
  obtain ⟨R, hR, h⟩ := (Res.bind_eq_ok _ _ _).1 h
  obtain ⟨mc, hmc, h⟩ := (Res.bind_eq_ok _ _ _).1 h
  cases h
  obtain ⟨R₀, m, -, -, -, -, -, -, -, -, -, -, -, hw0⟩ := constructRegion_ok h0
  have a0 : FileHolds p x w₀ := hw.of (by rw [hw0]; rfl)
  have a1 : FileHolds p x w₁ := by
    unfold loadPersistent at h1
    split at h1
    · cases h1; exact a0
    · obtain ⟨R, hR, h1⟩ := (Res.bind_eq_ok _ _ _).1 h1
      obtain ⟨ds, hds, h1⟩ := (Res.bind_eq_ok _ _ _).1 h1
      refine FileHolds.auto hp ?_ h1
      exact a0
  have a2 : FileHolds p x w₂ := by
    unfold loadDatasetParam at h2
    obtain ⟨R, hR, h2⟩ := (Res.bind_eq_ok _ _ _).1 h2
    split at h2
    · cases h2; exact a1
    · split at h2
      · cases h2
      · obtain ⟨ds, hds, h2⟩ := (Res.bind_eq_ok _ _ _).1 h2
        split at h2
        · cases h2
        · refine (FileHolds.stable (fun _ => True) x hp).kept.regionTrain (fun _ => trivial) ?_ h2
          exact a1
  have a3 : FileHolds p x w₃ := by
    unfold loadOptimalFile at h3
    obtain ⟨R, hR, h3⟩ := (Res.bind_eq_ok _ _ _).1 h3
    split at h3
    · split at h3
      · cases h3
      · obtain ⟨_, _, h3⟩ := (Res.bind_eq_ok _ _ _).1 h3
        obtain ⟨_, _, h3⟩ := (Res.bind_eq_ok _ _ _).1 h3
        cases h3; exact a2.of rfl
    · cases h3; exact a2
  have a4 : FileHolds p x w₄ := by
    unfold loadDatasetMap at h4
    obtain ⟨R, hR, h4⟩ := (Res.bind_eq_ok _ _ _).1 h4
    split at h4
    · split at h4
      · cases h4
      · obtain ⟨_, _, h4⟩ := (Res.bind_eq_ok _ _ _).1 h4
        split at h4
        · cases h4
        · obtain ⟨_, _, h4⟩ := (Res.bind_eq_ok _ _ _).1 h4
          obtain ⟨_, _, h4⟩ := (Res.bind_eq_ok _ _ _).1 h4
          cases h4; exact a3.of rfl
    · cases h4; exact a3
  have a5 : FileHolds p x w₅ := by
    obtain ⟨R, hR, ⟨-, -, rfl⟩ | ⟨-, rfl⟩⟩ := startTrace_cases h5
    · exact a4.of rfl
    · exact a4
  exact a5.of rfl

/-- What destruction writes. -/
theorem FileHolds.destroyed {p : Str} {x : Option Str} {w : World M} (hp : Spared env p)
    (hw : FileHolds p x w) (r : ℕ) (R : Region) : FileHolds p x (afterDestroy env w r R) := by
  unfold afterDestroy
  dsimp only
  split
  · exact FileHolds.of (FileHolds.write (hp.dataset _ _) hw _) rfl
  · exact hw.of rfl

/-- A file that cannot be opened for writing stays as it is. -/
theorem FileHolds.invariant (F : ℕ → Prop) {p : Str} (x : Option Str) (hp : env.canWrite p = false) :
    Invariant env F (FileHolds (M := M) p x) where
  toKept := (FileHolds.stable F x (.inl hp)).kept
  finish := (FileHolds.stable F x (.inl hp)).finish
  created := fun _ _ _ _ _ _ _ _ _ hw h => hw.created (.inl hp) h
  began := fun w r c R C w' hw h => hw.of h.files
  assigned := fun w c C f hw _ => hw.of rfl
  feature := fun w c C v hw _ => hw.of rfl
  traced := by
    intro w R m f c w' hw h
    unfold tracePolicy at h
    split at h
    · obtain ⟨t, -, h⟩ := (Res.bind_eq_ok _ _ _).1 h
      cases h
      exact FileHolds.write (.inl hp) hw _
    · cases h
      exact hw
  chose := fun w r c R m C p m' hw _ _ _ _ => hw.of rfl
  stop := fun w c C t hw _ => hw.of rfl
  ended := fun w r c R hw _ _ _ => hw.of rfl
  period := fun w hw => hw.of rfl
  destroyed := fun _ r R hw _ _ => hw.destroyed (.inl hp) r R

open Spec

theorem parent_tracePath {cfg : Cfg} {rank : ℤ} {info name : Str} (hi : '/' ∉ info)
    (hn : '/' ∉ name) : parent (tracePath cfg rank info name) = tracesDirectory cfg := by
  have h : tracePath cfg rank info name = tracesDirectory cfg ++ '/' :: ("trace-".toList ++ info ++
      "-region-".toList ++ name ++ "-rank-".toList ++ fmtInt rank ++ ".csv".toList) := by
    unfold tracePath tracesDirectory
    simp [List.append_assoc]
  rw [h]
  refine parent_append (by simp [tracesDirectory]) ?_
  simp only [List.mem_append, not_or]
  exact ⟨⟨⟨⟨⟨⟨by decide, hi⟩, by decide⟩, hn⟩, by decide⟩, slash_not_mem_fmtInt rank⟩, by decide⟩

theorem parent_tracePath_slash {cfg : Cfg} {rank : ℤ} {info name : Str} (h : '/' ∈ info ∨ '/' ∈ name) :
    tracesDirectory cfg ++ "/trace-".toList <+: parent (tracePath cfg rank info name) := by
  have e : tracePath cfg rank info name = (tracesDirectory cfg ++ "/trace-".toList) ++ (info ++
      "-region-".toList ++ name ++ "-rank-".toList ++ fmtInt rank ++ ".csv".toList) := by
    unfold tracePath tracesDirectory
    simp [List.append_assoc]
  rw [e]
  refine parent_prefix (by simp) ?_
  simp only [List.mem_append]
  tauto

theorem parent_datasetPath {cfg : Cfg} {name : Str} (hn : '/' ∉ name) :
    parent (datasetPath cfg name) = datasetsDirectory cfg := by
  have h : datasetPath cfg name = datasetsDirectory cfg ++ '/' :: ("Dataset-".toList ++ name ++
      ".yaml".toList) := by
    unfold datasetPath datasetsDirectory
    simp [List.append_assoc]
  rw [h]
  refine parent_append (by simp [datasetsDirectory]) ?_
  simp only [List.mem_append, not_or]
  exact ⟨⟨by decide, hn⟩, by decide⟩

theorem parent_storePath {cfg : Cfg} {rank : ℤ} {kind name : Str} (hk : '/' ∉ kind)
    (hn : '/' ∉ name) : parent (storePath cfg rank kind name) = modelsDirectory cfg := by
  have h : storePath cfg rank kind name = modelsDirectory cfg ++ '/' :: (kind ++
      ("-latest".toList ++ "-rank-".toList) ++ fmtInt rank ++ "-".toList ++ name ++ ".yaml".toList) := by
    unfold storePath modelsDirectory
    simp [List.append_assoc]
  rw [h]
  refine parent_append (by simp [modelsDirectory]) ?_
  simp only [List.mem_append, not_or]
  exact ⟨⟨⟨⟨⟨hk, by decide, by decide⟩, slash_not_mem_fmtInt rank⟩, by decide⟩, hn⟩, by decide⟩

theorem parent_stepPath {cfg : Cfg} {rank s : ℤ} {kind name : Str} (hk : '/' ∉ kind)
    (hn : '/' ∉ name) : parent (stepPath cfg rank kind s name) = modelsDirectory cfg := by
  have h : stepPath cfg rank kind s name = modelsDirectory cfg ++ '/' :: (kind ++
      "-step-".toList ++ fmtInt s ++ "-rank-".toList ++ fmtInt rank ++ "-".toList ++ name ++
      ".yaml".toList) := by
    unfold stepPath modelsDirectory
    simp [List.append_assoc]
  rw [h]
  refine parent_append (by simp [modelsDirectory]) ?_
  simp only [List.mem_append, not_or]
  exact ⟨⟨⟨⟨⟨⟨⟨hk, by decide⟩, slash_not_mem_fmtInt s⟩, by decide⟩, slash_not_mem_fmtInt rank⟩,
    by decide⟩, hn⟩, by decide⟩

theorem parent_datasetPath_slash {cfg : Cfg} {name : Str} (h : '/' ∈ name) :
    datasetsDirectory cfg ++ "/Dataset-".toList <+: parent (datasetPath cfg name) := by
  have e : datasetPath cfg name = (datasetsDirectory cfg ++ "/Dataset-".toList) ++ (name ++
      ".yaml".toList) := by
    unfold datasetPath datasetsDirectory
    simp [List.append_assoc]
  rw [e]
  refine parent_prefix (by simp) ?_
  simp only [List.mem_append]
  tauto

/-- Names and model strings without slashes have traces in the directory of the traces. -/
theorem opens_of {isDir : Str → Bool} {cfg : Cfg} (hg : Granted env.canWrite isDir)
    (hd : isDir (tracesDirectory cfg) = true) (hp : '/' ∉ cfg.policyModel) {w : World M}
    (hw : CfgIs cfg w) {op : Op} (ho : NoSlash op) : Opens env w op := by
  cases op with
  | create nf name n mt info yaml =>
    intro r w' R hb hR
    obtain ⟨h1, h2, mn, ps, mn', ps', h3, h4⟩ := createBefore_region hb hR
    obtain ⟨G, hG⟩ := hw
    have hi : '/' ∉ (if info = [] then w.cfg.policyModel else info) := by
      split
      · rw [hG]; exact hp
      · exact ho.2
    have hi' : '/' ∉ R.modelInfo :=
      resolveStaticRegion_slash hi (fun k v hv => parsePolicyModel_slash hi h3 hv) h4
    have hn : '/' ∉ R.name := by
      rw [h2]; exact fun hm => ho.1 (List.mem_of_mem_take hm)
    refine hg _ ?_
    rw [parent_tracePath hi' hn, h1, hG]
    exact hd
  | _ => trivial

theorem results_quiet {isDir : Str → Bool} {cfg : Cfg} (hg : Granted env.canWrite isDir)
    (hd : isDir (tracesDirectory cfg) = true) (hp : '/' ∉ cfg.policyModel) {ops : List Op}
    (ho : ∀ op ∈ ops, NoSlash op) {w : World M} (hw : CfgIs cfg w) :
    results env ops (quiet w) = quiet2 <$> results env ops w := by
  induction ops generalizing w with
  | nil => rfl
  | cons op ops ih =>
    simp only [results]
    rw [step_quiet (opens_of hg hd hp hw (ho _ List.mem_cons_self)), bind_map_left, map_bind]
    cases hs : step env w op with
    | error e => rfl
    | ok x =>
      obtain ⟨x, v⟩ := x
      have hv : CfgIs cfg v := (CfgIs.invariant env (fun _ => True) cfg).step (fun _ _ _ _ => trivial) hw hs
      show (results env ops (quiet v) >>= _) = _ <$> (results env ops v >>= _)
      rw [ih (fun op h => ho _ (List.mem_cons_of_mem _ h)) hv, bind_map_left, map_bind]
      exact bind_congr fun _ => rfl

theorem sameButTraces_of {v w : World M} (h : quiet v = quiet w) : SameButTraces v w := by
  have hr : ∀ r, (v.regions r).map Region.quiet = (w.regions r).map Region.quiet :=
    fun r => congrFun (congrArg World.regions h) r
  refine ⟨⟨w.cfg.traceCsv, ?_⟩, fun r => ?_, (congrArg World.models h).symm,
    (congrArg World.nextRegion h).symm, (congrArg World.ctxs h).symm, (congrArg World.nextCtx h).symm,
    (congrArg World.registry h).symm, (congrArg World.executions h).symm,
    (congrArg World.files h).symm, (congrArg World.log h).symm⟩
  · have hc : ({ v.cfg with traceCsv := false } : Cfg) = { w.cfg with traceCsv := false } :=
      congrArg World.cfg h
    have := congrArg (fun c : Cfg => ({ c with traceCsv := w.cfg.traceCsv } : Cfg)) hc
    exact this.symm
  · have := hr r
    cases hv : v.regions r with
    | none =>
      rw [hv] at this
      left
      exact ⟨rfl, Option.map_eq_none_iff.1 this.symm⟩
    | some R =>
      rw [hv, Option.map_some] at this
      obtain ⟨R', h1, h2⟩ := Option.map_eq_some_iff.1 this.symm
      refine .inr ⟨R, R', rfl, h1, R'.trace, ?_⟩
      have := congrArg (fun x : Region => ({ x with trace := R'.trace } : Region)) h2
      exact this

end Apollo
