import Verif.Proofs.RegionData

/-!
# Which regions are trained; the registry; models that stopped learning
-/

namespace Apollo

open Spec

variable {M : Type}

/-! ## The registry -/

/-- Names and registered regions. -/
structure RegInv (w : World M) : Prop where
  sorted : OMap.Sorted w.registry
  fresh : ∀ k r, (k, r) ∈ w.registry → r < w.nextRegion
  nodup : (w.registry.map Prod.snd).Nodup
  name : ∀ k r R, (k, r) ∈ w.registry → w.regions r = some R → R.name = k
  first : ∀ r R, w.regions r = some R → ∃ r', OMap.find w.registry R.name = some r' ∧ r' ≤ r

theorem mem_insertNew {m : OMap Str ℕ} (hs : OMap.Sorted m) {k k' : Str} {r r' : ℕ}
    (h : (k', r') ∈ OMap.insertNew k r m) :
    (k', r') ∈ m ∨ (k' = k ∧ r' = r ∧ OMap.find m k = none) := by
  have hs' : OMap.Sorted (OMap.insertNew k r m) := OMap.Sorted.upsert hs _ _
  rw [← hs'.find_eq_some_iff, OMap.find_insertNew hs] at h
  split at h
  next he =>
    subst he
    cases hf : OMap.find m k' with
    | none => rw [hf] at h; simp at h; exact .inr ⟨rfl, h.symm, rfl⟩
    | some v =>
      rw [hf] at h
      simp at h
      subst h
      exact .inl (OMap.mem_of_find_eq_some hf)
  · exact .inl (OMap.mem_of_find_eq_some h)

theorem upsert_values (m : OMap Str ℕ) (k : Str) (r : ℕ) :
    ∀ x ∈ (OMap.insertNew k r m).map Prod.snd, x = r ∨ x ∈ m.map Prod.snd := by
  induction m with
  | nil => simp [OMap.insertNew, OMap.upsert]
  | cons a m ih =>
    obtain ⟨k', v⟩ := a
    simp only [OMap.insertNew, OMap.upsert]
    split
    · simp
    · split
      · intro x hx
        exact .inr hx
      · intro x hx
        simp only [List.map_cons, List.mem_cons] at hx ⊢
        rcases hx with rfl | hx
        · exact .inr (.inl rfl)
        · rcases ih x hx with h | h
          · exact .inl h
          · exact .inr (.inr h)

theorem insertNew_nodup {m : OMap Str ℕ} {k : Str} {r : ℕ} (h : (m.map Prod.snd).Nodup)
    (hr : r ∉ m.map Prod.snd) : ((OMap.insertNew k r m).map Prod.snd).Nodup := by
  induction m with
  | nil => simp [OMap.insertNew, OMap.upsert]
  | cons a m ih =>
    obtain ⟨k', v⟩ := a
    simp only [List.map_cons, List.nodup_cons, List.mem_cons, not_or] at h hr
    simp only [OMap.insertNew, OMap.upsert]
    split
    · simp only [List.map_cons, List.nodup_cons, List.mem_cons, not_or]
      exact ⟨⟨hr.1, hr.2⟩, h⟩
    · split
      · simp only [List.map_cons, List.nodup_cons]
        exact h
      · simp only [List.map_cons, List.nodup_cons]
        refine ⟨fun hv => ?_, ih h.2 hr.2⟩
        rcases upsert_values m k r v hv with hv | hv
        · exact hr.1 hv.symm
        · exact h.1 hv

/-- Steps that keep names and the registry. -/
theorem RegInv.frame {w w' : World M} (hw : RegInv w) (hreg : w'.registry = w.registry)
    (hn : w'.nextRegion = w.nextRegion)
    (hr : ∀ r R, w'.regions r = some R → ∃ R', w.regions r = some R' ∧ R.name = R'.name) :
    RegInv w' := by
  refine ⟨by rw [hreg]; exact hw.sorted, by rw [hreg, hn]; exact hw.fresh,
    by rw [hreg]; exact hw.nodup, ?_, ?_⟩
  · intro k r R hk hR
    obtain ⟨R', hR', e⟩ := hr r R hR
    rw [hreg] at hk
    rw [e]; exact hw.name k r R' hk hR'
  · intro r R hR
    obtain ⟨R', hR', e⟩ := hr r R hR
    rw [hreg, e]; exact hw.first r R' hR'

theorem update_name {w w' : World M} {r : ℕ} {R R' : Region} (hR : w.regions r = some R)
    (h : w'.regions = Function.update w.regions r (some R')) (hn : R'.name = R.name) :
    ∀ r₁ R₁, w'.regions r₁ = some R₁ → ∃ R₂, w.regions r₁ = some R₂ ∧ R₁.name = R₂.name := by
  intro r₁ R₁ h₁
  rw [h] at h₁
  by_cases heq : r₁ = r
  · subst heq; rw [Function.update_self] at h₁; cases h₁; exact ⟨R, hR, hn⟩
  · rw [Function.update_of_ne heq] at h₁; exact ⟨R₁, h₁, rfl⟩

theorem RegInv.stable (env : Env M) (F : ℕ → Prop) : Stable env F (RegInv (M := M)) := by
  refine Stable.of ?_ ?_ ?_ ?_
  · intro w l w' ht hw
    exact hw.frame ht.registry ht.nextRegion fun r R h => ⟨R, by rw [← ht.regions]; exact h, rfl⟩
  · intro w c hw
    exact hw.frame rfl rfl fun r R h => ⟨R, h, rfl⟩
  · intro w r c m w' hw h
    obtain ⟨R, m', C, l, h1⟩ := collectContext_ok h
    exact hw.frame h1.registry h1.nextRegion (update_name h1.region h1.regions rfl)
  · intro w r R cs hw hR
    exact hw.frame rfl rfl (update_name hR rfl rfl)

theorem RegInv.created {env : Env M} {w w' : World M} {nf n mt : ℤ} {name yaml : Str} {r : ℕ}
    {R : Region} {m : M} {l : List Ev} (hw : RegInv w)
    (h : CreatedAs env w nf name n mt yaml r R m l w') : RegInv w' := by
  have hid := h.id
  have hnm : r ∉ w.registry.map Prod.snd := by
    intro hm
    obtain ⟨⟨k, r'⟩, hk, he⟩ := List.mem_map.1 hm
    have h1 := hw.fresh k r' hk
    have h2 : r' = r := he
    omega
  refine ⟨?_, ?_, ?_, ?_, ?_⟩
  · rw [h.registry]; exact OMap.Sorted.upsert hw.sorted _ _
  · intro k r' hk
    rw [h.registry] at hk
    rw [h.nextRegion]
    rcases mem_insertNew hw.sorted hk with hk | ⟨_, rfl, _⟩
    · have := hw.fresh k r' hk
      omega
    · omega
  · rw [h.registry]; exact insertNew_nodup hw.nodup hnm
  · intro k r' R' hk hR'
    rw [h.registry] at hk
    rw [h.regions] at hR'
    rcases mem_insertNew hw.sorted hk with hk | ⟨rfl, rfl, _⟩
    · have := hw.fresh k r' hk
      rw [Function.update_of_ne (by omega)] at hR'
      exact hw.name k r' R' hk hR'
    · rw [Function.update_self] at hR'; cases hR'; rfl
  · intro r' R' hR'
    rw [h.registry, OMap.find_insertNew hw.sorted]
    rw [h.regions] at hR'
    by_cases heq : r' = r
    · subst heq
      rw [Function.update_self] at hR'
      cases hR'
      rw [if_pos rfl]
      cases hf : OMap.find w.registry R.name with
      | none => exact ⟨r', rfl, le_refl _⟩
      | some v =>
        have := hw.fresh _ _ (OMap.mem_of_find_eq_some hf)
        exact ⟨v, rfl, by omega⟩
    · rw [Function.update_of_ne heq] at hR'
      obtain ⟨r'', h1, h2⟩ := hw.first r' R' hR'
      split
      next hn =>
        rw [hn] at h1
        exact ⟨r'', by rw [h1]; rfl, h2⟩
      next => exact ⟨r'', h1, h2⟩

theorem RegInv.invariant (env : Env M) (F : ℕ → Prop) :
    Invariant env F (fun w : World M => LogInv w ∧ RegInv w) where
  advance := fun w h => ⟨(LogInv.invariant env F).advance _ h.1, (RegInv.stable env F).advance _ h.2⟩
  body := fun w₀ w r s w' h0 h hF ht =>
    ⟨(LogInv.invariant env F).body w₀ w r s w' h0.1 h.1 hF ht,
      (RegInv.stable env F).body w₀ w r s w' h0.2 h.2 hF ht⟩
  single := fun w ds rs w' h hs ht =>
    ⟨(LogInv.invariant env F).single w ds rs w' h.1 hs ht,
      (RegInv.stable env F).single w ds rs w' h.2 hs ht⟩
  collect := fun w r w' h hc =>
    ⟨(LogInv.invariant env F).collect w r w' h.1 hc,
      (RegInv.stable env F).kept.collect w r w' h.2 hc⟩
  finish := fun w r c m w' h hc =>
    ⟨(LogInv.invariant env F).finish _ _ _ _ _ h.1 hc, (RegInv.stable env F).finish _ _ _ _ _ h.2 hc⟩
  created := by
    rintro w nf name n mt info yaml r w' ⟨hI, hw⟩ h
    refine ⟨(LogInv.invariant env F).created _ _ _ _ _ _ _ _ _ hI h, ?_⟩
    obtain ⟨R, m, l, h1⟩ := createRegion_ok h
    exact hw.created h1
  began := by
    rintro w r c R C w' ⟨hI, hw⟩ h
    exact ⟨hI.began h, hw.frame h.registry h.nextRegion (update_name h.region h.regions rfl)⟩
  assigned := fun w c C f h hC => ⟨(LogInv.invariant env F).assigned _ _ _ _ h.1 hC,
    h.2.frame rfl rfl fun r R h => ⟨R, h, rfl⟩⟩
  feature := fun w c C v h hC => ⟨(LogInv.invariant env F).feature _ _ _ _ h.1 hC,
    h.2.frame rfl rfl fun r R h => ⟨R, h, rfl⟩⟩
  chose := fun w r c R m C p m' h hR hm hC hp =>
    ⟨(LogInv.invariant env F).chose _ _ _ _ _ _ _ _ h.1 hR hm hC hp,
      h.2.frame rfl rfl fun r R h => ⟨R, h, rfl⟩⟩
  stop := fun w c C t h hC => ⟨(LogInv.invariant env F).stop _ _ _ _ h.1 hC,
    h.2.frame rfl rfl fun r R h => ⟨R, h, rfl⟩⟩
  ended := fun w r c R h hR hC hne => ⟨(LogInv.invariant env F).ended _ _ _ _ h.1 hR hC hne,
    h.2.frame rfl rfl (update_name hR rfl rfl)⟩
  period := fun w h => ⟨(LogInv.invariant env F).period _ h.1,
    h.2.frame rfl rfl fun r R h => ⟨R, h, rfl⟩⟩
  destroyed := by
    rintro w r R ⟨hI, hw⟩ hR hp
    obtain ⟨f1, f2, f3, f4, f5, f6, f7, f8, f9⟩ := afterDestroy_frame env w r R
    refine ⟨hI.destroyed hR, hw.frame f9 f5 ?_⟩
    intro r' R' h'
    rw [f1] at h'
    by_cases heq : r' = r
    · subst heq; simp at h'
    · rw [Function.update_of_ne heq] at h'; exact ⟨R', h', rfl⟩

theorem regInv_init (cfg : Cfg) (files : Str → Option Str) :
    RegInv (initWorld cfg files : World M) := by
  have hr : (initWorld cfg files : World M).regions = fun _ => none := rfl
  have hg : (initWorld cfg files : World M).registry = [] := rfl
  generalize (initWorld cfg files : World M) = w at hr hg
  refine ⟨?_, ?_, ?_, ?_, ?_⟩ <;> simp [hr, hg, OMap.Sorted]

/-! ## Which regions a training trains -/

/-- What a training of region `r` does, if its model says it is trainable and there is data. -/
def due (env : Env M) (models : ℕ → Option M) (data : ℕ → Option Dataset) (r : ℕ) : List Ev :=
  match models r, data r with
  | some m, some ds => if env.ops.isTrainable m = true ∧ ds.size ≠ 0 then [.trained r ds] else []
  | _, _ => []

/-- The datasets of the live regions. -/
def World.data (w : World M) (r : ℕ) : Option Dataset := (w.regions r).map Region.dataset

theorem due_mem {env : Env M} {models : ℕ → Option M} {data : ℕ → Option Dataset} {r r' : ℕ}
    {ds : Dataset} (h : Ev.trained r' ds ∈ due env models data r) : r' = r := by
  unfold due at h
  split at h
  · split at h
    · rw [List.mem_singleton] at h; cases h; rfl
    · cases h
  · cases h

/-- The regions `rs` were trained, each as due. -/
structure Fired (env : Env M) (rs : List ℕ) (w w' : World M) : Prop where
  trained : Trained env w (rs.flatMap (due env w.models w.data)) w'
  model : ∀ r ∈ rs, ∀ ds, Ev.trained r ds ∈ due env w.models w.data r → ∃ m m' t,
    w.models r = some m ∧ env.ops.train t ds m = .ok m' ∧ w'.models r = some m'

theorem trainNoCollect_fired {env : Env M} {w w' : World M} {r : ℕ} {s : ℤ}
    (h : trainNoCollect env w r s false = .ok w') : Fired env [r] w w' := by
  unfold trainNoCollect at h
  obtain ⟨m, hm, h⟩ := (Res.bind_eq_ok _ _ _).1 h
  have hm := World.model_ok.1 hm
  split at h
  next hc =>
    cases h
    simp only [Bool.not_false, Bool.true_and, Bool.not_eq_eq_eq_not, Bool.not_true] at hc
    have hd : due env w.models w.data r = [] := by
      unfold due; rw [hm]; split <;> simp_all
    refine ⟨?_, ?_⟩
    · simp only [List.flatMap_cons, List.flatMap_nil, hd, List.append_nil]; exact Trained.refl _ _
    · intro r' hr ds hds
      rw [List.mem_singleton] at hr
      subst hr
      rw [hd] at hds
      cases hds
  next hc =>
    simp only [Bool.not_false, Bool.true_and, Bool.not_eq_eq_eq_not, Bool.not_true,
      Bool.not_eq_false] at hc
    obtain ⟨R, hR, ⟨he, rfl⟩ | ⟨he, ht, m₁, m', hm₁, ht', hm'⟩⟩ := trainBody_exact h
    · have hd : due env w'.models w'.data r = [] := by
        simp [due, hm, World.data, hR, he]
      refine ⟨?_, ?_⟩
      · simp only [List.flatMap_cons, List.flatMap_nil, hd, List.append_nil]; exact Trained.refl _ _
      · intro r' hr ds hds
        rw [List.mem_singleton] at hr
        subst hr
        rw [hd] at hds
        cases hds
    · have hd : due env w.models w.data r = [.trained r R.dataset] := by
        simp [due, hm, World.data, hR, he, hc]
      refine ⟨?_, ?_⟩
      · simp only [List.flatMap_cons, List.flatMap_nil, hd, List.append_nil]; exact ht
      · intro r' hr ds hds
        rw [List.mem_singleton] at hr
        subst hr
        rw [hd, List.mem_singleton] at hds
        cases hds
        exact ⟨m₁, m', _, hm₁, ht', hm'⟩

theorem forRegions_fired {env : Env M} {s : ℤ} {rs : List ℕ} {w w' : World M} (hn : rs.Nodup)
    (h : forRegions (trainNoCollectOf env s) rs w = .ok w') : Fired env rs w w' := by
  induction rs generalizing w with
  | nil =>
    simp only [forRegions] at h
    cases h
    exact ⟨Trained.refl _ _, by simp⟩
  | cons r rs ih =>
    simp only [forRegions] at h
    obtain ⟨w₁, h1, h⟩ := (Res.bind_eq_ok _ _ _).1 h
    obtain ⟨R, hR, h1⟩ := (Res.bind_eq_ok _ _ _).1 h1
    rw [List.nodup_cons] at hn
    have f1 := trainNoCollect_fired h1
    have f2 := ih hn.2 h
    have hl : [r].flatMap (due env w.models w.data) = due env w.models w.data r := by simp
    have ht := f1.trained
    rw [hl] at ht
    have hkeep : ∀ r', r' ≠ r → w₁.models r' = w.models r' := by
      intro r' hr
      exact ht.models r' fun ds hd => hr (due_mem hd)
    have hdata : w₁.data = w.data := by
      funext r'; simp [World.data, ht.regions]
    have hdue : ∀ r' ∈ rs, due env w₁.models w₁.data r' = due env w.models w.data r' := by
      intro r' hr
      have hne : r' ≠ r := fun he => hn.1 (by rw [← he]; exact hr)
      unfold due
      rw [hkeep r' hne, hdata]
    have hfl : rs.flatMap (due env w₁.models w₁.data) = rs.flatMap (due env w.models w.data) :=
      List.flatMap_congr fun r' hr => hdue r' hr
    refine ⟨?_, ?_⟩
    · rw [List.flatMap_cons, ← hfl]
      exact ht.trans f2.trained
    · intro r' hr ds hd
      rcases List.mem_cons.1 hr with rfl | hr
      · obtain ⟨m, m', t, h2, h3, h4⟩ := f1.model r' (by simp) ds hd
        refine ⟨m, m', t, h2, h3, ?_⟩
        rw [f2.trained.models r', h4]
        intro ds' hd'
        obtain ⟨r'', hr'', hd''⟩ := List.mem_flatMap.1 hd'
        rw [due_mem hd''] at hn
        exact hn.1 hr''
      · have hne : r' ≠ r := fun he => hn.1 (by rw [← he]; exact hr)
        obtain ⟨m, m', t, h2, h3, h4⟩ := f2.model r' hr ds (by rw [hdue r' hr]; exact hd)
        exact ⟨m, m', t, by rw [← hkeep r' hne]; exact h2, h3, h4⟩

theorem due_frame {env : Env M} {w w' : World M} (h1 : w'.models = w.models) (h2 : w'.data = w.data) :
    due env w'.models w'.data = due env w.models w.data := by rw [h1, h2]

/-- The training at the end of an execution. -/
theorem autoTrain_fired {env : Env M} {w w' : World M} {r : ℕ} {R : Region} {m : M}
    (hR : w.regions r = some R) (hm : w.models r = some m) (hs : w.cfg.single = false)
    (hn : (w.registry.map Prod.snd).Nodup) (h : autoTrain env w r = .ok w') :
    Fired env
      (if env.ops.isTrainable m = false then []
        else if w.cfg.globalPeriod ≠ 0 ∧ w.executions % (w.cfg.globalPeriod % 2 ^ 64).toNat = 0 then
          w.registry.map Prod.snd
        else if w.cfg.perRegionPeriod ≠ 0 ∧ R.idx.tmod w.cfg.perRegionPeriod = 0 then [r]
        else if 0 < R.minTraining ∧ R.minTraining ≤ R.dataset.size then [r]
        else []) w w' := by
  have hnil : Fired env [] w w := ⟨Trained.refl _ _, by simp⟩
  unfold autoTrain at h
  obtain ⟨R', hR', h⟩ := (Res.bind_eq_ok _ _ _).1 h
  obtain ⟨m', hm', h⟩ := (Res.bind_eq_ok _ _ _).1 h
  rw [World.region_ok.1 hR'] at hR
  rw [World.model_ok.1 hm'] at hm
  cases hR; cases hm
  cases ht : env.ops.isTrainable m with
  | false =>
    rw [ht] at h
    simp only [Bool.not_false, if_true] at h
    cases h
    simpa using hnil
  | true =>
    rw [ht] at h
    simp only [Bool.not_true, Bool.false_eq_true, if_false] at h
    rw [if_neg (by simp)]
    split at h
    next hg =>
      rw [if_pos hg]
      unfold apolloTrainNoCollect apolloTrainWith at h
      split at h
      · cases h
      · rw [hs] at h
        simp only [Bool.false_eq_true, if_false] at h
        exact forRegions_fired hn h
    next hg =>
      rw [if_neg hg]
      split at h
      next hp =>
        rw [if_pos hp]
        exact trainNoCollect_fired h
      next hp =>
        rw [if_neg hp]
        split at h
        next hq => rw [if_pos hq]; exact trainNoCollect_fired h
        next hq => rw [if_neg hq]; cases h; exact hnil

/-! ## A region with data is trained by a training of all regions -/

/-- Region `r` was trained since `w₀`, or nothing happened to its model and it still has data. -/
def Served (w₀ : World M) (r : ℕ) (m : M) (w : World M) : Prop :=
  ∃ l, w.log = w₀.log ++ l ∧ ((∃ ds, Ev.trained r ds ∈ l) ∨
    (w.models r = some m ∧ ∃ R, w.regions r = some R ∧ R.dataset.size ≠ 0))

theorem insert_size_ne_zero (ds : Dataset) (f : Features) (p : ℤ) (x : ℚ) :
    (ds.insert f p x).size ≠ 0 := by
  unfold Dataset.insert Dataset.size
  cases ds with
  | nil => simp [OMap.upsert]
  | cons a m =>
    obtain ⟨k, v⟩ := a
    simp only [OMap.upsert]
    split
    · simp
    · split <;> simp

theorem Served.stable (env : Env M) (w₀ : World M) (r : ℕ) (m : M) :
    Stable env (fun _ => True) (Served w₀ r m) := by
  refine Stable.of ?_ ?_ ?_ ?_
  · rintro w l w' ht ⟨l₀, hl, h⟩
    refine ⟨l₀ ++ l, by rw [ht.log, hl, List.append_assoc], ?_⟩
    rcases h with ⟨ds, hd⟩ | ⟨hm, R, hR, hs⟩
    · exact .inl ⟨ds, List.mem_append_left _ hd⟩
    · by_cases hx : ∃ ds, Ev.trained r ds ∈ l
      · obtain ⟨ds, hd⟩ := hx
        exact .inl ⟨ds, List.mem_append_right _ hd⟩
      · refine .inr ⟨?_, R, by rw [ht.regions]; exact hR, hs⟩
        rw [ht.models r fun ds hd => hx ⟨ds, hd⟩]; exact hm
  · rintro w c ⟨l₀, hl, h⟩
    refine ⟨l₀ ++ [.waiting c], by simp [World.emit, hl], ?_⟩
    exact h.imp (fun ⟨ds, hd⟩ => ⟨ds, List.mem_append_left _ hd⟩) id
  · rintro w r' c x w' ⟨l₀, hl, h⟩ h1
    obtain ⟨R', m', C, l, h2⟩ := collectContext_ok h1
    refine ⟨l₀ ++ (.finished r' c x :: l), by rw [h2.log]; simp [World.emit, hl], ?_⟩
    rcases h with ⟨ds, hd⟩ | ⟨hm, R, hR, hs⟩
    · exact .inl ⟨ds, List.mem_append_left _ hd⟩
    · by_cases hx : ∃ ds, Ev.trained r ds ∈ l
      · obtain ⟨ds, hd⟩ := hx
        exact .inl ⟨ds, List.mem_append_right _ (List.mem_cons_of_mem _ hd)⟩
      · refine .inr ⟨?_, ?_⟩
        · rw [h2.models r fun ds hd => hx ⟨ds, hd⟩]; exact hm
        · rw [h2.regions]
          by_cases heq : r = r'
          · subst heq
            refine ⟨_, Function.update_self _ _ _, ?_⟩
            have h3 : w.regions r = some R' := h2.region
            rw [hR] at h3
            cases h3
            simp only [recRegion]
            split
            · exact insert_size_ne_zero _ _ _ _
            · exact hs
          · exact ⟨R, by rw [Function.update_of_ne heq]; exact hR, hs⟩
  · rintro w r' R' cs ⟨l₀, hl, h⟩ hR'
    refine ⟨l₀, hl, h.imp id fun ⟨hm, R, hR, hs⟩ => ⟨hm, ?_⟩⟩
    by_cases heq : r = r'
    · subst heq
      rw [hR] at hR'
      cases hR'
      exact ⟨{ R' with pending := cs }, by simp [World.setRegion], hs⟩
    · exact ⟨R, by simp [World.setRegion, heq, hR], hs⟩

theorem Served.train {env : Env M} {w₀ w w' : World M} {r : ℕ} {m : M} {s : ℤ} {c : Bool}
    (ht : env.ops.isTrainable m = true) (hw : Served w₀ r m w)
    (h : regionTrain env w r s c false = .ok w') :
    ∃ l ds, w'.log = w₀.log ++ l ∧ Ev.trained r ds ∈ l := by
  have hS := Served.stable env w₀ r m
  rcases regionTrain_ok h with ⟨rfl, _, m', hm', ht'⟩ | ⟨-, w₁, h1, h2⟩
  · obtain ⟨l, hl, ⟨ds, hd⟩ | ⟨hm, _⟩⟩ := hw
    · exact ⟨l, ds, hl, hd⟩
    · rw [hm] at hm'
      cases hm'
      rw [ht] at ht'
      cases ht'
  · have hw1 : Served w₀ r m w₁ := by
      rcases h1 with ⟨_, h1⟩ | ⟨_, rfl⟩
      · exact hS.collectPending hw h1
      · exact hw
    obtain ⟨l, hl, hh⟩ := hw1
    obtain ⟨R, hR, ⟨he, rfl⟩ | ⟨he, ht', _⟩⟩ := trainBody_exact h2
    · rcases hh with ⟨ds, hd⟩ | ⟨_, R', hR', hs⟩
      · exact ⟨l, ds, hl, hd⟩
      · rw [hR] at hR'
        cases hR'
        exact absurd he hs
    · exact ⟨l ++ [.trained r R.dataset], R.dataset, by rw [ht'.log, hl, List.append_assoc], by simp⟩

theorem forRegions_served {env : Env M} {w₀ w w' : World M} {r : ℕ} {m : M} {s : ℤ} {c : Bool}
    (ht : env.ops.isTrainable m = true) {rs : List ℕ} (hr : r ∈ rs) (hw : Served w₀ r m w)
    (h : forRegions (fun w r => regionTrain env w r s c false) rs w = .ok w') :
    ∃ l ds, w'.log = w₀.log ++ l ∧ Ev.trained r ds ∈ l := by
  have hS := (Served.stable env w₀ r m).kept
  have after : ∀ (rs : List ℕ) (w : World M),
      (∃ l ds, w.log = w₀.log ++ l ∧ Ev.trained r ds ∈ l) →
      forRegions (fun w r => regionTrain env w r s c false) rs w = .ok w' →
      ∃ l ds, w'.log = w₀.log ++ l ∧ Ev.trained r ds ∈ l := by
    intro rs w hw h
    have hK : Stable env (fun _ => True)
        (fun w : World M => ∃ l ds, w.log = w₀.log ++ l ∧ Ev.trained r ds ∈ l) := by
      refine Stable.of ?_ ?_ ?_ ?_
      · rintro w l w' ht ⟨l₀, ds, hl, hd⟩
        exact ⟨l₀ ++ l, ds, by rw [ht.log, hl, List.append_assoc], List.mem_append_left _ hd⟩
      · rintro w c ⟨l₀, ds, hl, hd⟩
        exact ⟨l₀ ++ [.waiting c], ds, by simp [World.emit, hl], List.mem_append_left _ hd⟩
      · rintro w r' c x w' ⟨l₀, ds, hl, hd⟩ h1
        obtain ⟨R', m', C, l, h2⟩ := collectContext_ok h1
        exact ⟨l₀ ++ (.finished r' c x :: l), ds, by rw [h2.log]; simp [World.emit, hl],
          List.mem_append_left _ hd⟩
      · rintro w r' R' cs h1 _
        exact h1
    exact forRegions_induct _ (fun _ _ _ hw h => hK.kept.regionTrain (fun _ => trivial) hw h) hw h
  induction rs generalizing w with
  | nil => cases hr
  | cons r' rs ih =>
    simp only [forRegions] at h
    obtain ⟨w₁, h1, h⟩ := (Res.bind_eq_ok _ _ _).1 h
    by_cases heq : r' = r
    · subst heq
      exact after rs w₁ (hw.train ht h1) h
    · exact ih ((List.mem_cons.1 hr).resolve_left (Ne.symm heq))
        (hS.regionTrain (fun _ => trivial) hw h1) h

/-! ## Models that stopped learning -/

/-- A model that is not trainable and does not change when asked. -/
structure Frozen (ops : ModelOps M) (m : M) : Prop where
  trainable : ops.isTrainable m = false
  index : ∀ f p m', ops.getIndex m f = .ok (p, m') → m' = m

/-- The model of region `r` is `m` and its dataset `ds`, as long as it exists. -/
structure Settled (w : World M) (r : ℕ) (m : M) (ds : Dataset) : Prop where
  single : w.cfg.single = false
  lt : r < w.nextRegion
  model : ∀ m', w.models r = some m' → m' = m
  data : w.cfg.persistent = false → ∀ R, w.regions r = some R → R.dataset = ds

theorem Settled.frame {w w' : World M} {r : ℕ} {m : M} {ds : Dataset} (hw : Settled w r m ds)
    (hc : w'.cfg.single = w.cfg.single) (hp : w'.cfg.persistent = w.cfg.persistent)
    (hn : w.nextRegion ≤ w'.nextRegion)
    (hr : ∀ R, w'.regions r = some R → ∃ R', w.regions r = some R' ∧ R.dataset = R'.dataset)
    (hm : ∀ m', w'.models r = some m' → w.models r = some m' ∨ m' = m) : Settled w' r m ds := by
  refine ⟨by rw [hc]; exact hw.single, lt_of_lt_of_le hw.lt hn,
    fun m' h => (hm m' h).elim (hw.model m') id, fun h R hR => ?_⟩
  obtain ⟨R', hR', e⟩ := hr R hR
  rw [e]; exact hw.data (by rw [← hp]; exact h) R' hR'

theorem update_dataset {w w' : World M} {r r₁ : ℕ} {R R' : Region} (hR : w.regions r₁ = some R)
    (h : w'.regions = Function.update w.regions r₁ (some R')) (hn : R'.dataset = R.dataset) :
    ∀ R₁, w'.regions r = some R₁ → ∃ R₂, w.regions r = some R₂ ∧ R₁.dataset = R₂.dataset := by
  intro R₁ h₁
  rw [h] at h₁
  by_cases heq : r = r₁
  · subst heq; rw [Function.update_self] at h₁; cases h₁; exact ⟨R, hR, hn⟩
  · rw [Function.update_of_ne heq] at h₁; exact ⟨R₁, h₁, rfl⟩

/-- A step that has no training of `r` unless its model is trainable. -/
theorem Settled.models {env : Env M} {w w' : World M} {r : ℕ} {m : M} {ds : Dataset} {x : Option ℕ}
    {l : List Ev} (ht : env.ops.isTrainable m = false) (hw : Settled w r m ds) (hx : x ≠ some r)
    (hc : Calm env x w l) (hlive : (w'.models r).isSome = (w.models r).isSome)
    (hm : (∀ ds, Ev.trained r ds ∉ l) → w'.models r = w.models r) :
    ∀ m', w'.models r = some m' → w.models r = some m' := by
  intro m' hm'
  cases h : w.models r with
  | none => rw [h, hm'] at hlive; cases hlive
  | some m₀ =>
    have h0 := hw.model m₀ h
    subst h0
    rw [hm (hc hw.single r m₀ hx.symm h ht), h] at hm'
    exact hm'

theorem Settled.finished {env : Env M} {w w' : World M} {r : ℕ} {m : M} {ds : Dataset}
    (ht : env.ops.isTrainable m = false) (hw : Settled w r m ds) {r₁ : ℕ} {c : CtxPtr} {x : ℚ}
    (h : collectContext env (w.emit (.finished r₁ c x)) r₁ c x = .ok w') : Settled w' r m ds := by
  obtain ⟨R, m₁, C, l, h1⟩ := collectContext_ok h
  have hcfg : w'.cfg = w.cfg := h1.cfg
  have hnr : w'.nextRegion = w.nextRegion := h1.nextRegion
  have hm₁ : w.models r₁ = some m₁ := h1.model
  have hreg : w'.regions = Function.update w.regions r₁
      (some (recRegion env (w.emit (.finished r₁ c x)) R m₁ C x)) := h1.regions
  have hR₁ : w.regions r₁ = some R := h1.region
  have hw' : Settled (w.emit (.finished r₁ c x)) r m ds :=
    hw.frame rfl rfl (le_refl _) (fun R h => ⟨R, h, rfl⟩) fun _ => .inl
  refine ⟨by rw [hcfg]; exact hw.single, by rw [hnr]; exact hw.lt, ?_, ?_⟩
  · intro m' hm'
    exact hw.model m' (hw'.models ht (by simp) h1.calm (h1.live r) (h1.models r) m' hm')
  · intro hp R' hR'
    rw [hcfg] at hp
    rw [hreg] at hR'
    by_cases heq : r = r₁
    · subst heq
      rw [Function.update_self] at hR'
      cases hR'
      have := hw.model m₁ hm₁
      subst this
      have hl : learns env (w.emit (.finished r c x)) m₁ = false := by
        simp only [learns, Bool.or_eq_false_iff]
        exact ⟨hp, ht⟩
      simp only [recRegion, hl, Bool.false_eq_true, if_false]
      exact hw.data hp R hR₁
    · rw [Function.update_of_ne heq] at hR'
      exact hw.data hp R' hR'

theorem Settled.stable {env : Env M} {r : ℕ} {m : M} {ds : Dataset}
    (hf : env.ops.isTrainable m = false) :
    Stable env (fun r' => r' ≠ r) (fun w : World M => Settled w r m ds) where
  advance := fun w hw => hw.frame rfl rfl (le_refl _) (fun R h => ⟨R, h, rfl⟩) fun _ => .inl
  body := by
    intro w₀ w r₁ s w' h0 hw hF h
    obtain ⟨R, hR, ⟨_, rfl⟩ | ⟨_, ht, m₁, m', hm₁, _, _⟩⟩ := trainBody_exact h
    · exact hw
    · have heq : r₁ ≠ r := by
        intro heq
        rcases hF with hF | ⟨m₂, hm₂, ht₂⟩
        · exact hF heq
        · rw [heq] at hm₂
          rw [h0.model m₂ hm₂, hf] at ht₂
          cases ht₂
      refine hw.frame (by rw [ht.cfg]) (by rw [ht.cfg]) (le_of_eq ht.nextRegion.symm)
        (fun R h => ⟨R, by rw [← ht.regions]; exact h, rfl⟩) ?_
      intro m' hm
      rw [ht.models r] at hm
      · exact .inl hm
      · intro ds' hd
        rw [List.mem_singleton] at hd
        cases hd
        exact heq rfl
  single := by
    intro w ds' rs w' hw hs _
    rw [hw.single] at hs
    cases hs
  waiting := fun w c hw => hw.frame rfl rfl (le_refl _) (fun R h => ⟨R, h, rfl⟩) fun _ => .inl
  finish := fun w r₁ c x w' hw h => hw.finished hf h
  pending := fun w r₁ R cs hw hR =>
    hw.frame rfl rfl (le_refl _) (update_dataset hR rfl rfl) fun _ => .inl

theorem Settled.invariant {env : Env M} {r : ℕ} {m : M} {ds : Dataset} (hf : Frozen env.ops m) :
    Invariant env (fun r' => r' ≠ r) (fun w : World M => Settled w r m ds) where
  toKept := (Settled.stable hf.trainable).kept
  finish := (Settled.stable hf.trainable).finish
  created := by
    intro w nf name n mt info yaml r₁ w' hw h
    obtain ⟨R, m₁, l, h1⟩ := createRegion_ok h
    have hne : r ≠ r₁ := by have := hw.lt; have := h1.id; omega
    refine hw.frame (by rw [h1.cfg]) (by rw [h1.cfg]) (by have := h1.id; have := h1.nextRegion; omega)
      ?_ ?_
    · intro R' hR'
      rw [h1.regions, Function.update_of_ne hne] at hR'
      exact ⟨R', hR', rfl⟩
    · intro m' hm'
      exact .inl (hw.models hf.trainable (by simp; exact hne.symm) h1.calm (h1.live r hne)
        (h1.models r hne) m' hm')
  began := fun w r₁ c R C w' hw h => hw.frame (by rw [h.cfg]) (by rw [h.cfg])
    (le_of_eq h.nextRegion.symm) (update_dataset h.region h.regions rfl)
    fun m' hm' => .inl (by rw [← h.models]; exact hm')
  assigned := fun w c C f hw _ =>
    hw.frame rfl rfl (le_refl _) (fun R h => ⟨R, h, rfl⟩) fun _ => .inl
  feature := fun w c C f hw _ =>
    hw.frame rfl rfl (le_refl _) (fun R h => ⟨R, h, rfl⟩) fun _ => .inl
  chose := by
    intro w r₁ c R m₁ C p m' hw _ hm _ hp
    refine hw.frame rfl rfl (le_refl _) (fun R h => ⟨R, h, rfl⟩) ?_
    intro m₂ hm₂
    by_cases heq : r = r₁
    · subst heq
      have h1 : Function.update w.models r (some m') r = some m₂ := hm₂
      rw [Function.update_self] at h1
      cases h1
      have := hw.model m₁ hm
      subst this
      exact .inr (hf.index _ _ _ hp)
    · have h1 : Function.update w.models r₁ (some m') r = some m₂ := hm₂
      rw [Function.update_of_ne heq] at h1
      exact .inl h1
  stop := fun w c C t hw _ =>
    hw.frame rfl rfl (le_refl _) (fun R h => ⟨R, h, rfl⟩) fun _ => .inl
  ended := fun w r₁ c R hw hR _ _ =>
    hw.frame rfl rfl (le_refl _) (update_dataset hR rfl rfl) fun _ => .inl
  period := fun w hw => hw.frame rfl rfl (le_refl _) (fun R h => ⟨R, h, rfl⟩) fun _ => .inl
  destroyed := by
    intro w r₁ R hw hR hp
    obtain ⟨f1, f2, f3, f4, f5, f6, f7, f8, f9⟩ := afterDestroy_frame env w r₁ R
    refine hw.frame (by rw [f8]) (by rw [f8]) (le_of_eq f5.symm) ?_ ?_
    · intro R' h'
      rw [f1] at h'
      by_cases heq : r = r₁
      · subst heq; simp at h'
      · rw [Function.update_of_ne heq] at h'; exact ⟨R', h', rfl⟩
    · intro m' h'
      rw [f2] at h'
      by_cases heq : r = r₁
      · subst heq; simp at h'
      · rw [Function.update_of_ne heq] at h'; exact .inl h'

/-! ## The configuration -/

/-- Only the global period can change. -/
def CfgIs (cfg : Cfg) (w : World M) : Prop := ∃ G, w.cfg = { cfg with globalPeriod := G }

theorem CfgIs.of {cfg : Cfg} {w w' : World M} (h : CfgIs cfg w) (e : w'.cfg = w.cfg) :
    CfgIs cfg w' := by
  unfold CfgIs; rw [e]; exact h

theorem CfgIs.stable (env : Env M) (F : ℕ → Prop) (cfg : Cfg) :
    Stable env F (CfgIs (M := M) cfg) := by
  refine Stable.of ?_ ?_ ?_ ?_
  · intro w l w' ht hw; exact hw.of ht.cfg
  · intro w c hw; exact hw.of rfl
  · intro w r c m w' hw h
    obtain ⟨R, m', C, l, h1⟩ := collectContext_ok h
    exact hw.of h1.cfg
  · intro w r R cs hw hR; exact hw.of rfl

theorem CfgIs.invariant (env : Env M) (F : ℕ → Prop) (cfg : Cfg) :
    Invariant env F (CfgIs (M := M) cfg) where
  toKept := (CfgIs.stable env F cfg).kept
  finish := (CfgIs.stable env F cfg).finish
  created := by
    intro w nf name n mt info yaml r w' hw h
    obtain ⟨R, m, l, h1⟩ := createRegion_ok h
    exact hw.of h1.cfg
  began := fun w r c R C w' hw h => hw.of h.cfg
  assigned := fun w c C f hw _ => hw.of rfl
  feature := fun w c C v hw _ => hw.of rfl
  chose := fun w r c R m C p m' hw _ _ _ _ => hw.of rfl
  stop := fun w c C t hw _ => hw.of rfl
  ended := fun w r c R hw _ _ _ => hw.of rfl
  period := by
    rintro w ⟨G, h⟩
    exact ⟨0, by rw [h]⟩
  destroyed := by
    intro w r R hw _ _
    obtain ⟨f1, f2, f3, f4, f5, f6, f7, f8, f9⟩ := afterDestroy_frame env w r R
    exact hw.of f8

/-! ## Trees and forests that are trained or loaded -/

theorem frozen_tree (gen : ℕ → ℕ → ℕ) (tenv : ℕ → TrainEnv) (n : ℤ) (e : PolicyModel)
    (i : TreeImpl) : Frozen (policyOps gen tenv) (.tree n false e i) := by
  refine ⟨rfl, fun f p m' h => ?_⟩
  simp only [policyOps, PolicyModel.getIndex, Bool.not_false, if_true] at h
  obtain ⟨c, _, h⟩ := (Res.bind_eq_ok _ _ _).1 h
  cases h
  rfl

theorem frozen_forest (gen : ℕ → ℕ → ℕ) (tenv : ℕ → TrainEnv) (n : ℤ) (e : PolicyModel)
    (i : ForestImpl) : Frozen (policyOps gen tenv) (.forest n false e i) := by
  refine ⟨rfl, fun f p m' h => ?_⟩
  simp only [policyOps, PolicyModel.getIndex, Bool.not_false, if_true] at h
  obtain ⟨c, _, h⟩ := (Res.bind_eq_ok _ _ _).1 h
  cases h
  rfl

/-! ## Training with merged data -/

theorem mergeDatasets_ok {w : World M} {rs : List ℕ} {acc ds : Dataset}
    (h : mergeDatasets w rs acc = .ok ds) :
    ∃ Rs : List Region, rs.map w.regions = Rs.map some ∧
      ds = (Rs.map Region.dataset).foldl Dataset.merge acc := by
  induction rs generalizing acc with
  | nil => simp only [mergeDatasets] at h; cases h; exact ⟨[], rfl, rfl⟩
  | cons r rs ih =>
    simp only [mergeDatasets] at h
    obtain ⟨R, hR, h⟩ := (Res.bind_eq_ok _ _ _).1 h
    obtain ⟨Rs, h1, h2⟩ := ih h
    exact ⟨R :: Rs, by simp [h1, World.region_ok.1 hR], by simp [h2]⟩

/-- The models of `rs` were each trained once with `ds`, whatever they were. -/
theorem trainAllWith_ok {env : Env M} {ds : Dataset} {rs : List ℕ} {w w' : World M}
    (hn : rs.Nodup) (h : trainAllWith env ds rs w = .ok w') :
    w'.log = w.log ++ rs.map (fun r => Ev.trained r ds) ∧ w'.regions = w.regions ∧
      (∀ r ∈ rs, ∃ m m' t, w.models r = some m ∧ env.ops.train t ds m = .ok m' ∧
        w'.models r = some m') ∧
      ∀ r, r ∉ rs → w'.models r = w.models r := by
  induction rs generalizing w with
  | nil => simp only [trainAllWith] at h; cases h; simp
  | cons r rs ih =>
    simp only [trainAllWith] at h
    obtain ⟨R, hR, h⟩ := (Res.bind_eq_ok _ _ _).1 h
    obtain ⟨m, hm, h⟩ := (Res.bind_eq_ok _ _ _).1 h
    obtain ⟨m', hm', h⟩ := (Res.bind_eq_ok _ _ _).1 h
    rw [List.nodup_cons] at hn
    obtain ⟨h1, h2, h3, h4⟩ := ih hn.2 h
    have hmod : (((w.setModel r m').advance).emit (.trained r ds)).models =
        Function.update w.models r (some m') := rfl
    rw [hmod] at h3 h4
    refine ⟨?_, h2, ?_, ?_⟩
    · rw [h1]; simp [World.emit, World.advance, World.setModel]
    · intro r' hr'
      rcases List.mem_cons.1 hr' with rfl | hr'
      · refine ⟨m, m', _, World.model_ok.1 hm, hm', ?_⟩
        rw [h4 r' hn.1, Function.update_self]
      · obtain ⟨m₁, m₂, t, h5, h6, h7⟩ := h3 r' hr'
        have hne : r' ≠ r := fun he => hn.1 (by rw [← he]; exact hr')
        rw [Function.update_of_ne hne] at h5
        exact ⟨m₁, m₂, t, h5, h6, h7⟩
    · intro r' hr'
      rw [List.mem_cons, not_or] at hr'
      rw [h4 r' hr'.2, Function.update_of_ne hr'.1]

/-! ## Destroying a region -/

/-- Apart from region `r` and the contexts `cs` nothing changed. -/
structure Apart (r : ℕ) (cs : List CtxPtr) (w w' : World M) : Prop where
  cfg : w'.cfg = w.cfg
  regions : ∀ r', r' ≠ r → w'.regions r' = w.regions r'
  models : ∀ r', r' ≠ r → w'.models r' = w.models r'
  ctxs : ∀ c, c ≠ .sync r → c ∉ cs → w'.ctxs c = w.ctxs c
  registry : w'.registry = w.registry
  nextRegion : w'.nextRegion = w.nextRegion

theorem Apart.trans {r : ℕ} {cs : List CtxPtr} {w₁ w₂ w₃ : World M} (h : Apart r cs w₁ w₂)
    (h' : Apart r cs w₂ w₃) : Apart r cs w₁ w₃ where
  cfg := h'.cfg.trans h.cfg
  regions := fun r' hr => (h'.regions r' hr).trans (h.regions r' hr)
  models := fun r' hr => (h'.models r' hr).trans (h.models r' hr)
  ctxs := fun c h1 h2 => (h'.ctxs c h1 h2).trans (h.ctxs c h1 h2)
  registry := h'.registry.trans h.registry
  nextRegion := h'.nextRegion.trans h.nextRegion

theorem Apart.refl (r : ℕ) (cs : List CtxPtr) (w : World M) : Apart r cs w w :=
  ⟨rfl, fun _ _ => rfl, fun _ _ => rfl, fun _ _ _ => rfl, rfl, rfl⟩

theorem autoTrain_apart {env : Env M} {w w' : World M} {r : ℕ} (cs : List CtxPtr)
    (hg : w.cfg.globalPeriod = 0) (h : autoTrain env w r = .ok w') : Apart r cs w w' := by
  have key : ∀ s, trainNoCollect env w r s false = .ok w' → Apart r cs w w' := by
    intro s h
    have ht := (trainNoCollect_fired h).trained
    refine ⟨ht.cfg, fun _ _ => by rw [ht.regions], fun r' hr => ht.models r' fun ds hd => ?_,
      fun _ _ _ => by rw [ht.ctxs], ht.registry, ht.nextRegion⟩
    simp only [List.flatMap_cons, List.flatMap_nil, List.append_nil] at hd
    exact hr (due_mem hd)
  unfold autoTrain at h
  obtain ⟨R, hR, h⟩ := (Res.bind_eq_ok _ _ _).1 h
  obtain ⟨m, hm, h⟩ := (Res.bind_eq_ok _ _ _).1 h
  split at h
  · cases h; exact Apart.refl ..
  · split at h
    · exact absurd hg ‹_ ∧ _›.1
    · split at h
      · exact key _ h
      · split at h
        · exact key _ h
        · cases h; exact Apart.refl ..

theorem collectContext_apart {env : Env M} {w w' : World M} {r : ℕ} {c : CtxPtr} {x : ℚ}
    {cs : List CtxPtr} (hc : c ∈ cs) (hg : w.cfg.globalPeriod = 0)
    (h : collectContext env w r c x = .ok w') : Apart r cs w w' := by
  obtain ⟨R, m, C, w₁, w₂, R₂, h1, h2, h3, h4, h5, h6, rfl⟩ := collectContext_steps h
  obtain ⟨f1, f2, f3, f4, f5, f6, f7, f8⟩ := record_frame env w r R m c C x
  have f9 := record_regions env w r R m c C x
  have f10 := record_ctxs env w r R m c C x h3
  have a1 : Apart r cs w (record env w r R m c C x) := by
    refine ⟨f1, fun r' hr => by rw [f9, Function.update_of_ne hr], fun _ _ => by rw [f2],
      fun c' _ hc' => ?_, f5, f3⟩
    rw [f10, Function.update_of_ne]
    rintro rfl
    exact hc' hc
  have a2 := autoTrain_apart cs (by rw [f1]; exact hg) h4
  have a3 : Apart r cs w₁ w₂ := by
    rcases destroyContext_ok h5 with ⟨-, rfl⟩ | ⟨n, -, -, rfl⟩
    · exact Apart.refl ..
    · refine ⟨rfl, fun _ _ => rfl, fun _ _ => rfl, fun c' _ hc' => ?_, rfl, rfl⟩
      refine Function.update_of_ne ?_ _ _
      rintro rfl
      exact hc' hc
  refine (a1.trans a2).trans (a3.trans ?_)
  refine ⟨rfl, fun r' hr => ?_, fun _ _ => rfl, fun _ _ _ => rfl, rfl, rfl⟩
  simp [World.setRegion, hr]

theorem collectLoop_apart {env : Env M} {r : ℕ} {cs all kept : List CtxPtr} {w w' : World M}
    (hcs : ∀ c ∈ cs, c ∈ all) (hg : w.cfg.globalPeriod = 0)
    (h : collectLoop env r cs w = .ok (kept, w')) : Apart r all w w' ∧ ∀ c ∈ kept, c ∈ cs := by
  induction cs generalizing w kept with
  | nil => simp only [collectLoop] at h; cases h; exact ⟨Apart.refl .., by simp⟩
  | cons c cs ih =>
    simp only [collectLoop] at h
    obtain ⟨⟨done, w₁⟩, h1, h⟩ := (Res.bind_eq_ok _ _ _).1 h
    obtain ⟨⟨kept', w₂⟩, h2, h⟩ := (Res.bind_eq_ok _ _ _).1 h
    have a1 : Apart r all w w₁ := by
      unfold tryCollect at h1
      obtain ⟨C, hC, h1⟩ := (Res.bind_eq_ok _ _ _).1 h1
      cases c with
      | sync r' =>
        dsimp only at h1
        obtain ⟨x, hx, h1⟩ := (Res.bind_eq_ok _ _ _).1 h1
        obtain ⟨w₃, h3, h1⟩ := (Res.bind_eq_ok _ _ _).1 h1
        cases h1
        exact (Apart.mk rfl (fun _ _ => rfl) (fun _ _ => rfl) (fun _ _ _ => rfl) rfl rfl :
          Apart r all w (w.emit _)).trans
          (collectContext_apart (hcs _ (by simp)) hg h3)
      | heap n =>
        dsimp only at h1
        split at h1
        · cases h1
          exact Apart.mk rfl (fun _ _ => rfl) (fun _ _ => rfl) (fun _ _ _ => rfl) rfl rfl
        · obtain ⟨w₃, h3, h1⟩ := (Res.bind_eq_ok _ _ _).1 h1
          cases h1
          exact (Apart.mk rfl (fun _ _ => rfl) (fun _ _ => rfl) (fun _ _ _ => rfl) rfl rfl :
            Apart r all w ((w.advance).emit _)).trans
            (collectContext_apart (hcs _ (by simp)) hg h3)
        · cases h1
    cases h
    obtain ⟨a2, hk⟩ := ih (fun c hc => hcs c (by simp [hc])) (by rw [a1.cfg]; exact hg) h2
    refine ⟨a1.trans a2, fun c' hc' => ?_⟩
    split at hc'
    · exact List.mem_cons_of_mem _ (hk c' hc')
    · rcases List.mem_cons.1 hc' with rfl | hc'
      · simp
      · exact List.mem_cons_of_mem _ (hk c' hc')

theorem drain_apart {env : Env M} {r fuel : ℕ} {all : List CtxPtr} {w w' : World M} {R : Region}
    (hR : w.regions r = some R) (hcs : ∀ c ∈ R.pending, c ∈ all) (hg : w.cfg.globalPeriod = 0)
    (h : drain env r fuel w = .ok w') : Apart r all w w' := by
  induction fuel generalizing w R with
  | zero =>
    simp only [drain] at h
    obtain ⟨R', hR', h⟩ := (Res.bind_eq_ok _ _ _).1 h
    split at h
    · cases h; exact Apart.refl ..
    · cases h
  | succ n ih =>
    simp only [drain] at h
    obtain ⟨R', hR', h⟩ := (Res.bind_eq_ok _ _ _).1 h
    split at h
    · cases h; exact Apart.refl ..
    · obtain ⟨w₁, h1, h⟩ := (Res.bind_eq_ok _ _ _).1 h
      obtain ⟨R₀, kept, w₂, R₁, hR₀, h2, hR₁, rfl⟩ := collectPending_ok h1
      rw [hR] at hR₀
      cases hR₀
      obtain ⟨a1, hk⟩ := collectLoop_apart hcs hg h2
      have a2 : Apart r all w₂ (w₂.setRegion r { R₁ with pending := kept }) := by
        refine ⟨rfl, fun r' hr => ?_, fun _ _ => rfl, fun _ _ _ => rfl, rfl, rfl⟩
        simp [World.setRegion, hr]
      exact (a1.trans a2).trans (ih (R := { R₁ with pending := kept })
        (by simp [World.setRegion]) (fun c hc => hcs c (hk c hc))
        (by rw [(a1.trans a2).cfg]; exact hg) h)

end Apollo
