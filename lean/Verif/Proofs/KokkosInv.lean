import Verif.Proofs.KokkosRun

/-!
# What holds in every state of the Kokkos connector
-/

namespace Apollo.Kokkos

variable {M : Type} {e : KEnv M}

/-- `spaceSize` looks at declared variables only. -/
theorem spaceSize_mono {s s' : State M} (hd : ∀ id d, s.decls id = some d → s'.decls id = some d) :
    ∀ {ids : List ℕ} {a n : ℤ}, spaceSize s ids a = .ok n → spaceSize s' ids a = .ok n
  | [], a, n, h => by simpa only [spaceSize] using h
  | id :: ids, a, n, h => by
    simp only [spaceSize] at h ⊢
    obtain ⟨d, h1, h⟩ := (Res.bind_eq_ok _ _ _).1 h
    have h1' : s'.decl id = .ok d := by
      unfold State.decl at h1 ⊢
      split at h1
      · rename_i d' hd'
        cases h1
        rw [hd _ _ hd']
      · cases h1
    rw [h1', Res.bind_ok]
    split at h
    · cases h
    · rename_i h0
      rw [if_neg h0]
      obtain ⟨b, h2, h⟩ := (Res.bind_eq_ok _ _ _).1 h
      rw [h2, Res.bind_ok]
      exact spaceSize_mono hd h

/-- The invariant of the connector. -/
structure KInv (s : State M) : Prop where
  sorted : Sorted s.regions
  fresh : ∀ k r, (k, r) ∈ s.regions → r < s.world.nextRegion
  inj : ∀ k k' r, (k, r) ∈ s.regions → (k', r) ∈ s.regions → k = k'
  size : ∀ k r, (k, r) ∈ s.regions → ∃ ctx tuning n, k = ctx ++ tuning ∧ tuning ≠ [] ∧
    spaceSize s tuning 1 = .ok n ∧ ∀ R, s.world.regions r = some R →
      R.numPolicies = wrap32 n ∧ R.numFeatures = ctx.length
  ctxs : ∀ cid r c, s.contexts cid = some (r, c) → c = .sync r ∧ ∃ k, (k, r) ∈ s.regions


theorem KInv.init (cfg : Cfg) (files : Str → Option Str) : KInv (initState cfg files : State M) where
  sorted := List.Pairwise.nil
  fresh := by intro k r h; cases h
  inj := by intro k k' r h; cases h
  size := by intro k r h; cases h
  ctxs := by intro cid r c h; cases h

/-- Entries and sizes of a state survive in a later one. -/
theorem KInv.size_mono {s s' : State M} (hs : KInv s)
    (hd : ∀ id d, s.decls id = some d → s'.decls id = some d)
    (hw : Since s.world s'.world) {k : List ℕ} {r : ℕ} (h : (k, r) ∈ s.regions) :
    ∃ ctx tuning n, k = ctx ++ tuning ∧ tuning ≠ [] ∧ spaceSize s' tuning 1 = .ok n ∧
      ∀ R, s'.world.regions r = some R → R.numPolicies = wrap32 n ∧ R.numFeatures = ctx.length := by
  obtain ⟨ctx, tuning, n, h1, h2, h3, h4⟩ := hs.size k r h
  refine ⟨ctx, tuning, n, h1, h2, spaceSize_mono hd h3, fun R hR => ?_⟩
  obtain ⟨R₀, h5, h6⟩ := hw.2 r R (hs.fresh k r h) hR
  obtain ⟨h7, h8⟩ := h4 R₀ h5
  exact ⟨h6.numPolicies.trans h7, h6.numFeatures.trans h8⟩

/-- A step that leaves the map alone. -/
theorem KInv.same {s s' : State M} (hs : KInv s)
    (hd : ∀ id d, s.decls id = some d → s'.decls id = some d) (hr : s'.regions = s.regions)
    (hw : Since s.world s'.world)
    (hc : ∀ cid r c, s'.contexts cid = some (r, c) → c = .sync r ∧ ∃ k, (k, r) ∈ s'.regions) :
    KInv s' where
  sorted := by rw [hr]; exact hs.sorted
  fresh := by
    intro k r h
    rw [hr] at h
    exact lt_of_lt_of_le (hs.fresh k r h) hw.1
  inj := by rw [hr]; exact hs.inj
  size := by
    intro k r h
    rw [hr] at h
    exact hs.size_mono hd hw h
  ctxs := hc

theorem KInv.problem {s s' : State M} (hs : KInv s) {ctx : List ℕ} {tuning : List ℕ} {n : ℤ}
    {nctx r : ℕ} (hn : spaceSize s tuning 1 = .ok n) (ht : tuning ≠ []) (hl : nctx = ctx.length)
    (h : problemRegion e s (ctx ++ tuning) nctx n = .ok (r, s')) :
    KInv s' ∧ (ctx ++ tuning, r) ∈ s'.regions ∧ (∀ x, x ∈ s.regions → x ∈ s'.regions) ∧
      s'.decls = s.decls ∧ s'.contexts = s.contexts ∧ s'.encounter = s.encounter := by
  have hrun := (problemRegion_runs h).since
  rcases problemRegion_ok h with ⟨hf, rfl⟩ | ⟨hf, name, info, u, w, -, -, h1, rfl⟩
  · exact ⟨hs, (find_some_iff hs.sorted).1 hf, fun _ h => h, rfl, rfl, rfl⟩
  · obtain ⟨R, m, l, h2⟩ := createRegion_ok h1
    have hid := h2.id
    have hnew : ∀ k, (k, r) ∉ s.regions := fun k hk => by
      have := hs.fresh k r hk
      omega
    refine ⟨⟨sorted_insert hs.sorted hf r, ?_, ?_, ?_, ?_⟩, mem_insert.2 (.inl rfl),
      fun x hx => mem_insert.2 (.inr hx), rfl, rfl, rfl⟩
    · intro k r' hk
      change r' < w.nextRegion
      rw [h2.nextRegion]
      rcases mem_insert.1 hk with hk | hk
      · cases hk; omega
      · have := hs.fresh k r' hk; omega
    · intro k k' r' hk hk'
      rcases mem_insert.1 hk with hk | hk <;> rcases mem_insert.1 hk' with hk' | hk'
      · cases hk; cases hk'; rfl
      · cases hk; exact absurd hk' (hnew _)
      · cases hk'; exact absurd hk (hnew _)
      · exact hs.inj k k' r' hk hk'
    · intro k r' hk
      rcases mem_insert.1 hk with hk | hk
      · cases hk
        refine ⟨ctx, tuning, n, rfl, ht, spaceSize_mono (s := s) (s' := { s with
          world := w, regions := s.regions.insert (ctx ++ tuning) r, unconverged := u })
          (fun _ _ h => h) hn, fun R' hR' => ?_⟩
        change w.regions r = some R' at hR'
        rw [h2.regions, Function.update_self] at hR'
        cases hR'
        exact ⟨h2.numPolicies, by rw [h2.numFeatures, hl]⟩
      · exact hs.size_mono (s' := { s with
          world := w, regions := s.regions.insert (ctx ++ tuning) r, unconverged := u })
          (fun _ _ h => h) hrun hk
    · intro cid r' c hc
      obtain ⟨h3, k, h4⟩ := hs.ctxs cid r' c hc
      exact ⟨h3, k, mem_insert.2 (.inr h4)⟩

theorem KInv.request {s s' : State M} (hs : KInv s) {cid : ℕ} {ctx : List (ℕ × Value)}
    {tuning : List ℕ} {x : Ret} (h : request e s cid ctx tuning = .ok (x, s')) :
    KInv s' ∧ (∀ y, y ∈ s.regions → y ∈ s'.regions) ∧ s'.decls = s.decls ∧
      s'.encounter = s.encounter ∧
      ∀ r vs, x = .values r vs → (ctx.map Prod.fst ++ tuning, r) ∈ s'.regions ∧
        s'.contexts = Function.update s.contexts cid (some (r, .sync r)) := by
  have hrun := request_runs h
  rcases request_ok h with
    ⟨-, rfl, rfl⟩ | ⟨ht, n, r, s₁, w₁, w₂, p, w₃, vs, h0, -, h2, h3, h4, h5, -, rfl, rfl⟩
  · exact ⟨hs, fun _ h => h, rfl, rfl, by simp⟩
  · obtain ⟨a1, a2, a3, a4, a5, a6⟩ := hs.problem h0 ht (by simp) h2
    have hr : Runs e.env s₁.world w₃ := by
      refine Runs.trans (Runs.one (op := .begin r .sync) (x := .ctx (.sync r)) (w' := w₁) ?_ ?_) ?_
      · simp [step, h3]
      · exact ⟨by simp, by simp⟩
      refine (setFeatures_runs r h4).trans ?_
      refine Runs.one (op := .getPolicyIndex r (.sync r)) (x := .policy p) ?_ ?_
      · simp [step, h5]
      · exact ⟨by simp, by simp⟩
    refine ⟨a1.same (fun _ _ h => h) rfl hr.since ?_, a3, a4, a6, ?_⟩
    · intro cid' r' c hc
      change Function.update s₁.contexts cid (some (r, .sync r)) cid' = some (r', c) at hc
      by_cases hcc : cid' = cid
      · subst hcc
        rw [Function.update_self] at hc
        cases hc
        exact ⟨rfl, _, a2⟩
      · rw [Function.update_of_ne hcc] at hc
        exact a1.ctxs cid' r' c hc
    · intro r' vs' hx
      cases hx
      exact ⟨a2, by rw [← a5]⟩

theorem KInv.endContext {s s' : State M} (hs : KInv s) {cid : ℕ} {x : Ret}
    (h : endContext e s cid = .ok (x, s')) :
    KInv s' ∧ s'.regions = s.regions ∧ s'.decls = s.decls := by
  have hrun := endContext_runs h
  rcases endContext_ok h with ⟨-, -, rfl⟩ | ⟨r, c, w, -, -, -, -, h2⟩
  · exact ⟨hs, rfl, rfl⟩
  · have hc : ∀ cid' r' c', Function.update s.contexts cid none cid' = some (r', c') →
        c' = .sync r' ∧ ∃ k, (k, r') ∈ s.regions := by
      intro cid' r' c' hc
      by_cases hcc : cid' = cid
      · subst hcc; rw [Function.update_self] at hc; cases hc
      · rw [Function.update_of_ne hcc] at hc; exact hs.ctxs cid' r' c' hc
    rcases h2 with ⟨-, w', -, -, rfl⟩ | ⟨-, -, rfl⟩
    · exact ⟨hs.same (fun _ _ h => h) rfl hrun.since hc, rfl, rfl⟩
    · exact ⟨hs.same (fun _ _ h => h) rfl hrun.since hc, rfl, rfl⟩

theorem KInv.declare {s : State M} (hs : KInv s) {id : ℕ} (hn : s.decls id = none) (d : Decl) :
    KInv { s with decls := Function.update s.decls id (some d) } := by
  refine hs.same (fun id' d' h => ?_) rfl (Since.refl _) hs.ctxs
  change Function.update s.decls id (some d) id' = some d'
  rw [Function.update_of_ne, h]
  rintro rfl
  rw [hn] at h
  cases h

/-- One call keeps the invariant, the map and the declarations grow. -/
theorem KInv.step {s s' : State M} (hs : KInv s) {op : KOp} {x : Ret}
    (h : kstep e s op = .ok (x, s')) :
    KInv s' ∧ (∀ y, y ∈ s.regions → y ∈ s'.regions) ∧
      ∀ id d, s.decls id = some d → s'.decls id = some d := by
  cases op with
  | declareOutput id name c =>
    obtain ⟨s₁, h1, h⟩ := (Res.bind_eq_ok _ _ _).1 h
    cases h
    obtain ⟨hn, n, vs, -, rfl⟩ := declareOutput_ok h1
    refine ⟨hs.declare hn _, fun _ h => h, fun id' d' hd' => ?_⟩
    change Function.update s.decls id _ id' = some d'
    rw [Function.update_of_ne, hd']
    rintro rfl
    rw [hn] at hd'
    cases hd'
  | declareInput id name =>
    obtain ⟨s₁, h1, h⟩ := (Res.bind_eq_ok _ _ _).1 h
    cases h
    obtain ⟨hn, rfl⟩ := declareInput_ok h1
    refine ⟨hs.declare hn _, fun _ h => h, fun id' d' hd' => ?_⟩
    change Function.update s.decls id _ id' = some d'
    rw [Function.update_of_ne, hd']
    rintro rfl
    rw [hn] at hd'
    cases hd'
  | request cid ctx tuning =>
    obtain ⟨h1, h2, h3, -, -⟩ := hs.request h
    exact ⟨h1, h2, fun id d h => by rw [h3]; exact h⟩
  | endContext cid =>
    obtain ⟨h1, h2, h3⟩ := hs.endContext h
    exact ⟨h1, fun y hy => by rw [h2]; exact hy, fun id d h => by rw [h3]; exact h⟩

/-- An execution keeps the invariant, and every request that was answered is in the map. -/
theorem KInv.exec {ops : List KOp} {s s' : State M} {xs : List Ret} (hs : KInv s)
    (h : kexec e ops s = .ok (xs, s')) :
    KInv s' ∧ (∀ y, y ∈ s.regions → y ∈ s'.regions) ∧
      (∀ id d, s.decls id = some d → s'.decls id = some d) ∧
      ∀ (i cid : ℕ) (ctx : List (ℕ × Value)) (tuning : List ℕ) (r : ℕ) (vs : List Value),
        ops[i]? = some (.request cid ctx tuning) →
        xs[i]? = some (.values r vs) → (ctx.map Prod.fst ++ tuning, r) ∈ s'.regions := by
  induction ops generalizing s xs with
  | nil =>
    simp only [kexec] at h
    cases h
    exact ⟨hs, fun _ h => h, fun _ _ h => h, by simp⟩
  | cons op ops ih =>
    obtain ⟨x, s₁, ys, h1, h2, rfl⟩ := kexec_cons h
    obtain ⟨a1, a2, a3⟩ := hs.step h1
    obtain ⟨b1, b2, b3, b4⟩ := ih a1 h2
    refine ⟨b1, fun y hy => b2 y (a2 y hy), fun id d hd => b3 id d (a3 id d hd), ?_⟩
    intro i cid ctx tuning r vs ho hx
    cases i with
    | zero =>
      simp only [List.getElem?_cons_zero, Option.some.injEq] at ho hx
      subst ho hx
      exact b2 _ ((hs.request h1).2.2.2.2 r vs rfl).1
    | succ i =>
      simp only [List.getElem?_cons_succ] at ho hx
      exact b4 i cid ctx tuning r vs ho hx

end Apollo.Kokkos
