import Verif.Proofs.KokkosFence
import Verif.Proofs.RegionTrain
import Verif.Spec.KokkosKernels

/-!
# Regions that still learn, and the number of new problems
-/

namespace Apollo.Kokkos

open Spec

variable {M : Type} {e : KEnv M}

theorem insert_size (ds : Dataset) (f : Features) (p : ℤ) (x : ℚ) : (ds.insert f p x).size ≠ 0 := by
  cases ds with
  | nil => simp [Dataset.insert, Dataset.size, OMap.upsert]
  | cons a ds =>
    obtain ⟨k, v⟩ := a
    simp only [Dataset.insert, Dataset.size, OMap.upsert]
    split
    · simp
    · split <;> simp

/-- What of a world can only shrink or grow: regions that still learn, and those with data. -/
structure Aged (env : Env M) (w₀ w : World M) : Prop where
  persistent : w.cfg.persistent = w₀.cfg.persistent
  single : w.cfg.single = w₀.cfg.single
  next : w₀.nextRegion ≤ w.nextRegion
  dom : ∀ r m, w.models r = some m → r < w.nextRegion
  learns : ∀ r m', r < w₀.nextRegion → w.models r = some m' → env.ops.isTrainable m' = true →
    ∃ m, w₀.models r = some m ∧ env.ops.isTrainable m = true
  data : ∀ r R, r < w₀.nextRegion → w.regions r = some R →
    ∃ R₀, w₀.regions r = some R₀ ∧ (R₀.dataset.size ≠ 0 → R.dataset.size ≠ 0)

theorem Aged.refl (env : Env M) {w : World M} (hd : ∀ r m, w.models r = some m → r < w.nextRegion) :
    Aged env w w :=
  ⟨rfl, rfl, le_rfl, hd, fun _ m _ h ht => ⟨m, h, ht⟩, fun _ R _ h => ⟨R, h, id⟩⟩

/-- A model that still learns was not trained. -/
theorem not_trained {env : Env M} (ho : OneShot env.ops) {m m' : M} (h : Retrained env m m')
    (ht : env.ops.isTrainable m' = true) : m = m' := by
  rcases Relation.ReflTransGen.cases_tail h with h | ⟨m₁, -, t, ds, h⟩
  · exact h.symm
  · rw [ho.train h] at ht; cases ht

theorem Aged.of {env : Env M} {w₀ w w' : World M} (h : Aged env w₀ w) (hp : w'.cfg.persistent = w.cfg.persistent)
    (hs : w'.cfg.single = w.cfg.single) (hn : w.nextRegion ≤ w'.nextRegion)
    (hd : ∀ r m, w'.models r = some m → r < w'.nextRegion)
    (hl : ∀ r m', r < w.nextRegion → w'.models r = some m' → env.ops.isTrainable m' = true →
      ∃ m, w.models r = some m ∧ env.ops.isTrainable m = true)
    (hr : ∀ r R, r < w.nextRegion → w'.regions r = some R →
      ∃ R₀, w.regions r = some R₀ ∧ (R₀.dataset.size ≠ 0 → R.dataset.size ≠ 0)) : Aged env w₀ w' where
  persistent := hp.trans h.persistent
  single := hs.trans h.single
  next := h.next.trans hn
  dom := hd
  learns := by
    intro r m' hlt hm ht
    obtain ⟨m, h1, h2⟩ := hl r m' (lt_of_lt_of_le hlt h.next) hm ht
    exact h.learns r m hlt h1 h2
  data := by
    intro r R hlt hR
    obtain ⟨R₁, h1, h2⟩ := hr r R (lt_of_lt_of_le hlt h.next) hR
    obtain ⟨R₀, h3, h4⟩ := h.data r R₁ hlt h1
    exact ⟨R₀, h3, fun h => h2 (h4 h)⟩

theorem Aged.same {env : Env M} {w₀ w w' : World M} (h : Aged env w₀ w) (hp : w'.cfg.persistent = w.cfg.persistent)
    (hs : w'.cfg.single = w.cfg.single) (hn : w'.nextRegion = w.nextRegion) (hm : w'.models = w.models)
    (hr : ∀ r R, w'.regions r = some R →
      ∃ R₀, w.regions r = some R₀ ∧ (R₀.dataset.size ≠ 0 → R.dataset.size ≠ 0)) : Aged env w₀ w' :=
  h.of hp hs hn.ge (by rw [hm, hn]; exact h.dom) (fun r m' _ h ht => ⟨m', by rw [← hm]; exact h, ht⟩)
    fun r R _ => hr r R

theorem regions_data {w w' : World M} {r : ℕ} {R R' : Region} (hR : w.regions r = some R)
    (h : w'.regions = Function.update w.regions r (some R')) (h1 : R.dataset.size ≠ 0 → R'.dataset.size ≠ 0) :
    ∀ r R, w'.regions r = some R → ∃ R₀, w.regions r = some R₀ ∧ (R₀.dataset.size ≠ 0 → R.dataset.size ≠ 0) := by
  intro r' R₁ hR₁
  rw [h] at hR₁
  by_cases heq : r' = r
  · subst heq
    rw [Function.update_self, Option.some.injEq] at hR₁
    subst hR₁
    exact ⟨R, hR, h1⟩
  · rw [Function.update_of_ne heq] at hR₁; exact ⟨R₁, hR₁, id⟩

theorem recRegion_data (env : Env M) (w : World M) (R : Region) (m : M) (C : Ctx) (x : ℚ)
    (h : R.dataset.size ≠ 0) : (recRegion env w R m C x).dataset.size ≠ 0 := by
  simp only [recRegion]
  split
  · exact insert_size _ _ _ _
  · exact h

theorem Aged.invariant {env : Env M} (ho : OneShot env.ops) (F : ℕ → Prop) (w₀ : World M) :
    Invariant env F (Aged env w₀) := by
  have hst : Stable env F (Aged env w₀) := by
    refine Stable.of ?_ ?_ ?_ ?_
    · intro w l w' ht hw
      refine hw.of (by rw [ht.cfg]) (by rw [ht.cfg]) ht.nextRegion.ge ?_ ?_ ?_
      · intro r m h
        obtain ⟨m₁, h1, -⟩ := ht.steps r m h
        rw [ht.nextRegion]
        exact hw.dom r m₁ h1
      · intro r m' _ hm hT
        obtain ⟨m, h1, h2⟩ := ht.steps r m' hm
        exact ⟨m, h1, by rw [not_trained ho h2.retrained hT]; exact hT⟩
      · intro r R _ hR
        exact ⟨R, by rw [← ht.regions]; exact hR, id⟩
    · intro w c hw; exact hw.same rfl rfl rfl rfl fun r R h => ⟨R, h, id⟩
    · intro w r c m w' hw h
      obtain ⟨R, m, C, l, h1⟩ := collectContext_ok h
      refine hw.of (by rw [h1.cfg]; rfl) (by rw [h1.cfg]; rfl) h1.nextRegion.ge ?_ ?_ ?_
      · intro r m h
        obtain ⟨m₁, h2, -⟩ := h1.steps r m h
        rw [h1.nextRegion]
        exact hw.dom r m₁ h2
      · intro r m' _ hm hT
        obtain ⟨m, h2, h3⟩ := h1.steps r m' hm
        exact ⟨m, h2, by rw [not_trained ho h3.retrained hT]; exact hT⟩
      · exact fun r R _ => regions_data (w := w) h1.region h1.regions (recRegion_data env _ _ _ _ _) r R
    · intro w r R cs hw hR
      exact hw.same rfl rfl rfl rfl (regions_data (R' := { R with pending := cs }) hR rfl id)
  exact {
    toKept := hst.kept
    finish := hst.finish
    began := fun w r c R C w' hw h => hw.same (by rw [h.cfg]) (by rw [h.cfg]) h.nextRegion h.models
      (regions_data h.region h.regions id)
    assigned := fun _ _ _ _ hw _ => hw.same rfl rfl rfl rfl fun _ R h => ⟨R, h, id⟩
    feature := fun _ _ _ _ hw _ => hw.same rfl rfl rfl rfl fun _ R h => ⟨R, h, id⟩
    traced := fun w R m f p w' hw h => by
      obtain ⟨F, rfl⟩ := tracePolicy_same h
      exact hw.same rfl rfl rfl rfl fun _ R h => ⟨R, h, id⟩
    chose := by
      intro w r c R m C p m' hw hR hm _ hi
      refine hw.of rfl rfl le_rfl ?_ ?_ fun _ R _ h => ⟨R, h, id⟩
      · intro r' m₁ h
        change Function.update w.models r (some m') r' = some m₁ at h
        by_cases heq : r' = r
        · subst heq; exact hw.dom _ _ hm
        · rw [Function.update_of_ne heq] at h; exact hw.dom _ _ h
      · intro r' m₁ _ h ht
        change Function.update w.models r (some m') r' = some m₁ at h
        by_cases heq : r' = r
        · subst heq
          rw [Function.update_self] at h
          cases h
          exact ⟨m, hm, ho.index hi ht⟩
        · rw [Function.update_of_ne heq] at h; exact ⟨m₁, h, ht⟩
    stop := fun _ _ _ _ hw _ => hw.same rfl rfl rfl rfl fun _ R h => ⟨R, h, id⟩
    ended := fun _ _ c R hw hR _ _ => hw.same rfl rfl rfl rfl
      (regions_data (R' := { R with pending := R.pending ++ [c] }) hR rfl id)
    period := fun _ hw => hw.same rfl rfl rfl rfl fun _ R h => ⟨R, h, id⟩
    destroyed := by
      intro w r R hw _ _
      obtain ⟨f, hf⟩ := afterDestroy_eq env w r R
      rw [hf]
      refine hw.of rfl rfl le_rfl ?_ ?_ ?_
      · intro r' m h
        change Function.update w.models r none r' = some m at h
        by_cases heq : r' = r
        · subst heq; rw [Function.update_self] at h; cases h
        · rw [Function.update_of_ne heq] at h; exact hw.dom _ _ h
      · intro r' m _ h ht
        change Function.update w.models r none r' = some m at h
        by_cases heq : r' = r
        · subst heq; rw [Function.update_self] at h; cases h
        · rw [Function.update_of_ne heq] at h; exact ⟨m, h, ht⟩
      · intro r' R' _ h
        change Function.update w.regions r none r' = some R' at h
        by_cases heq : r' = r
        · subst heq; rw [Function.update_self] at h; cases h
        · rw [Function.update_of_ne heq] at h; exact ⟨R', h, id⟩
    created := by
      intro w nf name n mt info yaml r w' hw h
      obtain ⟨R, m, l, h1⟩ := createRegion_ok h
      have hid := h1.id
      refine hw.of (by rw [h1.cfg]) (by rw [h1.cfg]) (by rw [h1.nextRegion]; omega) ?_ ?_ ?_
      · intro r' m' h
        rw [h1.nextRegion]
        by_cases heq : r' = r
        · omega
        · obtain ⟨m₁, h2, -⟩ := h1.steps r' m' heq h
          have := hw.dom _ _ h2
          omega
      · intro r' m' hlt hm ht
        obtain ⟨m₁, h2, h3⟩ := h1.steps r' m' (by omega) hm
        exact ⟨m₁, h2, by rw [not_trained ho h3.retrained ht]; exact ht⟩
      · intro r' R' hlt hR'
        rw [h1.regions, Function.update_of_ne (by omega)] at hR'
        exact ⟨R', hR', id⟩ }

theorem Runs.aged {env : Env M} (ho : OneShot env.ops) {w w' : World M} (h : Runs env w w')
    (hd : ∀ r m, w.models r = some m → r < w.nextRegion) : Aged env w w' := by
  obtain ⟨ops, -, h⟩ := h
  exact (Aged.invariant ho (fun _ => True) w).exec (fun _ _ _ _ => trivial) (Aged.refl env hd) h

/-- The training of several regions: those with data stop learning. -/
theorem forRegions_rests {env : Env M} (ho : OneShot env.ops) {s : ℤ} {rs : List ℕ} :
    ∀ {w w' : World M}, NoPending w → forRegions (fun w r => regionTrain env w r s true false) rs w = .ok w' →
      (∃ l, Trained env w l w') ∧ ∀ r ∈ rs, ∀ R m, w.regions r = some R → R.dataset.size ≠ 0 →
        w'.models r = some m → env.ops.isTrainable m = false := by
  induction rs with
  | nil =>
    intro w w' _ h
    simp only [forRegions] at h
    cases h
    exact ⟨⟨_, Trained.refl env w⟩, by simp⟩
  | cons r rs ih =>
    intro w w' hp h
    simp only [forRegions] at h
    obtain ⟨w₁, h1, h⟩ := (Res.bind_eq_ok _ _ _).1 h
    have hkey : (∃ l, Trained env w l w₁) ∧ ∀ R m, w.regions r = some R → R.dataset.size ≠ 0 →
        w₁.models r = some m → env.ops.isTrainable m = false := by
      rcases regionTrain_ok h1 with ⟨rfl, -, m, hm, ht⟩ | ⟨-, w₂, h2 | ⟨h2, -⟩, h3⟩
      · refine ⟨⟨_, Trained.refl env w₁⟩, fun R m' _ _ hm' => ?_⟩
        rw [hm] at hm'
        cases hm'
        exact ht
      · obtain ⟨-, h2⟩ := h2
        obtain ⟨R₀, kept, -, -, hR₀, -⟩ := collectPending_ok h2
        rw [collectPending_nil hR₀ (hp r R₀ hR₀) h2] at h3
        obtain ⟨R, hR, ⟨h4, rfl⟩ | ⟨h4, h5, m, m', hm, hm', h6⟩⟩ := trainBody_exact h3
        · refine ⟨⟨_, Trained.refl env w₁⟩, fun R' _ hR' hne => ?_⟩
          rw [hR] at hR'
          cases hR'
          exact absurd h4 hne
        · refine ⟨⟨_, h5⟩, fun R' m'' _ _ hm'' => ?_⟩
          rw [h6] at hm''
          cases hm''
          exact ho.train hm'
      · cases h2
    obtain ⟨⟨l, hl⟩, hr⟩ := hkey
    obtain ⟨⟨l', hl'⟩, hrs⟩ := ih (w := w₁) (fun r R hR => hp r R (by rw [← hl.regions]; exact hR)) h
    refine ⟨⟨_, hl.trans hl'⟩, fun r' hr' R m hR hd hm => ?_⟩
    rcases List.mem_cons.1 hr' with rfl | hr'
    · obtain ⟨m₁, h2, h3⟩ := hl'.steps r' m hm
      by_contra hne
      rw [Bool.not_eq_false] at hne
      have := not_trained ho h3.retrained hne
      rw [this] at h2
      rw [hr R m hR hd h2] at hne
      cases hne
    · exact hrs r' hr' R m (by rw [hl.regions]; exact hR) hd hm

/-! ## Histories -/

theorem askedFor_snoc {ops : List KOp} {o : KOp} {c : ℕ} {k : List ℕ} (h : AskedFor (ops ++ [o]) c k) :
    (∃ ctx t, o = .request c ctx t ∧ t ≠ [] ∧ k = ctx.map Prod.fst ++ t) ∨
    (AskedFor ops c k ∧ o ≠ .endContext c ∧ ¬ Asks o c) := by
  obtain ⟨pre, ctx, t, suf, h1, h2, h3, h4⟩ := h
  rcases List.eq_nil_or_concat suf with rfl | ⟨suf', o', rfl⟩
  · obtain ⟨-, h1⟩ := List.append_inj' h1 rfl
    cases h1
    exact .inl ⟨ctx, t, rfl, h2, h3⟩
  · rw [List.concat_eq_append] at h1 h4
    have h1' : ops ++ [o] = (pre ++ KOp.request c ctx t :: suf') ++ [o'] := by rw [h1]; simp
    obtain ⟨h5, h6⟩ := List.append_inj' h1' rfl
    cases h6
    obtain ⟨h7, h8⟩ := h4 o (by simp)
    exact .inr ⟨⟨pre, ctx, t, suf', h5, h2, h3, fun x hx => h4 x (by simp [hx])⟩, h7, h8⟩

theorem endedFor_snoc {ops : List KOp} {o : KOp} {k : List ℕ} (h : EndedFor (ops ++ [o]) k) :
    EndedFor ops k ∨ ∃ c, o = .endContext c ∧ AskedFor ops c k := by
  obtain ⟨pre, c, suf, h1, h2⟩ := h
  rcases List.eq_nil_or_concat suf with rfl | ⟨suf', o', rfl⟩
  · obtain ⟨h3, h4⟩ := List.append_inj' h1 rfl
    cases h4
    exact .inr ⟨c, rfl, h3 ▸ h2⟩
  · rw [List.concat_eq_append] at h1
    have h1' : ops ++ [o] = (pre ++ KOp.endContext c :: suf') ++ [o'] := by rw [h1]; simp
    obtain ⟨h5, -⟩ := List.append_inj' h1' rfl
    exact .inl ⟨pre, c, suf', h5, h2⟩

theorem AskedFor.asked {ops : List KOp} {c : ℕ} {k : List ℕ} (h : AskedFor ops c k) :
    ∃ o ∈ ops, AsksFor o k := by
  obtain ⟨pre, ctx, t, suf, rfl, h2, h3, -⟩ := h
  exact ⟨.request c ctx t, by simp, c, ctx, t, rfl, h2, h3⟩

theorem EndedFor.asked {ops : List KOp} {k : List ℕ} (h : EndedFor ops k) : ∃ o ∈ ops, AsksFor o k := by
  obtain ⟨pre, c, suf, rfl, h⟩ := h
  obtain ⟨o, ho, hk⟩ := AskedFor.asked h
  exact ⟨o, by simp [ho], hk⟩

theorem DeclaredAs.mono {ops ops' : List KOp} (hs : ∀ o ∈ ops, o ∈ ops') {id : ℕ} {name : Str}
    (h : DeclaredAs ops id name) : DeclaredAs ops' id name :=
  h.imp (hs _) fun ⟨c, h⟩ => ⟨c, hs _ h⟩

theorem ProblemName.mono {ops ops' : List KOp} (hs : ∀ o ∈ ops, o ∈ ops') {k : List ℕ} {name : Str}
    (h : ProblemName ops k name) : ProblemName ops' k name := by
  obtain ⟨ns, h1, h2⟩ := h
  exact ⟨ns, h1.imp fun _ _ h => DeclaredAs.mono hs h, h2⟩

/-- The name made from the names of the variables. -/
theorem regionName_joined {ops : List KOp} {s : State M}
    (hd : ∀ id d, s.decls id = some d → DeclaredAs ops id d.name) : ∀ {ids : List ℕ} {name : Str}, ids ≠ [] →
    regionName s ids = .ok name →
    ∃ ns, List.Forall₂ (DeclaredAs ops) ids ns ∧ ns ≠ [] ∧ name = ['_'].intercalate ns ++ ".yaml".toList
  | [], _, h, _ => absurd rfl h
  | id :: ids, name, _, h => by
    simp only [regionName] at h
    obtain ⟨d, h1, h⟩ := (Res.bind_eq_ok _ _ _).1 h
    split at h
    · cases h
    obtain ⟨rest, h2, h⟩ := (Res.bind_eq_ok _ _ _).1 h
    have h1' : s.decls id = some d := by
      unfold State.decl at h1
      split at h1
      · cases h1; assumption
      · cases h1
    by_cases hne : ids = []
    · subst hne
      simp only [if_true] at h
      cases h
      exact ⟨[d.name], .cons (hd id d h1') .nil, by simp, by simp [List.intercalate]⟩
    · rw [if_neg hne] at h
      cases h
      obtain ⟨ns, h3, h4, rfl⟩ := regionName_joined hd hne h2
      refine ⟨d.name :: ns, .cons (hd id d h1') h3, by simp, ?_⟩
      cases ns with
      | nil => exact absurd rfl h4
      | cons n ns => simp [List.intercalate]

theorem setFeatures_same {hash : Str → ℕ} {c : CtxPtr} : ∀ {vs : List (ℕ × Value)} {w w' : World M},
    setFeatures hash c vs w = .ok w' → w'.nextRegion = w.nextRegion
  | [], w, w', h => by simp only [setFeatures] at h; cases h; rfl
  | v :: vs, w, w', h => by
    unfold setFeatures at h
    obtain ⟨w₁, h1, h⟩ := (Res.bind_eq_ok _ _ _).1 h
    obtain ⟨C, -, rfl⟩ := setFeature_ok h1
    have h' := setFeatures_same h
    exact h'

theorem apolloTrain_rests {env : Env M} (ho : OneShot env.ops) {s : ℤ} {w w' : World M} (hp : NoPending w)
    (hs : w.cfg.single = false) (h : apolloTrain env w s true = .ok w') :
    (∃ l, Trained env w l w') ∧ ∀ r ∈ w.registry.map Prod.snd, ∀ R m, w.regions r = some R →
      R.dataset.size ≠ 0 → w'.models r = some m → env.ops.isTrainable m = false := by
  unfold apolloTrain apolloTrainWith at h
  rw [hs] at h
  split at h
  · cases h
  · simp only [Bool.false_eq_true, if_false] at h
    exact forRegions_rests ho hp h

/-- What holds after the calls `ops`, which returned `xs`. -/
structure Ledger (env : Env M) (ops : List KOp) (xs : List Ret) (s : State M) : Prop where
  kinv : KInv s
  fence : FenceInv ops xs s
  pend : NoPending s.world
  live : AllLive s.world
  reg : LogInv s.world ∧ RegInv s.world
  single : s.world.cfg.single = false
  dom : ∀ r m, s.world.models r = some m → r < s.world.nextRegion
  decl : ∀ id d, s.decls id = some d → DeclaredAs ops id d.name
  owner : ∀ r, r < s.world.nextRegion → ∃ k, (k, r) ∈ s.regions
  names : ∀ k r R, (k, r) ∈ s.regions → s.world.regions r = some R → ProblemName ops k R.name
  opened : ∀ c k, AskedFor ops c k → ∃ r, s.contexts c = some (r, .sync r) ∧ (k, r) ∈ s.regions
  new : ∀ r m, s.world.models r = some m → env.ops.isTrainable m = true → 0 < s.unconverged
  data : ∀ k r R m, (k, r) ∈ s.regions → s.world.regions r = some R → s.world.models r = some m →
    env.ops.isTrainable m = true → EndedFor ops k → R.dataset.size ≠ 0

theorem Ledger.init (env : Env M) {cfg : Cfg} (hs : cfg.single = false) (files : Str → Option Str) :
    Ledger env [] [] (initState cfg files) where
  kinv := KInv.init cfg files
  fence := FenceInv.init cfg files
  pend := fun _ _ h => by cases h
  live := AllLive.init cfg files
  reg := ⟨logInv_init cfg files, regInv_init cfg files⟩
  single := hs
  dom := fun _ _ h => by cases h
  decl := fun _ _ h => by cases h
  owner := fun _ h => absurd h (Nat.not_lt_zero _)
  names := fun _ _ _ h => by cases h
  opened := by
    rintro c k ⟨pre, ctx, t, suf, h, -⟩
    simp at h
  new := fun _ _ h => by cases h
  data := fun _ _ _ _ h => by cases h

section Step

variable {ops : List KOp} {xs : List Ret} {s s' : State M} {o : KOp} {x : Ret}

/-- Problems and regions are one to one. -/
theorem region_unique (hs : KInv s) {k : List ℕ} {r r' : ℕ} (h : (k, r) ∈ s.regions) (h' : (k, r') ∈ s.regions) :
    r = r' := by
  have h1 := (find_some_iff hs.sorted).2 h
  rw [(find_some_iff hs.sorted).2 h'] at h1
  cases h1
  rfl

/-- A problem asked for before has an old region. -/
theorem Ledger.old (hl : Ledger e.env ops xs s) (hi : KInv s') (hsub : ∀ y, y ∈ s.regions → y ∈ s'.regions)
    {k : List ℕ} {r : ℕ} (hk : (k, r) ∈ s'.regions) (ha : ∃ o ∈ ops, AsksFor o k) :
    (k, r) ∈ s.regions ∧ r < s.world.nextRegion := by
  obtain ⟨r', hr'⟩ := (hl.fence.known k).2 ha
  rw [region_unique hi hk (hsub _ hr')]
  exact ⟨hr', hl.kinv.fresh _ _ hr'⟩

/-- Old regions have old problems. -/
theorem Ledger.older (hl : Ledger e.env ops xs s) (hi : KInv s') (hsub : ∀ y, y ∈ s.regions → y ∈ s'.regions)
    {k : List ℕ} {r : ℕ} (hk : (k, r) ∈ s'.regions) (hr : r < s.world.nextRegion) : (k, r) ∈ s.regions := by
  obtain ⟨k', hk'⟩ := hl.owner r hr
  rw [hi.inj k k' r hk (hsub _ hk')]
  exact hk'

/-- With different names for different problems, every region is registered. -/
theorem Ledger.registered (hl : Ledger e.env ops xs s) (hn : NamesApart ops) {k : List ℕ} {r : ℕ}
    (hk : (k, r) ∈ s.regions) : r ∈ s.world.registry.map Prod.snd := by
  have hlt := hl.kinv.fresh k r hk
  obtain ⟨R, hR⟩ := Option.isSome_iff_exists.1 (hl.live r hlt)
  obtain ⟨r', h1, h2⟩ := hl.reg.2.first r R hR
  have hm := OMap.mem_of_find_eq_some h1
  obtain ⟨R', hR'⟩ := Option.isSome_iff_exists.1 (hl.live r' (by omega))
  have hname := hl.reg.2.name _ _ _ hm hR'
  obtain ⟨k', hk'⟩ := hl.owner r' (by omega)
  have a := hl.names k r R hk hR
  have b := hl.names k' r' R' hk' hR'
  rw [hname] at b
  obtain ⟨o, ho, hko⟩ := (hl.fence.known k).1 ⟨r, hk⟩
  obtain ⟨o', ho', hko'⟩ := (hl.fence.known k').1 ⟨r', hk'⟩
  obtain rfl := hn o ho o' ho' k k' _ hko hko' a b
  rw [region_unique hl.kinv hk hk']
  exact List.mem_map_of_mem hm

/-- Of the calls, only requests for new problems make regions. -/
theorem Ledger.madeBy (hl : Ledger e.env ops xs s) (h : kstep e s o = .ok (x, s')) :
    (∀ r, r < s'.world.nextRegion → ∃ k, (k, r) ∈ s'.regions) ∧
      ∀ k r R, (k, r) ∈ s'.regions → s.world.nextRegion ≤ r → s'.world.regions r = some R →
        ProblemName (ops ++ [o]) k R.name := by
  have hsub := (hl.kinv.step h).2.1
  have same : s'.world.nextRegion = s.world.nextRegion → s'.regions = s.regions →
      (∀ r, r < s'.world.nextRegion → ∃ k, (k, r) ∈ s'.regions) ∧
      ∀ k r R, (k, r) ∈ s'.regions → s.world.nextRegion ≤ r → s'.world.regions r = some R →
        ProblemName (ops ++ [o]) k R.name := by
    intro h1 h2
    refine ⟨fun r hr => ?_, fun k r R hk hr => ?_⟩
    · rw [h2]; exact hl.owner r (by omega)
    · rw [h2] at hk
      have := hl.kinv.fresh k r hk
      omega
  cases o with
  | declareOutput id name c =>
    obtain ⟨s₁, h1, h⟩ := (Res.bind_eq_ok _ _ _).1 h
    cases h
    obtain ⟨-, n, vs, -, rfl⟩ := declareOutput_ok h1
    exact same rfl rfl
  | declareInput id name =>
    obtain ⟨s₁, h1, h⟩ := (Res.bind_eq_ok _ _ _).1 h
    cases h
    obtain ⟨-, rfl⟩ := declareInput_ok h1
    exact same rfl rfl
  | endContext cid =>
    have h' : endContext e s cid = .ok (x, s') := h
    refine same ?_ (hl.kinv.endContext h').2.1
    rcases endContext_ok h' with ⟨-, -, rfl⟩ | ⟨r, c, w, hc, h1, -, -, h2⟩
    · rfl
    · obtain ⟨rfl, -⟩ := hl.kinv.ctxs cid r c hc
      obtain ⟨R, C, hR, hC, ⟨m, -, -, h3⟩ | ⟨h3, -⟩⟩ := endCtx_ok h1
      swap
      · exact absurd rfl h3
      obtain ⟨R, m, C, l, h4⟩ := collectContext_ok h3
      rcases h2 with ⟨-, w', h5, -, rfl⟩ | ⟨-, -, rfl⟩
      · have hk : Kept e.env (fun _ => False) fun w' : World M => NoPending w' ∧ w'.nextRegion = w.nextRegion := by
          refine Kept.of ?_ ?_
          · rintro w₁ l w₂ ht ⟨a, b⟩
            exact ⟨fun r R hR => a r R (by rw [← ht.regions]; exact hR), by rw [ht.nextRegion]; exact b⟩
          · rintro w₁ r₁ w₂ ⟨a, b⟩ h
            obtain ⟨R₀, -, -, -, hR₀, -⟩ := collectPending_ok h
            rw [collectPending_nil hR₀ (a r₁ R₀ hR₀) h]
            exact ⟨a, b⟩
        have hw : NoPending w := NoPending.update (w := (((s.world.setCtx (.sync r) _).advance).emit _)) hl.pend
          h4.regions (by simp only [recRegion]; exact hl.pend r _ h4.region)
        exact ((hk.apolloTrain ⟨hw, rfl⟩ h5).2).trans h4.nextRegion
      · exact h4.nextRegion
  | request cid ctx tuning =>
    have h' : request e s cid ctx tuning = .ok (x, s') := h
    rcases request_ok h' with
      ⟨-, rfl, rfl⟩ | ⟨ht, n, r, s₁, w₁, w₂, p, w₃, vs, h0, -, h2, h3, h4, h5, -, rfl, rfl⟩
    · exact same rfl rfl
    · have hnext : w₃.nextRegion = s₁.world.nextRegion := by
        obtain ⟨R, C, hb⟩ := begin_ok h3
        obtain ⟨R, m, C, m', F, -, -, -, -, rfl⟩ := getPolicyIndex_ok h5
        exact (setFeatures_same h4).trans hb.nextRegion
      rcases problemRegion_ok h2 with ⟨-, rfl⟩ | ⟨hf, name, info, u, w, hn, -, h1, rfl⟩
      · exact same hnext rfl
      · obtain ⟨R, m, l, h6⟩ := createRegion_ok h1
        have hid := h6.id
        change w₃.nextRegion = w.nextRegion at hnext
        have hn1 := h6.nextRegion
        constructor
        · intro r' hr'
          change r' < w₃.nextRegion at hr'
          by_cases heq : r' = r
          · subst heq; exact ⟨_, mem_insert.2 (.inl rfl)⟩
          · obtain ⟨k, hk⟩ := hl.owner r' (by omega)
            exact ⟨k, mem_insert.2 (.inr hk)⟩
        · intro k r' R' hk hr' hR'
          rcases mem_insert.1 hk with hk | hk
          · cases hk
            obtain ⟨ns, a1, -, a3⟩ := regionName_joined hl.decl (by simp [ht]) hn
            have hw : Runs e.env w w₃ := by
              refine Runs.trans (Runs.one (op := .begin r .sync) (x := .ctx (.sync r)) (w' := w₁) ?_ ?_) ?_
              · simp only [Apollo.step]
                change (do let (c, w) ← begin e.env w r .sync; Except.ok (Apollo.Ret.ctx c, w)) = _
                rw [h3]; rfl
              · exact ⟨by simp, by simp⟩
              refine (setFeatures_runs r h4).trans ?_
              refine Runs.one (op := .getPolicyIndex r (.sync r)) (x := .policy p) ?_ ?_
              · simp [Apollo.step, h5]
              · exact ⟨by simp, by simp⟩
            obtain ⟨R₀, h7, h8⟩ := hw.since.2 r R' (by omega) hR'
            rw [h6.regions, Function.update_self] at h7
            cases h7
            refine ⟨ns, a1.imp fun _ _ h => DeclaredAs.mono (by simp +contextual) h, ?_⟩
            rw [h8.name, h6.name, a3]
            simp only [truncName, List.take_take, Nat.min_self]
          · have := hl.kinv.fresh _ _ hk
            omega

theorem Ledger.declares (hl : Ledger e.env ops xs s) (h : kstep e s o = .ok (x, s')) :
    ∀ id d, s'.decls id = some d → DeclaredAs (ops ++ [o]) id d.name := by
  have old : ∀ id d, s.decls id = some d → DeclaredAs (ops ++ [o]) id d.name :=
    fun id d hd => DeclaredAs.mono (by simp +contextual) (hl.decl id d hd)
  intro id d hd
  cases o with
  | declareOutput id' name c =>
    obtain ⟨s₁, h1, h⟩ := (Res.bind_eq_ok _ _ _).1 h
    cases h
    obtain ⟨-, n, vs, -, rfl⟩ := declareOutput_ok h1
    change Function.update s.decls id' _ id = some d at hd
    by_cases heq : id = id'
    · subst heq
      rw [Function.update_self] at hd
      cases hd
      exact .inr ⟨c, by simp⟩
    · rw [Function.update_of_ne heq] at hd; exact old id d hd
  | declareInput id' name =>
    obtain ⟨s₁, h1, h⟩ := (Res.bind_eq_ok _ _ _).1 h
    cases h
    obtain ⟨-, rfl⟩ := declareInput_ok h1
    change Function.update s.decls id' _ id = some d at hd
    by_cases heq : id = id'
    · subst heq
      rw [Function.update_self] at hd
      cases hd
      exact .inl (by simp)
    · rw [Function.update_of_ne heq] at hd; exact old id d hd
  | endContext cid =>
    rw [(hl.kinv.endContext h).2.2] at hd; exact old id d hd
  | request cid ctx tuning =>
    rw [(hl.kinv.request h).2.2.1] at hd; exact old id d hd

theorem Ledger.opens (hl : Ledger e.env ops xs s) (h : kstep e s o = .ok (x, s')) :
    ∀ c k, AskedFor (ops ++ [o]) c k → ∃ r, s'.contexts c = some (r, .sync r) ∧ (k, r) ∈ s'.regions := by
  have hsub := (hl.kinv.step h).2.1
  intro c k ha
  rcases askedFor_snoc ha with ⟨ctx, t, rfl, ht, rfl⟩ | ⟨ha, h1, h2⟩
  · have h' : request e s c ctx t = .ok (x, s') := h
    have hv := (hl.kinv.request h').2.2.2.2
    rcases request_ok h' with ⟨h0, -⟩ | ⟨-, n, r, s₁, w₁, w₂, p, w₃, vs, -, -, -, -, -, -, -, rfl, -⟩
    · exact absurd h0 ht
    · obtain ⟨a, b⟩ := hv r vs rfl
      exact ⟨r, by rw [b, Function.update_self], a⟩
  · obtain ⟨r, a, b⟩ := hl.opened c k ha
    refine ⟨r, ?_, hsub _ b⟩
    cases o with
    | declareOutput id' name c' =>
      obtain ⟨s₁, h3, h⟩ := (Res.bind_eq_ok _ _ _).1 h
      cases h
      obtain ⟨-, n, vs, -, rfl⟩ := declareOutput_ok h3
      exact a
    | declareInput id' name =>
      obtain ⟨s₁, h3, h⟩ := (Res.bind_eq_ok _ _ _).1 h
      cases h
      obtain ⟨-, rfl⟩ := declareInput_ok h3
      exact a
    | endContext cid =>
      have hne : c ≠ cid := fun he => h1 (by rw [he])
      have h' : endContext e s cid = .ok (x, s') := h
      rcases endContext_ok h' with ⟨-, -, rfl⟩ | ⟨_, _, w, -, -, -, -, ⟨-, w', -, -, rfl⟩ | ⟨-, -, rfl⟩⟩
      · exact a
      · simp only; rw [Function.update_of_ne hne]; exact a
      · simp only; rw [Function.update_of_ne hne]; exact a
    | request cid ctx tuning =>
      have h' : request e s cid ctx tuning = .ok (x, s') := h
      have hv := (hl.kinv.request h').2.2.2.2
      rcases request_ok h' with ⟨-, -, rfl⟩ | ⟨ht, n, r', s₁, w₁, w₂, p, w₃, vs, -, -, -, -, -, -, -, rfl, -⟩
      · exact a
      · obtain ⟨-, b'⟩ := hv r' vs rfl
        have hne : c ≠ cid := fun he => h2 ⟨ctx, tuning, by rw [he], ht⟩
        rw [b', Function.update_of_ne hne]; exact a

/-- The end of a context of a region that still learns leaves data. -/
theorem Ledger.measured (ho : OneShot e.env.ops) (hl : Ledger e.env ops xs s) {cid r : ℕ}
    (hc : s.contexts cid = some (r, .sync r)) (h : endContext e s cid = .ok (x, s')) {R : Region} {m : M}
    (hR : s'.world.regions r = some R) (hm : s'.world.models r = some m) (ht : e.env.ops.isTrainable m = true)
    (hag : Aged e.env s.world s'.world) : R.dataset.size ≠ 0 := by
  have hlt : r < s.world.nextRegion := by
    obtain ⟨-, k, hk⟩ := hl.kinv.ctxs cid r _ hc
    exact hl.kinv.fresh _ _ hk
  obtain ⟨m₀, hm₀, ht₀⟩ := hag.learns r m hlt hm ht
  rcases endContext_ok h with ⟨h0, -⟩ | ⟨r', c, w, hc', h1, -, -, h2⟩
  · rw [h0] at hc; cases hc
  rw [hc] at hc'
  cases hc'
  obtain ⟨R₀, C, -, -, ⟨q, -, -, h3⟩ | ⟨h3, -⟩⟩ := endCtx_ok h1
  swap
  · exact absurd rfl h3
  obtain ⟨R₁, m₁, C₁, l, h4⟩ := collectContext_ok h3
  have hm₁ : s.world.models r = some m₁ := h4.model
  rw [hm₀] at hm₁
  cases hm₁
  have hw : NoPending w := NoPending.update (w := (((s.world.setCtx (.sync r) _).advance).emit _)) hl.pend
    h4.regions (by simp only [recRegion]; exact hl.pend r _ h4.region)
  have hwr : w.regions r = some R := by
    rcases h2 with ⟨-, w', h5, -, rfl⟩ | ⟨-, -, rfl⟩
    · obtain ⟨⟨l', h6⟩, -⟩ := apolloTrain_rests ho hw (by rw [h4.cfg]; exact hl.single) h5
      rw [← h6.regions]; exact hR
    · exact hR
  rw [h4.regions, Function.update_self] at hwr
  cases hwr
  simp only [recRegion, learns, ht₀, Bool.or_true, if_true]
  exact insert_size _ _ _ _

theorem Ledger.step (ho : OneShot e.env.ops) (he : DotAborts e.env) (hl : Ledger e.env ops xs s)
    (h : kstep e s o = .ok (x, s')) (hn : NamesApart (ops ++ [o]))
    (hset : x = .ended true → ∀ o' ∈ ops, ∀ k, AsksFor o' k → EndedFor (ops ++ [o]) k) :
    Ledger e.env (ops ++ [o]) (xs ++ [x]) s' := by
  obtain ⟨hi, hsub, -⟩ := hl.kinv.step h
  have hf := hl.fence.step he hl.kinv h
  have hruns := kstep_runs h
  have hag := hruns.aged ho hl.dom
  have hsince := hruns.since
  obtain ⟨howner, hnew⟩ := hl.madeBy h
  have hmono : ∀ o' ∈ ops, o' ∈ ops ++ [o] := by simp +contextual
  have hdata : ∀ k r R m, (k, r) ∈ s'.regions → s'.world.regions r = some R → s'.world.models r = some m →
      e.env.ops.isTrainable m = true → EndedFor (ops ++ [o]) k → R.dataset.size ≠ 0 := by
    intro k r R m hk hR hm ht hend
    rcases endedFor_snoc hend with hend | ⟨c, rfl, hask⟩
    · obtain ⟨hk₀, hlt⟩ := hl.old hi hsub hk (EndedFor.asked hend)
      obtain ⟨m₀, hm₀, ht₀⟩ := hag.learns r m hlt hm ht
      obtain ⟨R₀, hR₀, hd⟩ := hag.data r R hlt hR
      exact hd (hl.data k r R₀ m₀ hk₀ hR₀ hm₀ ht₀ hend)
    · obtain ⟨r', h1, h2⟩ := hl.opened c k hask
      obtain rfl := region_unique hi hk (hsub _ h2)
      exact hl.measured ho h1 h hR hm ht hag
  have hnames : ∀ k r R, (k, r) ∈ s'.regions → s'.world.regions r = some R →
      ProblemName (ops ++ [o]) k R.name := by
    intro k r R hk hR
    by_cases hlt : r < s.world.nextRegion
    · obtain ⟨R₀, h1, h2⟩ := hsince.2 r R hlt hR
      rw [h2.name]
      exact ProblemName.mono hmono (hl.names k r R₀ (hl.older hi hsub hk hlt) h1)
    · exact hnew k r R hk (by omega) hR
  refine ⟨hi, hf, hl.pend.step hl.kinv h, hl.live.step hl.kinv h, ?_, hag.single.trans hl.single, hag.dom,
    hl.declares h, howner, hnames, hl.opens h, ?_, hdata⟩
  · obtain ⟨p, -, hp⟩ := hruns
    exact (RegInv.invariant e.env fun _ => True).exec (fun _ _ _ _ => trivial) hl.reg hp
  · intro r m hm ht
    by_cases hx : x = .ended true
    · exfalso
      subst hx
      cases o with
      | declareOutput id name c =>
        obtain ⟨s₁, -, h⟩ := (Res.bind_eq_ok _ _ _).1 h
        cases h
      | declareInput id name =>
        obtain ⟨s₁, -, h⟩ := (Res.bind_eq_ok _ _ _).1 h
        cases h
      | request cid ctx tuning =>
        have h' : request e s cid ctx tuning = .ok (.ended true, s') := h
        rcases request_ok h' with ⟨-, h0, -⟩ | ⟨_, _, _, _, _, _, _, _, _, -, -, -, -, -, -, -, h0, -⟩ <;> cases h0
      | endContext cid =>
        have h' : endContext e s cid = .ok (.ended true, s') := h
        have hlt' : r < s'.world.nextRegion := hag.dom r m hm
        obtain ⟨k, hk⟩ := howner r hlt'
        have hreg' : s'.regions = s.regions := (hl.kinv.endContext h').2.1
        have hk₀ : (k, r) ∈ s.regions := by rw [← hreg']; exact hk
        obtain ⟨o', ho', hko⟩ := (hl.fence.known k).1 ⟨r, hk₀⟩
        obtain ⟨R, hR⟩ := Option.isSome_iff_exists.1 ((hl.live.step hl.kinv h) r hlt')
        have hsz := hdata k r R m hk hR hm ht (hset rfl o' ho' k hko)
        have hrg := hl.registered (fun a ha b hb k k' name h1 h2 h3 h4 =>
          hn a (hmono a ha) b (hmono b hb) k k' name h1 h2 (ProblemName.mono hmono h3) (ProblemName.mono hmono h4)) hk₀
        rcases endContext_ok h' with ⟨-, h0, -⟩ | ⟨r', c, w, hc', h1, -, -, h2⟩
        · cases h0
        obtain ⟨rfl, -⟩ := hl.kinv.ctxs cid r' c hc'
        obtain ⟨R₀, C, -, -, ⟨q, -, -, h3⟩ | ⟨h3, -⟩⟩ := endCtx_ok h1
        swap
        · exact absurd rfl h3
        obtain ⟨R₁, m₁, C₁, l, h4⟩ := collectContext_ok h3
        have hw : NoPending w := NoPending.update (w := (((s.world.setCtx (.sync r') _).advance).emit _)) hl.pend
          h4.regions (by simp only [recRegion]; exact hl.pend r' _ h4.region)
        rcases h2 with ⟨-, w', h5, -, rfl⟩ | ⟨-, h0, -⟩
        · obtain ⟨⟨l', h6⟩, h7⟩ := apolloTrain_rests ho hw (by rw [h4.cfg]; exact hl.single) h5
          have hwg : w.registry = s.world.registry := h4.registry
          have := h7 r (by rw [hwg]; exact hrg) R m (by rw [← h6.regions]; exact hR) hsz hm
          rw [this] at ht
          cases ht
        · cases h0
    · rw [hf.count, newSinceFlush_snoc hl.fence.len]
      by_cases hlt : r < s.world.nextRegion
      · obtain ⟨m₀, hm₀, ht₀⟩ := hag.learns r m hlt hm ht
        exact .inl ⟨hl.fence.count.1 (hl.new r m₀ hm₀ ht₀), hx⟩
      · right
        obtain ⟨k, hk⟩ := howner r (hag.dom r m hm)
        have hno : ∀ o' ∈ ops, ¬ AsksFor o' k := fun o' ho' hk' => by
          have := (hl.old hi hsub hk ⟨o', ho', hk'⟩).2
          omega
        obtain ⟨o', ho', hk'⟩ := (hf.known k).1 ⟨r, hk⟩
        rcases List.mem_append.1 ho' with ho' | ho'
        · exact absurd hk' (hno o' ho')
        · rw [List.mem_singleton] at ho'
          subst ho'
          exact ⟨k, hk', hno⟩

theorem Ledger.exec (ho : OneShot e.env.ops) (he : DotAborts e.env) {pre : List KOp} {ps : List Ret}
    (hl : Ledger e.env pre ps s) (h : kexec e ops s = .ok (xs, s')) (hn : NamesApart (pre ++ ops))
    (hset : MeasuredAtFlushes (pre ++ ops) (ps ++ xs)) : Ledger e.env (pre ++ ops) (ps ++ xs) s' := by
  induction ops generalizing pre ps s xs with
  | nil => simp only [kexec] at h; cases h; simpa using hl
  | cons o ops ih =>
    obtain ⟨x, s₁, ys, h1, h2, rfl⟩ := kexec_cons h
    have hlen := hl.fence.len
    have hsub : ∀ o' ∈ pre ++ [o], o' ∈ pre ++ o :: ops := by
      intro o' ho'
      simp only [List.mem_append, List.mem_cons, List.not_mem_nil, or_false] at ho' ⊢
      tauto
    have h3 := hl.step ho he h1 (fun a ha b hb k k' name q1 q2 q3 q4 => hn a (hsub a ha) b (hsub b hb) k k' name q1 q2
      (ProblemName.mono hsub q3) (ProblemName.mono hsub q4)) (by
        intro hx o' ho' k hk
        have := hset ps.length (by simp [hx]) o' (by rw [hlen]; simp [ho']) k hk
        rw [hlen] at this
        rw [show pre ++ o :: ops = (pre ++ [o]) ++ ops by simp,
          List.take_append_of_le_length (by simp), List.take_of_length_le (by simp)] at this
        exact this)
    simpa using ih h3 h2 (by simpa using hn) (by simpa using hset)

end Step

/-! ## Calls with kernels -/

theorem calls_cons {s s' : Session M} {c : Call} {cs : List Call} {xs : List Seen}
    (h : calls e (c :: cs) s = .ok (xs, s')) :
    ∃ x s₁ ys, call e s c = .ok (x, s₁) ∧ calls e cs s₁ = .ok (ys, s') ∧ xs = x :: ys := by
  simp only [calls] at h
  obtain ⟨⟨x, s₁⟩, h1, h⟩ := (Res.bind_eq_ok _ _ _).1 h
  obtain ⟨⟨ys, s₂⟩, h2, h⟩ := (Res.bind_eq_ok _ _ _).1 h
  cases h
  exact ⟨x, s₁, ys, h1, h2, rfl⟩

theorem calls_append {a b : List Call} {s s' : Session M} {xs : List Seen}
    (h : calls e (a ++ b) s = .ok (xs, s')) :
    ∃ ys s₁ zs, calls e a s = .ok (ys, s₁) ∧ calls e b s₁ = .ok (zs, s') ∧ xs = ys ++ zs ∧
      ys.length = a.length := by
  induction a generalizing s xs with
  | nil => exact ⟨[], s, xs, rfl, h, rfl, rfl⟩
  | cons c a ih =>
    obtain ⟨x, s₁, ys, h1, h2, rfl⟩ := calls_cons h
    obtain ⟨ys, s₂, zs, h3, h4, rfl, h5⟩ := ih h2
    refine ⟨x :: ys, s₂, zs, ?_, h4, rfl, by simp [h5]⟩
    simp only [calls, h1, Res.bind_ok, h3]

theorem calls_tool {cs : List Call} {s s' : Session M} {xs : List Seen}
    (h : calls e cs s = .ok (xs, s')) : kexec e (toolOps cs) s.tool = .ok (toolRets xs, s'.tool) := by
  induction cs generalizing s xs with
  | nil => simp only [calls] at h; cases h; rfl
  | cons c cs ih =>
    obtain ⟨x, s₁, ys, h1, h2, rfl⟩ := calls_cons h
    have h3 := ih h2
    cases c with
    | tool op =>
      simp only [call] at h1
      obtain ⟨⟨y, t⟩, h4, h1⟩ := (Res.bind_eq_ok _ _ _).1 h1
      cases h1
      simp only [toolOps, toolRets, kexec, h4, Res.bind_ok, h3]
    | provide f => simp only [call] at h1; cases h1; exact h3
    | kernel kind dev => simp only [call] at h1; cases h1; exact h3

theorem kexec_rets {ops : List KOp} {s s' : State M} {xs : List Ret} (h : kexec e ops s = .ok (xs, s')) :
    xs.length = ops.length := by
  induction ops generalizing s xs with
  | nil => simp only [kexec] at h; cases h; rfl
  | cons o ops ih =>
    obtain ⟨y, s₁, ys, -, h4, rfl⟩ := kexec_cons h
    simp [ih h4]

theorem calls_fence {cs : List Call} {s s' : Session M} {xs : List Seen} (h : calls e cs s = .ok (xs, s'))
    (hn : Call.provide false ∉ cs) (hf : s.fence = true ∨ Call.provide true ∈ cs) : s'.fence = true := by
  induction cs generalizing s xs with
  | nil =>
    simp only [calls] at h
    cases h
    rcases hf with hf | hf
    · exact hf
    · cases hf
  | cons c cs ih =>
    obtain ⟨x, s₁, ys, h1, h2, rfl⟩ := calls_cons h
    simp only [List.mem_cons, not_or] at hn
    refine ih h2 hn.2 ?_
    cases c with
    | tool op =>
      simp only [call] at h1
      obtain ⟨⟨y, t⟩, h4, h1⟩ := (Res.bind_eq_ok _ _ _).1 h1
      cases h1
      simpa using hf
    | provide f =>
      simp only [call] at h1
      cases h1
      cases f with
      | true => exact .inl rfl
      | false => exact absurd rfl hn.1
    | kernel kind dev => simp only [call] at h1; cases h1; simpa using hf

theorem toolOps_append (a b : List Call) : toolOps (a ++ b) = toolOps a ++ toolOps b := by
  induction a with
  | nil => rfl
  | cons c a ih => cases c <;> simp [toolOps, ih]

theorem toolRets_append (a b : List Seen) : toolRets (a ++ b) = toolRets a ++ toolRets b := by
  induction a with
  | nil => rfl
  | cons c a ih => cases c <;> simp [toolRets, ih]

theorem MeasuredAtFlushes.prefix {a b : List KOp} {xs ys : List Ret} (hl : xs.length = a.length)
    (h : MeasuredAtFlushes (a ++ b) (xs ++ ys)) : MeasuredAtFlushes a xs := by
  intro j hj o ho k hk
  have hlt : j < xs.length := (List.getElem?_eq_some_iff.1 hj).1
  have := h j (by rw [List.getElem?_append_left hlt]; exact hj) o
    (by rw [List.take_append_of_le_length (by omega)]; exact ho) k hk
  rwa [List.take_append_of_le_length (by omega)] at this

theorem NamesApart.prefix {a b : List KOp} (h : NamesApart (a ++ b)) : NamesApart a := by
  have hs : ∀ o ∈ a, o ∈ a ++ b := fun o ho => List.mem_append_left _ ho
  exact fun o ho o' ho' k k' name h1 h2 h3 h4 => h o (hs o ho) o' (hs o' ho') k k' name h1 h2
    (ProblemName.mono hs h3) (ProblemName.mono hs h4)

/-- Data that changes at the end of a context was measured for a region that still learns. -/
theorem changed_learns {ops : List KOp} {xs : List Ret} {s s' : State M} {x : Ret} (ho : OneShot e.env.ops)
    (hl : Ledger e.env ops xs s) (hp : s.world.cfg.persistent = false) {cid r : ℕ}
    (hc : s.contexts cid = some (r, .sync r)) (h : endContext e s cid = .ok (x, s')) {q : ℕ}
    (hq : (s'.world.regions q).map Region.dataset ≠ (s.world.regions q).map Region.dataset) :
    ∃ m, s.world.models r = some m ∧ e.env.ops.isTrainable m = true := by
  rcases endContext_ok h with ⟨h0, -⟩ | ⟨r', c, w, hc', h1, -, -, h2⟩
  · rw [h0] at hc; cases hc
  rw [hc] at hc'
  cases hc'
  obtain ⟨R₀, C, -, -, ⟨v, -, -, h3⟩ | ⟨h3, -⟩⟩ := endCtx_ok h1
  swap
  · exact absurd rfl h3
  obtain ⟨R₁, m₁, C₁, l, h4⟩ := collectContext_ok h3
  refine ⟨m₁, h4.model, ?_⟩
  by_contra hne
  rw [Bool.not_eq_true] at hne
  have hw : NoPending w := NoPending.update (w := (((s.world.setCtx (.sync r) _).advance).emit _)) hl.pend
    h4.regions (by simp only [recRegion]; exact hl.pend r _ h4.region)
  have hr : s'.world.regions = w.regions := by
    rcases h2 with ⟨-, w', h5, -, rfl⟩ | ⟨-, -, rfl⟩
    · obtain ⟨⟨l', h6⟩, -⟩ := apolloTrain_rests ho hw (by rw [h4.cfg]; exact hl.single) h5
      exact h6.regions
    · rfl
  apply hq
  rw [hr, h4.regions]
  by_cases heq : q = r
  · subst heq
    have hR : s.world.regions q = some R₁ := h4.region
    have hp' : (((s.world.setCtx (.sync q) { C with stop := some (seconds (e.env.clock s.world.tick)) }).advance).emit
      (.finished q (.sync q) v)).cfg.persistent = false := hp
    rw [Function.update_self, hR]
    simp only [Option.map_some, recRegion, learns, hp', hne, Bool.or_false, Bool.false_eq_true, if_false]
  · rw [Function.update_of_ne heq]
    rfl

end Apollo.Kokkos
