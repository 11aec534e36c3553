import Verif.Proofs.RanksInv
import Verif.Props.Collective
import Verif.Props.Forest
import Verif.Props.Tree
import Verif.Model.RegionPolicy

/-!
# Several ranks: equal datasets give equal choices
-/

namespace Apollo.Ranks

open Apollo Apollo.Collective Apollo.Spec Apollo.Props

/-! ## Models -/

/-- Models that are yet to be trained and differ at most in what they explored. -/
inductive Alike : PolicyModel → PolicyModel → Prop
  | tree (n : ℤ) (e e' : PolicyModel) (t : TreeImpl) : Reach t → Alike (.tree n true e t) (.tree n true e' t)
  | forest (n : ℤ) (e e' : PolicyModel) (f : ForestImpl) :
      Alike (.forest n true e f) (.forest n true e' f)

theorem Alike.symm {m m' : PolicyModel} (h : Alike m m') : Alike m' m := by
  cases h with
  | tree n e e' t ht => exact .tree n e' e t ht
  | forest n e e' f => exact .forest n e' e f

theorem Alike.trainable {m m' : PolicyModel} (h : Alike m m') : m.isTrainable = true := by
  cases h <;> rfl

theorem trainingSamples_length {ds : Dataset} (hs : OMap.Sorted ds) {k : ℕ}
    (hk : ∀ f p m, OMap.find ds (mkKey f p) = some m → f.length = k) :
    ∀ x ∈ PolicyModel.trainingSamples ds, x.1.length = k := by
  intro x hx
  have h1 := (List.of_mem_zip hx).1
  simp only [List.mem_map] at h1
  obtain ⟨e, he, hx⟩ := h1
  obtain ⟨f, p, m⟩ := e
  have hsb : OMap.Sorted (Dataset.bestPolicies ds) := (Dataset.bestInv_bestPolicies hs).sorted
  have := (Dataset.best_iff hs f p m).1 ((hsb.find_eq_some_iff _ _).2 he)
  rw [← hx]
  exact hk f p m this.2

theorem train_roots {σ σ' : SortFn} (hσ : SortSpec σ) (hσ' : SortSpec σ') {t t₁ t₂ : TreeImpl}
    (h0 : Reach t) {k : ℕ} {xs : List Sample} (hk : ∀ x ∈ xs, x.1.length = k)
    (h1 : t.train σ xs = .ok t₁) (h2 : t.train σ' xs = .ok t₂) : t₁.root = t₂.root := by
  have := C19_order_independent σ σ' hσ hσ' t h0 k xs xs (.refl _) hk
  rw [h1, h2] at this
  simp only [Except.map, Except.ok.injEq, Prod.mk.injEq] at this
  exact this.1

theorem votes_roots {n : ℤ} {f : Features} : ∀ {ts ts' : List TreeImpl} {c : List ℕ},
    ts.map TreeImpl.root = ts'.map TreeImpl.root →
    ForestImpl.votes n f ts c = ForestImpl.votes n f ts' c := by
  intro ts
  induction ts with
  | nil =>
    intro ts' c h
    cases ts' with
    | nil => rfl
    | cons t' ts' => simp at h
  | cons t ts ih =>
    intro ts' c h
    cases ts' with
    | nil => simp at h
    | cons t' ts' =>
      simp only [List.map_cons, List.cons.injEq] at h
      simp only [ForestImpl.votes, TreeImpl.predict, h.1]
      cases evaluateTree t'.root f with
      | error e => rfl
      | ok v =>
        simp only [Res.bind_ok]
        split
        · exact ih h.2
        · rfl

/-- Trained on the same data, with conforming sorts and the same random numbers, they choose alike. -/
theorem alike_train {env env' : TrainEnv} (hσ : SortSpec env.sort) (hσ' : SortSpec env'.sort)
    (hd : env.draws = env'.draws) {m m' m₁ m₁' : PolicyModel} (h : Alike m m') {ds : Dataset}
    (hs : OMap.Sorted ds) {k : ℕ} (hk : ∀ f p x, OMap.find ds (mkKey f p) = some x → f.length = k)
    (h1 : m.train env ds = .ok m₁) (h2 : m'.train env' ds = .ok m₁') :
    m₁.isTrainable = false ∧ m₁'.isTrainable = false ∧
      ∀ f, (m₁.getIndex f).map Prod.fst = (m₁'.getIndex f).map Prod.fst := by
  have hl := trainingSamples_length hs hk
  cases h with
  | tree n e e' t ht =>
    simp only [PolicyModel.train] at h1 h2
    obtain ⟨t₁, a1, b1⟩ := (Res.bind_eq_ok _ _ _).1 h1
    obtain ⟨t₂, a2, b2⟩ := (Res.bind_eq_ok _ _ _).1 h2
    cases b1
    cases b2
    have hr := train_roots hσ hσ' ht hl a1 a2
    refine ⟨rfl, rfl, fun f => ?_⟩
    simp only [PolicyModel.getIndex, Bool.not_false, if_true, TreeImpl.predict, hr]
    cases evaluateTree t₂.root f <;> rfl
  | forest n e e' f =>
    simp only [PolicyModel.train] at h1 h2
    obtain ⟨f₁, a1, b1⟩ := (Res.bind_eq_ok _ _ _).1 h1
    obtain ⟨f₂, a2, b2⟩ := (Res.bind_eq_ok _ _ _).1 h2
    cases b1
    cases b2
    unfold ForestImpl.train at a1 a2
    obtain ⟨ts₁, c1, d1⟩ := (Res.bind_eq_ok _ _ _).1 a1
    obtain ⟨ts₂, c2, d2⟩ := (Res.bind_eq_ok _ _ _).1 a2
    cases d1
    cases d2
    obtain ⟨new₁, rfl, l1, g1⟩ := trainLoop_ok c1
    obtain ⟨new₂, rfl, l2, g2⟩ := trainLoop_ok c2
    have hr : (f.trees ++ new₁).map TreeImpl.root = (f.trees ++ new₂).map TreeImpl.root := by
      rw [List.map_append, List.map_append]
      congr 1
      refine List.ext_getElem (by simp [l1, l2]) fun i hi hi' => ?_
      rw [List.getElem_map, List.getElem_map]
      rw [List.length_map] at hi hi'
      have e1 := g1 i hi
      have e2 := g2 i hi'
      rw [hd] at e1
      refine train_roots hσ hσ' (.new _ _) (k := k) ?_ e1 e2
      intro x hx
      have hpos : 0 < (PolicyModel.trainingSamples ds).length := by
        unfold ForestImpl.bootstrap at hx
        rw [List.mem_map] at hx
        obtain ⟨j, hj, _⟩ := hx
        have := List.mem_range.1 hj
        omega
      exact hl x ((bootstrap_isBootstrap _ _ _).2 x hx)
    refine ⟨rfl, rfl, fun x => ?_⟩
    simp only [PolicyModel.getIndex, Bool.not_false, if_true, ForestImpl.predict]
    split
    · rfl
    · rw [votes_roots hr]
      cases ForestImpl.votes f.numClasses x (f.trees ++ new₂) (List.replicate f.numClasses.toNat 0) <;> rfl

/-! ## Training the regions one after the other -/

variable {M : Type}

/-- One region without pending contexts. -/
theorem regionTrain_one {env : Env M} {w w' : World M} {r : ℕ} {s : ℤ} {c : Bool} {R : Region} {m : M}
    (hR : w.regions r = some R) (hm : w.models r = some m) (hp : c = false ∨ R.pending = [])
    (h : regionTrain env w r s c false = .ok w') :
    w'.regions = w.regions ∧ (∀ r', r' ≠ r → w'.models r' = w.models r') ∧
    ∃ m', w'.models r = some m' ∧
      (((env.ops.isTrainable m = false ∨ R.dataset.size = 0) ∧ m' = m) ∨
        (env.ops.isTrainable m = true ∧ R.dataset.size ≠ 0 ∧
          ∃ t, env.ops.train t R.dataset m = .ok m')) := by
  rcases regionTrain_ok h with ⟨rfl, _, m₀, hm₀, ht⟩ | ⟨h0, w₁, h1, hb⟩
  · rw [hm] at hm₀
    cases hm₀
    exact ⟨rfl, fun _ _ => rfl, m, hm, .inl ⟨.inl ht, rfl⟩⟩
  · have hw : w₁ = w := by
      rcases h1 with ⟨hc, h1⟩ | ⟨_, rfl⟩
      · rcases hp with hp | hp
        · rw [hp] at hc; cases hc
        · exact collectPending_nil hR hp h1
      · rfl
    subst hw
    obtain ⟨m₀, hm₀, ht⟩ := h0.resolve_left (by simp)
    rw [hm] at hm₀
    cases hm₀
    obtain ⟨R', hR', ⟨hz, rfl⟩ | ⟨hz, hT, m₁, m', hm₁, htr, hm'⟩⟩ := trainBody_exact hb
    · rw [hR] at hR'
      cases hR'
      exact ⟨rfl, fun _ _ => rfl, m, hm, .inl ⟨.inr hz, rfl⟩⟩
    · rw [hR] at hR'
      cases hR'
      rw [hm] at hm₁
      cases hm₁
      refine ⟨hT.regions, fun r' hr => hT.models r' fun ds hd => ?_, m', hm', .inr ⟨ht, hz, _, htr⟩⟩
      rw [List.mem_singleton] at hd
      cases hd
      exact hr rfl

theorem forRegions_models {env : Env M} {s : ℤ} {c : Bool} : ∀ {rs : List ℕ} {w w' : World M},
    rs.Nodup → (∀ r ∈ rs, ∃ R, w.regions r = some R ∧ (c = false ∨ R.pending = [])) →
    (∀ r ∈ rs, ∃ m, w.models r = some m) →
    forRegions (fun w r => regionTrain env w r s c false) rs w = .ok w' →
    w'.regions = w.regions ∧ (∀ r, r ∉ rs → w'.models r = w.models r) ∧
    ∀ r ∈ rs, ∀ R m, w.regions r = some R → w.models r = some m → ∃ m', w'.models r = some m' ∧
      (((env.ops.isTrainable m = false ∨ R.dataset.size = 0) ∧ m' = m) ∨
        (env.ops.isTrainable m = true ∧ R.dataset.size ≠ 0 ∧
          ∃ t, env.ops.train t R.dataset m = .ok m')) := by
  intro rs
  induction rs with
  | nil =>
    intro w w' _ _ _ h
    simp only [forRegions] at h
    cases h
    exact ⟨rfl, fun _ _ => rfl, by simp⟩
  | cons r rs ih =>
    intro w w' hn hp hl h
    simp only [forRegions] at h
    obtain ⟨w₁, h1, h⟩ := (Res.bind_eq_ok _ _ _).1 h
    obtain ⟨R, hR, hpr⟩ := hp r (by simp)
    obtain ⟨m, hm⟩ := hl r (by simp)
    obtain ⟨e1, e2, m', hm', e3⟩ := regionTrain_one hR hm hpr h1
    have hne : ∀ x ∈ rs, x ≠ r := by
      rintro x hx rfl
      exact (List.nodup_cons.1 hn).1 hx
    obtain ⟨g1, g2, g3⟩ := ih (List.nodup_cons.1 hn).2
      (fun x hx => by rw [e1]; exact hp x (by simp [hx]))
      (fun x hx => by rw [e2 x (hne x hx)]; exact hl x (by simp [hx])) h
    refine ⟨g1.trans e1, ?_, ?_⟩
    · intro x hx
      simp only [List.mem_cons, not_or] at hx
      rw [g2 x hx.2, e2 x hx.1]
    · intro x hx R₀ m₀ hR₀ hm₀
      rcases List.mem_cons.1 hx with rfl | hx
      · rw [hR] at hR₀
        cases hR₀
        rw [hm] at hm₀
        cases hm₀
        exact ⟨m', by rw [g2 _ (List.nodup_cons.1 hn).1]; exact hm', e3⟩
      · refine g3 x hx R₀ m₀ (by rw [e1]; exact hR₀) (by rw [e2 x (hne x hx)]; exact hm₀)

/-! ## Views -/

theorem viewOf_find {w : World M} : ∀ {l : List (Str × ℕ)} {v : Registry}, viewOf w l = .ok v →
    v.map Prod.fst = l.map Prod.fst ∧ ∀ n, OMap.find v n =
      (OMap.find l n).bind fun r => (w.regions r).map fun R => ⟨R.numFeatures, R.dataset⟩ := by
  intro l
  induction l with
  | nil => intro v h; simp only [viewOf] at h; cases h; exact ⟨rfl, fun _ => rfl⟩
  | cons a l ih =>
    obtain ⟨n, r⟩ := a
    intro v h
    simp only [viewOf] at h
    obtain ⟨R, hR, h⟩ := (Res.bind_eq_ok _ _ _).1 h
    obtain ⟨v', h1, h⟩ := (Res.bind_eq_ok _ _ _).1 h
    cases h
    obtain ⟨e1, e2⟩ := ih h1
    refine ⟨by simp [e1], fun x => ?_⟩
    simp only [OMap.find]
    split
    · simp [World.region_ok.1 hR]
    · exact e2 x

end Apollo.Ranks
