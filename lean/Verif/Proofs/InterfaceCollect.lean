import Verif.Proofs.Interface

/-!
# The state of the library while it is used as specified: collecting
-/

namespace Apollo

open Spec

variable {M : Type} {env : Env M} {Good : Str → ℕ → ℤ → Dataset → M → Prop} {ρ : UseRules} {pm : Str} {u : Use}
  {P : ℕ → List CtxPtr} {x : Option ℕ} {w : World M}

theorem OMap.length_upsert {κ α : Type} [LinearOrder κ] (f : Option α → α) (k : κ) (m : OMap κ α) :
    (OMap.upsert f k m).length ≤ m.length + 1 := by
  induction m with
  | nil => simp [OMap.upsert]
  | cons e m ih =>
    unfold OMap.upsert
    split
    · simp
    · split
      · simp
      · simp only [List.length_cons]; omega

theorem DataOk.insert {fits : ℚ → Prop} {k : ℕ} {n : ℤ} {ds : Dataset} (hd : DataOk fits k n ds)
    {f : Features} {p : ℤ} (hf : f.length = k) (hp : 0 ≤ p ∧ p < n) (hw : ∀ v ∈ f, fits v)
    (x : ℚ) : DataOk fits k n (ds.insert f p x) := by
  intro e he
  have hk : e.1 ∈ (Dataset.insert ds f p x).map Prod.fst := List.mem_map_of_mem he
  rcases (OMap.mem_upsert_key _ _ _ _).1 hk with h | h
  · rw [h]; exact ⟨hf, hp, hw⟩
  · obtain ⟨e', he', h⟩ := List.mem_map.1 h
    rw [← h]; exact hd e' he'

/-- A region is assigned to; its features, data and model stay in order. -/
theorem Sane.setRegion (hw : Sane env Good ρ pm u P x w) {r : ℕ} {g : RegUse} (hg : u.regs r = some g)
    {R R' : Region} {m : M} {C : Ctx} (h : RegOk Good ρ w (P r) r g R m C)
    (hidx : R'.idx = R.idx) (hdata : R'.dataset = R.dataset)
    (hcur : ∀ c, g.current = some c → R'.current = some c)
    (hpend : some r ≠ x → R'.pending = P r) : Sane env Good ρ pm u P x (w.setRegion r R') := by
  refine ⟨fun r' g' h' => ?_, hw.2, hw.3, hw.4, hw.5, hw.6, hw.7, hw.8, fun r' g' R₂ h' hx hR => ?_,
    hw.10, hw.11, hw.12, hw.13, hw.14, hw.15⟩
  · by_cases hr : r' = r
    · subst hr
      rw [hg] at h'
      cases h'
      exact ⟨R', m, C, Function.update_self .., h.2, h.3, h.4, h.5, by rw [hidx]; exact h.6,
        by rw [hdata]; exact h.7, by rw [hdata]; exact h.8, by rw [hdata]; exact h.9, h.10, hcur⟩
    · obtain ⟨R₂, m₂, C₂, h₂⟩ := hw.regs r' g' h'
      exact ⟨R₂, m₂, C₂, by rw [← h₂.1]; exact Function.update_of_ne hr .., h₂.2, h₂.3, h₂.4, h₂.5, h₂.6,
        h₂.7, h₂.8, h₂.9, h₂.10, h₂.11⟩
  · by_cases hr : r' = r
    · subst hr
      simp only [World.setRegion, Function.update_self, Option.some.injEq] at hR
      subst hR
      exact hpend hx
    · simp only [World.setRegion] at hR
      rw [Function.update_of_ne hr] at hR
      exact hw.held r' g' R₂ h' hx hR

/-- An execution is recorded. -/
theorem record_safe (hs : Safe env Good ρ pm) (hw : Sane env Good ρ pm u P x w) {r : ℕ} {g : RegUse}
    (hg : u.regs r = some g) {R : Region} {m : M} {S C : Ctx} {c : CtxPtr}
    (h : RegOk Good ρ w (P r) r g R m S) (hc : w.ctxs c = some C)
    (hC : CtxOk (ρ.fits g.model) g.features g.policies C) (ho : u.opens c = none)
    (hp : ∀ r' g', u.regs r' = some g' → c ∉ P r') (hown : c = .sync r ∨ ∃ i, c = .heap i)
    (hlt : R.dataset.length + (P r).length < g.ends) (metric : ℚ) :
    Sane env Good ρ pm u P x (record env w r R m c C metric) := by
  obtain ⟨f1, f2, f3, f4, f5, f6, f7, f8, f9, f10⟩ := record_frame env w r R m c C metric
  have hreg := record_regions env w r R m c C metric
  have hctx := record_ctxs env w r R m c C metric hc
  refine ⟨fun r' g' h' => ?_, hw.2, by rw [f3]; exact hw.3, by rw [f4]; exact hw.4,
    fun c' r' k g' h1 h2 => ?_, fun r' g' c' h1 h2 => ?_, hw.7, hw.8, fun r' g' R₂ h' hx hR => ?_,
    by rw [f5]; exact hw.10, by rw [f5]; exact hw.11, by rw [f5]; exact hw.12,
    by rw [f1]; exact hw.13, by rw [f1]; exact hw.14, hw.15⟩
  · by_cases hr : r' = r
    · subst hr
      rw [hg] at h'
      cases h'
      have hlen : (recRegion env w R m C metric).dataset.length ≤ R.dataset.length + 1 := by
        unfold recRegion
        dsimp only
        split
        · exact OMap.length_upsert _ _ _
        · omega
      have hdata : DataOk (ρ.fits g.model) g.features g.policies (recRegion env w R m C metric).dataset := by
        unfold recRegion
        dsimp only
        split
        · exact h.data.insert hC.1 hC.2.1 hC.2.2.1 _
        · exact h.data
      have hgood : Good g.model g.features g.policies (recRegion env w R m C metric).dataset m := by
        unfold recRegion
        dsimp only
        split
        · exact hs.grow h.good _ _ _
        · exact h.good
      have hS : ∃ S', (record env w r' R m c C metric).ctxs (.sync r') = some S' ∧
          0 ≤ S'.policy ∧ S'.policy < g.policies := by
        rw [hctx]
        by_cases hcs : CtxPtr.sync r' = c
        · rw [← hcs, Function.update_self]; exact ⟨_, rfl, hC.2.1⟩
        · rw [Function.update_of_ne hcs]; exact ⟨S, h.ctx, h.policy⟩
      obtain ⟨S', hS1, hS2⟩ := hS
      exact ⟨{ recRegion env w R m C metric with current := R.current }, m, S',
        by rw [hreg]; exact Function.update_self .., by rw [f2]; exact h.model, hS1, h.pos,
        hS2, h.idx, hdata, hgood, by
          have : (recRegion env w R m C metric).dataset.length + (P r').length ≤ g.ends := by omega
          exact this, h.most, h.current⟩
    · obtain ⟨R₂, m₂, C₂, h₂⟩ := hw.regs r' g' h'
      refine ⟨R₂, m₂, C₂, ?_, by rw [f2]; exact h₂.2, ?_, h₂.4, h₂.5, h₂.6,
        h₂.7, h₂.8, h₂.9, h₂.10, h₂.11⟩
      · rw [hreg, Function.update_of_ne hr]; exact h₂.1
      · rw [hctx, Function.update_of_ne]
        · exact h₂.3
        · rcases hown with rfl | ⟨i, rfl⟩
          · exact fun he => hr (by cases he; rfl)
          · exact fun he => by cases he
  · have hne : c' ≠ c := fun he => by rw [he, ho] at h1; cases h1
    rw [hctx, Function.update_of_ne hne]
    exact hw.opens c' r' k g' h1 h2
  · have hne : c' ≠ c := fun he => hp r' g' h1 (he ▸ h2)
    rw [hctx, Function.update_of_ne hne]
    exact hw.pend r' g' c' h1 h2
  · rw [hreg] at hR
    by_cases hr : r' = r
    · subst hr
      rw [Function.update_self] at hR
      cases hR
      exact hw.held r' g' R h' hx h.region
    · rw [Function.update_of_ne hr] at hR
      exact hw.held r' g' R₂ h' hx hR

/-- A context that is neither open nor pending is released. -/
theorem Sane.release (hw : Sane env Good ρ pm u P x w) {i : ℕ} (ho : u.opens (.heap i) = none)
    (hp : ∀ r' g', u.regs r' = some g' → CtxPtr.heap i ∉ P r') :
    Sane env Good ρ pm u P x { w with ctxs := Function.update w.ctxs (.heap i) none } := by
  refine ⟨fun r g hg => ?_, hw.2, hw.3, hw.4, fun c' r' k g' h1 h2 => ?_, fun r' g' c' h1 h2 => ?_, hw.7,
    hw.8, hw.9, hw.10, hw.11, hw.12, hw.13, hw.14, hw.15⟩
  · obtain ⟨R, m, C, h⟩ := hw.regs r g hg
    refine ⟨R, m, C, h.1, h.2, ?_, h.4, h.5, h.6, h.7, h.8, h.9, h.10, h.11⟩
    dsimp only
    rw [Function.update_of_ne (fun he => by cases he)]
    exact h.3
  · have hne : c' ≠ .heap i := fun he => by rw [he, ho] at h1; cases h1
    dsimp only
    rw [Function.update_of_ne hne]
    exact hw.opens c' r' k g' h1 h2
  · have hne : c' ≠ .heap i := fun he => hp r' g' h1 (he ▸ h2)
    dsimp only
    rw [Function.update_of_ne hne]
    exact hw.pend r' g' c' h1 h2

theorem collectContext_safe (hs : Safe env Good ρ pm) (hw : Sane env Good ρ pm u P x w) {r : ℕ}
    {g : RegUse} (hg : u.regs r = some g) (hcur : g.current = none) {C : Ctx} {c : CtxPtr}
    (hc : w.ctxs c = some C) (hC : CtxOk (ρ.fits g.model) g.features g.policies C) (ho : u.opens c = none)
    (hp : ∀ r' g', u.regs r' = some g' → c ∉ P r') (hown : c = .sync r ∨ ∃ i, c = .heap i)
    (hlt : ∀ R, w.regions r = some R → R.dataset.length + (P r).length < g.ends) (metric : ℚ) :
    ∃ w', collectContext env w r c metric = .ok w' ∧ Sane env Good ρ pm u P x w' := by
  obtain ⟨R, m, S, h⟩ := hw.regs r g hg
  have hw1 := record_safe hs hw hg h hc hC ho hp hown (hlt R h.region) metric
  obtain ⟨w₂, h2, hw2⟩ := autoTrain_safe hs hw1 hg
  obtain ⟨l, hl, -⟩ := autoTrain_trained h2
  have hctx := record_ctxs env w r R m c C metric hc
  have h3 : ∃ w₃, destroyContext w₂ r c = .ok w₃ ∧ Sane env Good ρ pm u P x w₃ := by
    unfold destroyContext
    rcases hown with rfl | ⟨i, rfl⟩
    · rw [if_pos rfl]; exact ⟨_, rfl, hw2⟩
    · rw [if_neg (fun he => by cases he)]
      dsimp only
      have : w₂.ctxs (.heap i) = some (recCtx env w m C) := by
        rw [hl.ctxs, hctx, Function.update_self]
      rw [World.ctx_ok.2 this, Res.bind_ok]
      exact ⟨_, rfl, hw2.release ho hp⟩
  obtain ⟨w₃, h3, hw3⟩ := h3
  obtain ⟨R₃, m₃, C₃, h4⟩ := hw3.regs r g hg
  unfold collectContext
  rw [World.region_ok.2 h.region, Res.bind_ok, World.model_ok.2 h.model, Res.bind_ok,
    World.ctx_ok.2 hc, Res.bind_ok]
  dsimp only
  rw [h2, Res.bind_ok, h3, Res.bind_ok, World.region_ok.2 h4.region,
    Res.bind_ok]
  refine ⟨_, rfl, hw3.setRegion hg h4 rfl rfl (fun c hc => ?_) fun hx =>
    hw3.held r g R₃ hg hx h4.region⟩
  rw [hcur] at hc; cases hc

/-- A context leaves the list of pending contexts. -/
theorem Sane.shrink (hw : Sane env Good ρ pm u P x w) {r : ℕ} {L : List CtxPtr}
    (hL : L.Sublist (P r)) (hx : x = some r) :
    Sane env Good ρ pm u (Function.update P r L) x w := by
  have hsub : ∀ r', (Function.update P r L r').Sublist (P r') := by
    intro r'
    by_cases hr : r' = r
    · subst hr; rw [Function.update_self]; exact hL
    · rw [Function.update_of_ne hr]
  refine ⟨fun r' g' h' => ?_, hw.2, hw.3, hw.4, hw.5, fun r' g' c h1 h2 =>
    hw.6 r' g' c h1 ((hsub r').subset h2), fun r' g' h' => (hw.7 r' g' h').sublist (hsub r'),
    fun r₁ r₂ g₁ g₂ c h1 h2 h3 h4 => hw.8 r₁ r₂ g₁ g₂ c h1 h2 ((hsub _).subset h3) ((hsub _).subset h4),
    fun r' g' R h1 h2 h3 => ?_, hw.10, hw.11, hw.12, hw.13, hw.14, hw.15⟩
  · obtain ⟨R, m, C, h⟩ := hw.regs r' g' h'
    exact ⟨R, m, C, h.1, h.2, h.3, h.4, h.5, h.6, h.7, h.8,
      le_trans (Nat.add_le_add_left (hsub r').length_le _) h.9, h.10, h.11⟩
  · rw [Function.update_of_ne (fun he => h2 (by rw [he, hx]))]
    exact hw.held r' g' R h1 h2 h3

theorem collectLoop_safe (hs : Safe env Good ρ pm) {r : ℕ} {g : RegUse} (hg : u.regs r = some g)
    (hcur : g.current = none) : ∀ (cs kept₀ : List CtxPtr) (P : ℕ → List CtxPtr) (w : World M),
    P r = kept₀ ++ cs → Sane env Good ρ pm u P (some r) w → ∃ kept w',
      collectLoop env r cs w = .ok (kept, w') ∧
      Sane env Good ρ pm u (Function.update P r (kept₀ ++ kept)) (some r) w' := by
  intro cs
  induction cs with
  | nil =>
    intro kept₀ P w hP hw
    refine ⟨[], w, rfl, ?_⟩
    rw [← hP, Function.update_eq_self]
    exact hw
  | cons c cs ih =>
    intro kept₀ P w hP hw
    have hmem : c ∈ P r := by rw [hP]; simp
    obtain ⟨ho, ⟨i, hi, hlt⟩, C, hc, hC⟩ := hw.pend r g c hg hmem
    subst hi
    unfold collectLoop
    have ht : ∃ b w₁, tryCollect env w r (.heap i) = .ok (b, w₁) ∧
        (b = false ∧ Sane env Good ρ pm u P (some r) w₁ ∨
          b = true ∧ Sane env Good ρ pm u (Function.update P r (kept₀ ++ cs)) (some r) w₁) := by
      unfold tryCollect
      rw [World.ctx_ok.2 hc, Res.bind_ok]
      dsimp only
      split
      · exact ⟨_, _, rfl, .inl ⟨rfl, (hw.advance).emit _⟩⟩
      next metric hpoll =>
        have hsub : (kept₀ ++ cs).Sublist (P r) := by
          rw [hP]
          exact List.Sublist.append_left (List.sublist_cons_self _ _) _
        have hw1 := ((hw.advance).emit (.finished r (.heap i) metric)).shrink hsub rfl
        have hnd : (kept₀ ++ .heap i :: cs).Nodup := by rw [← hP]; exact hw.nodup r g hg
        have hnot : CtxPtr.heap i ∉ kept₀ ++ cs := by
          have := (List.perm_middle (a := CtxPtr.heap i) (l₁ := kept₀) (l₂ := cs)).nodup_iff.1 hnd
          exact (List.nodup_cons.1 this).1
        obtain ⟨w₁, h1, hw1⟩ := collectContext_safe hs hw1 hg hcur hc hC ho (fun r' g' hr' hm => by
          by_cases hr : r' = r
          · subst hr
            rw [Function.update_self] at hm
            exact hnot hm
          · rw [Function.update_of_ne hr] at hm
            exact hr (hw.disj r' r g' g _ hr' hg hm hmem)) (.inr ⟨i, rfl⟩) (fun R hR => by
          obtain ⟨R', m', C', h'⟩ := hw.regs r g hg
          have hR' : w.regions r = some R := hR
          rw [h'.region] at hR'
          cases hR'
          have := h'.size
          rw [hP] at this
          rw [Function.update_self]
          simp only [List.length_append, List.length_cons] at this ⊢
          omega) metric
        rw [h1, Res.bind_ok]
        exact ⟨_, _, rfl, .inr ⟨rfl, hw1⟩⟩
      next hpoll => exact absurd hpoll (hs.poll _ _ _)
    obtain ⟨b, w₁, h1, h2⟩ := ht
    rw [h1, Res.bind_ok]
    rcases h2 with ⟨rfl, hw1⟩ | ⟨rfl, hw1⟩
    · obtain ⟨kept, w₂, h3, hw2⟩ := ih (kept₀ ++ [.heap i]) P w₁ (by rw [hP]; simp) hw1
      dsimp only
      rw [h3, Res.bind_ok]
      refine ⟨_, _, rfl, ?_⟩
      simpa using hw2
    · obtain ⟨kept, w₂, h3, hw2⟩ := ih kept₀ _ w₁ (Function.update_self ..) hw1
      dsimp only
      rw [h3, Res.bind_ok]
      refine ⟨_, _, rfl, ?_⟩
      simpa using hw2

theorem collectPending_safe (hs : Safe env Good ρ pm) (hw : Sane env Good ρ pm u P none w) {r : ℕ}
    {g : RegUse} (hg : u.regs r = some g) (hcur : g.current = none) :
    ∃ w' P', collectPending env w r = .ok w' ∧ Sane env Good ρ pm u P' none w' := by
  obtain ⟨R, m, C, h⟩ := hw.regs r g hg
  have hpend := hw.held r g R hg (by simp) h.region
  have hw0 : Sane env Good ρ pm u P (some r) w :=
    ⟨hw.1, hw.2, hw.3, hw.4, hw.5, hw.6, hw.7, hw.8, fun r' g' R' h1 h2 h3 =>
      hw.9 r' g' R' h1 (by simp) h3, hw.10, hw.11, hw.12, hw.13, hw.14, hw.15⟩
  obtain ⟨kept, w₁, h1, hw1⟩ := collectLoop_safe hs hg hcur R.pending [] P w
    (by rw [hpend]; rfl) hw0
  rw [List.nil_append] at hw1
  obtain ⟨R₁, m₁, C₁, hr⟩ := hw1.regs r g hg
  unfold collectPending
  rw [World.region_ok.2 h.region, Res.bind_ok, h1, Res.bind_ok]
  dsimp only
  rw [World.region_ok.2 hr.region, Res.bind_ok]
  refine ⟨_, Function.update P r kept, rfl, ?_⟩
  have hw2 := hw1.setRegion (R' := { R₁ with pending := kept }) hg hr rfl rfl
    (fun c hc => by rw [hcur] at hc; cases hc) (fun hx => absurd rfl hx)
  refine ⟨hw2.1, hw2.2, hw2.3, hw2.4, hw2.5, hw2.6, hw2.7, hw2.8, fun r' g' R' h1 _ h3 => ?_, hw2.10,
    hw2.11, hw2.12, hw2.13, hw2.14, hw2.15⟩
  by_cases hrr : r' = r
  · subst hrr
    simp only [World.setRegion, Function.update_self, Option.some.injEq] at h3
    subst h3
    rw [Function.update_self]
  · exact hw2.held r' g' R' h1 (by simpa using hrr) h3

end Apollo
