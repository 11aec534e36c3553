import Verif.Proofs.InterfaceCollect
import Verif.Proofs.RegionTrain

/-!
# The state of the library while it is used as specified: the calls
-/

namespace Apollo

open Spec

variable {M : Type} {env : Env M} {Good : Str → ℕ → ℤ → Dataset → M → Prop} {ρ : UseRules} {pm : Str} {u : Use}
  {P : ℕ → List CtxPtr} {x : Option ℕ} {w : World M}

/-- The user may forget which context is the current one. -/
theorem Sane.relax (hw : Sane env Good ρ pm u P x w) {u' : Use}
    (h : ∀ r, u'.regs r = u.regs r ∨ u'.regs r = (u.regs r).map fun g => { g with current := none })
    (h1 : u'.nregs = u.nregs) (h2 : u'.opens = u.opens) (h3 : u'.nctx = u.nctx)
    (h4 : u'.destroyed = u.destroyed) : Sane env Good ρ pm u' P x w := by
  have old : ∀ r g', u'.regs r = some g' → ∃ g, u.regs r = some g ∧
      (g' = g ∨ g' = { g with current := none }) := by
    intro r g' hg'
    rcases h r with e | e
    · exact ⟨g', by rw [← e]; exact hg', .inl rfl⟩
    · rw [e] at hg'
      obtain ⟨g, hg, rfl⟩ := Option.map_eq_some_iff.1 hg'
      exact ⟨g, hg, .inr rfl⟩
  refine ⟨fun r g' hg' => ?_, fun r g' hg' => ?_, by rw [h1]; exact hw.3, by rw [h3]; exact hw.4,
    fun c r k g' ho hg' => ?_, fun r g' c hg' hc => ?_, fun r g' hg' => ?_,
    fun r r' g' g'' c hg' hg'' => ?_, fun r g' R hg' => ?_, fun hd r hr => ?_, hw.11,
    by rw [h1]; exact hw.12, by rw [h4]; exact hw.13, hw.14, by rw [h1, h2]; exact hw.15⟩
  · obtain ⟨g, hg, rfl | rfl⟩ := old r g' hg'
    · exact hw.regs r g' hg
    · obtain ⟨R, m, C, h⟩ := hw.regs r g hg
      exact ⟨R, m, C, h.1, h.2, h.3, h.4, h.5, h.6, h.7, h.8, h.9, h.10, fun c hc => by cases hc⟩
  · obtain ⟨g, hg, -⟩ := old r g' hg'
    rw [h1]; exact hw.fresh r g hg
  · obtain ⟨g, hg, hgg⟩ := old r g' hg'
    rw [h2] at ho
    rw [h3]
    have he : g'.policies = g.policies ∧ g'.model = g.model := by
      rcases hgg with h | h <;> rw [h] <;> exact ⟨rfl, rfl⟩
    rw [he.1, he.2]
    exact hw.opens c r k g ho hg
  · obtain ⟨g, hg, hgg⟩ := old r g' hg'
    rw [h2, h3]
    have he : g'.policies = g.policies ∧ g'.features = g.features ∧ g'.model = g.model := by
      rcases hgg with h | h <;> rw [h] <;> exact ⟨rfl, rfl, rfl⟩
    rw [he.1, he.2.1, he.2.2]
    exact hw.pend r g c hg hc
  · obtain ⟨g, hg, -⟩ := old r g' hg'
    exact hw.nodup r g hg
  · obtain ⟨g₁, hg₁, -⟩ := old r g' hg'
    obtain ⟨g₂, hg₂, -⟩ := old r' g'' hg''
    exact hw.disj r r' g₁ g₂ c hg₁ hg₂
  · obtain ⟨g, hg, -⟩ := old r g' hg'
    exact hw.held r g R hg
  · rw [h4] at hd
    obtain ⟨g, hg⟩ := hw.registry hd r hr
    rcases h r with e | e
    · exact ⟨g, by rw [e]; exact hg⟩
    · rw [e, hg]; exact ⟨_, rfl⟩

theorem Sane.forget (hw : Sane env Good ρ pm u P x w) (r : ℕ) :
    Sane env Good ρ pm (u.forget r) P x w := by
  refine hw.relax (fun r' => ?_) rfl rfl rfl rfl
  by_cases hr : r' = r
  · subst hr; exact .inr (Function.update_self ..)
  · exact .inl (Function.update_of_ne hr ..)

theorem forget_regs {r : ℕ} {g : RegUse} (hg : u.regs r = some g) :
    (u.forget r).regs r = some { g with current := none } := by
  unfold Use.forget
  dsimp only
  rw [Function.update_self, hg]
  rfl

theorem Sane.forgetAll (hw : Sane env Good ρ pm u P x w) :
    Sane env Good ρ pm u.forgetAll P x w :=
  hw.relax (fun _ => .inr rfl) rfl rfl rfl rfl

theorem finish_regs {r : ℕ} {g : RegUse} (hg : u.regs r = some g) (c : CtxPtr) :
    (u.finish r c).regs r = some { g with ends := g.ends + 1, current := none } := by
  unfold Use.finish
  dsimp only
  rw [Function.update_self, hg]
  rfl

/-- A context counts as ended. -/
theorem Sane.finish (hw : Sane env Good ρ pm u P x w) {r : ℕ} {g : RegUse} (hg : u.regs r = some g)
    (hmost : g.ends < ρ.most) (c : CtxPtr) : Sane env Good ρ pm (u.finish r c) P x w := by
  have old : ∀ r' g', (u.finish r c).regs r' = some g' → ∃ g₀, u.regs r' = some g₀ ∧
      (g'.model = g₀.model ∧ g'.features = g₀.features) ∧ g'.policies = g₀.policies ∧ g'.begins = g₀.begins ∧
      g₀.ends ≤ g'.ends ∧ (g₀.ends ≤ ρ.most → g'.ends ≤ ρ.most) ∧
      ∀ c, g'.current = some c → g₀.current = some c := by
    intro r' g' hg'
    by_cases hr : r' = r
    · subst hr
      rw [finish_regs hg] at hg'
      cases hg'
      exact ⟨g, hg, ⟨rfl, rfl⟩, rfl, rfl, Nat.le_succ _, fun _ => hmost, fun c hc => by cases hc⟩
    · refine ⟨g', ?_, ⟨rfl, rfl⟩, rfl, rfl, le_rfl, id, fun c hc => hc⟩
      rw [← hg']
      exact (Function.update_of_ne hr ..).symm
  have hop : ∀ c', (u.finish r c).opens c' = none ∨ (u.finish r c).opens c' = u.opens c' := by
    intro c'
    by_cases hc : c' = c
    · subst hc; exact .inl (Function.update_self ..)
    · exact .inr (Function.update_of_ne hc ..)
  refine ⟨fun r' g' hg' => ?_, fun r' g' hg' => ?_, hw.3, hw.4, fun c' r' k g' ho hg' => ?_,
    fun r' g' c' hg' hc => ?_, fun r' g' hg' => ?_, fun r₁ r₂ g₁ g₂ c' hg₁ hg₂ => ?_,
    fun r' g' R hg' => ?_, fun hd r' hr' => ?_, hw.11, hw.12, hw.13, hw.14, fun c' r' k ho => ?_⟩
  · obtain ⟨g₀, h0, e1, e2, e3, e4, e5, e6⟩ := old r' g' hg'
    obtain ⟨R, m, C, h⟩ := hw.regs r' g₀ h0
    exact ⟨R, m, C, h.1, h.2, h.3, by rw [e2]; exact h.4, by rw [e2]; exact h.5, by rw [e3]; exact h.6,
      by rw [e1.1, e1.2, e2]; exact h.7, by rw [e1.1, e1.2, e2]; exact h.8, le_trans h.9 e4, e5 h.10,
      fun c hc => h.11 c (e6 c hc)⟩
  · obtain ⟨g₀, h0, -⟩ := old r' g' hg'
    exact hw.fresh r' g₀ h0
  · obtain ⟨g₀, h0, e1, e2, -⟩ := old r' g' hg'
    rw [e1.1, e2]
    rcases hop c' with h | h
    · rw [h] at ho; cases ho
    · rw [h] at ho; exact hw.opens c' r' k g₀ ho h0
  · obtain ⟨g₀, h0, e1, e2, -⟩ := old r' g' hg'
    rw [e1.1, e1.2, e2]
    obtain ⟨h1, h2⟩ := hw.pend r' g₀ c' h0 hc
    exact ⟨by rcases hop c' with h | h <;> rw [h]; exact h1, h2⟩
  · obtain ⟨g₀, h0, -⟩ := old r' g' hg'
    exact hw.nodup r' g₀ h0
  · obtain ⟨g₀, h0, -⟩ := old r₁ g₁ hg₁
    obtain ⟨g₀', h0', -⟩ := old r₂ g₂ hg₂
    exact hw.disj r₁ r₂ g₀ g₀' c' h0 h0'
  · obtain ⟨g₀, h0, -⟩ := old r' g' hg'
    exact hw.held r' g₀ R h0
  · obtain ⟨g₀, h0⟩ := hw.registry hd r' hr'
    by_cases hr : r' = r
    · subst hr; exact ⟨_, finish_regs h0 c⟩
    · exact ⟨g₀, by rw [← h0]; exact Function.update_of_ne hr ..⟩
  · rcases hop c' with h | h
    · rw [h] at ho; cases ho
    · rw [h] at ho; exact hw.older c' r' k ho

/-- An open context is assigned to. -/
theorem Sane.setCtx (hw : Sane env Good ρ pm u P x w) {r k k' : ℕ} {g : RegUse} {c : CtxPtr} {C : Ctx}
    (hg : u.regs r = some g) (ho : u.opens c = some (r, k)) (hC : CtxOk (ρ.fits g.model) k' g.policies C) :
    Sane env Good ρ pm { u with opens := Function.update u.opens c (some (r, k')) } P x
      (w.setCtx c C) := by
  refine ⟨fun r' g' hg' => ?_, hw.2, hw.3, hw.4, fun c' r' j g' ho' hg' => ?_,
    fun r' g' c' hg' hc => ?_, hw.7, hw.8, hw.9, hw.10, hw.11, hw.12, hw.13, hw.14,
    fun c' r' j ho' => ?_⟩
  · obtain ⟨R, m, S, h⟩ := hw.regs r' g' hg'
    by_cases hc : CtxPtr.sync r' = c
    · have hr : r' = r := by
        rcases (hw.opens c r k g ho hg).2 with h | ⟨i, h, -⟩
        · rw [← hc] at h; cases h; rfl
        · rw [← hc] at h; cases h
      subst hr
      have hgg : u.regs r' = some g' := hg'
      rw [hg] at hgg
      cases hgg
      exact ⟨R, m, C, h.1, h.2, by rw [hc]; exact Function.update_self .., h.4, hC.2.1, h.6, h.7, h.8,
        h.9, h.10, h.11⟩
    · exact ⟨R, m, S, h.1, h.2, by rw [← h.3]; exact Function.update_of_ne hc .., h.4, h.5, h.6, h.7,
        h.8, h.9, h.10, h.11⟩
  · by_cases hc : c' = c
    · subst hc
      simp only [Function.update_self, Option.some.injEq, Prod.mk.injEq] at ho'
      obtain ⟨rfl, rfl⟩ := ho'
      have hgg : u.regs r = some g' := hg'
      rw [hg] at hgg
      cases hgg
      exact ⟨⟨C, Function.update_self .., hC⟩, (hw.opens c' r k g ho hg).2⟩
    · dsimp only at ho'
      rw [Function.update_of_ne hc] at ho'
      obtain ⟨⟨C', h1, h2⟩, h3⟩ := hw.opens c' r' j g' ho' hg'
      exact ⟨⟨C', by rw [← h1]; exact Function.update_of_ne hc .., h2⟩, h3⟩
  · obtain ⟨h1, h2, C', h3, h4⟩ := hw.pend r' g' c' hg' hc
    have hne : c' ≠ c := fun he => by rw [he, ho] at h1; cases h1
    exact ⟨by rw [← h1]; exact Function.update_of_ne hne .., h2, C',
      by rw [← h3]; exact Function.update_of_ne hne .., h4⟩
  · by_cases hc : c' = c
    · subst hc
      simp only [Function.update_self, Option.some.injEq, Prod.mk.injEq] at ho'
      rw [← ho'.1]
      exact hw.fresh r g hg
    · dsimp only at ho'
      rw [Function.update_of_ne hc] at ho'
      exact hw.older c' r' j ho'

/-- An open context is assigned to, the number of its features staying the same. -/
theorem Sane.setCtx' (hw : Sane env Good ρ pm u P x w) {r k : ℕ} {g : RegUse} {c : CtxPtr} {C : Ctx}
    (hg : u.regs r = some g) (ho : u.opens c = some (r, k)) (hC : CtxOk (ρ.fits g.model) k g.policies C) :
    Sane env Good ρ pm u P x (w.setCtx c C) := by
  have h := hw.setCtx hg ho hC
  rw [← ho, Function.update_eq_self] at h
  exact h

/-! ## Contexts -/

theorem start_regs {r : ℕ} {g : RegUse} (hg : u.regs r = some g) (c : CtxPtr) (k : ℕ) :
    (u.start r c k).regs r = some { g with begins := g.begins + 1, current := some c } := by
  unfold Use.start
  dsimp only
  rw [Function.update_self, hg]
  rfl

theorem begin_safe (hs : Safe env Good ρ pm) (hw : Sane env Good ρ pm u P none w) {r : ℕ} {g : RegUse}
    (hg : u.regs r = some g) (hb : g.begins + 1 < 2 ^ 31) {kind : TimingKind}
    (hk : kind = .async → ρ.async) :
    ∃ c w', begin env w r kind = .ok (c, w') ∧ c = (if kind = .sync then .sync r else .heap u.nctx) ∧
      Sane env Good ρ pm (u.afterCall (.begin r kind)) P none w' := by
  obtain ⟨R, m, S, h⟩ := hw.regs r g hg
  have hok : ∃ c w', begin env w r kind = .ok (c, w') := by
    unfold begin
    rw [World.region_ok.2 h.region, Res.bind_ok]
    cases kind with
    | sync =>
      unfold createContext
      dsimp only
      rw [World.ctx_ok.2 h.ctx, Res.bind_ok, Res.bind_ok]
      dsimp only
      rw [show (w.setCtx (.sync r) { S with features := [] }).region r = .ok R from
        World.region_ok.2 h.region, Res.bind_ok,
        show (w.setCtx (.sync r) { S with features := [] }).ctx (.sync r) =
          .ok { S with features := [] } from World.ctx_ok.2 (Function.update_self ..), Res.bind_ok,
        if_pos (by rw [h.idx]; exact_mod_cast hb)]
      exact ⟨_, _, rfl⟩
    | async =>
      unfold createContext
      dsimp only
      rw [hs.async (hk rfl), if_neg (by simp), Res.bind_ok]
      dsimp only
      rw [show ({ w.setCtx (.heap w.nextCtx) {} with nextCtx := w.nextCtx + 1 } : World M).region r =
        .ok R from World.region_ok.2 h.region, Res.bind_ok,
        show ({ w.setCtx (.heap w.nextCtx) {} with nextCtx := w.nextCtx + 1 } : World M).ctx
          (.heap w.nextCtx) = .ok {} from World.ctx_ok.2 (Function.update_self ..), Res.bind_ok,
        if_pos (by rw [h.idx]; exact_mod_cast hb)]
      exact ⟨_, _, rfl⟩
  obtain ⟨c, w', hok⟩ := hok
  refine ⟨c, w', hok, ?_⟩
  obtain ⟨R', C, b⟩ := begin_ok hok
  have hRR := b.region
  rw [h.region] at hRR
  cases hRR
  have hkind : (kind = .sync ∧ c = .sync r) ∨ (kind = .async ∧ c = .heap w.nextCtx) := by
    cases kind with
    | sync =>
      refine .inl ⟨rfl, ?_⟩
      unfold begin createContext at hok
      rw [World.region_ok.2 h.region, Res.bind_ok] at hok
      dsimp only at hok
      rw [World.ctx_ok.2 h.ctx, Res.bind_ok, Res.bind_ok] at hok
      obtain ⟨R', hR', hok⟩ := (Res.bind_eq_ok _ _ _).1 hok
      obtain ⟨C', hC', hok⟩ := (Res.bind_eq_ok _ _ _).1 hok
      dsimp only at hok
      split at hok
      · simp only [Except.ok.injEq, Prod.mk.injEq] at hok
        exact hok.1.symm
      · cases hok
    | async =>
      refine .inr ⟨rfl, ?_⟩
      unfold begin createContext at hok
      rw [World.region_ok.2 h.region, Res.bind_ok] at hok
      dsimp only at hok
      rw [hs.async (hk rfl), if_neg (by simp), Res.bind_ok] at hok
      obtain ⟨R', hR', hok⟩ := (Res.bind_eq_ok _ _ _).1 hok
      obtain ⟨C', hC', hok⟩ := (Res.bind_eq_ok _ _ _).1 hok
      dsimp only at hok
      split at hok
      · simp only [Except.ok.injEq, Prod.mk.injEq] at hok
        exact hok.1.symm
      · cases hok
  have hcp : 0 ≤ C.policy ∧ C.policy < g.policies := by
    rcases b.ctx with ⟨rfl, h1, -⟩ | ⟨-, rfl, -⟩
    · rw [h.ctx] at h1; cases h1; exact h.policy
    · exact ⟨le_rfl, lt_of_lt_of_le zero_lt_one h.pos⟩
  have hnp : ∀ r' g', u.regs r' = some g' → c ∉ P r' := by
    intro r' g' hr' hm
    obtain ⟨-, ⟨i, hi, hlt⟩, -⟩ := hw.pend r' g' c hr' hm
    rcases hkind with ⟨-, hc⟩ | ⟨-, hc⟩
    · rw [hc] at hi; cases hi
    · rw [hc] at hi
      cases hi
      rw [hw.nctx] at hlt
      exact lt_irrefl _ hlt
  have hcr : c = .sync r ∨ ∃ i, c = .heap i := by
    rcases hkind with ⟨-, hc⟩ | ⟨-, hc⟩
    · exact .inl hc
    · exact .inr ⟨_, hc⟩
  -- the state for an arbitrary count of contexts
  have key : ∀ n', w'.nextCtx = n' → u.nctx ≤ n' → (c = .sync r ∨ ∃ i, c = .heap i ∧ i < n') →
      Sane env Good ρ pm { u.start r c 0 with nctx := n' } P none w' := by
    intro n' hn' hle hcn
    have old : ∀ r' g', (u.start r c 0).regs r' = some g' → ∃ g₀, u.regs r' = some g₀ ∧
        (g'.model = g₀.model ∧ g'.features = g₀.features) ∧ g'.policies = g₀.policies ∧ g'.ends = g₀.ends ∧
        (r' ≠ r → g' = g₀) ∧ (r' = r → g' = { g₀ with begins := g₀.begins + 1, current := some c }) := by
      intro r' g' hg'
      by_cases hr : r' = r
      · subst hr
        rw [start_regs hg] at hg'
        cases hg'
        exact ⟨g, hg, ⟨rfl, rfl⟩, rfl, rfl, fun h => absurd rfl h, fun _ => rfl⟩
      · refine ⟨g', ?_, ⟨rfl, rfl⟩, rfl, rfl, fun _ => rfl, fun h => absurd h hr⟩
        rw [← hg']
        exact (Function.update_of_ne hr ..).symm
    refine ⟨fun r' g' hg' => ?_, fun r' g' hg' => ?_, by rw [b.nextRegion]; exact hw.3, hn',
      fun c' r' k g' ho hg' => ?_, fun r' g' c' hg' hc => ?_, fun r' g' hg' => ?_,
      fun r₁ r₂ g₁ g₂ c' hg₁ hg₂ => ?_, fun r' g' R' hg' hx hR' => ?_, fun hd r' hr' => ?_,
      by rw [b.registry]; exact hw.11, by rw [b.registry]; exact hw.12, by rw [b.cfg]; exact hw.13,
      by rw [b.cfg]; exact hw.14, fun c' r' k ho => ?_⟩
    · obtain ⟨g₀, h0, e1, e2, e3, e4, e5⟩ := old r' g' hg'
      obtain ⟨R₀, m₀, S₀, h₀⟩ := hw.regs r' g₀ h0
      have hS : ∃ S', w'.ctxs (.sync r') = some S' ∧ 0 ≤ S'.policy ∧ S'.policy < g'.policies := by
        rw [b.ctxs, e2]
        by_cases hc : CtxPtr.sync r' = c
        · have hr : r' = r := by
            rcases hcr with h | ⟨i, h⟩
            · rw [← hc] at h; cases h; rfl
            · rw [← hc] at h; cases h
          subst hr
          rw [hg] at h0
          cases h0
          rw [hc, Function.update_self]
          exact ⟨_, rfl, hcp⟩
        · rw [Function.update_of_ne hc]; exact ⟨S₀, h₀.ctx, h₀.policy⟩
      obtain ⟨S', hS1, hS2⟩ := hS
      by_cases hr : r' = r
      · subst hr
        rw [hg] at h0
        cases h0
        obtain rfl := e5 rfl
        have hRR := h₀.region
        rw [h.region] at hRR
        cases hRR
        refine ⟨{ R with current := some c, idx := R.idx + 1 }, m₀, S',
          by rw [b.regions]; exact Function.update_self .., by rw [b.models]; exact h₀.2,
          hS1, h₀.4, hS2, ?_, h₀.7, h₀.8, h₀.9, h₀.10, fun c' hc' => hc'⟩
        have := h.idx
        dsimp only
        omega
      · obtain rfl := e4 hr
        exact ⟨R₀, m₀, S', by rw [b.regions, Function.update_of_ne hr]; exact h₀.1,
          by rw [b.models]; exact h₀.2, hS1, h₀.4, hS2, h₀.6, h₀.7, h₀.8, h₀.9, h₀.10, h₀.11⟩
    · obtain ⟨g₀, h0, -⟩ := old r' g' hg'
      exact hw.fresh r' g₀ h0
    · obtain ⟨g₀, h0, e1, e2, -⟩ := old r' g' hg'
      by_cases hc : c' = c
      · subst hc
        have ho' : Function.update u.opens c' (some (r, 0)) c' = some (r', k) := ho
        rw [Function.update_self] at ho'
        cases ho'
        rw [hg] at h0
        cases h0
        refine ⟨⟨_, by rw [b.ctxs]; exact Function.update_self .., rfl, by rw [e2]; exact hcp,
          fun v hv => by simp at hv, rfl⟩, hcn⟩
      · have ho' : Function.update u.opens c (some (r, 0)) c' = some (r', k) := ho
        rw [Function.update_of_ne hc] at ho'
        obtain ⟨⟨C', h1, h2⟩, h3⟩ := hw.opens c' r' k g₀ ho' h0
        refine ⟨⟨C', by rw [b.ctxs, Function.update_of_ne hc]; exact h1, by rw [e1.1, e2]; exact h2⟩, ?_⟩
        rcases h3 with h3 | ⟨i, h3, h4⟩
        · exact .inl h3
        · exact .inr ⟨i, h3, lt_of_lt_of_le h4 hle⟩
    · obtain ⟨g₀, h0, e1, e2, -⟩ := old r' g' hg'
      obtain ⟨h1, ⟨i, h2, h3⟩, C', h4, h5⟩ := hw.pend r' g₀ c' h0 hc
      have hne : c' ≠ c := fun he => hnp r' g₀ h0 (he ▸ hc)
      refine ⟨?_, ⟨i, h2, lt_of_lt_of_le h3 hle⟩, C', by rw [b.ctxs, Function.update_of_ne hne]; exact h4,
        by rw [e1.1, e1.2, e2]; exact h5⟩
      rw [← h1]
      exact Function.update_of_ne hne ..
    · obtain ⟨g₀, h0, -⟩ := old r' g' hg'
      exact hw.nodup r' g₀ h0
    · obtain ⟨g₀, h0, -⟩ := old r₁ g₁ hg₁
      obtain ⟨g₀', h0', -⟩ := old r₂ g₂ hg₂
      exact hw.disj r₁ r₂ g₀ g₀' c' h0 h0'
    · obtain ⟨g₀, h0, -⟩ := old r' g' hg'
      rw [b.regions] at hR'
      by_cases hr : r' = r
      · subst hr
        rw [Function.update_self] at hR'
        cases hR'
        exact hw.held r' g₀ R h0 hx h.region
      · rw [Function.update_of_ne hr] at hR'
        exact hw.held r' g₀ R' h0 hx hR'
    · rw [b.registry] at hr'
      obtain ⟨g₀, h0⟩ := hw.registry hd r' hr'
      by_cases hr : r' = r
      · subst hr; exact ⟨_, start_regs h0 c 0⟩
      · exact ⟨g₀, by rw [← h0]; exact Function.update_of_ne hr ..⟩
    · by_cases hc : c' = c
      · subst hc
        have ho' : Function.update u.opens c' (some (r, 0)) c' = some (r', k) := ho
        rw [Function.update_self] at ho'
        cases ho'
        exact hw.fresh r g hg
      · have ho' : Function.update u.opens c (some (r, 0)) c' = some (r', k) := ho
        rw [Function.update_of_ne hc] at ho'
        exact hw.older c' r' k ho'
  rcases hkind with ⟨rfl, hc⟩ | ⟨rfl, hc⟩
  · refine ⟨by rw [if_pos rfl]; exact hc, ?_⟩
    have hn : w'.nextCtx = u.nctx := by
      rcases b.ctx with ⟨-, -, h1⟩ | ⟨h1, -⟩
      · rw [h1, hw.nctx]
      · rw [hc] at h1; cases h1
    have := key u.nctx hn le_rfl (.inl hc)
    rw [hc] at this
    exact this
  · refine ⟨by rw [if_neg (by decide), hc, hw.nctx], ?_⟩
    have hn : w'.nextCtx = u.nctx + 1 := by
      rcases b.ctx with ⟨h1, -⟩ | ⟨-, -, h1⟩
      · rw [hc] at h1; cases h1
      · rw [h1, hw.nctx]
    have := key (u.nctx + 1) hn (Nat.le_succ _) (.inr ⟨u.nctx, by rw [hc, hw.nctx], Nat.lt_succ_self _⟩)
    rw [hc, hw.nctx] at this
    exact this

theorem beginWith_safe (hs : Safe env Good ρ pm) (hw : Sane env Good ρ pm u P none w) {r : ℕ}
    {g : RegUse} (hg : u.regs r = some g) (hb : g.begins + 1 < 2 ^ 31) {f : Features}
    (hf : ∀ v ∈ f, ρ.fits g.model v) :
    ∃ w', beginWith env w r f = .ok (.sync r, w') ∧
      Sane env Good ρ pm (u.afterCall (.beginWith r f)) P none w' := by
  obtain ⟨c, w₁, h1, h2, hw1⟩ := begin_safe hs hw hg hb (kind := .sync) (fun h => by cases h)
  rw [if_pos rfl] at h2
  subst h2
  have hg1 := start_regs hg (.sync r) 0
  have ho1 : (u.start r (.sync r) 0).opens (.sync r) = some (r, 0) := Function.update_self ..
  obtain ⟨⟨C, hC, hCo⟩, -⟩ := hw1.opens (.sync r) r 0 _ ho1 hg1
  unfold beginWith
  rw [h1, Res.bind_ok]
  dsimp only
  rw [World.ctx_ok.2 hC, Res.bind_ok]
  refine ⟨_, rfl, Sane.emit ?_ _⟩
  have := hw1.setCtx (C := { C with features := f }) (k' := f.length) hg1 ho1
    ⟨rfl, hCo.2.1, hf, hCo.2.2.2⟩
  unfold Use.afterCall Use.start at this
  unfold Use.afterCall Use.start
  dsimp only at this
  rw [Function.update_idem] at this
  exact this

theorem setFeature_safe (hw : Sane env Good ρ pm u P none w) {r k : ℕ} {g : RegUse}
    (hg : u.regs r = some g) {c : CtxPtr} (ho : u.opens c = some (r, k)) {v : ℚ}
    (hv : ρ.fits g.model v) :
    ∃ w', setFeature w c v = .ok w' ∧
      Sane env Good ρ pm (u.afterCall (.setFeature r c v)) P none w' := by
  obtain ⟨⟨C, hC, hCo⟩, -⟩ := hw.opens c r k g ho hg
  unfold setFeature
  rw [World.ctx_ok.2 hC, Res.bind_ok]
  refine ⟨_, rfl, Sane.emit ?_ _⟩
  have := hw.setCtx (C := { C with features := C.features ++ [v] }) (k' := k + 1) hg ho
    ⟨by simp [hCo.1], hCo.2.1, fun x hx => by
      rcases List.mem_append.1 hx with hx | hx
      · exact hCo.2.2.1 x hx
      · rw [List.mem_singleton.1 hx]; exact hv, hCo.2.2.2⟩
  unfold Use.afterCall
  dsimp only
  rw [ho]
  exact this

theorem getPolicyIndex_safe (hs : Safe env Good ρ pm) (hw : Sane env Good ρ pm u P none w) {r : ℕ}
    {g : RegUse} {c : CtxPtr} (h : u.complete r c g) :
    ∃ p w', getPolicyIndex env w r c = .ok (p, w') ∧ (0 ≤ p ∧ p < g.policies) ∧
      Sane env Good ρ pm u P none w' := by
  obtain ⟨hg, ho⟩ := h
  obtain ⟨⟨C, hC, hCo⟩, -⟩ := hw.opens c r _ g ho hg
  obtain ⟨R, m, S, hr⟩ := hw.regs r g hg
  obtain ⟨p, m', h1, h2, h3⟩ := hs.index hr.pos hr.good hCo.1 hCo.2.2.1
  have ht : ∃ w₁, tracePolicy env w R m' C.features p = .ok w₁ ∧ Sane env Good ρ pm u P none w₁ ∧
      w₁.regions = w.regions := by
    unfold tracePolicy
    split
    next ht =>
      rcases policyLine_cases env.rank R.name (env.ops.name m') C.features p with ⟨s, hl⟩ | ⟨⟨v, hv, hn⟩, -⟩
      · rw [hl, Res.bind_ok]
        refine ⟨_, rfl, hw.write _ _, ?_⟩
        unfold World.append World.write
        dsimp only
        split <;> rfl
      · exact absurd (hw.cfg.policy ht _ v (hCo.2.2.1 v hv)) hn
    · exact ⟨w, rfl, hw, rfl⟩
  obtain ⟨w₁, h4, hw1, hreg⟩ := ht
  unfold getPolicyIndex
  rw [World.region_ok.2 hr.region, Res.bind_ok, World.model_ok.2 hr.model, Res.bind_ok,
    World.ctx_ok.2 hC, Res.bind_ok, h1, Res.bind_ok]
  dsimp only
  rw [h4, Res.bind_ok]
  refine ⟨p, _, rfl, h2, Sane.emit ?_ _⟩
  exact (hw1.setModel hg fun R' hR' => by
    rw [hreg, hr.region] at hR'; cases hR'; exact h3).setCtx' hg ho ⟨hCo.1, h2, hCo.2.2⟩

theorem endMetric_safe (hs : Safe env Good ρ pm) (hw : Sane env Good ρ pm u P none w) {r : ℕ}
    {g : RegUse} {c : CtxPtr} (h : u.complete r c g) (hmost : g.ends < ρ.most) (metric : ℚ) :
    ∃ w' P', endMetric env w r c metric = .ok w' ∧ Sane env Good ρ pm (u.finish r c) P' none w' := by
  obtain ⟨hg, ho⟩ := h
  obtain ⟨⟨C, hC, hCo⟩, hown⟩ := hw.opens c r _ g ho hg
  have hnp : ∀ r' g', u.regs r' = some g' → c ∉ P r' := fun r' g' hr' hm => by
    have := (hw.pend r' g' c hr' hm).1
    rw [ho] at this; cases this
  have hw1 := (hw.emit (.finished r c metric)).finish hg hmost c
  have hg1 := finish_regs hg c
  have hnp1 : ∀ r' g', (u.finish r c).regs r' = some g' → c ∉ P r' := fun r' g' hr' => by
    by_cases hr : r' = r
    · subst hr; exact hnp r' g hg
    · refine hnp r' g' ?_
      rw [← hr']
      exact (Function.update_of_ne hr ..).symm
  obtain ⟨R, m, S, hr⟩ := hw.regs r g hg
  obtain ⟨w₁, h1, hw2⟩ := collectContext_safe hs hw1 hg1 rfl hC hCo (Function.update_self ..)
    hnp1 (hown.imp id fun ⟨i, h, _⟩ => ⟨i, h⟩) (fun R' hR' => by
      have hR'' : w.regions r = some R' := hR'
      rw [hr.region] at hR''
      cases hR''
      have := hr.size
      dsimp only
      omega) metric
  obtain ⟨w₂, P₂, h2, hw3⟩ := collectPending_safe hs hw2 hg1 rfl
  unfold endMetric
  rw [h1, Res.bind_ok]
  exact ⟨w₂, P₂, h2, hw3⟩

theorem endCtx_safe (hs : Safe env Good ρ pm) (hw : Sane env Good ρ pm u P none w) {r : ℕ}
    {g : RegUse} {c : CtxPtr} (h : u.complete r c g) (hmost : g.ends < ρ.most) :
    ∃ w' P', endCtx env w r c = .ok w' ∧ Sane env Good ρ pm (u.finish r c) P' none w' := by
  obtain ⟨hg, ho⟩ := h
  obtain ⟨⟨C, hC, hCo⟩, hown⟩ := hw.opens c r _ g ho hg
  obtain ⟨R, m, S, hr⟩ := hw.regs r g hg
  have hnp : ∀ r' g', u.regs r' = some g' → c ∉ P r' := fun r' g' hr' hm => by
    have := (hw.pend r' g' c hr' hm).1
    rw [ho] at this; cases this
  have hnp1 : ∀ r' g', (u.finish r c).regs r' = some g' → c ∉ P r' := fun r' g' hr' => by
    by_cases hr : r' = r
    · subst hr; exact hnp r' g hg
    · refine hnp r' g' ?_
      rw [← hr']
      exact (Function.update_of_ne hr ..).symm
  have hg1 := finish_regs hg c
  unfold endCtx
  rw [World.region_ok.2 hr.region, Res.bind_ok, World.ctx_ok.2 hC, Res.bind_ok]
  dsimp only
  have hCo' : CtxOk (ρ.fits g.model) g.features g.policies
      { C with stop := some (seconds (env.clock w.tick)) } := hCo
  have hw1 : Sane env Good ρ pm u P none
      ((w.setCtx c { C with stop := some (seconds (env.clock w.tick)) }).advance) :=
    (hw.setCtx' hg ho hCo').advance
  split
  next hc =>
    subst hc
    obtain ⟨a, ha⟩ := Option.isSome_iff_exists.1 hCo.2.2.2
    have hm : syncMetric { C with stop := some (seconds (env.clock w.tick)) } =
        .ok (rnd64 (seconds (env.clock w.tick) - a)) := by
      unfold syncMetric
      dsimp only
      rw [ha]
    rw [hm, Res.bind_ok]
    have hw2 := (hw1.emit (.finished r (.sync r) (rnd64 (seconds (env.clock w.tick) - a)))).finish hg hmost
      (.sync r)
    obtain ⟨w₁, h1, hw3⟩ := collectContext_safe hs hw2 hg1 rfl
      (C := { C with stop := some (seconds (env.clock w.tick)) }) (Function.update_self ..) hCo'
      (Function.update_self ..) hnp1 (.inl rfl) (fun R' hR' => by
        have hR'' : w.regions r = some R' := hR'
        rw [hr.region] at hR''
        cases hR''
        have := hr.size
        dsimp only
        omega) (rnd64 (seconds (env.clock w.tick) - a))
    exact ⟨w₁, P, h1, hw3⟩
  next hc =>
    obtain ⟨i, hi, hlt⟩ := hown.resolve_left hc
    have hheld := hw.held r g R hg (by simp) hr.region
    have hw2 := hw1.finish hg hmost c
    have hw3 : Sane env Good ρ pm (u.finish r c) (Function.update P r (P r ++ [c])) none
        (((w.setCtx c { C with stop := some (seconds (env.clock w.tick)) }).advance).setRegion r
          { R with pending := R.pending ++ [c] }) := by
      have hmem : ∀ r' c', c' ∈ Function.update P r (P r ++ [c]) r' →
          c' ∈ P r' ∨ (r' = r ∧ c' = c) := by
        intro r' c' hm
        by_cases hrr : r' = r
        · subst hrr
          rw [Function.update_self] at hm
          rcases List.mem_append.1 hm with hm | hm
          · exact .inl hm
          · exact .inr ⟨rfl, List.mem_singleton.1 hm⟩
        · rw [Function.update_of_ne hrr] at hm; exact .inl hm
      refine ⟨fun r' g' hg' => ?_, hw2.2, hw2.3, hw2.4, hw2.5, fun r' g' c' hg' hm => ?_,
        fun r' g' hg' => ?_, fun r₁ r₂ g₁ g₂ c' hg₁ hg₂ hm₁ hm₂ => ?_, fun r' g' R' hg' hx hR' => ?_,
        hw2.10, hw2.11, hw2.12, hw2.13, hw2.14, hw2.15⟩
      · by_cases hrr : r' = r
        · subst hrr
          rw [hg1] at hg'
          cases hg'
          have h2 := hw2.regs r' _ hg1
          obtain ⟨R₂, m₂, S₂, h2⟩ := h2
          have hRR : R₂ = R := by
            have : w.regions r' = some R₂ := h2.region
            rw [hr.region] at this
            cases this; rfl
          subst hRR
          refine ⟨_, m₂, S₂, Function.update_self .., h2.2, h2.3, h2.4, h2.5, h2.6, h2.7, h2.8, ?_, h2.10,
            fun c hc => by cases hc⟩
          have := hr.size
          rw [Function.update_self]
          simp only [List.length_append, List.length_singleton]
          omega
        · obtain ⟨R₂, m₂, S₂, h2⟩ := hw2.regs r' g' hg'
          exact ⟨R₂, m₂, S₂, by rw [← h2.1]; exact Function.update_of_ne hrr .., h2.2, h2.3, h2.4, h2.5,
            h2.6, h2.7, h2.8, by rw [Function.update_of_ne hrr]; exact h2.9, h2.10, h2.11⟩
      · rcases hmem r' c' hm with hm | ⟨rfl, rfl⟩
        · exact hw2.pend r' g' c' hg' hm
        · rw [hg1] at hg'
          cases hg'
          exact ⟨Function.update_self .., ⟨i, hi, hlt⟩, _, Function.update_self .., hCo'⟩
      · by_cases hrr : r' = r
        · subst hrr
          rw [Function.update_self]
          refine List.Nodup.append (hw.nodup r' g hg) (List.nodup_singleton _) ?_
          intro a ha hb
          rw [List.mem_singleton.1 hb] at ha
          exact hnp r' g hg ha
        · rw [Function.update_of_ne hrr]; exact hw2.nodup r' g' hg'
      · rcases hmem r₁ c' hm₁ with k₁ | ⟨e₁, f₁⟩ <;> rcases hmem r₂ c' hm₂ with k₂ | ⟨e₂, f₂⟩
        · exact hw2.disj r₁ r₂ g₁ g₂ c' hg₁ hg₂ k₁ k₂
        · exact absurd (f₂ ▸ k₁) (hnp1 r₁ g₁ hg₁)
        · exact absurd (f₁ ▸ k₂) (hnp1 r₂ g₂ hg₂)
        · rw [e₁, e₂]
      · by_cases hrr : r' = r
        · subst hrr
          have : Function.update w.regions r' (some { R with pending := R.pending ++ [c] }) r' =
            some R' := hR'
          rw [Function.update_self] at this
          cases this
          rw [Function.update_self, hheld]
        · have : Function.update w.regions r (some { R with pending := R.pending ++ [c] }) r' =
            some R' := hR'
          rw [Function.update_of_ne hrr] at this
          rw [Function.update_of_ne hrr]
          exact hw2.held r' g' R' hg' hx this
    obtain ⟨w₂, P₂, h2, hw4⟩ := collectPending_safe hs (hw3.emit (.ended r c)) hg1 rfl
    exact ⟨w₂, P₂, h2, hw4⟩

/-! ## Training on demand -/

theorem regionTrain_safe (hs : Safe env Good ρ pm) (hw : Sane env Good ρ pm u P none w) {r : ℕ}
    {g : RegUse} (hg : u.regs r = some g) (s : ℤ) (collect force : Bool)
    (hcur : collect = true → g.current = none) :
    ∃ w' P', regionTrain env w r s collect force = .ok w' ∧ Sane env Good ρ pm u P' none w' := by
  obtain ⟨R, m, S, hr⟩ := hw.regs r g hg
  unfold regionTrain
  rw [World.region_ok.2 hr.region, Res.bind_ok, World.model_ok.2 hr.model, Res.bind_ok]
  split
  · exact ⟨w, P, rfl, hw⟩
  · cases collect with
    | false =>
      rw [if_neg (by simp), Res.bind_ok]
      obtain ⟨w', h1, h2⟩ := trainBody_safe hs hw hg s
      exact ⟨w', P, h1, h2⟩
    | true =>
      rw [if_pos rfl]
      obtain ⟨w₁, P₁, h1, hw1⟩ := collectPending_safe hs hw hg (hcur rfl)
      rw [h1, Res.bind_ok]
      obtain ⟨w', h1, h2⟩ := trainBody_safe hs hw1 hg s
      exact ⟨w', P₁, h1, h2⟩

theorem apolloTrain_safe (hs : Safe env Good ρ pm) (hw : Sane env Good ρ pm u P none w)
    (hd : u.destroyed = false) (s : ℤ) (collect : Bool)
    (hcur : collect = true → ∀ r g, u.regs r = some g → g.current = none) :
    ∃ w' P', apolloTrain env w s collect = .ok w' ∧ Sane env Good ρ pm u P' none w' := by
  unfold apolloTrain apolloTrainWith
  rw [hw.cfg.collective, hw.cfg.single, if_neg (by simp), if_neg (by simp)]
  obtain ⟨w', h1, P', h2⟩ := forRegions_safe (fun w => ∃ P, Sane env Good ρ pm u P none w) _
    (fun w' r hw' hr => by
      obtain ⟨P', hw'⟩ := hw'
      obtain ⟨g, hg⟩ := hw.registry hd r hr
      obtain ⟨w₁, P₁, h1, h2⟩ := regionTrain_safe hs hw' hg s collect false fun hc => hcur hc r g hg
      exact ⟨w₁, h1, P₁, h2⟩) w ⟨P, hw⟩
  exact ⟨w', P', h1, h2⟩

end Apollo
