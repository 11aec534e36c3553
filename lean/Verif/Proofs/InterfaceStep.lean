import Verif.Proofs.InterfaceRun

/-!
# The state of the library while it is used as specified: regions and programs
-/

namespace Apollo

open Spec

variable {M : Type} {env : Env M} {Good : Str → ℕ → ℤ → Dataset → M → Prop} {ρ : UseRules} {pm : Str} {u : Use}
  {P : ℕ → List CtxPtr} {x : Option ℕ} {w : World M}

/-! ## Creating a region -/

/-- A region is put into a fresh place. -/
theorem Sane.construct (hw : Sane env Good ρ pm u P none w) {nf n mt : ℤ} {name info : Str} (hn : 1 ≤ n)
    {R : Region} {m : M} (h1 : R.idx = 0) (h2 : R.dataset = []) (h3 : R.pending = [])
    (hm : Good info nf.toNat n [] m) :
    Sane env Good ρ pm (u.afterCall (.create nf name n mt info [])) (Function.update P u.nregs []) none
      (((({ w with nextRegion := w.nextRegion + 1 } : World M).setRegion w.nextRegion R).setModel
        w.nextRegion m).setCtx (.sync w.nextRegion) {}).advance := by
  have hne : ∀ r g, u.regs r = some g → r ≠ u.nregs := fun r g h => ne_of_lt (hw.fresh r g h)
  have old : ∀ r g', (u.afterCall (.create nf name n mt info [])).regs r = some g' →
      (r = u.nregs ∧ g' = { model := info, features := nf.toNat, policies := n }) ∨
        (r ≠ u.nregs ∧ u.regs r = some g') := by
    intro r g' hg'
    have hg' : Function.update u.regs u.nregs
        (some { model := info, features := nf.toNat, policies := n }) r = some g' := hg'
    by_cases hr : r = u.nregs
    · subst hr
      rw [Function.update_self] at hg'
      cases hg'
      exact .inl ⟨rfl, rfl⟩
    · rw [Function.update_of_ne hr] at hg'
      exact .inr ⟨hr, hg'⟩
  rw [hw.nregs]
  refine ⟨fun r g' hg' => ?_, fun r g' hg' => ?_, rfl, hw.4, fun c r k g' ho hg' => ?_,
    fun r g' c hg' hc => ?_, fun r g' hg' => ?_, fun r₁ r₂ g₁ g₂ c hg₁ hg₂ hc₁ hc₂ => ?_,
    fun r g' R' hg' hx hR' => ?_, fun hd r hr => ?_, hw.11, fun r hr => Nat.lt_succ_of_lt (hw.12 r hr),
    hw.13, hw.14, fun c r k ho => Nat.lt_succ_of_lt (hw.15 c r k ho)⟩
  · rcases old r g' hg' with ⟨rfl, rfl⟩ | ⟨hr, hg⟩
    · refine ⟨R, m, {}, Function.update_self .., Function.update_self .., Function.update_self .., hn,
        ⟨le_rfl, lt_of_lt_of_le zero_lt_one hn⟩, h1, ?_, ?_, ?_, Nat.zero_le _, fun c hc => by cases hc⟩
      · rw [h2]; exact fun e he => by simp at he
      · rw [h2]; exact hm
      · rw [h2, Function.update_self]; exact le_rfl
    · obtain ⟨R', m', C', h⟩ := hw.regs r g' hg
      exact ⟨R', m', C', by rw [← h.1]; exact Function.update_of_ne hr ..,
        by rw [← h.2]; exact Function.update_of_ne hr ..,
        by rw [← h.3]; exact Function.update_of_ne (fun he => hr (by cases he; rfl)) .., h.4, h.5, h.6, h.7,
        h.8, by rw [Function.update_of_ne hr]; exact h.9, h.10, h.11⟩
  · rcases old r g' hg' with ⟨rfl, rfl⟩ | ⟨hr, hg⟩
    · exact Nat.lt_succ_self _
    · exact Nat.lt_succ_of_lt (hw.fresh r g' hg)
  · have hlt := hw.older c r k ho
    rcases old r g' hg' with ⟨rfl, rfl⟩ | ⟨hr, hg⟩
    · exact absurd hlt (lt_irrefl _)
    · obtain ⟨⟨C, hC, hCo⟩, hown⟩ := hw.opens c r k g' ho hg
      refine ⟨⟨C, ?_, hCo⟩, hown⟩
      rw [← hC]
      refine Function.update_of_ne (fun he => ?_) ..
      rcases hown with h | ⟨i, h, -⟩
      · rw [he] at h; cases h; exact hr rfl
      · rw [he] at h; cases h
  · rcases old r g' hg' with ⟨rfl, rfl⟩ | ⟨hr, hg⟩
    · rw [Function.update_self] at hc; simp at hc
    · rw [Function.update_of_ne hr] at hc
      obtain ⟨a1, ⟨i, a2, a3⟩, C, hC, hCo⟩ := hw.pend r g' c hg hc
      refine ⟨a1, ⟨i, a2, a3⟩, C, ?_, hCo⟩
      rw [← hC]
      exact Function.update_of_ne (fun he => by rw [he] at a2; cases a2) ..
  · rcases old r g' hg' with ⟨rfl, rfl⟩ | ⟨hr, hg⟩
    · rw [Function.update_self]; exact List.nodup_nil
    · rw [Function.update_of_ne hr]; exact hw.nodup r g' hg
  · rcases old r₁ g₁ hg₁ with ⟨rfl, rfl⟩ | ⟨hr₁, hg₁⟩
    · rw [Function.update_self] at hc₁; simp at hc₁
    · rcases old r₂ g₂ hg₂ with ⟨rfl, rfl⟩ | ⟨hr₂, hg₂⟩
      · rw [Function.update_self] at hc₂; simp at hc₂
      · rw [Function.update_of_ne hr₁] at hc₁
        rw [Function.update_of_ne hr₂] at hc₂
        exact hw.disj r₁ r₂ g₁ g₂ c hg₁ hg₂ hc₁ hc₂
  · have hR' : Function.update w.regions u.nregs (some R) r = some R' := hR'
    rcases old r g' hg' with ⟨rfl, rfl⟩ | ⟨hr, hg⟩
    · rw [Function.update_self] at hR' ⊢; cases hR'; exact h3
    · rw [Function.update_of_ne hr] at hR' ⊢
      exact hw.held r g' R' hg (by simp) hR'
  · obtain ⟨g, hg⟩ := hw.registry hd r hr
    exact ⟨g, by rw [← hg]; exact Function.update_of_ne (hne r g hg) ..⟩

theorem create_safe (hs : Safe env Good ρ pm) (hw : Sane env Good ρ pm u P none w) {nf n mt : ℤ}
    {name info : Str} (hnf : 0 ≤ nf) (hn : 1 ≤ n) (hk : ρ.known name info n) :
    ∃ w' P', createRegion env w nf name n mt info [] = .ok (u.nregs, w') ∧
      Sane env Good ρ pm (u.afterCall (.create nf name n mt info [])) P' none w' := by
  obtain ⟨mn, ps, mn', ps', info', m, e1, e2, e3, e4, e5, e6, e7, hm⟩ :=
    hs.makes hk hn hnf w.tick
  have hpm := hw.cfg.model
  unfold createRegion constructRegion
  dsimp only
  rw [hpm, e1, Res.bind_ok]
  dsimp only
  rw [e2, Res.bind_ok]
  dsimp only
  rw [e3, Res.bind_ok, loadYaml, if_pos rfl, Res.bind_ok, loadModel]
  dsimp only
  rw [e4]
  dsimp only
  rw [Res.bind_ok, Res.bind_ok]
  dsimp only
  set R : Region := ⟨truncName name, nf, n, mt, info', mn', ps', [], 0, none, [], []⟩ with hRdef
  have hw0 := hw.construct (nf := nf) (mt := mt) (name := name) (info := info) hn (R := R) (m := m) rfl rfl
    rfl hm
  set w₀ := (((({ w with nextRegion := w.nextRegion + 1 } : World M).setRegion w.nextRegion R).setModel
        w.nextRegion m).setCtx (.sync w.nextRegion) {}).advance with hw0def
  have hR0 : w₀.regions w.nextRegion = some R := Function.update_self ..
  have hm0 : w₀.models w.nextRegion = some m := Function.update_self ..
  have hreg0 : w₀.registry = w.registry := rfl
  clear_value w₀
  have hg0 : (u.afterCall (.create nf name n mt info [])).regs w.nextRegion =
      some { model := info, features := nf.toNat, policies := n } := by
    rw [hw.nregs]; exact Function.update_self ..
  have s1 : loadPersistent env w₀ w.nextRegion = .ok w₀ := by
    unfold loadPersistent
    rw [hw0.cfg.persistent]
    rfl
  have s2 : loadDatasetParam env w₀ w.nextRegion = .ok w₀ := by
    unfold loadDatasetParam
    rw [World.region_ok.2 hR0, Res.bind_ok, e5]
  have s3 : loadOptimalFile env w₀ w.nextRegion = .ok w₀ := by
    unfold loadOptimalFile
    rw [World.region_ok.2 hR0, Res.bind_ok, if_neg e6]
  have s4 : loadDatasetMap env w₀ w.nextRegion = .ok w₀ := by
    unfold loadDatasetMap
    rw [World.region_ok.2 hR0, Res.bind_ok, if_neg e7]
  rw [s1, Res.bind_ok, s2, Res.bind_ok, s3, Res.bind_ok, s4, Res.bind_ok]
  have s5 : ∃ w₁ R₁, startTrace env w₀ w.nextRegion = .ok w₁ ∧ w₁.regions w.nextRegion = some R₁ ∧
      w₁.models = w₀.models ∧ w₁.registry = w₀.registry ∧
      Sane env Good ρ pm (u.afterCall (.create nf name n mt info [])) (Function.update P u.nregs []) none
        w₁ := by
    unfold startTrace
    rw [World.region_ok.2 hR0, Res.bind_ok]
    split
    next ht =>
      rw [if_pos (hw0.cfg.csv ht _)]
      refine ⟨_, _, rfl, Function.update_self .., rfl, rfl, ?_⟩
      obtain ⟨R₀, m₀, C₀, h0⟩ := hw0.regs _ _ hg0
      have hRR := h0.region
      rw [hR0] at hRR
      cases hRR
      exact hw0.setRegion hg0 h0 rfl rfl (fun c hc => by cases hc)
        (fun _ => by rw [hw.nregs, Function.update_self])
    · exact ⟨w₀, R, rfl, hR0, rfl, rfl, hw0⟩
  obtain ⟨w₁, R₁, t1, t2, t3, t4, hw1⟩ := s5
  rw [t1, Res.bind_ok, World.region_ok.2 t2, Res.bind_ok, World.model_ok.2 (t3 ▸ hm0), Res.bind_ok]
  rw [← hw.nregs]
  refine ⟨_, Function.update P w.nextRegion [], rfl, Sane.emit ?_ _⟩
  rw [← hw.nregs] at hw1
  have hnew : w.nextRegion ∉ w₁.registry.map Prod.snd := fun h => by
    rw [t4, hreg0] at h
    have := hw.bound _ h
    rw [hw.nregs] at this
    exact lt_irrefl _ this
  have hval := upsert_values w₁.registry R₁.name w.nextRegion
  refine ⟨fun r g h => ?_, hw1.2, hw1.3, hw1.4, hw1.5, hw1.6, hw1.7, hw1.8, hw1.9, fun hd r hr => ?_,
    insertNew_nodup hw1.distinct hnew, fun r hr => ?_, hw1.13, hw1.14, hw1.15⟩
  · obtain ⟨R, m, C, h⟩ := hw1.regs r g h
    exact ⟨R, m, C, h.1, h.2, h.3, h.4, h.5, h.6, h.7, h.8, h.9, h.10, h.11⟩
  · rcases hval r hr with rfl | h
    · exact ⟨_, hg0⟩
    · exact hw1.registry hd r h
  · rcases hval r hr with rfl | h
    · exact hw1.fresh _ _ hg0
    · exact hw1.bound r h

/-! ## Destroying a region -/

theorem drain_safe (hs : Safe env Good ρ pm) {r : ℕ} {g : RegUse} (hg : u.regs r = some g)
    (hcur : g.current = none) : ∀ (fuel : ℕ) (P : ℕ → List CtxPtr) (w : World M),
    Sane env Good ρ pm u P none w →
    (∃ w' P', drain env r fuel w = .ok w' ∧ Sane env Good ρ pm u P' none w') ∨
      drain env r fuel w = .error .diverge := by
  intro fuel
  induction fuel with
  | zero =>
    intro P w hw
    obtain ⟨R, m, C, h⟩ := hw.regs r g hg
    unfold drain
    rw [World.region_ok.2 h.region, Res.bind_ok]
    split
    · exact .inl ⟨w, P, rfl, hw⟩
    · exact .inr rfl
  | succ fuel ih =>
    intro P w hw
    obtain ⟨R, m, C, h⟩ := hw.regs r g hg
    unfold drain
    rw [World.region_ok.2 h.region, Res.bind_ok]
    split
    · exact .inl ⟨w, P, rfl, hw⟩
    · obtain ⟨w₁, P₁, h1, hw1⟩ := collectPending_safe hs hw hg hcur
      rw [h1, Res.bind_ok]
      exact ih P₁ w₁ hw1

theorem destroy_safe (hs : Safe env Good ρ pm) (hw : Sane env Good ρ pm u P none w) {r : ℕ} {g : RegUse}
    (hg : u.regs r = some g) (fuel : ℕ) :
    (∃ w' P', destroyRegion env w r fuel = .ok w' ∧
      Sane env Good ρ pm (u.afterCall (.destroy r fuel)) P' none w') ∨
      destroyRegion env w r fuel = .error .diverge := by
  obtain ⟨R, m, C, h⟩ := hw.regs r g hg
  unfold destroyRegion
  rw [World.region_ok.2 h.region, Res.bind_ok]
  dsimp only
  have hwf := hw.forget r
  have hw0 : Sane env Good ρ pm { u.forget r with destroyed := true } P none
      { w with cfg := { w.cfg with globalPeriod := 0 } } :=
    ⟨fun r g h => by
      obtain ⟨R, m, C, h⟩ := hwf.regs r g h
      exact ⟨R, m, C, h.1, h.2, h.3, h.4, h.5, h.6, h.7, h.8, h.9, h.10, h.11⟩, hwf.2, hwf.3, hwf.4, hwf.5,
      hwf.6, hwf.7, hwf.8, hwf.9, (fun h => by cases h), hwf.11, hwf.12, fun _ => rfl,
      ⟨hwf.14.1, hwf.14.2, hwf.14.3, hwf.14.4, hwf.14.5, hwf.14.6, hwf.14.7, hwf.14.8, hwf.14.9,
        hwf.14.10⟩, hwf.15⟩
  rcases drain_safe hs (u := { u.forget r with destroyed := true }) (forget_regs hg) rfl fuel P _ hw0 with ⟨w₁, P₁, h1, hw1⟩ | h1
  · rw [h1, Res.bind_ok]
    obtain ⟨R₁, m₁, C₁, h2⟩ := hw1.regs r _ (forget_regs hg)
    rw [World.region_ok.2 h2.region, Res.bind_ok, hw1.cfg.persistent, if_neg (by simp)]
    refine .inl ⟨_, P₁, rfl, Sane.emit ?_ _⟩
    have old : ∀ r' g', (u.afterCall (.destroy r fuel)).regs r' = some g' →
        r' ≠ r ∧ (u.forget r).regs r' = some g' := by
      intro r' g' hg'
      have hg' : Function.update u.regs r none r' = some g' := hg'
      have hne : r' ≠ r := fun he => by rw [he, Function.update_self] at hg'; cases hg'
      rw [Function.update_of_ne hne] at hg'
      refine ⟨hne, ?_⟩
      rw [← hg']
      exact Function.update_of_ne hne ..
    refine ⟨fun r' g' hg' => ?_, fun r' g' hg' => ?_, hw1.3, hw1.4, fun c r' k g' ho hg' => ?_,
      fun r' g' c hg' hc => ?_, fun r' g' hg' => ?_, fun r₁ r₂ g₁ g₂ c hg₁ hg₂ => ?_,
      fun r' g' R' hg' hx hR' => ?_, (fun hd => by cases hd), hw1.11, hw1.12, hw1.13, hw1.14, hw1.15⟩
    · obtain ⟨hne, hg'⟩ := old r' g' hg'
      obtain ⟨R', m', C', h⟩ := hw1.regs r' g' hg'
      exact ⟨R', m', C', by rw [← h.1]; exact Function.update_of_ne hne ..,
        by rw [← h.2]; exact Function.update_of_ne hne ..,
        by rw [← h.3]; exact Function.update_of_ne (fun he => hne (by cases he; rfl)) .., h.4, h.5, h.6,
        h.7, h.8, h.9, h.10, h.11⟩
    · exact hw1.fresh r' g' (old r' g' hg').2
    · obtain ⟨hne, hg'⟩ := old r' g' hg'
      obtain ⟨⟨C', hC', hCo'⟩, hown⟩ := hw1.opens c r' k g' ho hg'
      refine ⟨⟨C', ?_, hCo'⟩, hown⟩
      rw [← hC']
      refine Function.update_of_ne (fun he => ?_) ..
      rcases hown with h | ⟨i, h, -⟩
      · rw [he] at h; cases h; exact hne rfl
      · rw [he] at h; cases h
    · obtain ⟨hne, hg'⟩ := old r' g' hg'
      obtain ⟨a1, ⟨i, a2, a3⟩, C', hC', hCo'⟩ := hw1.pend r' g' c hg' hc
      refine ⟨a1, ⟨i, a2, a3⟩, C', ?_, hCo'⟩
      rw [← hC']
      exact Function.update_of_ne (fun he => by rw [he] at a2; cases a2) ..
    · exact hw1.nodup r' g' (old r' g' hg').2
    · exact hw1.disj r₁ r₂ g₁ g₂ c (old r₁ g₁ hg₁).2 (old r₂ g₂ hg₂).2
    · obtain ⟨hne, hg'⟩ := old r' g' hg'
      have hR' : Function.update w₁.regions r none r' = some R' := hR'
      rw [Function.update_of_ne hne] at hR'
      exact hw1.held r' g' R' hg' hx hR'
  · rw [h1]
    exact .inr rfl

theorem destroyAll_safe (hs : Safe env Good ρ pm) (fuel : ℕ) : ∀ (l : List ℕ), l.Nodup →
    ∀ (u : Use) (P : ℕ → List CtxPtr) (w : World M), Sane env Good ρ pm u P none w →
    (∀ r ∈ l, ∃ g, u.regs r = some g) →
    (∃ w', forRegions (fun w r => destroyRegion env w r fuel) l w = .ok w') ∨
      forRegions (fun w r => destroyRegion env w r fuel) l w = .error .diverge := by
  intro l
  induction l with
  | nil => intro _ u P w _ _; exact .inl ⟨w, rfl⟩
  | cons r l ih =>
    intro hnd u P w hw hl
    obtain ⟨g, hg⟩ := hl r List.mem_cons_self
    unfold forRegions
    rcases destroy_safe hs hw hg fuel with ⟨w₁, P₁, h1, hw1⟩ | h1
    · rw [h1, Res.bind_ok]
      refine ih (List.nodup_cons.1 hnd).2 _ P₁ w₁ hw1 fun r' hr' => ?_
      obtain ⟨g', hg'⟩ := hl r' (List.mem_cons_of_mem _ hr')
      refine ⟨g', ?_⟩
      rw [← hg']
      exact Function.update_of_ne (fun he : r' = r => (List.nodup_cons.1 hnd).1 (he ▸ hr')) ..
    · rw [h1]; exact .inr rfl

theorem execInfo_safe (hw : Sane env Good ρ pm u P x w) : ∀ (l : List ℕ),
    (∀ r ∈ l, ∃ g, u.regs r = some g) → ∃ s, execInfo w l = .ok s := by
  intro l
  induction l with
  | nil => intro _; exact ⟨[], rfl⟩
  | cons r l ih =>
    intro hl
    obtain ⟨g, hg⟩ := hl r List.mem_cons_self
    obtain ⟨R, m, C, h⟩ := hw.regs r g hg
    obtain ⟨s, hs⟩ := ih fun r' hr' => hl r' (List.mem_cons_of_mem _ hr')
    unfold execInfo
    rw [World.region_ok.2 h.region, Res.bind_ok, hs, Res.bind_ok]
    exact ⟨_, rfl⟩

/-- The end of the program: everything is destroyed, or some measurement never arrives. -/
theorem shutdown_safe (hs : Safe env Good ρ pm) (hw : Sane env Good ρ pm u P none w)
    (hd : u.destroyed = false) (fuel : ℕ) :
    (∃ w', shutdown env w fuel = .ok w') ∨ shutdown env w fuel = .error .diverge := by
  have h1 : ∃ w₁, writeExecInfo env w = .ok w₁ ∧ Sane env Good ρ pm u P none w₁ := by
    unfold writeExecInfo
    split
    · obtain ⟨s, h⟩ := execInfo_safe hw _ (hw.registry hd)
      rw [h, Res.bind_ok]
      exact ⟨_, rfl, hw.write _ _⟩
    · exact ⟨w, rfl, hw⟩
  obtain ⟨w₁, h1, hw1⟩ := h1
  unfold shutdown
  rw [h1, Res.bind_ok]
  exact destroyAll_safe hs fuel _ hw1.distinct u P w₁ hw1 (hw1.registry hd)

/-! ## Programs -/

theorem currentCtx_safe (hw : Sane env Good ρ pm u P x w) {r : ℕ} {c : CtxPtr}
    (h : (u.regs r).bind RegUse.current = some c) : currentCtx w r = .ok c := by
  obtain ⟨g, hg, hc⟩ := Option.bind_eq_some_iff.1 h
  obtain ⟨R, m, C, hr⟩ := hw.regs r g hg
  unfold currentCtx
  rw [World.region_ok.2 hr.region, Res.bind_ok, hr.current c hc]

/-- The outcome of a call that may be made. -/
def StepOk (env : Env M) (Good : Str → ℕ → ℤ → Dataset → M → Prop) (ρ : UseRules) (pm : Str) (u : Use)
    (w : World M) (op : Op) : Prop :=
  (∃ ret w' P', step env w op = .ok (ret, w') ∧ Sane env Good ρ pm (u.after op) P' none w' ∧
    u.Answer op ret) ∨ ((∃ r fuel, op = .destroy r fuel) ∧ step env w op = .error .diverge)

theorem step_safe (hs : Safe env Good ρ pm) (hw : Sane env Good ρ pm u P none w) {op : Op}
    (hm : u.May ρ op) : StepOk env Good ρ pm u w op := by
  obtain ⟨op', he, hm⟩ := hm
  have hafter : u.after op = u.afterCall op' := by unfold Use.after; rw [he]
  unfold StepOk
  rw [hafter]
  cases op with
  | create nf name n mt info yaml =>
    cases he
    obtain ⟨h1, h2, h3, rfl⟩ := hm
    obtain ⟨w', P', h4, h5⟩ := create_safe (mt := mt) (name := name) hs hw h1 h2 h3
    refine .inl ⟨_, w', P', ?_, h5, rfl⟩
    simp only [step]
    rw [h4, Res.bind_ok]
  | destroy r fuel =>
    cases he
    obtain ⟨g, hg⟩ := Option.isSome_iff_exists.1 hm
    rcases destroy_safe hs hw hg fuel with ⟨w', P', h1, h2⟩ | h1
    · refine .inl ⟨_, w', P', ?_, h2, rfl⟩
      simp only [step]
      rw [h1, Res.bind_ok]
    · refine .inr ⟨⟨r, fuel, rfl⟩, ?_⟩
      simp only [step]
      rw [h1]
      rfl
  | begin r kind =>
    cases he
    obtain ⟨⟨g, hg, hb⟩, ha⟩ := hm
    obtain ⟨c, w', h1, h2, h3⟩ := begin_safe hs hw hg hb ha
    refine .inl ⟨.ctx c, w', P, ?_, h3, ?_⟩
    · simp only [step]
      rw [h1, Res.bind_ok]
    · rw [h2]
      cases kind <;> rfl
  | beginWith r f =>
    cases he
    obtain ⟨g, hg, hb, -, hf⟩ := hm
    obtain ⟨w', h1, h3⟩ := beginWith_safe hs hw hg hb hf
    refine .inl ⟨.ctx (.sync r), w', P, ?_, h3, rfl⟩
    simp only [step]
    rw [h1, Res.bind_ok]
  | setFeature r c v =>
    cases he
    obtain ⟨⟨g, hg, hv⟩, k, ho⟩ := hm
    obtain ⟨w', h1, h2⟩ := setFeature_safe hw hg ho hv
    refine .inl ⟨.unit, w', P, ?_, h2, rfl⟩
    simp only [step]
    rw [h1, Res.bind_ok]
  | getPolicyIndex r c =>
    cases he
    obtain ⟨g, hg⟩ := hm
    obtain ⟨p, w', h1, h2, h3⟩ := getPolicyIndex_safe hs hw hg
    refine .inl ⟨.policy p, w', P, ?_, h3, g, p, hg.1, rfl, h2⟩
    simp only [step]
    rw [h1, Res.bind_ok]
  | endMetric r c m =>
    cases he
    obtain ⟨g, hg, hmost⟩ := hm
    obtain ⟨w', P', h1, h2⟩ := endMetric_safe hs hw hg hmost m
    refine .inl ⟨.unit, w', P', ?_, h2, rfl⟩
    simp only [step]
    rw [h1, Res.bind_ok]
  | endCtx r c =>
    cases he
    obtain ⟨g, hg, hmost⟩ := hm
    obtain ⟨w', P', h1, h2⟩ := endCtx_safe hs hw hg hmost
    refine .inl ⟨.unit, w', P', ?_, h2, rfl⟩
    simp only [step]
    rw [h1, Res.bind_ok]
  | setFeatureCur r v =>
    obtain ⟨c, hc, rfl⟩ := Option.map_eq_some_iff.1 he
    obtain ⟨⟨g, hg, hv⟩, k, ho⟩ := hm
    obtain ⟨w', h1, h2⟩ := setFeature_safe hw hg ho hv
    refine .inl ⟨.unit, w', P, ?_, h2, rfl⟩
    simp only [step]
    rw [currentCtx_safe hw hc, Res.bind_ok, h1, Res.bind_ok]
  | getPolicyIndexCur r =>
    obtain ⟨c, hc, rfl⟩ := Option.map_eq_some_iff.1 he
    obtain ⟨g, hg⟩ := hm
    obtain ⟨p, w', h1, h2, h3⟩ := getPolicyIndex_safe hs hw hg
    refine .inl ⟨.policy p, w', P, ?_, h3, g, p, hg.1, rfl, h2⟩
    simp only [step]
    rw [currentCtx_safe hw hc, Res.bind_ok, h1, Res.bind_ok]
  | endMetricCur r m =>
    obtain ⟨c, hc, rfl⟩ := Option.map_eq_some_iff.1 he
    obtain ⟨g, hg, hmost⟩ := hm
    obtain ⟨w', P', h1, h2⟩ := endMetric_safe hs hw hg hmost m
    refine .inl ⟨.unit, w', P', ?_, h2, rfl⟩
    simp only [step]
    rw [currentCtx_safe hw hc, Res.bind_ok, h1, Res.bind_ok]
  | endCur r =>
    obtain ⟨c, hc, rfl⟩ := Option.map_eq_some_iff.1 he
    obtain ⟨g, hg, hmost⟩ := hm
    obtain ⟨w', P', h1, h2⟩ := endCtx_safe hs hw hg hmost
    refine .inl ⟨.unit, w', P', ?_, h2, rfl⟩
    simp only [step]
    rw [currentCtx_safe hw hc, Res.bind_ok, h1, Res.bind_ok]
  | collect r =>
    cases he
    obtain ⟨g, hg⟩ := Option.isSome_iff_exists.1 hm
    obtain ⟨w', P', h1, h2⟩ := collectPending_safe hs (hw.forget r) (forget_regs hg) rfl
    refine .inl ⟨.unit, w', P', ?_, h2, rfl⟩
    simp only [step]
    rw [h1, Res.bind_ok]
  | train r s collect force =>
    cases he
    obtain ⟨g, hg⟩ := Option.isSome_iff_exists.1 hm
    cases collect with
    | false =>
      obtain ⟨w', P', h1, h2⟩ := regionTrain_safe hs hw hg s false force (fun h => by cases h)
      refine .inl ⟨.unit, w', P', ?_, h2, rfl⟩
      simp only [step]
      rw [h1, Res.bind_ok]
    | true =>
      obtain ⟨w', P', h1, h2⟩ := regionTrain_safe hs (hw.forget r) (forget_regs hg) s true force
        (fun _ => rfl)
      refine .inl ⟨.unit, w', P', ?_, h2, rfl⟩
      simp only [step]
      rw [h1, Res.bind_ok]
  | trainAll s collect =>
    cases he
    cases collect with
    | false =>
      obtain ⟨w', P', h1, h2⟩ := apolloTrain_safe hs hw hm s false (fun h => by cases h)
      refine .inl ⟨.unit, w', P', ?_, h2, rfl⟩
      simp only [step]
      rw [h1, Res.bind_ok]
    | true =>
      obtain ⟨w', P', h1, h2⟩ := apolloTrain_safe hs hw.forgetAll hm s true (fun _ r g hg => by
        obtain ⟨g₀, -, rfl⟩ := Option.map_eq_some_iff.1 hg
        rfl)
      refine .inl ⟨.unit, w', P', ?_, h2, rfl⟩
      simp only [step]
      rw [h1, Res.bind_ok]

theorem exec_safe (hs : Safe env Good ρ pm) : ∀ (ops : List Op) (u : Use) (P : ℕ → List CtxPtr)
    (w : World M), Sane env Good ρ pm u P none w → u.Follows ρ ops →
    (∃ w' P', exec env ops w = .ok w' ∧ Sane env Good ρ pm (u.afterAll ops) P' none w') ∨
      ((∃ r fuel, Op.destroy r fuel ∈ ops) ∧ exec env ops w = .error .diverge) := by
  intro ops
  induction ops with
  | nil => intro u P w hw _; exact .inl ⟨w, P, rfl, hw⟩
  | cons op ops ih =>
    intro u P w hw hf
    unfold exec
    rcases step_safe hs hw hf.1 with ⟨ret, w₁, P₁, h1, hw1, -⟩ | ⟨⟨r, fuel, rfl⟩, h1⟩
    · rw [h1, Res.bind_ok]
      rcases ih _ P₁ w₁ hw1 hf.2 with h | ⟨⟨r, fuel, h⟩, h2⟩
      · exact .inl h
      · exact .inr ⟨⟨r, fuel, List.mem_cons_of_mem _ h⟩, h2⟩
    · exact .inr ⟨⟨r, fuel, List.mem_cons_self⟩, by rw [h1]; rfl⟩

/-! ## Programs whose destructors end -/

theorem destroy_sync (hw : Sane env Good ρ pm u P none w) {r : ℕ} {g : RegUse} (hg : u.regs r = some g)
    (h0 : u.nctx = 0) (fuel : ℕ) : destroyRegion env w r fuel ≠ .error .diverge := by
  obtain ⟨R, m, C, h⟩ := hw.regs r g hg
  have hp : R.pending = [] := by
    rw [hw.held r g R hg (by simp) h.region]
    by_contra hne
    obtain ⟨c, hc⟩ := List.exists_mem_of_ne_nil _ hne
    obtain ⟨-, ⟨i, -, hi⟩, -⟩ := hw.pend r g c hg hc
    omega
  have hr : w.region r = .ok R := World.region_ok.2 h.region
  have hr' : World.region { w with cfg := { w.cfg with globalPeriod := 0 } } r = .ok R := hr
  have hd : drain env r fuel { w with cfg := { w.cfg with globalPeriod := 0 } } =
      .ok { w with cfg := { w.cfg with globalPeriod := 0 } } := by
    cases fuel <;> simp only [drain, hr', Res.bind_ok, if_pos hp]
  unfold destroyRegion
  simp only [hr, hd, hr', Res.bind_ok]
  simp

theorem destroyAll_ends (hs : Safe env Good ρ pm) (I : Use → Prop)
    (hI : ∀ u op, I u → (∀ r, op ≠ .begin r .async) → I (u.after op))
    {fuel : ℕ} (he : ∀ {u : Use} {P w r g}, I u → Sane env Good ρ pm u P none w → u.regs r = some g →
      destroyRegion env w r fuel ≠ .error .diverge) : ∀ (l : List ℕ), l.Nodup →
    ∀ (u : Use) (P : ℕ → List CtxPtr) (w : World M), Sane env Good ρ pm u P none w → I u →
    (∀ r ∈ l, ∃ g, u.regs r = some g) →
    ∃ w', forRegions (fun w r => destroyRegion env w r fuel) l w = .ok w' := by
  intro l
  induction l with
  | nil => intro _ u P w _ _ _; exact ⟨w, rfl⟩
  | cons r l ih =>
    intro hl u P w hw h0 h
    obtain ⟨hr, hl⟩ := List.nodup_cons.1 hl
    obtain ⟨g, hg⟩ := h r List.mem_cons_self
    unfold forRegions
    rcases destroy_safe hs hw hg fuel with ⟨w₁, P₁, h1, hw1⟩ | h1
    · rw [h1, Res.bind_ok]
      refine ih hl _ P₁ w₁ hw1 (hI u (.destroy r fuel) h0 (by simp)) fun r' hr' => ?_
      obtain ⟨g', hg'⟩ := h r' (List.mem_cons_of_mem _ hr')
      exact ⟨g', by rw [← hg']; exact Function.update_of_ne (fun he : r' = r => hr (he ▸ hr')) ..⟩
    · exact absurd h1 (he h0 hw hg)

theorem shutdown_ends (hs : Safe env Good ρ pm) (I : Use → Prop)
    (hI : ∀ u op, I u → (∀ r, op ≠ .begin r .async) → I (u.after op))
    {fuel : ℕ} (he : ∀ {u : Use} {P w r g}, I u → Sane env Good ρ pm u P none w → u.regs r = some g →
      destroyRegion env w r fuel ≠ .error .diverge) (hw : Sane env Good ρ pm u P none w)
    (hd : u.destroyed = false) (h0 : I u) : ∃ w', shutdown env w fuel = .ok w' := by
  have h1 : ∃ w₁, writeExecInfo env w = .ok w₁ ∧ Sane env Good ρ pm u P none w₁ := by
    unfold writeExecInfo
    split
    · obtain ⟨s, h⟩ := execInfo_safe hw _ (hw.registry hd)
      rw [h, Res.bind_ok]
      exact ⟨_, rfl, hw.write _ _⟩
    · exact ⟨w, rfl, hw⟩
  obtain ⟨w₁, h1, hw1⟩ := h1
  unfold shutdown
  rw [h1, Res.bind_ok]
  exact destroyAll_ends hs I hI he _ hw1.distinct u P w₁ hw1 h0 (hw1.registry hd)

theorem after_nctx {u : Use} {op : Op} (h : ∀ r, op ≠ .begin r .async) : (u.after op).nctx = u.nctx := by
  unfold Use.after
  cases hx : u.explicit op with
  | none => rfl
  | some op' =>
    have h' : ∀ r, op' ≠ .begin r .async := by
      intro r he
      subst he
      cases op <;> simp only [Use.explicit, Option.map_eq_some_iff, Option.some.injEq, reduceCtorEq,
        and_false, exists_false] at hx
      exact h r hx
    cases op' with
    | begin r k => cases k with
      | sync => rfl
      | async => exact absurd rfl (h' r)
    | train r s c f => simp only [Use.afterCall]; split <;> rfl
    | trainAll s c => simp only [Use.afterCall]; split <;> rfl
    | _ => rfl

/-- If no destructor waits for ever the program runs to its end. -/
theorem exec_ends (hs : Safe env Good ρ pm) (I : Use → Prop) : ∀ (ops : List Op) (u : Use)
    (P : ℕ → List CtxPtr) (w : World M), Sane env Good ρ pm u P none w → I u →
    (∀ u op, op ∈ ops → I u → I (u.after op)) →
    (∀ {u : Use} {P w r g fuel}, Op.destroy r fuel ∈ ops → I u → Sane env Good ρ pm u P none w →
      u.regs r = some g → destroyRegion env w r fuel ≠ .error .diverge) →
    u.Follows ρ ops → ∃ w' P', exec env ops w = .ok w' ∧
      Sane env Good ρ pm (u.afterAll ops) P' none w' ∧ I (u.afterAll ops) := by
  intro ops
  induction ops with
  | nil => intro u P w hw h0 _ _ _; exact ⟨w, P, rfl, hw, h0⟩
  | cons op ops ih =>
    intro u P w hw h0 hI he hf
    unfold exec
    rcases step_safe hs hw hf.1 with ⟨ret, w₁, P₁, h1, hw1, -⟩ | ⟨⟨r, fuel, rfl⟩, h1⟩
    · rw [h1, Res.bind_ok]
      exact ih _ P₁ w₁ hw1 (hI u op List.mem_cons_self h0)
        (fun u op h => hI u op (List.mem_cons_of_mem _ h)) (fun h => he (List.mem_cons_of_mem _ h)) hf.2
    · obtain ⟨op', hx, hm⟩ := hf.1
      cases hx
      obtain ⟨g, hg⟩ := Option.isSome_iff_exists.1 hm
      refine absurd ?_ (he List.mem_cons_self h0 hw hg)
      simp only [step] at h1
      cases hx : destroyRegion env w r fuel with
      | ok w' => rw [hx] at h1; cases h1
      | error e => rw [hx] at h1; cases h1; rfl

theorem follows_append {ρ : UseRules} {ops ops' : List Op} : ∀ {u : Use}, u.Follows ρ (ops ++ ops') →
    u.Follows ρ ops ∧ (u.afterAll ops).Follows ρ ops' := by
  induction ops with
  | nil => exact fun h => ⟨trivial, h⟩
  | cons op ops ih =>
    intro u h
    obtain ⟨h1, h2⟩ := h
    exact ⟨⟨h1, (ih h2).1⟩, (ih h2).2⟩

theorem not_destroyed {ops : List Op} (hd : ∀ r fuel, Op.destroy r fuel ∉ ops) :
    (Use.afterAll {} ops).destroyed = false := by
  have h : ∀ (l : List Op) (u : Use), (∀ r fuel, Op.destroy r fuel ∉ l) → u.destroyed = false →
      (u.afterAll l).destroyed = false := by
    intro l
    induction l with
    | nil => exact fun u _ h => h
    | cons op l ih =>
      intro u hn hu
      refine ih _ (fun r fuel hm => hn r fuel (List.mem_cons_of_mem _ hm)) ?_
      have hop : ∀ r fuel, op ≠ .destroy r fuel := fun r fuel he => hn r fuel (he ▸ List.mem_cons_self)
      unfold Use.after
      cases hx : u.explicit op with
      | none => exact hu
      | some op' =>
        have h' : ∀ r fuel, op' ≠ .destroy r fuel := by
          intro r fuel he
          subst he
          cases op <;> simp only [Use.explicit, Option.map_eq_some_iff, Option.some.injEq, reduceCtorEq,
            and_false, exists_false] at hx
          exact hop r fuel hx
        cases op' with
        | destroy r fuel => exact absurd rfl (h' r fuel)
        | begin r k => cases k <;> exact hu
        | train r s c f => simp only [Use.afterCall]; split <;> exact hu
        | trainAll s c => simp only [Use.afterCall]; split <;> exact hu
        | _ => exact hu
  exact h ops {} hd rfl

/-- The process after start-up. -/
theorem sane_init {cfg : Cfg} (hc : CfgOk env ρ pm cfg) (files : Str → Option Str) :
    Sane env Good ρ pm {} (fun _ => []) none (initWorld cfg files) :=
  ⟨(fun _ _ h => by cases h), (fun _ _ h => by cases h), rfl, rfl, (fun _ _ _ _ h => by cases h),
    (fun _ _ _ h => by cases h), (fun _ _ h => by cases h), (fun _ _ _ _ _ h => by cases h),
    (fun _ _ _ h => by cases h), (fun _ _ hr => by cases hr), List.nodup_nil,
    (fun _ hr => by cases hr), (fun h => by cases h), hc, (fun _ _ _ h => by cases h)⟩

end Apollo
