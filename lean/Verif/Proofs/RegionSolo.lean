import Mathlib.Data.Int.Basic
import Verif.Spec.RegionSolo
import Verif.Proofs.RegionTrain

/-!
# Regions do not influence each other
-/

namespace Apollo

open Spec

variable {M : Type}

/-! ## Logs -/

theorem inputsFrom_snoc (r : ℕ) (o : Observer) (l : List Ev) (e : Ev) :
    inputsFrom r o (l ++ [e]) =
      inputsFrom r o l ++ ((l.foldl Observer.next o).input r e).toList := by
  induction l generalizing o with
  | nil => simp [inputsFrom]
  | cons a l ih => simp [inputsFrom, ih]

theorem inputs_snoc (r : ℕ) (l : List Ev) (e : Ev) :
    inputs r (l ++ [e]) = inputs r l ++ ((observe l).input r e).toList := inputsFrom_snoc ..

theorem answers_snoc (r : ℕ) (l : List Ev) (e : Ev) :
    answers r (l ++ [e]) = answers r l ++ (answer r e).toList := by
  simp only [answers, List.filterMap_append]
  cases h : answer r e <;> simp [h]

theorem orderlyFrom_append (r : ℕ) (o : Observer) (l l' : List Ev) :
    orderlyFrom r o (l ++ l') ↔
      orderlyFrom r o l ∧ orderlyFrom r (l.foldl Observer.next o) l' := by
  induction l generalizing o with
  | nil => simp [orderlyFrom]
  | cons a l ih => simp [orderlyFrom, ih, and_assoc]

theorem orderly_left {r : ℕ} {l l' : List Ev} (h : Orderly r (l ++ l')) : Orderly r l :=
  ((orderlyFrom_append ..).1 h).1

theorem orderly_last {r : ℕ} {l : List Ev} {e : Ev} {l' : List Ev} (h : Orderly r (l ++ e :: l')) :
    (observe l).fits r e := ((orderlyFrom_append ..).1 h).2.1

instance (r : ℕ) (o : Observer) (e : Ev) : Decidable (o.fits r e) := by
  cases e <;> unfold Observer.fits <;> infer_instance

instance decOrderlyFrom (r : ℕ) : (o : Observer) → (l : List Ev) → Decidable (orderlyFrom r o l)
  | _, [] => .isTrue trivial
  | o, e :: l => by
    have := decOrderlyFrom r (o.next e) l
    unfold orderlyFrom
    infer_instance

instance (r : ℕ) (l : List Ev) : Decidable (Orderly r l) := decOrderlyFrom ..

/-- The machine agrees with the observer. -/
structure Ag (r : ℕ) (o : Observer) (s : Solo M) : Prop where
  begins : s.begins = o.begins r
  bound : ∀ c, o.owner c = some r → o.index c < o.begins r
  inj : ∀ c c', o.owner c = some r → o.owner c' = some r → o.index c = o.index c' → c = c'
  feats : ∀ c, o.owner c = some r → o.isOpen c = true → s.features (o.index c) = o.features c
  pol : ∀ c, o.owner c = some r → o.isOpen c = true → s.policy (o.index c) = o.policy c

/-- The machine, run on the inputs of the log, gave the answers of the log. -/
structure Track (ρ : Rules M) (r : ℕ) (s₀ : Solo M) (l : List Ev) (s : Solo M) : Prop where
  plays : ρ.Plays s₀ (inputs r l) (answers r l) s
  ag : Ag r (observe l) s

theorem Track.start (ρ : Rules M) (r : ℕ) (m : M) (ds : Dataset) :
    Track ρ r ⟨m, ds, 0, fun _ => [], fun _ => none⟩ [] ⟨m, ds, 0, fun _ => [], fun _ => none⟩ :=
  ⟨.start, ⟨rfl, by simp [observe], by simp [observe], by simp [observe], by simp [observe]⟩⟩

section Track

variable {ρ : Rules M} {r : ℕ} {s₀ s : Solo M} {l : List Ev}

/-- Events that are no inputs. -/
theorem Track.skip (h : Track ρ r s₀ l s) (e : Ev) (hi : (observe l).input r e = none)
    (ha : answer r e = none) (hag : Ag r ((observe l).next e) s) : Track ρ r s₀ (l ++ [e]) s := by
  refine ⟨?_, by rw [observe_snoc]; exact hag⟩
  rw [inputs_snoc, answers_snoc, hi, ha]
  simpa using h.plays

/-- Events that are inputs. -/
theorem Track.push (h : Track ρ r s₀ l s) (e : Ev) {i : Input} {s' : Solo M}
    (hi : (observe l).input r e = some i) (hs : ρ.Step s i (answer r e) s')
    (hag : Ag r ((observe l).next e) s') : Track ρ r s₀ (l ++ [e]) s' := by
  refine ⟨?_, by rw [observe_snoc]; exact hag⟩
  rw [inputs_snoc, answers_snoc, hi]
  exact h.plays.step hs

theorem Track.trained_other (h : Track ρ r s₀ l s) {l' : List Ev}
    (hl : ∀ e ∈ l', ∃ r' ds, e = Ev.trained r' ds) : Track ρ r s₀ (l ++ l') s := by
  induction l' using List.reverseRecOn with
  | nil => simpa using h
  | append_singleton l' e ih =>
    obtain ⟨r', ds, rfl⟩ := hl e (by simp)
    rw [← List.append_assoc]
    exact (ih fun e he => hl e (by simp [he])).skip _ rfl rfl
      (ih fun e he => hl e (by simp [he])).ag

/-- Events that mean nothing to any region. -/
theorem Track.created (h : Track ρ r s₀ l s) (r' : ℕ) (ds : Dataset) (b : Bool) :
    Track ρ r s₀ (l ++ [.created r' ds b]) s := h.skip _ rfl rfl ⟨h.ag.1, h.ag.2, h.ag.3, h.ag.4, h.ag.5⟩

theorem Track.waiting (h : Track ρ r s₀ l s) (c : CtxPtr) :
    Track ρ r s₀ (l ++ [.waiting c]) s := h.skip _ rfl rfl h.ag

theorem Track.ended (h : Track ρ r s₀ l s) (r' : ℕ) (c : CtxPtr) :
    Track ρ r s₀ (l ++ [.ended r' c]) s := h.skip _ rfl rfl h.ag

theorem Track.destroyed (h : Track ρ r s₀ l s) (r' : ℕ) :
    Track ρ r s₀ (l ++ [.destroyed r']) s := h.skip _ rfl rfl h.ag

theorem Track.began_other (h : Track ρ r s₀ l s) {r' : ℕ} (hr : r' ≠ r) (c : CtxPtr) :
    Track ρ r s₀ (l ++ [.began r' c]) s := by
  have key : ∀ c', Function.update (observe l).owner c (some r') c' = some r →
      c' ≠ c ∧ (observe l).owner c' = some r := by
    intro c' hc
    by_cases he : c' = c
    · subst he
      rw [Function.update_self, Option.some.injEq] at hc
      exact absurd hc hr
    · rw [Function.update_of_ne he] at hc
      exact ⟨he, hc⟩
  refine h.skip _ (by simp [Observer.input, hr]) rfl ⟨?_, ?_, ?_, ?_, ?_⟩
  · simp only [Observer.next, Function.update_of_ne hr.symm]
    exact h.ag.begins
  · intro c' hc
    obtain ⟨h1, h2⟩ := key c' hc
    simp only [Observer.next, Function.update_of_ne hr.symm, Function.update_of_ne h1]
    exact h.ag.bound c' h2
  · intro c₁ c₂ hc₁ hc₂
    obtain ⟨h1, h2⟩ := key c₁ hc₁
    obtain ⟨h3, h4⟩ := key c₂ hc₂
    simp only [Observer.next, Function.update_of_ne h1, Function.update_of_ne h3]
    exact h.ag.inj c₁ c₂ h2 h4
  · intro c' hc
    obtain ⟨h1, h2⟩ := key c' hc
    simp only [Observer.next, Function.update_of_ne h1]
    exact h.ag.feats c' h2
  · intro c' hc
    obtain ⟨h1, h2⟩ := key c' hc
    simp only [Observer.next, Function.update_of_ne h1]
    exact h.ag.pol c' h2

theorem Track.began (h : Track ρ r s₀ l s) (c : CtxPtr) :
    Track ρ r s₀ (l ++ [.began r c]) { s with
      begins := s.begins + 1
      features := Function.update s.features s.begins []
      policy := Function.update s.policy s.begins none } := by
  have hb := h.ag.begins
  have hlt : ∀ c', (observe l).owner c' = some r → (observe l).index c' ≠ s.begins := by
    intro c' hc
    have := h.ag.bound c' hc
    omega
  refine h.push _ (by simp [Observer.input]) .begin ⟨?_, ?_, ?_, ?_, ?_⟩
  · simp [Observer.next, hb]
  · intro c' hc
    simp only [Observer.next, Function.update_self] at hc ⊢
    by_cases he : c' = c
    · subst he; simp
    · rw [Function.update_of_ne he] at hc ⊢
      exact (h.ag.bound c' hc).trans (Nat.lt_succ_self _)
  · intro c₁ c₂ hc₁ hc₂ hi
    simp only [Observer.next] at hc₁ hc₂ hi
    by_cases h1 : c₁ = c <;> by_cases h2 : c₂ = c
    · rw [h1, h2]
    · subst h1
      rw [Function.update_of_ne h2] at hc₂ hi
      rw [Function.update_self] at hi
      have := h.ag.bound c₂ hc₂
      omega
    · subst h2
      rw [Function.update_of_ne h1] at hc₁ hi
      rw [Function.update_self] at hi
      have := h.ag.bound c₁ hc₁
      omega
    · rw [Function.update_of_ne h1] at hc₁ hi
      rw [Function.update_of_ne h2] at hc₂ hi
      exact h.ag.inj c₁ c₂ hc₁ hc₂ hi
  · intro c' hc ho
    simp only [Observer.next] at hc ho ⊢
    by_cases he : c' = c
    · subst he
      simp only [Function.update_self, hb]
    · rw [Function.update_of_ne he] at hc ho ⊢
      rw [Function.update_of_ne he, Function.update_of_ne (hlt c' hc)]
      exact h.ag.feats c' hc ho
  · intro c' hc ho
    simp only [Observer.next] at hc ho ⊢
    by_cases he : c' = c
    · subst he
      simp only [Function.update_self, hb]
    · rw [Function.update_of_ne he] at hc ho ⊢
      rw [Function.update_of_ne he, Function.update_of_ne (hlt c' hc)]
      exact h.ag.pol c' hc ho

/-- Changes of the features of a context. -/
theorem Ag.setFeatures {o : Observer} (h : Ag r o s) (c : CtxPtr) (f f' : Features)
    (hf : o.owner c = some r → o.isOpen c = true → f' = f) :
    Ag r { o with features := Function.update o.features c f }
      (if o.owner c = some r then { s with features := Function.update s.features (o.index c) f' }
        else s) := by
  refine ⟨?_, h.bound, h.inj, ?_, ?_⟩
  · split <;> exact h.begins
  · intro c' hc ho
    have hc : o.owner c' = some r := hc
    have ho : o.isOpen c' = true := ho
    show _ = Function.update o.features c f c'
    by_cases he : c' = c
    · subst he
      rw [if_pos hc]
      simp [hf hc ho]
    · rw [Function.update_of_ne he]
      split
      next hk =>
        show Function.update s.features (o.index c) f' (o.index c') = _
        rw [Function.update_of_ne fun hi => he (h.inj _ _ hc hk hi)]
        exact h.feats c' hc ho
      · exact h.feats c' hc ho
  · intro c' hc ho
    split <;> exact h.pol c' hc ho

theorem Track.assigned (h : Track ρ r s₀ l s) (c : CtxPtr) (f : Features) :
    ∃ s', Track ρ r s₀ (l ++ [.assigned c f]) s' ∧ s'.model = s.model ∧ s'.data = s.data := by
  have hag := h.ag.setFeatures c f f fun _ _ => rfl
  by_cases ho : (observe l).owner c = some r
  · rw [if_pos ho] at hag
    exact ⟨_, h.push _ (by simp only [Observer.input, if_pos ho]) (.assign _ _) hag, rfl, rfl⟩
  · rw [if_neg ho] at hag
    exact ⟨_, h.skip _ (by simp only [Observer.input, if_neg ho]) rfl hag, rfl, rfl⟩

theorem Track.feature (h : Track ρ r s₀ l s) (c : CtxPtr) (v : ℚ) :
    ∃ s', Track ρ r s₀ (l ++ [.feature c v]) s' ∧ s'.model = s.model ∧ s'.data = s.data := by
  have hag := h.ag.setFeatures c ((observe l).features c ++ [v])
    (s.features ((observe l).index c) ++ [v]) fun h1 h2 => by rw [h.ag.feats c h1 h2]
  by_cases ho : (observe l).owner c = some r
  · rw [if_pos ho] at hag
    exact ⟨_, h.push _ (by simp only [Observer.input, if_pos ho]) (.feature _ _) hag, rfl, rfl⟩
  · rw [if_neg ho] at hag
    exact ⟨_, h.skip _ (by simp only [Observer.input, if_neg ho]) rfl hag, rfl, rfl⟩

theorem Track.chose_other (h : Track ρ r s₀ l s) {r' : ℕ} {c : CtxPtr} {p : ℤ} (hr : r' ≠ r)
    (hf : (observe l).fits r (.chose r' c p)) : Track ρ r s₀ (l ++ [.chose r' c p]) s := by
  have hc : (observe l).owner c ≠ some r := fun h1 => hr (hf.2.1 h1)
  refine h.skip _ (by simp [Observer.input, hr]) (by simp [answer, hr])
    ⟨h.ag.begins, h.ag.bound, h.ag.inj, h.ag.feats, ?_⟩
  intro c' h1 h2
  have hne : c' ≠ c := by
    rintro rfl
    exact hc h1
  simp only [Observer.next, Function.update_of_ne hne]
  exact h.ag.pol c' h1 h2

theorem Track.chose (h : Track ρ r s₀ l s) {c : CtxPtr} {p : ℤ} {m : M}
    (hf : (observe l).fits r (.chose r c p))
    (hp : ρ.getIndex s.model ((observe l).features c) = .ok (p, m)) :
    ∃ s', Track ρ r s₀ (l ++ [.chose r c p]) s' ∧ s'.model = m ∧ s'.data = s.data := by
  have ho := hf.1 rfl
  have hc := hf.2.2 rfl
  rw [← h.ag.feats c hc ho] at hp
  refine ⟨_, h.push _ (i := .ask ((observe l).index c)) (by simp [Observer.input]) ?_
    (s' := { s with model := m, policy := Function.update s.policy ((observe l).index c) (some p) })
    ⟨h.ag.begins, h.ag.bound, h.ag.inj, h.ag.feats, ?_⟩, rfl, rfl⟩
  · simp only [answer, if_true]
    exact .ask _ _ _ hp
  · intro c' h1 h2
    have h1 : (observe l).owner c' = some r := h1
    show Function.update s.policy _ _ ((observe l).index c') =
      Function.update (observe l).policy c (some p) c'
    by_cases he : c' = c
    · subst he; simp
    · rw [Function.update_of_ne he, Function.update_of_ne fun hi => he (h.ag.inj _ _ h1 hc hi)]
      exact h.ag.pol c' h1 h2

/-- Closing a context. -/
theorem Ag.close {o : Observer} (h : Ag r o s) (r' : ℕ) (c : CtxPtr) (x : ℚ) {s' : Solo M}
    (h1 : s'.begins = s.begins) (h2 : s'.features = s.features) (h3 : s'.policy = s.policy) :
    Ag r (o.next (.finished r' c x)) s' := by
  have key : ∀ c', Function.update o.isOpen c false c' = true → o.isOpen c' = true := by
    intro c' hc
    by_cases he : c' = c
    · subst he; simp at hc
    · rwa [Function.update_of_ne he] at hc
  refine ⟨h1.trans h.begins, h.bound, h.inj, ?_, ?_⟩
  · intro c' hc ho
    rw [h2]
    exact h.feats c' hc (key c' ho)
  · intro c' hc ho
    rw [h3]
    exact h.pol c' hc (key c' ho)

theorem Track.finished_other (h : Track ρ r s₀ l s) {r' : ℕ} (hr : r' ≠ r) (c : CtxPtr) (x : ℚ) :
    Track ρ r s₀ (l ++ [.finished r' c x]) s :=
  h.skip _ (by simp [Observer.input, hr]) rfl (h.ag.close _ _ _ rfl rfl rfl)

theorem Track.finished (h : Track ρ r s₀ l s) {c : CtxPtr} {x : ℚ} {p : ℤ} {ds : Dataset} {m : M}
    (hf : (observe l).fits r (.finished r c x)) (hp : (observe l).policy c = some p)
    (hds : ds = if ρ.persistent = true ∨ ρ.isTrainable s.model = true then
      s.data.insert ((observe l).features c) p x else s.data)
    (hm : ¬ ρ.Due s.model s.begins ds ∧ m = s.model ∨
      ρ.Due s.model s.begins ds ∧ ∃ t, ρ.train t ds s.model = .ok m) :
    ∃ s', Track ρ r s₀ (l ++ [.finished r c x]) s' ∧ s'.model = m ∧ s'.data = ds := by
  obtain ⟨ho, hc, -⟩ := hf rfl
  have hp' : s.policy ((observe l).index c) = some p := by rw [h.ag.pol c hc ho, hp]
  have hrec : ds = ρ.record s ((observe l).index c) p x := by
    rw [hds, Rules.record, h.ag.feats c hc ho]
  subst hrec
  have hi : (observe l).input r (.finished r c x) = some (.finish ((observe l).index c) x) := by
    simp [Observer.input]
  rcases hm with ⟨hd, rfl⟩ | ⟨hd, t, ht⟩
  · exact ⟨_, h.push _ hi (.finish _ _ _ hp' hd) (h.ag.close _ _ _ rfl rfl rfl), rfl, rfl⟩
  · exact ⟨_, h.push _ hi (.finishTrain _ _ _ t m hp' hd ht) (h.ag.close _ _ _ rfl rfl rfl), rfl, rfl⟩

end Track

/-- What the observer knows of executions that began later does not depend on what came before. -/
theorem observe_since (h l : List Ev) (c : CtxPtr) (hc : (observe l).owner c ≠ none) :
    (observe (h ++ l)).features c = (observe l).features c ∧
      (observe (h ++ l)).policy c = (observe l).policy c ∧
      (observe (h ++ l)).isOpen c = (observe l).isOpen c := by
  induction l using List.reverseRecOn with
  | nil => simp [observe] at hc
  | append_singleton l e ih =>
    rw [← List.append_assoc, observe_snoc, observe_snoc]
    rw [observe_snoc] at hc
    cases e with
    | began r' c' =>
      simp only [Observer.next] at hc ⊢
      by_cases he : c = c'
      · subst he; simp
      · simp only [Function.update_of_ne he] at hc ⊢
        exact ih hc
    | assigned c' f =>
      simp only [Observer.next] at hc ⊢
      by_cases he : c = c'
      · subst he; simp [ih hc]
      · simp only [Function.update_of_ne he]
        exact ih hc
    | feature c' f =>
      simp only [Observer.next] at hc ⊢
      by_cases he : c = c'
      · subst he; simp [ih hc]
      · simp only [Function.update_of_ne he]
        exact ih hc
    | chose r' c' f =>
      simp only [Observer.next] at hc ⊢
      by_cases he : c = c'
      · subst he; simp [ih hc]
      · simp only [Function.update_of_ne he]
        exact ih hc
    | finished r' c' f =>
      simp only [Observer.next] at hc ⊢
      by_cases he : c = c'
      · subst he; simp [ih hc]
      · simp only [Function.update_of_ne he]
        exact ih hc
    | _ => exact ih hc

theorem observe_begins (h l : List Ev) (r : ℕ) :
    (observe (h ++ l)).begins r = (observe h).begins r + (observe l).begins r := by
  induction l using List.reverseRecOn with
  | nil => simp [observe]
  | append_singleton l e ih =>
    rw [← List.append_assoc, observe_snoc, observe_snoc]
    cases e with
    | began r' c' =>
      simp only [Observer.next]
      by_cases he : r = r'
      · subst he; simp [ih]; omega
      · simp only [Function.update_of_ne he]
        exact ih
    | _ => exact ih

/-! ## The end of an execution, without a global period -/

theorem autoTrain_own {env : Env M} {w w' : World M} {r : ℕ} {R : Region} {m : M}
    (hR : w.regions r = some R) (hm : w.models r = some m) (hg : w.cfg.globalPeriod = 0)
    (h : autoTrain env w r = .ok w') :
    Fired env
      (if env.ops.isTrainable m = true ∧ (w.cfg.perRegionPeriod ≠ 0 ∧
          R.idx.tmod w.cfg.perRegionPeriod = 0 ∨
        0 < R.minTraining ∧ R.minTraining ≤ R.dataset.size) then [r] else []) w w' := by
  have hnil : Fired env [] w w := ⟨Trained.refl _ _, by simp⟩
  unfold autoTrain at h
  obtain ⟨R', hR', h⟩ := (Res.bind_eq_ok _ _ _).1 h
  obtain ⟨m', hm', h⟩ := (Res.bind_eq_ok _ _ _).1 h
  rw [World.region_ok.1 hR'] at hR
  rw [World.model_ok.1 hm'] at hm
  cases hR; cases hm
  split at h
  next ht =>
    cases h
    rw [if_neg (by simp at ht; simp [ht])]
    exact hnil
  next ht =>
    simp only [Bool.not_eq_eq_eq_not, Bool.not_true, Bool.not_eq_false] at ht
    split at h
    · exact absurd hg ‹_ ∧ _›.1
    · split at h
      next hp => rw [if_pos ⟨ht, .inl hp⟩]; exact trainNoCollect_fired h
      next hp =>
        split at h
        next hq => rw [if_pos ⟨ht, .inr hq⟩]; exact trainNoCollect_fired h
        next hq =>
          cases h
          rw [if_neg (by rintro ⟨-, h1 | h1⟩ <;> contradiction)]
          exact hnil

/-- The rules for a region, from the surroundings and the settings. -/
def rules (env : Env M) (cfg : Cfg) (mt : ℤ) : Rules M where
  isTrainable := env.ops.isTrainable
  getIndex := env.ops.getIndex
  train := env.ops.train
  persistent := cfg.persistent
  period := cfg.perRegionPeriod
  minTraining := mt

/-- The end of an execution of `r`, exactly. -/
theorem collectContext_own {env : Env M} {w w' : World M} {r : ℕ} {c : CtxPtr} {x : ℚ}
    {R : Region} {m : M} {C : Ctx} {l : List Ev} {n : ℕ} (hg : w.cfg.globalPeriod = 0)
    (hn : R.idx = n) (h : collectContext env w r c x = .ok w')
    (hc : Collected env w r c x R m C l w') :
    (¬ (rules env w.cfg R.minTraining).Due m n (recRegion env w R m C x).dataset ∧
        w'.models r = some m ∧ l = []) ∨
      ((rules env w.cfg R.minTraining).Due m n (recRegion env w R m C x).dataset ∧
        l = [.trained r (recRegion env w R m C x).dataset] ∧
        ∃ t m', env.ops.train t (recRegion env w R m C x).dataset m = .ok m' ∧
          w'.models r = some m') := by
  obtain ⟨R', m', C', w₁, w₂, R₂, h1, h2, h3, h4, h5, h6, rfl⟩ := collectContext_steps h
  rw [hc.region] at h1
  rw [hc.model] at h2
  rw [hc.ctx] at h3
  cases h1; cases h2; cases h3
  obtain ⟨f1, f2, f3, f4, f5, f6, f7, f8, f9, f10⟩ := record_frame env w r R m c C x
  have hreg := record_regions env w r R m c C x
  have hw2 : w₂.log = w₁.log ∧ w₂.models = w₁.models := by
    rcases destroyContext_ok h5 with ⟨rfl, rfl⟩ | ⟨n, rfl, _, rfl⟩ <;> simp
  have hlog := hc.log
  simp only [World.setRegion] at hlog ⊢
  rw [hw2.1] at hlog
  rw [hw2.2]
  have hR1 : (record env w r R m c C x).regions r =
      some { recRegion env w R m C x with current := R.current } := by rw [hreg, Function.update_self]
  have hm1 : (record env w r R m c C x).models r = some m := by rw [f2]; exact hc.model
  have hf := autoTrain_own hR1 hm1 (by rw [f1]; exact hg) h4
  simp only [f1, recRegion_idx] at hf
  have hmt : (recRegion env w R m C x).minTraining = R.minTraining := rfl
  rw [hmt] at hf
  have hcond : (rules env w.cfg R.minTraining).Due m n (recRegion env w R m C x).dataset ↔
      (env.ops.isTrainable m = true ∧ (w.cfg.perRegionPeriod ≠ 0 ∧
          R.idx.tmod w.cfg.perRegionPeriod = 0 ∨ 0 < R.minTraining ∧
            R.minTraining ≤ (recRegion env w R m C x).dataset.size)) ∧
        (recRegion env w R m C x).dataset.size ≠ 0 := by
    simp only [Rules.Due, rules, Dataset.size, hn, Int.dvd_iff_tmod_eq_zero, ne_eq,
      List.length_eq_zero_iff]
    tauto
  have hdata : (record env w r R m c C x).data r = some (recRegion env w R m C x).dataset := by
    simp [World.data, hR1]
  generalize hds : (recRegion env w R m C x).dataset = ds at *
  have hdue : due env (record env w r R m c C x).models (record env w r R m c C x).data r =
      if env.ops.isTrainable m = true ∧ ds.size ≠ 0 then [.trained r ds] else [] := by
    simp only [due, hm1, hdata]
  split at hf
  next hA =>
    have ht := hf.trained
    simp only [List.flatMap_cons, List.flatMap_nil, List.append_nil, hdue] at ht
    by_cases hz : ds.size = 0
    · rw [if_neg (by simp [hz])] at ht
      have hl := ht.log
      rw [hlog, f9, List.append_cancel_left_eq] at hl
      refine .inl ⟨by rw [hcond]; exact fun h => h.2 hz, ?_, hl⟩
      rw [ht.models r (by simp)]
      exact hm1
    · rw [if_pos ⟨hA.1, hz⟩] at ht
      have hl := ht.log
      rw [hlog, f9, List.append_cancel_left_eq] at hl
      refine .inr ⟨hcond.2 ⟨hA, hz⟩, hl, ?_⟩
      obtain ⟨m₁, m', t, e1, e2, e3⟩ := hf.model r (by simp) ds (by rw [hdue, if_pos ⟨hA.1, hz⟩]; simp)
      rw [hm1] at e1
      cases e1
      exact ⟨t, m', e2, e3⟩
  next hA =>
    have ht := hf.trained
    have hl := ht.log
    rw [hlog, f9, List.append_cancel_left_eq] at hl
    refine .inl ⟨by rw [hcond]; exact fun h => hA h.1, ?_, hl⟩
    rw [ht.models r (by simp)]
    exact hm1

/-! ## Executions -/

/-- A predicate kept by every call that returns, other than requests to train region `r`. -/
structure Unasked (env : Env M) (r : ℕ) (P : World M → Prop) : Prop where
  advance : ∀ w, P w → P w.advance
  waiting : ∀ w c, P w → P (w.emit (.waiting c))
  pending : ∀ w r R cs, P w → w.regions r = some R → P (w.setRegion r { R with pending := cs })
  body : ∀ w r' s w', r' ≠ r → P w → trainBody env w r' s = .ok w' → P w'
  finish : ∀ w r c m w', P w →
    collectContext env (w.emit (.finished r c m)) r c m = .ok w' → P w'
  began : ∀ w r c R C w', P w → BeganAs env w r c R C w' → P w'
  assigned : ∀ w c C f, P w → w.ctxs c = some C →
    P ((w.setCtx c { C with features := f }).emit (.assigned c f))
  feature : ∀ w c C v, P w → w.ctxs c = some C →
    P ((w.setCtx c { C with features := C.features ++ [v] }).emit (.feature c v))
  traced : ∀ w R m f p w', P w → tracePolicy env w R m f p = .ok w' → P w' := by
    intro w R m f p w' hw h
    obtain ⟨F, rfl⟩ := tracePolicy_same h
    first
      | exact hw
      | exact { hw with }
      | exact ⟨{ hw.1 with }, hw.2⟩
      | exact ⟨hw.1, { hw.2 with }⟩
      | exact ⟨{ hw.1 with }, { hw.2 with }⟩
  chose : ∀ w r c R m C p m', P w → w.regions r = some R → w.models r = some m →
    w.ctxs c = some C → env.ops.getIndex m C.features = .ok (p, m') →
    P (((w.setModel r m').setCtx c { C with policy := p }).emit (.chose r c p))
  stop : ∀ w c C t, P w → w.ctxs c = some C → P (w.setCtx c { C with stop := some t })
  ended : ∀ w r c R, P w → w.regions r = some R → (w.ctxs c).isSome → c ≠ .sync r →
    P ((w.setRegion r { R with pending := R.pending ++ [c] }).emit (.ended r c))
  period : ∀ w, P w → P { w with cfg := { w.cfg with globalPeriod := 0 } }
  destroyed : ∀ w r R, P w → w.regions r = some R → R.pending = [] → P (afterDestroy env w r R)
  created : ∀ w nf name n mt info yaml r w', P w →
    createRegion env w nf name n mt info yaml = .ok (r, w') → P w'

section

variable {env : Env M} {r₀ : ℕ} {P : World M → Prop}

theorem Unasked.collectLoop (hP : Unasked env r₀ P) {r : ℕ} {cs kept : List CtxPtr} {w w' : World M}
    (hw : P w) (h : collectLoop env r cs w = .ok (kept, w')) : P w' := by
  induction cs generalizing w kept with
  | nil => simp only [Apollo.collectLoop] at h; cases h; exact hw
  | cons c cs ih =>
    simp only [Apollo.collectLoop] at h
    obtain ⟨⟨b, w₁⟩, h1, h⟩ := (Res.bind_eq_ok _ _ _).1 h
    obtain ⟨⟨k, w₂⟩, h2, h⟩ := (Res.bind_eq_ok _ _ _).1 h
    cases h
    refine ih ?_ h2
    rcases tryCollect_ok h1 with ⟨n, rfl, _, _, rfl⟩ | ⟨n, m, rfl, _, _, h⟩ | ⟨r', m, rfl, _, h⟩
    · exact hP.waiting _ _ (hP.advance _ hw)
    · exact hP.finish _ _ _ _ _ (hP.advance _ hw) h
    · exact hP.finish _ _ _ _ _ hw h

theorem Unasked.collect (hP : Unasked env r₀ P) {w w' : World M} {r : ℕ} (hw : P w)
    (h : collectPending env w r = .ok w') : P w' := by
  obtain ⟨R, kept, w₁, R₁, _, h1, hR₁, rfl⟩ := collectPending_ok h
  exact hP.pending _ _ _ _ (hP.collectLoop hw h1) hR₁

theorem Unasked.drain (hP : Unasked env r₀ P) {r fuel : ℕ} {w w' : World M} (hw : P w)
    (h : drain env r fuel w = .ok w') : P w' := by
  induction fuel generalizing w with
  | zero =>
    simp only [Apollo.drain] at h
    obtain ⟨R, _, h⟩ := (Res.bind_eq_ok _ _ _).1 h
    split at h
    · cases h; exact hw
    · cases h
  | succ n ih =>
    simp only [Apollo.drain] at h
    obtain ⟨R, _, h⟩ := (Res.bind_eq_ok _ _ _).1 h
    split at h
    · cases h; exact hw
    · obtain ⟨w₁, h1, h⟩ := (Res.bind_eq_ok _ _ _).1 h
      exact ih (hP.collect hw h1) h

theorem Unasked.endMetric (hP : Unasked env r₀ P) {w w' : World M} {r : ℕ} {c : CtxPtr} {m : ℚ}
    (hw : P w) (h : endMetric env w r c m = .ok w') : P w' := by
  obtain ⟨w₁, h1, h2⟩ := endMetric_ok h
  exact hP.collect (hP.finish _ _ _ _ _ hw h1) h2

theorem Unasked.endCtx (hP : Unasked env r₀ P) {w w' : World M} {r : ℕ} {c : CtxPtr}
    (hw : P w) (h : endCtx env w r c = .ok w') : P w' := by
  obtain ⟨R, C, hR, hC, h | h⟩ := endCtx_ok h
  · obtain ⟨m, rfl, _, h⟩ := h
    exact hP.finish _ _ _ _ _ (hP.advance _ (hP.stop _ _ _ _ hw hC)) h
  · obtain ⟨hne, h⟩ := h
    refine hP.collect ?_ h
    refine hP.ended _ _ _ _ (hP.advance _ (hP.stop _ _ _ _ hw hC)) ?_ ?_ hne
    · exact hR
    · simp [World.advance, World.setCtx]

theorem Unasked.getPolicyIndex (hP : Unasked env r₀ P) {w w' : World M} {r : ℕ} {c : CtxPtr}
    {p : ℤ} (hw : P w) (h : getPolicyIndex env w r c = .ok (p, w')) : P w' := by
  obtain ⟨R, m, C, m', w₀, h1, h2, h3, h4, h5, rfl⟩ := getPolicyIndex_trace h
  have hw₀ := hP.traced _ _ _ _ _ _ hw h5
  obtain ⟨F, rfl⟩ := tracePolicy_same h5
  exact hP.chose _ _ _ _ _ _ _ _ hw₀ h1 h2 h3 h4

theorem Unasked.setFeature (hP : Unasked env r₀ P) {w w' : World M} {c : CtxPtr} {v : ℚ}
    (hw : P w) (h : setFeature w c v = .ok w') : P w' := by
  obtain ⟨C, hC, rfl⟩ := setFeature_ok h
  exact hP.feature _ _ _ _ hw hC

/-- The call is no request to train region `r`. -/
def Op.unasked (r : ℕ) : Op → Bool
  | .train r' _ _ _ => r' != r
  | .trainAll _ _ => false
  | _ => true

theorem Unasked.step (hP : Unasked env r₀ P) {w w' : World M} {op : Op} {x : Ret}
    (ho : op.unasked r₀ = true) (hw : P w) (h : step env w op = .ok (x, w')) : P w' := by
  cases op with
  | create nf name n mt info yaml =>
    obtain ⟨⟨r, w₁⟩, h1, h⟩ := (Res.bind_eq_ok _ _ _).1 h
    cases h
    exact hP.created _ _ _ _ _ _ _ _ _ hw h1
  | destroy r fuel =>
    obtain ⟨w₁, h1, h⟩ := (Res.bind_eq_ok _ _ _).1 h
    cases h
    obtain ⟨w₂, R, h2, hR, hp, rfl⟩ := destroyRegion_ok h1
    exact hP.destroyed _ _ _ (hP.drain (hP.period _ hw) h2) hR hp
  | begin r kind =>
    obtain ⟨⟨c, w₁⟩, h1, h⟩ := (Res.bind_eq_ok _ _ _).1 h
    cases h
    obtain ⟨R, C, hb⟩ := begin_ok h1
    exact hP.began _ _ _ _ _ _ hw hb
  | beginWith r f =>
    obtain ⟨⟨c, w₁⟩, h1, h⟩ := (Res.bind_eq_ok _ _ _).1 h
    cases h
    obtain ⟨w₁, C₁, h2, hC₁, rfl⟩ := beginWith_ok h1
    obtain ⟨R, C, hb⟩ := begin_ok h2
    exact hP.assigned _ _ _ _ (hP.began _ _ _ _ _ _ hw hb) hC₁
  | setFeature r c v =>
    obtain ⟨w₁, h1, h⟩ := (Res.bind_eq_ok _ _ _).1 h
    cases h
    exact hP.setFeature hw h1
  | getPolicyIndex r c =>
    obtain ⟨⟨p, w₁⟩, h1, h⟩ := (Res.bind_eq_ok _ _ _).1 h
    cases h
    exact hP.getPolicyIndex hw h1
  | endMetric r c m =>
    obtain ⟨w₁, h1, h⟩ := (Res.bind_eq_ok _ _ _).1 h
    cases h
    exact hP.endMetric hw h1
  | endCtx r c =>
    obtain ⟨w₁, h1, h⟩ := (Res.bind_eq_ok _ _ _).1 h
    cases h
    exact hP.endCtx hw h1
  | setFeatureCur r v =>
    obtain ⟨c, _, h⟩ := (Res.bind_eq_ok _ _ _).1 h
    obtain ⟨w₁, h1, h⟩ := (Res.bind_eq_ok _ _ _).1 h
    cases h
    exact hP.setFeature hw h1
  | getPolicyIndexCur r =>
    obtain ⟨c, _, h⟩ := (Res.bind_eq_ok _ _ _).1 h
    obtain ⟨⟨p, w₁⟩, h1, h⟩ := (Res.bind_eq_ok _ _ _).1 h
    cases h
    exact hP.getPolicyIndex hw h1
  | endMetricCur r m =>
    obtain ⟨c, _, h⟩ := (Res.bind_eq_ok _ _ _).1 h
    obtain ⟨w₁, h1, h⟩ := (Res.bind_eq_ok _ _ _).1 h
    cases h
    exact hP.endMetric hw h1
  | endCur r =>
    obtain ⟨c, _, h⟩ := (Res.bind_eq_ok _ _ _).1 h
    obtain ⟨w₁, h1, h⟩ := (Res.bind_eq_ok _ _ _).1 h
    cases h
    exact hP.endCtx hw h1
  | collect r =>
    obtain ⟨w₁, h1, h⟩ := (Res.bind_eq_ok _ _ _).1 h
    cases h
    exact hP.collect hw h1
  | train r s c f =>
    obtain ⟨w₁, h1, h⟩ := (Res.bind_eq_ok _ _ _).1 h
    cases h
    have hr : r ≠ r₀ := by simpa [Op.unasked] using ho
    rcases regionTrain_ok h1 with ⟨rfl, _⟩ | ⟨_, w₁, h2, h3⟩
    · exact hw
    · refine hP.body w₁ r s _ hr ?_ h3
      rcases h2 with ⟨_, h2⟩ | ⟨_, rfl⟩
      · exact hP.collect hw h2
      · exact hw
  | trainAll s c => cases ho

theorem Unasked.exec (hP : Unasked env r₀ P) {ops : List Op} {w w' : World M}
    (ho : ∀ op ∈ ops, op.unasked r₀ = true) (hw : P w) (h : exec env ops w = .ok w') : P w' := by
  induction ops generalizing w with
  | nil => simp only [Apollo.exec] at h; cases h; exact hw
  | cons op ops ih =>
    simp only [Apollo.exec] at h
    obtain ⟨⟨x, w₁⟩, h1, h⟩ := (Res.bind_eq_ok _ _ _).1 h
    exact ih (fun op hm => ho op (List.mem_cons_of_mem _ hm))
      (hP.step (ho op List.mem_cons_self) hw h1) h

end

/-- Since the log was `h₀`, region `r` behaved like the machine. -/
structure SoloInv (env : Env M) (cfg : Cfg) (mt : ℤ) (r : ℕ) (h₀ : List Ev) (s₀ : Solo M)
    (w : World M) : Prop where
  log : LogInv w
  fresh : r < w.nextRegion
  same : w.cfg = cfg
  run : ∃ l, w.log = h₀ ++ l ∧ ∀ R, w.regions r = some R → R.minTraining = mt ∧
    (Orderly r l → ∃ s, Track (rules env cfg mt) r s₀ l s ∧ w.models r = some s.model ∧
      s.data = R.dataset)

section

variable {env : Env M} {cfg : Cfg} {mt : ℤ} {r : ℕ} {h₀ : List Ev} {s₀ : Solo M}

/-- Events `es` were added. -/
theorem SoloInv.extend {w w' : World M} (hw : SoloInv env cfg mt r h₀ s₀ w) (hl : LogInv w')
    (hn : w.nextRegion ≤ w'.nextRegion) (hc : w'.cfg = w.cfg) (es : List Ev)
    (he : w'.log = w.log ++ es)
    (hr : ∀ R', w'.regions r = some R' → ∃ R, w.regions r = some R ∧
      R'.minTraining = R.minTraining ∧ ∀ l s, w.log = h₀ ++ l → Orderly r (l ++ es) →
        R.minTraining = mt → Track (rules env cfg mt) r s₀ l s → w.models r = some s.model →
        s.data = R.dataset → ∃ s', Track (rules env cfg mt) r s₀ (l ++ es) s' ∧
          w'.models r = some s'.model ∧ s'.data = R'.dataset) :
    SoloInv env cfg mt r h₀ s₀ w' := by
  obtain ⟨l, h1, h2⟩ := hw.run
  refine ⟨hl, lt_of_lt_of_le hw.fresh hn, hc.trans hw.same, l ++ es, by rw [he, h1]; simp, ?_⟩
  intro R' hR'
  obtain ⟨R, hR, hm, hstep⟩ := hr R' hR'
  obtain ⟨h3, h4⟩ := h2 R hR
  refine ⟨hm.trans h3, fun ho => ?_⟩
  obtain ⟨s, ht, hs1, hs2⟩ := h4 (orderly_left ho)
  exact hstep l s h1 ho h3 ht hs1 hs2

/-- Events were added that are no inputs of the region, and nothing of the region changed. -/
theorem SoloInv.frame {w w' : World M} (hw : SoloInv env cfg mt r h₀ s₀ w) (hl : LogInv w')
    (hn : w.nextRegion ≤ w'.nextRegion) (hc : w'.cfg = w.cfg) (es : List Ev)
    (he : w'.log = w.log ++ es)
    (hr : ∀ R', w'.regions r = some R' → ∃ R, w.regions r = some R ∧
      R'.minTraining = R.minTraining ∧ R'.dataset = R.dataset ∧ w'.models r = w.models r)
    (ht : ∀ l s, w.log = h₀ ++ l → Orderly r (l ++ es) → Track (rules env cfg mt) r s₀ l s →
      ∃ s', Track (rules env cfg mt) r s₀ (l ++ es) s' ∧ s'.model = s.model ∧ s'.data = s.data) :
    SoloInv env cfg mt r h₀ s₀ w' := by
  refine hw.extend hl hn hc es he fun R' hR' => ?_
  obtain ⟨R, h1, h2, h3, h4⟩ := hr R' hR'
  refine ⟨R, h1, h2, fun l s hlog ho _ h5 h6 h7 => ?_⟩
  obtain ⟨s', h8, h9, h10⟩ := ht l s hlog ho h5
  exact ⟨s', h8, by rw [h4, h6, h9], by rw [h10, h7, h3]⟩

theorem update_solo {w w' : World M} {r r₁ : ℕ} {R R' : Region} (hR : w.regions r₁ = some R)
    (hw : w'.regions = Function.update w.regions r₁ (some R')) (hm : w'.models r = w.models r)
    (h1 : R'.minTraining = R.minTraining) (h2 : R'.dataset = R.dataset) :
    ∀ R₂, w'.regions r = some R₂ → ∃ R, w.regions r = some R ∧
      R₂.minTraining = R.minTraining ∧ R₂.dataset = R.dataset ∧ w'.models r = w.models r := by
  intro R₂ hR₂
  rw [hw] at hR₂
  by_cases he : r = r₁
  · subst he
    rw [Function.update_self] at hR₂
    cases hR₂
    exact ⟨R, hR, h1, h2, hm⟩
  · rw [Function.update_of_ne he] at hR₂
    exact ⟨R₂, hR₂, rfl, rfl, hm⟩

theorem keep_solo {w w' : World M} {r : ℕ} (hw : w'.regions = w.regions)
    (hm : w'.models r = w.models r) :
    ∀ R₂, w'.regions r = some R₂ → ∃ R, w.regions r = some R ∧
      R₂.minTraining = R.minTraining ∧ R₂.dataset = R.dataset ∧ w'.models r = w.models r := by
  intro R₂ hR₂
  exact ⟨R₂, by rw [← hw]; exact hR₂, rfl, rfl, hm⟩

theorem SoloInv.unasked (hg : cfg.globalPeriod = 0) (hb : (observe h₀).begins r = 0) :
    Unasked env r (SoloInv env cfg mt r h₀ s₀) where
  traced := by
    intro w R m f p w' hw h
    obtain ⟨F, rfl⟩ := tracePolicy_same h
    exact ⟨{ hw.log with }, hw.fresh, hw.same, hw.run⟩
  advance := fun w hw => hw.frame ((LogInv.stable env fun _ => True).advance _ hw.log) le_rfl rfl []
    (by simp [World.advance]) (keep_solo rfl rfl) (fun l s _ _ h => ⟨s, by simpa using h, rfl, rfl⟩)
  waiting := fun w c hw => hw.frame ((LogInv.stable env fun _ => True).waiting _ _ hw.log) le_rfl rfl
    [.waiting c] rfl (keep_solo rfl rfl) (fun l s _ _ h => ⟨s, h.waiting c, rfl, rfl⟩)
  pending := fun w r' R cs hw hR => hw.frame
    ((LogInv.stable env fun _ => True).pending _ _ _ _ hw.log hR) le_rfl rfl []
    (by simp [World.setRegion]) (update_solo hR rfl rfl rfl rfl)
    (fun l s _ _ h => ⟨s, by simpa using h, rfl, rfl⟩)
  body := by
    intro w r' s w' hr hw h
    obtain ⟨l, hl, -⟩ := trainBody_trained h
    refine hw.frame (hw.log.trained hl) hl.nextRegion.ge hl.cfg l hl.log
      (keep_solo hl.regions (hl.models r fun ds hd => hr (trainBody_alone h hl.log r ds hd).symm))
      (fun l' s _ _ h => ⟨s, h.trained_other hl.events, rfl, rfl⟩)
  finish := by
    intro w r' c x w' hw h
    obtain ⟨R, m, C, l, hc⟩ := collectContext_ok h
    have hlog := (LogInv.stable env fun _ => True).finish _ _ _ _ _ hw.log h
    have he : w'.log = w.log ++ (.finished r' c x :: l) := by
      rw [hc.log]; simp [World.emit]
    have hgw : w.cfg.globalPeriod = 0 := by rw [hw.same]; exact hg
    by_cases hr : r' = r
    · subst hr
      refine hw.extend hlog hc.nextRegion.ge hc.cfg _ he ?_
      intro R' hR'
      rw [hc.regions, Function.update_self] at hR'
      cases hR'
      refine ⟨R, hc.region, rfl, ?_⟩
      intro l' s hl' ho hmt ht hm hds
      have hm' : w.models r' = some m := hc.model
      rw [hm] at hm'
      cases hm'
      have hfit := orderly_last ho
      obtain ⟨h1, h2, h3⟩ := hfit rfl
      obtain ⟨p, hp⟩ := Option.isSome_iff_exists.1 h3
      obtain ⟨o1, o2, o3⟩ := observe_since h₀ l' c (by rw [h2]; simp)
      rw [← hl'] at o1 o2 o3
      have hopen : (observe w.log).isOpen c = true := by rw [o3]; exact h1
      have hfe : C.features = (observe l').features c := by
        rw [hw.log.feats c C hc.ctx hopen, o1]
      have hpo : C.policy = p := hw.log.pol c C hc.ctx hopen p (by rw [o2]; exact hp)
      have hidx : R.idx = ((s.begins : ℕ) : ℤ) := by
        rw [hw.log.idx r' R hc.region, hl', observe_begins, hb, Nat.zero_add, ht.ag.begins]
      have hdata : (recRegion env (w.emit (.finished r' c x)) R s.model C x).dataset =
          if (rules env cfg mt).persistent = true ∨ (rules env cfg mt).isTrainable s.model = true then
            s.data.insert ((observe l').features c) p x else s.data := by
        simp only [recRegion, learns, rules, hfe, hpo, hds, Bool.or_eq_true]
        simp only [World.emit, hw.same]
      have hrules : rules env (w.emit (.finished r' c x)).cfg R.minTraining = rules env cfg mt := by
        rw [hmt]; simp only [World.emit, hw.same]
      have hown := collectContext_own (by exact hgw) hidx h hc
      rw [hrules] at hown
      rcases hown with ⟨hd, hm2, rfl⟩ | ⟨hd, rfl, t, m', h4, h5⟩
      · obtain ⟨s', h6, h7, h8⟩ := ht.finished (ds := _) (m := s.model) hfit hp hdata (.inl ⟨hd, rfl⟩)
        exact ⟨s', h6, by rw [hm2, h7], h8⟩
      · obtain ⟨s', h6, h7, h8⟩ := ht.finished (ds := _) (m := m') hfit hp hdata
          (.inr ⟨hd, t, h4⟩)
        refine ⟨s', ?_, by rw [h5, h7], h8⟩
        rw [List.append_cons]
        exact h6.trained_other (by simp)
    · have ha := collectContext_apart (cs := [c]) (by simp) (by exact hgw) h
      refine hw.frame hlog hc.nextRegion.ge hc.cfg _ he ?_ ?_
      · intro R' hR'
        rw [ha.regions r (Ne.symm hr)] at hR'
        exact ⟨R', hR', rfl, rfl, ha.models r (Ne.symm hr)⟩
      · intro l' s _ _ ht
        refine ⟨s, ?_, rfl, rfl⟩
        rw [List.append_cons]
        exact (ht.finished_other hr c x).trained_other hc.events
  began := by
    intro w r' c R C w' hw h
    have hlog := (LogInv.invariant env fun _ => True).began _ _ _ _ _ _ hw.log h
    refine hw.frame hlog h.nextRegion.ge h.cfg _ h.log
      (update_solo h.region h.regions (by rw [h.models]) rfl rfl) ?_
    intro l s _ _ ht
    by_cases hr : r' = r
    · subst hr
      exact ⟨_, ht.began c, rfl, rfl⟩
    · exact ⟨_, ht.began_other hr c, rfl, rfl⟩
  assigned := fun w c C f hw hC => hw.frame
    ((LogInv.invariant env fun _ => True).assigned _ _ _ _ hw.log hC) le_rfl rfl [.assigned c f] rfl
    (keep_solo rfl rfl) (fun l s _ _ h => h.assigned c f)
  feature := fun w c C v hw hC => hw.frame
    ((LogInv.invariant env fun _ => True).feature _ _ _ _ hw.log hC) le_rfl rfl [.feature c v] rfl
    (keep_solo rfl rfl) (fun l s _ _ h => h.feature c v)
  chose := by
    intro w r' c R m C p m' hw hR hm hC hp
    have hlog := (LogInv.invariant env fun _ => True).chose _ _ _ _ _ _ _ _ hw.log hR hm hC hp
    by_cases hr : r' = r
    · subst hr
      refine hw.extend hlog le_rfl rfl [.chose r' c p] rfl ?_
      intro R' hR'
      refine ⟨R', hR', rfl, ?_⟩
      intro l s hl ho hmt ht hm2 hds
      have hfit := orderly_last ho
      have h2 := hfit.2.2 rfl
      obtain ⟨o1, o2, o3⟩ := observe_since h₀ l c (by rw [h2]; simp)
      rw [← hl] at o1 o2 o3
      have hfe : C.features = (observe l).features c := by
        rw [hw.log.feats c C hC (by rw [o3]; exact hfit.1 rfl), o1]
      rw [hm] at hm2
      cases hm2
      rw [hfe] at hp
      obtain ⟨s', h3, h4, h5⟩ := ht.chose hfit hp
      refine ⟨s', h3, ?_, by rw [h5, hds]⟩
      rw [h4]
      simp [World.emit, World.setCtx, World.setModel]
    · refine hw.frame hlog le_rfl rfl [.chose r' c p] rfl (keep_solo rfl ?_) ?_
      · simp [World.emit, World.setCtx, World.setModel, Ne.symm hr]
      · intro l s _ ho ht
        exact ⟨s, ht.chose_other hr (orderly_last ho), rfl, rfl⟩
  stop := fun w c C t hw hC => hw.frame
    ((LogInv.invariant env fun _ => True).stop _ _ _ _ hw.log hC) le_rfl rfl []
    (by simp [World.setCtx]) (keep_solo rfl rfl) (fun l s _ _ h => ⟨s, by simpa using h, rfl, rfl⟩)
  ended := fun w r' c R hw hR hc hne => hw.frame
    ((LogInv.invariant env fun _ => True).ended _ _ _ _ hw.log hR hc hne) le_rfl rfl
    [.ended r' c] rfl (update_solo hR rfl rfl rfl rfl)
    (fun l s _ _ h => ⟨s, h.ended r' c, rfl, rfl⟩)
  period := by
    intro w hw
    have hc : ({ w with cfg := { w.cfg with globalPeriod := 0 } } : World M) = w := by
      have : ({ w.cfg with globalPeriod := 0 } : Cfg) = w.cfg := by
        rw [hw.same, ← hg]
      rw [this]
    rw [hc]
    exact hw
  destroyed := by
    intro w r' R hw hR hp
    have hlog := (LogInv.invariant env fun _ => True).destroyed _ _ _ hw.log hR hp
    obtain ⟨f1, f2, f3, f4, f5, f6, f7, f8, f9⟩ := afterDestroy_frame env w r' R
    refine hw.frame hlog f5.ge f8 _ f4 ?_ (fun l s _ _ h => ⟨s, h.destroyed r', rfl, rfl⟩)
    intro R' hR'
    have hne : r ≠ r' := by
      rintro rfl
      rw [f1, Function.update_self] at hR'
      cases hR'
    rw [f1, Function.update_of_ne hne] at hR'
    exact ⟨R', hR', rfl, rfl, by rw [f2, Function.update_of_ne hne]⟩
  created := by
    intro w nf name n mt' info yaml r' w' hw h
    have hlog := (LogInv.invariant env fun _ => True).created _ _ _ _ _ _ _ _ _ hw.log h
    obtain ⟨R, m, l, hc⟩ := createRegion_ok h
    have hne : r ≠ r' := by
      have := hw.fresh
      have := hc.id
      omega
    refine hw.frame hlog (by rw [hc.nextRegion, hc.id]; omega) hc.cfg _
      (by rw [hc.log, List.append_assoc]) ?_ ?_
    · intro R' hR'
      rw [hc.regions, Function.update_of_ne hne] at hR'
      refine ⟨R', hR', rfl, rfl, hc.models r hne fun ds hd => hne ?_⟩
      exact hc.alone (by rw [hw.same]; exact hg) r ds hd
    · intro l' s _ _ ht
      refine ⟨s, ?_, rfl, rfl⟩
      rw [← List.append_assoc]
      exact (ht.trained_other hc.events).created _ _ _

end

/-! ## The machine is deterministic -/

theorem Rules.Step.functional {ρ : Rules M} (hdet : ∀ t t' ds m, ρ.train t ds m = ρ.train t' ds m)
    {s s₁ s₂ : Solo M} {i : Input} {p₁ p₂ : Option ℤ} (h₁ : ρ.Step s i p₁ s₁)
    (h₂ : ρ.Step s i p₂ s₂) : p₁ = p₂ ∧ s₁ = s₂ := by
  cases h₁ with
  | begin => cases h₂; exact ⟨rfl, rfl⟩
  | assign => cases h₂; exact ⟨rfl, rfl⟩
  | feature => cases h₂; exact ⟨rfl, rfl⟩
  | ask i p m h =>
    cases h₂ with
    | ask i p' m' h' =>
      rw [h] at h'
      cases h'
      exact ⟨rfl, rfl⟩
  | finish i x p hp hd =>
    cases h₂ with
    | finish i x p' hp' hd' =>
      rw [hp] at hp'
      cases hp'
      exact ⟨rfl, rfl⟩
    | finishTrain i x p' t m hp' hd' =>
      rw [hp] at hp'
      cases hp'
      exact absurd hd' hd
  | finishTrain i x p t m hp hd ht =>
    cases h₂ with
    | finish i x p' hp' hd' =>
      rw [hp] at hp'
      cases hp'
      exact absurd hd hd'
    | finishTrain i x p' t' m' hp' hd' ht' =>
      rw [hp] at hp'
      cases hp'
      rw [hdet t' t, ht] at ht'
      cases ht'
      exact ⟨rfl, rfl⟩

theorem Rules.Plays.functional {ρ : Rules M} (hdet : ∀ t t' ds m, ρ.train t ds m = ρ.train t' ds m)
    {s₀ s₁ s₂ : Solo M} {is : List Input} {ps₁ ps₂ : List ℤ} (h₁ : ρ.Plays s₀ is ps₁ s₁)
    (h₂ : ρ.Plays s₀ is ps₂ s₂) : ps₁ = ps₂ ∧ s₁ = s₂ := by
  induction h₁ generalizing ps₂ s₂ with
  | start =>
    generalize hi : ([] : List Input) = is at h₂
    cases h₂ with
    | start => exact ⟨rfl, rfl⟩
    | step _ _ => simp at hi
  | @step is ps s s' i p _ hs ih =>
    generalize hi : is ++ [i] = is' at h₂
    cases h₂ with
    | start => simp at hi
    | @step is₂ ps₂ s₂ s₂' i₂ p₂ h3 h4 =>
      obtain ⟨rfl, hi'⟩ := List.append_inj' hi rfl
      cases hi'
      obtain ⟨rfl, rfl⟩ := ih h3
      obtain ⟨rfl, rfl⟩ := Rules.Step.functional hdet hs h4
      exact ⟨rfl, rfl⟩

/-- Without a global period the settings never change. -/
theorem cfg_same {env : Env M} {cfg : Cfg} (hg : cfg.globalPeriod = 0) :
    Invariant env (fun _ => True) (fun w : World M => w.cfg = cfg) where
  toKept := (Stable.of (fun _ _ _ h hw => h.cfg.trans hw) (fun _ _ hw => hw)
    (fun w r c m w' hw h => by obtain ⟨R, m', C, l, h1⟩ := collectContext_ok h; exact h1.cfg.trans hw)
    (fun _ _ _ _ hw _ => hw)).kept
  finish := fun w r c m w' hw h => by
    obtain ⟨R, m', C, l, h1⟩ := collectContext_ok h; exact h1.cfg.trans hw
  created := by
    intro w nf name n mt info yaml r w' hw h
    obtain ⟨R, m, l, h1⟩ := createRegion_ok h
    exact h1.cfg.trans hw
  began := fun w r c R C w' hw h => h.cfg.trans hw
  assigned := fun w c C f hw _ => hw
  feature := fun w c C v hw _ => hw
  chose := fun w r c R m C p m' hw _ _ _ _ => hw
  stop := fun w c C t hw _ => hw
  ended := fun w r c R hw _ _ _ => hw
  period := by
    rintro w rfl
    show ({ w.cfg with globalPeriod := 0 } : Cfg) = w.cfg
    rw [← hg]
  destroyed := by
    intro w r R hw _ _
    obtain ⟨f1, f2, f3, f4, f5, f6, f7, f8, f9⟩ := afterDestroy_frame env w r R
    exact f8.trans hw

end Apollo
