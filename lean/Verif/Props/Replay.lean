import Verif.Proofs.Replay
import Verif.Props.RegionSolo

/-!
# C113: regions follow their events
-/

namespace Apollo.Props

open Apollo.Spec

variable {M : Type}

/-- C113: after any calls since it was created, what a region holds, its model and its measurements, follows from
its own events alone, read one after the other: the answers it gave, the measurements of its executions and the
trainings of its model, whoever asked for them.  Regions that were destroyed have followed their events, too. -/
theorem C113_story (env : Env M) (cfg : Cfg) (mt : ℤ) (r : ℕ) (w w' : World M) (ops : List Op) (R : Region) (m : M)
    (l : List Ev) (hc : JustCreated env cfg mt r w) (hR : w.regions r = some R) (hm : w.models r = some m)
    (h : exec env ops w = .ok w') (hl : w'.log = w.log ++ l) :
    ∃ s, Replay (rules env cfg mt) cfg.single r w.log ⟨m, R.dataset⟩ l s ∧
      (∀ m', w'.models r = some m' → m' = s.model) ∧ ∀ R', w'.regions r = some R' → R'.dataset = s.data := by
  obtain ⟨files, ops₀, w₀, nf, name, n, info, yaml, h0, h1⟩ := hc
  have hlog₀ : LogInv w₀ := reachable_log h0
  obtain ⟨G, hcfg₀⟩ : CfgIs cfg w₀ :=
    (CfgIs.invariant env (fun _ => True) cfg).exec (fun _ _ _ _ => trivial) ⟨cfg.globalPeriod, rfl⟩ h0
  obtain ⟨R₁, m₁, l₁, hcr⟩ := createRegion_ok h1
  have hcfg : w.cfg = { cfg with globalPeriod := G } := hcr.cfg.trans hcfg₀
  have hF : Follow env cfg mt r w.log ⟨m, R.dataset⟩ w := by
    refine ⟨by rw [hcr.nextRegion]; exact Nat.lt_succ_self r, by rw [hcfg], by rw [hcfg], [], _, by simp, .start, ?_, ?_⟩
    · intro m' h'
      rw [hm] at h'
      cases h'
      rfl
    · intro R' h'
      rw [hR] at h'
      cases h'
      rfl
  obtain ⟨-, h2⟩ := (Follow.invariant env fun _ => True).exec (fun _ _ _ _ => trivial) ⟨hlog₀.created hcr, hF⟩ h
  obtain ⟨l', s, h3, h4⟩ := h2.story
  rw [h3, List.append_cancel_left_eq] at hl
  subst hl
  exact ⟨s, h4⟩

/-- C113: every policy a region ever handed out is the answer of the model that follows from its events before, to
the features of the execution. -/
theorem C113_policy (env : Env M) (cfg : Cfg) (mt : ℤ) (r : ℕ) (w w' : World M) (ops : List Op) (R : Region) (m : M)
    (pre post : List Ev) (c : CtxPtr) (p : ℤ) (hc : JustCreated env cfg mt r w) (hR : w.regions r = some R)
    (hm : w.models r = some m) (h : exec env ops w = .ok w') (hl : w'.log = w.log ++ (pre ++ .chose r c p :: post))
    (ho : (observe (w.log ++ pre)).isOpen c = true) :
    ∃ s m', Replay (rules env cfg mt) cfg.single r w.log ⟨m, R.dataset⟩ pre s ∧
      env.ops.getIndex s.model ((observe (w.log ++ pre)).features c) = .ok (p, m') := by
  obtain ⟨s, h1, -⟩ := C113_story env cfg mt r w w' ops R m _ hc hR hm h hl
  rw [show pre ++ Ev.chose r c p :: post = (pre ++ [.chose r c p]) ++ post by simp] at h1
  obtain ⟨s₁, h2⟩ := h1.take
  obtain ⟨s₂, h3, h4⟩ := h2.snoc
  cases h4 with
  | chose _ _ f m' h5 h6 => exact ⟨s₂, m', h3, by rw [← h5 ho]; exact h6⟩
  | other _ h5 => exact absurd rfl (h5 c p)

/-- C113: every training of a region in region model mode, whoever asked for it, is on the measurements that follow
from its events before. -/
theorem C113_training (env : Env M) (cfg : Cfg) (hs : cfg.single = false) (mt : ℤ) (r : ℕ) (w w' : World M)
    (ops : List Op) (R : Region) (m : M) (pre post : List Ev) (ds : Dataset) (hc : JustCreated env cfg mt r w)
    (hR : w.regions r = some R) (hm : w.models r = some m) (h : exec env ops w = .ok w')
    (hl : w'.log = w.log ++ (pre ++ .trained r ds :: post)) :
    ∃ s t m', Replay (rules env cfg mt) cfg.single r w.log ⟨m, R.dataset⟩ pre s ∧ ds = s.data ∧
      env.ops.train t ds s.model = .ok m' := by
  obtain ⟨s, h1, -⟩ := C113_story env cfg mt r w w' ops R m _ hc hR hm h hl
  rw [show pre ++ Ev.trained r ds :: post = (pre ++ [.trained r ds]) ++ post by simp] at h1
  obtain ⟨s₁, h2⟩ := h1.take
  obtain ⟨s₂, h3, h4⟩ := h2.snoc
  cases h4 with
  | trained _ t m' h5 h6 => exact ⟨s₂, t, m', h3, h5 hs, h6⟩
  | other _ _ h5 => exact absurd rfl (h5 ds)

/-- C113: if training depends on nothing but the data and the model, then what the region holds follows from its events
in one way only. -/
theorem C113_one_way (ρ : Rules M) (hdet : ∀ t t' ds m, ρ.train t ds m = ρ.train t' ds m) (single : Bool) (r : ℕ)
    (h l : List Ev) (s₀ s s' : HeldState M) (h1 : Replay ρ single r h s₀ l s) (h2 : Replay ρ single r h s₀ l s')
    (ho : ∀ pre e post, l = pre ++ e :: post → (observe (h ++ pre)).fits r e) : s = s' := by
  induction h1 generalizing s' with
  | start =>
    generalize hk : ([] : List Ev) = k at h2
    cases h2 with
    | start => rfl
    | event => simp at hk
  | @event l s s₁ e h3 h4 ih =>
    obtain ⟨s₂, h5, h6⟩ := h2.snoc
    obtain rfl := ih s₂ h5 fun pre e' post he => ho pre e' (post ++ [e]) (by rw [he]; simp)
    have hfit := ho l e [] rfl
    cases h4 with
    | chose c p f m a1 a2 =>
      cases h6 with
      | chose _ _ f' m' b1 b2 =>
        have := hfit.1 rfl
        rw [a1 this] at a2
        rw [b1 this, a2] at b2
        cases b2
        rfl
      | other _ b1 => exact absurd rfl (b1 c p)
    | trained ds t m a1 a2 =>
      cases h6 with
      | trained _ t' m' b1 b2 =>
        rw [hdet t' t, a2] at b2
        cases b2
        rfl
      | other _ _ b1 => exact absurd rfl (b1 ds)
    | finished c x f p a1 a2 ds a3 =>
      cases h6 with
      | finished _ _ f' p' b1 b2 ds' b3 =>
        obtain ⟨c1, -, c2⟩ := hfit rfl
        obtain ⟨q, hq⟩ := Option.isSome_iff_exists.1 c2
        rw [a1 c1, a2 c1 q hq] at a3
        rw [b1 c1, b2 c1 q hq] at b3
        rw [a3, b3]
      | other _ _ _ b1 => exact absurd rfl (b1 c x)
    | other _ a1 a2 a3 =>
      cases h6 with
      | chose c p => exact absurd rfl (a1 c p)
      | trained ds => exact absurd rfl (a2 ds)
      | finished c x => exact absurd rfl (a3 c x)
      | other => rfl

/-! ## Examples -/

/-- Region "a" is created after `before`, then `ops` run; whether `check` holds of the worlds before and after. -/
def storyTry (cfg : Cfg) (before ops : List Op) (check : World PolicyModel → World PolicyModel → Bool) : Bool :=
  match exec demoEnv before (initWorld cfg fun _ => none) with
  | .ok w₀ =>
    match createRegion demoEnv w₀ 1 "a".toList 2 0 "DecisionTree,explore=RoundRobin".toList [] with
    | .ok (r, w) =>
      match exec demoEnv ops w with
      | .ok w' => decide (r = 0) && decide (w'.log.take w.log.length = w.log) && check w w'
      | .error _ => false
    | .error _ => false
  | .error _ => false

theorem storyTry_ok {cfg : Cfg} {before ops : List Op} {check : World PolicyModel → World PolicyModel → Bool}
    (h : storyTry cfg before ops check = true) :
    ∃ w w' R m, JustCreated demoEnv cfg 0 0 w ∧ w.regions 0 = some R ∧ w.models 0 = some m ∧
      exec demoEnv ops w = .ok w' ∧ w'.log = w.log ++ w'.log.drop w.log.length ∧ check w w' = true := by
  unfold storyTry at h
  split at h
  next w₀ h0 =>
    split at h
    next r w h1 =>
      split at h
      next w' h2 =>
        simp only [Bool.and_eq_true, decide_eq_true_eq] at h
        obtain ⟨⟨rfl, h3⟩, h4⟩ := h
        obtain ⟨R, m, l, hc⟩ := createRegion_ok h1
        refine ⟨w, w', R, m, ⟨_, _, w₀, _, _, _, _, _, h0, h1⟩, by rw [hc.regions, Function.update_self], hc.model, h2, ?_, h4⟩
        conv_lhs => rw [← List.take_append_drop w.log.length w'.log, h3]
      next => cases h
    next => cases h
  next => cases h

/-- Region 1 is created and used as well; all models are trained after every fourth execution, and region 0 once more
by force. -/
def storyOps : List Op :=
  [demoCreate "b"] ++ demoRun 1 3 1 ++ demoRun 0 3 5 ++ demoRun 0 3 1 ++ demoRun 1 3 1 ++
    [.train 0 0 true true, .begin 0 .sync, .setFeature 0 (.sync 0) 3, .getPolicyIndex 0 (.sync 0), .destroy 0 5]

/-- The hypotheses of `C113_story` hold for a region that answers three times, is trained twice with its two
measurements and is destroyed. -/
example : ∃ w w' R m, JustCreated demoEnv { globalPeriod := 4 } 0 0 w ∧ w.regions 0 = some R ∧ w.models 0 = some m ∧
    exec demoEnv storyOps w = .ok w' ∧ w'.log = w.log ++ w'.log.drop w.log.length ∧
    decide (answers 0 (w'.log.drop w.log.length) = [0, 1, 1] ∧
      ((w'.log.drop w.log.length).filterMap fun e => match e with
        | .trained r ds => some (r, ds.map Prod.snd) | _ => none) = [(0, [5, 1]), (1, [1, 1]), (0, [5, 1])]) = true :=
  storyTry_ok (before := []) (by decide +kernel)

/-- Training in the model environment of the examples depends on the data and the model only. -/
example (cfg : Cfg) (mt : ℤ) : ∀ t t' ds m, (rules demoEnv cfg mt).train t ds m = (rules demoEnv cfg mt).train t' ds m :=
  fun _ _ _ _ => rfl

end Apollo.Props
