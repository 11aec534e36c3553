import Verif.Proofs.RegionSolo
import Verif.Props.Region

/-!
# Property C69: regions do not influence each other

The specification is `Spec.Rules.Plays`, a machine that knows a single region: its model, its data and
the features and policies of its executions.  `Spec.inputs` and `Spec.answers` read from a log what
was asked of a region and what it answered; executions are named by the order in which they began, so
that neither numbers of regions nor contexts matter.
-/

namespace Apollo.Props

open Apollo Apollo.Spec

variable {M : Type}

/-- Region `r` was just created in an execution with settings `cfg`; the world is `w`. -/
def JustCreated (env : Env M) (cfg : Cfg) (mt : ℤ) (r : ℕ) (w : World M) : Prop :=
  ∃ files ops w₀ nf name n info yaml, exec env ops (initWorld cfg files) = .ok w₀ ∧
    createRegion env w₀ nf name n mt info yaml = .ok (r, w)

/-- The state of a machine that has not seen anything. -/
def Solo.fresh (m : M) (ds : Dataset) : Solo M := { model := m, data := ds }

/-- C69: without a global training period, from its creation on a region behaves exactly like a machine
that knows nothing but its own model, data and executions, whatever the program does with other
regions: creating, using, training and destroying them.  The answers of the region are those of the
machine, and so are its model and its dataset. -/
theorem C69_machine (env : Env M) (cfg : Cfg) (hg : cfg.globalPeriod = 0) (mt : ℤ) (r : ℕ)
    (w w' : World M) (ops : List Op) (R R' : Region) (m : M) (l : List Ev)
    (hc : JustCreated env cfg mt r w) (hR : w.regions r = some R) (hm : w.models r = some m)
    (h : exec env ops w = .ok w') (ho : ∀ op ∈ ops, op.unasked r = true)
    (hR' : w'.regions r = some R') (hl : w'.log = w.log ++ l) (hord : Orderly r l) :
    ∃ s, (rules env cfg mt).Plays (Solo.fresh m R.dataset) (inputs r l) (answers r l) s ∧
      w'.models r = some s.model ∧ R'.dataset = s.data := by
  obtain ⟨files, ops₀, w₀, nf, name, n, info, yaml, h0, h1⟩ := hc
  have hlog₀ : LogInv w₀ := reachable_log h0
  have hcfg₀ : w₀.cfg = cfg := (cfg_same hg).exec (fun _ _ _ _ => trivial) rfl h0
  obtain ⟨R₁, m₁, l₁, hcr⟩ := createRegion_ok h1
  have hlog : LogInv w := hlog₀.created hcr
  have hcfg : w.cfg = cfg := hcr.cfg.trans hcfg₀
  have hR₁ : w.regions r = some R₁ := by rw [hcr.regions, Function.update_self]
  rw [hR] at hR₁
  cases hR₁
  have hb : (observe w.log).begins r = 0 := by
    have := hlog.idx r R hR
    rw [hcr.idx] at this
    exact_mod_cast this.symm
  have hinv : SoloInv env cfg mt r w.log (Solo.fresh m R.dataset) w := by
    refine ⟨hlog, by rw [hcr.nextRegion]; omega, hcfg, [], by simp, ?_⟩
    intro R₂ hR₂
    rw [hR] at hR₂
    cases hR₂
    exact ⟨hcr.minTraining, fun _ => ⟨_, Track.start _ _ _ _, hm, rfl⟩⟩
  obtain ⟨-, -, -, l', h2, h3⟩ := (SoloInv.unasked hg hb).exec ho hinv h
  rw [hl, List.append_cancel_left_eq] at h2
  subst h2
  obtain ⟨-, h4⟩ := h3 R' hR'
  obtain ⟨s, h5, h6, h7⟩ := h4 hord
  exact ⟨s, h5.plays, h6, h7.symm⟩

/-- C69: two programs, each with a region.  The regions start with the same model and data, the settings
that concern them are the same, and the same is asked of them, in the same order, with the same
features and measurements.  Everything else may differ: the other regions, the numbers of regions and
contexts, the files and the clocks.  If training is deterministic, the regions give the same answers,
and have the same models and data in the end. -/
theorem C69_independent (env₁ env₂ : Env M) (hops : env₁.ops = env₂.ops)
    (hdet : ∀ t t' ds m, env₁.ops.train t ds m = env₁.ops.train t' ds m)
    (cfg₁ cfg₂ : Cfg) (hg₁ : cfg₁.globalPeriod = 0) (hg₂ : cfg₂.globalPeriod = 0)
    (hper : cfg₁.persistent = cfg₂.persistent) (hpp : cfg₁.perRegionPeriod = cfg₂.perRegionPeriod)
    (mt : ℤ) (r₁ r₂ : ℕ) (w₁ w₁' w₂ w₂' : World M) (ops₁ ops₂ : List Op) (R₁ R₁' R₂ R₂' : Region)
    (m : M) (l₁ l₂ : List Ev)
    (hc₁ : JustCreated env₁ cfg₁ mt r₁ w₁) (hc₂ : JustCreated env₂ cfg₂ mt r₂ w₂)
    (hR₁ : w₁.regions r₁ = some R₁) (hR₂ : w₂.regions r₂ = some R₂)
    (hm₁ : w₁.models r₁ = some m) (hm₂ : w₂.models r₂ = some m) (hds : R₁.dataset = R₂.dataset)
    (h₁ : exec env₁ ops₁ w₁ = .ok w₁') (h₂ : exec env₂ ops₂ w₂ = .ok w₂')
    (ho₁ : ∀ op ∈ ops₁, op.unasked r₁ = true) (ho₂ : ∀ op ∈ ops₂, op.unasked r₂ = true)
    (hR₁' : w₁'.regions r₁ = some R₁') (hR₂' : w₂'.regions r₂ = some R₂')
    (hl₁ : w₁'.log = w₁.log ++ l₁) (hl₂ : w₂'.log = w₂.log ++ l₂)
    (hord₁ : Orderly r₁ l₁) (hord₂ : Orderly r₂ l₂) (hin : inputs r₁ l₁ = inputs r₂ l₂) :
    answers r₁ l₁ = answers r₂ l₂ ∧ w₁'.models r₁ = w₂'.models r₂ ∧ R₁'.dataset = R₂'.dataset := by
  obtain ⟨s₁, a1, a2, a3⟩ := C69_machine env₁ cfg₁ hg₁ mt r₁ w₁ w₁' ops₁ R₁ R₁' m l₁ hc₁ hR₁ hm₁ h₁
    ho₁ hR₁' hl₁ hord₁
  obtain ⟨s₂, b1, b2, b3⟩ := C69_machine env₂ cfg₂ hg₂ mt r₂ w₂ w₂' ops₂ R₂ R₂' m l₂ hc₂ hR₂ hm₂ h₂
    ho₂ hR₂' hl₂ hord₂
  have hr : rules env₁ cfg₁ mt = rules env₂ cfg₂ mt := by simp only [rules, hops, hper, hpp]
  rw [← hr, ← hin, ← hds] at b1
  obtain ⟨h3, rfl⟩ := Rules.Plays.functional hdet a1 b1
  exact ⟨h3, by rw [a2, b2], by rw [a3, b3]⟩

/-! ## Concrete programs -/

/-- Two executions of region `r` with feature 3, then a third one begins and asks. -/
def soloRuns (r : ℕ) : List (List Op) :=
  [demoRun r 3 5, demoRun r 3 1, [.begin r .sync, .setFeature r (.sync r) 3, .getPolicyIndex r (.sync r)]]

/-- The executions of region `r` alone. -/
def soloAlone (r : ℕ) : List Op := (soloRuns r).flatten

/-- The same executions, and between them another region is created, used, trained and destroyed. -/
def soloBusy (r r' : ℕ) : List Op :=
  [demoCreate "b"] ++ demoRun r' 3 1 ++ demoRun r 3 5 ++ demoRun r' 8 7 ++ [.train r' 0 true false] ++
    demoRun r 3 1 ++ [.begin r .sync, .destroy r' 5, .setFeature r (.sync r) 3,
      .getPolicyIndex r (.sync r)]

/-- Region "a" is created after `before`, then `ops` run; what happened to the region. -/
def soloTry (cfg : Cfg) (before ops : List Op) : Option (ℕ × List Input × List ℤ × Bool) :=
  match exec demoEnv before (initWorld cfg fun _ => none) with
  | .ok w₀ =>
    match createRegion demoEnv w₀ 1 "a".toList 2 0 "DecisionTree,explore=RoundRobin".toList [] with
    | .ok (r, w) =>
      match exec demoEnv ops w with
      | .ok w' =>
        let l := w'.log.drop w.log.length
        some (r, inputs r l, answers r l, decide (w'.log = w.log ++ l ∧ Orderly r l ∧
          (w'.regions r).isSome ∧ ∀ op ∈ ops, op.unasked r = true))
      | .error _ => none
    | .error _ => none
  | .error _ => none

/-- What is asked of the region in both programs. -/
def soloInputs : List Input :=
  [.begin, .feature 0 3, .ask 0, .finish 0 5, .begin, .feature 1 3, .ask 1, .finish 1 1,
    .begin, .feature 2 3, .ask 2]

/-- Both programs meet the hypotheses; the region is trained after its second execution, and then
answers with the better policy. -/
example :
    soloTry { perRegionPeriod := 2 } [] (soloAlone 0) = some (0, soloInputs, [0, 1, 1], true) ∧
    soloTry { perRegionPeriod := 2 } [] (soloBusy 0 1) = some (0, soloInputs, [0, 1, 1], true) ∧
    soloTry { perRegionPeriod := 2 } [demoCreate "x"] (soloBusy 1 2) =
      some (1, soloInputs, [0, 1, 1], true) := by
  refine ⟨?_, ?_, ?_⟩ <;> decide +kernel

/-- Training in the model environment of the examples is deterministic. -/
example : ∀ t t' ds m, demoEnv.ops.train t ds m = demoEnv.ops.train t' ds m := fun _ _ _ _ => rfl

/-- C69 needs the hypothesis on the global period: with one, executions of another region decide when
the region is trained, and so what it answers. -/
theorem C69_global :
    soloTry { globalPeriod := 4 } [] (soloAlone 0) = some (0, soloInputs, [0, 1, 0], true) ∧
    soloTry { globalPeriod := 4 } [] ([demoCreate "b"] ++ demoRun 1 3 1 ++ demoRun 0 3 5 ++
      demoRun 0 3 1 ++ demoRun 1 3 1 ++
      [.begin 0 .sync, .setFeature 0 (.sync 0) 3, .getPolicyIndex 0 (.sync 0)]) =
      some (0, soloInputs, [0, 1, 1], true) := by
  refine ⟨?_, ?_⟩ <;> decide +kernel

end Apollo.Props
