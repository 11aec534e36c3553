import Verif.Proofs.RegionNet
import Verif.Props.RegionRange
import Verif.Props.RegionFiles
import Verif.Props.PolicyNetCache
import Verif.Props.Trace

/-!
# Properties C16, C33, C35 and C45 for regions with any policy model, PolicyNet included

The arithmetic of `double` is arbitrary (`Arith α`).  `d` is what the generators of the networks draw.
-/

namespace Apollo.Props

open Apollo Apollo.Spec Apollo.Arith

variable {α : Type} [Arith α] [Stored α] {gen : ℕ → ℕ → ℕ} {tenv : ℕ → TrainEnv} {d : NetDraws α}

/-! ## C16 -/

/-- C16: at any point of any execution, a region with one of the models Static, RoundRobin, Random,
RandomForest or PolicyNet answers with one of its policies, whatever data it was trained with and
whatever files were loaded.  The generators deliver numbers that are not above 1. -/
theorem C16_any_models (env : Env (AnyModel α)) (he : env.ops = netOps gen tenv d)
    (hd : ∀ t k, lt (ofRat 1) (d.gen t k) = false) (cfg : Cfg)
    (files : Str → Option Str) (ops : List Op) (w : World (AnyModel α))
    (h : exec env ops (initWorld cfg files) = .ok w) (r : ℕ) (R : Region)
    (hR : w.regions r = some R)
    (hk : R.modelName ∈ ["Static".toList, "RoundRobin".toList, "Random".toList,
      "RandomForest".toList, "PolicyNet".toList]) (hn : 1 ≤ R.numPolicies) (c : CtxPtr) (p : ℤ)
    (w' : World (AnyModel α)) (hp : getPolicyIndex env w r c = .ok (p, w')) :
    0 ≤ p ∧ p < R.numPolicies := by
  have hg := (ranged_robust gen tenv).withNet (d := d)
    (K' := fun k => (k.modelName ∈ robustKinds ∨ k.modelName = "PolicyNet".toList) ∧ 1 ≤ k.n)
    (fun k hk => ⟨hk.2, hk.1.imp (fun h => ⟨h, hk.2⟩) id⟩) hd
  rw [← he] at hg
  have hw := (ModelInv.stepwise hg fun _ => True).exec (fun _ _ _ _ => trivial) (by
    intro nf name n mt info yaml _ w r w' hw hc
    obtain ⟨R, m, l, h1⟩ := createRegion_ok hc
    exact hw.created hg (fun _ => trivial) h1) (modelInv_init cfg files) h
  obtain ⟨R', m, C, m', F, h1, h2, -, h4, -⟩ := getPolicyIndex_ok hp
  rw [hR] at h1
  cases h1
  have hk' : R.modelName ∈ robustKinds ∨ R.modelName = "PolicyNet".toList := by
    unfold robustKinds
    simp only [List.mem_cons, List.not_mem_nil, or_false] at hk ⊢
    tauto
  exact (hg.index R.kind m _ _ _ ⟨hk', hn⟩ (hw r R m hR h2 ⟨hk', hn⟩ fun _ _ => trivial) h4).1

theorem ranged_any (hd : ∀ t k, lt (ofRat 1) (d.gen t k) = false) :
    Ranged (netOps gen tenv d) False
      (fun k => (k.params.find "load".toList = none ∧ k.modelName ≠ "Optimal".toList) ∧ 1 ≤ k.n)
      (fun k => DataIn k.n) (WithNet (fun k => (k.params.find "load".toList = none ∧
        k.modelName ≠ "Optimal".toList) ∧ 1 ≤ k.n) fun k m => Answers k.n m) :=
  (ranged_trained gen tenv).withNet (fun _ hk => ⟨hk.2, Or.inl hk⟩) hd

/-- C16: at any point of any execution, a region whose model was not loaded from a file, of any kind,
answers with one of its policies as long as it was trained with measurements of such policies only. -/
theorem C16_any_trained (env : Env (AnyModel α)) (he : env.ops = netOps gen tenv d)
    (hdr : ∀ t k, lt (ofRat 1) (d.gen t k) = false) (cfg : Cfg)
    (files : Str → Option Str) (ops : List Op)
    (hy : ∀ nf name n mt info yaml, Op.create nf name n mt info yaml ∈ ops → yaml = [])
    (w : World (AnyModel α)) (h : exec env ops (initWorld cfg files) = .ok w) (r : ℕ) (R : Region)
    (hR : w.regions r = some R) (hl : R.params.find "load".toList = none)
    (ho : R.modelName ≠ "Optimal".toList) (hn : 1 ≤ R.numPolicies)
    (hd : ∀ ds, Ev.trained r ds ∈ w.log →
      ∀ e ∈ ds, 0 ≤ (ofLex e.1).2 ∧ (ofLex e.1).2 < R.numPolicies)
    (c : CtxPtr) (p : ℤ) (w' : World (AnyModel α))
    (hp : getPolicyIndex env w r c = .ok (p, w')) : 0 ≤ p ∧ p < R.numPolicies := by
  have hg := ranged_any (gen := gen) (tenv := tenv) hdr
  rw [← he] at hg
  have hw := (ModelInv.stepwise hg fun _ => True).exec (fun _ _ _ _ => trivial) (by
    intro nf name n mt info yaml hm w r w' hw hc
    obtain ⟨R, m, l, h1⟩ := createRegion_ok hc
    exact hw.created hg (fun hh => hh (hy _ _ _ _ _ _ hm)) h1) (modelInv_init cfg files) h
  obtain ⟨R', m, C, m', F, h1, h2, -, h4, -⟩ := getPolicyIndex_ok hp
  rw [hR] at h1
  cases h1
  exact (hg.index R.kind m _ _ _ ⟨⟨hl, ho⟩, hn⟩ (hw r R m hR h2 ⟨⟨hl, ho⟩, hn⟩ hd) h4).1

/-- C16: at any point of any execution without APOLLO_SINGLE_MODEL, a region whose model was not loaded
from a file answers with one of its policies, and so were all policies it was trained with, provided
its executions ask for a policy, and ask the region itself.  What the region was created with (persistent
datasets, load-dataset, DatasetMap) has to be in range; nothing is asked of the others. -/
theorem C16_any_own (env : Env (AnyModel α)) (he : env.ops = netOps gen tenv d)
    (hdr : ∀ t k, lt (ofRat 1) (d.gen t k) = false) (cfg : Cfg)
    (hs : cfg.single = false) (files : Str → Option Str) (ops : List Op)
    (hy : ∀ nf name n mt info yaml, Op.create nf name n mt info yaml ∈ ops → yaml = [])
    (w : World (AnyModel α)) (h : exec env ops (initWorld cfg files) = .ok w) (r : ℕ) (R : Region)
    (hR : w.regions r = some R) (hl : R.params.find "load".toList = none)
    (ho : R.modelName ≠ "Optimal".toList) (hn : 1 ≤ R.numPolicies)
    (hpr : (observe w.log).proper r = true)
    (hask : ∀ pre r' c p post, w.log = pre ++ .chose r' c p :: post →
      (observe pre).owner c = some r → r' = r)
    (hst : (w.cfg.persistent = false ∧ R.params.find "load-dataset".toList = none ∧
        R.modelName ≠ "DatasetMap".toList) ∨
      ∀ pre ds b post, w.log = pre ++ .created r ds b :: post →
        (∀ e ∈ ds, 0 ≤ (ofLex e.1).2 ∧ (ofLex e.1).2 < R.numPolicies) ∧
        ∀ ds', Ev.trained r ds' ∈ pre →
          ∀ e ∈ ds', 0 ≤ (ofLex e.1).2 ∧ (ofLex e.1).2 < R.numPolicies) :
    (∀ c p w', getPolicyIndex env w r c = .ok (p, w') → 0 ≤ p ∧ p < R.numPolicies) ∧
    (∀ ds, Ev.trained r ds ∈ w.log → ∀ e ∈ ds, 0 ≤ (ofLex e.1).2 ∧ (ofLex e.1).2 < R.numPolicies) ∧
    ∀ e ∈ R.dataset, 0 ≤ (ofLex e.1).2 ∧ (ofLex e.1).2 < R.numPolicies := by
  have hg := ranged_any (gen := gen) (tenv := tenv) hdr
  rw [← he] at hg
  have hw := (RangeInv.stepwise hg r fun _ => True).exec (fun _ _ _ _ => trivial) (by
    intro nf name n mt info yaml hm w r w' hw hc
    exact hw.created hg (fun hh => hh (hy _ _ _ _ _ _ hm)) hc) (rangeInv_init cfg hs files r) h
  obtain ⟨h1, h2, -⟩ := hw.own.data R hR ⟨⟨hl, ho⟩, hn⟩ ⟨hpr, hask, hst⟩
  refine ⟨fun c p w' hp => ?_, h2, h1⟩
  exact C16_any_trained env he hdr cfg files ops hy w h r R hR hl ho hn h2 c p w' hp

/-! ## C35 and C45 -/

/-- C35 for all models of the library. -/
theorem C35_recorded_any (env : Env (AnyModel α)) (he : env.ops = netOps gen tenv d) (cfg : Cfg)
    (files : Str → Option Str) (ops : List Op) (w : World (AnyModel α))
    (h : exec env ops (initWorld cfg files) = .ok w)
    (r : ℕ) (R : Region) (m : AnyModel α) (hR : w.regions r = some R) (hm : w.models r = some m)
    (hl : w.cfg.persistent = true ∨ env.ops.isTrainable m = true)
    (hp : (observe w.log).proper r = true) :
    R.dataset = ((observe w.log).rows r).foldl
      (fun ds x => ds.insert x.features x.policy x.metric) ((observe w.log).start r) :=
  C35_recorded env (by rw [he]; exact netOps_absorbing) cfg files ops w h r R m hR hm hl hp

/-- C45 for regions with a PolicyNet. -/
theorem C45_trace_net (env : Env (AnyModel α)) (he : env.ops = netOps gen tenv d) (cfg : Cfg)
    (files : Str → Option Str) (ops : List Op) (w : World (AnyModel α))
    (h : exec env ops (initWorld cfg files) = .ok w)
    (ht : w.cfg.traceCsv = true) (r : ℕ) (R : Region) (P : PolicyNet α)
    (hR : w.regions r = some R) (hm : w.models r = some (.net P))
    (hp : (observe w.log).proper r = true) (hn : Plain R.name) :
    readTable R.trace = traceTable env.rank "PolicyNet".toList R.name R.numFeatures.toNat
      ((observe w.log).rows r) := by
  have := C45_trace env (by rw [he]; exact netOps_named) cfg files ops w h ht r R _ hR hm
    hp hn (by
      rw [he]
      exact ⟨(by decide : ' ' ∉ "PolicyNet".toList), (by decide : '\n' ∉ "PolicyNet".toList)⟩)
  rw [this, he]
  rfl

/-! ## C33 -/

/-- C33 for PolicyNet: what one run stored, a region of the next run with the same name, rank and
numbers of policies and features has after loading: the same weights, and the same average of rewards.
The numbers stored have to be finite, likewise the weights drawn. -/
theorem C33_policyNet [Arith ℚ] (hz : (ofRat 0 : ℚ) = 0) {d d' : NetDraws ℚ}
    {gen' : ℕ → ℕ → ℕ} {tenv' : ℕ → TrainEnv}
    (hdr : ∀ t k, lt (ofRat 1) (d.gen t k) = false) (hdw : ∀ t l i, fmt64.Finite (d'.weights t l i))
    (env env' : Env (AnyModel ℚ)) (he : env.ops = netOps gen tenv d)
    (he' : env'.ops = netOps gen' tenv' d') (cfg : Cfg) (files : Str → Option Str)
    (ops : List Op) (hd : (createdNames ops).Nodup) {w : World (AnyModel ℚ)}
    (h : exec env ops (initWorld cfg files) = .ok w)
    (hst : w.cfg.storeModels = true) (h1 : w.cfg.single = false) (hc : w.cfg.Separate)
    {r : ℕ} {R : Region} {P : PolicyNet ℚ} (hR : w.regions r = some R)
    (hm : w.models r = some (.net P)) (hnp : 1 ≤ R.numPolicies)
    (hkd : R.modelName = "PolicyNet".toList)
    (ht : ∃ ds, Ev.trained r ds ∈ w.log) (hfin : FiniteNet P)
    (hcw : env.canWrite (storePath w.cfg env.rank "PolicyNet".toList R.name) = true)
    -- the second run
    {w₂ w₂' : World (AnyModel ℚ)} {mt : ℤ} {name info : Str} {r₂ : ℕ} {R₂ : Region}
    (h' : createRegion env' w₂ R.numFeatures name R.numPolicies mt info [] = .ok (r₂, w₂'))
    (hR₂ : w₂'.regions r₂ = some R₂) (hl : R₂.params.find "load".toList = some [])
    (hnd : w₂.cfg.persistent = false ∧ R₂.params.find "load-dataset".toList = none)
    -- same name, kind, rank and directories, and nobody touched the file
    (hname : R₂.name = R.name) (hkind : R₂.modelName = "PolicyNet".toList)
    (hrank : env'.rank = env.rank)
    (hdirs : w₂.cfg.outputDir = w.cfg.outputDir ∧ w₂.cfg.modelsDir = w.cfg.modelsDir)
    (hfile : w₂.files (storePath w₂.cfg env'.rank R₂.modelName R₂.name) =
      w.files (storePath w₂.cfg env'.rank R₂.modelName R₂.name)) :
    ∃ Q, w₂'.models r₂ = some (.net Q) ∧
      Q.net.layer1.weights = P.net.layer1.weights ∧ Q.net.layer1.bias = P.net.layer1.bias ∧
      Q.net.layer2.weights = P.net.layer2.weights ∧ Q.net.layer2.bias = P.net.layer2.bias ∧
      Q.net.layer3.weights = P.net.layer3.weights ∧ Q.net.layer3.bias = P.net.layer3.bias ∧
      Q.rewardMovingAvg = P.rewardMovingAvg ∧ Q.trainCount = P.trainCount ∧ Q.cache = [] := by
  -- the network of the first run has the sizes for its region
  have hrg : Ranged (policyOps gen tenv) True (fun _ => False) (fun _ _ => True)
      (fun _ _ => False) :=
    ⟨fun _ _ _ hk => hk.elim, fun _ _ _ _ _ hk => hk.elim, fun _ _ _ _ _ hk => hk.elim,
      fun _ _ _ _ hk => hk.elim⟩
  have hg := hrg.withNet (d := d)
    (K' := fun k => k.modelName = "PolicyNet".toList ∧ 1 ≤ k.n)
    (fun k hk => ⟨hk.2, Or.inr hk.1⟩) hdr
  rw [← he] at hg
  have hw := (ModelInv.stepwise hg fun _ => True).exec (fun _ _ _ _ => trivial) (by
    intro nf name n mt info yaml _ w r w' hw hc
    obtain ⟨R, m, l, h1⟩ := createRegion_ok hc
    exact hw.created hg (fun _ => trivial) h1) (modelInv_init cfg files) h
  have hin : P.In R.numPolicies.toNat R.numFeatures.toNat :=
    (hw r R _ hR hm ⟨hkd, hnp⟩ fun _ _ => trivial).2.2
  -- what it stores
  obtain ⟨t, hH⟩ : ∃ t, P.store = .ok t := by
    obtain ⟨H, hH, -⟩ := hfin.holds
    exact ⟨_, hH.store⟩
  have hstore : env.ops.store (.net P) = .ok (some t) := by
    rw [he]
    change (do let s ← P.store; Except.ok (some s)) = _
    rw [hH]
    rfl
  have hnr : ∀ R' : Region, R'.modelName = "PolicyNet".toList → ¬ R'.reads := by
    intro R' e
    unfold Region.reads
    rw [e]
    decide
  obtain ⟨m₀, m₁, hcr, hld, hres⟩ := C33_next_run env env'
    (by rw [he]; exact netOps_storing (policyOps_storing gen tenv)) cfg files ops hd h hst h1 hc hR hm
    (hnr R hkd) ht hstore (by rw [he]; exact hcw) h' hR₂ hl hname (by rw [hkind, he]; rfl) hrank hdirs hfile
  have hres := hres (Or.inr hnd) (hnr R₂ hkind)
  rw [he'] at hcr hld
  rcases netOps_create hcr with ⟨_, -, hne, -⟩ | ⟨-, -, -, lr, beta, beta1, beta2, th, rfl⟩
  · exact absurd hkind hne
  · rcases netOps_load hld with ⟨_, _, e, -⟩ | ⟨Q₀, Q, e, rfl, hQ⟩
    · cases e
    · cases e
      have hnew := finite_new (inferInstance : Arith ℚ) hz R.numPolicies.toNat R.numFeatures.toNat lr
        beta beta1 beta2 th (d'.weights w₂.tick) (hdw w₂.tick) (d'.gen w₂.tick)
      have hsz := hin.sizes
      simp only [Network.sizes, List.cons.injEq, and_true] at hsz
      obtain ⟨s1, s2, s3, s4, s5, s6⟩ := hsz
      obtain ⟨file, Q', hf, hl', e1, e2, e3, e4, e5, e6, e7, e8, e9, -⟩ := C55_round_trip hfin hnew
        (by
          constructor <;>
            simp [PolicyNet.new, Network.new, Net.FC.new, Net.Buf.zeros, s1, s2, s3, s4, s5, s6])
      rw [hH] at hf
      cases hf
      rw [hQ] at hl'
      cases hl'
      exact ⟨Q, hres, e1, e2, e3, e4, e5, e6, e7, e8, e9⟩

/-! ## Examples -/

/-- Double arithmetic with powers of two for the exponential. -/
local instance demoArith : Arith ℚ := doubleArith exp2 id fun a n => (List.replicate n.toNat a).foldl (· * ·) 1

/-- Draws for the networks. -/
def demoDraws : NetDraws ℚ := ⟨fun _ _ _ => 1 / 2, fun _ k => if k = 0 then 1 / 4 else 3 / 4⟩

/-- As `demoEnv`, with networks. -/
def netEnv : Env (AnyModel ℚ) where
  ops := netOps (fun _ _ => 0) (fun _ => ⟨isort, id⟩) demoDraws
  clock := fun t => (t, 0)

/-- A region with two policies and no features, executed twice and trained. -/
def netRun : List Op :=
  [.create 0 "a".toList 2 0 "PolicyNet".toList [], .begin 0 .sync, .getPolicyIndex 0 (.sync 0),
    .endMetric 0 (.sync 0) 1, .begin 0 .sync, .getPolicyIndex 0 (.sync 0), .endMetric 0 (.sync 0) 2,
    .train 0 7 true true, .begin 0 .sync]

/-- The network of a region. -/
def netOf (w : World (AnyModel ℚ)) (r : ℕ) : Option (PolicyNet ℚ) :=
  match w.models r with
  | some (.net P) => some P
  | _ => none

/-- The run meets the hypotheses, and the network was trained. -/
example : ∃ w, exec netEnv netRun (initWorld storeCfg fun _ => none) = .ok w ∧
    ((w.regions 0).map (fun R => (R.modelName, R.numPolicies)) = some ("PolicyNet".toList, 2) ∧
      (observe w.log).proper 0 = true ∧ askCheck 0 w.log = true ∧ w.cfg.storeModels = true ∧
      (w.log.any fun e => match e with | .trained 0 _ => true | _ => false) = true ∧
      (netOf w 0).map (fun P => P.trainCount) = some 1 ∧
      (netOf w 0).map (fun P => P.net.layer3.bias) ≠ some [some 0, some 0]) :=
  run_ok (by decide +kernel)

/-- The second run loads what the first run stored. -/
example : ∃ w, exec netEnv netRun (initWorld storeCfg fun _ => none) = .ok w ∧
    (match createRegion netEnv (initWorld storeCfg w.files) 0 "a".toList 2 0
        "PolicyNet,load".toList [] with
      | .ok (r, w') => (match netOf w' r, netOf w 0 with
        | some Q, some P => decide (Q.net.layer3.bias = P.net.layer3.bias ∧
          Q.net.layer3.bias ≠ [some 0, some 0] ∧ Q.trainCount = 1)
        | _, _ => false)
      | .error _ => false) = true := run_ok (by decide +kernel)

/-- A history with three answers of the network, as in C52. -/
example : networkAnswers [.getIndex [], .train (Dataset.insert [] [] 1 1), .getIndex [], .getIndex []]
    (PolicyNet.new 2 0 (1 / 64) (1 / 2) (1 / 2) (1 / 2) 0 (fun _ _ => (1 / 2 : ℚ)) fun _ => 1 / 2) = 3 := by
  decide +kernel

end Apollo.Props
