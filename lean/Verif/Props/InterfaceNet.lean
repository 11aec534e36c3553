import Verif.Proofs.InterfaceNet
import Verif.Props.Interface
import Verif.Props.RegionNet

/-!
# Property C87 for regions with policy networks

As in `Props/Interface.lean`, with models of all kinds.  Regions with a PolicyNet need features that can
be converted to an unsigned number, as the cache of the network does.
-/

namespace Apollo.Props

open Apollo Apollo.Spec Arith

variable {α : Type} [Arith α] [Stored α]

/-- As `Ordinary`, with policy networks, whose generator draws numbers that are not greater than one. -/
structure OrdinaryAny (env : Env (AnyModel α)) (cfg : Cfg) : Prop where
  ops : ∃ gen tenv d, env.ops = netOps gen tenv d ∧ (∀ t, SortSpec (tenv t).sort) ∧
    ∀ t k, lt (ofRat 1) (d.gen t k) = false
  poll : ∀ t l i, env.poll t l i ≠ .failed
  collective : cfg.collective = false
  single : cfg.single = false
  regionModel : cfg.regionModel = true
  retrain : cfg.retrain = false
  persistent : cfg.persistent = false
  csv : cfg.traceCsv → ∀ p, env.canWrite p

/-- The rules for these settings: as before, and the features of a region with a PolicyNet are greater
than -1. -/
def rulesOfAny (env : Env (AnyModel α)) (cfg : Cfg) : UseRules where
  fits := fun s v => ((cfg.tracePolicy || cfg.traceBest || cfg.storeModels) → FitsInt v) ∧
    (NetModel (if s = [] then cfg.policyModel else s) → FitsUnsigned v)
  async := env.async
  most := 2 ^ 19
  known := fun name info _ => KnownModel name (if info = [] then cfg.policyModel else info) ∨
    NetModel (if info = [] then cfg.policyModel else info)

variable {env : Env (AnyModel α)} {cfg : Cfg} {files : Str → Option Str} {ops : List Apollo.Op}

theorem OrdinaryAny.cfgOk (h : OrdinaryAny env cfg) : CfgOk env (rulesOfAny env cfg) cfg.policyModel cfg where
  model := rfl
  collective := h.collective
  single := h.single
  regionModel := h.regionModel
  retrain := h.retrain
  persistent := h.persistent
  best := fun hb _ v hv => hv.1 (by simp [hb])
  policy := fun hb _ v hv => hv.1 (by simp [hb])
  store := fun hb _ v hv => hv.1 (by simp [hb])
  csv := h.csv

theorem OrdinaryAny.safe (h : OrdinaryAny env cfg) :
    Safe env (fun s => GoodAny ((rulesOfAny env cfg).fits s)) (rulesOfAny env cfg) cfg.policyModel := by
  obtain ⟨gen, tenv, d, ho, hσ, hd⟩ := h.ops
  exact netOps_safe ho hσ hd le_rfl
    (fun _ _ _ hk => hk.imp id fun hn => ⟨hn, fun _ hv => hv.2 hn⟩) h.poll id

theorem OrdinaryAny.ends (h : OrdinaryAny env cfg) : Ends env.ops := by
  obtain ⟨gen, tenv, d, ho, -⟩ := h.ops
  exact ho ▸ netOps_ends gen tenv d

/-- C87, models of all kinds: no abort, no exception, no undefined behaviour: a program all of whose calls
may be made runs to its end, or a destructor waits for a measurement that does not arrive. -/
theorem C87_any_never_fails (h : OrdinaryAny env cfg) (hf : ({} : Use).Follows (rulesOfAny env cfg) ops) :
    (∃ w, exec env ops (initWorld cfg files) = .ok w) ∨
      ((∃ r fuel, .destroy r fuel ∈ ops) ∧ exec env ops (initWorld cfg files) = .error .diverge) := by
  rcases exec_safe h.safe ops {} _ _ (sane_init h.cfgOk files) hf with ⟨w, P, hw, -⟩ | hw
  · exact .inl ⟨w, hw⟩
  · exact .inr hw

/-- C87, models of all kinds: without destroying regions the program runs to its end. -/
theorem C87_any_without_destroy (h : OrdinaryAny env cfg) (hf : ({} : Use).Follows (rulesOfAny env cfg) ops)
    (hd : ∀ r fuel, .destroy r fuel ∉ ops) : ∃ w, exec env ops (initWorld cfg files) = .ok w := by
  rcases C87_any_never_fails (files := files) h hf with hw | ⟨⟨r, fuel, hr⟩, -⟩
  · exact hw
  · exact absurd hr (hd r fuel)

/-- C87, models of all kinds: without asynchronous executions the program and the end of the process
succeed. -/
theorem C87_any_synchronous (h : OrdinaryAny env cfg) (hf : ({} : Use).Follows (rulesOfAny env cfg) ops)
    (ha : ∀ r, .begin r .async ∉ ops) : ∃ w, exec env ops (initWorld cfg files) = .ok w ∧
      ((∀ r fuel, .destroy r fuel ∉ ops) → ∀ fuel, ∃ w', shutdown env w fuel = .ok w') := by
  obtain ⟨w, P, hw, hS, h0⟩ := exec_ends h.safe (fun u => u.nctx = 0) ops {} _ _ (sane_init h.cfgOk files)
    rfl (fun u op ho h0 => by rw [after_nctx fun r he => ha r (he ▸ ho), h0])
    (fun _ h0 hS hg => destroy_sync hS hg h0 _) hf
  refine ⟨w, hw, fun hd fuel => shutdown_ends h.safe (fun u => u.nctx = 0)
    (fun u op h0 hop => by rw [after_nctx hop, h0]) (fun h0 hS hg => destroy_sync hS hg h0 _) hS ?_ h0⟩
  exact not_destroyed hd

/-- C87, models of all kinds: if all timers are done from some time on, and the destructors may wait that
long, the program and the end of the process succeed. -/
theorem C87_any_timers_done (h : OrdinaryAny env cfg) (hf : ({} : Use).Follows (rulesOfAny env cfg) ops)
    (T : ℕ) (hT : ∀ n t l, T ≤ t → ∃ m, env.poll t l n = .done m)
    (hw : ∀ r fuel, .destroy r fuel ∈ ops → T < fuel) :
    ∃ w, exec env ops (initWorld cfg files) = .ok w ∧
      ((∀ r fuel, .destroy r fuel ∉ ops) → ∀ fuel, T < fuel → ∃ w', shutdown env w fuel = .ok w') := by
  obtain ⟨w, P, hx, hS, -⟩ := exec_ends h.safe (fun _ => True) ops {} _ _ (sane_init h.cfgOk files)
    trivial (fun _ _ _ _ => trivial)
    (fun hm _ _ _ => C36_destructor_ends env h.ends _ _ T _ (fun n _ t l ht => hT n t l ht) (hw _ _ hm)) hf
  refine ⟨w, hx, fun hd fuel hfu => shutdown_ends h.safe (fun _ => True) (fun _ _ _ _ => trivial)
    (fun _ _ _ => C36_destructor_ends env h.ends _ _ T _ (fun n _ t l ht => hT n t l ht) hfu) hS ?_ trivial⟩
  exact not_destroyed hd

/-- C87, models of all kinds: what the calls answer: regions and contexts are numbered, policies are in
range. -/
theorem C87_any_answers (h : OrdinaryAny env cfg) {op : Apollo.Op} {w : World (AnyModel α)}
    (hf : ({} : Use).Follows (rulesOfAny env cfg) (ops ++ [op]))
    (hw : exec env ops (initWorld cfg files) = .ok w) :
    (∃ ret w', step env w op = .ok (ret, w') ∧ (Use.afterAll {} ops).Answer op ret) ∨
      ((∃ r fuel, op = .destroy r fuel) ∧ step env w op = .error .diverge) := by
  have ⟨hf1, hf2⟩ := follows_append hf
  rcases exec_safe h.safe ops {} _ _ (sane_init h.cfgOk files) hf1 with ⟨w₁, P, hw1, hS⟩ | ⟨-, hd⟩
  · rw [hw] at hw1
    cases hw1
    rcases step_safe h.safe hS hf2.1 with ⟨ret, w', P', h1, -, h2⟩ | h1
    · exact .inl ⟨ret, w', h1, h2⟩
    · exact .inr h1
  · rw [hw] at hd
    cases hd

/-! ## Examples -/

attribute [local instance] demoArith

theorem demo_ordinary_any (cfg : Cfg) (h1 : cfg.collective = false) (h2 : cfg.single = false)
    (h3 : cfg.regionModel = true) (h4 : cfg.retrain = false) (h5 : cfg.persistent = false) :
    OrdinaryAny netEnv cfg where
  ops := by
    refine ⟨_, _, _, rfl, fun _ => isort_spec, fun t k => ?_⟩
    have h : ∀ q : ℚ, q = 1 / 4 ∨ q = 3 / 4 → lt (ofRat 1) q = false := by
      rintro q (rfl | rfl) <;> decide +kernel
    exact h _ (by simp only [demoDraws]; split <;> simp)
  poll := fun t l i => by simp [netEnv]
  collective := h1
  single := h2
  regionModel := h3
  retrain := h4
  persistent := h5
  csv := fun _ _ => rfl

/-- A region with a network and one with a tree, executed, trained and executed again. -/
def politeNet : List Apollo.Op :=
  [.create 1 "a".toList 2 0 "PolicyNet,lr=0.02,threshold=0".toList [],
    .create 1 "b".toList 3 0 "DecisionTree,explore=RoundRobin".toList [],
    .begin 0 .sync, .setFeatureCur 0 3, .getPolicyIndexCur 0, .endMetricCur 0 (1 / 2),
    .beginWith 1 [-4], .getPolicyIndex 1 (.sync 1), .endCtx 1 (.sync 1),
    .trainAll 0 true, .beginWith 0 [5], .getPolicyIndexCur 0, .endCur 0, .destroy 0 3]

theorem polite_net_model : NetModel "PolicyNet,lr=0.02,threshold=0".toList := by
  refine .net [⟨"lr".toList, some "0.02".toList⟩, ⟨"threshold".toList, some "0".toList⟩] ?_ ?_ fun key => ?_
  · simp [Item.WF]
  · simp
  · unfold RealItem
    by_cases h1 : key = "lr".toList
    · subst h1
      have h50 : |(1 / 50 : ℚ)| = 1 / 50 := abs_of_pos (by norm_num)
      refine .inr ⟨1 / 50, .inr ⟨?_, ?_⟩, by decide +kernel⟩
      · rw [h50]
        exact le_trans (zpow_le_zpow_right₀ (by norm_num) (by norm_num : (-307 : ℤ) ≤ -2)) (by norm_num)
      · rw [h50]
        exact le_trans (by norm_num) (zpow_le_zpow_right₀ (by norm_num) (by norm_num : (0 : ℤ) ≤ 308))
    · by_cases h2 : key = "threshold".toList
      · subst h2
        exact .inr ⟨0, .inl rfl, by decide +kernel⟩
      · refine .inl ?_
        refine firstValue_none fun x hx hk => ?_
        simp only [List.mem_cons, List.not_mem_nil, or_false] at hx
        rcases hx with rfl | rfl
        · exact h1 hk.symm
        · exact h2 hk.symm

theorem not_net_tree : ¬ NetModel "DecisionTree,explore=RoundRobin".toList := by
  intro h
  obtain ⟨ps, lr, b, b1, b2, th, h1, -⟩ := net_made h (fun _ => 0) 0 1
  have : (parsePolicyModel "DecisionTree,explore=RoundRobin".toList).toOption.map Prod.fst =
      some "DecisionTree".toList := by decide +kernel
  rw [h1] at this
  exact absurd (show "PolicyNet".toList = "DecisionTree".toList from Option.some.inj this) (by decide)

theorem polite_net : ({} : Use).Follows (rulesOfAny netEnv {}) politeNet := by
  have hs : ∀ {u : Use} {op op'} {ops : List Apollo.Op}, u.explicit op = some op' →
      u.MayCall (rulesOfAny netEnv {}) op' → (u.afterCall op').Follows (rulesOfAny netEnv {}) ops →
      u.Follows (rulesOfAny netEnv {}) (op :: ops) := by
    intro u op op' ops h1 h2 h3
    refine ⟨⟨op', h1, h2⟩, ?_⟩
    unfold Use.after
    rw [h1]
    exact h3
  have h3 : FitsUnsigned 3 := by unfold FitsUnsigned; norm_num
  have h5 : FitsUnsigned 5 := by unfold FitsUnsigned; norm_num
  refine hs rfl ⟨by decide, by decide, .inr polite_net_model, rfl⟩ ?_
  refine hs rfl ⟨by decide, by decide, .inl (polite_models _ []).1, rfl⟩ ?_
  refine hs rfl ⟨⟨_, rfl, by decide⟩, fun _ => rfl⟩ ?_
  refine hs rfl ⟨⟨_, rfl, (fun h => by cases h), fun _ => h3⟩, _, rfl⟩ ?_
  refine hs rfl ⟨_, rfl, rfl⟩ ?_
  refine hs rfl ⟨_, ⟨rfl, rfl⟩, by decide⟩ ?_
  refine hs rfl ⟨_, rfl, by decide, rfl, fun _ _ => ⟨(fun h => by cases h), fun h => absurd h not_net_tree⟩⟩ ?_
  refine hs rfl ⟨_, rfl, rfl⟩ ?_
  refine hs rfl ⟨_, ⟨rfl, rfl⟩, by decide⟩ ?_
  refine hs rfl rfl ?_
  refine hs rfl ⟨_, rfl, by decide, rfl, fun v hv => ⟨(fun h => by cases h), fun _ => ?_⟩⟩ ?_
  · rw [List.mem_singleton] at hv
    exact hv ▸ h5
  refine hs rfl ⟨_, rfl, rfl⟩ ?_
  refine hs rfl ⟨_, ⟨rfl, rfl⟩, by decide⟩ ?_
  exact hs (op' := .destroy 0 3) rfl rfl trivial

theorem polite_net_take (k : ℕ) : ({} : Use).Follows (rulesOfAny netEnv {}) (politeNet.take k) := by
  have h := polite_net
  rw [← List.take_append_drop k politeNet] at h
  exact (follows_append h).1

/-- The polite program runs to its end. -/
example : ∃ w, exec netEnv politeNet (initWorld {} fun _ => none) = .ok w := by
  obtain ⟨w, hw, -⟩ := C87_any_synchronous (files := fun _ => none)
    (demo_ordinary_any {} rfl rfl rfl rfl rfl) polite_net (fun r h => by simp [politeNet] at h)
  exact ⟨w, hw⟩

/-- Without the destructor the end of the process succeeds as well. -/
example : ∃ w w', exec netEnv (politeNet.take 13) (initWorld {} fun _ => none) = .ok w ∧
    shutdown netEnv w 1 = .ok w' := by
  obtain ⟨w, hw, h⟩ := C87_any_synchronous (files := fun _ => none)
    (demo_ordinary_any {} rfl rfl rfl rfl rfl) (polite_net_take 13) (fun r h => by simp [politeNet] at h)
  obtain ⟨w', hw'⟩ := h (fun r fuel h => by simp [politeNet] at h) 1
  exact ⟨w, w', hw, hw'⟩

/-- The policy of the trained network is one of the two. -/
example {w : World (AnyModel ℚ)} (hw : exec netEnv (politeNet.take 11) (initWorld {} fun _ => none) = .ok w) :
    ∃ p w', step netEnv w (.getPolicyIndexCur 0) = .ok (.policy p, w') ∧ 0 ≤ p ∧ p < 2 := by
  rcases C87_any_answers (op := .getPolicyIndexCur 0) (demo_ordinary_any {} rfl rfl rfl rfl rfl)
    (polite_net_take 12) hw with ⟨ret, w', h1, g, p, h2, rfl, h3, h4⟩ | ⟨⟨_, _, h⟩, -⟩
  · cases h2
    exact ⟨p, w', h1, h3, h4⟩
  · cases h

/-- Features of networks must not be -1 or less. -/
theorem C87_any_needs_unsigned : exec netEnv (politeNet.take 3 ++ [.setFeatureCur 0 (-4), .getPolicyIndexCur 0])
    (initWorld {} fun _ => none) = .error (.ub .overflow) := fails (by decide +kernel)

/-- As `netEnv`, with a generator that draws numbers greater than one. -/
def drawEnv : Env (AnyModel ℚ) :=
  { netEnv with ops := netOps (fun _ _ => 0) (fun _ => ⟨isort, id⟩) ⟨fun _ _ _ => 1 / 2, fun _ _ => 2⟩ }

/-- The numbers drawn must not be greater than one. -/
theorem C87_any_needs_draws : exec drawEnv [.create 0 "a".toList 2 0 "PolicyNet".toList [], .begin 0 .sync,
    .getPolicyIndexCur 0, .endMetricCur 0 1, .trainAll 0 true] (initWorld {} fun _ => none) =
    .error (.ub .outOfBounds) := fails (by decide +kernel)

end Apollo.Props
