import Verif.Proofs.InterfaceModels
import Verif.Proofs.ModelEnds
import Verif.Props.Region

/-!
# Property C87: programs that keep to the interface never fail

The rules a program has to keep to are in `Spec/Interface.lean`; they speak only about the calls, not
about the state of the library.
-/

namespace Apollo.Props

open Apollo Apollo.Spec

/-- The surroundings of the process: the models are those of the library, `std::sort` sorts, timers work.
The settings: one process without collective training and with one model per region, which are trained
once and whose data stays in memory; traces can be written. -/
structure Ordinary (env : Env PolicyModel) (cfg : Cfg) : Prop where
  ops : ∃ gen tenv, env.ops = policyOps gen tenv ∧ ∀ t, SortSpec (tenv t).sort
  poll : ∀ t l i, env.poll t l i ≠ .failed
  collective : cfg.collective = false
  single : cfg.single = false
  regionModel : cfg.regionModel = true
  retrain : cfg.retrain = false
  persistent : cfg.persistent = false
  csv : cfg.traceCsv → ∀ p, env.canWrite p

/-- The rules for these settings: features are printed as integers when policies are traced, and models
that are stored are read as floats; a region may be executed half a million times. -/
def rulesOf (env : Env PolicyModel) (cfg : Cfg) : UseRules where
  fits := fun _ v => (cfg.tracePolicy || cfg.traceBest || cfg.storeModels) → FitsInt v
  async := env.async
  most := 2 ^ 19
  known := fun name info _ => KnownModel name (if info = [] then cfg.policyModel else info)

variable {env : Env PolicyModel} {cfg : Cfg} {files : Str → Option Str} {ops : List Apollo.Op}

theorem Ordinary.cfgOk (h : Ordinary env cfg) : CfgOk env (rulesOf env cfg) cfg.policyModel cfg where
  model := rfl
  collective := h.collective
  single := h.single
  regionModel := h.regionModel
  retrain := h.retrain
  persistent := h.persistent
  best := fun hb _ v hv => hv (by simp [hb])
  policy := fun hb _ v hv => hv (by simp [hb])
  store := fun hb _ v hv => hv (by simp [hb])
  csv := h.csv

theorem Ordinary.safe (h : Ordinary env cfg) :
    Safe env (fun s => GoodModel ((rulesOf env cfg).fits s)) (rulesOf env cfg) cfg.policyModel := by
  obtain ⟨gen, tenv, ho, hσ⟩ := h.ops
  exact policyOps_safe ho hσ le_rfl (fun _ _ _ hk => hk) h.poll id

theorem Ordinary.ends (h : Ordinary env cfg) : Ends env.ops := by
  obtain ⟨gen, tenv, ho, -⟩ := h.ops
  exact ho ▸ policyOps_ends gen tenv

/-- C87: no abort, no exception, no undefined behaviour: a program all of whose calls may be made runs to
its end, or a destructor waits for a measurement that does not arrive. -/
theorem C87_never_fails (h : Ordinary env cfg) (hf : ({} : Use).Follows (rulesOf env cfg) ops) :
    (∃ w, exec env ops (initWorld cfg files) = .ok w) ∨
      ((∃ r fuel, .destroy r fuel ∈ ops) ∧ exec env ops (initWorld cfg files) = .error .diverge) := by
  rcases exec_safe h.safe ops {} _ _ (sane_init h.cfgOk files) hf with ⟨w, P, hw, -⟩ | hw
  · exact .inl ⟨w, hw⟩
  · exact .inr hw

/-- C87: without destroying regions the program runs to its end. -/
theorem C87_without_destroy (h : Ordinary env cfg) (hf : ({} : Use).Follows (rulesOf env cfg) ops)
    (hd : ∀ r fuel, .destroy r fuel ∉ ops) : ∃ w, exec env ops (initWorld cfg files) = .ok w := by
  rcases C87_never_fails (files := files) h hf with hw | ⟨⟨r, fuel, hr⟩, -⟩
  · exact hw
  · exact absurd hr (hd r fuel)

/-- C87: without asynchronous executions the program and the end of the process succeed. -/
theorem C87_synchronous (h : Ordinary env cfg) (hf : ({} : Use).Follows (rulesOf env cfg) ops)
    (ha : ∀ r, .begin r .async ∉ ops) : ∃ w, exec env ops (initWorld cfg files) = .ok w ∧
      ((∀ r fuel, .destroy r fuel ∉ ops) → ∀ fuel, ∃ w', shutdown env w fuel = .ok w') := by
  obtain ⟨w, P, hw, hS, h0⟩ := exec_ends h.safe (fun u => u.nctx = 0) ops {} _ _ (sane_init h.cfgOk files)
    rfl (fun u op ho h0 => by rw [after_nctx fun r he => ha r (he ▸ ho), h0])
    (fun _ h0 hS hg => destroy_sync hS hg h0 _) hf
  refine ⟨w, hw, fun hd fuel => shutdown_ends h.safe (fun u => u.nctx = 0)
    (fun u op h0 hop => by rw [after_nctx hop, h0]) (fun h0 hS hg => destroy_sync hS hg h0 _) hS ?_ h0⟩
  exact not_destroyed hd

/-- C87: if all timers are done from some time on, and the destructors may wait that long, the program
and the end of the process succeed. -/
theorem C87_timers_done (h : Ordinary env cfg) (hf : ({} : Use).Follows (rulesOf env cfg) ops) (T : ℕ)
    (hT : ∀ n t l, T ≤ t → ∃ m, env.poll t l n = .done m) (hw : ∀ r fuel, .destroy r fuel ∈ ops → T < fuel) :
    ∃ w, exec env ops (initWorld cfg files) = .ok w ∧
      ((∀ r fuel, .destroy r fuel ∉ ops) → ∀ fuel, T < fuel → ∃ w', shutdown env w fuel = .ok w') := by
  obtain ⟨w, P, hx, hS, -⟩ := exec_ends h.safe (fun _ => True) ops {} _ _ (sane_init h.cfgOk files)
    trivial (fun _ _ _ _ => trivial)
    (fun hm _ _ _ => C36_destructor_ends env h.ends _ _ T _ (fun n _ t l ht => hT n t l ht) (hw _ _ hm)) hf
  refine ⟨w, hx, fun hd fuel hfu => shutdown_ends h.safe (fun _ => True) (fun _ _ _ _ => trivial)
    (fun _ _ _ => C36_destructor_ends env h.ends _ _ T _ (fun n _ t l ht => hT n t l ht) hfu) hS ?_ trivial⟩
  exact not_destroyed hd

/-- C87: what the calls answer: regions and contexts are numbered, policies are in range. -/
theorem C87_answers (h : Ordinary env cfg) {op : Apollo.Op} {w : World PolicyModel}
    (hf : ({} : Use).Follows (rulesOf env cfg) (ops ++ [op])) (hw : exec env ops (initWorld cfg files) = .ok w) :
    (∃ ret w', step env w op = .ok (ret, w') ∧ (Use.afterAll {} ops).Answer op ret) ∨
      ((∃ r fuel, op = .destroy r fuel) ∧ step env w op = .error .diverge) := by
  have ⟨hf1, hf2⟩ := follows_append hf
  rcases exec_safe h.safe ops {} _ _ (sane_init h.cfgOk files) hf1 with ⟨w₁, P, hw1, hS⟩ | ⟨-, hd⟩
  · rw [hw] at hw1
    cases hw1
    rcases step_safe h.safe hS hf2.1 with ⟨ret, w', P', h1, -, h2⟩ | h1
    · exact .inl ⟨ret, w', h1, h2⟩
    · exact .inr h1
  · rw [hw] at hd
    cases hd

/-! ## Examples -/

theorem demo_ordinary (cfg : Cfg) (h1 : cfg.collective = false) (h2 : cfg.single = false)
    (h3 : cfg.regionModel = true) (h4 : cfg.retrain = false) (h5 : cfg.persistent = false) :
    Ordinary demoEnv cfg where
  ops := ⟨_, _, rfl, fun _ => isort_spec⟩
  poll := fun t l i => by
    simp only [demoEnv]
    split <;> simp
  collective := h1
  single := h2
  regionModel := h3
  retrain := h4
  persistent := h5
  csv := fun _ _ => rfl

/-- Two regions, synchronous and asynchronous executions with and without naming the context, training,
and a region destroyed while a measurement is missing. -/
def politeOps : List Apollo.Op :=
  [.create 1 "a".toList 2 0 "DecisionTree,explore=RoundRobin".toList [],
    .create 2 "b".toList 3 0 "RandomForest,num_trees=3,max_depth=4".toList [],
    .begin 0 .sync, .setFeatureCur 0 3, .getPolicyIndexCur 0, .endMetricCur 0 (1 / 2),
    .beginWith 0 [4], .getPolicyIndex 0 (.sync 0), .endCtx 0 (.sync 0),
    .begin 1 .async, .begin 0 .async, .setFeature 1 (.heap 0) 5, .setFeature 1 (.heap 0) 6,
    .setFeature 0 (.heap 1) 5, .getPolicyIndex 1 (.heap 0), .endCtx 0 (.heap 1), .endCtx 1 (.heap 0),
    .trainAll 0 true, .begin 0 .sync, .setFeatureCur 0 3, .getPolicyIndexCur 0, .endMetricCur 0 1,
    .destroy 0 13]

theorem polite_models (a b : Str) : KnownModel a "DecisionTree,explore=RoundRobin".toList ∧
    KnownModel b "RandomForest,num_trees=3,max_depth=4".toList := by
  refine ⟨.tree [⟨"explore".toList, some "RoundRobin".toList⟩] ?_ ?_ (.inl rfl) (.tail _ (.tail _ (.head _))),
    .forest [⟨"num_trees".toList, some "3".toList⟩, ⟨"max_depth".toList, some "4".toList⟩] ?_ ?_
      (.inr ⟨3, by decide, by decide⟩) (.inr ⟨4, by decide, by decide⟩) (.head _)⟩
  · simp [Item.WF]
  · simp
  · simp [Item.WF]
  · simp

theorem polite : ({} : Use).Follows (rulesOf demoEnv {}) politeOps := by
  have hs : ∀ {u : Use} {op op'} {ops : List Apollo.Op}, u.explicit op = some op' →
      u.MayCall (rulesOf demoEnv {}) op' → (u.afterCall op').Follows (rulesOf demoEnv {}) ops →
      u.Follows (rulesOf demoEnv {}) (op :: ops) := by
    intro u op op' ops h1 h2 h3
    refine ⟨⟨op', h1, h2⟩, ?_⟩
    unfold Use.after
    rw [h1]
    exact h3
  refine hs rfl ⟨by decide, by decide, (polite_models _ []).1, rfl⟩ ?_
  refine hs rfl ⟨by decide, by decide, (polite_models [] _).2, rfl⟩ ?_
  refine hs rfl ⟨⟨_, rfl, by decide⟩, fun _ => rfl⟩ ?_
  refine hs rfl ⟨⟨_, rfl, fun h => by cases h⟩, _, rfl⟩ ?_
  refine hs rfl ⟨_, rfl, rfl⟩ ?_
  refine hs rfl ⟨_, ⟨rfl, rfl⟩, by decide⟩ ?_
  refine hs rfl ⟨_, rfl, by decide, rfl, fun _ _ h => by cases h⟩ ?_
  refine hs rfl ⟨_, rfl, rfl⟩ ?_
  refine hs rfl ⟨_, ⟨rfl, rfl⟩, by decide⟩ ?_
  refine hs rfl ⟨⟨_, rfl, by decide⟩, fun _ => rfl⟩ ?_
  refine hs rfl ⟨⟨_, rfl, by decide⟩, fun _ => rfl⟩ ?_
  refine hs rfl ⟨⟨_, rfl, fun h => by cases h⟩, _, rfl⟩ ?_
  refine hs rfl ⟨⟨_, rfl, fun h => by cases h⟩, _, rfl⟩ ?_
  refine hs rfl ⟨⟨_, rfl, fun h => by cases h⟩, _, rfl⟩ ?_
  refine hs rfl ⟨_, rfl, rfl⟩ ?_
  refine hs rfl ⟨_, ⟨rfl, rfl⟩, by decide⟩ ?_
  refine hs rfl ⟨_, ⟨rfl, rfl⟩, by decide⟩ ?_
  refine hs rfl rfl ?_
  refine hs rfl ⟨⟨_, rfl, by decide⟩, fun _ => rfl⟩ ?_
  refine hs rfl ⟨⟨_, rfl, fun h => by cases h⟩, _, rfl⟩ ?_
  refine hs rfl ⟨_, rfl, rfl⟩ ?_
  refine hs rfl ⟨_, ⟨rfl, rfl⟩, by decide⟩ ?_
  exact hs (op' := .destroy 0 13) rfl rfl trivial

theorem polite_take (k : ℕ) : ({} : Use).Follows (rulesOf demoEnv {}) (politeOps.take k) := by
  have h := polite
  rw [← List.take_append_drop k politeOps] at h
  exact (follows_append h).1

/-- The polite program runs to its end. -/
example : ∃ w, exec demoEnv politeOps (initWorld {} fun _ => none) = .ok w := by
  obtain ⟨w, hw, -⟩ := C87_timers_done (files := fun _ => none) (demo_ordinary {} rfl rfl rfl rfl rfl) polite 12
    (fun n t l ht => ⟨(n + 1 : ℕ), by simp [demoEnv, ht]⟩) (fun r fuel h => by
      simp only [politeOps, List.mem_cons, reduceCtorEq, false_or, List.not_mem_nil, or_false,
        Apollo.Op.destroy.injEq] at h
      omega)
  exact ⟨w, hw⟩

/-- Its beginning is synchronous. -/
example : ∃ w, exec demoEnv (politeOps.take 9) (initWorld {} fun _ => none) = .ok w := by
  obtain ⟨w, hw, -⟩ := C87_synchronous (files := fun _ => none) (demo_ordinary {} rfl rfl rfl rfl rfl)
    (polite_take 9) (fun r h => by simp [politeOps] at h)
  exact ⟨w, hw⟩

/-- Without the destructor it does not matter whether measurements arrive. -/
example : ∃ w, exec demoEnv (politeOps.take 22) (initWorld {} fun _ => none) = .ok w :=
  C87_without_destroy (demo_ordinary {} rfl rfl rfl rfl rfl) (polite_take 22)
    (fun r fuel h => by simp [politeOps] at h)

/-- The policy of the trained tree is one of the two. -/
example {w : World PolicyModel} (hw : exec demoEnv (politeOps.take 20) (initWorld {} fun _ => none) = .ok w) :
    ∃ p w', step demoEnv w (.getPolicyIndexCur 0) = .ok (.policy p, w') ∧ 0 ≤ p ∧ p < 2 := by
  rcases C87_answers (op := .getPolicyIndexCur 0) (demo_ordinary {} rfl rfl rfl rfl rfl) (polite_take 21) hw
    with ⟨ret, w', h1, g, p, h2, rfl, h3, h4⟩ | ⟨⟨_, _, h⟩, -⟩
  · cases h2
    exact ⟨p, w', h1, h3, h4⟩
  · cases h

/-- Two regions, whose policies are those APOLLO_POLICY_MODEL gives for their names. -/
def namedCfg : Cfg := { policyModel := "StaticRegion,b=2,explore=PolicyNet,a=1".toList }

def namedOps : List Apollo.Op :=
  [.create 0 "a".toList 3 0 [] [], .create 0 "b".toList 3 0 [] [], .begin 0 .sync, .getPolicyIndexCur 0,
    .endMetricCur 0 1, .begin 1 .sync, .getPolicyIndexCur 1, .endMetricCur 1 1, .trainAll 0 true]

theorem named_models : KnownModel "a".toList namedCfg.policyModel ∧ KnownModel "b".toList namedCfg.policyModel := by
  have hwf : ∀ x ∈ ([⟨"b".toList, some "2".toList⟩, ⟨"explore".toList, some "PolicyNet".toList⟩,
      ⟨"a".toList, some "1".toList⟩] : List Item), x.WF := by simp [Item.WF]
  exact ⟨.staticRegion _ hwf 1 (by decide) (by decide), .staticRegion _ hwf 2 (by decide) (by decide)⟩

theorem named : ({} : Use).Follows (rulesOf demoEnv namedCfg) namedOps := by
  have hs : ∀ {u : Use} {op op'} {ops : List Apollo.Op}, u.explicit op = some op' →
      u.MayCall (rulesOf demoEnv namedCfg) op' → (u.afterCall op').Follows (rulesOf demoEnv namedCfg) ops →
      u.Follows (rulesOf demoEnv namedCfg) (op :: ops) := by
    intro u op op' ops h1 h2 h3
    refine ⟨⟨op', h1, h2⟩, ?_⟩
    unfold Use.after
    rw [h1]
    exact h3
  refine hs rfl ⟨by decide, by decide, named_models.1, rfl⟩ ?_
  refine hs rfl ⟨by decide, by decide, named_models.2, rfl⟩ ?_
  refine hs rfl ⟨⟨_, rfl, by decide⟩, fun _ => rfl⟩ ?_
  refine hs rfl ⟨_, rfl, rfl⟩ ?_
  refine hs rfl ⟨_, ⟨rfl, rfl⟩, by decide⟩ ?_
  refine hs rfl ⟨⟨_, rfl, by decide⟩, fun _ => rfl⟩ ?_
  refine hs rfl ⟨_, rfl, rfl⟩ ?_
  refine hs rfl ⟨_, ⟨rfl, rfl⟩, by decide⟩ ?_
  exact hs (op' := .trainAll 0 true) rfl rfl trivial

example : ∃ w, exec demoEnv namedOps (initWorld namedCfg fun _ => none) = .ok w :=
  C87_without_destroy (demo_ordinary namedCfg rfl rfl rfl rfl rfl) named
    (fun r fuel h => by simp [namedOps] at h)

/-! ## Every rule is needed -/

theorem fails {α : Type} {x : Res α} {e : Err}
    (h : (match x with | .ok _ => false | .error e' => decide (e' = e)) = true) : x = .error e := by
  cases x with
  | ok a => cases h
  | error e' => rw [of_decide_eq_true h]

/-- The features have to be complete. -/
theorem C87_needs_features : exec demoEnv (politeOps.take 19 ++ [.getPolicyIndexCur 0])
    (initWorld {} fun _ => none) = .error (.ub .outOfBounds) := fails (by decide +kernel)

/-- A context must not be ended twice. -/
theorem C87_needs_open : exec demoEnv (politeOps.take 17 ++ [.endCtx 1 (.heap 0), .trainAll 0 true])
    (initWorld {} fun _ => none) = .error (.ub .dangling) := fails (by decide +kernel)

/-- Regions must not be used after they were destroyed. -/
theorem C87_needs_region : exec demoEnv (politeOps ++ [.begin 0 .sync])
    (initWorld {} fun _ => none) = .error (.ub .dangling) := fails (by decide +kernel)

/-- Training all regions is not possible any more once a region was destroyed. -/
theorem C87_needs_all_regions : exec demoEnv (politeOps ++ [.trainAll 0 true])
    (initWorld {} fun _ => none) = .error (.ub .dangling) := fails (by decide +kernel)

/-- A call without context needs one that was begun and not ended. -/
theorem C87_needs_current : exec demoEnv (politeOps.take 6 ++ [.endCur 0])
    (initWorld {} fun _ => none) = .error (.ub .dangling) := fails (by decide +kernel)

/-- Collecting another context forgets the one begun last. -/
theorem C87_needs_uncollected : exec demoEnv (politeOps.take 17 ++ [.begin 0 .sync, .collect 0, .setFeatureCur 0 1])
    (initWorld {} fun _ => none) = .error (.ub .dangling) := fails (by decide +kernel)

/-- There has to be a policy. -/
theorem C87_needs_policies : exec demoEnv [.create 0 "a".toList 0 0 "RoundRobin".toList [], .begin 0 .sync,
    .getPolicyIndexCur 0] (initWorld {} fun _ => none) = .error (.ub .divByZero) := fails (by decide +kernel)

/-- The model has to be known. -/
theorem C87_needs_model : exec demoEnv [.create 0 "a".toList 1 0 "Roundrobin".toList []]
    (initWorld {} fun _ => none) = .error .abort := fails (by decide +kernel)

/-- StaticRegion has to name the region. -/
theorem C87_needs_name : exec demoEnv [.create 0 "c".toList 3 0 [] []] (initWorld namedCfg fun _ => none) =
    .error .abort := fails (by decide +kernel)

/-- Asynchronous executions need asynchronous timing. -/
theorem C87_needs_async : exec { demoEnv with async := false } (politeOps.take 10)
    (initWorld {} fun _ => none) = .error .abort := fails (by decide +kernel)

/-- Features that do not fit into an int cannot be traced. -/
theorem C87_needs_int : exec demoEnv [.create 1 "a".toList 2 0 "Static".toList [], .beginWith 0 [2 ^ 31],
    .getPolicyIndexCur 0] (initWorld { tracePolicy := true } fun _ => none) = .error (.ub .overflow) :=
  fails (by decide +kernel)

/-- A single model cannot be trained before anything was measured. -/
theorem C87_needs_own_models : exec demoEnv (politeOps.take 2 ++ [.trainAll 0 true])
    (initWorld { single := true, regionModel := false } fun _ => none) = .error (.ub .outOfBounds) :=
  fails (by decide +kernel)

/-- With neither kind of model training throws. -/
theorem C87_needs_region_model : exec demoEnv (politeOps.take 18)
    (initWorld { regionModel := false } fun _ => none) = .error .throw := fails (by decide +kernel)

/-- Training throws if models are to be trained again. -/
theorem C87_needs_no_retrain : exec demoEnv (politeOps.take 18)
    (initWorld { retrain := true } fun _ => none) = .error .throw := fails (by decide +kernel)

/-- Training all regions throws if training is collective but the library was built without MPI. -/
theorem C87_needs_no_collective : exec demoEnv (politeOps.take 18)
    (initWorld { collective := true } fun _ => none) = .error .throw := fails (by decide +kernel)

/-- Timers have to work. -/
theorem C87_needs_timers : exec { demoEnv with poll := fun _ _ _ => .failed } politeOps
    (initWorld {} fun _ => none) = .error .abort := fails (by decide +kernel)

/-- Traces have to be writable. -/
theorem C87_needs_traces : exec { demoEnv with canWrite := fun _ => false } (politeOps.take 1)
    (initWorld { traceCsv := true } fun _ => none) = .error .abort := fails (by decide +kernel)

/-- A file in the place of the data of a region has to be readable. -/
theorem C87_needs_no_data : exec demoEnv (politeOps.take 1)
    (initWorld { persistent := true } fun _ => some "nonsense".toList) = .error (.ub .endOfStream) :=
  fails (by decide +kernel)

end Apollo.Props
