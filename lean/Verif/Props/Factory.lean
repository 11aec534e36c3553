import Verif.Props.Models

/-!
# Properties C31, C32: the model factory and StaticRegion
-/

namespace Apollo.Props

open Apollo Apollo.Spec

/-- The parameters of a documented model string: per key, the first value given. -/
theorem parse_documented (name : Str) (items : List Item) (hn : ',' ∉ name)
    (h : ∀ x ∈ items, x.WF) (hd : ∀ x ∈ items, documented name x.key) :
    ∃ params, parsePolicyModel (modelString name items) = .ok (name, params) ∧
      ∀ k, params.find k = firstValue items k := by
  by_cases hne : items = []
  · subst hne
    exact ⟨[], C30_name_only name hn, fun k => rfl⟩
  · exact C30_parse name items hn h hne hd

/-- `StaticRegion` aside, the model is created from the parameters. -/
theorem regionModel_eq (gen : ℕ → ℕ) (region name : Str) (items : List Item) (nf n : ℤ)
    (params : Params) (hns : name ≠ "StaticRegion".toList)
    (hp : parsePolicyModel (modelString name items) = .ok (name, params)) :
    regionModel gen region (modelString name items) nf n = createModel gen name nf n params := by
  unfold regionModel
  rw [hp]
  simp only [Res.bind_ok]
  unfold resolveStaticRegion
  rw [if_neg hns]
  rfl

/-- What a model given by its bare name is. -/
inductive Bare (gen : ℕ → ℕ) (n : ℤ) : Str → PolicyModel → Prop
  | static : Bare gen n "Static".toList (.static n 0)
  | datasetMap : Bare gen n "DatasetMap".toList (.datasetMap n [])
  | roundRobin : Bare gen n "RoundRobin".toList (.newRoundRobin n)
  | random (h : 1 ≤ n) : Bare gen n "Random".toList (.random n gen)
  | optimal : Bare gen n "Optimal".toList (.optimal [])

theorem create_bare (gen : ℕ → ℕ) (n nf : ℤ) (name : Str) (m : PolicyModel)
    (h : Bare gen n name m) (fuel : ℕ) :
    createPolicyModel gen (fuel + 1) name nf n [] = .ok (.model m) := by
  cases h with
  | static =>
    unfold createPolicyModel
    rw [if_pos rfl]
    by_cases hn : n ≤ 0 <;> simp [createStatic, paramOr, Params.find, hn]
  | datasetMap =>
    unfold createPolicyModel
    rw [if_neg (by decide), if_pos rfl]
  | roundRobin =>
    unfold createPolicyModel
    rw [if_neg (by decide), if_neg (by decide), if_neg (by decide), if_pos rfl]
  | random hn =>
    unfold createPolicyModel
    rw [if_neg (by decide), if_neg (by decide), if_pos rfl]
    unfold PolicyModel.newRandom
    rw [if_neg (by omega)]
    rfl
  | optimal =>
    unfold createPolicyModel
    rw [if_neg (by decide), if_neg (by decide), if_neg (by decide), if_neg (by decide),
      if_neg (by decide), if_neg (by decide), if_neg (by decide), if_pos rfl]

/-- C31 (models without parameters). -/
theorem C31_bare (gen : ℕ → ℕ) (region name : Str) (nf n : ℤ) (m : PolicyModel)
    (h : Bare gen n name m) : regionModel gen region name nf n = .ok (.model m) := by
  have hn : ',' ∉ name ∧ name ≠ "StaticRegion".toList := by cases h <;> decide
  have h1 := C30_name_only name hn.1
  have h2 := regionModel_eq gen region name [] nf n [] hn.2 h1
  simp only [modelString, List.map_nil, List.flatten_nil, List.append_nil] at h2
  rw [h2]
  exact create_bare gen n nf name m h 2

example : Bare (fun i => i * i) 3 "Random".toList (.random 3 fun i => i * i) := .random (by decide)

/-- The unsigned parameter `key` is `v`: absent and `v` the default, or given as a number. -/
def UnsignedIs (items : List Item) (key : Str) (dflt v : ℕ) : Prop :=
  (firstValue items key = none ∧ v = dflt) ∨ (firstValue items key = some (fmtInt v) ∧ v < 2 ^ 32)

/-- The real parameter `key` is `v`: absent and `v` the default, or a number text read as `v`. -/
def RealIs (items : List Item) (key : Str) (dflt v : ℚ) : Prop :=
  (firstValue items key = none ∧ v = dflt) ∨
    ∃ q, RangeDouble q ∧ firstValue items key = some (fmtG6 q) ∧ v = rnd64 (round6 q)

/-- The exploration model: `explore=name` of a model without parameters, by default RoundRobin. -/
def ExplorerIs (gen : ℕ → ℕ) (n : ℤ) (items : List Item) (e : PolicyModel) : Prop :=
  (firstValue items "explore".toList = none ∧ Bare gen n "RoundRobin".toList e) ∨
    ∃ name, firstValue items "explore".toList = some name ∧ Bare gen n name e

theorem UnsignedIs.read {items : List Item} {key : Str} {dflt v : ℕ} {params : Params}
    (h : UnsignedIs items key dflt v) (hp : ∀ k, params.find k = firstValue items k) :
    paramOr params key readUnsigned dflt = .ok v := by
  unfold paramOr
  rcases h with ⟨h, rfl⟩ | ⟨h, hv⟩
  · rw [hp, h]
  · rw [hp, h]
    have := stoul_fmtInt (n := v) (by omega) [] (by simp)
    rw [List.append_nil] at this
    simp only [readUnsigned, this, Res.bind_ok]
    rw [Nat.mod_eq_of_lt hv]

theorem RealIs.read {items : List Item} {key : Str} {dflt v : ℚ} {params : Params}
    (h : RealIs items key dflt v) (hp : ∀ k, params.find k = firstValue items k) :
    paramOr params key readDouble dflt = .ok v := by
  unfold paramOr
  rcases h with ⟨h, rfl⟩ | ⟨q, hq, h, rfl⟩
  · rw [hp, h]
  · rw [hp, h]
    have := stod_fmtG6 hq [] (by simp [Stops])
    rw [List.append_nil] at this
    simp only [readDouble, this, Res.bind_ok]

theorem ExplorerIs.name {gen : ℕ → ℕ} {n : ℤ} {items : List Item} {e : PolicyModel}
    {params : Params} (h : ExplorerIs gen n items e)
    (hp : ∀ k, params.find k = firstValue items k) :
    Bare gen n ((params.find "explore".toList).getD "RoundRobin".toList) e := by
  rw [hp]
  rcases h with ⟨h1, h2⟩ | ⟨name, h1, h2⟩
  · rw [h1]; exact h2
  · rw [h1]; exact h2

/-- C31 (DecisionTree): depth 2 and RoundRobin exploration unless given. -/
theorem C31_decisionTree (gen : ℕ → ℕ) (region : Str) (nf n : ℤ) (items : List Item)
    (h : ∀ x ∈ items, x.WF ∧ documented "DecisionTree".toList x.key) (depth : ℕ)
    (hdep : UnsignedIs items "max_depth".toList 2 depth) (e : PolicyModel)
    (he : ExplorerIs gen n items e) :
    regionModel gen region (modelString "DecisionTree".toList items) nf n =
      .ok (.model (.tree n true e (.new n depth))) := by
  obtain ⟨params, h1, h2⟩ := parse_documented "DecisionTree".toList items (by decide)
    (fun x hx => (h x hx).1) (fun x hx => (h x hx).2)
  rw [regionModel_eq gen region _ items nf n params (by decide) h1]
  unfold createModel
  unfold createPolicyModel
  rw [if_neg (by decide), if_neg (by decide), if_neg (by decide), if_neg (by decide), if_pos rfl,
    hdep.read h2]
  simp only [Res.bind_ok]
  rw [create_bare gen n nf _ e (he.name h2) 1]
  rfl

/-- C31 (RandomForest): ten trees of depth 2 and RoundRobin exploration unless given. -/
theorem C31_randomForest (gen : ℕ → ℕ) (region : Str) (nf n : ℤ) (items : List Item)
    (h : ∀ x ∈ items, x.WF ∧ documented "RandomForest".toList x.key) (trees depth : ℕ)
    (htr : UnsignedIs items "num_trees".toList 10 trees)
    (hdep : UnsignedIs items "max_depth".toList 2 depth) (e : PolicyModel)
    (he : ExplorerIs gen n items e) :
    regionModel gen region (modelString "RandomForest".toList items) nf n =
      .ok (.model (.forest n true e (.new n trees depth))) := by
  obtain ⟨params, h1, h2⟩ := parse_documented "RandomForest".toList items (by decide)
    (fun x hx => (h x hx).1) (fun x hx => (h x hx).2)
  rw [regionModel_eq gen region _ items nf n params (by decide) h1]
  unfold createModel
  unfold createPolicyModel
  rw [if_neg (by decide), if_neg (by decide), if_neg (by decide), if_neg (by decide),
    if_neg (by decide), if_pos rfl, htr.read h2, hdep.read h2]
  simp only [Res.bind_ok]
  rw [create_bare gen n nf _ e (he.name h2) 1]
  rfl

/-- C31 (PolicyNet): learning rate 0.01, beta 0.5, beta1 0.5, beta2 0.9, threshold 0 unless given. -/
theorem C31_policyNet (gen : ℕ → ℕ) (region : Str) (nf n : ℤ) (items : List Item)
    (h : ∀ x ∈ items, x.WF ∧ documented "PolicyNet".toList x.key) (lr b b1 b2 thr : ℚ)
    (h1 : RealIs items "lr".toList (rnd64 (1 / 100)) lr)
    (h2 : RealIs items "beta".toList (1 / 2) b) (h3 : RealIs items "beta1".toList (1 / 2) b1)
    (h4 : RealIs items "beta2".toList (rnd64 (9 / 10)) b2)
    (h5 : RealIs items "threshold".toList 0 thr) :
    regionModel gen region (modelString "PolicyNet".toList items) nf n =
      .ok (.policyNet n nf lr b b1 b2 thr) := by
  obtain ⟨params, hp1, hp2⟩ := parse_documented "PolicyNet".toList items (by decide)
    (fun x hx => (h x hx).1) (fun x hx => (h x hx).2)
  rw [regionModel_eq gen region _ items nf n params (by decide) hp1]
  unfold createModel
  unfold createPolicyModel
  rw [if_neg (by decide), if_neg (by decide), if_neg (by decide), if_neg (by decide),
    if_neg (by decide), if_neg (by decide), if_pos rfl, h1.read hp2, h2.read hp2, h3.read hp2,
    h4.read hp2, h5.read hp2]
  rfl

example : (∀ x ∈ ([⟨"max_depth".toList, some "7".toList⟩, ⟨"explore".toList, some "Random".toList⟩] :
      List Item), x.WF ∧ documented "RandomForest".toList x.key) ∧
    UnsignedIs [⟨"max_depth".toList, some "7".toList⟩, ⟨"explore".toList, some "Random".toList⟩]
      "max_depth".toList 2 7 ∧
    UnsignedIs [⟨"max_depth".toList, some "7".toList⟩, ⟨"explore".toList, some "Random".toList⟩]
      "num_trees".toList 10 10 ∧
    ExplorerIs id 4 [⟨"max_depth".toList, some "7".toList⟩,
      ⟨"explore".toList, some "Random".toList⟩] (.random 4 id) := by
  refine ⟨?_, Or.inr ⟨by decide, by decide⟩, Or.inl ⟨by decide, rfl⟩,
    Or.inr ⟨"Random".toList, by decide, .random (by decide)⟩⟩
  intro x hx
  simp only [List.mem_cons, List.not_mem_nil, or_false] at hx
  rcases hx with rfl | rfl <;>
    exact ⟨⟨by decide, by decide, by simp⟩, by simp [documented]⟩

example : RealIs [⟨"lr".toList, some "0.25".toList⟩] "lr".toList (rnd64 (1 / 100)) (1 / 4) :=
  Or.inr ⟨1 / 4, Or.inr (by decide +kernel), by decide +kernel, by decide +kernel⟩

/-- The names the factory knows, and `StaticRegion`. -/
def knownNames : List Str :=
  ["Static".toList, "DatasetMap".toList, "Random".toList, "RoundRobin".toList,
    "DecisionTree".toList, "RandomForest".toList, "PolicyNet".toList, "Optimal".toList,
    "StaticRegion".toList]

/-- C31 (unknown name): creation aborts, whatever the parameters. -/
theorem C31_unknown_aborts (gen : ℕ → ℕ) (region name : Str) (nf n : ℤ) (items : List Item)
    (hn : ',' ∉ name) (h : ∀ x ∈ items, x.WF) (hk : name ∉ knownNames) :
    regionModel gen region (modelString name items) nf n = .error .abort := by
  simp only [knownNames, List.mem_cons, List.not_mem_nil, or_false, not_or] at hk
  obtain ⟨k1, k2, k3, k4, k5, k6, k7, k8, k9⟩ := hk
  by_cases hne : items = []
  · subst hne
    rw [regionModel_eq gen region name [] nf n [] k9 (C30_name_only name hn)]
    unfold createModel createPolicyModel
    simp only [if_neg k1, if_neg k2, if_neg k3, if_neg k4, if_neg k5, if_neg k6, if_neg k7,
      if_neg k8]
  · obtain ⟨x, hx⟩ := List.exists_mem_of_ne_nil items hne
    unfold regionModel
    rw [C30_undocumented_aborts name items hn h
      ⟨x, hx, by simp only [documented, k1, k5, k6, k7, k9, false_and, or_false, not_false_iff]⟩]
    rfl

example : ',' ∉ "Sttic".toList ∧ "Sttic".toList ∉ knownNames := by decide

/-- C31 (unknown explorer): a DecisionTree whose exploration model does not exist aborts. -/
theorem C31_unknown_explorer_aborts (gen : ℕ → ℕ) (region ename : Str) (nf n : ℤ)
    (items : List Item) (h : ∀ x ∈ items, x.WF ∧ documented "DecisionTree".toList x.key)
    (he : firstValue items "explore".toList = some ename)
    (hk : ename ∉ knownNames ∨ ename = "StaticRegion".toList)
    (hd : firstValue items "max_depth".toList = none) :
    regionModel gen region (modelString "DecisionTree".toList items) nf n = .error .abort := by
  obtain ⟨params, h1, h2⟩ := parse_documented "DecisionTree".toList items (by decide)
    (fun x hx => (h x hx).1) (fun x hx => (h x hx).2)
  rw [regionModel_eq gen region _ items nf n params (by decide) h1]
  unfold createModel
  unfold createPolicyModel
  rw [if_neg (by decide), if_neg (by decide), if_neg (by decide), if_neg (by decide), if_pos rfl]
  unfold paramOr
  rw [h2, hd, h2, he]
  simp only [Res.bind_ok, Option.getD_some]
  have hk' : ename ≠ "Static".toList ∧ ename ≠ "DatasetMap".toList ∧ ename ≠ "Random".toList ∧
      ename ≠ "RoundRobin".toList ∧ ename ≠ "DecisionTree".toList ∧
      ename ≠ "RandomForest".toList ∧ ename ≠ "PolicyNet".toList ∧ ename ≠ "Optimal".toList := by
    rcases hk with hk | rfl
    · simp only [knownNames, List.mem_cons, List.not_mem_nil, or_false, not_or] at hk
      obtain ⟨k1, k2, k3, k4, k5, k6, k7, k8, -⟩ := hk
      exact ⟨k1, k2, k3, k4, k5, k6, k7, k8⟩
    · decide
  obtain ⟨k1, k2, k3, k4, k5, k6, k7, k8⟩ := hk'
  unfold createPolicyModel
  simp only [if_neg k1, if_neg k2, if_neg k3, if_neg k4, if_neg k5, if_neg k6, if_neg k7,
    if_neg k8]
  rfl

example : "Greedy".toList ∉ knownNames ∧
    firstValue [⟨"explore".toList, some "Greedy".toList⟩] "explore".toList =
      some "Greedy".toList := by decide

/-- C31 (bad number): a numeric parameter that does not start with a number throws. -/
theorem C31_bad_number_throws (gen : ℕ → ℕ) (region text : Str) (nf n : ℤ) (items : List Item)
    (h : ∀ x ∈ items, x.WF ∧ documented "DecisionTree".toList x.key)
    (hd : firstValue items "max_depth".toList = some text)
    (ht : ∀ c ∈ text.head?, isDigit c = false ∧ isSpace c = false ∧ c ≠ '+' ∧ c ≠ '-') :
    regionModel gen region (modelString "DecisionTree".toList items) nf n = .error .throw := by
  obtain ⟨params, h1, h2⟩ := parse_documented "DecisionTree".toList items (by decide)
    (fun x hx => (h x hx).1) (fun x hx => (h x hx).2)
  rw [regionModel_eq gen region _ items nf n params (by decide) h1]
  have hr : readInt text = none := by
    cases text with
    | nil => decide
    | cons c cs =>
      obtain ⟨a, b, d, e⟩ := ht c (by simp)
      have : readSign (c :: cs) = (false, c :: cs) := by
        unfold readSign
        split <;> simp_all
      simp [readInt, b, this, a]
  unfold createModel
  unfold createPolicyModel
  rw [if_neg (by decide), if_neg (by decide), if_neg (by decide), if_neg (by decide), if_pos rfl]
  unfold paramOr
  rw [h2, hd]
  simp only [readUnsigned, stoul, hr]
  rfl

example : ∀ c ∈ "deep".toList.head?, isDigit c = false ∧ isSpace c = false ∧ c ≠ '+' ∧ c ≠ '-' := by
  decide

/-! ## C32: StaticRegion -/

/-- The items `r=p`. -/
def regionItems (rs : List (Str × ℤ)) : List Item := rs.map fun r => ⟨r.1, some (fmtInt r.2)⟩

/-- The policy of the first entry for the region. -/
def firstPolicy : List (Str × ℤ) → Str → Option ℤ
  | [], _ => none
  | r :: rs, k => if r.1 = k then some r.2 else firstPolicy rs k

theorem firstValue_regionItems (rs : List (Str × ℤ)) (k : Str) :
    firstValue (regionItems rs) k = (firstPolicy rs k).map fmtInt := by
  induction rs with
  | nil => rfl
  | cons r rs ih =>
    simp only [regionItems, List.map_cons, firstValue, firstPolicy, Option.getD_some] at ih ⊢
    split
    · rfl
    · exact ih

theorem regionModel_staticRegion (gen : ℕ → ℕ) (region : Str) (nf n : ℤ) (rs : List (Str × ℤ))
    (h : ∀ r ∈ rs, ',' ∉ r.1 ∧ '=' ∉ r.1 ∧ -2 ^ 31 ≤ r.2 ∧ r.2 < 2 ^ 31) :
    regionModel gen region (modelString "StaticRegion".toList (regionItems rs)) nf n =
      match firstPolicy rs (region.take 63) with
      | none => .error .abort
      | some p => if p < 0 then .error .throw
        else .ok (.model (.static n (if n ≤ p then 0 else p))) := by
  obtain ⟨params, h1, h2⟩ := parse_documented "StaticRegion".toList (regionItems rs) (by decide)
    (by
      intro x hx
      obtain ⟨r, hr, rfl⟩ := List.mem_map.1 hx
      refine ⟨(h r hr).1, (h r hr).2.1, ?_⟩
      intro v hv
      simp only [Option.some.injEq] at hv
      subst hv
      exact PolicyModel.comma_not_mem_fmtInt _)
    (by intro x hx; simp [documented])
  unfold regionModel
  rw [h1]
  simp only [Res.bind_ok]
  unfold resolveStaticRegion truncName
  rw [if_pos rfl, h2, firstValue_regionItems]
  cases hf : firstPolicy rs (region.take 63) with
  | none => rfl
  | some p =>
    have hp : -2 ^ 31 ≤ p ∧ p < 2 ^ 31 := by
      clear h1 h2
      induction rs with
      | nil => simp [firstPolicy] at hf
      | cons r rs ih =>
        simp only [firstPolicy] at hf
        split at hf
        · simp only [Option.some.injEq] at hf
          subst hf
          exact (h r (by simp)).2.2
        · exact ih (fun r hr => h r (by simp [hr])) hf
    have h0 := stoi_fmtInt hp [] (by simp)
    rw [List.append_nil] at h0
    simp only [Option.map_some, Res.bind_ok]
    unfold createModel createPolicyModel
    rw [if_pos rfl]
    unfold createStatic paramOr
    simp only [Params.find, List.find?_cons, decide_true, Option.map_some, readInt', h0,
      Res.bind_ok]
    split
    · rfl
    · split <;> rfl

/-- C32 (named): a region in the list always gets its policy, or 0 if that is too large. -/
theorem C32_named_partial (gen : ℕ → ℕ) (region : Str) (nf n p : ℤ) (rs : List (Str × ℤ))
    (h : ∀ r ∈ rs, ',' ∉ r.1 ∧ '=' ∉ r.1 ∧ -2 ^ 31 ≤ r.2 ∧ r.2 < 2 ^ 31)
    (hl : region.length ≤ 63) (hp : firstPolicy rs region = some p) (h0 : 0 ≤ p) :
    ∃ m, regionModel gen region (modelString "StaticRegion".toList (regionItems rs)) nf n =
        .ok (.model m) ∧
      ∀ fs, ∃ m', m.indices fs = .ok (List.replicate fs.length (if p < n then p else 0), m') := by
  refine ⟨_, ?_, fun fs => ⟨_, PolicyModel.indices_static n (if p < n then p else 0) fs⟩⟩
  rw [regionModel_staticRegion gen region nf n rs h, List.take_of_length_le hl, hp]
  simp only
  rw [if_neg (by omega)]
  by_cases hn : n ≤ p
  · rw [if_pos hn, if_neg (by omega)]
  · rw [if_neg hn, if_pos (by omega)]

/-- C32 (negative): creation throws. -/
theorem C32_negative_throws (gen : ℕ → ℕ) (region : Str) (nf n p : ℤ) (rs : List (Str × ℤ))
    (h : ∀ r ∈ rs, ',' ∉ r.1 ∧ '=' ∉ r.1 ∧ -2 ^ 31 ≤ r.2 ∧ r.2 < 2 ^ 31)
    (hl : region.length ≤ 63) (hp : firstPolicy rs region = some p) (h0 : p < 0) :
    regionModel gen region (modelString "StaticRegion".toList (regionItems rs)) nf n =
      .error .throw := by
  rw [regionModel_staticRegion gen region nf n rs h, List.take_of_length_le hl, hp]
  simp only
  rw [if_pos h0]

/-- C32 (not named): creation aborts. -/
theorem C32_unnamed_aborts (gen : ℕ → ℕ) (region : Str) (nf n : ℤ) (rs : List (Str × ℤ))
    (h : ∀ r ∈ rs, ',' ∉ r.1 ∧ '=' ∉ r.1 ∧ -2 ^ 31 ≤ r.2 ∧ r.2 < 2 ^ 31)
    (hl : region.length ≤ 63) (hp : ∀ r ∈ rs, r.1 ≠ region) :
    regionModel gen region (modelString "StaticRegion".toList (regionItems rs)) nf n =
      .error .abort := by
  rw [regionModel_staticRegion gen region nf n rs h, List.take_of_length_le hl]
  have : firstPolicy rs region = none := by
    clear h
    induction rs with
    | nil => rfl
    | cons r rs ih =>
      simp only [firstPolicy]
      rw [if_neg (hp r (by simp))]
      exact ih fun r hr => hp r (by simp [hr])
  rw [this]

example : (∀ r ∈ [("solve".toList, (2 : ℤ)), ("halo".toList, 0), ("solve".toList, 1)],
      ',' ∉ r.1 ∧ '=' ∉ r.1 ∧ -2 ^ 31 ≤ r.2 ∧ r.2 < 2 ^ 31) ∧
    firstPolicy [("solve".toList, 2), ("halo".toList, 0), ("solve".toList, 1)] "solve".toList =
      some 2 := by decide

/-- C32 fails for names of more than 63 characters: a region named exactly as in the list aborts,
because the region's name has been cut before it is looked up. -/
theorem C32_long_name_aborts (gen : ℕ → ℕ) (region : Str) (nf n p : ℤ) (hl : 63 < region.length)
    (h : ',' ∉ region ∧ '=' ∉ region) (hp : 0 ≤ p ∧ p < 2 ^ 31) :
    regionModel gen region (modelString "StaticRegion".toList (regionItems [(region, p)])) nf n =
      .error .abort := by
  rw [regionModel_staticRegion gen region nf n _ (by
    intro r hr
    simp only [List.mem_cons, List.not_mem_nil, or_false] at hr
    subst hr
    exact ⟨h.1, h.2, by linarith [show (-2:ℤ)^31 ≤ 0 by norm_num, hp.1], hp.2⟩)]
  have : firstPolicy [(region, p)] (region.take 63) = none := by
    simp only [firstPolicy]
    rw [if_neg]
    intro he
    have := congrArg List.length he
    rw [List.length_take] at this
    omega
  rw [this]

example : 63 < (List.replicate 64 'x').length ∧ ',' ∉ List.replicate 64 'x' ∧
    '=' ∉ List.replicate 64 'x' := by decide

end Apollo.Props
