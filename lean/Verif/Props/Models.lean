import Verif.Proofs.PolicyModels
import Verif.Props.Dataset
import Mathlib.Data.Nat.ModEq

/-!
# Properties C10–C15, C30–C32: simple policy models, model strings, factory

`regionModel gen region info numFeatures n` is the model a region gets from its model string `info`;
`m.indices fs` are the policies returned by the calls `getIndex(f)` for the features in `fs`, in order,
with the model afterwards.
-/

namespace Apollo.Props

open Apollo Apollo.Spec

/-! ## C30: model strings -/

/-- C30 (no parameters): a string without `,` is the model name. -/
theorem C30_name_only (name : Str) (hn : ',' ∉ name) :
    parsePolicyModel (modelString name []) = .ok (name, []) := by
  rw [parse_modelString name [] hn (by simp)]; simp

/-- C30: the name and, for every key, the value of the first item with this key. -/
theorem C30_parse (name : Str) (items : List Item) (hn : ',' ∉ name) (h : ∀ x ∈ items, x.WF)
    (hne : items ≠ []) (hd : ∀ x ∈ items, documented name x.key) :
    ∃ params, parsePolicyModel (modelString name items) = .ok (name, params) ∧
      ∀ k, params.find k = firstValue items k := by
  refine ⟨paramsOf [] items, ?_, ?_⟩
  · rw [parse_modelString name items hn h, if_neg hne, validate_ok]
    · rfl
    · exact paramsOf_ne_nil items hne
    · intro k hk
      rcases (mem_paramsOf_key items [] k).1 hk with h0 | ⟨i, hi, rfl⟩
      · simp at h0
      · exact hd i hi
  · intro k
    rw [find_paramsOf]
    simp [Params.find]

example : ∀ x ∈ ([⟨"max_depth".toList, some "4".toList⟩, ⟨"load".toList, none⟩,
      ⟨"max_depth".toList, some "a=b".toList⟩] : List Item),
    x.WF ∧ documented "DecisionTree".toList x.key := by
  intro x hx
  simp only [List.mem_cons, List.not_mem_nil, or_false] at hx
  rcases hx with rfl | rfl | rfl <;>
    exact ⟨⟨by decide, by decide, by simp⟩, by simp [documented]⟩

/-- C30 (rejection): an undocumented key aborts; for models without parameters every key is
undocumented. -/
theorem C30_undocumented_aborts (name : Str) (items : List Item) (hn : ',' ∉ name)
    (h : ∀ x ∈ items, x.WF) (hd : ∃ x ∈ items, ¬ documented name x.key) :
    parsePolicyModel (modelString name items) = .error .abort := by
  obtain ⟨x, hx, hd⟩ := hd
  rw [parse_modelString name items hn h, if_neg (List.ne_nil_of_mem hx), validate_abort]
  · rfl
  · exact ⟨x.key, (mem_paramsOf_key items [] x.key).2 (Or.inr ⟨x, hx, rfl⟩), hd⟩

example : ¬ documented "RoundRobin".toList "policy".toList ∧
    ¬ documented "Static".toList "max_depth".toList := by
  constructor <;> simp [documented]

/-! ## C10: Static -/

/-- The parameter `policy=p` as written by the user. -/
def policyItem (p : ℤ) : Item := ⟨"policy".toList, some (fmtInt p)⟩

theorem regionModel_static (gen : ℕ → ℕ) (region : Str) (p nf n : ℤ)
    (hp : -2 ^ 31 ≤ p ∧ p < 2 ^ 31) :
    regionModel gen region (modelString "Static".toList [policyItem p]) nf n =
      if p < 0 then .error .throw
      else .ok (.model (.static n (if n ≤ p then 0 else p))) := by
  have hwf : ∀ x ∈ [policyItem p], x.WF := by
    intro x hx
    simp only [List.mem_cons, List.not_mem_nil, or_false] at hx
    subst hx
    refine ⟨by simp [policyItem], by simp [policyItem], ?_⟩
    intro v hv
    simp only [policyItem, Option.some.injEq] at hv
    subst hv
    exact PolicyModel.comma_not_mem_fmtInt p
  obtain ⟨params, h1, h2⟩ := C30_parse "Static".toList [policyItem p] (by decide) hwf (by simp)
    (by intro x hx; simp only [List.mem_cons, List.not_mem_nil, or_false] at hx; subst hx
        exact Or.inl ⟨rfl, rfl⟩)
  have h3 : params.find "policy".toList = some (fmtInt p) := by
    rw [h2]; simp [firstValue, policyItem]
  have h0 := stoi_fmtInt hp [] (by simp)
  rw [List.append_nil] at h0
  unfold regionModel
  rw [h1]
  simp only [Res.bind_ok]
  rw [show resolveStaticRegion (truncName region) "Static".toList params
      (modelString "Static".toList [policyItem p]) =
      .ok ("Static".toList, params, modelString "Static".toList [policyItem p]) from by
    unfold resolveStaticRegion; rw [if_neg (by decide)]]
  simp only [Res.bind_ok]
  unfold createModel createPolicyModel
  rw [if_pos rfl]
  unfold createStatic paramOr
  rw [h3]
  simp only [readInt', h0, Res.bind_ok]
  split
  · rfl
  · split <;> rfl

/-- C10 (in range): with `policy=p`, `0 ≤ p < num_policies`, every call returns `p`. -/
theorem C10_in_range (gen : ℕ → ℕ) (region : Str) (p nf n : ℤ) (h0 : 0 ≤ p) (hn : p < n)
    (hp : p < 2 ^ 31) :
    ∃ m, regionModel gen region (modelString "Static".toList [policyItem p]) nf n = .ok (.model m) ∧
      ∀ fs, ∃ m', m.indices fs = .ok (List.replicate fs.length p, m') := by
  refine ⟨_, ?_, fun fs => ⟨_, PolicyModel.indices_static n p fs⟩⟩
  rw [regionModel_static gen region p nf n ⟨by linarith [show (-2:ℤ)^31 ≤ 0 by norm_num], hp⟩,
    if_neg (by omega), if_neg (by omega)]

/-- C10 (too large): with `p ≥ num_policies` every call returns 0. -/
theorem C10_too_large (gen : ℕ → ℕ) (region : Str) (p nf n : ℤ) (h0 : 0 ≤ p) (hn : n ≤ p)
    (hp : p < 2 ^ 31) :
    ∃ m, regionModel gen region (modelString "Static".toList [policyItem p]) nf n = .ok (.model m) ∧
      ∀ fs, ∃ m', m.indices fs = .ok (List.replicate fs.length 0, m') := by
  refine ⟨_, ?_, fun fs => ⟨_, PolicyModel.indices_static n 0 fs⟩⟩
  rw [regionModel_static gen region p nf n ⟨by linarith [show (-2:ℤ)^31 ≤ 0 by norm_num], hp⟩,
    if_neg (by omega), if_pos hn]

/-- C10 (negative): creation throws. -/
theorem C10_negative_throws (gen : ℕ → ℕ) (region : Str) (p nf n : ℤ) (h0 : p < 0)
    (hp : -2 ^ 31 ≤ p) :
    regionModel gen region (modelString "Static".toList [policyItem p]) nf n = .error .throw := by
  rw [regionModel_static gen region p nf n ⟨hp, by linarith [show (0:ℤ) < 2^31 by norm_num]⟩,
    if_pos h0]

/-- C10 (default): without parameter every call returns 0. -/
theorem C10_default (gen : ℕ → ℕ) (region : Str) (nf n : ℤ) :
    ∃ m, regionModel gen region "Static".toList nf n = .ok (.model m) ∧
      ∀ fs, ∃ m', m.indices fs = .ok (List.replicate fs.length 0, m') := by
  refine ⟨.static n 0, ?_, fun fs => ⟨_, PolicyModel.indices_static n 0 fs⟩⟩
  have : parsePolicyModel "Static".toList = .ok ("Static".toList, []) := by
    have := C30_name_only "Static".toList (by decide)
    simpa [modelString] using this
  unfold regionModel
  rw [this]
  simp only [Res.bind_ok]
  rw [show resolveStaticRegion (truncName region) "Static".toList [] "Static".toList =
      .ok ("Static".toList, [], "Static".toList) from by
    unfold resolveStaticRegion; rw [if_neg (by decide)]]
  simp only [Res.bind_ok]
  unfold createModel createPolicyModel
  rw [if_pos rfl]
  by_cases hn : n ≤ 0 <;> simp [createStatic, paramOr, Params.find, hn]

/-! ## C11: RoundRobin -/

/-- C11 (sequence): call number `k` returns `k mod n`, whatever the features. -/
theorem C11_sequence (n : ℕ) (hn : 0 < n) (fs : List Features) :
    ∃ m, (PolicyModel.newRoundRobin n).indices fs =
      .ok ((List.range fs.length).map (fun k => ((k % n : ℕ) : ℤ)), m) := by
  have := PolicyModel.roundRobin_all n hn (-1) 0 fs (by simp)
  simp only [Nat.zero_add] at this
  exact this

/-- C11 (fairness): in any `n` consecutive calls every policy is returned exactly once. -/
theorem C11_fair (n : ℕ) (hn : 0 < n) (before fs : List Features) (h : fs.length = n) :
    ∃ m0 m cs ds, (PolicyModel.newRoundRobin n).indices before = .ok (cs, m0) ∧
      m0.indices fs = .ok (ds, m) ∧ ∀ p : ℤ, 0 ≤ p → p < n → ds.count p = 1 := by
  obtain ⟨m, hm⟩ := C11_sequence n hn (before ++ fs)
  rw [PolicyModel.indices_append] at hm
  obtain ⟨p1, h1, h2⟩ := (Res.bind_eq_ok _ _ _).1 hm
  obtain ⟨p2, h3, h4⟩ := (Res.bind_eq_ok _ _ _).1 h2
  obtain ⟨m1, hm1⟩ := C11_sequence n hn before
  rw [h1] at hm1
  simp only [Except.ok.injEq] at hm1
  simp only [Except.ok.injEq, Prod.mk.injEq] at h4
  refine ⟨p1.2, p2.2, p1.1, p2.1, by rw [h1], by rw [h3], ?_⟩
  have hp1 : p1.1 = (List.range before.length).map (fun k => ((k % n : ℕ) : ℤ)) := by rw [hm1]
  have hp2 : p2.1 = (List.range n).map (fun k => (((before.length + k) % n : ℕ) : ℤ)) := by
    have e := h4.1
    rw [hp1, List.length_append, h, List.range_add, List.map_append] at e
    have := List.append_cancel_left e
    rw [this, List.map_map]
    rfl
  intro p hp0 hpn
  obtain ⟨q, rfl⟩ := Int.eq_ofNat_of_zero_le hp0
  have hq : q < n := by omega
  rw [hp2]
  have hnd : ((List.range n).map (fun k => (((before.length + k) % n : ℕ) : ℤ))).Nodup := by
    apply List.Nodup.map_on _ List.nodup_range
    intro x hx y hy hxy
    rw [List.mem_range] at hx hy
    have h' : (before.length + x) % n = (before.length + y) % n := by exact_mod_cast hxy
    have h'' : x % n = y % n := Nat.ModEq.add_left_cancel (Nat.ModEq.refl before.length) h'
    rwa [Nat.mod_eq_of_lt hx, Nat.mod_eq_of_lt hy] at h''
  apply List.count_eq_one_of_mem hnd
  rw [List.mem_map]
  refine ⟨(q + n - before.length % n) % n, List.mem_range.2 (Nat.mod_lt _ hn), ?_⟩
  have hlt := Nat.mod_lt before.length hn
  have : (before.length + (q + n - before.length % n) % n) % n = q := by
    rw [Nat.add_mod, Nat.mod_mod, ← Nat.add_mod]
    have e : before.length = n * (before.length / n) + before.length % n := (Nat.div_add_mod _ _).symm
    have e2 : before.length + (q + n - before.length % n) = q + n * (before.length / n + 1) := by
      rw [Nat.mul_add]; omega
    rw [e2, Nat.add_mul_mod_self_left, Nat.mod_eq_of_lt hq]
  rw [this]

example : ∃ m, (PolicyModel.newRoundRobin 3).indices [[1], [2], [1], [], [7, 8]] =
    .ok ([0, 1, 2, 0, 1], m) := ⟨_, rfl⟩

/-! ## C12: Random -/

/-- C12 (range): every call returns a policy in `[0, n)`, for every random stream. -/
theorem C12_in_range (n : ℕ) (hn : 0 < n) (gen : ℕ → ℕ) :
    ∃ m0, PolicyModel.newRandom n gen = .ok m0 ∧
      ∀ fs, ∃ cs m, m0.indices fs = .ok (cs, m) ∧ cs.length = fs.length ∧
        ∀ c ∈ cs, 0 ≤ c ∧ c < n := by
  refine ⟨.random n gen, ?_, ?_⟩
  · unfold PolicyModel.newRandom; rw [if_neg (by omega)]
  · intro fs
    by_cases h1 : n = 1
    · subst h1
      refine ⟨_, _, PolicyModel.random_one gen fs, by simp, ?_⟩
      intro c hc
      rw [List.eq_of_mem_replicate hc]
      norm_num
    · refine ⟨_, _, PolicyModel.random_all n (by omega) gen fs, by simp, ?_⟩
      intro c hc
      obtain ⟨i, _, rfl⟩ := List.mem_map.1 hc
      refine ⟨by omega, ?_⟩
      have := Nat.mod_lt (gen i) hn
      omega

/-- C12 (every policy possible): every sequence of policies in range is returned for some random
stream. -/
theorem C12_all_possible (n : ℕ) (hn : 0 < n) (cs : List ℕ) (h : ∀ c ∈ cs, c < n)
    (fs : List Features) (hl : fs.length = cs.length) :
    ∃ gen m0 m, PolicyModel.newRandom n gen = .ok m0 ∧
      m0.indices fs = .ok (cs.map Int.ofNat, m) := by
  refine ⟨fun i => cs.getD i 0, .random n (fun i => cs.getD i 0), ?_⟩
  by_cases h1 : n = 1
  · subst h1
    refine ⟨.random 1 (fun i => cs.getD i 0), by simp [PolicyModel.newRandom], ?_⟩
    refine (PolicyModel.random_one _ fs).trans ?_
    have : cs.map Int.ofNat = List.replicate fs.length 0 := by
      rw [List.eq_replicate_iff]
      refine ⟨by simp [hl], ?_⟩
      intro b hb
      obtain ⟨c, hc, rfl⟩ := List.mem_map.1 hb
      have := h c hc
      rw [show c = 0 by omega]; rfl
    rw [this]
  · refine ⟨.random n (fun k => cs.getD (k + fs.length) 0),
      by unfold PolicyModel.newRandom; rw [if_neg (by omega)],
      (PolicyModel.random_all n (by omega) _ fs).trans ?_⟩
    simp only [Except.ok.injEq, Prod.mk.injEq, and_true]
    apply List.ext_getElem (by simp [hl])
    intro i h1 h2
    have hi : i < cs.length := by simpa using h2
    have hc := Nat.mod_eq_of_lt (h _ (List.getElem_mem hi))
    simp only [List.getElem_map, List.getElem_range, List.getD_eq_getElem?_getD,
      List.getElem?_eq_getElem hi, Option.getD_some, hc]
    rfl

example : ∀ c ∈ [2, 0, 2, 1], c < 3 := by decide

/-! ## C13: Optimal -/

/-- C13: the file `p1,p2,…,pk`, possibly followed by a newline, is replayed; the next call aborts. -/
theorem C13_replay (ps : List ℤ) (h : ∀ p ∈ ps, -2 ^ 31 ≤ p ∧ p < 2 ^ 31) (hne : ps ≠ [])
    (suffix : List Char) (hs : suffix = [] ∨ suffix = ['\n']) :
    ∃ m0 m, PolicyModel.load (some ([','].intercalate (ps.map fmtInt) ++ suffix)) (.optimal []) =
        .ok m0 ∧
      ∀ fs, fs.length = ps.length →
        m0.indices fs = .ok (ps, m) ∧ ∀ f, m.getIndex f = .error .abort := by
  refine ⟨.optimal ps, .optimal [], ?_, ?_⟩
  · rw [← PolicyModel.commaText_eq]
    simp only [PolicyModel.load]
    rw [PolicyModel.loadOptimal_text [] ps suffix h _ _ hne]
    · simp
    · rcases hs with rfl | rfl
      · simp
      · simp; decide
    · rcases hs with rfl | rfl <;> decide
  · intro fs hl
    have := PolicyModel.optimal_all ps [] fs hl
    rw [List.append_nil] at this
    exact ⟨this, fun f => rfl⟩

example : [','].intercalate ([3, -1, 0].map fmtInt) = "3,-1,0".toList := by decide +kernel

/-- C13 (several files): policies loaded later are replayed after those loaded before. -/
theorem C13_loads (files : List (List ℤ))
    (h : ∀ ps ∈ files, ps ≠ [] ∧ ∀ p ∈ ps, -2 ^ 31 ≤ p ∧ p < 2 ^ 31) :
    ∃ m0 m, files.foldlM (fun m ps => PolicyModel.load (some ([','].intercalate (ps.map fmtInt))) m)
        (.optimal []) = .ok m0 ∧
      ∀ fs, fs.length = files.flatten.length →
        m0.indices fs = .ok (files.flatten, m) ∧ ∀ f, m.getIndex f = .error .abort := by
  have key : ∀ q, files.foldlM (fun m ps =>
      PolicyModel.load (some ([','].intercalate (ps.map fmtInt))) m) (.optimal q) =
        .ok (.optimal (q ++ files.flatten)) := by
    induction files with
    | nil => intro q; simp [pure, Except.pure]
    | cons ps files ih =>
      intro q
      obtain ⟨hne, hp⟩ := h ps (by simp)
      rw [List.foldlM_cons, ← List.append_nil ([','].intercalate _), ← PolicyModel.commaText_eq]
      simp only [PolicyModel.load]
      rw [PolicyModel.loadOptimal_text q ps [] hp (by simp) (by simp) hne]
      exact (ih (fun ps hps => h ps (by simp [hps])) (q ++ ps)).trans (by simp)
  refine ⟨.optimal files.flatten, .optimal [], by simpa using key [], ?_⟩
  intro fs hl
  have := PolicyModel.optimal_all files.flatten [] fs hl
  rw [List.append_nil] at this
  exact ⟨this, fun f => rfl⟩

example : ∀ ps ∈ [[3, -1, 0], [2]], ps ≠ [] ∧ ∀ p ∈ ps, (-2 : ℤ) ^ 31 ≤ p ∧ p < 2 ^ 31 := by decide

/-- C13 (empty file): the first call aborts. -/
theorem C13_empty (f : Features) :
    ∃ m0, PolicyModel.load (some []) (.optimal []) = .ok m0 ∧ m0.getIndex f = .error .abort :=
  ⟨.optimal [], rfl, rfl⟩

/-! ## C14: DatasetMap -/

/-- C14: after training on the measurements of history `h` (whatever it held before), the model
answers with the best policy for measured features and aborts for all others. -/
theorem C14_best (env : TrainEnv) (h : List Meas) (n : ℤ) (old : OMap Features (ℤ × ℚ)) :
    ∃ m, PolicyModel.train env (run h) (.datasetMap n old) = .ok m ∧
      ∀ f,
        (∀ p, (∃ m', m.getIndex f = .ok (p, m')) ↔ IsBest (entries h) f p) ∧
        ((∀ x ∈ h, x.features ≠ f) → m.getIndex f = .error .abort) ∧
        (∀ p m', m.getIndex f = .ok (p, m') → m' = m) := by
  refine ⟨.datasetMap n (Dataset.bestPolicies (run h)), rfl, fun f => ⟨?_, ?_, ?_⟩⟩
  · intro p
    have key : ∀ m, OMap.find (Dataset.bestPolicies (run h)) f = some (p, m) ↔ _ :=
      fun m => Dataset.best_iff (run_sorted h) f p m
    constructor
    · rintro ⟨m', hm⟩
      simp only [PolicyModel.getIndex] at hm
      cases hf : OMap.find (Dataset.bestPolicies (run h)) f with
      | none => rw [hf] at hm; simp at hm
      | some b =>
        obtain ⟨p', m''⟩ := b
        rw [hf] at hm
        simp only [Except.ok.injEq, Prod.mk.injEq] at hm
        obtain ⟨rfl, -⟩ := hm
        exact ((key m'').1 hf).1
    · intro hb
      obtain ⟨m, hm, -⟩ := id hb
      have hfind : OMap.find (run h) (mkKey f p) = some m := by
        rw [(run_sorted h).find_eq_some_iff]
        exact Dataset.mem_toVector.1 hm
      have := (key m).2 ⟨hb, hfind⟩
      exact ⟨.datasetMap n (Dataset.bestPolicies (run h)), by simp [PolicyModel.getIndex, this]⟩
  · intro hx
    have : OMap.find (Dataset.bestPolicies (run h)) f = none := by
      rw [← Option.not_isSome_iff_eq_none, OMap.find_isSome_iff,
        Dataset.mem_bestPolicies_keys (run_sorted h)]
      rintro ⟨p, m, hm⟩
      have : (f, p, m) ∈ entries h := Dataset.mem_toVector.2 hm
      obtain ⟨x, hx', he, -⟩ := (C01_key_iff h f p).1 ⟨m, this⟩
      exact hx x hx' he
    simp [PolicyModel.getIndex, this]
  · intro p m' hm
    simp only [PolicyModel.getIndex] at hm
    split at hm
    · simp at hm
    · simp only [Except.ok.injEq, Prod.mk.injEq] at hm
      exact hm.2.symm

example : IsBest (entries [⟨[1], 0, 4⟩, ⟨[1], 1, 2⟩, ⟨[1], 2, 2⟩, ⟨[2], 0, 1⟩]) [1] 1 := by
  refine ⟨2, by decide +kernel, ?_⟩
  have : entries [⟨[1], 0, 4⟩, ⟨[1], 1, 2⟩, ⟨[1], 2, 2⟩, ⟨[2], 0, 1⟩] =
    [([1], 0, 4), ([1], 1, 2), ([1], 2, 2), ([2], 0, 1)] := by decide +kernel
  rw [this]
  intro p' m' h
  simp only [List.mem_cons, Prod.mk.injEq, List.not_mem_nil, or_false, List.cons.injEq,
    and_true, true_and] at h
  rcases h with ⟨rfl, rfl⟩ | ⟨rfl, rfl⟩ | ⟨rfl, rfl⟩ | ⟨h, -⟩ <;> norm_num at *

/-! ## C15: exploration until training -/

/-- The operations a region performs on its model. -/
inductive Op where
  | getIndex (f : Features)
  | train (env : TrainEnv) (ds : Dataset)
  | load (file : Option (List Char))
  | store

/-- One operation: the answer of `getIndex`, if it was that, and the model afterwards. -/
def Op.run (m : PolicyModel) : Op → Res (Option ℤ × PolicyModel)
  | .getIndex f => do
    let (c, m) ← m.getIndex f
    .ok (some c, m)
  | .train env ds => do
    let m ← m.train env ds
    .ok (none, m)
  | .load file => do
    let m ← m.load file
    .ok (none, m)
  | .store => do
    let _ ← m.store
    .ok (none, m)

/-- A sequence of operations: the answers in order and the model afterwards. -/
def runOps : PolicyModel → List Op → Res (List ℤ × PolicyModel)
  | m, [] => .ok ([], m)
  | m, o :: os => do
    let (a, m) ← o.run m
    let (as, m) ← runOps m os
    .ok (a.toList ++ as, m)

/-- Operations that train or load. -/
def Op.settles : Op → Bool
  | .train _ _ | .load _ => true
  | _ => false

/-- The features of the `getIndex` operations, in order. -/
def Op.queries (os : List Op) : List Features :=
  os.filterMap fun
    | .getIndex f => some f
    | _ => none

/-- A DecisionTree or RandomForest model with the given exploration model. -/
def Learner (m : PolicyModel) (trainable : Bool) (explorer : PolicyModel) : Prop :=
  (∃ n t, m = .tree n trainable explorer t) ∨ (∃ n t, m = .forest n trainable explorer t)

/-- The prediction of the trained part of a DecisionTree or RandomForest model. -/
def prediction : PolicyModel → Features → Res ℤ
  | .tree _ _ _ t, f => t.predict f
  | .forest _ _ _ t, f => t.predict f
  | _, _ => .error .unmodelled

/-- C15 (before): while only `getIndex` and `store` are called, the answers are exactly those the
exploration model gives to the same queries, whose state advances accordingly, and the model stays
trainable. -/
theorem C15_explores (m e : PolicyModel) (hm : Learner m true e) (os : List Op)
    (hs : ∀ o ∈ os, o.settles = false) (as : List ℤ) (m' : PolicyModel)
    (hr : runOps m os = .ok (as, m')) :
    ∃ e', e.indices (Op.queries os) = .ok (as, e') ∧ Learner m' true e' := by
  induction os generalizing m e as with
  | nil =>
    simp only [runOps, Except.ok.injEq, Prod.mk.injEq] at hr
    obtain ⟨rfl, rfl⟩ := hr
    exact ⟨e, rfl, hm⟩
  | cons o os ih =>
    have hs' : ∀ o ∈ os, o.settles = false := fun x hx => hs x (by simp [hx])
    simp only [runOps] at hr
    obtain ⟨⟨a, m1⟩, h1, h2⟩ := (Res.bind_eq_ok _ _ _).1 hr
    obtain ⟨⟨as', m2⟩, h3, h4⟩ := (Res.bind_eq_ok _ _ _).1 h2
    simp only [Except.ok.injEq, Prod.mk.injEq] at h4
    obtain ⟨rfl, rfl⟩ := h4
    cases o with
    | train env ds => have := hs _ (List.mem_cons_self ..); simp [Op.settles] at this
    | load file => have := hs _ (List.mem_cons_self ..); simp [Op.settles] at this
    | store =>
      simp only [Op.run] at h1
      obtain ⟨x, -, h5⟩ := (Res.bind_eq_ok _ _ _).1 h1
      simp only [Except.ok.injEq, Prod.mk.injEq] at h5
      obtain ⟨rfl, rfl⟩ := h5
      obtain ⟨e', h6, h7⟩ := ih m e hm hs' as' h3
      exact ⟨e', by simpa [Op.queries] using h6, h7⟩
    | getIndex f =>
      simp only [Op.run] at h1
      obtain ⟨⟨c, m3⟩, h5, h6⟩ := (Res.bind_eq_ok _ _ _).1 h1
      simp only [Except.ok.injEq, Prod.mk.injEq] at h6
      obtain ⟨rfl, rfl⟩ := h6
      have key : ∃ e1, e.getIndex f = .ok (c, e1) ∧ Learner m3 true e1 := by
        rcases hm with ⟨n, t, rfl⟩ | ⟨n, t, rfl⟩ <;>
        · simp only [PolicyModel.getIndex, Bool.not_true, Bool.false_eq_true, if_false] at h5
          obtain ⟨⟨c', e1⟩, h7, h8⟩ := (Res.bind_eq_ok _ _ _).1 h5
          simp only [Except.ok.injEq, Prod.mk.injEq] at h8
          obtain ⟨rfl, rfl⟩ := h8
          exact ⟨e1, h7, by simp [Learner]⟩
      obtain ⟨e1, h7, h8⟩ := key
      obtain ⟨e', h9, h10⟩ := ih m3 e1 h8 hs' as' h3
      refine ⟨e', ?_, h10⟩
      have hq : Op.queries (.getIndex f :: os) = f :: Op.queries os := by simp [Op.queries]
      rw [hq]
      simp only [PolicyModel.indices, h7, Res.bind_ok, h9, Option.toList_some, List.singleton_append]

/-- C15 (switch): training or loading successfully makes the model untrainable. -/
theorem C15_settles (m e : PolicyModel) (b : Bool) (hm : Learner m b e) (o : Op)
    (ho : o.settles = true) (a : Option ℤ) (m' : PolicyModel) (hr : o.run m = .ok (a, m')) :
    Learner m' false e ∧ m'.isTrainable = false := by
  have : Learner m' false e := by
    cases o with
    | getIndex f => simp [Op.settles] at ho
    | store => simp [Op.settles] at ho
    | train env ds =>
      simp only [Op.run] at hr
      obtain ⟨m1, h1, h2⟩ := (Res.bind_eq_ok _ _ _).1 hr
      simp only [Except.ok.injEq, Prod.mk.injEq] at h2
      obtain ⟨-, rfl⟩ := h2
      rcases hm with ⟨n, t, rfl⟩ | ⟨n, t, rfl⟩ <;>
      · simp only [PolicyModel.train] at h1
        obtain ⟨t', -, h3⟩ := (Res.bind_eq_ok _ _ _).1 h1
        simp only [Except.ok.injEq] at h3
        subst h3
        simp [Learner]
    | load file =>
      simp only [Op.run] at hr
      obtain ⟨m1, h1, h2⟩ := (Res.bind_eq_ok _ _ _).1 hr
      simp only [Except.ok.injEq, Prod.mk.injEq] at h2
      obtain ⟨-, rfl⟩ := h2
      rcases hm with ⟨n, t, rfl⟩ | ⟨n, t, rfl⟩ <;>
      · cases file with
        | none => simp [PolicyModel.load] at h1
        | some s =>
          simp only [PolicyModel.load] at h1
          obtain ⟨t', -, h3⟩ := (Res.bind_eq_ok _ _ _).1 h1
          simp only [Except.ok.injEq] at h3
          subst h3
          simp [Learner]
  refine ⟨this, ?_⟩
  rcases this with ⟨n, t, rfl⟩ | ⟨n, t, rfl⟩ <;> rfl

/-- C15 (after): no operation makes an untrainable model trainable again or touches its explorer, and
its answers are the predictions of its trained part. -/
theorem C15_never_back (m e : PolicyModel) (hm : Learner m false e) (os : List Op) (as : List ℤ)
    (m' : PolicyModel) (hr : runOps m os = .ok (as, m')) :
    Learner m' false e ∧ m'.isTrainable = false ∧
      ∀ f, m'.getIndex f = (prediction m' f).map (fun c => (c, m')) := by
  have : Learner m' false e := by
    induction os generalizing m as with
    | nil =>
      simp only [runOps, Except.ok.injEq, Prod.mk.injEq] at hr
      obtain ⟨-, rfl⟩ := hr
      exact hm
    | cons o os ih =>
      simp only [runOps] at hr
      obtain ⟨⟨a, m1⟩, h1, h2⟩ := (Res.bind_eq_ok _ _ _).1 hr
      obtain ⟨⟨as', m2⟩, h3, h4⟩ := (Res.bind_eq_ok _ _ _).1 h2
      simp only [Except.ok.injEq, Prod.mk.injEq] at h4
      obtain ⟨rfl, rfl⟩ := h4
      refine ih m1 ?_ as' h3
      cases ho : o.settles with
      | true => exact (C15_settles m e false hm o ho a m1 h1).1
      | false =>
        cases o with
        | train env ds => simp [Op.settles] at ho
        | load file => simp [Op.settles] at ho
        | store =>
          simp only [Op.run] at h1
          obtain ⟨x, -, h5⟩ := (Res.bind_eq_ok _ _ _).1 h1
          simp only [Except.ok.injEq, Prod.mk.injEq] at h5
          rw [← h5.2]; exact hm
        | getIndex f =>
          simp only [Op.run] at h1
          obtain ⟨⟨c, m3⟩, h5, h6⟩ := (Res.bind_eq_ok _ _ _).1 h1
          simp only [Except.ok.injEq, Prod.mk.injEq] at h6
          obtain ⟨-, rfl⟩ := h6
          rcases hm with ⟨n, t, rfl⟩ | ⟨n, t, rfl⟩ <;>
          · simp only [PolicyModel.getIndex, Bool.not_false, if_true] at h5
            obtain ⟨c', h7, h8⟩ := (Res.bind_eq_ok _ _ _).1 h5
            simp only [Except.ok.injEq, Prod.mk.injEq] at h8
            rw [← h8.2]
            simp [Learner]
  refine ⟨this, ?_, ?_⟩
  · rcases this with ⟨n, t, rfl⟩ | ⟨n, t, rfl⟩ <;> rfl
  · intro f
    rcases this with ⟨n, t, rfl⟩ | ⟨n, t, rfl⟩ <;>
    · simp only [PolicyModel.getIndex, prediction, Bool.not_false, if_true]
      cases t.predict f <;> rfl

example : Learner (.newTree 3 2 (.newRoundRobin 3)) true (.newRoundRobin 3) ∧
    ∃ m', runOps (.newTree 3 2 (.newRoundRobin 3)) [.getIndex [1], .getIndex [2], .getIndex [1]] =
      .ok ([0, 1, 2], m') := ⟨Or.inl ⟨_, _, rfl⟩, _, rfl⟩

end Apollo.Props
