import Verif.Spec.Opencv
import Verif.Proofs.TestRuns
import Verif.Props.Tree
import Verif.Props.Region
import Mathlib.Data.Rat.Encodable

/-!
# C106: models backed by OpenCV

`cv` is any OpenCV; what is needed of it is a hypothesis.
-/

namespace Apollo.Props

open Apollo Apollo.Spec

variable {T : Type}

/-! ## An OpenCV for the examples

It always predicts the first response. -/

/-- An OpenCV. -/
def demoCv : Cv (Option ℚ) where
  create := fun _ => .ok none
  train := fun _ _ resp => match resp with
    | [] => .error .throw
    | c :: _ => .ok (some (rnd32 c))
  regress := fun _ resp => match resp with
    | some x :: _ => .ok (some x)
    | _ => .error .throw
  predict := fun t _ => t.elim (.error .throw) .ok
  save := fun t => .ok (List.replicate (Encodable.encode t) 'x')
  load := fun file => match file with
    | none => .error .throw
    | some s => .ok (Encodable.decode s.length)

theorem demoCv_classifies : Classifies demoCv := by
  intro t rows resp t' f h _
  cases resp with
  | nil => cases h
  | cons c resp =>
    cases h
    exact ⟨c, List.mem_cons_self, rfl⟩

theorem demoCv_averages : Averages demoCv := by
  intro rows resp t f a b h _ hab
  cases resp with
  | nil => cases h
  | cons x resp =>
    cases h
    exact ⟨x, rfl, hab x List.mem_cons_self⟩

theorem demoCv_untrained : UntrainedThrows demoCv := by
  intro p t f h
  cases h
  rfl

theorem demoCv_loads : LoadsSaved demoCv := by
  intro t s h
  cases h
  refine ⟨t, ?_, fun _ => rfl⟩
  show Except.ok (Encodable.decode (List.replicate (Encodable.encode t) 'x').length) = _
  rw [List.length_replicate, Encodable.encodek]

/-- Executions of two policies with three feature vectors. -/
def demoCvMeas : List Meas :=
  [⟨[1, 2], 0, 5⟩, ⟨[1, 2], 1, 3⟩, ⟨[4, 2], 1, 2⟩, ⟨[7, 0], 0, 1⟩]

/-! ## The matrices -/

theorem pushRows_ok {k : ℕ} (hk : 1 ≤ k) : ∀ {fs : List Features} {width : Option ℕ},
    (∀ f ∈ fs, f.length = k) → width.getD k = k → pushRows width fs = .ok fs := by
  intro fs
  induction fs with
  | nil => intro _ _ _; rfl
  | cons f fs ih =>
    intro width hf hw
    have h1 := hf f List.mem_cons_self
    have h0 : f ≠ [] := by rintro rfl; simp at h1; omega
    rw [pushRows, if_neg h0, h1, if_neg (by simp [hw]), ih (fun g hg => hf g (List.mem_cons_of_mem _ hg)) rfl,
      Res.bind_ok]

theorem pushRows_error {k : ℕ} {fs : List Features} (hk : 1 ≤ k) (h0 : ∀ f ∈ fs, f ≠ []) :
    ∀ {g : Features}, g ∈ fs → g.length ≠ k → pushRows (some k) fs = .error .throw := by
  induction fs generalizing k with
  | nil => intro g hg; cases hg
  | cons f fs ih =>
    intro g hg hgk
    have hf := h0 f List.mem_cons_self
    rw [pushRows, if_neg hf, Option.getD_some]
    by_cases hfk : f.length = k
    · rw [if_neg (by simp [hfk]), hfk]
      rcases List.mem_cons.1 hg with rfl | hg
      · exact absurd hfk hgk
      · rw [ih hk (fun f' hf' => h0 f' (List.mem_cons_of_mem _ hf')) hg hgk]
        rfl
    · rw [if_pos fun e => hfk e.symm]

/-- The feature vectors of the matrix. -/
theorem rows_spec (h : List Meas) :
    (run h).findMinMetricPolicyByFeatures.1.Pairwise (· < ·) ∧
    (∀ f, f ∈ (run h).findMinMetricPolicyByFeatures.1 ↔ ∃ x ∈ h, x.features = f) ∧
    (run h).findMinMetricPolicyByFeatures.1.length = (run h).findMinMetricPolicyByFeatures.2.1.length ∧
    ∀ f p, (f, p) ∈ (run h).findMinMetricPolicyByFeatures.1.zip (run h).findMinMetricPolicyByFeatures.2.1 ↔
      IsBest (entries h) f p := by
  obtain ⟨h1, h2, h3, h4, -, -⟩ := C04_best_policy h _ _ _ rfl
  exact ⟨h1, h2, h3, h4⟩

/-- OpenCV gets a row for every feature vector measured, once, with the policy that is best for it; as
long as all executions have as many features, at least one. -/
theorem C106_rows_partial {k : ℕ} (hk : 1 ≤ k) {h : List Meas} (hne : h ≠ [])
    (hf : ∀ x ∈ h, x.features.length = k) :
    ∃ rows resp, cvSamples (run h) = .ok (rows, resp) ∧ rows.length = resp.length ∧ rows ≠ [] ∧
      rows.Pairwise (· < ·) ∧ (∀ f, f ∈ rows ↔ ∃ x ∈ h, x.features = f) ∧
      (∀ f p, (f, p) ∈ rows.zip resp ↔ IsBest (entries h) f p) ∧
      ∀ (cv : Cv T) (env : TrainEnv) forest n b e t,
        (CvModel.backed forest n b e (some t)).train cv env (run h) =
          (cv.train t rows resp).map fun t' => .backed forest n false e (some t') := by
  obtain ⟨h1, h2, h3, h4⟩ := rows_spec h
  have hrows : pushRows none (run h).findMinMetricPolicyByFeatures.1 =
      .ok (run h).findMinMetricPolicyByFeatures.1 := by
    refine pushRows_ok hk (fun f hf' => ?_) rfl
    obtain ⟨x, hx, rfl⟩ := (h2 f).1 hf'
    exact hf x hx
  have hne' : (run h).findMinMetricPolicyByFeatures.1 ≠ [] := by
    obtain ⟨x, hx⟩ := List.exists_mem_of_ne_nil _ hne
    exact List.ne_nil_of_mem ((h2 x.features).2 ⟨x, hx, rfl⟩)
  have hs : cvSamples (run h) = .ok ((run h).findMinMetricPolicyByFeatures.1,
      (run h).findMinMetricPolicyByFeatures.2.1) := by
    rw [cvSamples, hrows, Res.bind_ok, if_neg hne']
  refine ⟨_, _, hs, h3, hne', h1, h2, h4, ?_⟩
  intro cv env forest n b e t
  simp only [CvModel.train, hs, Res.bind_ok]
  cases cv.train t _ _ <;> rfl

example : demoCvMeas ≠ [] ∧ (∀ x ∈ demoCvMeas, x.features.length = 2) ∧
    cvSamples (run demoCvMeas) = .ok ([[1, 2], [4, 2], [7, 0]], [1, 1, 0]) := by
  refine ⟨by decide, by decide, by decide +kernel⟩

example : cvSamples (run [⟨[3], 1, 1/4⟩, ⟨[3], 0, 1/2⟩, ⟨[1], 0, 1/8⟩]) = .ok ([[1], [3]], [0, 1]) := by
  decide +kernel

/-- Executions with different numbers of features make the training throw.  (The models of the library
need the same number too, but see C91.) -/
theorem C106_widths_fail {h : List Meas} (h0 : ∀ x ∈ h, x.features ≠ []) {x y : Meas} (hx : x ∈ h) (hy : y ∈ h)
    (hxy : x.features.length ≠ y.features.length) (cv : Cv T) (env : TrainEnv) (forest : Bool) (n : ℤ) (b : Bool)
    (e : CvModel T) (t : Option T) :
    (CvModel.backed forest n b e t).train cv env (run h) = .error .throw := by
  obtain ⟨h1, h2, h3, h4⟩ := rows_spec h
  have hrows : pushRows none (run h).findMinMetricPolicyByFeatures.1 = .error .throw := by
    have hx' := (h2 x.features).2 ⟨x, hx, rfl⟩
    have hy' := (h2 y.features).2 ⟨y, hy, rfl⟩
    have h0' : ∀ f ∈ (run h).findMinMetricPolicyByFeatures.1, f ≠ [] := by
      intro f hf
      obtain ⟨z, hz, rfl⟩ := (h2 f).1 hf
      exact h0 z hz
    generalize (run h).findMinMetricPolicyByFeatures.1 = fs at hx' hy' h0'
    cases fs with
    | nil => cases hx'
    | cons f fs =>
      have hf := h0' f List.mem_cons_self
      have hk : 1 ≤ f.length := List.length_pos_iff.2 hf
      have : ∃ g ∈ fs, g.length ≠ f.length := by
        by_contra hc
        push Not at hc
        have hall : ∀ g ∈ f :: fs, g.length = f.length := by
          intro g hg
          rcases List.mem_cons.1 hg with rfl | hg
          · rfl
          · exact hc g hg
        exact hxy ((hall _ hx').trans (hall _ hy').symm)
      obtain ⟨g, hg, hgf⟩ := this
      rw [pushRows, if_neg hf, Option.getD_none, if_neg (by simp),
        pushRows_error hk (fun f' hf' => h0' f' (List.mem_cons_of_mem _ hf')) hg hgf]
      rfl
  simp only [CvModel.train, cvSamples, hrows]
  rfl

example : (CvModel.backed false 2 true (.plain .null) (some none)).train demoCv ⟨isort, id⟩
    (run [⟨[1], 0, 1⟩, ⟨[1, 2], 0, 1⟩]) = .error .throw :=
  C106_widths_fail (x := ⟨[1], 0, 1⟩) (y := ⟨[1, 2], 0, 1⟩) (by decide) (by decide) (by decide) (by decide) ..

/-- A region without features cannot be trained: the address of the first feature is taken. -/
theorem C106_no_features_fail {h : List Meas} (hne : h ≠ []) (h0 : ∀ x ∈ h, x.features = []) (cv : Cv T)
    (env : TrainEnv) (forest : Bool) (n : ℤ) (b : Bool) (e : CvModel T) (t : Option T) :
    (CvModel.backed forest n b e t).train cv env (run h) = .error (.ub .outOfBounds) := by
  obtain ⟨h1, h2, h3, h4⟩ := rows_spec h
  have hrows : pushRows none (run h).findMinMetricPolicyByFeatures.1 = .error (.ub .outOfBounds) := by
    obtain ⟨x, hx⟩ := List.exists_mem_of_ne_nil _ hne
    have hx' := (h2 x.features).2 ⟨x, hx, rfl⟩
    have h0' : ∀ f ∈ (run h).findMinMetricPolicyByFeatures.1, f = [] := by
      intro f hf
      obtain ⟨z, hz, rfl⟩ := (h2 f).1 hf
      exact h0 z hz
    generalize (run h).findMinMetricPolicyByFeatures.1 = fs at hx' h0'
    cases fs with
    | nil => cases hx'
    | cons f fs => rw [pushRows, if_pos (h0' f List.mem_cons_self)]
  simp only [CvModel.train, cvSamples, hrows]
  rfl

example : (CvModel.backed false 2 true (.plain .null) (some none)).train demoCv ⟨isort, id⟩
    (run [⟨[], 0, 1⟩, ⟨[], 1, 2⟩]) = .error (.ub .outOfBounds) :=
  C106_no_features_fail (by decide) (by decide) ..

/-! ## The answers -/

theorem floatToInt_rnd32 {c : ℤ} (h : |c| ≤ 2 ^ 24) : floatToInt (rnd32 c) = .ok c := by
  have e : rnd32 (c : ℚ) = c := rnd_of_representable (by norm_num) ⟨c, 0, h, by norm_num, by simp⟩
  rw [e]
  have h' := abs_le.1 h
  simp only [floatToInt, Rat.num_intCast, Rat.den_intCast, Nat.cast_one, Int.tdiv_one]
  rw [if_pos ⟨by omega, by omega⟩]

/-- A trained model answers with a policy that is best for some feature vector, so with one of the
region, and stays as it is. -/
theorem C106_answers_partial {cv : Cv T} (hcv : Classifies cv) {k : ℕ} (hk : 1 ≤ k) {h : List Meas}
    (hf : ∀ x ∈ h, x.features.length = k) {n : ℤ} (hn : n ≤ 2 ^ 24) (hp : ∀ x ∈ h, 0 ≤ x.policy ∧ x.policy < n)
    {env : TrainEnv} {forest b : Bool} {e m : CvModel T} {t : Option T}
    (hm : (CvModel.backed forest n b e t).train cv env (run h) = .ok m) {f : Features} (hfk : f.length = k) :
    m.isTrainable = false ∧ ∃ c, m.getIndex cv f = .ok (c, m) ∧ (∃ g, IsBest (entries h) g c) ∧ 0 ≤ c ∧ c < n := by
  cases h with
  | nil =>
    simp only [CvModel.train] at hm
    cases hm
  | cons x0 h0 =>
  obtain ⟨rows, resp, -, hl, -, -, hmem, hbest, htr⟩ := C106_rows_partial (T := T) hk (List.cons_ne_nil x0 h0) hf
  generalize x0 :: h0 = h at *
  cases t with
  | none =>
    simp only [CvModel.train] at hm
    obtain ⟨x, -, hx⟩ := (Res.bind_eq_ok _ _ _).1 hm
    cases hx
  | some t =>
    rw [htr] at hm
    cases ht : cv.train t rows resp with
    | error e => rw [ht] at hm; cases hm
    | ok t' =>
      rw [ht] at hm
      cases hm
      obtain ⟨c, hc, hpred⟩ := hcv t rows resp t' f ht (by
        intro row hrow
        obtain ⟨x, hx, rfl⟩ := (hmem row).1 hrow
        rw [hf x hx, hfk])
      obtain ⟨i, hi, rfl⟩ := List.mem_iff_getElem.1 hc
      have hb := (hbest (rows[i]'(by omega)) resp[i]).1 (by
        rw [List.mem_iff_getElem]
        exact ⟨i, by simp; omega, by simp⟩)
      obtain ⟨mt, hmt, -⟩ := id hb
      obtain ⟨x, hx, -, hxc⟩ := (C01_key_iff h _ _).1 ⟨mt, hmt⟩
      obtain ⟨hc0, hcn⟩ := hp x hx
      rw [hxc] at hc0 hcn
      refine ⟨rfl, resp[i], ?_, ⟨_, hb⟩, hc0, hcn⟩
      simp only [CvModel.getIndex, Bool.not_false, if_true, hpred, Res.bind_ok]
      rw [floatToInt_rnd32 (by rw [abs_of_nonneg hc0]; omega), Res.bind_ok]

/-- The tree trained with these executions. -/
theorem demoCv_trained : (CvModel.backed false 2 true (.plain .null) (some none)).train demoCv ⟨isort, id⟩
    (run demoCvMeas) = .ok (.backed false 2 false (.plain .null) (some (some (rnd32 1)))) := by
  have h : cvSamples (run demoCvMeas) = .ok ([[1, 2], [4, 2], [7, 0]], [1, 1, 0]) := by decide +kernel
  rw [CvModel.train, h]
  simp [Res.bind_ok, demoCv]

example : ∃ c m, (CvModel.backed false 2 false (.plain .null) (some (some (rnd32 1)))).getIndex demoCv [3, 3] = .ok (c, m) ∧
    0 ≤ c ∧ c < 2 := by
  obtain ⟨-, c, h, -, h1, h2⟩ := C106_answers_partial demoCv_classifies (k := 2) (h := demoCvMeas) (by decide) (by decide)
    (n := 2) (by decide) (by decide) demoCv_trained (f := [3, 3]) rfl
  exact ⟨c, _, h, h1, h2⟩

/-! ## Loading -/

/-- Loading never changes the tree: whatever the file, a trained model answers as before. -/
theorem C106_load_keeps {cv : Cv T} {file : Option Str} {forest b : Bool} {n : ℤ} {e m : CvModel T} {t : Option T}
    (h : (CvModel.backed forest n b e t).load cv file = .ok m) : m = .backed forest n false e t := by
  obtain ⟨x, -, hx⟩ := (Res.bind_eq_ok _ _ _).1 h
  cases hx
  rfl

example : (CvModel.backed false 2 true (.plain .null) (some none)).load demoCv (some "xx".toList) =
    .ok (.backed false 2 false (.plain .null) (some none)) := rfl

/-- The calls that use a region whose model is loaded from a file. -/
def cvProgram (info : Str) (x : ℚ) : List Apollo.Op :=
  [.create 1 "r".toList 2 0 info [], .begin 0 .sync, .setFeatureCur 0 x, .getPolicyIndexCur 0]

/-- So a region with the parameter `load` fails at its first execution: its tree was never trained. -/
theorem C106_load_fails {cv : Cv T} (hu : UntrainedThrows cv) {t : T} {p : Option T}
    (hc : cv.create ⟨2, 2, none⟩ = .ok t) {s : Str} (hl : cv.load (some s) = .ok p) (gen : ℕ → ℕ → ℕ)
    (tenv : ℕ → TrainEnv) (env : Env (CvModel T)) (ho : env.ops = cvOps cv gen tenv) {files : Str → Option Str}
    (hs : files "m.yaml".toList = some s) (x : ℚ) :
    results env (cvProgram "DecisionTree,load=m.yaml".toList x) (initWorld {} files) = .error .throw := by
  have hparse : parsePolicyModel "DecisionTree,load=m.yaml".toList =
      .ok ("DecisionTree".toList, [("load".toList, "m.yaml".toList)]) := by decide +kernel
  have hcreate : (cvOps cv gen tenv).create 0 "DecisionTree".toList 1 2 [("load".toList, "m.yaml".toList)] =
      .ok (.backed false 2 true (.plain (.newRoundRobin 2)) (some t)) := by
    have : (policyOps gen tenv).create 0 "DecisionTree".toList 1 2 [("load".toList, "m.yaml".toList)] =
        .ok (.newTree 2 2 (.newRoundRobin 2)) := rfl
    simp only [cvOps, this, Res.bind_ok, PolicyModel.newTree, CvModel.ofModel, PolicyModel.newRoundRobin]
    have hd : (TreeImpl.new 2 2).maxDepth = 2 := rfl
    rw [hd, hc]
    rfl
  have hr : ∀ s, resolveStaticRegion (truncName "r".toList) "DecisionTree".toList [("load".toList, "m.yaml".toList)]
      s = .ok ("DecisionTree".toList, [("load".toList, "m.yaml".toList)], s) := fun s => rfl
  let m : CvModel T := .backed false 2 false (.plain (.newRoundRobin 2)) (some t)
  let R : Region := ⟨truncName "r".toList, 1, 2, 0, "DecisionTree,load=m.yaml".toList, "DecisionTree".toList,
    [("load".toList, "m.yaml".toList)], [], 0, none, [], []⟩
  let w1 : World (CvModel T) := ((((({ initWorld {} files with nextRegion := 1 } : World (CvModel T)).setRegion 0
    R).setModel 0 m).setCtx (.sync 0) {}).advance)
  have hload : env.ops.load (some s) (.backed false 2 true (.plain (.newRoundRobin 2)) (some t)) = .ok m := by
    rw [ho]
    simp only [cvOps, CvModel.load, hl, Res.bind_ok, m]
  have hcons : constructRegion env (initWorld {} files) 1 "r".toList 2 0 "DecisionTree,load=m.yaml".toList [] =
      .ok (0, w1) := by
    unfold constructRegion
    have e2 : (initWorld {} files : World (CvModel T)).tick = 0 := rfl
    have e3 : (initWorld {} files : World (CvModel T)).nextRegion = 0 := rfl
    have e5 : ¬ "DecisionTree,load=m.yaml".toList = [] := by decide
    have e6 : ¬ "m.yaml".toList = [] := by decide
    have e7 : (initWorld {} files : World (CvModel T)).files = files := rfl
    have hcr := hcreate
    rw [← ho] at hcr
    have e8 : loadModel env (initWorld {} files : World (CvModel T)) (truncName "r".toList) "DecisionTree".toList
        [("load".toList, "m.yaml".toList)] (.backed false 2 true (.plain (.newRoundRobin 2)) (some t)) = .ok m := by
      have e4 : Params.find [("load".toList, "m.yaml".toList)] "load".toList = some "m.yaml".toList := rfl
      simp only [loadModel, e4, if_neg e6, e7, hs, hload]
    simp only [if_neg e5, e2, e3, hparse, Res.bind_ok, hr, hcr, loadYaml, if_true, e8]
    rfl
  have hg : env.ops.getIndex m [x] = .error .throw := by
    rw [ho]
    simp only [cvOps, CvModel.getIndex, m, Bool.not_false, if_true, hu _ t [x] hc]
    rfl
  have hR : w1.region 0 = .ok R := rfl
  have hM : w1.model 0 = .ok m := rfl
  have hcfg : w1.cfg = {} := rfl
  have h5 : R.params.find "load-dataset".toList = none := rfl
  have h6 : ¬ R.modelName = "Optimal".toList := by decide
  have h7 : ¬ R.modelName = "DatasetMap".toList := by decide
  let w2 : World (CvModel T) := ({ w1 with registry := OMap.insertNew R.name 0 w1.registry } : World (CvModel T)).emit
    (.created 0 R.dataset (env.ops.isTrainable m))
  have hcr : createRegion env (initWorld {} files) 1 "r".toList 2 0 "DecisionTree,load=m.yaml".toList [] =
      .ok (0, w2) := by
    simp only [createRegion, hcons, Res.bind_ok, loadPersistent, hcfg, Bool.not_false, if_true, loadDatasetParam, hR,
      h5, loadOptimalFile, h6, if_false, loadDatasetMap, h7, startTrace, Bool.false_eq_true, hM]
    rfl
  have r2 : w2.regions 0 = some R := rfl
  have m2 : w2.models 0 = some m := rfl
  have c2 : w2.ctxs (.sync 0) = some {} := rfl
  have i2 : R.idx + 1 < 2 ^ 31 := by decide
  simp only [cvProgram, results, step, hcr, Res.bind_ok, begin, createContext, currentCtx, setFeature, World.region,
    World.ctx, World.model, World.setRegion, World.setCtx, World.advance, World.emit, r2, c2, m2, i2, if_true,
    Function.update_self, getPolicyIndex, List.nil_append, hg]
  rfl

example : results { ops := cvOps demoCv (fun _ _ => 0) fun _ => ⟨isort, id⟩ }
    (cvProgram "DecisionTree,load=m.yaml".toList 5)
    (initWorld {} fun p => if p = "m.yaml".toList then some "xx".toList else none) = .error .throw :=
  C106_load_fails demoCv_untrained (t := none) rfl (s := "xx".toList) rfl _ _ _ rfl rfl 5

/-- What holds: a model created by the constructor that takes a file answers as the model that was saved. -/
theorem C106_created_partial {cv : Cv T} (hcv : LoadsSaved cv) {forest : Bool} {n : ℤ} {e : CvModel T} {t : T}
    {s : Str} (hs : (CvModel.backed forest n false e (some t)).store cv = .ok (some s)) :
    ∃ m, CvModel.fromFile cv forest n (some s) = .ok m ∧ m.isTrainable = false ∧
      ∀ f c m', (CvModel.backed forest n false e (some t)).getIndex cv f = .ok (c, m') →
        m.getIndex cv f = .ok (c, m) := by
  obtain ⟨s', h1, h2⟩ := (Res.bind_eq_ok _ _ _).1 hs
  cases h2
  obtain ⟨t', ht, hp⟩ := hcv t s h1
  refine ⟨.backed forest n false (.plain .null) (some t'), by rw [CvModel.fromFile, ht]; rfl, rfl, ?_⟩
  intro f c m' hm
  simp only [CvModel.getIndex, Bool.not_false, if_true] at hm ⊢
  rw [hp]
  obtain ⟨y, hy, hm⟩ := (Res.bind_eq_ok _ _ _).1 hm
  rw [hy, Res.bind_ok]
  obtain ⟨c', hc, hm⟩ := (Res.bind_eq_ok _ _ _).1 hm
  rw [hc, Res.bind_ok]
  cases hm
  rfl

example : ∃ s m, CvModel.fromFile demoCv false 2 (some s) = .ok m ∧ m.getIndex demoCv [3, 3] = .ok (1, m) := by
  obtain ⟨m, h1, -, h2⟩ := C106_created_partial demoCv_loads (forest := false) (n := 2) (e := .plain .null)
    (t := some 1) rfl
  exact ⟨_, m, h1, h2 [3, 3] 1 _ (by
    simp only [CvModel.getIndex, Bool.not_false, if_true, demoCv, Option.elim, Res.bind_ok]
    have : floatToInt 1 = .ok 1 := by decide +kernel
    rw [this, Res.bind_ok])⟩

/-! ## The time model -/

theorem bitsAsFloat_small {p : ℤ} (h0 : 0 ≤ p) (h1 : p < 2 ^ 23) : bitsAsFloat p = some ((p : ℚ) * 2 ^ (-149 : ℤ)) := by
  obtain ⟨n, rfl⟩ := Int.eq_ofNat_of_zero_le h0
  have hn : n < 2 ^ 23 := by omega
  have e1 : (((n : ℕ) : ℤ) % 2 ^ 32).toNat = n := by omega
  unfold bitsAsFloat
  simp only [e1]
  rw [show n / 2 ^ 23 = 0 by omega, show n / 2 ^ 31 = 0 by omega, show n % 2 ^ 23 = n by omega]
  norm_num

/-- The time model does not see any time: whatever was measured, it predicts less than `n * 2 ^ -149`
seconds, if it averages what it is given. -/
theorem C106_time_fails {cv : Cv T} (hcv : Averages cv) {k : ℕ} (hk : 1 ≤ k) {h : List Meas}
    (hf : ∀ x ∈ h, x.features.length = k) {n : ℤ} (hn : n ≤ 2 ^ 23) (hp : ∀ x ∈ h, 0 ≤ x.policy ∧ x.policy < n)
    {t : T} (ht : timeModel cv (run h) = .ok t) {f : Features} (hfk : f.length = k) :
    ∃ x, timePrediction cv t f = .ok x ∧ 0 ≤ x ∧ x < (n : ℚ) * 2 ^ (-149 : ℤ) := by
  cases h with
  | nil => cases ht
  | cons x0 h0 =>
  obtain ⟨rows, resp, hs, hl, hne, -, hmem, hbest, -⟩ := C106_rows_partial (T := T) hk (List.cons_ne_nil x0 h0) hf
  generalize x0 :: h0 = h at *
  have hresp : ∀ c ∈ resp, 0 ≤ c ∧ c < n := by
    intro c hc
    obtain ⟨i, hi, rfl⟩ := List.mem_iff_getElem.1 hc
    obtain ⟨mt, hmt, -⟩ := (hbest (rows[i]'(by omega)) resp[i]).1 (by
      rw [List.mem_iff_getElem]
      exact ⟨i, by simp; omega, by simp⟩)
    obtain ⟨x, hx, -, hxc⟩ := (C01_key_iff h _ _).1 ⟨mt, hmt⟩
    rw [← hxc]
    exact hp x hx
  have hn1 : 0 < n := by
    obtain ⟨c, hc⟩ : ∃ c, c ∈ resp := by
      refine List.exists_mem_of_ne_nil _ ?_
      rintro rfl
      exact hne (List.length_eq_zero_iff.1 hl)
    obtain ⟨h1, h2⟩ := hresp c hc
    omega
  rw [timeModel, hs, Res.bind_ok] at ht
  have hmap : resp.map bitsAsFloat = (resp.map fun c : ℤ => (c : ℚ) * 2 ^ (-149 : ℤ)).map some := by
    rw [List.map_map]
    refine List.map_congr_left fun c hc => ?_
    obtain ⟨h1, h2⟩ := hresp c hc
    exact bitsAsFloat_small h1 (by omega)
  simp only [hmap] at ht
  have hpos := two_zpow_pos (-149 : ℤ)
  obtain ⟨x, hx, h1, h2⟩ := hcv rows _ t f 0 (((n - 1 : ℤ) : ℚ) * 2 ^ (-149 : ℤ)) ht (by
      intro row hrow
      obtain ⟨x, hx, rfl⟩ := (hmem row).1 hrow
      rw [hf x hx, hfk]) (by
      intro x hx
      obtain ⟨c, hc, rfl⟩ := List.mem_map.1 hx
      obtain ⟨h1, h2⟩ := hresp c hc
      have h1' : (0 : ℚ) ≤ c := by exact_mod_cast h1
      have h2' : (c : ℚ) ≤ ((n - 1 : ℤ) : ℚ) := by exact_mod_cast (by omega : c ≤ n - 1)
      exact ⟨by positivity, mul_le_mul_of_nonneg_right h2' hpos.le⟩)
  refine ⟨x, hx, h1, lt_of_le_of_lt h2 (mul_lt_mul_of_pos_right ?_ hpos)⟩
  push_cast
  linarith

theorem demoCv_time : ∃ t, timeModel demoCv (run demoCvMeas) = .ok t := by
  have h : ∃ t, timeModel demoCv (run demoCvMeas) = .ok t := by
    cases ht : timeModel demoCv (run demoCvMeas) with
    | ok t => exact ⟨t, rfl⟩
    | error e =>
      have : (timeModel demoCv (run demoCvMeas)).toBool = true := by decide +kernel
      rw [ht] at this
      cases this
  exact h

example : ∃ t x, timeModel demoCv (run demoCvMeas) = .ok t ∧ timePrediction demoCv t [4, 2] = .ok x ∧
    x < 2 * 2 ^ (-149 : ℤ) := by
  obtain ⟨t, ht⟩ := demoCv_time
  obtain ⟨x, h1, -, h2⟩ := C106_time_fails demoCv_averages (k := 2) (h := demoCvMeas) (by decide) (by decide)
    (n := 2) (by decide) (by decide) ht (f := [4, 2]) rfl
  exact ⟨t, x, ht, h1, by simpa using h2⟩

/-- It depends on the times only through which policies are best. -/
theorem C106_time_blind (cv : Cv T) {h h' : List Meas}
    (hb : ∀ f p, IsBest (entries h) f p ↔ IsBest (entries h') f p) : timeModel cv (run h) = timeModel cv (run h') := by
  have key : (run h).findMinMetricPolicyByFeatures.1.zip (run h).findMinMetricPolicyByFeatures.2.1 =
      (run h').findMinMetricPolicyByFeatures.1.zip (run h').findMinMetricPolicyByFeatures.2.1 := by
    obtain ⟨a1, a2, a3, a4⟩ := rows_spec h
    obtain ⟨b1, b2, b3, b4⟩ := rows_spec h'
    have hs : ∀ {fs : List Features} {ps : List ℤ}, fs.length = ps.length → fs.Pairwise (· < ·) →
        (fs.zip ps).Pairwise fun a b => a.1 < b.1 := by
      intro fs ps hl hp
      rw [← List.pairwise_map, List.map_fst_zip hl.le]
      exact hp
    refine List.Perm.eq_of_pairwise (le := fun a b => a.1 < b.1)
      (fun a b _ _ h1 h2 => absurd h1 (lt_asymm h2)) (hs a3 a1) (hs b3 b1) ?_
    refine (List.perm_ext_iff_of_nodup ?_ ?_).2 fun x => ?_
    · exact (hs a3 a1).imp fun h e => absurd (e ▸ h) (lt_irrefl _)
    · exact (hs b3 b1).imp fun h e => absurd (e ▸ h) (lt_irrefl _)
    · rw [a4, b4]; exact hb _ _
  have e1 : (run h).findMinMetricPolicyByFeatures.1 = (run h').findMinMetricPolicyByFeatures.1 := by
    have := congrArg (List.map Prod.fst) key
    rwa [List.map_fst_zip (rows_spec h).2.2.1.le, List.map_fst_zip (rows_spec h').2.2.1.le] at this
  have e2 : (run h).findMinMetricPolicyByFeatures.2.1 = (run h').findMinMetricPolicyByFeatures.2.1 := by
    have := congrArg (List.map Prod.snd) key
    rwa [List.map_snd_zip (rows_spec h).2.2.1.ge, List.map_snd_zip (rows_spec h').2.2.1.ge] at this
  simp only [timeModel, cvSamples, e1, e2]

example : timeModel demoCv (run [⟨[1], 0, 1⟩, ⟨[1], 1, 2⟩]) = timeModel demoCv (run [⟨[1], 0, 1000⟩, ⟨[1], 1, 2000⟩]) := by
  decide +kernel

/-! ## Training with a time model -/

theorem write_cfg {M : Type} (w : World M) (env : Env M) (path : Str) (s : Option Str) :
    (w.write env path s).cfg = w.cfg := by
  unfold World.write
  cases s with
  | none => rfl
  | some s => simp only; split <;> rfl

theorem write_files {M : Type} (w : World M) (env : Env M) (path : Str) (s : Option Str) :
    w.write env path s = { w with files := (w.write env path s).files } := by
  unfold World.write
  cases s with
  | none => rfl
  | some s => simp only; split <;> rfl

theorem write_other {M : Type} (w : World M) (env : Env M) {path path' : Str} (s : Option Str) (h : path' ≠ path) :
    (w.write env path s).files path' = w.files path' := by
  unfold World.write
  cases s with
  | none => rfl
  | some s =>
    simp only
    split
    · exact Function.update_of_ne h ..
    · rfl

theorem write_same {M : Type} (w : World M) (env : Env M) (path : Str) (s : Option Str) (c : Cfg) :
    ({ w with cfg := c } : World M).write env path s = { w.write env path s with cfg := c } := by
  unfold World.write
  cases s with
  | none => rfl
  | some s => simp only; split <;> rfl

/-- Without APOLLO_RETRAIN_ENABLE regions are trained as without OpenCV. -/
theorem C106_no_retrain {M : Type} (cv : Cv T) (env : Env M) (w : World M) (r : ℕ) (step : ℤ)
    (h : w.cfg.retrain = false) : trainBodyCv cv env w r step = trainBody env w r step := by
  unfold trainBodyCv trainBody
  cases w.region r with
  | error e => rfl
  | ok R =>
    simp only [Res.bind_ok]
    split
    · rfl
    · split
      · rfl
      · cases ht : traceBest env w R step with
        | error e => rfl
        | ok w1 =>
          have hc : w1.cfg = w.cfg := by
            unfold traceBest at ht
            split at ht
            · obtain ⟨x, -, hx⟩ := (Res.bind_eq_ok _ _ _).1 ht
              cases hx
              exact write_cfg ..
            · cases ht; rfl
          simp only [Res.bind_ok]
          cases w1.model r with
          | error e => rfl
          | ok m =>
            simp only [Res.bind_ok]
            cases env.ops.train w1.tick R.dataset m with
            | error e => rfl
            | ok m' => 
              simp only [Res.bind_ok, World.emit, World.advance, World.setModel, hc, h, Bool.false_eq_true, if_false]

theorem write_frame {M : Type} {u : World M} {env : Env M} (y z : Str) {s : Option Str} {c c0 : Cfg} (hu : u.cfg = c) :
    (u.write env y s).write env z s = { ({ u with cfg := c0 } : World M) with
      cfg := c, files := ((u.write env y s).write env z s).files } := by
  subst hu
  rw [write_files (u.write env y s)]
  rw [write_files u env y]

/-- The settings with APOLLO_RETRAIN_ENABLE off. -/
def withoutRetrain (c : Cfg) : Cfg := { c with retrain := false }

/-- With APOLLO_RETRAIN_ENABLE the time model only makes files: if it can be trained and saved, the region is
trained as without, and nothing else differs but the two files of the time model. -/
theorem C106_retrain_partial {M : Type} {cv : Cv T} {env : Env M} {w w' : World M} {r : ℕ} {step : ℤ} {R : Region}
    {t : T} {s : Str} (hr : w.cfg.retrain = true) (hR : w.regions r = some R)
    (ht : timeModel cv R.dataset = .ok t) (hs : cv.save t = .ok s)
    (h : trainBody env { w with cfg := withoutRetrain w.cfg } r step = .ok w') :
    ∃ w'', trainBodyCv cv env w r step = .ok w'' ∧
      w'' = { w' with cfg := w.cfg, files := w''.files } ∧
      ∀ path, path ≠ regtreeStepPath env.rank step R.name → path ≠ regtreeLatestPath env.rank R.name →
        w''.files path = w'.files path := by
  have hR1 : w.region r = .ok R := by simp [World.region, hR]
  have hR2 : ({ w with cfg := withoutRetrain w.cfg } : World M).region r = .ok R := hR1
  have e1 : (withoutRetrain w.cfg).retrain = false := rfl
  have e2 : (withoutRetrain w.cfg).storeModels = w.cfg.storeModels := rfl
  have e3 : (withoutRetrain w.cfg).regionModel = w.cfg.regionModel := rfl
  have e4 : (withoutRetrain w.cfg).traceBest = w.cfg.traceBest := rfl
  have e5 : stepPath (withoutRetrain w.cfg) = stepPath w.cfg := rfl
  have e6 : storePath (withoutRetrain w.cfg) = storePath w.cfg := rfl
  revert h hR2 e1 e2 e3 e4 e5 e6
  generalize withoutRetrain w.cfg = c0
  intro h hR2 e1 e2 e3 e4 e5 e6
  unfold trainBody at h
  unfold trainBodyCv
  rw [hR2, Res.bind_ok] at h
  rw [hR1, Res.bind_ok]
  simp only [e3] at h ⊢
  split at h
  next hz =>
    cases h
    rw [if_pos hz]
    exact ⟨w, rfl, rfl, fun _ _ _ => rfl⟩
  next hz =>
  rw [if_neg hz]
  split at h
  · cases h
  next hm =>
  rw [if_neg hm]
  obtain ⟨w1, h1, h⟩ := (Res.bind_eq_ok _ _ _).1 h
  have hw1 : ∃ w2, traceBest env w R step = .ok w2 ∧ w1 = { w2 with cfg := c0 } ∧ w2.cfg = w.cfg := by
    unfold traceBest at h1 ⊢
    simp only [e4] at h1
    split at h1
    next hb =>
      rw [if_pos hb]
      obtain ⟨x, hx, h1⟩ := (Res.bind_eq_ok _ _ _).1 h1
      cases h1
      exact ⟨w.write env (bestPath env.rank step R.name) (some x), by rw [hx, Res.bind_ok], write_same .., write_cfg ..⟩
    next hb =>
      rw [if_neg hb]
      cases h1
      exact ⟨w, rfl, rfl, rfl⟩
  obtain ⟨w2, hw2, rfl, hc2⟩ := hw1
  rw [hw2, Res.bind_ok]
  obtain ⟨m, hm1, h⟩ := (Res.bind_eq_ok _ _ _).1 h
  have hm2 : w2.model r = .ok m := hm1
  rw [hm2, Res.bind_ok]
  obtain ⟨m', ht1, h⟩ := (Res.bind_eq_ok _ _ _).1 h
  have ht2 : env.ops.train w2.tick R.dataset m = .ok m' := ht1
  rw [ht2, Res.bind_ok]
  have hcfg : (World.emit (w2.setModel r m').advance (.trained r R.dataset)).cfg = w.cfg := hc2
  have hcfg' : (World.emit (World.setModel { w2 with cfg := c0 } r m').advance (.trained r R.dataset)) =
      { World.emit (w2.setModel r m').advance (.trained r R.dataset) with cfg := c0 } := rfl
  rw [hcfg'] at h
  revert h hcfg
  generalize World.emit (w2.setModel r m').advance (.trained r R.dataset) = v
  intro h hcfg
  simp only [hcfg, hr, if_true, ht, Res.bind_ok, Bool.false_eq_true, if_false, e1, e2, write_cfg, e5, e6] at h ⊢
  split at h
  next hst =>
    rw [if_pos hst]
    obtain ⟨o, ho, h⟩ := (Res.bind_eq_ok _ _ _).1 h
    rw [ho, Res.bind_ok]
    cases h
    simp only [hs, Res.bind_ok]
    have hv : ∀ (x : World M) (y z : Str), x.cfg = w.cfg →
        (({ x with cfg := c0 } : World M).write env y o).write env z o = { (x.write env y o).write env z o with cfg := c0 } := by
      intro x y z _
      rw [write_same x env y o c0]
      exact write_same (x.write env y o) env z o c0
    rw [hv _ _ _ hcfg]
    have hcf : ∀ y z : Str, ((v.write env y o).write env z o).cfg = w.cfg := by
      intro y z
      rw [write_cfg, write_cfg, hcfg]
    refine ⟨_, rfl, ?_, ?_⟩
    · exact write_frame _ _ (hcf _ _)
    · intro path h1 h2
      rw [write_other _ _ _ h2, write_other _ _ _ h1]
  next hst =>
    rw [if_neg hst]
    cases h
    exact ⟨_, rfl, by cases v; cases hcfg; rfl, fun _ _ _ => rfl⟩

/-- A region with these executions, whose tree is stored. -/
def demoCvWorld : World PolicyModel :=
  { (initWorld { retrain := true, storeModels := true } fun _ => none : World PolicyModel) with
    regions := fun r => if r = 0 then some ⟨"r".toList, 2, 2, 0, [], "DecisionTree".toList, [], run demoCvMeas, 4, none,
      [], []⟩ else none
    models := fun r => if r = 0 then some (.newTree 2 2 .null) else none
    nextRegion := 1 }

example : ∃ w', trainBodyCv demoCv demoEnv demoCvWorld 0 0 = .ok w' := by
  obtain ⟨t, ht⟩ := demoCv_time
  have h : ∃ w', trainBody demoEnv { demoCvWorld with cfg := withoutRetrain demoCvWorld.cfg } 0 0 = .ok w' := by
    cases h : trainBody demoEnv { demoCvWorld with cfg := withoutRetrain demoCvWorld.cfg } 0 0 with
    | ok w' => exact ⟨w', rfl⟩
    | error e =>
      have : (trainBody demoEnv { demoCvWorld with cfg := withoutRetrain demoCvWorld.cfg } 0 0).toBool = true := by
        decide +kernel
      rw [h] at this
      cases this
  obtain ⟨w', h⟩ := h
  obtain ⟨w'', h1, -⟩ := C106_retrain_partial (cv := demoCv) rfl rfl ht rfl h
  exact ⟨w'', h1⟩

example : trainBodyCv demoCv demoEnv { demoCvWorld with cfg := {} } 0 0 =
    trainBody demoEnv { demoCvWorld with cfg := {} } 0 0 :=
  C106_no_retrain _ _ _ _ _ rfl

end Apollo.Props
