import Verif.Proofs.TestRuns
import Verif.Proofs.TestCounts
import Verif.Props.Interface

/-!
# C88: the test programs shipped with the library succeed

False of /repo/test/apollo-test.cpp and /repo/test/apollo-overhead.cpp.
-/

namespace Apollo.Props

open Apollo Apollo.Spec

/-- The feature vectors of a pass. -/
def testRows (n reps : ℕ) : List Features := (testFeatures n reps).map fun f : ℕ => [(f : ℚ)]

theorem testPass_eq (n reps : ℕ) :
    testPass n reps = (testRows n reps).flatMap runWith := by
  rw [testPass, testRows, List.flatMap_map]
  rfl

/-- A trained region with a constant answer. -/
theorem answer_list {env : Env PolicyModel} {gen : ℕ → ℕ → ℕ} {tenv : ℕ → TrainEnv}
    (ho : env.ops = policyOps gen tenv) {w : World PolicyModel} {R : Region} {m : PolicyModel} {t : ℕ}
    (hw : Between w R m t) {fs : List Features} (hi : R.idx + fs.length < 2 ^ 31) {h : List Meas}
    (hd : R.dataset = run h) {c : ℤ} (hm : ∀ f ∈ fs, m.getIndex f = .ok (c, m))
    (hT : m.isTrainable = false) :
    ∃ rets w', results env (fs.flatMap runWith) w = .ok (rets, w') ∧
      policies rets = List.replicate fs.length c := by
  obtain ⟨rets, w', R', h1, h2, -⟩ := run_list (env := env) (b := false) (fs := fs)
    (ms := fun _ => m) (cs := fun _ => c) hw hi hd (fun j hj => by
      rw [ho]
      exact ⟨hm _ (List.getElem_mem hj), hT⟩)
  exact ⟨rets, w', h1, by rw [h2]; simp⟩

theorem map_len {α : Type} (l : List α) (g : α → Features) : (l.map g).length = l.length := by simp

/-- C88 is false: whatever the clock says, test/apollo-test.cpp (there `n = reps = 4`) runs to its end,
the model installed after the first pass gives the same policy in every execution of the second pass,
and the program prints FAILED. -/
theorem C88_fails (env : Env PolicyModel) (gen : ℕ → ℕ → ℕ) (tenv : ℕ → TrainEnv)
    (ho : env.ops = policyOps gen tenv) (hσ : ∀ t, SortSpec (tenv t).sort) (files : Str → Option Str)
    (n reps : ℕ) (hn : 2 ≤ n) (hr : 1 ≤ reps) (hn20 : n ≤ 2 ^ 20) (hlen : 2 * (reps * (n * n)) < 2 ^ 31) :
    ∃ rets w ps1 ps2 c, results env (testProgram n reps) (initWorld {} files) = .ok (rets, w) ∧
      policies rets = ps1 ++ ps2 ∧ ps1.length = reps * (n * n) ∧
      ps2 = List.replicate (reps * (n * n)) c ∧ 0 ≤ c ∧ c < n ∧
      matched (testFeatures n reps) ps1 = reps * n ∧ matched (testFeatures n reps) ps2 = reps * n ∧
      ¬ testPassed n reps ps2 := by
  have hn0 : (0 : ℤ) < n := by omega
  have hfl : (testRows n reps).length = reps * (n * n) := by
    rw [testRows, map_len, testFeatures_length]
  obtain ⟨R, w0, c1, c2, c3, c4⟩ := create_first ho (name := "test-region".toList)
    (info := "DecisionTree,max_depth=3".toList) (made_tree (gen 0) n) files
  obtain ⟨r1, w1, R1, e1, p1, b1, i1, d1⟩ := explore_list ho hn0 3
    (fs := testRows n reps) c2 c3 c4 (by rw [hfl]; omega)
  rw [hfl] at p1 b1 i1
  generalize hh : measured env.clock 1 (testRows n reps) (fun j => (j : ℤ) % n) = h
    at d1
  have hmem : ∀ x ∈ h, x.features.length = 1 ∧ 0 ≤ x.policy ∧ x.policy < n ∧
      ∃ f < n, x.features = [(f : ℚ)] := by
    intro x hx
    rw [← hh, mem_measured] at hx
    obtain ⟨j, hj, rfl⟩ := hx
    refine ⟨by simp [testRows], Int.emod_nonneg _ (by omega), Int.emod_lt_of_pos _ hn0, ?_⟩
    obtain ⟨f, hf, e⟩ := List.mem_map.1 (List.getElem_mem hj : (testRows n reps)[j] ∈ testRows n reps)
    exact ⟨f, testFeatures_lt hf, e.symm⟩
  have hpos : 0 < reps * (n * n) := by positivity
  have hne : h ≠ [] := by
    intro he
    have : (measured env.clock 1 (testRows n reps) (fun j => (j : ℤ) % n)) = [] :=
      hh.trans he
    have hx := (mem_measured (clock := env.clock) (t := 1) (cs := fun j => (j : ℤ) % n)
      (fs := testRows n reps)).2 ⟨0, by rw [hfl]; exact hpos, rfl⟩
    rw [this] at hx
    simp at hx
  have hcard : (h.map Meas.features).toFinset.card ≤ 2 ^ 20 := by
    refine le_trans (Finset.card_le_card (t := (Finset.range n).image fun f : ℕ => [(f : ℚ)]) ?_) ?_
    · intro f hf
      rw [List.mem_toFinset, List.mem_map] at hf
      obtain ⟨x, hx, rfl⟩ := hf
      obtain ⟨-, -, -, f, hf, e⟩ := hmem x hx
      rw [Finset.mem_image]
      exact ⟨f, Finset.mem_range.2 hf, e.symm⟩
    · exact le_trans Finset.card_image_le (by simpa using hn20)
  obtain ⟨m, hm, hT⟩ := C21_model_succeeds (tenv (1 + 2 * (reps * (n * n)))) (hσ _) n 3 1
    (.roundRobin n (lastOf n (reps * (n * n)))) h hne (fun x hx => (hmem x hx).1) hcard
  obtain ⟨c, ⟨g, hg⟩, -, hc⟩ := C17_always_smallest (tenv (1 + 2 * (reps * (n * n)))) (hσ _) n 3 1
    (.roundRobin n (lastOf n (reps * (n * n)))) m h (fun x hx => (hmem x hx).1) hm
  obtain ⟨mt, hmt, -⟩ := hg
  obtain ⟨x, hx, -, hxc⟩ := (C01_key_iff h g c).1 ⟨mt, hmt⟩
  obtain ⟨-, hc0, hcn, -⟩ := hmem x hx
  rw [hxc] at hc0 hcn
  have hsize : R1.dataset.size ≠ 0 := by
    rw [d1, (C01_size h).2]
    intro he
    rw [Finset.card_eq_zero, List.toFinset_eq_empty_iff, List.map_eq_nil_iff] at he
    exact hne he
  obtain ⟨w2, t1, b2⟩ := train_force (env := env) (step := 0) (force := false) b1
    (.inr (by rw [ho]; rfl)) hsize (m' := m) (by rw [ho, d1]; exact hm)
  obtain ⟨r3, w3, e3, p3⟩ := answer_list ho b2 (fs := testRows n reps)
    (by rw [i1, hfl]; omega) d1 (c := c)
    (by
      intro f hf
      rw [testRows, List.mem_map] at hf
      obtain ⟨k, -, rfl⟩ := hf
      exact hc _ rfl) hT
  rw [hfl] at p3
  obtain ⟨cn, rfl⟩ := Int.eq_ofNat_of_zero_le hc0
  have hcn' : cn < n := by omega
  have hmr := matched_round (n := n) (by omega) reps
  have hmc := matched_const hcn' reps
  have htrain : apolloTrain env w1 0 true = .ok w2 := by
    simp only [apolloTrain, apolloTrainWith, b1.cfg, b1.registry, Bool.false_eq_true, if_false, forRegions, t1,
      Res.bind_ok]
  refine ⟨.region 0 :: (r1 ++ .unit :: r3), w3, _, _, cn, ?_, ?_, ?_, rfl, hc0, hcn, hmr, hmc, ?_⟩
  · have c1' : step env (initWorld {} files) (testCreate n) = .ok (.region 0, w0) := by
      rw [results] at c1
      obtain ⟨⟨x, w'⟩, hx, hy⟩ := (Res.bind_eq_ok _ _ _).1 c1
      simp only [results, Res.bind_ok, Except.ok.injEq, Prod.mk.injEq, List.cons.injEq] at hy
      rw [testCreate, hx, hy.1.1, hy.2]
    rw [testProgram, results, c1', Res.bind_ok]
    simp only
    rw [results_append, testPass_eq, e1]
    simp only [Res.bind_ok, results, step, htrain, e3]
  · have : policies (.region 0 :: (r1 ++ .unit :: r3)) = policies r1 ++ policies r3 := by
      simp [policies]
    rw [this, p1, p3]
    congr 1
  · simp
  · unfold testPassed
    have e : matched (testFeatures n reps) (List.replicate (reps * (n * n)) (cn : ℤ)) = reps * n := hmc
    rw [e]
    intro he
    have h2 : reps * n * 1 < reps * n * n := Nat.mul_lt_mul_of_pos_left (by omega) (by positivity)
    omega

/-- The case of the program itself. -/
example (files : Str → Option Str) : ∃ rets w ps1 ps2 c,
    results demoEnv (testProgram 4 4) (initWorld {} files) = .ok (rets, w) ∧ policies rets = ps1 ++ ps2 ∧
      ps1.length = 64 ∧ ps2 = List.replicate 64 c ∧ 0 ≤ c ∧ c < 4 ∧ matched (testFeatures 4 4) ps1 = 16 ∧
      matched (testFeatures 4 4) ps2 = 16 ∧ ¬ testPassed 4 4 ps2 :=
  C88_fails demoEnv _ _ rfl (fun _ => isort_spec) files 4 4 (by omega) (by omega) (by omega) (by omega)

/-- The policies the program expects would pass. -/
example : testPassed 4 4 ((testFeatures 4 4).map Nat.cast) := by unfold testPassed; decide +kernel

theorem first_step {M : Type} {env : Env M} {w w' : World M} {op : Apollo.Op} {x : Ret}
    (h : results env [op] w = .ok ([x], w')) : step env w op = .ok (x, w') := by
  rw [results] at h
  obtain ⟨⟨y, w1⟩, hx, hy⟩ := (Res.bind_eq_ok _ _ _).1 h
  simp only [results, Res.bind_ok, Except.ok.injEq, Prod.mk.injEq, List.cons.injEq] at hy
  rw [hx, hy.1.1, hy.2]

/-- What holds of C88: test/apollo-test-simple.cpp (there `k = 10`) runs to its end, with policy 0. -/
theorem C88_simple_partial (env : Env PolicyModel) (gen : ℕ → ℕ → ℕ) (tenv : ℕ → TrainEnv)
    (ho : env.ops = policyOps gen tenv) (files : Str → Option Str) (k : ℕ) (hk : k < 2 ^ 31) :
    ∃ rets w, results env (simpleProgram k) (initWorld {} files) = .ok (rets, w) ∧
      policies rets = List.replicate k 0 := by
  obtain ⟨R, w0, c1, c2, c3, c4⟩ := create_first ho (name := "test-region".toList) (info := [])
    (made_static (gen 0) 1) files
  have hfs : (List.replicate k (testRun 1)).flatten = (List.replicate k [((1 : ℕ) : ℚ)]).flatMap runWith := by
    rw [List.flatMap, List.map_replicate]
    rfl
  obtain ⟨r1, w1, e1, p1⟩ := answer_list ho c2 (fs := List.replicate k [((1 : ℕ) : ℚ)]) (h := []) (c := 0)
    (by rw [c3, List.length_replicate]; omega) c4
    (by intro f _; rfl) rfl
  refine ⟨.region 0 :: r1, w1, ?_, ?_⟩
  · rw [simpleProgram, results, first_step c1, Res.bind_ok, hfs]
    simp only [e1, Res.bind_ok]
  · rw [List.length_replicate] at p1
    rw [← p1]
    rfl

example (files : Str → Option Str) : ∃ rets w, results demoEnv (simpleProgram 10) (initWorld {} files) = .ok (rets, w) ∧
    policies rets = List.replicate 10 0 :=
  C88_simple_partial demoEnv _ _ rfl files 10 (by omega)

/-- The region of test/apollo-overhead.cpp while it is trained. -/
structure Trains (n : ℤ) (h : List Meas) (m : PolicyModel) (trained : Bool) : Prop where
  ex : ∃ b e t, m = .tree n b e t ∧ t.maxDepth = 2 ∧ t.classes.Pairwise (· < ·) ∧
    (∀ c ∈ t.classes, c ∈ (PolicyModel.trainingSamples (run h)).map Prod.snd) ∧
    (trained = true → b = false ∧ t.predict [] = .error (.ub .outOfBounds))

theorem Trains.step {n : ℤ} {h : List Meas} {m : PolicyModel} {b : Bool} (hm : Trains n h m b) {k : ℕ}
    (hk : ∀ x ∈ h, x.features.length = k) (hcard : (h.map Meas.features).toFinset.card ≤ 2 ^ 20)
    {f f' : Features} {c c' : ℤ} (h1 : IsBest (entries h) f c) (h2 : IsBest (entries h) f' c') (hc : c ≠ c')
    (tenv : TrainEnv) (hσ : SortSpec tenv.sort) :
    ∃ m', m.train tenv (run h) = .ok m' ∧ Trains n h m' true := by
  obtain ⟨b', e, t, rfl, hd, hs, hsub, -⟩ := hm.ex
  obtain ⟨s1, s2, s3⟩ := trainingSamples_spec h
  have hx := (s1 f c).2 h1
  have hy := (s1 f' c').2 h2
  have hlen : (PolicyModel.trainingSamples (run h)).length ≤ 2 ^ 20 := by
    have : (PolicyModel.trainingSamples (run h)).length = (h.map Meas.features).toFinset.card := by
      rw [← List.length_map (f := Prod.fst), ← List.toFinset_card_of_nodup (s2.imp fun h => ne_of_lt h)]
      congr 1
      ext f
      rw [List.mem_toFinset, List.mem_toFinset, s3, List.mem_map]
    rw [this]; exact hcard
  have hsorted := setInsertAll_sorted (cs := (PolicyModel.trainingSamples (run h)).map Prod.snd) hs
  have hsub' : ∀ c ∈ setInsertAll ((PolicyModel.trainingSamples (run h)).map Prod.snd) t.classes,
      c ∈ (PolicyModel.trainingSamples (run h)).map Prod.snd := by
    intro c hc
    rcases mem_setInsertAll.1 hc with h | h
    · exact h
    · exact hsub c h
  have hK : (setInsertAll ((PolicyModel.trainingSamples (run h)).map Prod.snd) t.classes).length ≤ 2 ^ 20 := by
    refine le_trans ((sorted_nodup hsorted).subperm hsub').length_le ?_
    rw [List.length_map]; exact hlen
  have hkk := trainingSamples_length hk
  obtain ⟨root, ys, hb⟩ := buildTree_ok hσ (sorted_nodup hsorted) hK t.maxDepth
    ⟨List.ne_nil_of_mem hx, hlen, hkk, mem_classes_of_train, by
      intro x hx y hy he
      rw [List.inj_on_of_nodup_map (s2.imp fun h => ne_of_lt h) hx hy he]⟩
  obtain ⟨x0, rest, hx0⟩ := List.exists_cons_of_ne_nil (List.ne_nil_of_mem hx)
  obtain ⟨t', ht, q1, q2⟩ : ∃ t', t.train tenv.sort (PolicyModel.trainingSamples (run h)) = .ok t' ∧
      t'.maxDepth = 2 ∧
      t'.classes = setInsertAll ((PolicyModel.trainingSamples (run h)).map Prod.snd) t.classes :=
    ⟨_, TreeImpl.train_ok_iff.2 ⟨x0, rest, root, ys, hx0, hb, rfl⟩, hd, rfl⟩
  have hp := predict_nil hσ hs (by omega) hkk hlen hx hy hc ht
  refine ⟨.tree n false e t', ?_, ⟨false, e, t', rfl, q1, by rw [q2]; exact hsorted, by rw [q2]; exact hsub',
    fun _ => ⟨rfl, hp⟩⟩⟩
  simp only [PolicyModel.train, ht, Res.bind_ok]

/-- The trainings of test/apollo-overhead.cpp:68-69. -/
theorem train_many {env : Env PolicyModel} {gen : ℕ → ℕ → ℕ} {tenv : ℕ → TrainEnv}
    (ho : env.ops = policyOps gen tenv) (hσ : ∀ t, SortSpec (tenv t).sort) {n : ℤ} {h : List Meas} {k : ℕ}
    (hk : ∀ x ∈ h, x.features.length = k) (hcard : (h.map Meas.features).toFinset.card ≤ 2 ^ 20)
    {f f' : Features} {c c' : ℤ} (h1 : IsBest (entries h) f c) (h2 : IsBest (entries h) f' c') (hc : c ≠ c')
    (r : ℕ) : ∀ {w : World PolicyModel} {R : Region} {m : PolicyModel} {t : ℕ} {b : Bool}, Between w R m t →
      Trains n h m b → R.dataset = run h → R.dataset.size ≠ 0 →
      ∃ rets w' m' t', results env (List.replicate r (.train 0 0 true true)) w = .ok (rets, w') ∧
        Between w' R m' t' ∧ Trains n h m' (b || decide (r ≠ 0)) := by
  induction r with
  | zero =>
    intro w R m t b hw hm _ _
    exact ⟨[], w, m, t, rfl, hw, by simpa using hm⟩
  | succ r ih =>
    intro w R m t b hw hm hd hz
    obtain ⟨m1, hm1, hT⟩ := hm.step hk hcard h1 h2 hc (tenv t) (hσ t)
    obtain ⟨w1, hw1, hb1⟩ := train_force (env := env) (step := 0) (force := true) hw (.inl rfl) hz (m' := m1)
      (by rw [ho, hd]; exact hm1)
    obtain ⟨rets, w2, m2, t2, e2, b2, hT2⟩ := ih hb1 hT hd hz
    refine ⟨.unit :: rets, w2, m2, t2, ?_, b2, by simpa using hT2⟩
    simp only [List.replicate_succ, results, step, hw1, Res.bind_ok, e2]

/-- The feature vectors of test/apollo-overhead.cpp. -/
def overheadRows (features data reps : ℕ) : List Features :=
  (List.range reps).map fun i => List.replicate features ((i % data : ℕ) : ℚ)

theorem overheadPass_eq (features data reps : ℕ) :
    overheadPass features data reps = (overheadRows features data reps).flatMap runWith := by
  rw [overheadPass, overheadRows, List.flatMap_map]
  simp only [runWith, List.map_replicate]

/-- C88 is false: test/apollo-overhead.cpp asks for policies without setting features after its last
`begin`; when the trained tree is not a single leaf it reads beyond the empty vector of features.  So
it does for every clock when the number of policies divides `data`. -/
theorem C88_overhead_fails (env : Env PolicyModel) (gen : ℕ → ℕ → ℕ) (tenv : ℕ → TrainEnv)
    (ho : env.ops = policyOps gen tenv) (hσ : ∀ t, SortSpec (tenv t).sort) (files : Str → Option Str)
    (features n data reps : ℕ) (hf : 1 ≤ features) (hn : 2 ≤ n) (hdvd : n ∣ data) (hdata : data ≤ 2 ^ 20)
    (hd0 : data ≠ 0) (hreps : data ≤ reps) (hlen : reps + 1 < 2 ^ 31) :
    results env (overheadProgram features n data reps) (initWorld {} files) = .error (.ub .outOfBounds) := by
  have hn0 : (0 : ℤ) < n := by omega
  have hnd : n ≤ data := Nat.le_of_dvd (by omega) hdvd
  have hfl : (overheadRows features data reps).length = reps := by rw [overheadRows, map_len, List.length_range]
  obtain ⟨R, w0, c1, c2, c3, c4⟩ := create_first ho (name := "test-overhead".toList)
    (info := "DecisionTree,max_depth=2".toList) (made_tree2 (gen 0) features n) files
  obtain ⟨r1, w1, R1, e1, p1, b1, i1, d1⟩ := explore_list ho hn0 2
    (fs := overheadRows features data reps) c2 c3 c4 (by rw [hfl]; omega)
  rw [hfl] at p1 b1 i1
  generalize hh : measured env.clock 1 (overheadRows features data reps) (fun j => (j : ℤ) % n) = h at d1
  have hmem : ∀ x, x ∈ h ↔ ∃ j < reps, x = ⟨List.replicate features ((j % data : ℕ) : ℚ), (j : ℤ) % n,
      rnd64 (seconds (env.clock (1 + 2 * j + 1)) - seconds (env.clock (1 + 2 * j)))⟩ := by
    intro x
    rw [← hh, mem_measured]
    constructor
    · rintro ⟨j, hj, rfl⟩
      exact ⟨j, by rwa [hfl] at hj, by simp [overheadRows]⟩
    · rintro ⟨j, hj, rfl⟩
      exact ⟨j, by rwa [hfl], by simp [overheadRows]⟩
  have hk : ∀ x ∈ h, x.features.length = features := by
    intro x hx
    obtain ⟨j, -, rfl⟩ := (hmem x).1 hx
    simp
  have hcard : (h.map Meas.features).toFinset.card ≤ 2 ^ 20 := by
    refine le_trans (Finset.card_le_card
      (t := (Finset.range data).image fun f : ℕ => List.replicate features (f : ℚ)) ?_) ?_
    · intro f hf
      rw [List.mem_toFinset, List.mem_map] at hf
      obtain ⟨x, hx, rfl⟩ := hf
      obtain ⟨j, -, rfl⟩ := (hmem x).1 hx
      rw [Finset.mem_image]
      exact ⟨j % data, Finset.mem_range.2 (Nat.mod_lt _ (by omega)), rfl⟩
    · exact le_trans Finset.card_image_le (by simpa using hdata)
  have hbest : ∀ i : ℕ, i < 2 → IsBest (entries h) (List.replicate features (i : ℚ)) i := by
    intro i hi
    have hx := (hmem _).2 ⟨i, by omega, rfl⟩
    have hid : i % data = i := Nat.mod_eq_of_lt (by omega)
    have hin : (i : ℤ) % n = i := by exact_mod_cast congrArg Nat.cast (Nat.mod_eq_of_lt (by omega : i < n))
    obtain ⟨m, hm⟩ := (C01_key_iff h (List.replicate features (i : ℚ)) i).2 ⟨_, hx, by simp only [hid], hin⟩
    refine ⟨m, hm, ?_⟩
    intro p' m' hp'
    have hpi : p' = i := by
      obtain ⟨x, hx, hxf, hxp⟩ := (C01_key_iff h _ p').1 ⟨m', hp'⟩
      obtain ⟨j, -, rfl⟩ := (hmem x).1 hx
      have hji : ((j % data : ℕ) : ℚ) = i := by
        have := List.replicate_right_inj (by omega : features ≠ 0) |>.1 hxf
        exact this
      have hji' : j % data = i := by exact_mod_cast hji
      rw [← hxp]
      have : j % n = i := by
        rw [← Nat.mod_mod_of_dvd j hdvd, hji', Nat.mod_eq_of_lt (by omega)]
      exact_mod_cast congrArg Nat.cast this
    subst hpi
    have := ((C01_entry_iff h _ _ m).1 hm).symm.trans ((C01_entry_iff h _ _ m').1 hp')
    exact .inr ⟨by simpa using this, le_refl _⟩
  have hsize : R1.dataset.size ≠ 0 := by
    rw [d1, (C01_size h).2]
    intro he
    rw [Finset.card_eq_zero, List.toFinset_eq_empty_iff, List.map_eq_nil_iff] at he
    have hx := (hmem _).2 ⟨0, by omega, rfl⟩
    rw [he] at hx
    simp at hx
  obtain ⟨r2, w2, m2, t2, e2, b2, hT⟩ := train_many ho hσ hk hcard (hbest 0 (by omega)) (hbest 1 (by omega))
    (by decide) reps b1 (n := n) (b := false) ⟨true, _, _, rfl, rfl, List.Pairwise.nil, by simp [TreeImpl.new],
      by simp⟩ d1 hsize
  obtain ⟨b, e, t, rfl, -, -, -, hq⟩ := hT.ex
  obtain ⟨rfl, hp⟩ := hq (by simp; omega)
  rw [overheadProgram, results, first_step c1, Res.bind_ok]
  simp only
  rw [results_append, overheadPass_eq, e1]
  simp only [Res.bind_ok]
  rw [results_append, e2]
  simp only [Res.bind_ok]
  obtain ⟨C, hC⟩ := b2.ctx
  obtain ⟨r', rfl⟩ : ∃ r', reps = r' + 1 := ⟨reps - 1, by omega⟩
  have hi : R1.idx + 1 < 2 ^ 31 := by rw [i1]; omega
  have hg : env.ops.getIndex (.tree n false e t) [] = .error (.ub .outOfBounds) := by
    rw [ho]
    simp only [policyOps, PolicyModel.getIndex, Bool.not_false, if_true, hp]
    rfl
  simp only [List.replicate_succ, List.cons_append, results, step, begin, createContext, currentCtx, World.region,
    World.ctx, World.model, World.setRegion, World.setCtx, World.advance, World.emit, b2.region, hC, b2.model,
    Res.bind_ok, hi, if_true, Function.update_self, getPolicyIndex, hg]
  rfl

example (files : Str → Option Str) :
    results demoEnv (overheadProgram 3 4 8 100) (initWorld {} files) = .error (.ub .outOfBounds) :=
  C88_overhead_fails demoEnv _ _ rfl (fun _ => isort_spec) files 3 4 8 100 (by omega) (by omega) (by decide)
    (by omega) (by omega) (by omega) (by omega)

/-- What holds of C88: when executions with the matching policy take less time than the others with the
same feature, the first pass of test/apollo-test.cpp finds the matching policy best for every feature, and
for up to four policies the leaf of the trained tree for a feature holds samples of that policy only: the
counters of the leaf give the policy the program expects.  (Missing: the leaf answers with the least
class instead.) -/
theorem C88_expected_partial (env : Env PolicyModel) (gen : ℕ → ℕ → ℕ) (tenv : ℕ → TrainEnv)
    (ho : env.ops = policyOps gen tenv) (hσ : ∀ t, SortSpec (tenv t).sort) (files : Str → Option Str)
    (n reps : ℕ) (hn : 1 ≤ n) (hr : 1 ≤ reps) (hlen : reps * (n * n) < 2 ^ 31)
    (hnorm : ∀ j < reps * (n * n), NormalMetric (elapsed env.clock j))
    (hfast : ∀ i j f, (testFeatures n reps)[i]? = some f → (testFeatures n reps)[j]? = some f →
      i % n = f → j % n ≠ f → elapsed env.clock i < elapsed env.clock j) :
    ∃ rets w R, results env (testCreate n :: testPass n reps) (initWorld {} files) = .ok (rets, w) ∧
      w.regions 0 = some R ∧
      (∀ f < n, IsBest (Dataset.toVectorOfTuples R.dataset) [(f : ℚ)] f) ∧
      (n ≤ 4 → ∀ τ e t, (PolicyModel.newTree n 3 e).train (tenv τ) R.dataset = .ok (.tree n false e t) →
        ∀ f < n, ∀ p nd, subtreeAt t.root p = .node nd .nil .nil → goes t.root p [(f : ℚ)] →
          nd.counts = t.classes.map fun c : ℤ => if c = f then nd.numSamples else 0) := by
  have hn0 : (0 : ℤ) < n := by omega
  have hfl : (testRows n reps).length = reps * (n * n) := by
    rw [testRows, map_len, testFeatures_length]
  obtain ⟨R, w0, c1, c2, c3, c4⟩ := create_first ho (name := "test-region".toList)
    (info := "DecisionTree,max_depth=3".toList) (made_tree (gen 0) n) files
  obtain ⟨r1, w1, R1, e1, p1, b1, i1, d1⟩ := explore_list ho hn0 3
    (fs := testRows n reps) c2 c3 c4 (by rw [hfl]; omega)
  generalize hh : measured env.clock 1 (testRows n reps) (fun j => (j : ℤ) % n) = h at d1
  have hmem : ∀ x, x ∈ h ↔ ∃ j f : ℕ, (testFeatures n reps)[j]? = some f ∧
      x = ⟨[(f : ℚ)], (j % n : ℕ), elapsed env.clock j⟩ := by
    intro x
    rw [← hh, mem_measured]
    constructor
    · rintro ⟨j, hj, rfl⟩
      have hj' : j < (testFeatures n reps).length := by rwa [testRows, map_len] at hj
      refine ⟨j, (testFeatures n reps)[j], List.getElem?_eq_getElem hj', ?_⟩
      simp [testRows, elapsed, Nat.add_comm 1, Nat.add_assoc]
    · rintro ⟨j, f, hj, rfl⟩
      obtain ⟨hj', rfl⟩ := List.getElem?_eq_some_iff.1 hj
      refine ⟨j, by rwa [testRows, map_len], ?_⟩
      simp [testRows, elapsed, Nat.add_comm 1, Nat.add_assoc]
  have hnorm' : ∀ x ∈ h, NormalMetric x.metric := by
    intro x hx
    obtain ⟨j, f, hj, rfl⟩ := (hmem x).1 hx
    obtain ⟨hj', -⟩ := List.getElem?_eq_some_iff.1 hj
    rw [testFeatures_length] at hj'
    exact hnorm j hj'
  have hmet : ∀ {f : ℕ} {p : ℤ} {x : ℚ}, x ∈ metricsOf h [(f : ℚ)] p →
      ∃ j : ℕ, (testFeatures n reps)[j]? = some f ∧ ((j % n : ℕ) : ℤ) = p ∧ x = elapsed env.clock j := by
    intro f p x hx
    unfold metricsOf at hx
    simp only [List.mem_map, List.mem_filter, decide_eq_true_eq] at hx
    obtain ⟨y, ⟨hy, h1, h2⟩, rfl⟩ := hx
    obtain ⟨j, g, hj, rfl⟩ := (hmem y).1 hy
    have hgf : g = f := by
      simp only [List.cons.injEq, and_true] at h1
      exact_mod_cast h1
    subst hgf
    exact ⟨j, hj, h2, rfl⟩
  have hbest : ∀ f < n, IsBest (entries h) [(f : ℚ)] f := by
    intro f hf
    have hget : (testFeatures n reps)[f]? = some f := testFeatures_first hr hf
    obtain ⟨m, hm⟩ := (C01_key_iff h [(f : ℚ)] f).2 ⟨_, (hmem _).2 ⟨f, f, hget, rfl⟩, rfl, by
      simp [Nat.mod_eq_of_lt hf]⟩
    refine ⟨m, hm, ?_⟩
    intro p' m' hp'
    by_cases hpf : p' = f
    · subst hpf
      have := ((C01_entry_iff h _ _ m).1 hm).symm.trans ((C01_entry_iff h _ _ m').1 hp')
      exact .inr ⟨by simpa using this, le_refl _⟩
    · left
      obtain ⟨-, -, hi, hhi, -, -, h1⟩ := C02_between_min_max h _ _ m (fun x hx _ _ => hnorm' x hx) hm
      obtain ⟨lo, hlo, -, -, -, h2, -⟩ := C02_between_min_max h _ _ m' (fun x hx _ _ => hnorm' x hx) hp'
      obtain ⟨i, hif, hin, rfl⟩ := hmet hhi
      obtain ⟨j, hjf, hjn, rfl⟩ := hmet hlo
      have := hfast i j f hif hjf (by exact_mod_cast hin) (by
        intro hh
        rw [hh] at hjn
        exact hpf hjn.symm)
      linarith
  refine ⟨.region 0 :: r1, w1, R1, ?_, b1.region, ?_, ?_⟩
  · rw [results, testCreate, first_step c1, Res.bind_ok, testPass_eq]
    simp only [e1, Res.bind_ok]
  · rw [d1]; exact hbest
  · intro hn4 τ e t ht f hf p nd hp hgo
    rw [d1] at ht
    have hcard : (h.map Meas.features).toFinset.card ≤ 4 := by
      refine le_trans (Finset.card_le_card (t := (Finset.range n).image fun f : ℕ => [(f : ℚ)]) ?_) ?_
      · intro g hg
        rw [List.mem_toFinset, List.mem_map] at hg
        obtain ⟨x, hx, rfl⟩ := hg
        obtain ⟨j, g, hj, rfl⟩ := (hmem x).1 hx
        rw [Finset.mem_image]
        exact ⟨g, Finset.mem_range.2 (testFeatures_lt (List.mem_of_getElem? hj)), rfl⟩
      · exact le_trans Finset.card_image_le (by simpa using hn4)
    refine (C17_leaf_partial (tenv τ) (hσ τ) n 3 1 e h ?_ t ht (by omega) hcard (.inr (.inl ?_)) p nd hp _ f
      (hbest f hf) hgo).2
    · intro x hx
      obtain ⟨j, g, hj, rfl⟩ := (hmem x).1 hx
      rfl
    · intro x hx v hv
      obtain ⟨y, hy, he⟩ := ((trainingSamples_spec h).2.2 x.1).1 (List.mem_map.2 ⟨x, hx, rfl⟩)
      obtain ⟨j, g, hj, rfl⟩ := (hmem y).1 hy
      rw [← he] at hv
      simp only [List.mem_singleton] at hv
      have hg := testFeatures_lt (List.mem_of_getElem? hj)
      refine ⟨g, by rw [hv]; simp, ?_⟩
      rw [Nat.abs_cast]
      omega

/-- A clock by which matching executions take one second and others two. -/
def testClock (t : ℕ) : ℤ × ℤ :=
  (10 * ((t - 1) / 2 : ℕ) + (if t % 2 = 1 then 0 else if (t - 1) / 2 / 2 % 2 = 0 then 1 else 2), 0)

example : (∀ j < 2 * (2 * 2), NormalMetric (elapsed testClock j)) ∧
    ∀ i j f, (testFeatures 2 2)[i]? = some f → (testFeatures 2 2)[j]? = some f →
      i % 2 = f → j % 2 ≠ f → elapsed testClock i < elapsed testClock j := by
  have he : ∀ j < 8, elapsed testClock j = 1 ∨ elapsed testClock j = 2 := by decide +kernel
  constructor
  · intro j hj
    rcases he j hj with h | h <;> rw [h]
    · exact ⟨⟨1, 0, by norm_num, by norm_num, by norm_num⟩, .inr (by decide +kernel)⟩
    · exact ⟨⟨2, 0, by norm_num, by norm_num, by norm_num⟩, .inr (by decide +kernel)⟩
  · have hd : ∀ i : Fin 8, ∀ j : Fin 8, (testFeatures 2 2)[i.1]? = some (i.1 % 2) →
        (testFeatures 2 2)[j.1]? = some (i.1 % 2) → j.1 % 2 ≠ i.1 % 2 →
          elapsed testClock i.1 < elapsed testClock j.1 := by decide +kernel
    rintro i j f hi hj rfl
    have h1 := (List.getElem?_eq_some_iff.1 hi).1
    have h2 := (List.getElem?_eq_some_iff.1 hj).1
    rw [testFeatures_length] at h1 h2
    exact hd ⟨i, h1⟩ ⟨j, h2⟩ hi hj

end Apollo.Props
