import Verif.Proofs.TestRanks
import Verif.Props.TestPrograms

/-!
# C88: the test program on several ranks

test/apollo-test-mpi.cpp with collective training.
-/

namespace Apollo.Props

open Apollo Apollo.Spec Apollo.Ranks Apollo.Collective

/-- What a rank holds: pairs of the test program. -/
def TestPairs (n : ℕ) (D : Dataset) : Prop :=
  ∀ f p m, OMap.find D (mkKey f p) = some m → (∃ k < n, f = [(k : ℚ)]) ∧ 0 ≤ p ∧ p < n

/-- The pass before the training, on one rank. -/
theorem mpi_before {env : Env PolicyModel} {gen : ℕ → ℕ → ℕ} {tenv : ℕ → TrainEnv}
    (ho : env.ops = policyOps gen tenv) (files : Str → Option Str) {n reps : ℕ} (hn : 2 ≤ n) (hr : 1 ≤ reps)
    (hlen : 2 * (reps * (n * n)) < 2 ^ 31) (hfin : ∀ j < reps * (n * n), fmt64.Finite (elapsed env.clock j)) :
    ∃ rets w R, results env (testCreate n :: testPass n reps) (initWorld { collective := true } files) =
        .ok (rets, w) ∧
      BetweenC true w R (.newTree n 3 (.roundRobin n (lastOf n (reps * (n * n))))) (1 + 2 * (reps * (n * n))) ∧
      R.idx = ((reps * (n * n) : ℕ) : ℤ) ∧ OMap.Sorted R.dataset ∧ TestPairs n R.dataset ∧
      (∃ f p m, OMap.find R.dataset (mkKey f p) = some m) ∧
      (∀ f p m, OMap.find R.dataset (mkKey f p) = some m → fmt64.Finite m) ∧
      R.numFeatures = 1 ∧ w.registry = [("test-region".toList, 0)] ∧
      chosen w.log = (List.range (reps * (n * n))).map fun j : ℕ => (j : ℤ) % n := by
  have hn0 : (0 : ℤ) < n := by omega
  have hpos : 0 < reps * (n * n) := by positivity
  have hfl : (testRows n reps).length = reps * (n * n) := by
    rw [testRows, map_len, testFeatures_length]
  obtain ⟨R, w0, c1, c2, c3, c4, c5, c6, c7, c8⟩ := create_firstC true ho (name := "test-region".toList)
    (info := "DecisionTree,max_depth=3".toList) (made_tree (gen 0) n) files
  obtain ⟨r1, w1, R1, e1, p1, b1, i1, d1, ⟨n1, n2⟩, g1, l1⟩ := explore_listC ho hn0 3
    (fs := testRows n reps) c2 c3 c4 (by rw [hfl]; omega)
  rw [hfl] at b1 i1 l1
  have hmet : ∀ f p m, OMap.find R1.dataset (mkKey f p) = some m →
      ∃ x ∈ measured env.clock 1 (testRows n reps) (fun j => (j : ℤ) % n), x.features = f ∧ x.policy = p := by
    intro f p m hm
    rw [d1, find_run] at hm
    have : metricsOf (measured env.clock 1 (testRows n reps) fun j => (j : ℤ) % n) f p ≠ [] := by
      intro he; rw [he] at hm; cases hm
    obtain ⟨y, hy⟩ := List.exists_mem_of_ne_nil _ this
    obtain ⟨x, hx, -⟩ := List.mem_map.1 hy
    obtain ⟨hx, hc⟩ := List.mem_filter.1 hx
    exact ⟨x, hx, by simpa using hc⟩
  refine ⟨.region 0 :: r1, w1, R1, ?_, b1, i1, ?_, ?_, ?_, ?_, n2.trans c6, g1.trans c7, ?_⟩
  · rw [results, testCreate, first_step c1, Res.bind_ok, testPass_eq]
    simp only [e1, Res.bind_ok]
  · rw [d1]; exact run_sorted _
  · intro f p m hm
    obtain ⟨x, hx, rfl, rfl⟩ := hmet f p m hm
    obtain ⟨j, hj, rfl⟩ := mem_measured.1 hx
    obtain ⟨k, hk, e⟩ := List.mem_map.1 (List.getElem_mem hj : (testRows n reps)[j] ∈ testRows n reps)
    exact ⟨⟨k, testFeatures_lt hk, e.symm⟩, Int.emod_nonneg _ (by omega), Int.emod_lt_of_pos _ hn0⟩
  · obtain ⟨mt, hmt⟩ := (C01_key_iff (measured env.clock 1 (testRows n reps) fun j => (j : ℤ) % n)
      ((testRows n reps)[0]'(by omega)) ((0 : ℕ) % n : ℤ)).2
      ⟨_, mem_measured.2 ⟨0, by omega, rfl⟩, rfl, rfl⟩
    refine ⟨(testRows n reps)[0]'(by omega), ((0 : ℕ) % n : ℤ), mt, ?_⟩
    rw [d1, find_run]
    exact (C01_entry_iff _ _ _ _).1 hmt
  · intro f p m hm
    rw [d1, find_run] at hm
    refine finite_runningAverage (fun y hy => ?_) hm
    obtain ⟨x, hx, rfl⟩ := List.mem_map.1 hy
    obtain ⟨hx, -⟩ := List.mem_filter.1 hx
    obtain ⟨j, hj, rfl⟩ := mem_measured.1 hx
    have := hfin j (by rwa [hfl] at hj)
    rw [elapsed, show 2 * j + 2 = 1 + 2 * j + 1 by ring, show 2 * j + 1 = 1 + 2 * j by ring] at this
    exact this
  · rw [l1, c8, List.nil_append]

/-- The training and the pass after it, on one rank; `D` is what the rank holds after the gathering. -/
theorem mpi_after {env : Env PolicyModel} {gen : ℕ → ℕ → ℕ} {tenv : ℕ → TrainEnv}
    (ho : env.ops = policyOps gen tenv) (hσ : ∀ t, SortSpec (tenv t).sort) {n reps : ℕ}
    (hn20 : n ≤ 2 ^ 20) {w : World PolicyModel} {R : Region} {last : ℤ} {t : ℕ}
    (hw : BetweenC true w R (.newTree n 3 (.roundRobin n last)) t) (hi : R.idx + reps * (n * n) < 2 ^ 31)
    (hs : OMap.Sorted R.dataset) (hp : TestPairs n R.dataset)
    (hne : ∃ f p m, OMap.find R.dataset (mkKey f p) = some m) :
    ∃ (w1 : World PolicyModel) (rets : List Ret) (w2 : World PolicyModel) (c : ℤ), Ranks.trainRest env (fun w r => regionTrain env w r 0 true false) w = .ok w1 ∧
      w1.cfg = { collective := true } ∧
      results env (testPass n reps) w1 = .ok (rets, w2) ∧ 0 ≤ c ∧ c < n ∧
      chosen w2.log = chosen w.log ++ List.replicate (reps * (n * n)) c := by
  have hfl : (testRows n reps).length = reps * (n * n) := by
    rw [testRows, map_len, testFeatures_length]
  obtain ⟨h, hD⟩ : ∃ h : List Meas, R.dataset = run h := by
    refine ⟨(Dataset.toVectorOfTuples R.dataset).map fun x => ⟨x.1, x.2.1, x.2.2⟩, ?_⟩
    rw [run_eq, List.map_map]
    conv_lhs => rw [← Dataset.insertAll_toVector hs]
    congr 1
    exact (List.map_id' _).symm
  have hmem : ∀ x ∈ h, (∃ k < n, x.features = [(k : ℚ)]) ∧ 0 ≤ x.policy ∧ x.policy < n := by
    intro x hx
    obtain ⟨m, hm⟩ := (C01_key_iff h x.features x.policy).2 ⟨x, hx, rfl, rfl⟩
    refine hp _ _ m ?_
    rw [hD, find_run]
    exact (C01_entry_iff _ _ _ _).1 hm
  have hne' : h ≠ [] := by
    rintro rfl
    obtain ⟨f, p, m, hm⟩ := hne
    rw [hD] at hm
    cases hm
  have hlen1 : ∀ x ∈ h, x.features.length = 1 := by
    intro x hx
    obtain ⟨⟨k, -, e⟩, -⟩ := hmem x hx
    simp [e]
  have hcard : (h.map Meas.features).toFinset.card ≤ 2 ^ 20 := by
    refine le_trans (Finset.card_le_card (t := (Finset.range n).image fun f : ℕ => [(f : ℚ)]) ?_) ?_
    · intro f hf
      rw [List.mem_toFinset, List.mem_map] at hf
      obtain ⟨x, hx, rfl⟩ := hf
      obtain ⟨⟨f, hf, e⟩, -⟩ := hmem x hx
      rw [Finset.mem_image]
      exact ⟨f, Finset.mem_range.2 hf, e.symm⟩
    · exact le_trans Finset.card_image_le (by simpa using hn20)
  obtain ⟨m, hm, hT⟩ := C21_model_succeeds (tenv t) (hσ _) n 3 1 (.roundRobin n last) h hne' hlen1 hcard
  obtain ⟨c, ⟨g, hg⟩, -, hc⟩ := C17_always_smallest (tenv t) (hσ _) n 3 1 (.roundRobin n last) m h hlen1 hm
  obtain ⟨mt, hmt, -⟩ := hg
  obtain ⟨x, hx, -, hxc⟩ := (C01_key_iff h g c).1 ⟨mt, hmt⟩
  obtain ⟨-, hc0, hcn⟩ := hmem x hx
  rw [hxc] at hc0 hcn
  have hsize : R.dataset.size ≠ 0 := by
    rw [hD, (C01_size h).2]
    intro he
    rw [Finset.card_eq_zero, List.toFinset_eq_empty_iff, List.map_eq_nil_iff] at he
    exact hne' he
  obtain ⟨w1, t1, b1, g1, l1⟩ := train_forceC (env := env) (step := 0) (force := false) hw
    (.inr (by rw [ho]; rfl)) hsize (m' := m) (by rw [ho, hD]; exact hm)
  obtain ⟨rets, w2, R2, e2, -, -, -, -, -, -, l2⟩ := run_listC (env := env) (b := false) (fs := testRows n reps)
    (ms := fun _ => m) (cs := fun _ => c) b1 (by rw [hfl]; push_cast; exact hi) hD (fun j hj => by
      rw [ho]
      refine ⟨hc _ ?_, hT⟩
      obtain ⟨k, -, e⟩ := List.mem_map.1 (List.getElem_mem hj : (testRows n reps)[j] ∈ testRows n reps)
      rw [← e]
      rfl)
  refine ⟨w1, rets, w2, c, ?_, b1.cfg, by rw [testPass_eq]; exact e2, hc0, hcn, ?_⟩
  · simp only [Ranks.trainRest, hw.cfg, hw.registry, Bool.false_eq_true, if_false, forRegions, t1, Res.bind_ok]
  · rw [l2, l1, hfl]
    simp

theorem alone_map {P : ℕ} {α : Type} {f : ℕ → α} {i : ℕ} (hi : i < P) : ((List.range P).map f)[i]? = some (f i) := by
  rw [List.getElem?_map, List.getElem?_range hi]
  rfl

theorem testRun_noTrain {n reps : ℕ} : ∀ op ∈ testPass n reps, ∀ s c, op ≠ .trainAll s c := by
  intro op hop s c
  obtain ⟨f, -, hf⟩ := List.mem_flatMap.1 hop
  simp only [testRun, List.mem_cons, List.not_mem_nil, or_false] at hf
  rcases hf with rfl | rfl | rfl | rfl <;> simp

/-- How test/apollo-test-mpi.cpp ends on a rank: the model gives the same policy in every execution of the
second pass, and the rank prints FAILED. -/
def MpiFailed (n reps : ℕ) (p : Proc PolicyModel) : Prop :=
  ∃ ps1 ps2 c, chosen p.world.log = ps1 ++ ps2 ∧ ps1.length = reps * (n * n) ∧
    ps2 = List.replicate (reps * (n * n)) c ∧ 0 ≤ c ∧ c < n ∧
    matched (testFeatures n reps) ps1 = reps * n ∧ matched (testFeatures n reps) ps2 = reps * n ∧
    ¬ testPassed n reps ps2

/-- The ranks of test/apollo-test-mpi.cpp when they start. -/
def mpiStart (P n reps : ℕ) (files : ℕ → Str → Option Str) : List (Proc PolicyModel) :=
  (List.range P).map fun i => ⟨initWorld { collective := true } (files i), testProgram n reps, none⟩

/-- C88 is false also with collective training: whatever the clocks say and however fast the ranks
proceed, test/apollo-test-mpi.cpp runs to its end on every rank and all ranks print FAILED.  The times
measured are finite, and what the ranks send fits into the buffers. -/
theorem C88_mpi_fails (env : ℕ → Env PolicyModel) (gen : ℕ → ℕ → ℕ → ℕ) (tenv : ℕ → ℕ → TrainEnv)
    (ho : ∀ i, (env i).ops = policyOps (gen i) (tenv i)) (hσ : ∀ i t, SortSpec (tenv i t).sort)
    (files : ℕ → Str → Option Str) (P n reps : ℕ) (hP : 1 ≤ P) (hn : 2 ≤ n) (hr : 1 ≤ reps)
    (hn20 : n ≤ 2 ^ 20) (hlen : 2 * (reps * (n * n)) < 2 ^ 31) (hsend : P * (n * n * 88) < 2 ^ 31)
    (hfin : ∀ i, ∀ j < reps * (n * n), fmt64.Finite (elapsed (env i).clock j)) :
    ∃ k s', Run exactMpi env k (mpiStart P n reps files) s' ∧ s'.length = P ∧
      (∀ p ∈ s', p.Finished ∧ MpiFailed n reps p) ∧
      ∀ k' s'', Run exactMpi env k' (mpiStart P n reps files) s'' → (∀ x, ¬ Step exactMpi env s'' x) →
        s'' = s' := by
  choose rets w R e1 b1 i1 s1 q1 ne1 fin1 nf1 g1 l1 using fun i => mpi_before (ho i) (files i) hn hr hlen (hfin i)
  set v : ℕ → Registry := fun i => [("test-region".toList, ⟨(R i).numFeatures, (R i).dataset⟩)] with hvdef
  have hview : ∀ i, viewOf (w i) (w i).registry = .ok (v i) := by
    intro i
    rw [g1]
    simp only [viewOf, World.region, (b1 i).region, Res.bind_ok]
    rfl
  have hfindv : ∀ i nm, OMap.find (v i) nm = if "test-region".toList = nm then
      some ⟨(R i).numFeatures, (R i).dataset⟩ else none := by
    intro i nm
    simp only [hvdef, OMap.find]
    by_cases h : nm = "test-region".toList
    · rw [if_pos h, if_pos h.symm]
    · rw [if_neg h, if_neg (fun e => h e.symm)]
  have hmetric : ∀ i nm f p m, metricOn (v i) nm f p = some m → nm = "test-region".toList ∧
      OMap.find (R i).dataset (mkKey f p) = some m := by
    intro i nm f p m hm
    unfold metricOn at hm
    rw [hfindv] at hm
    split at hm
    next e => exact ⟨e.symm, hm⟩
    next => cases hm
  have hfit : ∀ i, Spec.Fit (w i) := by
    intro i
    have hreg : ∀ nm r, (nm, r) ∈ (w i).registry → nm = "test-region".toList ∧ r = 0 := by
      intro nm r h
      rw [g1, List.mem_singleton, Prod.mk.injEq] at h
      exact h
    refine ⟨?_, ?_, ?_, ?_⟩
    · intro nm r R' h h'
      obtain ⟨-, rfl⟩ := hreg nm r h
      rw [(b1 i).region] at h'
      cases h'
      exact s1 i
    · intro nm r h
      obtain ⟨rfl, -⟩ := hreg nm r h
      decide
    · intro nm r R' h h'
      obtain ⟨-, rfl⟩ := hreg nm r h
      rw [(b1 i).region] at h'
      cases h'
      rw [nf1]
      decide
    · intro nm r R' f p m h h' hm
      obtain ⟨-, rfl⟩ := hreg nm r h
      rw [(b1 i).region] at h'
      cases h'
      obtain ⟨⟨k, hk, rfl⟩, hp0, hpn⟩ := q1 i f p m hm
      refine ⟨by rw [nf1]; rfl, ?_, ⟨by omega, by omega⟩, fin1 i _ p m hm⟩
      intro x hx
      rw [List.mem_singleton.1 hx]
      exact finite32_nat (by omega)
  have hsorted : ∀ i, OMap.Sorted (w i).registry := by
    intro i
    rw [g1]
    simp [OMap.Sorted]
  have hwf : ∀ r ∈ (List.range P).map v, WellFormed r := by
    intro r hr'
    obtain ⟨i, -, rfl⟩ := List.mem_map.1 hr'
    exact wellFormed_view (hsorted i) (hfit i) (hview i)
  have hP31 : ((List.range P).map v).length ≤ 2 ^ 31 := by
    rw [List.length_map, List.length_range]
    nlinarith [Nat.mul_le_mul hn hn]
  have hag : Agree ((List.range P).map v) := by
    intro r hr1 r' hr2 nm L L' hL hL'
    obtain ⟨i, -, rfl⟩ := List.mem_map.1 hr1
    obtain ⟨j, -, rfl⟩ := List.mem_map.1 hr2
    rw [hfindv] at hL hL'
    split at hL
    next e =>
      rw [if_pos e] at hL'
      cases hL
      cases hL'
      exact (nf1 i).trans (nf1 j).symm
    next => cases hL
  obtain ⟨vs', hgather⟩ : ∃ vs', gather exactMpi ((List.range P).map v) = .ok vs' := by
    obtain ⟨r', hr'⟩ := C75_succeeds hwf hag hP31 (ops := [.gather]) (by intro i nm f p m h; simp at h)
      (((Finset.range n) ×ˢ (Finset.range n)).image fun x : ℕ × ℕ =>
        ("test-region".toList, [(x.1 : ℚ)], (x.2 : ℤ))) 1
      (by
        intro r hr1 nm f p hm
        obtain ⟨i, -, rfl⟩ := List.mem_map.1 hr1
        obtain ⟨m, hm⟩ := Option.isSome_iff_exists.1 hm
        obtain ⟨rfl, hm⟩ := hmetric i nm f p m hm
        obtain ⟨⟨k, hk, rfl⟩, hp0, hpn⟩ := q1 i f p m hm
        obtain ⟨p', rfl⟩ := Int.eq_ofNat_of_zero_le hp0
        exact Finset.mem_image.2 ⟨(k, p'), by simp; omega, rfl⟩)
      (by intro i nm f p m h; simp at h)
      (by
        intro r hr1 nm L hL
        obtain ⟨i, -, rfl⟩ := List.mem_map.1 hr1
        rw [hfindv] at hL
        split at hL
        · cases hL; exact (nf1 i).le
        · cases hL)
      (by
        rw [List.length_map, List.length_range]
        refine lt_of_le_of_lt (Nat.mul_le_mul_left _ (Nat.mul_le_mul_right _ Finset.card_image_le)) ?_
        simpa using hsend)
    obtain ⟨a, hg, -⟩ := (Res.bind_eq_ok _ _ _).1 hr'
    exact ⟨a, hg⟩
  obtain ⟨ms, hms, rfl⟩ := received_of_gather hgather
  set D : ℕ → Dataset := fun i => (R i).dataset.insertAll (taken (i : ℕ) "test-region".toList ms) with hDdef
  have habs : ∀ i, OMap.find (ms.foldl (absorb (i : ℕ)) (v i)) "test-region".toList =
      some ⟨(R i).numFeatures, D i⟩ := by
    intro i
    have hv : OMap.Sorted (v i) := by simp [hvdef, OMap.Sorted]
    rw [(absorbs_find (me := (i : ℕ)) hv ms _).2, hfindv, if_pos rfl]
    rfl
  have hDs : ∀ i, OMap.Sorted (D i) := fun i => Dataset.sorted_insertAll (s1 i) _
  have hDp : ∀ i < P, ∀ f p, (OMap.find (D i) (mkKey f p)).isSome ↔
      ∃ j < P, (OMap.find (R j).dataset (mkKey f p)).isSome := by
    intro i hi f p
    have := C49_union hwf hP31 hgather (i := i) (regs := v i) (regs' := ms.foldl (absorb (i : ℕ)) (v i))
      (alone_map hi) (by rw [absorbAll_get, alone_map hi]; simp) (n := "test-region".toList)
      (by unfold hasRegion; rw [hfindv, if_pos rfl]; rfl) f p
    rw [metricOn, habs] at this
    rw [Option.bind_some] at this
    rw [this]
    constructor
    · rintro ⟨r, hr1, hm⟩
      obtain ⟨j, hj, rfl⟩ := List.mem_map.1 hr1
      refine ⟨j, List.mem_range.1 hj, ?_⟩
      rw [metricOn, hfindv, if_pos rfl] at hm
      exact hm
    · rintro ⟨j, hj, hm⟩
      refine ⟨v j, List.mem_map.2 ⟨j, List.mem_range.2 hj, rfl⟩, ?_⟩
      rw [metricOn, hfindv, if_pos rfl]
      exact hm
  set wD : ℕ → World PolicyModel := fun i => (w i).setRegion 0 { R i with dataset := D i } with hwD
  have hback : ∀ i, putBack (ms.foldl (absorb (i : ℕ)) (v i)) (w i).registry (w i) = .ok (wD i) := by
    intro i
    rw [g1]
    simp only [putBack, World.region, (b1 i).region, Res.bind_ok, habs]
    rfl
  have bD : ∀ i, BetweenC true (wD i) { R i with dataset := D i }
      (.newTree n 3 (.roundRobin n (lastOf n (reps * (n * n))))) (1 + 2 * (reps * (n * n))) := by
    intro i
    have h := b1 i
    exact ⟨h.cfg, by simp [hwD, World.setRegion], h.model, h.ctx, h.idle, h.pending, h.registry, h.tick⟩
  have haft : ∀ i, ∃ w1 rets w2 c, i < P → Ranks.trainRest (env i) (fun w r => regionTrain (env i) w r 0 true false) (wD i) = .ok w1 ∧
      w1.cfg = { collective := true } ∧
      results (env i) (testPass n reps) w1 = .ok (rets, w2) ∧ 0 ≤ c ∧ c < (n : ℤ) ∧
      chosen w2.log = chosen (w i).log ++ List.replicate (reps * (n * n)) c := by
    intro i
    by_cases hi : i < P
    · obtain ⟨w1, rets, w2, c, h⟩ := mpi_after (reps := reps) (ho i) (hσ i) hn20 (bD i)
        (by have := i1 i; push_cast at this; simp only [this]; have h2 : (2 * (reps * (n * n) : ℤ)) < 2 ^ 31 := by exact_mod_cast hlen
            linarith) (hDs i)
        (by
          intro f p m hm
          obtain ⟨j, hj, hm'⟩ := (hDp i hi f p).1 (by rw [hm]; rfl)
          obtain ⟨m', hm'⟩ := Option.isSome_iff_exists.1 hm'
          exact q1 j f p m' hm')
        (by
          obtain ⟨f, p, m, hm⟩ := ne1 i
          obtain ⟨m', hm'⟩ := Option.isSome_iff_exists.1 ((hDp i hi f p).2 ⟨i, hi, by rw [hm]; rfl⟩)
          exact ⟨f, p, m', hm'⟩)
      exact ⟨w1, rets, w2, c, fun _ => h⟩
    · exact ⟨w i, [], w i, 0, fun h => absurd h hi⟩
  choose w1 rets2 w2 c haft using haft
  have hE0 : ∀ i, Explicit (initWorld { collective := true } (files i) : World PolicyModel) := fun i => ⟨rfl, rfl⟩
  have hEw : ∀ i, (w i).cfg.collective = true := fun i => by rw [(b1 i).cfg]
  -- the first pass
  obtain ⟨k1, hk1⟩ := all_alone (mpi := exactMpi) (env := env) (P := P)
    (g := fun i => ⟨initWorld { collective := true } (files i), testProgram n reps, none⟩)
    (g' := fun i => ⟨w i, testPass n reps, some (.train 0 true)⟩) (by
      intro i hi
      refine Alone.trans (p' := ⟨w i, .trainAll 0 true :: testPass n reps, none⟩) ?_ (alone_train (hEw i))
      have := alone_ops (mpi := exactMpi) (env := env) (i := i) (ops := testCreate n :: testPass n reps)
        (rest := .trainAll 0 true :: testPass n reps) (hE0 i)
        (by
          intro op hop s c
          rcases List.mem_cons.1 hop with rfl | hop
          · simp [testCreate]
          · exact testRun_noTrain op hop s c) (e1 i)
      simpa [testProgram] using this)
  -- the training
  have htog : Step exactMpi env
      ((List.range P).map fun i => (⟨w i, testPass n reps, some (.train 0 true)⟩ : Proc PolicyModel))
      ((List.range P).map fun i => ⟨w1 i, testPass n reps, none⟩) := by
    refine .train ?_ ?_ (together_map (v := v) (fun i _ => hview i) hms ?_)
    · intro h
      have := congrArg List.length h
      simp at this
      omega
    · intro p hp
      obtain ⟨i, -, rfl⟩ := List.mem_map.1 hp
      simp
    · intro i hi
      have htr : traceGather (env i) 0 ms (w i) = .ok (w i) := by
        unfold traceGather
        rw [(b1 i).cfg]
        rfl
      simp only [proceed, Wait.step, htr, Res.bind_ok, hback, resume, (haft i hi).1]
  -- the second pass
  obtain ⟨k2, hk2⟩ := all_alone (mpi := exactMpi) (env := env) (P := P)
    (g := fun i => ⟨w1 i, testPass n reps, none⟩) (g' := fun i => ⟨w2 i, [], none⟩) (by
      intro i hi
      have := alone_ops (mpi := exactMpi) (env := env) (i := i) (ops := testPass n reps) (rest := [])
        (w := w1 i) ⟨by rw [(haft i hi).2.1], by rw [(haft i hi).2.1]⟩ testRun_noTrain (haft i hi).2.2.1
      simpa using this)
  obtain ⟨k3, hk3⟩ := hk1.trans (.step htog hk2)
  have hfinal : ∀ p ∈ (List.range P).map fun i => (⟨w2 i, [], none⟩ : Proc PolicyModel),
      p.Finished ∧ MpiFailed n reps p := by
    intro p hp
    obtain ⟨i, hi, rfl⟩ := List.mem_map.1 hp
    obtain ⟨-, -, -, hc0, hcn, hlog⟩ := haft i (List.mem_range.1 hi)
    refine ⟨⟨rfl, rfl⟩, _, _, c i, by rw [hlog, l1]; rfl, by simp, rfl, hc0, hcn, matched_round (by omega) reps, ?_, ?_⟩
    all_goals obtain ⟨cn, e⟩ := Int.eq_ofNat_of_zero_le hc0
    all_goals rw [e] at hcn ⊢
    · exact matched_const (by omega) reps
    · unfold testPassed
      rw [matched_const (by omega) reps]
      intro he
      have h2 : reps * n * 1 < reps * n * n := Nat.mul_lt_mul_of_pos_left (by omega) (by positivity)
      omega
  refine ⟨k3, _, hk3, by simp, hfinal, fun k' s'' h1 h2 => ?_⟩
  exact (C83_unique hk3 (fun p hp => (hfinal p hp).1) h1 h2).1

/-- Two ranks of the program itself. -/
example (files : ℕ → Str → Option Str) : ∃ k s', Run exactMpi (fun _ => demoEnv) k (mpiStart 2 4 4 files) s' ∧
    s'.length = 2 ∧ (∀ p ∈ s', p.Finished ∧ MpiFailed 4 4 p) ∧
      ∀ k' s'', Run exactMpi (fun _ => demoEnv) k' (mpiStart 2 4 4 files) s'' →
        (∀ x, ¬ Step exactMpi (fun _ => demoEnv) s'' x) → s'' = s' :=
  C88_mpi_fails (fun _ => demoEnv) _ _ (fun _ => rfl) (fun _ _ => isort_spec) files 2 4 4 (by omega) (by omega)
    (by omega) (by omega) (by omega) (by omega) (fun _ j hj => by
      have : elapsed demoEnv.clock j = (1 : ℕ) := by
        revert j
        decide +kernel
      rw [this]
      exact finite64_nat (by norm_num))

end Apollo.Props
