import Verif.Proofs.BestStep
import Verif.Props.PolicyTrace
import Verif.Props.RegionTrain

/-!
# Property C82: the files of the best policies

With APOLLO_TRACE_BEST_POLICIES the training of a region writes a file that lists, for all features that were
measured and in their order, the policy with the least metric and that metric.
-/

namespace Apollo.Props

open Apollo Apollo.Spec

variable {M : Type}

/-- C82: after any program, training a region that has data writes its best policies, those of the data
with which the model was trained. -/
theorem C82_train (env : Env M) (cfg : Cfg) (files : Str → Option Str) (ops : List Op) (w : World M)
    (h : exec env ops (initWorld cfg files) = .ok w) (ht : cfg.traceBest = true) (r : ℕ) (s : ℤ)
    (collect force : Bool) (x : Ret) (w' : World M)
    (hs : step env w (.train r s collect force) = .ok (x, w')) (R : Region)
    (hR : w'.regions r = some R) (hd : R.dataset ≠ [])
    (hf : force = true ∨ ∃ m, w.models r = some m ∧ env.ops.isTrainable m = true)
    (hc : env.canWrite (bestFile env.rank s R.name) = true) :
    w'.log.getLast? = some (.trained r R.dataset) ∧
      ∃ t, w'.files (bestFile env.rank s R.name) = some t ∧
        IsBestText env.rank R.name R.dataset.toVectorOfTuples t := by
  have hw : BestTraced env cfg (regionNames ops) files w :=
    bestTraced_exec (bestTraced_init env cfg files) h
  simp only [step] at hs
  obtain ⟨w₂, h1, hs⟩ := (Res.bind_eq_ok _ _ _).1 hs
  cases hs
  rcases regionTrain_ok h1 with ⟨-, hf', m, hm, hm'⟩ | ⟨-, w₁, hw₁, h2⟩
  · rcases hf with hf | ⟨m₂, a, b⟩
    · rw [hf] at hf'; cases hf'
    · rw [hm] at a; cases a; rw [hm'] at b; cases b
  · have a1 : BestTraced env cfg (regionNames ops) files w₁ := by
      rcases hw₁ with ⟨-, hw₁⟩ | ⟨-, rfl⟩
      · exact (bestTraced_stable env (fun _ => True) cfg _ files).kept.collect _ _ _ hw hw₁
      · exact hw
    obtain ⟨l, hl, -⟩ := trainBody_trained h2
    rw [hl.regions] at hR
    obtain ⟨R', hR', h3⟩ := trainBody_best h2 (bestName_best env.rank s R.name)
    rw [hR] at hR'
    cases hR'
    rcases h3 with ⟨h3, -⟩ | ⟨-, hlog, ⟨h4, -⟩ | ⟨-, t, h5, ⟨-, -, h6⟩ | ⟨h6 | h6, -⟩⟩⟩
    · exact absurd h3 hd
    · obtain ⟨G, e⟩ := a1.conf
      rw [e] at h4
      change cfg.traceBest = false at h4
      rw [ht] at h4
      cases h4
    · exact ⟨by rw [hlog]; simp, t, h6, bestText_is (a1.sorted _ _ hR) h5⟩
    · exact absurd rfl h6
    · change env.canWrite (bestFile env.rank s R.name) = false at h6
      rw [hc] at h6
      cases h6

/-- C82: after any program, a file with such a name is what it was before, or it holds the best policies of
data with which the model of a region of that name was trained. -/
theorem C82_files (env : Env M) (cfg : Cfg) (files : Str → Option Str) (ops : List Op) (w : World M)
    (h : exec env ops (initWorld cfg files) = .ok w) (p : Str) (hp : "-best_policies.txt".toList <:+ p) :
    w.files p = files p ∨ (cfg.traceBest = true ∧ env.canWrite p = true ∧
      ∃ r ds s name t, Ev.trained r ds ∈ w.log ∧ (regionNames ops)[r]? = some name ∧
        p = bestFile env.rank s name ∧ w.files p = some t ∧
        IsBestText env.rank name ds.toVectorOfTuples t) :=
  (bestTraced_exec (done := []) (bestTraced_init env cfg files) h).file p
    ((by decide : "t_policies.txt".toList <:+ "-best_policies.txt".toList).trans hp)

/-- C82: so do the trainings at the end of an execution (see C38), also if all regions are trained.  The step
in the names of the files is the number of finished executions if the global period is over, as an `int`, and
otherwise the number of executions the region began. -/
theorem C82_automatic (env : Env M) (cfg : Cfg) (files : Str → Option Str) (ops : List Op)
    (w w' : World M) (h : exec env ops (initWorld cfg files) = .ok w) (ht : w.cfg.traceBest = true)
    (hs : w.cfg.single = false) (hG : 0 ≤ w.cfg.globalPeriod) (hG' : w.cfg.globalPeriod < 2 ^ 64)
    (r : ℕ) (c : CtxPtr) (metric : ℚ) (hc : collectContext env w r c metric = .ok w') :
    let s : ℤ := if 0 < w.cfg.globalPeriod ∧ w.cfg.globalPeriod ∣ (w.executions + 1 : ℕ) then
      Int.bmod (w.executions + 1 : ℕ) (2 ^ 32) else (observe w.log).begins r
    ∃ l, w'.log = w.log ++ l ∧ ∀ r' ds, Ev.trained r' ds ∈ l → ∃ R, w'.regions r' = some R ∧ R.dataset = ds ∧
      (env.canWrite (bestFile env.rank s R.name) = true →
        ∃ t, w'.files (bestFile env.rank s R.name) = some t ∧
          IsBestText env.rank R.name ds.toVectorOfTuples t) := by
  intro s
  have hI := (RegInv.invariant env fun _ => True).exec (fun _ _ _ _ => trivial)
    ⟨logInv_init cfg files, regInv_init cfg files⟩ h
  have hw : BestTraced env cfg (regionNames ops) files w :=
    bestTraced_exec (bestTraced_init env cfg files) h
  obtain ⟨R, m, C, w₁, w₂, R₂, hR, hm, hC, h4, h5, h6, rfl⟩ := collectContext_steps hc
  obtain ⟨f1, -, f3, -, f5, f6, -, -, f9, -⟩ := record_frame env w r R m c C metric
  have hreg := record_regions env w r R m c C metric
  obtain ⟨_, hT, -⟩ := autoTrain_trained h4
  have hw₁ : w₁.regions = _ := hT.regions
  rw [hreg] at hw₁
  have e2 : w₂.regions = w₁.regions ∧ w₂.files = w₁.files ∧ w₂.log = w₁.log := by
    rcases destroyContext_ok h5 with ⟨-, rfl⟩ | ⟨n, -, -, rfl⟩ <;> exact ⟨rfl, rfl, rfl⟩
  have hstep : (if (record env w r R m c C metric).cfg.globalPeriod ≠ 0 ∧
      (record env w r R m c C metric).executions %
        ((record env w r R m c C metric).cfg.globalPeriod % 2 ^ 64).toNat = 0 then
      toInt32 (record env w r R m c C metric).executions
      else ({ recRegion env w R m C metric with current := R.current } : Region).idx) = s := by
    rw [f1, f6, toInt32_bmod]
    simp only [period_iff hG hG']
    rw [show (recRegion env w R m C metric).idx = R.idx from rfl, hI.1.idx r R hR]
  obtain ⟨l, a, b⟩ := autoTrain_bests (R := { recRegion env w R m C metric with current := R.current })
    (hI.2.frame f5 f3 (update_name hR hreg rfl)) (by rw [f1]; exact hs) (by rw [f1]; exact ht)
    (by rw [hreg, Function.update_self]) hstep h4
  refine ⟨l, ?_, fun r' ds hd => ?_⟩
  · rw [← f9, ← a, ← e2.2.2]
    rfl
  · clear_value s
    obtain ⟨R', b1, b2, b3⟩ := b r' ds hd
    have hso : OMap.Sorted ds := by
      rw [hreg] at b1
      by_cases he : r' = r
      · subst he
        rw [Function.update_self] at b1
        cases b1
        rw [← b2]
        simp only [recRegion]
        split
        · exact Dataset.sorted_insert (hw.sorted _ _ hR) _ _ _
        · exact hw.sorted _ _ hR
      · rw [Function.update_of_ne he] at b1
        rw [← b2]
        exact hw.sorted _ _ b1
    have hfin : ∀ R'', R''.name = R'.name → R''.dataset = R'.dataset →
        (w₂.setRegion r { R₂ with current := none }).regions r' = some R'' →
        ∃ R, (w₂.setRegion r { R₂ with current := none }).regions r' = some R ∧ R.dataset = ds ∧
          (env.canWrite (bestFile env.rank s R.name) = true →
            ∃ t, (w₂.setRegion r { R₂ with current := none }).files (bestFile env.rank s R.name) = some t ∧
              IsBestText env.rank R.name ds.toVectorOfTuples t) := by
      intro R'' n1 n2 n3
      refine ⟨R'', n3, by rw [n2]; exact b2, fun hw' => ?_⟩
      rw [n1] at hw' ⊢
      obtain ⟨t, t1, t2⟩ := b3 hw'
      exact ⟨t, (congrFun e2.2.1 _).trans t2, bestText_is hso t1⟩
    rw [hreg, ← hw₁, ← e2.1] at b1
    by_cases he : r' = r
    · subst he
      rw [h6] at b1
      cases b1
      exact hfin { R₂ with current := none } rfl rfl (by simp [World.setRegion])
    · exact hfin R' rfl rfl (by simpa [World.setRegion, he] using b1)

/-- C82: the list of best policies is determined by the entries. -/
theorem C82_unique (E bs cs : List (List ℚ × ℤ × ℚ))
    (hE : ∀ f p m m', (f, p, m) ∈ E → (f, p, m') ∈ E → m = m') (hb : IsBestList E bs)
    (hc : IsBestList E cs) : bs = cs := by
  have hmem : ∀ {bs cs : List (List ℚ × ℤ × ℚ)}, IsBestList E bs → IsBestList E cs →
      ∀ b ∈ bs, b ∈ cs := by
    intro bs cs hb hc b hm
    obtain ⟨f, p, m⟩ := b
    obtain ⟨⟨f', p', m'⟩, h1, h2⟩ := List.mem_map.1 ((hc.features f).2 ⟨p, m, hb.entry _ hm⟩)
    change f' = f at h2
    subst h2
    obtain ⟨n, h3, h4⟩ := hb.best _ hm
    obtain ⟨n', h5, h6⟩ := hc.best _ h1
    have e1 : n = m := hE _ _ _ _ h3 (hb.entry _ hm)
    have e2 : n' = m' := hE _ _ _ _ h5 (hc.entry _ h1)
    have a := h4 _ _ h5
    have b := h6 _ _ h3
    dsimp only at a b
    have hp : p = p' := by
      rcases a with a | ⟨e, a⟩
      · rcases b with b | ⟨b, -⟩
        · exact absurd (a.trans b) (lt_irrefl _)
        · rw [b] at a; exact absurd a (lt_irrefl _)
      · rcases b with b | ⟨-, b⟩
        · rw [e] at b; exact absurd b (lt_irrefl _)
        · omega
    subst hp
    have : m = m' := hE _ _ _ _ (hb.entry _ hm) (hc.entry _ h1)
    subst this
    exact h1
  have hs : ∀ {bs : List (List ℚ × ℤ × ℚ)}, IsBestList E bs → bs.Pairwise fun a b => a.1 < b.1 :=
    fun hb => List.pairwise_map.1 hb.sorted
  exact (hs hb).eq_of_mem_iff (hs hc) fun b => ⟨hmem hb hc b, hmem hc hb b⟩

/-! ## Examples -/

/-- The hypotheses of `C82_train` are met by a region with measurements of two policies for the features 3,
and one for 7/2, which is written as 3. -/
def bestOps : List Op :=
  [.create 1 "a".toList 2 0 "DecisionTree,explore=RoundRobin".toList []] ++ demoRun 0 3 (1 / 2) ++
    demoRun 0 3 (1 / 4) ++ demoRun 0 (7 / 2) 1

example : ∃ w, exec demoEnv (bestOps ++ [.train 0 5 true false])
    (initWorld { traceBest := true } fun _ => none) = .ok w ∧
      (w.files (bestFile 0 5 "a".toList) = some ("=== Rank 0 BEST POLICIES Region a ===\n".toList ++
        "[ 3, ] P:1 T: 0.25\n".toList ++ "[ 3, ] P:0 T: 1\n".toList)) :=
  run_ok (by decide +kernel)

/-- The hypotheses of `C82_automatic` with a global period of four executions, at the fourth of them, and the
files of both regions after it. -/
example : ∃ w, exec demoEnv
    ([demoCreate "a", demoCreate "b"] ++ demoRun 0 3 1 ++ demoRun 0 4 2 ++ demoRun 1 3 1 ++
      [.begin 1 .sync, .setFeature 1 (.sync 1) 4, .getPolicyIndex 1 (.sync 1)])
    (initWorld { globalPeriod := 4, traceBest := true } fun _ => none) = .ok w ∧
    (w.cfg.traceBest = true ∧ w.cfg.single = false ∧ w.cfg.globalPeriod = 4 ∧ w.executions = 3 ∧
      ((collectContext demoEnv w 1 (.sync 1) 2).toOption.map fun w' =>
        ((w'.files (bestFile 0 4 "a".toList)).isSome, (w'.files (bestFile 0 4 "b".toList)).isSome)) =
          some (true, true)) :=
  run_ok (by decide +kernel)

end Apollo.Props
