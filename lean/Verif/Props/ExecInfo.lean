import Verif.Spec.ExecInfo
import Verif.Props.Region
import Verif.Proofs.RegionWrite

/-!
# C109: the report about executions
-/

namespace Apollo.Props

open Spec

variable {M : Type} {env : Env M} {cfg : Cfg} {files : Str → Option Str}

theorem isBegin_begins (r : ℕ) : Op.isBegin r = Begins r := by
  funext o
  cases o <;> rfl

theorem reportFile_eq (dir : Str) :
    reportFile dir = dir ++ "/".toList ++ "apollo_exec_info.csv".toList := by
  simp [reportFile]

theorem report_spared (env : Env M) (dir : Str) : Spared env (reportFile dir) := by
  have hp : "_info.csv".toList <:+ reportFile dir := by
    rw [show reportFile dir = (dir ++ "/apollo_exec".toList) ++ "_info.csv".toList by simp [reportFile]]
    exact List.suffix_append _ _
  have key : ∀ (q t : Str), t <:+ q → t.length ≤ 9 → ¬ t <:+ "_info.csv".toList → q ≠ reportFile dir := by
    rintro q t ht hl hn rfl
    exact hn (List.suffix_of_suffix_length_le ht hp hl)
  refine .inr ⟨fun cfg name => key _ ".yaml".toList ?_ (by decide) (by decide),
    fun cfg rank k s name => key _ ".yaml".toList ?_ (by decide) (by decide),
    fun cfg rank k name => key _ ".yaml".toList ?_ (by decide) (by decide),
    fun rank s name => key _ ".txt".toList ?_ (by decide) (by decide)⟩
  · exact List.suffix_append _ _
  · exact List.suffix_append _ _
  · exact List.suffix_append _ _
  · refine ⟨"step-".toList ++ fmtInt s ++ "-rank-".toList ++ fmtInt rank ++ "-".toList ++ name ++
      "-best_policies".toList, ?_⟩
    unfold bestPath
    rw [show "-best_policies.txt".toList = "-best_policies".toList ++ ".txt".toList from by decide]
    simp only [List.append_assoc]

/-- The destructors of the regions leave the report alone. -/
theorem destroyed_report {w w' : World M} {fuel : ℕ} {rs : List ℕ} {dir : Str}
    (h : forRegions (fun w r => destroyRegion env w r fuel) rs w = .ok w') :
    w'.files (reportFile dir) = w.files (reportFile dir) := by
  refine forRegions_induct (FileHolds (reportFile dir) (w.files (reportFile dir))) ?_ rfl h
  intro w₁ r w₂ hw hd
  obtain ⟨w₃, R, h1, -, -, rfl⟩ := destroyRegion_ok hd
  have hw' : FileHolds (reportFile dir) (w.files (reportFile dir))
      { w₁ with cfg := { w₁.cfg with globalPeriod := 0 } } := hw
  exact FileHolds.destroyed (report_spared env dir)
    ((FileHolds.stable (fun _ => True) _ (report_spared env dir)).kept.drain hw' h1) _ _

theorem execInfo_lines {w : World M} {s : Str} (hn : ∀ k r R, (k, r) ∈ w.registry → w.regions r = some R → R.name = k)
    (hi : ∀ r R, w.regions r = some R → R.idx = (observe w.log).begins r) :
    ∀ {l : List (Str × ℕ)}, (∀ x ∈ l, x ∈ w.registry) → execInfo w (l.map Prod.snd) = .ok s →
      s = (l.map fun x => reportLine x.1 ((observe w.log).begins x.2)).flatten ∧
        ∀ x ∈ l, ∃ R, w.regions x.2 = some R := by
  intro l
  induction l generalizing s with
  | nil => intro _ h; simp only [List.map_nil, execInfo] at h; cases h; exact ⟨rfl, by simp⟩
  | cons x l ih =>
    intro hl h
    simp only [List.map_cons, execInfo] at h
    obtain ⟨R, hR, h⟩ := (Res.bind_eq_ok _ _ _).1 h
    obtain ⟨t, ht, h⟩ := (Res.bind_eq_ok _ _ _).1 h
    cases h
    obtain ⟨h1, h2⟩ := ih (fun y hy => hl y (List.mem_cons_of_mem _ hy)) ht
    have hR := World.region_ok.1 hR
    refine ⟨?_, fun y hy => ?_⟩
    · rw [hn x.1 x.2 R (hl x List.mem_cons_self) hR, hi _ _ hR, h1]
      simp [reportLine]
    · rcases List.mem_cons.1 hy with rfl | hy
      · exact ⟨R, hR⟩
      · exact h2 y hy

/-- C109: when the library shuts down with APOLLO_STORE_EXEC_INFO, the report has a line for every name of a
region, in the order of the names, with the number of executions that the first region of this name began. -/
theorem C109_report {ops : List Op} {w w' : World M} {fuel : ℕ} (h : exec env ops (initWorld cfg files) = .ok w)
    (hs : w.cfg.storeExecInfo = true) (hc : env.canWrite (reportFile w.cfg.outputDir) = true)
    (hd : shutdown env w fuel = .ok w') :
    ∃ l : List (Str × ℕ), l.Pairwise (fun a b => a.1 < b.1) ∧
      (∀ n r, (n, r) ∈ l → (∃ R, w.regions r = some R ∧ R.name = n) ∧
        ∀ r' R', w.regions r' = some R' → R'.name = n → r ≤ r') ∧
      (∀ r R, w.regions r = some R → ∃ r', (R.name, r') ∈ l) ∧
      w'.files (reportFile w.cfg.outputDir) =
        some (l.map fun x => reportLine x.1 (ops.countP (Begins x.2))).flatten := by
  have hG := (RegInv.invariant env fun _ => True).exec (fun _ _ _ _ => trivial)
      ⟨logInv_init cfg files, regInv_init cfg files⟩ h
  obtain ⟨hL, hG⟩ := hG
  unfold shutdown at hd
  obtain ⟨w₁, h1, hd⟩ := (Res.bind_eq_ok _ _ _).1 hd
  unfold writeExecInfo at h1
  rw [if_pos hs] at h1
  obtain ⟨s, h2, h1⟩ := (Res.bind_eq_ok _ _ _).1 h1
  cases h1
  obtain ⟨h3, h4⟩ := execInfo_lines hG.name hL.idx (fun _ hx => hx) h2
  refine ⟨w.registry, hG.sorted, ?_, ?_, ?_⟩
  · intro n r hm
    obtain ⟨R, hR⟩ := h4 _ hm
    refine ⟨⟨R, hR, hG.name _ _ _ hm hR⟩, fun r' R' hR' hn => ?_⟩
    obtain ⟨r'', h5, h6⟩ := hG.first r' R' hR'
    rw [hn, (hG.sorted.find_eq_some_iff _ _).2 hm] at h5
    cases h5
    exact h6
  · intro r R hR
    obtain ⟨r', h5, -⟩ := hG.first r R hR
    exact ⟨r', (hG.sorted.find_eq_some_iff _ _).1 h5⟩
  · rw [destroyed_report hd, ← reportFile_eq]
    have hb : ∀ r, (observe w.log).begins r = ops.countP (Begins r) := by
      intro r
      have := exec_begins r h
      have h5 : (observe (initWorld cfg files : World M).log).begins r = 0 := rfl
      rw [this, h5, isBegin_begins, Nat.zero_add]
    simp only [World.write, hc, if_true, Function.update_self, h3, hb]

/-- C109: nothing is written without the setting. -/
theorem C109_off {w w' : World M} {fuel : ℕ} (hs : w.cfg.storeExecInfo = false)
    (hd : shutdown env w fuel = .ok w') :
    w'.files (reportFile w.cfg.outputDir) = w.files (reportFile w.cfg.outputDir) := by
  unfold shutdown at hd
  obtain ⟨w₁, h1, hd⟩ := (Res.bind_eq_ok _ _ _).1 hd
  simp only [writeExecInfo, hs, Bool.false_eq_true, if_false] at h1
  cases h1
  exact destroyed_report hd

/-- **C109** in full: the report has a line for every region. -/
def C109 (env : Env M) (cfg : Cfg) (files : Str → Option Str) : Prop :=
  ∀ (ops : List Op) (w w' : World M) (fuel : ℕ), exec env ops (initWorld cfg files) = .ok w →
    w.cfg.storeExecInfo = true → env.canWrite (reportFile w.cfg.outputDir) = true → shutdown env w fuel = .ok w' →
    ∃ s, w'.files (reportFile w.cfg.outputDir) = some s ∧
      ∀ r R, w.regions r = some R → reportLine R.name (ops.countP (Begins r)) <:+: s

/-- What is left of **C109**: the regions that are the first of their name have a line.  Missing: later regions of
the same name, for which it is false (`C109_fails`). -/
theorem C109_first_partial {ops : List Op} {w w' : World M} {fuel : ℕ}
    (h : exec env ops (initWorld cfg files) = .ok w)
    (hs : w.cfg.storeExecInfo = true) (hc : env.canWrite (reportFile w.cfg.outputDir) = true)
    (hd : shutdown env w fuel = .ok w') :
    ∃ s, w'.files (reportFile w.cfg.outputDir) = some s ∧
      ∀ r R, w.regions r = some R → (∀ r' R', w.regions r' = some R' → R'.name = R.name → r ≤ r') →
        reportLine R.name (ops.countP (Begins r)) <:+: s := by
  obtain ⟨l, -, h1, h2, h3⟩ := C109_report h hs hc hd
  refine ⟨_, h3, fun r R hR hf => ?_⟩
  obtain ⟨r', h4⟩ := h2 r R hR
  obtain ⟨⟨R', h5, h6⟩, h7⟩ := h1 _ _ h4
  have : r' = r := le_antisymm (h7 r R hR rfl) (hf r' R' h5 h6)
  subst this
  refine List.infix_of_mem_flatten (List.mem_map.2 ⟨_, h4, rfl⟩)

/-- Three executions of region 0, one of region 1. -/
def reportOps (b : String) : List Op :=
  [demoCreate "b", demoCreate b] ++ demoRun 0 3 (1 / 2) ++ demoRun 0 4 (1 / 4) ++ demoRun 0 4 (1 / 4) ++
    demoRun 1 4 (1 / 4)

/-- The report of two regions, in the order of the names. -/
theorem report_two : ∃ w w', exec demoEnv (reportOps "a") (initWorld { storeExecInfo := true } fun _ => none) = .ok w ∧
    shutdown demoEnv w 1 = .ok w' ∧
    w'.files (reportFile w.cfg.outputDir) = some "a, 1\nb, 3\n".toList := by
  obtain ⟨w, h1, h2⟩ := run_ok (x := exec demoEnv (reportOps "a") (initWorld { storeExecInfo := true } fun _ => none))
    (P := fun w => (match shutdown demoEnv w 1 with
      | .error _ => false
      | .ok w' => decide (w'.files (reportFile w.cfg.outputDir) = some "a, 1\nb, 3\n".toList)) = true)
    (by decide +kernel)
  split at h2
  · cases h2
  · rename_i w' h3
    exact ⟨w, w', h1, h3, of_decide_eq_true h2⟩

/-- **C109** is false: of two regions with the same name the report has the first, and the execution of the other
is nowhere. -/
theorem C109_fails : ¬ C109 demoEnv { storeExecInfo := true } fun _ => none := by
  intro hC
  obtain ⟨w, h1, h2⟩ := run_ok (x := exec demoEnv (reportOps "b") (initWorld { storeExecInfo := true } fun _ => none))
    (P := fun w => (match shutdown demoEnv w 1 with
      | .error _ => false
      | .ok w' => decide (w.cfg.storeExecInfo = true ∧ (w.regions 1).map Region.name = some "b".toList ∧
        w'.files (reportFile w.cfg.outputDir) = some "b, 3\n".toList)) = true)
    (by decide +kernel)
  split at h2
  · cases h2
  rename_i w' h3
  obtain ⟨h4, h5, h6⟩ := of_decide_eq_true h2
  obtain ⟨s, h7, h8⟩ := hC _ w w' 1 h1 h4 rfl h3
  rw [h6] at h7
  cases h7
  obtain ⟨R, hR, hn⟩ := Option.map_eq_some_iff.1 h5
  have := h8 1 R hR
  rw [hn] at this
  revert this
  decide +kernel

/-- The hypotheses of `C109_report` and `C109_first_partial`, of `C109_off` without the setting. -/
example : (∃ w w', exec demoEnv (reportOps "a") (initWorld { storeExecInfo := true } fun _ => none) = .ok w ∧
      shutdown demoEnv w 1 = .ok w' ∧ w.cfg.storeExecInfo = true ∧
      demoEnv.canWrite (reportFile w.cfg.outputDir) = true) ∧
    ∃ w', shutdown demoEnv (initWorld {} fun _ => none) 1 = .ok w' ∧
      (initWorld {} fun _ => none : World PolicyModel).cfg.storeExecInfo = false := by
  refine ⟨?_, _, rfl, rfl⟩
  obtain ⟨w, w', h1, h2, h3⟩ := report_two
  obtain ⟨p, hp⟩ := (CfgIs.invariant demoEnv (fun _ => True) { storeExecInfo := true }).exec
    (fun _ _ _ _ => trivial) ⟨_, rfl⟩ h1
  exact ⟨w, w', h1, h2, by rw [hp], rfl⟩

end Apollo.Props
