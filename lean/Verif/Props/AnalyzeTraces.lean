import Verif.Proofs.ScriptOpt
import Verif.Proofs.OptimalRun
import Verif.Props.CreateDataset
import Verif.Props.Models

/-!
# Property C90: analyze-traces.py --write-opt and the model Optimal
-/

namespace Apollo.Props

open Apollo Apollo.Spec Apollo.Scripts

/-- The files of a rank: one for each region measured on it, with policies separated by commas: for every
index measured, in ascending order, a policy of one of the fastest executions with this index. -/
def WritesOptimal (fs : List RegionTrace) (rank : ℤ) (out : List (List Char × List Char)) : Prop :=
  ∃ rs : List (List Char), rs.Nodup ∧ (∀ r, r ∈ rs ↔ ∃ i, rowsAt fs rank r i ≠ []) ∧
    List.Forall₂ (fun r o => o.1 = optimalName rank r ∧ ∃ is ps, is.Pairwise (· < ·) ∧
      (∀ i, i ∈ is ↔ rowsAt fs rank r i ≠ []) ∧ List.Forall₂ (BestAt fs rank r) is ps ∧
      o.2 = [','].intercalate (ps.map fmtInt)) rs out

/-- C90 (files): for traces of regions the script succeeds for every rank, whatever the order of equal
times after sorting. -/
theorem C90_files (py : Py) {order : List ℚ → List ℕ} (ho : Orders order) {fs : List RegionTrace}
    (hne : fs ≠ []) (h : ∀ F ∈ fs, F.Wellformed ∧ F.Kept py) (rank : ℤ) :
    ∃ out, py.writeOpt order (fs.map RegionTrace.text) rank = .ok out ∧ WritesOptimal fs rank out := by
  obtain ⟨out, rs, h1, h2, h3, h4⟩ := writeOpt_ok py ho hne h rank
  exact ⟨out, h1, rs, h2, h3, h4⟩

/-- One execution of the region with the features `q` that asks once for the policy. -/
def askOnce (q : Features) : List Apollo.Op :=
  .begin 0 .sync :: (q.map (.setFeatureCur 0 ·) ++ [.getPolicyIndexCur 0, .endCur 0])

/-- The program that creates the region `name` with the model Optimal and executes it with features. -/
def replayProgram (nf : ℤ) (name : List Char) (np : ℤ) (qs : List Features) : List Apollo.Op :=
  .create nf name np 0 "Optimal".toList [] :: qs.flatMap askOnce

theorem optimalName_inj {rank : ℤ} {r r' : List Char} (h : optimalName rank r = optimalName rank r') :
    r = r' := by
  unfold optimalName at h
  simp only [List.append_assoc] at h
  have h1 := List.append_cancel_left h
  exact List.append_cancel_right h1

/-- A strictly ascending list with the numbers below `n` is `0, 1, …, n - 1`. -/
theorem eq_range {is : List ℕ} {n : ℕ} (hs : is.Pairwise (· < ·)) (hm : ∀ i, i ∈ is ↔ i < n) :
    is = List.range n := by
  refine List.Perm.eq_of_pairwise (le := (· ≤ ·)) ?_ (hs.imp fun h => le_of_lt h)
    (List.pairwise_lt_range.imp fun h => le_of_lt h) ?_
  · intro a b _ _ h1 h2
    exact le_antisymm h1 h2
  · rw [List.perm_ext_iff_of_nodup (hs.imp fun h => ne_of_lt h) List.nodup_range]
    intro a
    rw [hm, List.mem_range]

/-- C90: if the executions `0, …, n - 1` of a region were measured, the script writes its file, once, and a
program that creates the region with the model Optimal where the file is, and executes it `n` times, gets
in each execution the policy that was fastest in the execution with this number. -/
theorem C90 (py : Py) {order : List ℚ → List ℕ} (ho : Orders order) {fs : List RegionTrace}
    (h : ∀ F ∈ fs, F.Wellformed ∧ F.Kept py) {rank : ℤ} {r : List Char} {n : ℕ} (hn : 0 < n)
    (hlt : n < 2 ^ 31) (hall : ∀ i, rowsAt fs rank r i ≠ [] ↔ i < n) :
    ∃ out text, py.writeOpt order (fs.map RegionTrace.text) rank = .ok out ∧
      (∀ text', (optimalName rank r, text') ∈ out ↔ text' = text) ∧
      ∀ (env : Env PolicyModel) gen tenv, env.ops = policyOps gen tenv → env.rank = rank →
        ∀ files : List Char → Option (List Char), files (optimalName rank r) = some text →
          ∀ nf name np, truncName name = r → ∀ qs : List Features, qs.length = n →
            ∃ rets w, results env (replayProgram nf name np qs) (initWorld {} files) = .ok (rets, w) ∧
              List.Forall₂ (BestAt fs rank r) (List.range n) (policies rets) := by
  have hne : fs ≠ [] := by
    rintro rfl
    exact (hall 0).2 hn rfl
  obtain ⟨out, h1, rs, h2, h3, h4⟩ := C90_files py ho hne h rank
  have hr : r ∈ rs := (h3 r).2 ⟨0, (hall 0).2 hn⟩
  obtain ⟨⟨nm, text⟩, ho1, e, is, ps, p1, p2, p3, rfl⟩ := forall₂_left h4 hr
  simp only at e
  subst e
  have his : is = List.range n := eq_range p1 fun i => by rw [p2, hall]
  subst his
  have hlen : ps.length = n := by rw [← p3.length_eq, List.length_range]
  refine ⟨out, [','].intercalate (ps.map fmtInt), h1, ?_, ?_⟩
  · intro text'
    constructor
    · intro hm
      -- the names of the files are distinct
      have hnd : (out.map Prod.fst).Nodup := by
        have e : out.map Prod.fst = rs.map (optimalName rank) := by
          clear h1 h2 h3 hr ho1 hm
          induction h4 with
          | nil => rfl
          | cons a _ ih => rw [List.map_cons, List.map_cons, ih, a.1]
        rw [e]
        exact h2.map fun _ _ => optimalName_inj
      exact congrArg Prod.snd (List.inj_on_of_nodup_map hnd hm ho1 rfl)
    · rintro rfl
      exact ho1
  · rintro env gen tenv hops hrank files hf nf name np hname qs hq
    have hps : ∀ p ∈ ps, -2 ^ 31 ≤ p ∧ p < 2 ^ 31 := by
      intro p hp
      obtain ⟨i, -, x, hx, rfl, -⟩ := forall₂_right p3 hp
      obtain ⟨F, hF, -, -, hx, -⟩ := mem_rowsAt.1 hx
      exact ((h F hF).1.rows x hx).2.2
    have hpne : ps ≠ [] := by
      rintro rfl
      simp at hlen
      omega
    have hload : PolicyModel.load (some ([','].intercalate (ps.map fmtInt))) (.optimal []) =
        .ok (.optimal ps) := by
      have e := PolicyModel.loadOptimal_text [] ps [] hps (by simp) (by simp) hpne
      rw [PolicyModel.commaText_eq, List.append_nil, List.nil_append] at e
      simp only [PolicyModel.load, e]
      rfl
    obtain ⟨rets, w, w1, w2⟩ := optimal_list hops nf np name (files := files)
      (by rw [hrank, hname]; exact hf) hload (qs := qs) (by omega) (by omega)
    refine ⟨rets, w, w1, ?_⟩
    rw [w2, hq, ← hlen, List.take_length, hlen]
    exact p3

/-- A region at some point of an execution with APOLLO_TRACE_CSV, whose contexts were used properly. -/
structure TracedRun where
  gen : ℕ → ℕ → ℕ
  tenv : ℕ → TrainEnv
  env : Env PolicyModel
  cfg : Cfg
  files : Str → Option Str
  ops : List Apollo.Op
  w : World PolicyModel
  r : ℕ
  R : Region
  m : PolicyModel
  models : env.ops = policyOps gen tenv
  run : exec env ops (initWorld cfg files) = .ok w
  traced : w.cfg.traceCsv = true
  region : w.regions r = some R
  model : w.models r = some m
  proper : (observe w.log).proper r = true

/-- What was executed, as data. -/
def TracedRun.executed (t : TracedRun) : RegionTrace :=
  ⟨t.env.rank, t.m.name, t.R.name, t.R.numFeatures.toNat, (observe t.w.log).rows t.r⟩

theorem TracedRun.text (t : TracedRun) : t.R.trace = t.executed.text := by
  have ha : Named t.env.ops := by rw [t.models]; exact policyOps_named t.gen t.tenv
  have h1 := ((TraceInv.invariant ha fun _ => True).exec (fun _ _ _ _ => trivial)
    ⟨logInv_init t.cfg t.files, traceInv_init t.env t.cfg t.files⟩ t.run).2 t.traced t.r t.R t.m
    t.region t.model t.proper
  rw [h1, t.models]
  rfl

/-- C90 from programs to a program: the traces are those that Apollo wrote in runs of programs, for example
one for each static policy; in the replay every execution gets the policy that was fastest in the execution
with this number in these runs. -/
theorem C90_programs (py : Py) {order : List ℚ → List ℕ} (ho : Orders order) (runs : List TracedRun)
    (h : ∀ t ∈ runs, t.executed.Wellformed ∧ t.executed.Kept py) {rank : ℤ} {r : List Char} {n : ℕ}
    (hn : 0 < n) (hlt : n < 2 ^ 31)
    (hall : ∀ i, rowsAt (runs.map TracedRun.executed) rank r i ≠ [] ↔ i < n) :
    ∃ out text, py.writeOpt order (runs.map fun t => t.R.trace) rank = .ok out ∧
      (∀ text', (optimalName rank r, text') ∈ out ↔ text' = text) ∧
      ∀ (env : Env PolicyModel) gen tenv, env.ops = policyOps gen tenv → env.rank = rank →
        ∀ files : List Char → Option (List Char), files (optimalName rank r) = some text →
          ∀ nf name np, truncName name = r → ∀ qs : List Features, qs.length = n →
            ∃ rets w, results env (replayProgram nf name np qs) (initWorld {} files) = .ok (rets, w) ∧
              List.Forall₂ (BestAt (runs.map TracedRun.executed) rank r) (List.range n) (policies rets) := by
  have e : (runs.map fun t => t.R.trace) = (runs.map TracedRun.executed).map RegionTrace.text := by
    rw [List.map_map]
    exact List.map_congr_left fun t _ => t.text
  rw [e]
  refine C90 py ho (fun F hF => ?_) hn hlt hall
  obtain ⟨t, ht, rfl⟩ := List.mem_map.1 hF
  exact h t ht

/-! ## Examples of the hypotheses -/

/-- Sorting the positions of numbers. -/
def demoOrder (l : List ℚ) : List ℕ :=
  (List.range l.length).insertionSort fun i j => l.getD i 0 ≤ l.getD j 0

theorem demoOrder_orders : Orders demoOrder := by
  intro l
  refine ⟨List.perm_insertionSort _ _, ?_⟩
  rw [List.pairwise_map]
  have : Std.Total fun i j : ℕ => l.getD i 0 ≤ l.getD j 0 := ⟨fun i j => le_total _ _⟩
  have : IsTrans ℕ fun i j => l.getD i 0 ≤ l.getD j 0 := ⟨fun _ _ _ => le_trans⟩
  exact List.pairwise_insertionSort _ _

/-- A region executed with one policy. -/
def static (p : ℕ) (rows : List (ℕ × ℚ)) : RegionTrace :=
  ⟨0, "Static,".toList ++ fmtInt p, "a".toList, 1, rows.map fun x => ⟨x.1, [3], p, x.2⟩⟩

theorem ordinary_a : Ordinary "a".toList := ⟨⟨'a', [], by decide +kernel, by decide +kernel⟩, by decide +kernel⟩

theorem ordinary_static {p : ℕ} (hp : p = 0 ∨ p = 1) : Ordinary ("Static,".toList ++ fmtInt p) := by
  rcases hp with rfl | rfl
  · exact ⟨⟨'S', "tatic,0".toList, by decide +kernel, by decide +kernel⟩, by decide +kernel⟩
  · exact ⟨⟨'S', "tatic,1".toList, by decide +kernel, by decide +kernel⟩, by decide +kernel⟩

theorem static_good {p : ℕ} (hp : p = 0 ∨ p = 1) {rows : List (ℕ × ℚ)}
    (h : ∀ x ∈ rows, x.1 < 10 ∧ (x.2 = 1 / 2 ∨ x.2 = 1 / 4)) :
    (static p rows).Wellformed ∧ (static p rows).Kept demoPy := by
  refine ⟨⟨ordinary_static hp, ordinary_a, by show |(0 : ℤ)| < _; decide, ?_⟩, ?_⟩
  · intro x hx
    obtain ⟨y, hy, rfl⟩ := List.mem_map.1 hx
    have := (h y hy).1
    refine ⟨rfl, by simp only; omega, ?_, ?_⟩ <;> rcases hp with rfl | rfl <;> norm_num
  · intro x hx
    obtain ⟨y, hy, rfl⟩ := List.mem_map.1 hx
    refine ⟨(narrow_good.2 ⟨0, [3], 0, 1 / 2⟩ (by decide +kernel)).1, ?_⟩
    rcases (h y hy).2 with e | e
    · simp only [e]
      exact (narrow_good.2 ⟨0, [3], 0, 1 / 2⟩ (by decide +kernel)).2
    · simp only [e]
      exact (narrow_good.2 ⟨1, [4], 1, 1 / 4⟩ (by decide +kernel)).2

/-- The first execution was faster with policy 1, the second with policy 0. -/
def statics : List RegionTrace := [static 0 [(0, 1 / 2), (1, 1 / 4)], static 1 [(0, 1 / 4), (1, 1 / 2)]]

theorem statics_good : ∀ F ∈ statics, F.Wellformed ∧ F.Kept demoPy := by
  intro F hF
  rcases List.mem_cons.1 hF with rfl | hF
  · exact static_good (Or.inl rfl) (by decide +kernel)
  · rw [List.mem_singleton.1 hF]
    exact static_good (Or.inr rfl) (by decide +kernel)

theorem statics_all (i : ℕ) : rowsAt statics 0 "a".toList i ≠ [] ↔ i < 2 := by
  constructor
  · intro h
    obtain ⟨x, hx⟩ := List.exists_mem_of_ne_nil _ h
    obtain ⟨F, hF, -, -, hx', rfl⟩ := mem_rowsAt.1 hx
    have key : ∀ F ∈ statics, ∀ x ∈ F.rows, x.index < 2 := by decide +kernel
    exact key F hF x hx'
  · intro h
    interval_cases i <;> decide +kernel

/-- Hypotheses of `C90_files` and `C90`. -/
example : ∃ out, demoPy.writeOpt demoOrder (statics.map RegionTrace.text) 0 = .ok out ∧
    WritesOptimal statics 0 out := C90_files demoPy demoOrder_orders (by simp [statics]) statics_good 0

example : ∃ text, ∀ gen tenv (files : List Char → Option (List Char)),
    files (optimalName 0 "a".toList) = some text → ∃ rets w,
      results { ops := policyOps gen tenv } (replayProgram 1 "a".toList 2 [[3], [7]]) (initWorld {} files) =
        .ok (rets, w) ∧ List.Forall₂ (BestAt statics 0 "a".toList) [0, 1] (policies rets) := by
  obtain ⟨-, text, -, -, h⟩ :=
    C90 demoPy demoOrder_orders statics_good (n := 2) (by decide) (by decide) statics_all
  exact ⟨text, fun gen tenv files hf => h _ gen tenv rfl rfl files hf 1 _ 2 (by decide +kernel) _ rfl⟩

/-- The policies that a program gets. -/
def answers : Res (List Ret × World PolicyModel) → Except Err (List ℤ)
  | .ok x => .ok (policies x.1)
  | .error e => .error e

/-- The file and the policies of the program. -/
example : demoPy.writeOpt demoOrder (statics.map RegionTrace.text) 0 =
      .ok [("opt-a-rank-0.txt".toList, "1,0".toList)] ∧
    answers (results demoEnv (replayProgram 1 "a".toList 2 [[3], [3]]) (initWorld {} fun p =>
      if p = "opt-a-rank-0.txt".toList then some "1,0".toList else none)) = .ok [1, 0] := by
  exact ⟨by decide +kernel, by decide +kernel⟩

/-- A program that executes the region twice with one policy. -/
def staticProgram (p : ℕ) : List Apollo.Op :=
  .create 1 "a".toList 2 0 ("Static,policy=".toList ++ fmtInt p) [] ::
    (demoRun 0 3 (if p = 0 then 1 / 2 else 1 / 4) ++ demoRun 0 3 (if p = 0 then 1 / 4 else 1 / 2))

theorem staticProgram_run {p : ℕ} (hp : p = 0 ∨ p = 1) : ∃ t : TracedRun,
    t.executed = static p [(0, if p = 0 then 1 / 2 else 1 / 4), (1, if p = 0 then 1 / 4 else 1 / 2)] := by
  have key : ∃ w, exec demoEnv (staticProgram p) (initWorld { traceCsv := true } fun _ => none) = .ok w ∧
      (w.cfg.traceCsv = true ∧ (observe w.log).proper 0 = true ∧
        (w.regions 0).map (fun R => (R.name, R.numFeatures)) = some ("a".toList, 1) ∧
        (w.models 0).map PolicyModel.name = some ("Static,".toList ++ fmtInt p) ∧
        (observe w.log).rows 0 = (static p [(0, if p = 0 then 1 / 2 else 1 / 4),
          (1, if p = 0 then 1 / 4 else 1 / 2)]).rows) := by
    rcases hp with rfl | rfl <;> exact run_ok (by decide +kernel)
  obtain ⟨w, h1, h2, h3, h4, h5, h6⟩ := key
  obtain ⟨R, hR, e1⟩ := Option.map_eq_some_iff.1 h4
  obtain ⟨m, hm, e2⟩ := Option.map_eq_some_iff.1 h5
  rw [Prod.mk.injEq] at e1
  refine ⟨⟨_, _, demoEnv, _, _, _, w, 0, R, m, rfl, h1, h2, hR, hm, h3⟩, ?_⟩
  simp only [TracedRun.executed, e1.1, e1.2, e2, h6]
  rfl

/-- Hypotheses of `C90_programs`. -/
example : ∃ runs : List TracedRun, runs.map TracedRun.executed = statics ∧
    (∀ t ∈ runs, t.executed.Wellformed ∧ t.executed.Kept demoPy) ∧
    ∀ i, rowsAt (runs.map TracedRun.executed) 0 "a".toList i ≠ [] ↔ i < 2 := by
  obtain ⟨t0, h0⟩ := staticProgram_run (Or.inl rfl)
  obtain ⟨t1, h1⟩ := staticProgram_run (Or.inr rfl)
  have e : [t0, t1].map TracedRun.executed = statics := by
    simp only [List.map_cons, List.map_nil, h0, h1]
    rfl
  refine ⟨[t0, t1], e, fun t ht => statics_good _ ?_, fun i => by rw [e]; exact statics_all i⟩
  rw [← e]
  exact List.mem_map.2 ⟨t, ht, rfl⟩

/-! ## What the replay needs -/

/-- A program that begins its second execution and does not end it. -/
def gapProgram (p : ℕ) : List Apollo.Op :=
  .create 1 "a".toList 2 0 ("Static,policy=".toList ++ fmtInt p) [] ::
    (demoRun 0 3 (if p = 0 then 1 / 4 else 1 / 2) ++ .begin 0 .sync ::
      demoRun 0 3 (if p = 0 then 1 / 2 else 1 / 4))

/-- The trace of the first region of a program. -/
def traceOf (ops : List Apollo.Op) : Option Text :=
  match exec demoEnv ops (initWorld { traceCsv := true } fun _ => none) with
  | .ok w => (w.regions 0).map (·.trace)
  | .error _ => none

/-- The traces of this program. -/
def gaps : List RegionTrace := [static 0 [(0, 1 / 4), (2, 1 / 2)], static 1 [(0, 1 / 2), (2, 1 / 4)]]

/-- C90 needs that every execution was measured: when one was begun and not ended, as in `gapProgram`, the
policies of the following executions are found one execution early, and the last execution aborts. -/
theorem C90_gap_needed :
    (∀ F ∈ gaps, F.Wellformed ∧ F.Kept demoPy) ∧
    ([0, 1].map fun p => traceOf (gapProgram p)) = gaps.map (fun F => some F.text) ∧
    demoPy.writeOpt demoOrder (gaps.map RegionTrace.text) 0 =
      .ok [(optimalName 0 "a".toList, "0,1".toList)] ∧
    (∀ p, BestAt gaps 0 "a".toList 2 p ↔ p = 1) ∧ (∀ p, ¬ BestAt gaps 0 "a".toList 1 p) ∧
    let files := fun p => if p = optimalName 0 "a".toList then some "0,1".toList else none
    answers (results demoEnv (replayProgram 1 "a".toList 2 [[3], [3]]) (initWorld {} files)) = .ok [0, 1] ∧
    answers (results demoEnv (replayProgram 1 "a".toList 2 [[3], [3], [3]]) (initWorld {} files)) =
      .error .abort := by
  refine ⟨?_, by decide +kernel, by decide +kernel, ?_, ?_, by decide +kernel, by decide +kernel⟩
  · intro F hF
    rcases List.mem_cons.1 hF with rfl | hF
    · exact static_good (Or.inl rfl) (by decide +kernel)
    · rw [List.mem_singleton.1 hF]
      exact static_good (Or.inr rfl) (by decide +kernel)
  · have e : rowsAt gaps 0 "a".toList 2 = [⟨2, [3], 0, 1 / 2⟩, ⟨2, [3], 1, 1 / 4⟩] := by decide +kernel
    intro p
    unfold BestAt
    rw [e]
    constructor
    · rintro ⟨x, hx, rfl, hle⟩
      rcases List.mem_cons.1 hx with rfl | hx
      · exact absurd (hle ⟨2, [3], 1, 1 / 4⟩ (by simp)) (by norm_num)
      · rw [List.mem_singleton.1 hx]
    · rintro rfl
      exact ⟨⟨2, [3], 1, 1 / 4⟩, by simp, rfl, by decide +kernel⟩
  · have e : rowsAt gaps 0 "a".toList 1 = [] := by decide +kernel
    rintro p ⟨x, hx, -⟩
    rw [e] at hx
    cases hx

/-- C90 needs executions that ask once: one that asks twice takes the policy of the next. -/
theorem C90_once_needed :
    let files := fun p => if p = optimalName 0 "a".toList then some "1,0".toList else none
    let twice : List Apollo.Op :=
      [.begin 0 .sync, .setFeatureCur 0 3, .getPolicyIndexCur 0, .getPolicyIndexCur 0, .endCur 0]
    let create : Apollo.Op := .create 1 "a".toList 2 0 "Optimal".toList []
    demoPy.writeOpt demoOrder (statics.map RegionTrace.text) 0 =
      .ok [(optimalName 0 "a".toList, "1,0".toList)] ∧
    answers (results demoEnv (create :: twice) (initWorld {} files)) = .ok [1, 0] ∧
    answers (results demoEnv (create :: (twice ++ askOnce [3])) (initWorld {} files)) =
      .error .abort :=
  ⟨by decide +kernel, by decide +kernel, by decide +kernel⟩

end Apollo.Props
