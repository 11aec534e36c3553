import Verif.Proofs.ProcessTrace
import Verif.Proofs.TraceRuns
import Verif.Props.Trace
import Mathlib.Order.Monotone.Basic

/-!
# Property C112: the trace of the process
-/

namespace Apollo.Props

open Apollo Apollo.Spec

variable {M : Type}

theorem traceCsv_exec {env : Env M} {cfg : Cfg} {files : Str → Option Str} {ops : List Op} {w : World M}
    (h : exec env ops (initWorld cfg files) = .ok w) (ht : cfg.traceCsv = true) : w.cfg.traceCsv = true := by
  have h1 := congrArg Cfg.traceCsv (cfg_exec h)
  simp only at h1
  rw [h1]
  exact ht

/-- C112: with the trace switched on, the trace of the process has, after the first line, one line for each finished
execution of any region, in the order in which they finished: the time, the name of the region, the number of the
execution in its region, the name of the model and the policy that was asked for.  The times are readings of the
clock, in order. -/
theorem C112_trace (env : Env M) (cfg : Cfg) (files : Str → Option Str) (ops : List Op) (w : World M)
    (h : exec env ops (initWorld cfg files) = .ok w) (ht : cfg.traceCsv = true) (names models : ℕ → Str)
    (hn : NamedBy env (initWorld cfg files) ops names models)
    (hN : ∀ x ∈ finishedAll w.log, Plain (names x.1) ∧ names x.1 ≠ [])
    (hM : ∀ x ∈ finishedAll w.log, Plain (models x.1) ∧ models x.1 ≠ [])
    (hp : ∀ r, (observe w.log).proper r = true) :
    ∃ ts : List ℤ, ts.length = (finishedAll w.log).length ∧ (∀ t ∈ ts, ∃ k ≤ w.tick, t = env.wall k) ∧
      (Monotone env.wall → ts.Pairwise (· ≤ ·)) ∧
      (lines w.gtrace).map words =
        ["#".toList, "timestamp".toList, "(us),".toList, "region,".toList, "idx,".toList, "model,".toList,
          "policy".toList] :: processTable names models ts (finishedAll w.log) := by
  obtain ⟨ks, h1, h2, h3, h4⟩ := ((processInv_init env names models cfg files).exec hn h).text (traceCsv_exec h ht) hp
  refine ⟨ks.map env.wall, by simpa using h1, ?_, ?_, ?_⟩
  · intro t htm
    obtain ⟨k, hk, rfl⟩ := List.mem_map.1 htm
    exact ⟨k, h3 k hk, rfl⟩
  · intro hmono
    rw [List.pairwise_map]
    exact h2.imp fun hab => hmono hab
  · have e := read_processText (ts := ks.map env.wall) (fun x hx => (hN x hx).1) (fun x hx => (hM x hx).1)
    rw [← h4] at e
    have e2 : (lines w.gtrace).map words = (readTable w.gtrace).map fun ws => ws.filter fun v => v ≠ [] := by
      simp [readTable, words, List.map_map, Function.comp_def]
    rw [e2, e, List.map_cons, words_zip (fun x hx => (hN x hx).2) (fun x hx => (hM x hx).2)]
    rfl

/-- C112: every program has such names: a region keeps its name and the name of its model, and its number is not
given to another one. -/
theorem C112_names (env : Env M) (cfg : Cfg) (files : Str → Option Str) (ops : List Op) :
    ∃ names models, NamedBy env (initWorld cfg files) ops names models :=
  namedBy_exists env cfg files ops

/-- C112: the executions of one region among the lines are those of the trace of the region, in the same order. -/
theorem C112_region (h : List Ev) (r : ℕ) :
    ((finishedAll h).filter fun x => x.1 = r).map Prod.snd = (observe h).rows r :=
  finishedAll_rows h r

/-- C112, a remark: read as the traces of regions are, with one blank between columns, the lines have a fifth column
without a name, which is empty: between the model and the policy there are two blanks. -/
theorem C112_columns (env : Env M) (cfg : Cfg) (files : Str → Option Str) (ops : List Op) (w : World M)
    (h : exec env ops (initWorld cfg files) = .ok w) (ht : cfg.traceCsv = true) (names models : ℕ → Str)
    (hn : NamedBy env (initWorld cfg files) ops names models)
    (hN : ∀ x ∈ finishedAll w.log, Plain (names x.1)) (hM : ∀ x ∈ finishedAll w.log, Plain (models x.1))
    (hp : ∀ r, (observe w.log).proper r = true) :
    ∀ row ∈ (readTable w.gtrace).tail, row.length = 6 ∧ row[4]? = some [] := by
  obtain ⟨ks, h1, h2, h3, h4⟩ := ((processInv_init env names models cfg files).exec hn h).text (traceCsv_exec h ht) hp
  rw [h4, read_processText hN hM]
  intro row hrow
  rw [List.tail_cons, ← List.map_uncurry_zip_eq_zipWith] at hrow
  obtain ⟨⟨t, x⟩, _, rfl⟩ := List.mem_map.1 hrow
  exact ⟨rfl, rfl⟩

/-- C112 for programs whose regions still exist. -/
theorem C112_alive (env : Env M) (cfg : Cfg) (files : Str → Option Str) (ops : List Op) (w : World M)
    (h : exec env ops (initWorld cfg files) = .ok w) (ht : cfg.traceCsv = true)
    (ha : ∀ x ∈ finishedAll w.log, ∃ R, w.regions x.1 = some R ∧ (Plain R.name ∧ R.name ≠ []) ∧
      Plain R.modelName ∧ R.modelName ≠ [])
    (hp : ∀ r, (observe w.log).proper r = true) :
    ∃ ts : List ℤ, ts.length = (finishedAll w.log).length ∧ (∀ t ∈ ts, ∃ k ≤ w.tick, t = env.wall k) ∧
      (Monotone env.wall → ts.Pairwise (· ≤ ·)) ∧
      (lines w.gtrace).map words =
        ["#".toList, "timestamp".toList, "(us),".toList, "region,".toList, "idx,".toList, "model,".toList,
          "policy".toList] :: processTable (fun r => (w.regions r).elim [] Region.name)
            (fun r => (w.regions r).elim [] Region.modelName) ts (finishedAll w.log) := by
  obtain ⟨names, models, hn⟩ := C112_names env cfg files ops
  have hw : ∀ r R, w.regions r = some R → R.name = names r ∧ R.modelName = models r :=
    fun r R hR => hn ops List.prefix_rfl w h r R hR
  obtain ⟨ts, h1, h2, h3, h4⟩ := C112_trace env cfg files ops w h ht names models hn
    (fun x hx => by
      obtain ⟨R, hR, h1, _⟩ := ha x hx
      rw [← (hw x.1 R hR).1]
      exact h1)
    (fun x hx => by
      obtain ⟨R, hR, _, h1⟩ := ha x hx
      rw [← (hw x.1 R hR).2]
      exact h1) hp
  refine ⟨ts, h1, h2, h3, ?_⟩
  rw [h4]
  congr 1
  unfold processTable
  rw [← List.map_uncurry_zip_eq_zipWith, ← List.map_uncurry_zip_eq_zipWith]
  apply List.map_congr_left
  rintro ⟨t, x⟩ hx
  obtain ⟨R, hR, _⟩ := ha x (List.of_mem_zip hx).2
  obtain ⟨e1, e2⟩ := hw x.1 R hR
  simp only [Function.uncurry, hR, Option.elim, e1, e2]

/-! Two regions; executions of the second one finish while one of the first is pending. -/

/-- The program. -/
def procOps : List Op :=
  [.create 1 "a".toList 2 0 "Static,policy=1".toList [],
    .create 1 "b".toList 3 0 "DecisionTree,explore=RoundRobin".toList [],
    .begin 0 .async, .setFeature 0 (.heap 0) 4, .getPolicyIndex 0 (.heap 0), .endCtx 0 (.heap 0)] ++
    demoRun 1 7 2 ++ demoRun 1 8 1 ++ demoRun 0 5 1 ++ demoRun 1 9 1 ++ demoRun 0 6 1 ++ demoRun 0 7 1

/-- Regions without finished executions are proper. -/
theorem proper_others (h : List Ev) (hp : ∀ x ∈ finishedAll h, (observe h).proper x.1 = true) (r : ℕ) :
    (observe h).proper r = true := by
  have key : ∀ r, (∀ x ∈ finishedAll h, x.1 ≠ r) → (observe h).proper r = true := by
    clear hp
    induction h using List.reverseRecOn with
    | nil => intro r _; rfl
    | append_singleton h e ih =>
      intro r hr
      rw [finishedAll_snoc] at hr
      have h1 := ih r fun x hx => hr x (by simp [hx])
      rw [observe_snoc]
      cases e with
      | finished r' c m =>
        have hne : r' ≠ r := hr _ (List.mem_append_right _ (List.mem_singleton.2 rfl))
        simp only [Observer.next, Function.update_of_ne hne.symm]
        exact h1
      | _ => exact h1
  by_cases hr : ∃ x ∈ finishedAll h, x.1 = r
  · obtain ⟨x, hx, rfl⟩ := hr
    exact hp x hx
  · exact key r fun x hx he => hr ⟨x, hx, he⟩

example : ∃ w, exec demoEnv procOps (initWorld { traceCsv := true } fun _ => none) = .ok w ∧
    w.gtrace = ("# timestamp (us), region, idx, model, policy\n6 b 0 DecisionTree  0\n7 b 1 DecisionTree  1\n" ++
      "8 a 1 Static  1\n10 b 2 DecisionTree  2\n11 a 2 Static  1\n13 a 3 Static  1\n14 a 0 Static  1\n").toList :=
  run_ok (by decide +kernel)

/-- The hypotheses of C112 hold for it. -/
example : ∃ w, exec demoEnv procOps (initWorld { traceCsv := true } fun _ => none) = .ok w ∧
    (∀ x ∈ finishedAll w.log, ∃ R, w.regions x.1 = some R ∧ (Plain R.name ∧ R.name ≠ []) ∧
      Plain R.modelName ∧ R.modelName ≠ []) ∧ ∀ r, (observe w.log).proper r = true := by
  have h : ∃ w, exec demoEnv procOps (initWorld { traceCsv := true } fun _ => none) = .ok w ∧
      ((finishedAll w.log).map (·.1) = [1, 1, 0, 1, 0, 0, 0] ∧ (observe w.log).proper 0 = true ∧
        (observe w.log).proper 1 = true ∧
        (w.regions 0).map (fun R => (R.name, R.modelName)) = some ("a".toList, "Static".toList) ∧
        (w.regions 1).map (fun R => (R.name, R.modelName)) = some ("b".toList, "DecisionTree".toList)) :=
    run_ok (by decide +kernel)
  obtain ⟨w, hw, h1, h2, h3, h4, h5⟩ := h
  have hr : ∀ x ∈ finishedAll w.log, x.1 = 0 ∨ x.1 = 1 := by
    intro x hx
    have := List.mem_map_of_mem (f := fun x : ℕ × Row => x.1) hx
    rw [h1] at this
    simp at this
    tauto
  refine ⟨w, hw, fun x hx => ?_, proper_others w.log fun x hx => ?_⟩
  · rcases hr x hx with e | e
    · rw [e]
      obtain ⟨R, hR, e⟩ := Option.map_eq_some_iff.1 h4
      simp only [Prod.mk.injEq] at e
      refine ⟨R, hR, ?_⟩
      rw [e.1, e.2]
      unfold Plain
      decide
    · rw [e]
      obtain ⟨R, hR, e⟩ := Option.map_eq_some_iff.1 h5
      simp only [Prod.mk.injEq] at e
      refine ⟨R, hR, ?_⟩
      rw [e.1, e.2]
      unfold Plain
      decide
  · rcases hr x hx with e | e
    · rw [e]; exact h2
    · rw [e]; exact h3

/-- A region that is destroyed and another one created later: the line of the first one stays. -/
example : ∃ w, exec demoEnv ([.create 1 "a".toList 2 0 "Static,policy=1".toList []] ++ demoRun 0 5 1 ++
      [.destroy 0 3, .create 1 "c".toList 2 0 "Static,policy=0".toList []] ++ demoRun 1 5 1)
      (initWorld { traceCsv := true } fun _ => none) = .ok w ∧
    w.gtrace = "# timestamp (us), region, idx, model, policy\n2 a 0 Static  1\n4 c 0 Static  0\n".toList :=
  run_ok (by decide +kernel)

end Apollo.Props
