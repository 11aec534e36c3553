import Verif.Proofs.Explained
import Verif.Props.Replay

/-!
# C114: every policy handed out is a turn of the explorer or the best one measured
-/

namespace Apollo.Props

open Apollo.Spec
open Kokkos (exploring exploring_step)

/-- A region with a new tree (`none`) or forest whose explorer takes turns, and no measurements, was just created:
region model mode, datasets are not kept in files. -/
structure NewExplorer (env : Env PolicyModel) (gen : ℕ → ℕ → ℕ) (tenv : ℕ → TrainEnv) (cfg : Cfg) (mt : ℤ) (r : ℕ)
    (k : Option ℕ) (n : ℤ) (d : ℕ) (w : World PolicyModel) : Prop where
  ops : env.ops = policyOps gen tenv
  sorts : ∀ t, SortSpec (tenv t).sort
  single : cfg.single = false
  persistent : cfg.persistent = false
  created : JustCreated env cfg mt r w
  region : ∃ R, w.regions r = some R ∧ R.dataset = []
  model : w.models r = some (exploring k n d 0)
  trees : k ≠ some 0
  policies : 0 < n

theorem NewExplorer.story {env : Env PolicyModel} {gen : ℕ → ℕ → ℕ} {tenv : ℕ → TrainEnv} {cfg : Cfg} {mt : ℤ} {r : ℕ}
    {k : Option ℕ} {n : ℤ} {d : ℕ} {w : World PolicyModel} (hc : NewExplorer env gen tenv cfg mt r k n d w)
    {w' : World PolicyModel} {ops : List Apollo.Op} {l : List Ev} (h : exec env ops w = .ok w') (hl : w'.log = w.log ++ l) :
    (observe w.log).rows r = [] ∧
      ∃ s, Replay (rules env cfg mt) false r w.log ⟨exploring k n d 0, []⟩ l s := by
  obtain ⟨R, hR, hd⟩ := hc.region
  obtain ⟨s, h1, -⟩ := C113_story env cfg mt r w w' ops R _ l hc.created hR hc.model h hl
  rw [hd, hc.single] at h1
  refine ⟨?_, s, h1⟩
  obtain ⟨files, ops₀, w₀, nf, name, n', info, yaml, h0, h2⟩ := hc.created
  obtain ⟨R₁, m₁, l₁, hcr⟩ := createRegion_ok h2
  have hI : LogInv w₀ := reachable_log h0
  rw [hcr.log, observe_snoc, observe_trained _ _ hcr.events]
  refine (observe_fresh_reg fun e he hr => ?_).2
  have := hI.evReg e he r hr
  have := hcr.id
  omega

/-- C114: until its model is trained for the first time, a region hands out its policies in turn: the `j`-th answer,
counted from zero, is `j` modulo the number of policies.  Whatever else happens in the process. -/
theorem C114_turns {env : Env PolicyModel} {gen : ℕ → ℕ → ℕ} {tenv : ℕ → TrainEnv} {cfg : Cfg} {mt : ℤ} {r : ℕ}
    {k : Option ℕ} {n : ℤ} {d : ℕ} {w : World PolicyModel} (hc : NewExplorer env gen tenv cfg mt r k n d w)
    (w' : World PolicyModel) (ops : List Apollo.Op) (pre post : List Ev) (c : CtxPtr) (p : ℤ) (h : exec env ops w = .ok w')
    (hl : w'.log = w.log ++ (pre ++ .chose r c p :: post)) (ht : ∀ ds, Ev.trained r ds ∉ pre) :
    p = ((answers r pre).length : ℤ) % n := by
  obtain ⟨-, s, h1⟩ := hc.story h hl
  rw [show pre ++ Ev.chose r c p :: post = (pre ++ [.chose r c p]) ++ post by simp] at h1
  obtain ⟨s₁, h2⟩ := h1.take
  obtain ⟨s₂, h3, h4⟩ := h2.snoc
  have h5 := replay_turns hc.ops hc.policies h3 ht
  cases h4 with
  | chose _ _ f m' _ h6 =>
    have h6 : env.ops.getIndex s₂.model f = .ok (p, m') := h6
    rw [hc.ops, h5] at h6
    have h7 : (exploring k n d (answers r pre).length).getIndex f = .ok (p, m') := h6
    rw [(exploring_step hc.policies k d _ f).1] at h7
    simp only [Except.ok.injEq, Prod.mk.injEq] at h7
    exact h7.1.symm
  | other _ h6 => exact absurd rfl (h6 c p)

/-- C114: once its model was trained, every policy a region hands out is the fastest measured, before the first
training, for one of its feature vectors; a tree always hands out the smallest of these.  The first training was on
all measurements of the region so far, and nothing that happens later changes what was learned: not more
executions, other regions, trainings asked for by others or trainings by force. -/
theorem C114_best {env : Env PolicyModel} {gen : ℕ → ℕ → ℕ} {tenv : ℕ → TrainEnv} {cfg : Cfg} {mt : ℤ} {r : ℕ}
    {k : Option ℕ} {n : ℤ} {d : ℕ} {w : World PolicyModel} (hc : NewExplorer env gen tenv cfg mt r k n d w)
    (w' : World PolicyModel) (ops : List Apollo.Op) (nf : ℕ) (pre mid post : List Ev) (ds : Dataset) (c : CtxPtr) (p : ℤ)
    (h : exec env ops w = .ok w')
    (hl : w'.log = w.log ++ (pre ++ .trained r ds :: (mid ++ .chose r c p :: post)))
    (ht : ∀ ds, Ev.trained r ds ∉ pre)
    (hpr : (observe (w.log ++ (pre ++ .trained r ds :: mid))).proper r = true)
    (ho : (observe (w.log ++ (pre ++ .trained r ds :: mid))).isOpen c = true)
    (hf : ((observe (w.log ++ (pre ++ .trained r ds :: mid))).features c).length = nf)
    (hrow : ∀ x ∈ (observe (w.log ++ (pre ++ .trained r ds :: mid))).rows r,
      x.features.length = nf ∧ 0 ≤ x.policy ∧ x.policy < n) :
    ds = run (((observe (w.log ++ pre)).rows r).map Row.meas) ∧
    (∃ g, IsBest (entries (((observe (w.log ++ pre)).rows r).map Row.meas)) g p) ∧
    (k = none → ∀ g q, IsBest (entries (((observe (w.log ++ pre)).rows r).map Row.meas)) g q → p ≤ q) := by
  have hl' : w'.log = w.log ++ ((pre ++ .trained r ds :: mid) ++ .chose r c p :: post) := by rw [hl]; simp
  obtain ⟨h0, s, h1⟩ := hc.story h hl'
  rw [show (pre ++ Ev.trained r ds :: mid) ++ Ev.chose r c p :: post =
    ((pre ++ .trained r ds :: mid) ++ [.chose r c p]) ++ post by simp] at h1
  obtain ⟨s₁, h2⟩ := h1.take
  obtain ⟨s₂, h3, h4⟩ := h2.snoc
  have h5 := replay_explained hc.sorts hc.ops hc.persistent hc.trees hc.policies h0 h3 hpr fun x hx => (hrow x hx).1
  rcases h5 with ⟨a1, -⟩ | ⟨pre', post', a1, a2, a3, a4⟩
  · exact absurd (by simp) (a1 ds)
  obtain ⟨rfl, rfl⟩ := first_training a2 ht a1.symm
  have hpo : ∀ q, BestOf (measAt (w.log ++ pre) r) q → 0 ≤ q ∧ q < n := by
    rintro q ⟨g, m, hq, -⟩
    obtain ⟨x, hx, -, rfl⟩ := (C01_key_iff _ g q).1 ⟨m, hq⟩
    obtain ⟨y, hy, rfl⟩ := List.mem_map.1 hx
    refine (hrow y ?_).2
    rw [← List.append_assoc]
    exact rows_mono _ _ _ _ hy
  obtain ⟨-, q, b1, b2, b3⟩ := bestTrained_answer hc.policies hpo a4
  have hpq : p = q := by
    cases h4 with
    | chose _ _ f m' h5 h6 =>
      have h6 : env.ops.getIndex s₂.model f = .ok (p, m') := h6
      rw [hc.ops, h5 ho] at h6
      have h7 : s₂.model.getIndex ((observe (w.log ++ (pre ++ .trained r s₂.data :: mid))).features c) = .ok (p, m') := h6
      rw [b3 _ hf] at h7
      simp only [Except.ok.injEq, Prod.mk.injEq] at h7
      exact h7.1.symm
    | other _ h6 => exact absurd rfl (h6 c p)
  subst hpq
  exact ⟨a3, b1, fun hk g q hq => b2 hk q ⟨g, hq⟩⟩

/-! ## Examples -/

/-- The model is the tree that the examples start with. -/
def isNewTree : PolicyModel → Bool
  | .tree n true (.roundRobin n' j) t => decide (n = 2 ∧ n' = 2 ∧ j = -1 ∧ t = TreeImpl.new 2 2)
  | _ => false

theorem isNewTree_spec {m : PolicyModel} (h : isNewTree m = true) : m = exploring none 2 2 0 := by
  unfold isNewTree at h
  split at h
  · rw [decide_eq_true_eq] at h
    obtain ⟨rfl, rfl, rfl, rfl⟩ := h
    rfl
  · cases h

/-- The hypotheses of `C114_best` about the log, for a training at `i` and an answer at `j` in it. -/
def explainedAt (r nf i j : ℕ) (n : ℤ) (h l : List Ev) : Bool :=
  match l[i]?, l[j]? with
  | some (.trained r₁ ds), some (.chose r₂ c p) =>
    let pre := l.take i
    let mid := (l.take j).drop (i + 1)
    decide (r₁ = r ∧ r₂ = r ∧ l = pre ++ .trained r ds :: (mid ++ .chose r c p :: l.drop (j + 1)) ∧
      (∀ e ∈ pre, (match e with | .trained r' _ => r' | _ => r + 1) ≠ r) ∧
      (observe (h ++ (pre ++ .trained r ds :: mid))).proper r = true ∧
      (observe (h ++ (pre ++ .trained r ds :: mid))).isOpen c = true ∧
      ((observe (h ++ (pre ++ .trained r ds :: mid))).features c).length = nf ∧
      ∀ x ∈ (observe (h ++ (pre ++ .trained r ds :: mid))).rows r, x.features.length = nf ∧ 0 ≤ x.policy ∧ x.policy < n)
  | _, _ => false

/-- The program of C113: region 0 is trained twice, the second time by force, before its third answer. -/
example : ∃ w w' R m, JustCreated demoEnv { globalPeriod := 4 } 0 0 w ∧ w.regions 0 = some R ∧ w.models 0 = some m ∧
    exec demoEnv storyOps w = .ok w' ∧ w'.log = w.log ++ w'.log.drop w.log.length ∧
    (decide ((w.regions 0).map Region.dataset = some []) && (w.models 0).all isNewTree &&
      explainedAt 0 1 17 22 2 w.log (w'.log.drop w.log.length)) = true :=
  storyTry_ok (before := []) (by decide +kernel)

/-- Such a region meets the other hypotheses. -/
example (w : World PolicyModel) (R : Region) (m : PolicyModel) (hc : JustCreated demoEnv { globalPeriod := 4 } 0 0 w)
    (hR : w.regions 0 = some R) (hm : w.models 0 = some m) (hd : (w.regions 0).map Region.dataset = some [])
    (hn : (w.models 0).all isNewTree = true) :
    NewExplorer demoEnv (fun _ _ => 0) (fun _ => ⟨isort, id⟩) { globalPeriod := 4 } 0 0 none 2 2 w where
  ops := rfl
  sorts := fun _ => isort_spec
  single := rfl
  persistent := rfl
  created := hc
  region := ⟨R, hR, by rw [hR] at hd; simpa using hd⟩
  model := by
    rw [hm] at hn ⊢
    have hm : m = _ := isNewTree_spec (by simpa using hn)
    rw [hm]
  trees := nofun
  policies := by decide

end Apollo.Props
