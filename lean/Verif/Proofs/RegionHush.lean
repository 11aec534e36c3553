import Verif.Proofs.RegionWrite
import Verif.Spec.PolicyTrace

/-!
# Executions without the traces of policies

`hush` switches the traces of policies off and forgets their files.  Every function commutes with it, or
it stops where a feature is converted to `int` and then the execution without the trace meets an event
with such a feature.
-/

namespace Apollo

open Spec

variable {M : Type}

/-! ## Conversion to int -/

theorem floatToInt_fits {x : ℚ} : (∃ n, floatToInt x = .ok n) ↔ FitsInt x := by
  have hd : (0 : ℤ) < x.den := by exact_mod_cast x.den_pos
  have hx : x = (x.num : ℚ) / (x.den : ℚ) := (Rat.num_div_den x).symm
  have hdq : (0 : ℚ) < x.den := by exact_mod_cast x.den_pos
  have key : (-2 ^ 31 ≤ x.num.tdiv x.den ∧ x.num.tdiv x.den < 2 ^ 31) ↔ FitsInt x := by
    unfold FitsInt
    have e1 : (-2 ^ 31 - 1 < x) ↔ (-2 ^ 31 - 1) * (x.den : ℤ) < x.num := by
      conv_lhs => rw [hx]
      rw [lt_div_iff₀ hdq]
      exact_mod_cast Iff.rfl
    have e2 : (x < 2 ^ 31) ↔ x.num < 2 ^ 31 * (x.den : ℤ) := by
      conv_lhs => rw [hx]
      rw [div_lt_iff₀ hdq]
      exact_mod_cast Iff.rfl
    rw [e1, e2]
    rcases le_total 0 x.num with h | h
    · rw [Int.tdiv_eq_ediv_of_nonneg h]
      have h0 : 0 ≤ x.num / (x.den : ℤ) := Int.ediv_nonneg h hd.le
      rw [Int.ediv_lt_iff_lt_mul hd]
      constructor
      · rintro ⟨-, h2⟩
        exact ⟨by nlinarith, h2⟩
      · rintro ⟨-, h2⟩
        exact ⟨by linarith, h2⟩
    · have hn : x.num.tdiv x.den = -((-x.num) / (x.den : ℤ)) := by
        rw [← Int.tdiv_eq_ediv_of_nonneg (by linarith), Int.neg_tdiv, neg_neg]
      rw [hn]
      have h0 : 0 ≤ (-x.num) / (x.den : ℤ) := Int.ediv_nonneg (by linarith) hd.le
      have h1 : (-2 ^ 31 ≤ -((-x.num) / (x.den : ℤ))) ↔ (-x.num) / (x.den : ℤ) < 2 ^ 31 + 1 := by
        omega
      rw [h1, Int.ediv_lt_iff_lt_mul hd]
      constructor
      · rintro ⟨h2, -⟩
        exact ⟨by linarith, by nlinarith⟩
      · rintro ⟨h2, -⟩
        exact ⟨by linarith, by linarith⟩
  rw [← key]
  unfold floatToInt
  dsimp only
  split
  next h => exact ⟨fun _ => h, fun _ => ⟨_, rfl⟩⟩
  next h =>
    constructor
    · rintro ⟨n, hn⟩; cases hn
    · intro hh; exact absurd hh h

theorem floatToInt_cases (x : ℚ) : (FitsInt x ∧ ∃ n, floatToInt x = .ok n) ∨
    (¬ FitsInt x ∧ floatToInt x = .error (.ub .overflow)) := by
  by_cases h : FitsInt x
  · exact .inl ⟨h, floatToInt_fits.2 h⟩
  · refine .inr ⟨h, ?_⟩
    have hn := mt floatToInt_fits.1 h
    unfold floatToInt at hn ⊢
    dsimp only at hn ⊢
    split
    next hc => rw [if_pos hc] at hn; exact absurd ⟨_, rfl⟩ hn
    next => rfl

theorem intColumns_cases (f : Features) : ((∀ x ∈ f, FitsInt x) ∧ ∃ s, intColumns f = .ok s) ∨
    ((∃ x ∈ f, ¬ FitsInt x) ∧ intColumns f = .error (.ub .overflow)) := by
  induction f with
  | nil => exact .inl ⟨by simp, [], rfl⟩
  | cons x f ih =>
    rcases floatToInt_cases x with ⟨h1, n, h2⟩ | ⟨h1, h2⟩
    · rcases ih with ⟨h3, s, h4⟩ | ⟨⟨y, hy, h3⟩, h4⟩
      · refine .inl ⟨by simpa [h1] using h3, fmtInt n ++ ", ".toList ++ s, ?_⟩
        simp only [intColumns]
        rw [h2, h4]
        rfl
      · refine .inr ⟨⟨y, by simp [hy], h3⟩, ?_⟩
        simp only [intColumns]
        rw [h2, h4]
        rfl
    · refine .inr ⟨⟨x, by simp, h1⟩, ?_⟩
      simp only [intColumns]
      rw [h2]
      rfl

theorem bestLines_cases (bs : List (Features × ℤ × ℚ)) :
    ((∀ b ∈ bs, ∀ x ∈ b.1, FitsInt x) ∧ ∃ s, bestLines bs = .ok s) ∨
    ((∃ b ∈ bs, ∃ x ∈ b.1, ¬ FitsInt x) ∧ bestLines bs = .error (.ub .overflow)) := by
  induction bs with
  | nil => exact .inl ⟨by simp, [], rfl⟩
  | cons b bs ih =>
    obtain ⟨f, p, m⟩ := b
    rcases intColumns_cases f with ⟨h1, n, h2⟩ | ⟨⟨y, hy, h1⟩, h2⟩
    · rcases ih with ⟨h3, s, h4⟩ | ⟨⟨b, hb, h3⟩, h4⟩
      · refine .inl ⟨?_, "[ ".toList ++ n ++ "] P:".toList ++ fmtInt p ++ " T: ".toList ++ fmtG6 m ++
          "\n".toList ++ s, ?_⟩
        · intro b hb
          rcases List.mem_cons.1 hb with rfl | hb
          · exact h1
          · exact h3 b hb
        · simp only [bestLines]
          rw [h2, h4]
          rfl
      · refine .inr ⟨⟨b, List.mem_cons_of_mem _ hb, h3⟩, ?_⟩
        simp only [bestLines]
        rw [h2, h4]
        rfl
    · refine .inr ⟨⟨_, List.mem_cons_self, y, hy, h1⟩, ?_⟩
      simp only [bestLines]
      rw [h2]
      rfl

theorem bestPolicies_keys_from (ds : Dataset) :
    ∀ k ∈ ds.bestPolicies.map Prod.fst, ∃ e ∈ ds, (ofLex e.1).1 = k := by
  induction ds using List.reverseRecOn with
  | nil => intro b hb; cases hb
  | append_singleton ds d ih =>
    intro b hb
    unfold Dataset.bestPolicies at hb ih
    rw [List.foldl_append] at hb
    simp only [List.foldl_cons, List.foldl_nil] at hb
    have hold : ∀ b ∈ (ds.foldl Dataset.bestStep []).map Prod.fst,
        ∃ e ∈ ds ++ [d], (ofLex e.1).1 = b := by
      intro b hb
      obtain ⟨e, he, h⟩ := ih b hb
      exact ⟨e, by simp [he], h⟩
    unfold Dataset.bestStep at hb
    dsimp only at hb
    split at hb
    · rcases (OMap.mem_upsert_key _ _ _ _).1 hb with rfl | hb
      · exact ⟨d, by simp, rfl⟩
      · exact hold b hb
    · split at hb
      · rcases (OMap.mem_upsert_key _ _ _ _).1 hb with rfl | hb
        · exact ⟨d, by simp, rfl⟩
        · exact hold b hb
      · exact hold b hb

theorem bestText_cases (rank : ℤ) (region : Str) (ds : Dataset) :
    (∃ s, bestText rank region ds = .ok s) ∨
    (¬ EvFits (.trained 0 ds) ∧ bestText rank region ds = .error (.ub .overflow)) := by
  unfold bestText
  rcases bestLines_cases ds.findMinMetricPolicyByFeatures.2.2 with ⟨-, s, h⟩ | ⟨⟨b, hb, x, hx, hn⟩, h⟩
  · rw [h]; exact .inl ⟨_, rfl⟩
  · rw [h]
    refine .inr ⟨fun hf => ?_, rfl⟩
    obtain ⟨e, he, h⟩ := bestPolicies_keys_from ds b.1 (List.mem_map_of_mem hb)
    exact hn (hf e he x (by rw [h]; exact hx))

theorem policyLine_cases (rank : ℤ) (region model : Str) (f : Features) (p : ℤ) :
    (∃ s, policyLine rank region model f p = .ok s) ∨
    ((∃ x ∈ f, ¬ FitsInt x) ∧ policyLine rank region model f p = .error (.ub .overflow)) := by
  unfold policyLine
  rcases intColumns_cases f with ⟨-, s, h⟩ | ⟨hx, h⟩
  · rw [h]; exact .inl ⟨_, rfl⟩
  · rw [h]; exact .inr ⟨hx, rfl⟩

/-! ## The state without these traces -/

/-- The state of a process that does not trace policies. -/
def hush (w : World M) : World M :=
  { w with
    cfg := { w.cfg with tracePolicy := false, traceBest := false }
    files := fun p => if TraceFile p then none else w.files p }

theorem hush_hush (w : World M) : hush (hush w) = hush w := by
  unfold hush
  congr 1
  funext p
  dsimp only
  split <;> rfl

theorem hush_files {w : World M} {p : Str} (h : ¬ TraceFile p) : (hush w).files p = w.files p :=
  if_neg h

theorem hush_region (w : World M) (r : ℕ) : (hush w).region r = w.region r := rfl
theorem hush_model (w : World M) (r : ℕ) : (hush w).model r = w.model r := rfl
theorem hush_ctx (w : World M) (c : CtxPtr) : (hush w).ctx c = w.ctx c := rfl

theorem hush_write {env : Env M} {w : World M} {p : Str} (s : Option Str) (h : ¬ TraceFile p) :
    hush (w.write env p s) = (hush w).write env p s := by
  unfold World.write
  cases s with
  | none => rfl
  | some s =>
    dsimp only
    split
    · unfold hush
      congr 1
      funext q
      by_cases hq : q = p
      · subst hq; simp [h]
      · simp [hq]
    · rfl

theorem hush_write_trace {env : Env M} {w : World M} {p : Str} (s : Option Str) (h : TraceFile p) :
    hush (w.write env p s) = hush w := by
  unfold World.write
  cases s with
  | none => rfl
  | some s =>
    dsimp only
    split
    · unfold hush
      congr 1
      funext q
      by_cases hq : q = p
      · subst hq; simp [h]
      · simp [hq]
    · rfl

theorem not_traceFile_yaml (a : Str) : ¬ TraceFile (a ++ ".yaml".toList) := by
  rintro ⟨b, h⟩
  exact txt_ne_yaml h

theorem not_traceFile_dataset (cfg : Cfg) (n : Str) : ¬ TraceFile (datasetPath cfg n) :=
  not_traceFile_yaml _

theorem not_traceFile_step (cfg : Cfg) (rank : ℤ) (m : Str) (s : ℤ) (n : Str) :
    ¬ TraceFile (stepPath cfg rank m s n) := not_traceFile_yaml _

theorem not_traceFile_store (cfg : Cfg) (rank : ℤ) (m : Str) (n : Str) :
    ¬ TraceFile (storePath cfg rank m n) := not_traceFile_yaml _

theorem not_traceFile_load (cfg : Cfg) (rank : ℤ) (m : Str) (n : Str) :
    ¬ TraceFile (loadPath cfg rank m n) := not_traceFile_yaml _

theorem not_traceFile_optimal (rank : ℤ) (n : Str) : ¬ TraceFile (optimalPath rank n) := by
  rintro ⟨b, h⟩
  unfold optimalPath at h
  rw [show "policies.txt".toList = "policies".toList ++ ".txt".toList from by decide,
    ← List.append_assoc] at h
  have h := List.append_cancel_right h
  have hg := congrArg List.getLast? h
  rw [List.getLast?_append, show "policies".toList.getLast? = some 's' from by decide,
    List.getLast?_append] at hg
  obtain ⟨h1, h2⟩ := fmtInt_spec rank
  rw [List.getLast?_eq_some_getLast h2] at hg
  have hs := h1 _ (List.getLast_mem h2)
  simp only [Option.some_or, Option.some.injEq] at hg
  rw [← hg] at hs
  revert hs
  unfold numChar
  decide

theorem traceFile_policies (rank : ℤ) : TraceFile (policiesPath rank) := by
  rw [policiesPath_eq]
  exact List.suffix_append _ _

theorem traceFile_best (rank s : ℤ) (n : Str) : TraceFile (bestPath rank s n) := by
  rw [bestPath_eq]
  exact List.suffix_append _ _

/-! ## Simulation -/

/-- Results that carry a world. -/
class Carries (M : outParam Type) (β : Type) where
  hushed : β → β
  world : β → World M

instance : Carries M (World M) := ⟨hush, id⟩
instance {α : Type} : Carries M (α × World M) := ⟨fun x => (x.1, hush x.2), Prod.snd⟩

open Carries

/-- Later in an execution. -/
structure Later (w v : World M) : Prop where
  log : w.log <+: v.log
  policy : v.cfg.tracePolicy = w.cfg.tracePolicy
  best : v.cfg.traceBest = w.cfg.traceBest

theorem Later.refl (w : World M) : Later w w := ⟨List.prefix_rfl, rfl, rfl⟩

theorem Later.trans {u v w : World M} (h : Later u v) (h' : Later v w) : Later u w :=
  ⟨h.log.trans h'.log, h'.policy.trans h.policy, h'.best.trans h.best⟩

theorem Later.emit {w v : World M} {e : Ev} (hl : v.log = w.log ++ [e])
    (hp : v.cfg.tracePolicy = w.cfg.tracePolicy) (hb : v.cfg.traceBest = w.cfg.traceBest) :
    Later w v := ⟨by rw [hl]; exact List.prefix_append _ _, hp, hb⟩

/-- Some trace of policies is on. -/
def Traces (w : World M) : Prop := w.cfg.tracePolicy = true ∨ w.cfg.traceBest = true

/-- An event is about a feature that is no `int`. -/
def Unfit (h : List Ev) : Prop := ∃ e ∈ h, ¬ EvFits e

theorem Unfit.mono {h h' : List Ev} (hu : Unfit h) (hp : h <+: h') : Unfit h' := by
  obtain ⟨e, he, hn⟩ := hu
  exact ⟨e, hp.subset he, hn⟩

/-- `y` is `x` without the traces of policies: the same, or the conversion of a feature was undefined. -/
def Sim {β : Type} [Carries M β] (w : World M) (x y : Res β) : Prop :=
  (∃ v, x = .ok v ∧ y = .ok (hushed v) ∧ Later w (world v)) ∨
  (∃ e, x = .error e ∧ y = .error e) ∨
  (Traces w ∧ x = .error (.ub .overflow) ∧
    ∀ v, y = .ok v → hushed v = v ∧ Unfit (world v).log)

section
variable {β γ : Type} [Carries M β] [Carries M γ] {w : World M}

theorem Sim.ok {v : β} (h : Later w (world v)) : Sim w (.ok v) (.ok (hushed v)) :=
  .inl ⟨v, rfl, rfl, h⟩

theorem Sim.error (e : Err) : Sim (β := β) w (.error e) (.error e) := .inr (.inl ⟨e, rfl, rfl⟩)

theorem Sim.weaken {v : World M} {x y : Res β} (h : Sim v x y) (hl : Later w v) : Sim w x y := by
  rcases h with ⟨u, h1, h2, h3⟩ | h | ⟨h1, h2, h3⟩
  · exact .inl ⟨u, h1, h2, hl.trans h3⟩
  · exact .inr (.inl h)
  · refine .inr (.inr ⟨?_, h2, h3⟩)
    unfold Traces at h1 ⊢
    rwa [hl.policy, hl.best] at h1

theorem Sim.read {δ : Type} {f g : δ → Res β} (a : Res δ) (h : ∀ b, a = .ok b → Sim w (f b) (g b)) :
    Sim w (a >>= f) (a >>= g) := by
  cases ha : a with
  | error e => exact Sim.error e
  | ok b => exact h b ha

theorem Sim.bind' {x y : Res β} {f : β → Res γ} (h : Sim w x y)
    (hf : ∀ v, (x = .ok v ∨ y = .ok v) → Sim (world v) (f v) (f (hushed v))) :
    Sim w (x >>= f) (y >>= f) := by
  rcases h with ⟨v, rfl, rfl, h3⟩ | ⟨e, rfl, rfl⟩ | ⟨h1, rfl, h3⟩
  · exact (hf v (.inl rfl)).weaken h3
  · exact Sim.error e
  · refine .inr (.inr ⟨h1, rfl, ?_⟩)
    intro u hu
    obtain ⟨v, hv, hu⟩ := (Res.bind_eq_ok _ _ _).1 hu
    obtain ⟨h4, h5⟩ := h3 v hv
    have := hf v (.inr hv)
    rw [h4] at this
    rcases this with ⟨v', e1, e2, e3⟩ | ⟨e, e1, e2⟩ | ⟨e0, e1, e2⟩
    · rw [hu] at e1 e2
      cases e1
      exact ⟨(Except.ok.inj e2).symm, h5.mono e3.log⟩
    · rw [hu] at e2; cases e2
    · rw [hu] at e1; cases e1

theorem Sim.bind {x y : Res β} {f : β → Res γ} (h : Sim w x y)
    (hf : ∀ v, Sim (world v) (f v) (f (hushed v))) : Sim w (x >>= f) (y >>= f) :=
  h.bind' fun v _ => hf v

end

/-! ## Training -/

theorem unfit_snoc {h : List Ev} {e : Ev} (he : ¬ EvFits e) : Unfit (h ++ [e]) := ⟨e, by simp, he⟩

/-- The part of training after the model is replaced. -/
def trainStore (env : Env M) (s : ℤ) (R : Region) (m' : M) (w : World M) : Res (World M) :=
  if w.cfg.retrain then .error .throw
  else if w.cfg.storeModels then do
    let t ← env.ops.store m'
    let w := w.write env (stepPath w.cfg env.rank (env.ops.name m') s R.name) t
    .ok (w.write env (storePath w.cfg env.rank (env.ops.name m') R.name) t)
  else .ok w

/-- The part of training after the trace. -/
def trainRest (env : Env M) (r : ℕ) (s : ℤ) (R : Region) (w : World M) : Res (World M) := do
  let m ← w.model r
  let m' ← env.ops.train w.tick R.dataset m
  trainStore env s R m' (((w.setModel r m').advance).emit (.trained r R.dataset))

theorem write_later (env : Env M) (w : World M) (p : Str) (t : Option Str) :
    Later w (w.write env p t) := by
  unfold World.write
  cases t with
  | none => exact Later.refl w
  | some t => dsimp only; split <;> exact ⟨List.prefix_rfl, rfl, rfl⟩

theorem trainStore_sim (env : Env M) (s : ℤ) (R : Region) (m' : M) (w : World M) :
    Sim w (trainStore env s R m' w) (trainStore env s R m' (hush w)) := by
  unfold trainStore
  change Sim w _ (if w.cfg.retrain then _ else if w.cfg.storeModels then _ else _)
  split
  · exact Sim.error _
  · split
    · refine Sim.read _ fun t _ => ?_
      dsimp only
      have e : ((hush w).write env (stepPath (hush w).cfg env.rank (env.ops.name m') s R.name)
          t).write env (storePath (((hush w).write env (stepPath (hush w).cfg env.rank
            (env.ops.name m') s R.name) t)).cfg env.rank (env.ops.name m') R.name) t =
          hush ((w.write env (stepPath w.cfg env.rank (env.ops.name m') s R.name) t).write env
            (storePath ((w.write env (stepPath w.cfg env.rank (env.ops.name m') s R.name) t)).cfg
              env.rank (env.ops.name m') R.name) t) := by
        rw [hush_write _ (not_traceFile_store _ _ _ _), hush_write _ (not_traceFile_step _ _ _ _ _),
          write_cfg, write_cfg]
        rfl
      rw [e]
      exact Sim.ok ((write_later _ _ _ _).trans (write_later _ _ _ _))
    · exact Sim.ok (Later.refl w)

theorem trainRest_sim (env : Env M) (r : ℕ) (s : ℤ) (R : Region) (w : World M) :
    Sim w (trainRest env r s R w) (trainRest env r s R (hush w)) := by
  unfold trainRest
  rw [hush_model]
  refine Sim.read _ fun m _ => Sim.read (env.ops.train w.tick R.dataset m) fun m' _ => ?_
  exact (trainStore_sim env s R m' (((w.setModel r m').advance).emit (.trained r R.dataset))).weaken
    (Later.emit rfl rfl rfl)

/-- The event of a training that returned. -/
theorem trainRest_event {env : Env M} {r : ℕ} {s : ℤ} {R : Region} {w v : World M}
    (h : trainRest env r s R w = .ok v) : Ev.trained r R.dataset ∈ v.log := by
  unfold trainRest at h
  obtain ⟨m, -, h⟩ := (Res.bind_eq_ok _ _ _).1 h
  obtain ⟨m', -, h⟩ := (Res.bind_eq_ok _ _ _).1 h
  have := trainStore_sim env s R m' (((w.setModel r m').advance).emit (.trained r R.dataset))
  rcases this with ⟨v', e1, -, e3⟩ | ⟨e, e1, -⟩ | ⟨-, e1, -⟩
  · rw [h] at e1
    cases e1
    exact e3.log.subset (by simp [World.emit])
  · rw [h] at e1; cases e1
  · rw [h] at e1; cases e1

theorem trainRest_hush {env : Env M} {r : ℕ} {s : ℤ} {R : Region} {w v : World M}
    (h : trainRest env r s R (hush w) = .ok v) : hush v = v := by
  have := trainRest_sim env r s R (hush w)
  rw [hush_hush] at this
  rcases this with ⟨v', e1, e2, -⟩ | ⟨e, e1, -⟩ | ⟨-, e1, -⟩
  · rw [h] at e1 e2
    cases e1
    exact (Except.ok.inj e2).symm
  · rw [h] at e1; cases e1
  · rw [h] at e1; cases e1

theorem trainBody_sim (env : Env M) (w : World M) (r : ℕ) (s : ℤ) :
    Sim w (trainBody env w r s) (trainBody env (hush w) r s) := by
  unfold trainBody
  rw [hush_region]
  refine Sim.read _ fun R _ => ?_
  change Sim w _ (if R.dataset.size = 0 then _ else if !w.cfg.regionModel then _ else _)
  split
  · exact Sim.ok (Later.refl w)
  · split
    · exact Sim.error _
    · change Sim w (traceBest env w R s >>= trainRest env r s R)
        (traceBest env (hush w) R s >>= trainRest env r s R)
      have e : traceBest env (hush w) R s = .ok (hush w) := rfl
      rw [e, Res.bind_ok]
      unfold traceBest
      split
      next ht =>
        rcases bestText_cases env.rank R.name R.dataset with ⟨t, h⟩ | ⟨hn, h⟩
        · rw [h]
          have := trainRest_sim env r s R
            (w.write env (bestPath env.rank s R.name) (some t))
          rw [hush_write_trace _ (traceFile_best _ _ _)] at this
          exact this.weaken (write_later _ _ _ _)
        · rw [h]
          refine .inr (.inr ⟨.inr ht, rfl, fun v hv => ⟨trainRest_hush hv, ?_⟩⟩)
          exact ⟨_, trainRest_event hv, hn⟩
      · exact trainRest_sim env r s R w

theorem trainNoCollect_sim (env : Env M) (w : World M) (r : ℕ) (s : ℤ) (f : Bool) :
    Sim w (trainNoCollect env w r s f) (trainNoCollect env (hush w) r s f) := by
  unfold trainNoCollect
  rw [hush_model]
  refine Sim.read _ fun m _ => ?_
  split
  · exact Sim.ok (Later.refl w)
  · exact trainBody_sim env w r s

theorem mergeDatasets_hush (w : World M) (rs : List ℕ) (acc : Dataset) :
    mergeDatasets (hush w) rs acc = mergeDatasets w rs acc := by
  induction rs generalizing acc with
  | nil => rfl
  | cons r rs ih =>
    simp only [mergeDatasets]
    rw [hush_region]
    exact bind_congr fun R => ih _

theorem trainAllWith_sim (env : Env M) (ds : Dataset) (rs : List ℕ) (w : World M) :
    Sim w (trainAllWith env ds rs w) (trainAllWith env ds rs (hush w)) := by
  induction rs generalizing w with
  | nil => exact Sim.ok (Later.refl w)
  | cons r rs ih =>
    simp only [trainAllWith]
    rw [hush_region, hush_model]
    refine Sim.read _ fun R _ => Sim.read _ fun m _ => Sim.read (env.ops.train w.tick ds m) fun m' _ => ?_
    exact (ih _).weaken (Later.emit rfl rfl rfl)

theorem forRegions_sim {body : World M → ℕ → Res (World M)}
    (hb : ∀ w r, Sim w (body w r) (body (hush w) r)) (rs : List ℕ) (w : World M) :
    Sim w (forRegions body rs w) (forRegions body rs (hush w)) := by
  induction rs generalizing w with
  | nil => exact Sim.ok (Later.refl w)
  | cons r rs ih =>
    simp only [forRegions]
    exact (hb w r).bind fun v => ih v

theorem apolloTrainWith_sim (env : Env M) {one : World M → ℕ → Res (World M)}
    (hb : ∀ w r, Sim w (one w r) (one (hush w) r)) (w : World M) :
    Sim w (apolloTrainWith env one w) (apolloTrainWith env one (hush w)) := by
  unfold apolloTrainWith
  change Sim w _ (if w.cfg.collective then _ else if w.cfg.single then _ else _)
  split
  · exact Sim.error _
  · split
    · rw [mergeDatasets_hush]
      exact Sim.read _ fun ds _ => trainAllWith_sim env ds _ w
    · exact forRegions_sim hb _ w

theorem apolloTrainNoCollect_sim (env : Env M) (w : World M) (s : ℤ) :
    Sim w (apolloTrainNoCollect env w s) (apolloTrainNoCollect env (hush w) s) := by
  refine apolloTrainWith_sim env (fun w r => ?_) w
  unfold trainNoCollectOf
  rw [hush_region]
  exact Sim.read _ fun _ _ => trainNoCollect_sim env w r s false

theorem autoTrain_sim (env : Env M) (w : World M) (r : ℕ) :
    Sim w (autoTrain env w r) (autoTrain env (hush w) r) := by
  unfold autoTrain
  rw [hush_region, hush_model]
  refine Sim.read _ fun R _ => Sim.read _ fun m _ => ?_
  change Sim w _ (if !env.ops.isTrainable m then _ else
    if w.cfg.globalPeriod ≠ 0 ∧ w.executions % (w.cfg.globalPeriod % 2 ^ 64).toNat = 0 then _ else
    if w.cfg.perRegionPeriod ≠ 0 ∧ R.idx.tmod w.cfg.perRegionPeriod = 0 then _ else
    if 0 < R.minTraining ∧ R.minTraining ≤ R.dataset.size then _ else _)
  split
  · exact Sim.ok (Later.refl w)
  · split
    · exact apolloTrainNoCollect_sim env w _
    · split
      · exact trainNoCollect_sim env w r _ _
      · split
        · exact trainNoCollect_sim env w r _ _
        · exact Sim.ok (Later.refl w)

/-! ## Executions -/

theorem record_hush (env : Env M) (w : World M) (r : ℕ) (R : Region) (m : M) (c : CtxPtr) (C : Ctx)
    (x : ℚ) : record env (hush w) r R m c C x = hush (record env w r R m c C x) := by
  have e1 : (hush w).cfg.traceCsv = w.cfg.traceCsv := rfl
  have e2 : (hush w).cfg.persistent = w.cfg.persistent := rfl
  unfold record
  by_cases ht : w.cfg.traceCsv = true <;>
    by_cases hp : (w.cfg.persistent || env.ops.isTrainable m) = true
  · rw [if_pos ht, if_pos (show (hush w).cfg.traceCsv = true from ht)]
    dsimp only
    rw [if_pos hp, if_pos (show ((hush w).cfg.persistent || env.ops.isTrainable m) = true from hp),
      if_pos ht, if_pos (show (hush w).cfg.traceCsv = true from ht)]
    rfl
  · rw [if_pos ht, if_pos (show (hush w).cfg.traceCsv = true from ht)]
    dsimp only
    rw [if_neg hp, if_neg (show ¬ ((hush w).cfg.persistent || env.ops.isTrainable m) = true from hp),
      if_pos ht, if_pos (show (hush w).cfg.traceCsv = true from ht)]
    rfl
  · rw [if_neg ht, if_neg (show ¬ (hush w).cfg.traceCsv = true from ht)]
    dsimp only
    rw [if_pos hp, if_pos (show ((hush w).cfg.persistent || env.ops.isTrainable m) = true from hp),
      if_neg ht, if_neg (show ¬ (hush w).cfg.traceCsv = true from ht)]
    rfl
  · rw [if_neg ht, if_neg (show ¬ (hush w).cfg.traceCsv = true from ht)]
    dsimp only
    rw [if_neg hp, if_neg (show ¬ ((hush w).cfg.persistent || env.ops.isTrainable m) = true from hp),
      if_neg ht, if_neg (show ¬ (hush w).cfg.traceCsv = true from ht)]
    rfl

theorem record_later (env : Env M) (w : World M) (r : ℕ) (R : Region) (m : M) (c : CtxPtr) (C : Ctx)
    (x : ℚ) : Later w (record env w r R m c C x) := by
  obtain ⟨f1, f2, f3, f4, f5, f6, f7, f8, f9, f10⟩ := record_frame env w r R m c C x
  refine ⟨?_, by rw [f1], by rw [f1]⟩
  have : (record env w r R m c C x).log = w.log := by assumption
  rw [this]

theorem destroyContext_sim (w : World M) (r : ℕ) (c : CtxPtr) :
    Sim w (destroyContext w r c) (destroyContext (hush w) r c) := by
  unfold destroyContext
  split
  · exact Sim.ok (Later.refl w)
  · cases c with
    | sync _ => exact Sim.error _
    | heap n =>
      dsimp only
      rw [hush_ctx]
      exact Sim.read _ fun _ _ => Sim.ok ⟨List.prefix_rfl, rfl, rfl⟩

theorem collectContext_sim (env : Env M) (w : World M) (r : ℕ) (c : CtxPtr) (x : ℚ) :
    Sim w (collectContext env w r c x) (collectContext env (hush w) r c x) := by
  unfold collectContext
  rw [hush_region, hush_model, hush_ctx]
  refine Sim.read _ fun R _ => Sim.read _ fun m _ => Sim.read _ fun C _ => ?_
  dsimp only
  rw [record_hush]
  refine Sim.weaken ?_ (record_later env w r R m c C x)
  refine (autoTrain_sim env _ r).bind fun w₁ => ?_
  refine (destroyContext_sim _ r c).bind fun w₂ => ?_
  change Sim _ _ (w₂.region r >>= _)
  exact Sim.read _ fun R₂ _ => Sim.ok ⟨List.prefix_rfl, rfl, rfl⟩

theorem tryCollect_sim (env : Env M) (w : World M) (r : ℕ) (c : CtxPtr) :
    Sim w (tryCollect env w r c) (tryCollect env (hush w) r c) := by
  unfold tryCollect
  rw [hush_ctx]
  refine Sim.read _ fun C _ => ?_
  cases c with
  | sync r' =>
    dsimp only
    refine Sim.read _ fun x _ => ?_
    refine Sim.weaken ?_ (Later.emit (w := w) (v := w.emit (.finished r (.sync r') x)) rfl rfl rfl)
    exact (collectContext_sim env (w.emit (.finished r (.sync r') x)) r _ x).bind fun v =>
      Sim.ok (Later.refl _)
  | heap n =>
    dsimp only
    change Sim w _ (match env.poll w.tick w.log n with | .waiting => _ | .done x => _ | .failed => _)
    cases env.poll w.tick w.log n with
    | waiting => exact Sim.ok (Later.emit rfl rfl rfl)
    | failed => exact Sim.error _
    | done x =>
      dsimp only
      refine Sim.weaken ?_ (Later.emit (w := w) (v := w.advance.emit (.finished r (.heap n) x))
        rfl rfl rfl)
      exact (collectContext_sim env (w.advance.emit (.finished r (.heap n) x)) r _ x).bind fun v =>
        Sim.ok (Later.refl _)

theorem collectLoop_sim (env : Env M) (r : ℕ) (cs : List CtxPtr) (w : World M) :
    Sim w (collectLoop env r cs w) (collectLoop env r cs (hush w)) := by
  induction cs generalizing w with
  | nil => exact Sim.ok (Later.refl w)
  | cons c cs ih =>
    simp only [collectLoop]
    refine (tryCollect_sim env w r c).bind fun x => ?_
    obtain ⟨d, w₁⟩ := x
    exact (ih w₁).bind fun x => Sim.ok (Later.refl _)

theorem collectPending_sim (env : Env M) (w : World M) (r : ℕ) :
    Sim w (collectPending env w r) (collectPending env (hush w) r) := by
  unfold collectPending
  rw [hush_region]
  refine Sim.read _ fun R _ => ?_
  refine (collectLoop_sim env r R.pending w).bind fun x => ?_
  obtain ⟨kept, w₁⟩ := x
  change Sim _ _ (w₁.region r >>= _)
  exact Sim.read _ fun R₂ _ => Sim.ok ⟨List.prefix_rfl, rfl, rfl⟩

theorem regionTrain_sim (env : Env M) (w : World M) (r : ℕ) (s : ℤ) (c f : Bool) :
    Sim w (regionTrain env w r s c f) (regionTrain env (hush w) r s c f) := by
  unfold regionTrain
  rw [hush_region, hush_model]
  refine Sim.read _ fun R _ => Sim.read _ fun m _ => ?_
  split
  · exact Sim.ok (Later.refl w)
  · cases c with
    | false => exact trainBody_sim env w r s
    | true =>
      simp only [if_true]
      exact (collectPending_sim env w r).bind fun v => trainBody_sim env v r s

theorem apolloTrain_sim (env : Env M) (w : World M) (s : ℤ) (c : Bool) :
    Sim w (apolloTrain env w s c) (apolloTrain env (hush w) s c) :=
  apolloTrainWith_sim env (fun w r => regionTrain_sim env w r s c false) w

/-! ## The interface -/

theorem createContext_sim (env : Env M) (w : World M) (r : ℕ) (k : TimingKind) :
    Sim w (createContext env w r k) (createContext env (hush w) r k) := by
  unfold createContext
  cases k with
  | sync =>
    dsimp only
    rw [hush_ctx]
    exact Sim.read _ fun _ _ => Sim.ok ⟨List.prefix_rfl, rfl, rfl⟩
  | async =>
    dsimp only
    split
    · exact Sim.error _
    · exact Sim.ok ⟨List.prefix_rfl, rfl, rfl⟩

theorem begin_sim (env : Env M) (w : World M) (r : ℕ) (k : TimingKind) :
    Sim w (begin env w r k) (begin env (hush w) r k) := by
  unfold begin
  rw [hush_region]
  refine Sim.read _ fun R _ => ?_
  refine (createContext_sim env w r k).bind fun x => ?_
  obtain ⟨c, w₁⟩ := x
  change Sim _ _ (w₁.region r >>= _)
  refine Sim.read _ fun R _ => ?_
  change Sim _ _ (w₁.ctx c >>= _)
  refine Sim.read _ fun C _ => ?_
  split
  · exact Sim.ok (Later.emit rfl rfl rfl)
  · exact Sim.error _

theorem beginWith_sim (env : Env M) (w : World M) (r : ℕ) (f : Features) :
    Sim w (beginWith env w r f) (beginWith env (hush w) r f) := by
  unfold beginWith
  refine (begin_sim env w r _).bind fun x => ?_
  obtain ⟨c, w₁⟩ := x
  change Sim _ _ (w₁.ctx c >>= _)
  exact Sim.read _ fun C _ => Sim.ok (Later.emit rfl rfl rfl)

theorem setFeature_sim (w : World M) (c : CtxPtr) (v : ℚ) :
    Sim w (setFeature w c v) (setFeature (hush w) c v) := by
  unfold setFeature
  rw [hush_ctx]
  exact Sim.read _ fun C _ => Sim.ok (Later.emit rfl rfl rfl)

/-- The features of the contexts were given by events. -/
def Given (w : World M) : Prop := ∀ c C, w.ctxs c = some C → ∀ x ∈ C.features, ∃ e ∈ w.log,
  (∃ c', e = Ev.feature c' x) ∨ ∃ c' f, e = Ev.assigned c' f ∧ x ∈ f

theorem Given.unfit {w : World M} (hw : Given w) {c : CtxPtr} {C : Ctx} (hC : w.ctxs c = some C)
    (hx : ∃ x ∈ C.features, ¬ FitsInt x) : Unfit w.log := by
  obtain ⟨x, hx, hn⟩ := hx
  obtain ⟨e, he, ⟨c', rfl⟩ | ⟨c', f, rfl, hf⟩⟩ := hw c C hC x hx
  · exact ⟨_, he, hn⟩
  · exact ⟨_, he, fun h => hn (h x hf)⟩

theorem getPolicyIndex_sim (env : Env M) (w : World M) (hw : Given w) (r : ℕ) (c : CtxPtr) :
    Sim w (getPolicyIndex env w r c) (getPolicyIndex env (hush w) r c) := by
  unfold getPolicyIndex
  rw [hush_region, hush_model, hush_ctx]
  refine Sim.read _ fun R _ => Sim.read _ fun m _ => Sim.read _ fun C hC => Sim.read _ fun x _ => ?_
  obtain ⟨p, m'⟩ := x
  dsimp only
  have e : tracePolicy env (hush w) R m' C.features p = .ok (hush w) := rfl
  rw [e, Res.bind_ok]
  unfold tracePolicy
  split
  next ht =>
    rcases policyLine_cases env.rank R.name (env.ops.name m') C.features p with ⟨t, h⟩ | ⟨hn, h⟩
    · rw [h]
      have hl : Later w (w.append env (policiesPath env.rank) t) := write_later _ _ _ _
      have he : hush (w.append env (policiesPath env.rank) t) = hush w :=
        hush_write_trace _ (traceFile_policies _)
      refine Sim.weaken ?_ hl
      rw [← he]
      exact Sim.ok (Later.emit rfl rfl rfl)
    · rw [h]
      refine .inr (.inr ⟨.inl ht, rfl, fun v hv => ?_⟩)
      cases hv
      refine ⟨?_, (hw.unfit (World.ctx_ok.1 hC) hn).mono (List.prefix_append _ _)⟩
      exact Prod.ext rfl (congrArg (fun v : World M =>
        ((v.setModel r m').setCtx c { C with policy := p }).emit (.chose r c p)) (hush_hush w))
  · exact Sim.ok (Later.emit rfl rfl rfl)

theorem endMetric_sim (env : Env M) (w : World M) (r : ℕ) (c : CtxPtr) (x : ℚ) :
    Sim w (endMetric env w r c x) (endMetric env (hush w) r c x) := by
  unfold endMetric
  refine Sim.weaken ?_ (Later.emit (w := w) (v := w.emit (.finished r c x)) rfl rfl rfl)
  exact (collectContext_sim env (w.emit (.finished r c x)) r c x).bind fun v =>
    collectPending_sim env v r

theorem endCtx_sim (env : Env M) (w : World M) (r : ℕ) (c : CtxPtr) :
    Sim w (endCtx env w r c) (endCtx env (hush w) r c) := by
  unfold endCtx
  rw [hush_region, hush_ctx]
  refine Sim.read _ fun R _ => Sim.read _ fun C _ => ?_
  dsimp only
  split
  · refine Sim.read _ fun x _ => ?_
    exact (collectContext_sim env ((((w.setCtx c
      { C with stop := some (seconds (env.clock w.tick)) }).advance)).emit (.finished r c x)) r c
        x).weaken (Later.emit rfl rfl rfl)
  · exact (collectPending_sim env ((((w.setCtx c
      { C with stop := some (seconds (env.clock w.tick)) }).advance).setRegion r
        { R with pending := R.pending ++ [c] }).emit (.ended r c)) r).weaken
      (Later.emit (w := w) (e := .ended r c) rfl rfl rfl)

theorem currentCtx_hush (w : World M) (r : ℕ) : currentCtx (hush w) r = currentCtx w r := rfl

/-! ## Construction and destruction -/

theorem parseItem_infix {ps : Params} {t kv k v : Str} (ht : t ≠ []) (hkv : ¬ t <:+: kv)
    (hps : ∀ k v, ps.find k = some v → ¬ t <:+: v) (h : (parseItem ps kv).find k = some v) :
    ¬ t <:+: v := by
  unfold parseItem at h
  split at h
  · rcases find_emplace_cases h with h | rfl
    · exact hps _ _ h
    · simpa using ht
  · rcases find_emplace_cases h with h | rfl
    · exact hps _ _ h
    · exact fun hm => hkv (hm.trans (List.drop_suffix _ _).isInfix)

theorem parseParams_infix {fuel : ℕ} {ps qs : Params} {t s k v : Str} (ht : t ≠ [])
    (hs : ¬ t <:+: s) (hps : ∀ k v, ps.find k = some v → ¬ t <:+: v)
    (h : parseParams fuel ps s = .ok qs) (hv : qs.find k = some v) : ¬ t <:+: v := by
  induction fuel generalizing ps s with
  | zero => simp only [parseParams] at h; cases h
  | succ fuel ih =>
    simp only [parseParams] at h
    split at h
    · cases h; exact parseItem_infix ht hs hps hv
    · exact ih (fun hm => hs (hm.trans (List.drop_suffix _ _).isInfix))
        (fun k v hk => parseItem_infix ht
          (fun hm => hs (hm.trans (List.take_prefix _ _).isInfix)) hps hk) h

theorem parsePolicyModel_infix {t info mn k v : Str} {ps : Params} (ht : t ≠ []) (hs : ¬ t <:+: info)
    (h : parsePolicyModel info = .ok (mn, ps)) (hv : ps.find k = some v) : ¬ t <:+: v := by
  unfold parsePolicyModel at h
  split at h
  · cases h; simp [Params.find] at hv
  · obtain ⟨qs, h1, h⟩ := (Res.bind_eq_ok _ _ _).1 h
    obtain ⟨-, -, h⟩ := (Res.bind_eq_ok _ _ _).1 h
    cases h
    exact parseParams_infix ht (fun hm => hs (hm.trans (List.drop_suffix _ _).isInfix))
      (by simp [Params.find]) h1 hv

theorem resolveStaticRegion_infix {t r mn info mn' info' k v : Str} {ps ps' : Params}
    (hps : ∀ k v, ps.find k = some v → ¬ t <:+: v)
    (h : resolveStaticRegion r mn ps info = .ok (mn', ps', info')) (hv : ps'.find k = some v) :
    ¬ t <:+: v := by
  unfold resolveStaticRegion at h
  split at h
  · split at h
    · cases h
    next p hp =>
      cases h
      unfold Params.find at hv
      rw [List.find?_singleton] at hv
      split at hv
      · simp only [Option.map_some, Option.some.injEq] at hv
        rw [← hv]
        exact hps _ _ hp
      · simp at hv
  · cases h; exact hps _ _ hv

theorem loadYaml_hush {env : Env M} {w : World M} {yaml : Str} {m : M} (h : ¬ TraceFile yaml) :
    loadYaml env (hush w) yaml m = loadYaml env w yaml m := by
  unfold loadYaml
  rw [hush_files h]

theorem loadModel_hush {env : Env M} {w : World M} {name mn : Str} {ps : Params} {m : M}
    (h : ∀ k v, ps.find k = some v → ¬ "policies.txt".toList <:+: v) :
    loadModel env (hush w) name mn ps m = loadModel env w name mn ps m := by
  unfold loadModel
  split
  · rfl
  next v hv =>
    dsimp only
    rw [hush_files]
    · rfl
    · split
      · exact not_traceFile_load _ _ _ _
      · exact fun ht => h _ _ hv ht.isInfix

theorem constructRegion_sim (env : Env M) (w : World M) (nf : ℤ) (name : Str) (n mt : ℤ)
    (info yaml : Str) (hp : ¬ "policies.txt".toList <:+: w.cfg.policyModel)
    (ho : NoTraceLoaded (.create nf name n mt info yaml)) :
    Sim w (constructRegion env w nf name n mt info yaml)
      (constructRegion env (hush w) nf name n mt info yaml) := by
  unfold constructRegion
  dsimp only
  change Sim w _ (parsePolicyModel (if info = [] then w.cfg.policyModel else info) >>= _)
  have hi : ¬ "policies.txt".toList <:+: (if info = [] then w.cfg.policyModel else info) := by
    split
    · exact hp
    · exact ho.1
  refine Sim.read _ fun x h1 => ?_
  obtain ⟨mn, ps⟩ := x
  dsimp only
  refine Sim.read _ fun x h2 => ?_
  obtain ⟨mn', ps', info'⟩ := x
  dsimp only
  have h3 : ∀ k v, ps'.find k = some v → ¬ "policies.txt".toList <:+: v := fun k v hv =>
    resolveStaticRegion_infix (fun k v hv => parsePolicyModel_infix (by decide) hi h1 hv) h2 hv
  refine Sim.read (env.ops.create w.tick mn' nf n ps') fun m _ => ?_
  rw [loadYaml_hush ho.2]
  refine Sim.read _ fun m' _ => ?_
  rw [loadModel_hush h3]
  refine Sim.read _ fun m'' _ => ?_
  exact Sim.ok ⟨List.prefix_rfl, rfl, rfl⟩

theorem loadPersistent_sim (env : Env M) (w : World M) (r : ℕ) :
    Sim w (loadPersistent env w r) (loadPersistent env (hush w) r) := by
  unfold loadPersistent
  change Sim w _ (if !w.cfg.persistent then _ else _)
  split
  · exact Sim.ok (Later.refl w)
  · rw [hush_region]
    refine Sim.read _ fun R _ => ?_
    rw [hush_files (not_traceFile_dataset _ _)]
    refine Sim.read _ fun ds _ => ?_
    exact (autoTrain_sim env (w.setRegion r { R with dataset := ds }) r).weaken
      ⟨List.prefix_rfl, rfl, rfl⟩

theorem loadDatasetParam_sim (env : Env M) (w : World M) (r : ℕ) :
    Sim w (loadDatasetParam env w r) (loadDatasetParam env (hush w) r) := by
  unfold loadDatasetParam
  rw [hush_region]
  refine Sim.read _ fun R _ => ?_
  rw [hush_files (not_traceFile_dataset _ _)]
  split
  · exact Sim.ok (Later.refl w)
  · change Sim w _ (match w.files (datasetPath w.cfg R.name) with | none => _ | some _ => _)
    cases w.files (datasetPath w.cfg R.name) with
    | none => exact Sim.error _
    | some s =>
      dsimp only
      refine Sim.read _ fun ds _ => ?_
      split
      · exact Sim.error _
      · exact (regionTrain_sim env (w.setRegion r { R with dataset := ds }) r _ _ _).weaken
          ⟨List.prefix_rfl, rfl, rfl⟩

theorem loadOptimalFile_sim (env : Env M) (w : World M) (r : ℕ) :
    Sim w (loadOptimalFile env w r) (loadOptimalFile env (hush w) r) := by
  unfold loadOptimalFile
  rw [hush_region]
  refine Sim.read _ fun R _ => ?_
  rw [hush_files (not_traceFile_optimal _ _)]
  split
  · cases w.files (optimalPath env.rank R.name) with
    | none => exact Sim.error _
    | some s =>
      dsimp only
      rw [hush_model]
      exact Sim.read _ fun m _ => Sim.read _ fun m _ => Sim.ok ⟨List.prefix_rfl, rfl, rfl⟩
  · exact Sim.ok (Later.refl w)

theorem loadDatasetMap_sim (env : Env M) (w : World M) (r : ℕ) :
    Sim w (loadDatasetMap env w r) (loadDatasetMap env (hush w) r) := by
  unfold loadDatasetMap
  rw [hush_region]
  refine Sim.read _ fun R _ => ?_
  rw [hush_files (not_traceFile_dataset _ _)]
  split
  · change Sim w _ (match w.files (datasetPath w.cfg R.name) with | none => _ | some _ => _)
    cases w.files (datasetPath w.cfg R.name) with
    | none => exact Sim.error _
    | some s =>
      dsimp only
      refine Sim.read _ fun ds _ => ?_
      split
      · exact Sim.error _
      · rw [hush_model]
        exact Sim.read _ fun m _ => Sim.read (env.ops.train w.tick ds m) fun m _ =>
          Sim.ok (Later.emit rfl rfl rfl)
  · exact Sim.ok (Later.refl w)

theorem startTrace_sim (env : Env M) (w : World M) (r : ℕ) :
    Sim w (startTrace env w r) (startTrace env (hush w) r) := by
  unfold startTrace
  rw [hush_region]
  refine Sim.read _ fun R _ => ?_
  change Sim w _ (if w.cfg.traceCsv then
    (if env.canWrite (tracePath w.cfg env.rank R.modelInfo R.name) then _ else _) else _)
  split
  · split
    · exact Sim.ok ⟨List.prefix_rfl, rfl, rfl⟩
    · exact Sim.error _
  · exact Sim.ok (Later.refl w)

theorem createRegion_sim (env : Env M) (w : World M) (nf : ℤ) (name : Str) (n mt : ℤ)
    (info yaml : Str) (hp : ¬ "policies.txt".toList <:+: w.cfg.policyModel)
    (ho : NoTraceLoaded (.create nf name n mt info yaml)) :
    Sim w (createRegion env w nf name n mt info yaml)
      (createRegion env (hush w) nf name n mt info yaml) := by
  unfold createRegion
  refine (constructRegion_sim env w nf name n mt info yaml hp ho).bind fun x => ?_
  obtain ⟨r, w₁⟩ := x
  refine (loadPersistent_sim env w₁ r).bind fun w₂ => ?_
  refine (loadDatasetParam_sim env w₂ r).bind fun w₃ => ?_
  refine (loadOptimalFile_sim env w₃ r).bind fun w₄ => ?_
  refine (loadDatasetMap_sim env w₄ r).bind fun w₅ => ?_
  refine (startTrace_sim env w₅ r).bind fun w₆ => ?_
  change Sim _ _ (w₆.region r >>= fun R => w₆.model r >>= _)
  exact Sim.read _ fun R _ => Sim.read _ fun m _ => Sim.ok (Later.emit rfl rfl rfl)

theorem drain_sim (env : Env M) (r : ℕ) (fuel : ℕ) (w : World M) :
    Sim w (drain env r fuel w) (drain env r fuel (hush w)) := by
  induction fuel generalizing w with
  | zero =>
    simp only [drain]
    rw [hush_region]
    refine Sim.read _ fun R _ => ?_
    split
    · exact Sim.ok (Later.refl w)
    · exact Sim.error _
  | succ fuel ih =>
    simp only [drain]
    rw [hush_region]
    refine Sim.read _ fun R _ => ?_
    split
    · exact Sim.ok (Later.refl w)
    · exact (collectPending_sim env w r).bind fun v => ih v

theorem destroyRegion_sim (env : Env M) (w : World M) (r : ℕ) (fuel : ℕ) :
    Sim w (destroyRegion env w r fuel) (destroyRegion env (hush w) r fuel) := by
  unfold destroyRegion
  rw [hush_region]
  refine Sim.read _ fun R _ => ?_
  dsimp only
  refine Sim.weaken ?_ (show Later w { w with cfg := { w.cfg with globalPeriod := 0 } } from
    ⟨List.prefix_rfl, rfl, rfl⟩)
  refine (drain_sim env r fuel { w with cfg := { w.cfg with globalPeriod := 0 } }).bind fun w₁ => ?_
  change Sim _ _ (w₁.region r >>= _)
  refine Sim.read _ fun R _ => ?_
  change Sim w₁ (.ok (afterDestroy env w₁ r R)) (.ok (afterDestroy env (hush w₁) r R))
  have e : afterDestroy env (hush w₁) r R = hush (afterDestroy env w₁ r R) := by
    have e1 : (if (hush w₁).cfg.persistent then (hush w₁).write env
        (datasetPath (hush w₁).cfg R.name) (some R.dataset.store) else hush w₁) =
        hush (if w₁.cfg.persistent then w₁.write env (datasetPath w₁.cfg R.name)
          (some R.dataset.store) else w₁) := by
      change (if w₁.cfg.persistent then _ else _) = _
      split
      · rw [hush_write _ (not_traceFile_dataset _ _)]
        rfl
      · rfl
    unfold afterDestroy
    rw [e1]
    rfl
  rw [e]
  refine Sim.ok ?_
  obtain ⟨f, hf⟩ := afterDestroy_eq env w₁ r R
  show Later w₁ (afterDestroy env w₁ r R)
  rw [hf]
  exact Later.emit rfl rfl rfl

/-! ## Programs -/

theorem Given.of {w w' : World M} (hw : Given w) (hl : w.log <+: w'.log)
    (hc : ∀ c C', w'.ctxs c = some C' → ∀ x ∈ C'.features,
      (∃ C, w.ctxs c = some C ∧ x ∈ C.features) ∨ ∃ e ∈ w'.log,
        (∃ c', e = Ev.feature c' x) ∨ ∃ c' f, e = Ev.assigned c' f ∧ x ∈ f) : Given w' := by
  intro c C' hC x hx
  rcases hc c C' hC x hx with ⟨C, h1, h2⟩ | h
  · obtain ⟨e, he, h⟩ := hw c C h1 x h2
    exact ⟨e, hl.subset he, h⟩
  · exact h

/-- The contexts keep their features. -/
theorem Given.same {w w' : World M} (hw : Given w) (hl : w.log <+: w'.log) (hc : w'.ctxs = w.ctxs) :
    Given w' := hw.of hl fun c C' h x hx => .inl ⟨C', by rw [← hc]; exact h, hx⟩

/-- One context changes. -/
theorem Given.update {w w' : World M} (hw : Given w) (hl : w.log <+: w'.log) {c : CtxPtr}
    {o : Option Ctx} (hc : w'.ctxs = Function.update w.ctxs c o)
    (ho : ∀ C', o = some C' → ∀ x ∈ C'.features, (∃ C, w.ctxs c = some C ∧ x ∈ C.features) ∨
      ∃ e ∈ w'.log, (∃ c', e = Ev.feature c' x) ∨ ∃ c' f, e = Ev.assigned c' f ∧ x ∈ f) :
    Given w' := by
  refine hw.of hl fun c' C' h x hx => ?_
  rw [hc] at h
  by_cases hcc : c' = c
  · subst hcc
    rw [Function.update_self] at h
    exact ho C' h x hx
  · rw [Function.update_of_ne hcc] at h
    exact .inl ⟨C', h, hx⟩

theorem given_invariant (env : Env M) (F : ℕ → Prop) : Invariant env F (Given (M := M)) := by
  have hs : Stable env F (Given (M := M)) := by
    refine Stable.of ?_ ?_ ?_ ?_
    · intro w l w' ht hw
      exact hw.same (by rw [ht.log]; exact List.prefix_append _ _) ht.ctxs
    · intro w c hw
      exact hw.same (List.prefix_append _ _) rfl
    · intro w r c m w' hw h
      obtain ⟨R, m', C, l, h1⟩ := collectContext_ok h
      refine hw.update (c := c) ?_ h1.ctxs ?_
      · rw [h1.log]
        exact (List.prefix_append _ _).trans (List.prefix_append _ _)
      · intro C' hC' x hx
        split at hC'
        · cases hC'
          unfold recCtx at hx
          dsimp only at hx
          split at hx
          · cases hx
          · exact .inl ⟨C, h1.ctx, hx⟩
        · cases hC'
    · intro w r R cs hw _
      exact hw.same List.prefix_rfl rfl
  exact {
    toKept := hs.kept
    finish := hs.finish
    traced := by
      intro w R m f p w' hw h
      obtain ⟨F, rfl⟩ := tracePolicy_same h
      exact hw.same List.prefix_rfl rfl
    created := by
      intro w nf name n mt info yaml r w' hw h
      obtain ⟨R, m, l, h1⟩ := createRegion_ok h
      refine hw.update ?_ h1.ctxs ?_
      · rw [h1.log, List.append_assoc]
        exact List.prefix_append _ _
      · intro C' hC' x hx
        cases hC'
        cases hx
    began := by
      intro w r c R C w' hw h
      refine hw.update (by rw [h.log]; exact List.prefix_append _ _) h.ctxs ?_
      intro C' hC' x hx
      cases hC'
      cases hx
    assigned := by
      intro w c C f hw hC
      refine hw.update (c := c) (List.prefix_append _ _) rfl ?_
      intro C' hC' x hx
      cases hC'
      exact .inr ⟨.assigned c f, by simp [World.emit], .inr ⟨c, f, rfl, hx⟩⟩
    feature := by
      intro w c C v hw hC
      refine hw.update (c := c) (List.prefix_append _ _) rfl ?_
      intro C' hC' x hx
      cases hC'
      rcases List.mem_append.1 hx with hx | hx
      · exact .inl ⟨C, hC, hx⟩
      · rw [List.mem_singleton] at hx
        subst hx
        exact .inr ⟨.feature c x, by simp [World.emit], .inl ⟨c, rfl⟩⟩
    chose := by
      intro w r c R m C p m' hw _ _ hC _
      refine hw.update (c := c) (List.prefix_append _ _) rfl ?_
      intro C' hC' x hx
      cases hC'
      exact .inl ⟨C, hC, hx⟩
    stop := by
      intro w c C t hw hC
      refine hw.update (c := c) List.prefix_rfl rfl ?_
      intro C' hC' x hx
      cases hC'
      exact .inl ⟨C, hC, hx⟩
    ended := fun w r c R hw _ _ _ => hw.same (List.prefix_append _ _) rfl
    period := fun w hw => hw.same List.prefix_rfl rfl
    destroyed := by
      intro w r R hw _ _
      obtain ⟨f, hf⟩ := afterDestroy_eq env w r R
      rw [hf]
      refine hw.update (c := .sync r) (List.prefix_append _ _) rfl ?_
      intro C' hC'
      cases hC' }

theorem given_init (cfg : Cfg) (files : Str → Option Str) : Given (initWorld cfg files : World M) := by
  intro c C hC
  cases hC

theorem step_sim (env : Env M) (w : World M) (hw : Given w)
    (hp : ¬ "policies.txt".toList <:+: w.cfg.policyModel) (op : Op) (ho : NoTraceLoaded op) :
    Sim w (step env w op) (step env (hush w) op) := by
  cases op with
  | create nf name n mt info yaml =>
    exact (createRegion_sim env w nf name n mt info yaml hp ho).bind fun x => Sim.ok (Later.refl _)
  | destroy r fuel => exact (destroyRegion_sim env w r fuel).bind fun x => Sim.ok (Later.refl _)
  | begin r kind => exact (begin_sim env w r kind).bind fun x => Sim.ok (Later.refl _)
  | beginWith r f => exact (beginWith_sim env w r f).bind fun x => Sim.ok (Later.refl _)
  | setFeature r c v => exact (setFeature_sim w c v).bind fun x => Sim.ok (Later.refl _)
  | getPolicyIndex r c =>
    exact (getPolicyIndex_sim env w hw r c).bind fun x => Sim.ok (Later.refl _)
  | endMetric r c m => exact (endMetric_sim env w r c m).bind fun x => Sim.ok (Later.refl _)
  | endCtx r c => exact (endCtx_sim env w r c).bind fun x => Sim.ok (Later.refl _)
  | setFeatureCur r v =>
    exact Sim.read (currentCtx w r) fun c _ => (setFeature_sim w c v).bind fun x => Sim.ok (Later.refl _)
  | getPolicyIndexCur r =>
    exact Sim.read (currentCtx w r) fun c _ =>
      (getPolicyIndex_sim env w hw r c).bind fun x => Sim.ok (Later.refl _)
  | endMetricCur r m =>
    exact Sim.read (currentCtx w r) fun c _ =>
      (endMetric_sim env w r c m).bind fun x => Sim.ok (Later.refl _)
  | endCur r =>
    exact Sim.read (currentCtx w r) fun c _ => (endCtx_sim env w r c).bind fun x => Sim.ok (Later.refl _)
  | collect r => exact (collectPending_sim env w r).bind fun x => Sim.ok (Later.refl _)
  | train r s c f => exact (regionTrain_sim env w r s c f).bind fun x => Sim.ok (Later.refl _)
  | trainAll s c => exact (apolloTrain_sim env w s c).bind fun x => Sim.ok (Later.refl _)

theorem step_keeps {env : Env M} {w v : World M} {op : Op} {x : Ret} (hw : Given w)
    (h : step env w op = .ok (x, v)) : Given v ∧ v.cfg.policyModel = w.cfg.policyModel := by
  refine ⟨(given_invariant env fun _ => True).step (fun _ _ _ _ => trivial) hw h, ?_⟩
  obtain ⟨G, hG⟩ := (CfgIs.invariant env (fun _ => True) w.cfg).step (fun _ _ _ _ => trivial)
    (w := w) ⟨w.cfg.globalPeriod, rfl⟩ h
  rw [hG]

theorem results_sim (env : Env M) (ops : List Op) (w : World M) (hw : Given w)
    (hp : ¬ "policies.txt".toList <:+: w.cfg.policyModel) (ho : ∀ op ∈ ops, NoTraceLoaded op) :
    Sim w (results env ops w) (results env ops (hush w)) := by
  induction ops generalizing w with
  | nil => exact Sim.ok (Later.refl w)
  | cons op ops ih =>
    simp only [results]
    refine (step_sim env w hw hp op (ho op List.mem_cons_self)).bind' fun v hv => ?_
    obtain ⟨x, v⟩ := v
    have hk : Given v ∧ v.cfg.policyModel = w.cfg.policyModel := by
      rcases hv with hv | hv
      · exact step_keeps hw hv
      · exact step_keeps (w := hush w) hw hv
    exact (ih v hk.1 (by rw [hk.2]; exact hp) fun op h => ho op (List.mem_cons_of_mem _ h)).bind
      fun y => Sim.ok (Later.refl _)

end Apollo
