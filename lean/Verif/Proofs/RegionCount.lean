import Verif.Proofs.RegionPending

/-!
# Counting begins, and the end of draining
-/

namespace Apollo

open Spec

variable {M : Type}

/-! ## Begins -/

/-- The call begins an execution of region `r`. -/
def Op.isBegin (r : ℕ) : Op → Bool
  | .begin r' _ => r' == r
  | .beginWith r' _ => r' == r
  | _ => false

theorem begins_trained {env : Env M} {w w' : World M} {l : List Ev} (h : Trained env w l w') :
    (observe w'.log).begins = (observe w.log).begins := by
  rw [h.log, observe_trained _ _ h.events]

theorem begins_collected {env : Env M} {w w' : World M} {r : ℕ} {c : CtxPtr} {metric : ℚ}
    (h : collectContext env (w.emit (.finished r c metric)) r c metric = .ok w') :
    (observe w'.log).begins = (observe w.log).begins := by
  obtain ⟨R, m, C, l, h1⟩ := collectContext_ok h
  rw [h1.log, observe_trained _ _ h1.events]
  simp only [World.emit]
  rw [observe_snoc]; rfl

theorem begins_stable (env : Env M) (F : ℕ → Prop) (b : ℕ → ℕ) :
    Stable env F (fun w : World M => (observe w.log).begins = b) := by
  refine Stable.of ?_ ?_ ?_ ?_
  · intro w l w' ht h; rw [begins_trained ht, h]
  · intro w c h; simp only [World.emit]; rw [observe_snoc]; exact h
  · intro w r c m w' h h1; rw [begins_collected h1, h]
  · intro w r R cs h _; exact h

theorem begins_endMetric {env : Env M} {w w' : World M} {r : ℕ} {c : CtxPtr} {metric : ℚ}
    (h : endMetric env w r c metric = .ok w') :
    (observe w'.log).begins = (observe w.log).begins := by
  obtain ⟨w₁, h1, h2⟩ := endMetric_ok h
  exact (begins_stable env (fun _ => False) _).collectPending (begins_collected h1) h2

theorem begins_endCtx {env : Env M} {w w' : World M} {r : ℕ} {c : CtxPtr}
    (h : endCtx env w r c = .ok w') : (observe w'.log).begins = (observe w.log).begins := by
  obtain ⟨R, C, hR, hC, h | h⟩ := endCtx_ok h
  · obtain ⟨m, rfl, _, h⟩ := h
    rw [begins_collected h]; rfl
  · obtain ⟨hne, h⟩ := h
    refine (begins_stable env (fun _ => False) _).collectPending ?_ h
    simp only [World.emit]; rw [observe_snoc]; rfl

theorem begins_snoc (w : World M) (e : Ev) (he : ∀ r c, e ≠ .began r c) :
    (observe (w.emit e).log).begins = (observe w.log).begins := by
  simp only [World.emit]
  rw [observe_snoc]
  cases e <;> simp only [Observer.next]
  exact absurd rfl (he _ _)

theorem begins_began {env : Env M} {w w' : World M} {r r' : ℕ} {c : CtxPtr} {R : Region} {C : Ctx}
    (h : BeganAs env w r' c R C w') :
    (observe w'.log).begins r = (observe w.log).begins r + (r' == r).toNat := by
  rw [h.log, observe_snoc]
  simp only [Observer.next]
  by_cases heq : r' = r
  · subst heq; simp
  · have : r ≠ r' := Ne.symm heq
    simp [heq, this]

theorem step_begins {env : Env M} {w w' : World M} {op : Op} {x : Ret} (r : ℕ)
    (h : step env w op = .ok (x, w')) :
    (observe w'.log).begins r = (observe w.log).begins r + (op.isBegin r).toNat := by
  have hS := begins_stable env (fun _ => True) (observe w.log).begins
  have key : ∀ w' : World M, (observe w'.log).begins = (observe w.log).begins →
      (observe w'.log).begins r = (observe w.log).begins r + 0 := by
    intro w' h; rw [h, Nat.add_zero]
  cases op with
  | create nf name n mt info yaml =>
    obtain ⟨⟨r, w₁⟩, h1, h⟩ := (Res.bind_eq_ok _ _ _).1 h
    cases h
    obtain ⟨R, m, l, hc⟩ := createRegion_ok h1
    refine key _ ?_
    rw [hc.log, observe_snoc, observe_trained _ _ hc.events]; rfl
  | destroy r fuel =>
    obtain ⟨w₁, h1, h⟩ := (Res.bind_eq_ok _ _ _).1 h
    cases h
    obtain ⟨w₁, R, h2, hR, hp, rfl⟩ := destroyRegion_ok h1
    obtain ⟨-, -, -, f4, -⟩ := afterDestroy_frame env w₁ r R
    refine key _ ?_
    have := hS.kept.drain (w := { w with cfg := { w.cfg with globalPeriod := 0 } }) rfl h2
    rw [f4, observe_snoc]; exact this
  | begin r' kind =>
    obtain ⟨⟨c, w₁⟩, h1, h⟩ := (Res.bind_eq_ok _ _ _).1 h
    cases h
    obtain ⟨R, C, hb⟩ := begin_ok h1
    exact begins_began hb
  | beginWith r' f =>
    obtain ⟨⟨c, w₁⟩, h1, h⟩ := (Res.bind_eq_ok _ _ _).1 h
    cases h
    obtain ⟨w₁, C₁, h2, hC₁, rfl⟩ := beginWith_ok h1
    obtain ⟨R, C, hb⟩ := begin_ok h2
    rw [begins_snoc _ _ (by simp)]
    exact (begins_began hb : (observe w₁.log).begins r = _)
  | setFeature r c v =>
    obtain ⟨w₁, h1, h⟩ := (Res.bind_eq_ok _ _ _).1 h
    cases h
    obtain ⟨C, hC, rfl⟩ := setFeature_ok h1
    exact key _ (begins_snoc _ _ (by simp))
  | getPolicyIndex r c =>
    obtain ⟨⟨p, w₁⟩, h1, h⟩ := (Res.bind_eq_ok _ _ _).1 h
    cases h
    obtain ⟨R, m, C, m', F, _, _, _, _, rfl⟩ := getPolicyIndex_ok h1
    exact key _ (begins_snoc _ _ (by simp))
  | endMetric r c m =>
    obtain ⟨w₁, h1, h⟩ := (Res.bind_eq_ok _ _ _).1 h
    cases h
    exact key _ (begins_endMetric h1)
  | endCtx r c =>
    obtain ⟨w₁, h1, h⟩ := (Res.bind_eq_ok _ _ _).1 h
    cases h
    exact key _ (begins_endCtx h1)
  | setFeatureCur r v =>
    obtain ⟨c, _, h⟩ := (Res.bind_eq_ok _ _ _).1 h
    obtain ⟨w₁, h1, h⟩ := (Res.bind_eq_ok _ _ _).1 h
    cases h
    obtain ⟨C, hC, rfl⟩ := setFeature_ok h1
    exact key _ (begins_snoc _ _ (by simp))
  | getPolicyIndexCur r =>
    obtain ⟨c, _, h⟩ := (Res.bind_eq_ok _ _ _).1 h
    obtain ⟨⟨p, w₁⟩, h1, h⟩ := (Res.bind_eq_ok _ _ _).1 h
    cases h
    obtain ⟨R, m, C, m', F, _, _, _, _, rfl⟩ := getPolicyIndex_ok h1
    exact key _ (begins_snoc _ _ (by simp))
  | endMetricCur r m =>
    obtain ⟨c, _, h⟩ := (Res.bind_eq_ok _ _ _).1 h
    obtain ⟨w₁, h1, h⟩ := (Res.bind_eq_ok _ _ _).1 h
    cases h
    exact key _ (begins_endMetric h1)
  | endCur r =>
    obtain ⟨c, _, h⟩ := (Res.bind_eq_ok _ _ _).1 h
    obtain ⟨w₁, h1, h⟩ := (Res.bind_eq_ok _ _ _).1 h
    cases h
    exact key _ (begins_endCtx h1)
  | collect r =>
    obtain ⟨w₁, h1, h⟩ := (Res.bind_eq_ok _ _ _).1 h
    cases h
    exact key _ (hS.collectPending rfl h1)
  | train r s c f =>
    obtain ⟨w₁, h1, h⟩ := (Res.bind_eq_ok _ _ _).1 h
    cases h
    exact key _ (hS.kept.regionTrain (fun _ => trivial) rfl h1)
  | trainAll s c =>
    obtain ⟨w₁, h1, h⟩ := (Res.bind_eq_ok _ _ _).1 h
    cases h
    exact key _ (hS.kept.apolloTrain rfl h1)

theorem exec_begins {env : Env M} {ops : List Op} {w w' : World M} (r : ℕ)
    (h : exec env ops w = .ok w') :
    (observe w'.log).begins r = (observe w.log).begins r + ops.countP (Op.isBegin r) := by
  induction ops generalizing w with
  | nil => simp only [Apollo.exec] at h; cases h; simp
  | cons op ops ih =>
    simp only [Apollo.exec] at h
    obtain ⟨⟨x, w₁⟩, h1, h⟩ := (Res.bind_eq_ok _ _ _).1 h
    rw [ih h, step_begins r h1, List.countP_cons]
    cases Op.isBegin r op <;> simp
    omega

/-! ## Draining ends once the timers are done -/

theorem tryCollect_tick {env : Env M} {w w' : World M} {r : ℕ} {c : CtxPtr}
    (h : tryCollect env w r c = .ok (false, w')) : w'.tick = w.tick + 1 := by
  rcases tryCollect_ok h with ⟨n, rfl, hn, -, rfl⟩ | ⟨n, m, rfl, hn, hb, h⟩ | ⟨r', m, rfl, hb, h⟩
  · rfl
  · cases hb
  · cases hb

theorem collectLoop_tick {env : Env M} {r : ℕ} {cs kept : List CtxPtr} {w w' : World M}
    (h : collectLoop env r cs w = .ok (kept, w')) : w.tick + kept.length ≤ w'.tick := by
  induction cs generalizing w kept with
  | nil => simp only [Apollo.collectLoop] at h; cases h; simp
  | cons c cs ih =>
    simp only [Apollo.collectLoop] at h
    obtain ⟨⟨b, w₁⟩, h1, h⟩ := (Res.bind_eq_ok _ _ _).1 h
    obtain ⟨⟨k, w₂⟩, h2, h⟩ := (Res.bind_eq_ok _ _ _).1 h
    cases h
    have : w₁.tick + k.length ≤ w₂.tick := ih h2
    show _ ≤ w₂.tick
    cases b with
    | true =>
      have h3 : w.tick ≤ w₁.tick := (tryCollect_effect h1).2.2.2.1
      simp only [if_true]
      omega
    | false =>
      have h3 : w₁.tick = w.tick + 1 := tryCollect_tick h1
      simp only [Bool.false_eq_true, if_false, List.length_cons]
      omega

theorem collectLoop_heap {env : Env M} {r : ℕ} {cs kept : List CtxPtr} {w w' : World M}
    (h : collectLoop env r cs w = .ok (kept, w')) : ∀ c ∈ kept, c ∈ cs ∧ ∃ n, c = .heap n := by
  induction cs generalizing w kept with
  | nil => simp only [Apollo.collectLoop] at h; cases h; simp
  | cons c cs ih =>
    simp only [Apollo.collectLoop] at h
    obtain ⟨⟨b, w₁⟩, h1, h⟩ := (Res.bind_eq_ok _ _ _).1 h
    obtain ⟨⟨k, w₂⟩, h2, h⟩ := (Res.bind_eq_ok _ _ _).1 h
    cases h
    have ih := ih h2
    cases b with
    | true =>
      intro c' hc
      obtain ⟨h3, h4⟩ := ih c' hc
      exact ⟨List.mem_cons_of_mem _ h3, h4⟩
    | false =>
      intro c' hc
      rcases List.mem_cons.1 hc with rfl | hc
      · refine ⟨List.mem_cons_self, ?_⟩
        rcases tryCollect_ok h1 with ⟨n, rfl, hn, -, rfl⟩ | ⟨n, m, rfl, hn, hb, h⟩ | ⟨r', m, rfl, hb, h⟩
        · exact ⟨n, rfl⟩
        · cases hb
        · cases hb
      · obtain ⟨h3, h4⟩ := ih c' hc
        exact ⟨List.mem_cons_of_mem _ h3, h4⟩

theorem Res.bind_ne_diverge {α β : Type} {x : Res α} {f : α → Res β}
    (hx : x ≠ .error .diverge) (hf : ∀ a, f a ≠ .error .diverge) :
    (x >>= f) ≠ .error .diverge := by
  cases x with
  | ok a => exact hf a
  | error e => intro h; apply hx; cases h; rfl

/-- Training and storing end. -/
structure Ends (ops : ModelOps M) : Prop where
  train : ∀ t ds m, ops.train t ds m ≠ .error .diverge
  store : ∀ m, ops.store m ≠ .error .diverge

theorem World.region_ends (w : World M) (r : ℕ) : w.region r ≠ .error .diverge := by
  unfold World.region; split <;> simp

theorem World.model_ends (w : World M) (r : ℕ) : w.model r ≠ .error .diverge := by
  unfold World.model; split <;> simp

theorem World.ctx_ends (w : World M) (c : CtxPtr) : w.ctx c ≠ .error .diverge := by
  unfold World.ctx; split <;> simp

theorem intColumns_ends (f : Features) : intColumns f ≠ .error .diverge := by
  induction f with
  | nil => simp [intColumns]
  | cons x f ih =>
    refine Res.bind_ne_diverge ?_ fun n => Res.bind_ne_diverge ih fun s => by simp
    unfold floatToInt
    dsimp only
    split <;> simp

theorem bestLines_ends (bs : List (Features × ℤ × ℚ)) : bestLines bs ≠ .error .diverge := by
  induction bs with
  | nil => simp [bestLines]
  | cons b bs ih =>
    exact Res.bind_ne_diverge (intColumns_ends _) fun s => Res.bind_ne_diverge ih fun t => by simp

theorem traceBest_ends (env : Env M) (w : World M) (R : Region) (s : ℤ) :
    traceBest env w R s ≠ .error .diverge := by
  unfold traceBest
  split
  · refine Res.bind_ne_diverge ?_ fun t => by simp
    exact Res.bind_ne_diverge (bestLines_ends _) fun t => by simp
  · simp

theorem trainBody_ends {env : Env M} (he : Ends env.ops) (w : World M) (r : ℕ) (s : ℤ) :
    trainBody env w r s ≠ .error .diverge := by
  unfold trainBody
  refine Res.bind_ne_diverge (w.region_ends r) fun R => ?_
  split
  · simp
  · split
    · simp
    · refine Res.bind_ne_diverge (traceBest_ends env w R s) fun w => ?_
      refine Res.bind_ne_diverge (w.model_ends r) fun m => ?_
      refine Res.bind_ne_diverge (he.train _ _ _) fun m' => ?_
      dsimp only
      split
      · simp
      · split
        · refine Res.bind_ne_diverge (he.store _) fun s => ?_
          simp
        · simp

theorem trainNoCollect_ends {env : Env M} (he : Ends env.ops) (w : World M) (r : ℕ) (s : ℤ)
    (f : Bool) : trainNoCollect env w r s f ≠ .error .diverge := by
  unfold trainNoCollect
  refine Res.bind_ne_diverge (w.model_ends r) fun m => ?_
  split
  · simp
  · exact trainBody_ends he _ _ _

theorem mergeDatasets_ends (w : World M) (rs : List ℕ) (acc : Dataset) :
    mergeDatasets w rs acc ≠ .error .diverge := by
  induction rs generalizing acc with
  | nil => simp [mergeDatasets]
  | cons r rs ih => exact Res.bind_ne_diverge (w.region_ends r) fun R => ih _

theorem trainAllWith_ends {env : Env M} (he : Ends env.ops) (ds : Dataset) (rs : List ℕ)
    (w : World M) : trainAllWith env ds rs w ≠ .error .diverge := by
  induction rs generalizing w with
  | nil => simp [trainAllWith]
  | cons r rs ih =>
    refine Res.bind_ne_diverge (w.region_ends r) fun R => ?_
    refine Res.bind_ne_diverge (w.model_ends r) fun m => ?_
    exact Res.bind_ne_diverge (he.train _ _ _) fun m' => ih _

theorem forRegions_ends {body : World M → ℕ → Res (World M)}
    (hb : ∀ w r, body w r ≠ .error .diverge) (rs : List ℕ) (w : World M) :
    forRegions body rs w ≠ .error .diverge := by
  induction rs generalizing w with
  | nil => simp [forRegions]
  | cons r rs ih => exact Res.bind_ne_diverge (hb w r) fun w => ih _

theorem autoTrain_ends {env : Env M} (he : Ends env.ops) (w : World M) (r : ℕ) :
    autoTrain env w r ≠ .error .diverge := by
  unfold autoTrain
  refine Res.bind_ne_diverge (w.region_ends r) fun R => ?_
  refine Res.bind_ne_diverge (w.model_ends r) fun m => ?_
  split
  · simp
  · split
    · unfold apolloTrainNoCollect apolloTrainWith
      split
      · simp
      · split
        · exact Res.bind_ne_diverge (mergeDatasets_ends _ _ _) fun ds => trainAllWith_ends he _ _ _
        · refine forRegions_ends (fun w r => ?_) _ _
          unfold trainNoCollectOf
          exact Res.bind_ne_diverge (w.region_ends r) fun R => trainNoCollect_ends he _ _ _ _
    · split
      · exact trainNoCollect_ends he _ _ _ _
      · split
        · exact trainNoCollect_ends he _ _ _ _
        · simp

theorem destroyContext_ends (w : World M) (r : ℕ) (c : CtxPtr) :
    destroyContext w r c ≠ .error .diverge := by
  unfold destroyContext
  split
  · simp
  · cases c with
    | sync r' => simp
    | heap n => exact Res.bind_ne_diverge (w.ctx_ends _) fun C => by simp

theorem collectContext_ends {env : Env M} (he : Ends env.ops) (w : World M) (r : ℕ) (c : CtxPtr)
    (m : ℚ) : collectContext env w r c m ≠ .error .diverge := by
  unfold collectContext
  refine Res.bind_ne_diverge (w.region_ends r) fun R => ?_
  refine Res.bind_ne_diverge (w.model_ends r) fun m => ?_
  refine Res.bind_ne_diverge (w.ctx_ends c) fun C => ?_
  refine Res.bind_ne_diverge (autoTrain_ends he _ _) fun w₁ => ?_
  refine Res.bind_ne_diverge (destroyContext_ends _ _ _) fun w₂ => ?_
  exact Res.bind_ne_diverge (w₂.region_ends r) fun R => by simp

theorem tryCollect_ends {env : Env M} (he : Ends env.ops) (w : World M) (r : ℕ) (c : CtxPtr) :
    tryCollect env w r c ≠ .error .diverge := by
  unfold tryCollect
  refine Res.bind_ne_diverge (w.ctx_ends c) fun C => ?_
  cases c with
  | sync r' =>
    refine Res.bind_ne_diverge ?_ fun m => ?_
    · unfold syncMetric; split <;> simp
    · exact Res.bind_ne_diverge (collectContext_ends he _ _ _ _) fun w => by simp
  | heap n =>
    dsimp only
    split
    · simp
    · exact Res.bind_ne_diverge (collectContext_ends he _ _ _ _) fun w => by simp
    · simp

theorem collectLoop_ends {env : Env M} (he : Ends env.ops) (r : ℕ) (cs : List CtxPtr)
    (w : World M) : collectLoop env r cs w ≠ .error .diverge := by
  induction cs generalizing w with
  | nil => simp [collectLoop]
  | cons c cs ih =>
    refine Res.bind_ne_diverge (tryCollect_ends he _ _ _) fun x => ?_
    exact Res.bind_ne_diverge (ih _) fun y => by simp

theorem collectPending_ends {env : Env M} (he : Ends env.ops) (w : World M) (r : ℕ) :
    collectPending env w r ≠ .error .diverge := by
  unfold collectPending
  refine Res.bind_ne_diverge (w.region_ends r) fun R => ?_
  refine Res.bind_ne_diverge (collectLoop_ends he _ _ _) fun x => ?_
  exact Res.bind_ne_diverge (x.2.region_ends r) fun R => by simp

/-- From tick `T` on all timers of the pending contexts are done: then draining takes at most
`T - tick + 1` rounds. -/
theorem drain_ends {env : Env M} (he : Ends env.ops) {r : ℕ} {w : World M} {T fuel : ℕ}
    (hT : ∀ n, .heap n ∈ w.pend r → ∀ t h, T ≤ t → ∃ m, env.poll t h n = .done m)
    (hf : T < w.tick + fuel) (h1 : 1 ≤ fuel) : drain env r fuel w ≠ .error .diverge := by
  induction fuel generalizing w with
  | zero => omega
  | succ fuel ih =>
    simp only [Apollo.drain]
    refine Res.bind_ne_diverge (w.region_ends r) fun R => ?_
    split
    · simp
    · cases h : collectPending env w r with
      | error e =>
        intro hd
        apply collectPending_ends he w r
        rw [h]
        exact hd
      | ok w₁ =>
        show drain env r fuel w₁ ≠ _
        obtain ⟨R₀, kept, w₂, R₂, hR₀, hl, hR₂, rfl⟩ := collectPending_ok h
        have hp : (w₂.setRegion r { R₂ with pending := kept }).pend r = kept := by
          simp [World.pend, World.setRegion]
        have htick : w.tick + kept.length ≤ w₂.tick := collectLoop_tick hl
        have htk : (w₂.setRegion r { R₂ with pending := kept }).tick = w₂.tick := rfl
        have hheap := collectLoop_heap hl
        obtain ⟨⟨l, s⟩, -⟩ := collectLoop_swept hl
        by_cases hk : kept = []
        · subst hk
          have hR' : (w₂.setRegion r { R₂ with pending := [] }).region r =
              .ok { R₂ with pending := [] } := by
            simp [World.region, World.setRegion]
          cases fuel with
          | zero => simp [Apollo.drain, hR']
          | succ f => simp [Apollo.drain, hR']
        · have hlen : 1 ≤ kept.length := by
            cases kept with
            | nil => exact absurd rfl hk
            | cons a b => simp
          have hlt : w.tick < T := by
            by_contra hge
            obtain ⟨c, hc⟩ := List.exists_mem_of_ne_nil _ hk
            obtain ⟨hcs, n, rfl⟩ := hheap c hc
            refine s.done n (fun t h ht => hT n ?_ t h (by omega)) hc
            rw [World.pend_of hR₀]; exact hcs
          refine ih ?_ (by omega) (by omega)
          intro n hn
          rw [hp] at hn
          refine hT n ?_
          rw [World.pend_of hR₀]; exact (hheap _ hn).1

end Apollo
