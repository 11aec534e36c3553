import Verif.Spec.KokkosMany
import Verif.Proofs.KokkosKernels
import Verif.Proofs.Explained

/-!
# Helpers for C115: one problem among others
-/

namespace Apollo

open Spec

/-! ## What observers know about one region -/

/-- Two observers know the same about the embedded context and the executions of region `r`. -/
structure SameView (r : ℕ) (o o' : Observer) : Prop where
  isOpen : o'.isOpen (.sync r) = o.isOpen (.sync r)
  owner : o'.owner (.sync r) = o.owner (.sync r)
  features : o'.features (.sync r) = o.features (.sync r)
  policy : o'.policy (.sync r) = o.policy (.sync r)
  rows : o'.rows r = o.rows r
  proper : o'.proper r = o.proper r

theorem SameView.refl (r : ℕ) (o : Observer) : SameView r o o := ⟨rfl, rfl, rfl, rfl, rfl, rfl⟩

theorem SameView.trans {r : ℕ} {o o' o'' : Observer} (h : SameView r o o') (h' : SameView r o' o'') : SameView r o o'' :=
  ⟨h'.isOpen.trans h.isOpen, h'.owner.trans h.owner, h'.features.trans h.features, h'.policy.trans h.policy,
    h'.rows.trans h.rows, h'.proper.trans h.proper⟩

/-- The event is not about region `r`, nor about its embedded context. -/
def Foreign (r : ℕ) : Ev → Prop
  | .began _ c | .assigned c _ | .feature c _ | .chose _ c _ => c ≠ .sync r
  | .finished r' c _ => r' ≠ r ∧ c ≠ .sync r
  | _ => True

theorem Foreign.next {r : ℕ} {e : Ev} (h : Foreign r e) (o : Observer) : SameView r o (o.next e) := by
  cases e <;> simp only [Foreign] at h <;> constructor <;> simp only [Observer.next] <;>
    first
      | rfl
      | exact Function.update_of_ne (Ne.symm h) _ _
      | exact Function.update_of_ne (Ne.symm h.1) _ _
      | exact Function.update_of_ne (Ne.symm h.2) _ _

theorem foreign_view {r : ℕ} (h : List Ev) {l : List Ev} (hl : ∀ e ∈ l, Foreign r e) :
    SameView r (observe h) (observe (h ++ l)) := by
  induction l using List.reverseRecOn with
  | nil => simpa using SameView.refl r _
  | append_singleton l e ih =>
    rw [← List.append_assoc, observe_snoc]
    exact (ih fun e he => hl e (by simp [he])).trans ((hl e (by simp)).next _)

/-- The events of a request that is answered. -/
def requestEvents (r : ℕ) (f : Features) (p : ℤ) : List Ev :=
  .began r (.sync r) :: (f.map (Ev.feature (.sync r)) ++ [.chose r (.sync r) p])

theorem requestEvents_foreign {r r' : ℕ} (hr : r' ≠ r) (f : Features) (p : ℤ) :
    ∀ e ∈ requestEvents r' f p, Foreign r e := by
  have hne : CtxPtr.sync r' ≠ .sync r := by simpa using hr
  intro e he
  simp only [requestEvents, List.mem_cons, List.mem_append, List.mem_map, List.not_mem_nil, or_false] at he
  rcases he with rfl | ⟨v, -, rfl⟩ | rfl <;> exact hne

theorem features_view (r : ℕ) (f : Features) (o : Observer) :
    ((f.map (Ev.feature (.sync r))).foldl Observer.next o) =
      { o with features := Function.update o.features (.sync r) (o.features (.sync r) ++ f) } := by
  induction f generalizing o with
  | nil => simp
  | cons v f ih =>
    simp only [List.map_cons, List.foldl_cons, ih, Observer.next]
    simp

theorem request_view (h : List Ev) (r : ℕ) (f : Features) (p : ℤ) :
    let o := observe (h ++ requestEvents r f p)
    o.isOpen (.sync r) = true ∧ o.owner (.sync r) = some r ∧ o.features (.sync r) = f ∧ o.policy (.sync r) = some p ∧
      o.rows r = (observe h).rows r ∧ o.proper r = (observe h).proper r := by
  simp only [observe, requestEvents, List.foldl_append, List.foldl_cons, List.foldl_nil, features_view, Observer.next]
  simp

/-! ## Hushed processes -/

/-- The library trains nothing by itself. -/
structure Hushed (w : World M) : Prop where
  global : w.cfg.globalPeriod = 0
  period : w.cfg.perRegionPeriod = 0
  mins : ∀ r R, w.regions r = some R → R.minTraining = 0

theorem Hushed.autoTrain {env : Env M} {w w' : World M} {r : ℕ} (hq : Hushed w) (h : autoTrain env w r = .ok w') : w' = w := by
  unfold Apollo.autoTrain at h
  obtain ⟨R, hR, h⟩ := (Res.bind_eq_ok _ _ _).1 h
  obtain ⟨m, -, h⟩ := (Res.bind_eq_ok _ _ _).1 h
  have := hq.mins r R (World.region_ok.1 hR)
  simp only [hq.global, hq.period, this, ne_eq, not_true_eq_false, false_and, if_false, lt_irrefl] at h
  split at h <;> cases h <;> rfl

theorem Hushed.collect {env : Env M} {w w' : World M} {r : ℕ} {c : CtxPtr} {x : ℚ} (hq : Hushed w)
    (h : collectContext env w r c x = .ok w') : w'.log = w.log := by
  unfold collectContext at h
  obtain ⟨R, hR, h⟩ := (Res.bind_eq_ok _ _ _).1 h
  obtain ⟨m, -, h⟩ := (Res.bind_eq_ok _ _ _).1 h
  obtain ⟨C, -, h⟩ := (Res.bind_eq_ok _ _ _).1 h
  obtain ⟨w₁, h1, h⟩ := (Res.bind_eq_ok _ _ _).1 h
  obtain ⟨w₂, h2, h⟩ := (Res.bind_eq_ok _ _ _).1 h
  obtain ⟨R', -, h⟩ := (Res.bind_eq_ok _ _ _).1 h
  cases h
  have hq' : Hushed (record env w r R m c C x) := by
    obtain ⟨f1, -⟩ := record_frame env w r R m c C x
    refine ⟨by rw [f1]; exact hq.global, by rw [f1]; exact hq.period, ?_⟩
    intro r' R' hR'
    rw [record_regions] at hR'
    by_cases heq : r' = r
    · subst heq
      rw [Function.update_self] at hR'
      cases hR'
      have := hq.mins r' R (World.region_ok.1 hR)
      unfold recRegion
      split <;> simpa using this
    · rw [Function.update_of_ne heq] at hR'
      exact hq.mins r' R' hR'
  have e1 := hq'.autoTrain h1
  subst e1
  have e2 : w₂.log = (record env w r R m c C x).log := by
    unfold destroyContext at h2
    split at h2
    · cases h2; rfl
    · split at h2
      · cases h2
      · obtain ⟨_, -, h2⟩ := (Res.bind_eq_ok _ _ _).1 h2
        cases h2
        rfl
  change w₂.log = _
  rw [e2]
  unfold record
  dsimp only
  split <;> split <;> rfl

end Apollo

namespace Apollo.Kokkos

open Spec

variable {M : Type} {e : KEnv M}

theorem setFeatures_frame {hash : Str → ℕ} {c : CtxPtr} : ∀ {vs : List (ℕ × Value)} {w w' : World M},
    setFeatures hash c vs w = .ok w' →
    w'.log = w.log ++ (vs.map fun v => toFloat hash v.2).map (Ev.feature c) ∧ w'.models = w.models ∧
      w'.regions = w.regions ∧ w'.cfg = w.cfg ∧ w'.registry = w.registry
  | [], w, w', h => by simp only [setFeatures] at h; cases h; simp
  | v :: vs, w, w', h => by
    unfold setFeatures at h
    obtain ⟨w₁, h1, h⟩ := (Res.bind_eq_ok _ _ _).1 h
    obtain ⟨C, -, rfl⟩ := setFeature_ok h1
    obtain ⟨a, b, c, d, r⟩ := setFeatures_frame h
    refine ⟨?_, b, c, d, r⟩
    rw [a]
    simp [World.emit, World.setCtx]

theorem _root_.Apollo.Hushed.update {w w' : World M} (h : Hushed w) (hc : w'.cfg = w.cfg) {r : ℕ} {R : Region}
    (hr : w'.regions = Function.update w.regions r (some R)) (hp : R.minTraining = 0) : Hushed w' := by
  refine ⟨by rw [hc]; exact h.global, by rw [hc]; exact h.period, fun r' R' hR' => ?_⟩
  rw [hr] at hR'
  by_cases heq : r' = r
  · subst heq
    rw [Function.update_self] at hR'
    cases hR'
    exact hp
  · rw [Function.update_of_ne heq] at hR'
    exact h.mins r' R' hR'

/-- The part of a request after its region was found. -/
theorem request_rest {s₁ : State M} {r : ℕ} {w₁ w₂ w₃ : World M} {ctx : List (ℕ × Value)} {p : ℤ} (hq : Hushed s₁.world)
    (h3 : begin e.env s₁.world r .sync = .ok (.sync r, w₁)) (h4 : setFeatures e.hash (.sync r) ctx w₁ = .ok w₂)
    (h5 : getPolicyIndex e.env w₂ r (.sync r) = .ok (p, w₃)) :
    Hushed w₃ ∧ w₃.cfg = s₁.world.cfg ∧ w₃.log = s₁.world.log ++ requestEvents r (feats e ctx) p ∧
      (∃ m m', s₁.world.models r = some m ∧ e.env.ops.getIndex m (feats e ctx) = .ok (p, m')) ∧
      Runs e.env s₁.world w₃ ∧ w₃.registry = s₁.world.registry := by
  have hruns : Runs e.env s₁.world w₃ := by
    refine Runs.trans (Runs.one (op := .begin r .sync) (x := .ctx (.sync r)) (w' := w₁) ?_ ?_) ?_
    · simp [Apollo.step, h3]
    · exact ⟨by simp, by simp⟩
    refine (setFeatures_runs r h4).trans ?_
    refine Runs.one (op := .getPolicyIndex r (.sync r)) (x := .policy p) ?_ ?_
    · simp [Apollo.step, h5]
    · exact ⟨by simp, by simp⟩
  obtain ⟨R, C, hb⟩ := begin_ok h3
  have hc1 : w₁.ctxs (.sync r) = some { C with
      features := [], idx := R.idx.toNat, start := some (seconds (e.env.clock s₁.world.tick)) } := by
    rw [hb.ctxs, Function.update_self]
  obtain ⟨f1, -, -, -⟩ := setFeatures_ctx hc1 h4
  obtain ⟨g1, g2, g3, g4, g5⟩ := setFeatures_frame h4
  obtain ⟨R', m, C', m', F, k1, k2, k3, k4, rfl⟩ := getPolicyIndex_ok h5
  rw [f1] at k3
  cases k3
  have hq₁ : Hushed w₁ := hq.update hb.cfg hb.regions (hq.mins r R hb.region)
  refine ⟨⟨?_, ?_, ?_⟩, ?_, ?_, ⟨m, m', ?_, ?_⟩, hruns, g5.trans hb.registry⟩
  · change w₂.cfg.globalPeriod = 0
    rw [g4]; exact hq₁.global
  · change w₂.cfg.perRegionPeriod = 0
    rw [g4]; exact hq₁.period
  · intro r' R' hR'
    change w₂.regions r' = some R' at hR'
    rw [g3] at hR'
    exact hq₁.mins r' R' hR'
  · exact g4.trans hb.cfg
  · change w₂.log ++ [_] = _
    rw [g1, hb.log]
    simp [requestEvents, feats]
  · rw [← hb.models, ← g2]; exact k2
  · rw [← k4]
    simp [feats]

theorem mem_insertNew_of_mem {k : Str} {v : ℕ} : ∀ {m : OMap Str ℕ} {y : Str × ℕ}, y ∈ m → y ∈ OMap.insertNew k v m
  | (k', v') :: m, y, h => by
    unfold OMap.insertNew OMap.upsert
    split
    · exact List.mem_cons_of_mem _ h
    · split
      · rcases List.mem_cons.1 h with rfl | h
        · simp_all
        · exact List.mem_cons_of_mem _ h
      · rcases List.mem_cons.1 h with rfl | h
        · simp
        · exact List.mem_cons_of_mem _ (mem_insertNew_of_mem h)

/-- What a call adds to the events, and what it does to the open contexts. -/
inductive Adds (e : KEnv M) (s : State M) (o : KOp) (x : Ret) (s' : State M) : List Ev → Prop
  | nothing : (∀ c ctx t, o = .request c ctx t → t = []) → (∀ c, o = .endContext c → s.contexts c = none) →
      x ≠ .ended true → s'.contexts = s.contexts → Adds e s o x s' []
  | request (c : ℕ) (ctx : List (ℕ × Value)) (t : List ℕ) (r : ℕ) (p : ℤ) (vs : List Value) (l : List Ev) :
      o = .request c ctx t → t ≠ [] → x = .values r vs → (ctx.map Prod.fst ++ t, r) ∈ s'.regions →
      s'.contexts = Function.update s.contexts c (some (r, .sync r)) →
      (∀ ev ∈ l, (∃ ds, ev = .trained r ds) ∨ ∃ ds b, ev = .created r ds b) → (r < s.world.nextRegion → l = []) →
      decode s' t p = .ok vs → Adds e s o x s' (l ++ requestEvents r (feats e ctx) p)
  | ended (c r : ℕ) (y : ℚ) (b : Bool) (l : List Ev) : o = .endContext c → x = .ended b → s.contexts c = some (r, .sync r) →
      s'.contexts = Function.update s.contexts c none → (∀ ev ∈ l, ∃ r ds, ev = .trained r ds) → (b = false → l = []) →
      Adds e s o x s' (.finished r (.sync r) y :: l)

theorem decode_decls : ∀ {s₁ s₂ : State M} {ids : List ℕ} {p : ℤ}, s₁.decls = s₂.decls →
    decode s₁ ids p = decode s₂ ids p := by
  intro s₁ s₂ ids
  induction ids with
  | nil => intros; rfl
  | cons id ids ih =>
    intro p hd
    simp only [decode, State.decl, hd, fun q => ih (p := q) hd]

theorem endCtx_hushed {s : State M} {r : ℕ} {w : World M} (hp : NoPending s.world) (hq : Hushed s.world)
    (h1 : endCtx e.env s.world r (.sync r) = .ok w) :
    NoPending w ∧ Hushed w ∧ w.cfg = s.world.cfg ∧ w.registry = s.world.registry ∧ w.models = s.world.models ∧
      ∃ y, w.log = s.world.log ++ [.finished r (.sync r) y] := by
  obtain ⟨R₀, C, -, -, ⟨q, -, -, h3⟩ | ⟨h3, -⟩⟩ := endCtx_ok h1
  swap
  · exact absurd rfl h3
  obtain ⟨R₁, m₁, C₁, l, h4⟩ := collectContext_ok h3
  have hw : NoPending w := NoPending.update (w := (((s.world.setCtx (.sync r) _).advance).emit _)) hp
    h4.regions (by simp only [recRegion]; exact hp r _ h4.region)
  have hq' : Hushed w := Hushed.update (w := (((s.world.setCtx (.sync r) _).advance).emit _)) ⟨hq.global, hq.period, hq.mins⟩ h4.cfg
    h4.regions (by simp only [recRegion]; exact hq.mins r _ h4.region)
  have hl := Hushed.collect (w := (((s.world.setCtx (.sync r) _).advance).emit _)) ⟨hq.global, hq.period, hq.mins⟩ h3
  refine ⟨hw, hq', h4.cfg, h4.registry, ?_, q, hl⟩
  have hl0 : l = [] := by
    have := h4.log
    rw [hl] at this
    simpa using this
  subst hl0
  funext r'
  exact h4.models r' (by simp)

theorem kstep_adds {s s' : State M} {o : KOp} {x : Ret} (ho : OneShot e.env.ops) (hi : KInv s) (hn : NoPending s.world)
    (hq : Hushed s.world) (hs : s.world.cfg.single = false) (h : kstep e s o = .ok (x, s')) :
    Hushed s'.world ∧ s'.world.cfg = s.world.cfg ∧ (∀ y ∈ s.world.registry, y ∈ s'.world.registry) ∧
      ∃ l, s'.world.log = s.world.log ++ l ∧ Adds e s o x s' l := by
  cases o with
  | declareOutput id name c =>
    obtain ⟨s₁, h1, h⟩ := (Res.bind_eq_ok _ _ _).1 h
    cases h
    obtain ⟨-, n, vs, -, rfl⟩ := declareOutput_ok h1
    exact ⟨hq, rfl, fun _ h => h, [], by simp, .nothing (by simp) (by simp) (by simp) rfl⟩
  | declareInput id name =>
    obtain ⟨s₁, h1, h⟩ := (Res.bind_eq_ok _ _ _).1 h
    cases h
    obtain ⟨-, rfl⟩ := declareInput_ok h1
    exact ⟨hq, rfl, fun _ h => h, [], by simp, .nothing (by simp) (by simp) (by simp) rfl⟩
  | request cid ctx tuning =>
    have h' : Kokkos.request e s cid ctx tuning = .ok (x, s') := h
    rcases request_ok h' with
      ⟨rfl, rfl, rfl⟩ | ⟨ht, n, r, s₁, w₁, w₂, p, w₃, vs, h0, -, h2, h3, h4, h5, h6, rfl, rfl⟩
    · exact ⟨hq, rfl, fun _ h => h, [], by simp, .nothing (by simp) (by simp) (by simp) rfl⟩
    · obtain ⟨-, b2, -, -, b5, -⟩ := hi.problem (ctx := ctx.map Prod.fst) h0 ht (by simp) h2
      have hp : Hushed s₁.world ∧ s₁.world.cfg = s.world.cfg ∧ (∀ y ∈ s.world.registry, y ∈ s₁.world.registry) ∧ ∃ l, s₁.world.log = s.world.log ++ l ∧
          (∀ ev ∈ l, (∃ ds, ev = .trained r ds) ∨ ∃ ds b, ev = .created r ds b) ∧ (r < s.world.nextRegion → l = []) := by
        rcases problemRegion_ok h2 with ⟨-, rfl⟩ | ⟨-, name, info, u, w, -, -, h1, rfl⟩
        · exact ⟨hq, rfl, fun _ h => h, [], by simp, by simp, fun _ => rfl⟩
        · obtain ⟨R, m, l, h6⟩ := createRegion_ok h1
          refine ⟨hq.update h6.cfg h6.regions h6.minTraining, h6.cfg, fun y hy => ?_, l ++ [.created r R.dataset (e.env.ops.isTrainable m)], ?_,
            fun ev hev => ?_, fun hr => ?_⟩
          · change y ∈ w.registry
            rw [h6.registry]
            exact mem_insertNew_of_mem hy
          · change w.log = _
            rw [h6.log]; simp
          · rcases List.mem_append.1 hev with hev | hev
            · obtain ⟨r', ds, rfl⟩ := h6.events ev hev
              have := h6.alone hq.global r' ds hev
              subst this
              exact .inl ⟨ds, rfl⟩
            · rw [List.mem_singleton] at hev
              exact .inr ⟨_, _, hev⟩
          · have := h6.id
            omega
      obtain ⟨q1, q2, q0, l, q3, q4, q5⟩ := hp
      obtain ⟨r1, r2, r3, -, -, r4⟩ := request_rest q1 h3 h4 h5
      refine ⟨r1, r2.trans q2, fun y hy => r4 ▸ q0 y hy, l ++ requestEvents r (feats e ctx) p, ?_,
        .request cid ctx tuning r p vs l rfl ht rfl b2 ?_ q4 q5 ?_⟩
      · change w₃.log = _
        rw [r3, q3]; simp
      · change Function.update s₁.contexts cid _ = _
        rw [b5]
      · rw [← h6]
        exact decode_decls rfl
  | endContext cid =>
    have h' : Kokkos.endContext e s cid = .ok (x, s') := h
    rcases endContext_ok h' with ⟨hc, rfl, rfl⟩ | ⟨r, c, w, hc, h1, -, -, h2⟩
    · exact ⟨hq, rfl, fun _ h => h, [], by simp, .nothing (by simp) (by rintro c hc'; cases hc'; exact hc) (by simp) rfl⟩
    · obtain ⟨rfl, -⟩ := hi.ctxs cid r c hc
      obtain ⟨a1, a2, a3, a4, a5, y, a6⟩ := endCtx_hushed hn hq h1
      rcases h2 with ⟨-, w', h5, rfl, rfl⟩ | ⟨-, rfl, rfl⟩
      · obtain ⟨⟨l, ht⟩, -⟩ := apolloTrain_rests ho a1 (by rw [a3]; exact hs) h5
        refine ⟨⟨by change w'.cfg.globalPeriod = _; rw [ht.cfg]; exact a2.global,
          by change w'.cfg.perRegionPeriod = _; rw [ht.cfg]; exact a2.period, fun r' R' hR' => ?_⟩, ?_, ?_, _, ?_,
          .ended cid r y true l rfl rfl hc rfl ht.events (by simp)⟩
        · change w'.regions r' = _ at hR'
          rw [ht.regions] at hR'
          exact a2.mins r' R' hR'
        · exact ht.cfg.trans a3
        · intro y hy
          change y ∈ w'.registry
          rw [ht.registry, a4]
          exact hy
        · change w'.log = _
          rw [ht.log, a6]; simp
      · refine ⟨a2, a3, fun y hy => by change y ∈ w.registry; rw [a4]; exact hy, _, ?_, .ended cid r y false [] rfl rfl hc rfl (by simp) (by simp)⟩
        exact a6

/-! ## One problem among others -/

theorem _root_.Apollo.Hushed.exec {ops : List KOp} {s s' : State M} {xs : List Ret} (ho : OneShot e.env.ops) (hi : KInv s)
    (hn : NoPending s.world) (hq : Hushed s.world) (hs : s.world.cfg.single = false)
    (h : kexec e ops s = .ok (xs, s')) : Hushed s'.world ∧ s'.world.cfg = s.world.cfg := by
  induction ops generalizing s xs with
  | nil => simp only [kexec] at h; cases h; exact ⟨hq, rfl⟩
  | cons o ops ih =>
    obtain ⟨x, s₁, ys, h1, h2, rfl⟩ := kexec_cons h
    obtain ⟨a, b, -, -⟩ := kstep_adds ho hi hn hq hs h1
    obtain ⟨c, d⟩ := ih (hi.step h1).1 (hn.step hi h1) a (by rw [b]; exact hs) h2
    exact ⟨c, d.trans b⟩

theorem kexec_log {ops : List KOp} {s s' : State M} {xs : List Ret} (ho : OneShot e.env.ops) (hi : KInv s)
    (hn : NoPending s.world) (hq : Hushed s.world) (hs : s.world.cfg.single = false)
    (h : kexec e ops s = .ok (xs, s')) : ∃ l, s'.world.log = s.world.log ++ l := by
  induction ops generalizing s xs with
  | nil => simp only [kexec] at h; cases h; exact ⟨[], by simp⟩
  | cons o ops ih =>
    obtain ⟨x, s₁, ys, h1, h2, rfl⟩ := kexec_cons h
    obtain ⟨a, b, -, l, c, -⟩ := kstep_adds ho hi hn hq hs h1
    obtain ⟨l', d⟩ := ih (hi.step h1).1 (hn.step hi h1) a (by rw [b]; exact hs) h2
    exact ⟨l ++ l', by rw [d, c, List.append_assoc]⟩

theorem answers_request (r r' : ℕ) (f : Features) (p : ℤ) :
    answers r (requestEvents r' f p) = if r' = r then [p] else [] := by
  have h0 : answers r (f.map (Ev.feature (.sync r'))) = [] := by
    simp [answers, answer]
  have : requestEvents r' f p = [Ev.began r' (.sync r')] ++ f.map (Ev.feature (.sync r')) ++ [.chose r' (.sync r') p] := by
    simp [requestEvents]
  rw [this]
  unfold answers at h0 ⊢
  rw [List.filterMap_append, List.filterMap_append, h0]
  by_cases hr : r' = r <;> simp [answer, hr]

theorem answers_append (r : ℕ) (a b : List Ev) : answers r (a ++ b) = answers r a ++ answers r b := by
  simp [answers]

theorem not_trained_request (r r' : ℕ) (f : Features) (p : ℤ) (ds : Dataset) : Ev.trained r ds ∉ requestEvents r' f p := by
  simp [requestEvents]

theorem requests_snoc (k : List ℕ) (ops : List KOp) (o : KOp) :
    requests k (ops ++ [o]) = requests k ops + if isRequest k o then 1 else 0 := by
  simp [requests, List.countP_append, List.countP_singleton]

theorem isRequest_request {k : List ℕ} {c : ℕ} {ctx : List (ℕ × Value)} {t : List ℕ} :
    isRequest k (.request c ctx t) = true ↔ t ≠ [] ∧ ctx.map Prod.fst ++ t = k := by simp [isRequest]

/-- The problem `k` with region `r` after calls, since the events `h₀`, without a training. -/
structure Untrained (k : List ℕ) (r : ℕ) (h₀ : List Ev) (ops : List KOp) (s : State M) : Prop where
  mem : (k, r) ∈ s.regions
  log : ∃ l, s.world.log = h₀ ++ l ∧ (∀ ds, Ev.trained r ds ∉ l) ∧ (answers r l).length = requests k ops

theorem Untrained.step {k : List ℕ} {r : ℕ} {h₀ : List Ev} {ops : List KOp} {s s' : State M} {o : KOp} {x : Ret} {l : List Ev}
    (hu : Untrained k r h₀ ops s) (hi : KInv s) (hi' : KInv s') (hsub : ∀ y, y ∈ s.regions → y ∈ s'.regions)
    (hl : s'.world.log = s.world.log ++ l) (ha : Adds e s o x s' l) (hx : x ≠ .ended true) :
    Untrained k r h₀ (ops ++ [o]) s' := by
  refine ⟨hsub _ hu.mem, ?_⟩
  obtain ⟨l₁, h1, h2, h3⟩ := hu.log
  refine ⟨l₁ ++ l, by rw [hl, h1, List.append_assoc], ?_⟩
  rw [requests_snoc, answers_append, List.length_append, h3]
  have hr := hi.fresh _ _ hu.mem
  cases ha with
  | nothing a1 a2 =>
    refine ⟨by simpa using h2, ?_⟩
    have : isRequest k o = false := by
      cases o with
      | request c ctx t => simp [isRequest, a1 c ctx t rfl]
      | _ => rfl
    simp [this, answers]
  | request c ctx t r' p vs l a1 a2 a3 a4 a5 a6 a7 a8 =>
    subst a1
    rw [answers_append, answers_request]
    by_cases hk : ctx.map Prod.fst ++ t = k
    · have : r' = r := region_unique hi' (hk ▸ a4) (hsub _ hu.mem)
      subst this
      rw [a7 hr, (isRequest_request (c := c)).2 ⟨a2, hk⟩]
      refine ⟨fun ds hd => ?_, by simp [answers]⟩
      simp only [List.nil_append, List.mem_append] at hd
      exact hd.elim (h2 ds) (not_trained_request _ _ _ _ _)
    · have hne : r' ≠ r := by
        rintro rfl
        exact hk (hi'.inj _ _ _ a4 (hsub _ hu.mem))
      have hq : isRequest k (.request c ctx t) = false := by
        rw [Bool.eq_false_iff, ne_eq, isRequest_request]
        exact fun h => hk h.2
      have hz : answers r l = [] := by
        unfold answers
        rw [List.filterMap_eq_nil_iff]
        intro ev hev
        rcases a6 ev hev with ⟨ds, rfl⟩ | ⟨ds, b, rfl⟩ <;> rfl
      rw [hq, if_neg hne, hz]
      refine ⟨fun ds hd => ?_, by simp⟩
      simp only [List.mem_append] at hd
      rcases hd with hd | hd | hd
      · exact h2 ds hd
      · rcases a6 _ hd with ⟨ds', h⟩ | ⟨ds', b, h⟩
        · cases h; exact hne rfl
        · cases h
      · exact not_trained_request _ _ _ _ _ hd
  | ended c r' y b l a1 a2 a3 a4 a5 a6 =>
    subst a1
    have hb : b = false := by
      cases b
      · rfl
      · exact absurd a2 hx
    rw [a6 hb]
    refine ⟨fun ds hd => ?_, by simp [isRequest, answers, answer]⟩
    simp only [List.mem_append, List.mem_singleton] at hd
    exact hd.elim (h2 ds) nofun

theorem Untrained.exec {k : List ℕ} {r : ℕ} {h₀ : List Ev} {more : List KOp} (ho : OneShot e.env.ops) :
    ∀ {ops : List KOp} {s s' : State M} {xs : List Ret}, Untrained k r h₀ ops s → KInv s → NoPending s.world → Hushed s.world →
    s.world.cfg.single = false → kexec e more s = .ok (xs, s') → (∀ x ∈ xs, x ≠ .ended true) →
    Untrained k r h₀ (ops ++ more) s' := by
  induction more with
  | nil => intro ops s s' xs hu _ _ _ _ h _; simp only [kexec] at h; cases h; simpa using hu
  | cons o more ih =>
    intro ops s s' xs hu hi hn hq hs h hx
    obtain ⟨x, s₁, ys, h1, h2, rfl⟩ := kexec_cons h
    obtain ⟨a, b, -, l, c, d⟩ := kstep_adds ho hi hn hq hs h1
    obtain ⟨i1, i2, -⟩ := hi.step h1
    have hu' := hu.step hi i1 i2 c d (hx x (by simp))
    have := ih hu' i1 (hn.step hi h1) a (by rw [b]; exact hs) h2 fun x h => hx x (by simp [h])
    simpa using this

/-- How the calls used the region `r` of problem `k`: only for it, one context at a time. -/
structure Uses (hash : Str → ℕ) (ds : List Decl) (k : List ℕ) (nf r : ℕ) (ops : List KOp) (xs : List Ret)
    (contexts : ℕ → Option (ℕ × CtxPtr)) (h : List Ev) : Prop where
  len : xs.length = ops.length
  conts : ∀ c p, contexts c = some (r, p) → AskedFor ops c k
  back : ∀ c, AskedFor ops c k → contexts c = some (r, .sync r)
  opened : ∀ c, AskedFor ops c k → (observe h).isOpen (.sync r) = true ∧ (observe h).owner (.sync r) = some r ∧
    ((observe h).features (.sync r)).length = nf ∧ ∃ p, (observe h).policy (.sync r) = some p ∧ 0 ≤ p ∧
      p < combinations ds ∧ Answered hash k ops xs ((observe h).features (.sync r)) (combination ds p.toNat)
  rows : ∀ x ∈ (observe h).rows r, x.features.length = nf ∧ 0 ≤ x.policy ∧ x.policy < combinations ds ∧
    Answered hash k ops xs x.features (combination ds x.policy.toNat)
  proper : (observe h).proper r = true
  ended : EndedFor ops k → (observe h).rows r ≠ []

theorem _root_.Apollo.Spec.Answered.snoc {hash : Str → ℕ} {k : List ℕ} {ops : List KOp} {xs : List Ret} {f : Features} {vs : List Value}
    (h : Answered hash k ops xs f vs) (o : KOp) (x : Ret) : Answered hash k (ops ++ [o]) (xs ++ [x]) f vs := by
  obtain ⟨i, c, ctx, t, r, h1, h2, h3⟩ := h
  obtain ⟨l1, -⟩ := List.getElem?_eq_some_iff.1 h1
  obtain ⟨l2, -⟩ := List.getElem?_eq_some_iff.1 h2
  exact ⟨i, c, ctx, t, r, by rw [List.getElem?_append_left l1]; exact h1,
    by rw [List.getElem?_append_left l2]; exact h2, h3⟩

/-- Calls about other problems. -/
theorem Uses.foreign {hash : Str → ℕ} {ds : List Decl} {k : List ℕ} {nf r : ℕ} {ops : List KOp} {xs : List Ret}
    {ct ct' : ℕ → Option (ℕ × CtxPtr)} {h l : List Ev} (hu : Uses hash ds k nf r ops xs ct h) (o : KOp) (x : Ret)
    (hl : ∀ ev ∈ l, Foreign r ev) (hc : ∀ c p, ct' c = some (r, p) → ct c = some (r, p) ∧ o ≠ .endContext c ∧ ¬ Asks o c)
    (ha : ∀ c, AskedFor (ops ++ [o]) c k → AskedFor ops c k ∧ ct' c = ct c) (he : ∀ c, o = .endContext c → ¬ AskedFor ops c k) :
    Uses hash ds k nf r (ops ++ [o]) (xs ++ [x]) ct' (h ++ l) := by
  have hv := foreign_view (r := r) h hl
  refine ⟨by simp [hu.len], fun c p hcp => ?_, fun c hcp => ?_, fun c hcp => ?_, ?_, ?_, ?_⟩
  · obtain ⟨a, b, d⟩ := hc c p hcp
    exact (hu.conts c p a).snoc b d
  · rw [(ha c hcp).2]; exact hu.back c (ha c hcp).1
  · obtain ⟨a, b, d, p, q1, q2, q3, q4⟩ := hu.opened c (ha c hcp).1
    rw [hv.isOpen, hv.owner, hv.features, hv.policy]
    exact ⟨a, b, d, p, q1, q2, q3, q4.snoc o x⟩
  · rw [hv.rows]
    intro y hy
    obtain ⟨a, b, c, d⟩ := hu.rows y hy
    exact ⟨a, b, c, d.snoc o x⟩
  · rw [hv.proper]; exact hu.proper
  · rw [hv.rows]
    intro hen
    rcases endedFor_snoc hen with h' | ⟨c, h1, h2⟩
    · exact hu.ended h'
    · exact absurd h2 (he c h1)

/-- A request for the problem. -/
theorem Uses.asked {hash : Str → ℕ} {ds : List Decl} {k : List ℕ} {nf r : ℕ} {ops : List KOp} {xs : List Ret}
    {ct : ℕ → Option (ℕ × CtxPtr)} {h : List Ev} (hu : Uses hash ds k nf r ops xs ct h) {c : ℕ} {ctx : List (ℕ × Value)}
    {t : List ℕ} {p : ℤ} (ht : t ≠ []) (hk : ctx.map Prod.fst ++ t = k) (hnf : ctx.length = nf) (hp : 0 ≤ p)
    (hp' : p < combinations ds)
    (hone : ∀ c', AskedFor (ops ++ [KOp.request c ctx t]) c' k → c' = c) :
    Uses hash ds k nf r (ops ++ [.request c ctx t]) (xs ++ [.values r (combination ds p.toNat)])
      (Function.update ct c (some (r, .sync r))) (h ++ requestEvents r (ctx.map fun v => toFloat hash v.2) p) := by
  obtain ⟨v1, v2, v3, v4, v5, v6⟩ := request_view h r (ctx.map fun v => toFloat hash v.2) p
  have hself : AskedFor (ops ++ [KOp.request c ctx t]) c k := ⟨ops, ctx, t, [], rfl, ht, hk.symm, by simp⟩
  refine ⟨by simp [hu.len], fun c' p' hcp => ?_, fun c' hcp => ?_, fun c' hcp => ?_, ?_, ?_, ?_⟩
  · by_cases heq : c' = c
    · rw [heq]; exact hself
    · rw [Function.update_of_ne heq] at hcp
      refine (hu.conts c' p' hcp).snoc (by simp) ?_
      rintro ⟨_, _, h1, h2⟩
      cases h1
      exact heq rfl
  · rw [hone c' hcp, Function.update_self]
  · refine ⟨v1, v2, by rw [v3]; simpa using hnf, p, v4, hp, hp', ?_⟩
    rw [v3]
    exact ⟨ops.length, c, ctx, t, r, by simp, by rw [← hu.len]; simp, hk, rfl⟩
  · rw [v5]
    intro y hy
    obtain ⟨a, b, c, d⟩ := hu.rows y hy
    exact ⟨a, b, c, d.snoc _ _⟩
  · rw [v6]; exact hu.proper
  · rw [v5]
    intro hen
    rcases endedFor_snoc hen with h' | ⟨c, h1, h2⟩
    · exact hu.ended h'
    · cases h1

/-- The end of a context of the problem. -/
theorem Uses.measured {hash : Str → ℕ} {ds : List Decl} {k : List ℕ} {nf r : ℕ} {ops : List KOp} {xs : List Ret}
    {ct : ℕ → Option (ℕ × CtxPtr)} {h l : List Ev} (hu : Uses hash ds k nf r ops xs ct h) {c : ℕ} (x : Ret) {y : ℚ}
    (hc : ct c = some (r, .sync r)) (hl : ∀ ev ∈ l, ∃ r ds, ev = .trained r ds)
    (hone : ∀ c', AskedFor ops c' k → c' = c) :
    Uses hash ds k nf r (ops ++ [.endContext c]) (xs ++ [x]) (Function.update ct c none)
      (h ++ .finished r (.sync r) y :: l) := by
  obtain ⟨a, b, d, p, q1, q2, q3, q4⟩ := hu.opened c (hu.conts c _ hc)
  have hno : ∀ c', ¬ AskedFor (ops ++ [KOp.endContext c]) c' k := by
    intro c' h'
    rcases askedFor_snoc h' with ⟨_, _, h1, -⟩ | ⟨h1, h2, -⟩
    · cases h1
    · rw [hone c' h1] at h2
      exact h2 rfl
  have hv : observe (h ++ .finished r (.sync r) y :: l) = (observe h).next (.finished r (.sync r) y) := by
    rw [show h ++ Ev.finished r (.sync r) y :: l = (h ++ [.finished r (.sync r) y]) ++ l by simp,
      observe_trained _ _ hl, observe_snoc]
  refine ⟨by simp [hu.len], fun c' p' hcp => ?_, fun c' h' => absurd h' (hno c'), fun c' h' => absurd h' (hno c'), ?_, ?_, ?_⟩
  · by_cases heq : c' = c
    · subst heq
      rw [Function.update_self] at hcp
      cases hcp
    · rw [Function.update_of_ne heq] at hcp
      exact absurd (hone c' (hu.conts c' p' hcp)) heq
  · rw [hv]
    simp only [Observer.next, Function.update_self, List.mem_append, List.mem_singleton]
    rintro z (hz | rfl)
    · obtain ⟨a, b, c, d⟩ := hu.rows z hz
      exact ⟨a, b, c, d.snoc _ _⟩
    · simp only [q1, Option.getD_some]
      exact ⟨d, q2, q3, q4.snoc _ _⟩
  · rw [hv]
    simp [Observer.next, hu.proper, a, b, q1]
  · rw [hv]
    simp [Observer.next]


theorem _root_.Apollo.Spec.OneAtATime.prefix {k : List ℕ} {a b : List KOp} (h : OneAtATime k (a ++ b)) : OneAtATime k a := by
  intro a' b' c c' h1 h2 h3
  exact h a' (b' ++ b) c c' (by rw [h1, List.append_assoc]) h2 h3

theorem Uses.step {e : KEnv PolicyModel} {ds : List Decl} {inputs tuning : List ℕ} {r : ℕ} {ops : List KOp} {xs : List Ret}
    {s s' : State PolicyModel} {o : KOp} {x : Ret} {h l : List Ev}
    (hu : Uses e.hash ds (inputs ++ tuning) inputs.length r ops xs s.contexts h) (hi : KInv s) (hi' : KInv s')
    (hmem : (inputs ++ tuning, r) ∈ s'.regions) (hg : GoodVars s' tuning ds)
    (hone : OneAtATime (inputs ++ tuning) (ops ++ [o]))
    (hsplit : ∀ c ctx t, o = .request c ctx t → ctx.map Prod.fst ++ t = inputs ++ tuning → ctx.length = inputs.length)
    (hran : ∀ c p, Ev.chose r c p ∈ l → 0 ≤ p ∧ p < combinations ds) (ha : Adds e s o x s' l)
    (hnew : ∀ c ctx t, o = .request c ctx t → ctx.map Prod.fst ++ t = inputs ++ tuning → r < s.world.nextRegion) :
    Uses e.hash ds (inputs ++ tuning) inputs.length r (ops ++ [o]) (xs ++ [x]) s'.contexts (h ++ l) := by
  cases ha with
  | nothing a1 a2 a3 a4 =>
    rw [a4]
    refine hu.foreign o x (by simp) (fun c p hc => ⟨hc, ?_, ?_⟩) (fun c hc => ?_) ?_
    · rintro rfl
      rw [a2 c rfl] at hc
      cases hc
    · rintro ⟨ctx, t, h1, h2⟩
      exact h2 (a1 c ctx t h1)
    · rcases askedFor_snoc hc with ⟨ctx, t, h1, h2, -⟩ | ⟨h1, -⟩
      · exact absurd (a1 c ctx t h1) h2
      · exact ⟨h1, rfl⟩
    · intro c hc hask
      have := hu.back c hask
      rw [a2 c hc] at this
      cases this
  | request c ctx t r' p vs l a1 a2 a3 a4 a5 a6 a7 a8 =>
    subst a1
    by_cases hk : ctx.map Prod.fst ++ t = inputs ++ tuning
    · have : r' = r := region_unique hi' (hk ▸ a4) hmem
      subst this
      have hl0 := a7 (hnew c ctx t rfl hk)
      subst hl0
      have hnf := hsplit c ctx t rfl hk
      obtain ⟨-, rfl⟩ := List.append_inj hk (by simpa using hnf)
      obtain ⟨p0, p1⟩ := hran (.sync r') p (by simp [requestEvents])
      obtain ⟨q, rfl⟩ := Int.eq_ofNat_of_zero_le p0
      have hvs : vs = combination ds q := by
        have := Props.decode_combination hg q
        rw [this] at a8
        cases a8
        rfl
      subst a3 hvs
      rw [a5]
      exact hu.asked a2 hk hnf p0 p1 fun c' hc' => hone _ [] _ _ (by simp) hc' ⟨ops, ctx, t, [], rfl, a2, hk.symm, by simp⟩
    · have hne : r' ≠ r := by
        rintro rfl
        exact hk (hi'.inj _ _ _ a4 hmem)
      rw [a5]
      refine hu.foreign _ x ?_ (fun c' p' hc => ?_) (fun c' hc => ?_) (by simp)
      · intro ev hev
        rcases List.mem_append.1 hev with hev | hev
        · rcases a6 ev hev with ⟨ds, rfl⟩ | ⟨ds, b, rfl⟩ <;> trivial
        · exact requestEvents_foreign hne _ _ ev hev
      · by_cases heq : c' = c
        · subst heq
          rw [Function.update_self] at hc
          cases hc
          exact absurd rfl hne
        · rw [Function.update_of_ne heq] at hc
          refine ⟨hc, by simp, ?_⟩
          rintro ⟨_, _, h1, -⟩
          cases h1
          exact heq rfl
      · rcases askedFor_snoc hc with ⟨ctx', t', h1, h2, h3⟩ | ⟨h1, -, h3⟩
        · cases h1
          exact absurd h3.symm hk
        · refine ⟨h1, Function.update_of_ne ?_ _ _⟩
          rintro rfl
          exact h3 ⟨ctx, t, rfl, a2⟩
  | ended c r' y b l a1 a2 a3 a4 a5 a6 =>
    subst a1
    rw [a4]
    by_cases heq : r' = r
    · subst heq
      exact hu.measured x a3 a5 fun c' hc' => hone _ _ _ _ rfl hc' (hu.conts c _ a3)
    · refine hu.foreign _ x ?_ (fun c' p' hc => ?_) (fun c' hc => ?_) ?_
      · intro ev hev
        rcases List.mem_cons.1 hev with rfl | hev
        · exact ⟨heq, by simpa using heq⟩
        · obtain ⟨r', ds, rfl⟩ := a5 ev hev
          trivial
      · by_cases hcc : c' = c
        · subst hcc
          rw [Function.update_self] at hc
          cases hc
        · rw [Function.update_of_ne hcc] at hc
          exact ⟨hc, by simpa using Ne.symm hcc, by simp [Asks]⟩
      · rcases askedFor_snoc hc with ⟨ctx', t', h1, h2, h3⟩ | ⟨h1, h2, -⟩
        · cases h1
        · exact ⟨h1, Function.update_of_ne (fun h => h2 (by rw [h])) _ _⟩
      · rintro c' hc' hask
        cases hc'
        have := hu.back c hask
        rw [a3] at this
        cases this
        exact heq rfl

theorem Uses.exec {e : KEnv PolicyModel} (ho : OneShot e.env.ops) {ds : List Decl} {inputs tuning : List ℕ} {r : ℕ}
    {more : List KOp} : ∀ {ops : List KOp} {xs ys : List Ret} {s s' : State PolicyModel},
    Uses e.hash ds (inputs ++ tuning) inputs.length r ops xs s.contexts s.world.log → KInv s → NoPending s.world →
    Hushed s.world → s.world.cfg.single = false → (inputs ++ tuning, r) ∈ s.regions → GoodVars s tuning ds →
    OneAtATime (inputs ++ tuning) (ops ++ more) →
    (∀ c ctx t, .request c ctx t ∈ more → ctx.map Prod.fst ++ t = inputs ++ tuning → ctx.length = inputs.length) →
    (∀ c p, Ev.chose r c p ∈ s'.world.log → 0 ≤ p ∧ p < combinations ds) → kexec e more s = .ok (ys, s') →
    Uses e.hash ds (inputs ++ tuning) inputs.length r (ops ++ more) (xs ++ ys) s'.contexts s'.world.log := by
  induction more with
  | nil => intro ops xs ys s s' hu _ _ _ _ _ _ _ _ _ h; simp only [kexec] at h; cases h; simpa using hu
  | cons o more ih =>
    intro ops xs ys s s' hu hi hn hq hs hm hg hone hsplit hran h
    obtain ⟨x, s₁, zs, h1, h2, rfl⟩ := kexec_cons h
    obtain ⟨a, b, -, l, c, d⟩ := kstep_adds ho hi hn hq hs h1
    obtain ⟨i1, i2, i3⟩ := hi.step h1
    have hlog : ∃ l', s'.world.log = s₁.world.log ++ l' := kexec_log ho i1 (hn.step hi h1) a (by rw [b]; exact hs) h2
    have hg' : GoodVars s₁ tuning ds := hg.imp fun id d hd => ⟨i3 id d hd.1, hd.2⟩
    have hone' : OneAtATime (inputs ++ tuning) ((ops ++ [o]) ++ more) := by simpa using hone
    have hu' := hu.step hi i1 (i2 _ hm) hg' hone'.prefix (fun c ctx t ho => hsplit c ctx t (by simp [ho]))
      (fun c' p hp => by
        obtain ⟨l', hl'⟩ := hlog
        exact hran c' p (by rw [hl', c]; simp [hp])) d (fun _ _ _ _ _ => hi.fresh _ _ hm)
    rw [← c] at hu'
    have := ih hu' i1 (hn.step hi h1) a (by rw [b]; exact hs) (i2 _ hm) hg' hone'
      (fun c ctx t ho => hsplit c ctx t (by simp [ho])) hran h2
    simpa using this

theorem proper_fresh_reg {h : List Ev} {r : ℕ} (hc : ∀ e ∈ h, evRegion e ≠ some r) : (observe h).proper r = true := by
  induction h using List.reverseRecOn with
  | nil => simp [observe]
  | append_singleton h e ih =>
    have ih := ih fun e he => hc e (by simp [he])
    have hn := hc e (by simp)
    rw [observe_snoc]
    cases e <;> simp only [Observer.next] <;> try exact ih
    case finished r' c m =>
      rw [Function.update_of_ne]
      · exact ih
      · rintro rfl
        exact hn rfl

end Apollo.Kokkos

namespace Apollo

open Spec

/-- A region whose model comes from its settings alone starts with it, and without measurements. -/
theorem createRegion_made {env : Env PolicyModel} {gen : ℕ → ℕ → ℕ} {tenv : ℕ → TrainEnv}
    (ho : env.ops = policyOps gen tenv) {w w' : World PolicyModel} (hp : w.cfg.persistent = false) {nf n mt : ℤ}
    {name info : Str} {m : PolicyModel} {r : ℕ}
    (hm : Made (gen w.tick) (if info = [] then w.cfg.policyModel else info) nf n m)
    (h : createRegion env w nf name n mt info [] = .ok (r, w')) :
    w'.models r = some m ∧ ∃ R, w'.regions r = some R ∧ R.dataset = [] := by
  obtain ⟨mn, ps, h1, h2, h3, h4, h5, h6, h7⟩ := hm.ex
  have hc : env.ops.create w.tick mn nf n ps = .ok m := by rw [ho]; simp only [policyOps, h3]
  have hr : ∀ (nm : Str) (s : Str), resolveStaticRegion nm mn ps s = .ok (mn, ps, s) := by
    intro nm s
    unfold resolveStaticRegion
    rw [if_neg h2]
  let R : Region := ⟨truncName name, nf, n, mt, if info = [] then w.cfg.policyModel else info, mn, ps, [],
    0, none, [], []⟩
  let w1 : World PolicyModel := ((((({ w with nextRegion := w.nextRegion + 1 } : World PolicyModel).setRegion w.nextRegion
    R).setModel w.nextRegion m).setCtx (.sync w.nextRegion) {}).advance)
  have hcons : constructRegion env w nf name n mt info [] = .ok (w.nextRegion, w1) := by
    unfold constructRegion
    simp only [h1, Res.bind_ok, hr, hc, loadYaml, if_true, loadModel, h4]
    rfl
  have hR : w1.region w.nextRegion = .ok R :=
    World.region_ok.2 (by simp [w1, World.setRegion, World.setModel, World.setCtx, World.advance])
  have hM : w1.models w.nextRegion = some m := by
    simp [w1, World.setRegion, World.setModel, World.setCtx, World.advance]
  have hcfg : w1.cfg.persistent = false := hp
  have h6' : R.modelName ≠ "Optimal".toList := h6
  have h7' : R.modelName ≠ "DatasetMap".toList := h7
  have h5' : R.params.find "load-dataset".toList = none := h5
  simp only [createRegion, hcons, Res.bind_ok, loadPersistent, hcfg, Bool.not_false, if_true,
    loadDatasetParam, hR, h5', loadOptimalFile, h6', if_false, loadDatasetMap, h7'] at h
  obtain ⟨w₅, h8, h⟩ := (Res.bind_eq_ok _ _ _).1 h
  obtain ⟨R₅, h9, h⟩ := (Res.bind_eq_ok _ _ _).1 h
  obtain ⟨m₅, h10, h⟩ := (Res.bind_eq_ok _ _ _).1 h
  cases h
  have h11 := startTrace_ok (World.region_ok.1 hR) h8
  have h9 := World.region_ok.1 h9
  have hk : w₅.models w.nextRegion = some m ∧ R₅.dataset = [] := by
    rw [h11] at h9 ⊢
    split at h9
    · simp only [World.setRegion, Function.update_self] at h9
      cases h9
      rw [if_pos ‹_›]
      exact ⟨hM, rfl⟩
    · rw [World.region_ok.1 hR] at h9
      cases h9
      rw [if_neg ‹_›]
      exact ⟨hM, rfl⟩
  exact ⟨hk.1, R₅, h9, hk.2⟩

end Apollo
