import Verif.Spec.ProcessTrace
import Verif.Proofs.RegionTrace
import Verif.Proofs.KokkosRun

/-!
# The trace of the process
-/

namespace Apollo

open Spec

variable {M : Type}

/-! ## Finished executions of all regions -/

/-- What an event adds. -/
def finishedBy (o : Observer) : Ev → List (ℕ × Row)
  | .finished r c m => [(r, ⟨o.index c, o.features c, (o.policy c).getD 0, m⟩)]
  | _ => []

theorem finishedAll_snoc (h : List Ev) (e : Ev) : finishedAll (h ++ [e]) = finishedAll h ++ finishedBy (observe h) e := by
  unfold finishedAll
  rw [List.length_append, List.length_singleton, List.range_succ, List.filterMap_append]
  congr 1
  · apply List.filterMap_congr
    intro i hi
    rw [List.mem_range] at hi
    rw [List.getElem?_append_left hi, List.take_append_of_le_length hi.le]
  · cases e <;> simp [finishedBy]

theorem finishedAll_trained (h l : List Ev) (hl : ∀ e ∈ l, ∃ r ds, e = Ev.trained r ds) :
    finishedAll (h ++ l) = finishedAll h := by
  induction l using List.reverseRecOn with
  | nil => simp
  | append_singleton l e ih =>
    obtain ⟨r, ds, rfl⟩ := hl e (by simp)
    rw [← List.append_assoc, finishedAll_snoc, ih fun e he => hl e (by simp [he])]
    simp [finishedBy]

/-- The executions of one region. -/
theorem finishedAll_rows (h : List Ev) (r : ℕ) :
    ((finishedAll h).filter fun x => x.1 = r).map Prod.snd = (observe h).rows r := by
  induction h using List.reverseRecOn with
  | nil => rfl
  | append_singleton h e ih =>
    rw [finishedAll_snoc, observe_snoc, List.filter_append, List.map_append, ih]
    cases e with
    | finished r' c m =>
      simp only [finishedBy, Observer.next]
      by_cases hr : r' = r
      · subst hr
        simp
      · rw [Function.update_of_ne (Ne.symm hr)]
        simp [hr]
    | _ => simp [finishedBy, Observer.next]

/-! ## The text -/

/-- One line. -/
def processLine (names models : ℕ → Str) (t : ℤ) (x : ℕ × Row) : Str :=
  fmtInt t ++ " ".toList ++ names x.1 ++ " ".toList ++ fmtInt x.2.index ++ " ".toList ++ models x.1 ++
    " ".toList ++ " ".toList ++ fmtInt x.2.policy ++ "\n".toList

/-- The trace of the process and the events. -/
structure ProcessInv (env : Env M) (names models : ℕ → Str) (w : World M) : Prop where
  log : LogInv w
  agree : ∀ r R, w.regions r = some R → R.name = names r ∧ R.modelName = models r
  text : w.cfg.traceCsv = true → (∀ r, (observe w.log).proper r = true) →
    ∃ ks : List ℕ, ks.length = (finishedAll w.log).length ∧ ks.Pairwise (· ≤ ·) ∧ (∀ k ∈ ks, k ≤ w.tick) ∧
      w.gtrace = "# timestamp (us), region, idx, model, policy\n".toList ++
        (List.zipWith (processLine names models) (ks.map env.wall) (finishedAll w.log)).flatten

theorem ProcessInv.frame {env : Env M} {names models : ℕ → Str} {w w' : World M} (h : ProcessInv env names models w)
    (hl : LogInv w')
    (hr : ∀ r R, w'.regions r = some R → ∃ R', w.regions r = some R' ∧ R.name = R'.name ∧ R.modelName = R'.modelName)
    (hc : w'.cfg.traceCsv = w.cfg.traceCsv) (hg : w'.gtrace = w.gtrace) (ht : w.tick ≤ w'.tick)
    (hp : (observe w'.log).proper = (observe w.log).proper) (hf : finishedAll w'.log = finishedAll w.log) :
    ProcessInv env names models w' := by
  refine ⟨hl, fun r R hR => ?_, fun hcsv hpr => ?_⟩
  · obtain ⟨R', hR', e1, e2⟩ := hr r R hR
    rw [e1, e2]
    exact h.agree r R' hR'
  · obtain ⟨ks, h1, h2, h3, h4⟩ := h.text (by rw [← hc]; exact hcsv) (by rw [← hp]; exact hpr)
    exact ⟨ks, by rw [hf]; exact h1, h2, fun k hk => (h3 k hk).trans ht, by rw [hg, hf]; exact h4⟩

/-- One event that is no end of an execution. -/
theorem ProcessInv.emit {env : Env M} {names models : ℕ → Str} {w w' : World M} (h : ProcessInv env names models w)
    (hl : LogInv w')
    (hr : ∀ r R, w'.regions r = some R → ∃ R', w.regions r = some R' ∧ R.name = R'.name ∧ R.modelName = R'.modelName)
    (hc : w'.cfg.traceCsv = w.cfg.traceCsv) (hg : w'.gtrace = w.gtrace) (ht : w.tick ≤ w'.tick) {e : Ev}
    (hlog : w'.log = w.log ++ [e]) (he : ∀ o : Observer, (o.next e).proper = o.proper ∧ finishedBy o e = []) :
    ProcessInv env names models w' := by
  refine h.frame hl hr hc hg ht ?_ ?_
  · rw [hlog, observe_snoc]
    exact (he _).1
  · rw [hlog, finishedAll_snoc, (he _).2, List.append_nil]

theorem same_update {f : ℕ → Option Region} {r : ℕ} {R R₁ : Region} (hR : f r = some R) (h1 : R₁.name = R.name)
    (h2 : R₁.modelName = R.modelName) : ∀ r' R', Function.update f r (some R₁) r' = some R' →
    ∃ R'', f r' = some R'' ∧ R'.name = R''.name ∧ R'.modelName = R''.modelName := by
  intro r' R' h
  by_cases he : r' = r
  · subst he
    rw [Function.update_self] at h
    cases h
    exact ⟨R, hR, h1, h2⟩
  · rw [Function.update_of_ne he] at h
    exact ⟨R', h, rfl, rfl⟩

/-- Regions whose execution is not proper do not become proper. -/
theorem proper_finished {o : Observer} {r : ℕ} {c : CtxPtr} {x : ℚ}
    (h : ∀ r', (o.next (.finished r c x)).proper r' = true) :
    (∀ r', o.proper r' = true) ∧ o.isOpen c = true ∧ (o.policy c).isSome := by
  have h1 := h r
  simp only [Observer.next, Function.update_self, Bool.and_eq_true] at h1
  refine ⟨fun r' => ?_, h1.1.1.2, h1.1.2⟩
  by_cases he : r' = r
  · subst he
    exact h1.1.1.1
  · have := h r'
    simpa only [Observer.next, Function.update_of_ne he] using this

theorem ProcessInv.finish {env : Env M} {names models : ℕ → Str} {w w' : World M} (h : ProcessInv env names models w)
    {r : ℕ} {c : CtxPtr} {x : ℚ} (hf : collectContext env (w.emit (.finished r c x)) r c x = .ok w') :
    ProcessInv env names models w' := by
  obtain ⟨R, m, C, l, h1⟩ := collectContext_ok hf
  have hR : w.regions r = some R := h1.region
  have hC : w.ctxs c = some C := h1.ctx
  have hob : observe w'.log = (observe w.log).next (.finished r c x) := by
    rw [h1.log, observe_trained _ _ h1.events]; exact observe_snoc _ _
  have hfin : finishedAll w'.log = finishedAll w.log ++ finishedBy (observe w.log) (.finished r c x) := by
    rw [h1.log, finishedAll_trained _ _ h1.events]; exact finishedAll_snoc _ _
  have hag := h.agree r R hR
  refine ⟨h.log.finished h1, fun r' R' hR' => ?_, fun hcsv hpr => ?_⟩
  · rw [h1.regions] at hR'
    obtain ⟨R'', h2, h3, h4⟩ := same_update (R₁ := recRegion env (w.emit (.finished r c x)) R m C x) hR rfl rfl
      r' R' hR'
    rw [h3, h4]
    exact h.agree r' R'' h2
  · rw [h1.cfg] at hcsv
    have hcsv' : w.cfg.traceCsv = true := hcsv
    rw [hob] at hpr
    obtain ⟨hp, hopen, hpol⟩ := proper_finished hpr
    obtain ⟨ks, k1, k2, k3, k4⟩ := h.text hcsv' hp
    obtain ⟨p, hp'⟩ := Option.isSome_iff_exists.1 hpol
    have htick : w.tick ≤ w'.tick := h1.tick
    refine ⟨ks ++ [w.tick], by rw [hfin]; simp [k1, finishedBy], ?_, ?_, ?_⟩
    · rw [List.pairwise_append]
      refine ⟨k2, List.pairwise_singleton _ _, fun a ha b hb => ?_⟩
      rw [List.mem_singleton] at hb
      subst hb
      exact k3 a ha
    · intro k hk
      rcases List.mem_append.1 hk with hk | hk
      · exact (k3 k hk).trans htick
      · rw [List.mem_singleton] at hk
        subst hk
        exact htick
    · rw [h1.gtrace, if_pos hcsv, hfin, List.map_append, List.zipWith_append (by simp [k1])]
      have e : gtraceRow (env.wall (w.emit (.finished r c x)).tick) R C =
          (List.zipWith (processLine names models) ([w.tick].map env.wall)
            (finishedBy (observe w.log) (.finished r c x))).flatten := by
        simp only [finishedBy, List.map_cons, List.map_nil, List.zipWith_cons_cons, List.zipWith_nil_left,
          List.flatten_cons, List.flatten_nil, List.append_nil]
        unfold gtraceRow processLine
        rw [hag.1, hag.2, h.log.cidx c C hC, h.log.pol c C hC hopen p hp', hp']
        rfl
      rw [e, List.flatten_append]
      have e2 : (w.emit (.finished r c x)).gtrace = w.gtrace := rfl
      rw [e2, k4, List.append_assoc]

theorem ProcessInv.stepwise (env : Env M) (F : ℕ → Prop) (names models : ℕ → Str) :
    Stepwise env F (ProcessInv env names models) where
  toKept := by
    refine Stable.kept (Stable.of ?_ ?_ ?_ ?_)
    · intro w l w' ht h
      refine h.frame (h.log.trained ht) (fun r R hR => ⟨R, by rw [← ht.regions]; exact hR, rfl, rfl⟩) (by rw [ht.cfg])
        ht.gtrace ht.tick ?_ ?_
      · rw [ht.log, observe_trained _ _ ht.events]
      · rw [ht.log, finishedAll_trained _ _ ht.events]
    · intro w c h
      exact h.emit ((LogInv.stable env F).waiting _ _ h.log) (fun r R hR => ⟨R, hR, rfl, rfl⟩) rfl rfl le_rfl rfl
        (fun _ => ⟨rfl, rfl⟩)
    · intro w r c m w' h hf
      exact h.finish hf
    · intro w r R cs h hR
      exact h.frame ((LogInv.stable env F).pending _ _ _ _ h.log hR) (same_update hR rfl rfl) rfl rfl le_rfl rfl rfl
  finish := fun w r c m w' h hf => h.finish hf
  began := by
    intro w r c R C w' h hb
    refine h.emit (h.log.began hb) ?_ (by rw [hb.cfg]) hb.gtrace (by rw [hb.tick]; omega) hb.log
      (fun _ => ⟨rfl, rfl⟩)
    rw [hb.regions]
    exact same_update hb.region rfl rfl
  assigned := fun w c C f h hC => h.emit ((LogInv.invariant env F).assigned _ _ _ _ h.log hC)
    (fun r R hR => ⟨R, hR, rfl, rfl⟩) rfl rfl le_rfl rfl (fun _ => ⟨rfl, rfl⟩)
  feature := fun w c C v h hC => h.emit ((LogInv.invariant env F).feature _ _ _ _ h.log hC)
    (fun r R hR => ⟨R, hR, rfl, rfl⟩) rfl rfl le_rfl rfl (fun _ => ⟨rfl, rfl⟩)
  traced := by
    intro w R m f p w' h ht
    obtain ⟨F, rfl⟩ := tracePolicy_same ht
    exact h.frame { h.log with } (fun r R hR => ⟨R, hR, rfl, rfl⟩) rfl rfl le_rfl rfl rfl
  chose := fun w r c R m C p m' h hR hm hC hp => h.emit
    ((LogInv.invariant env F).chose _ _ _ _ _ _ _ _ h.log hR hm hC hp)
    (fun r R hR => ⟨R, hR, rfl, rfl⟩) rfl rfl le_rfl rfl (fun _ => ⟨rfl, rfl⟩)
  stop := fun w c C t h hC => h.frame ((LogInv.invariant env F).stop _ _ _ _ h.log hC)
    (fun r R hR => ⟨R, hR, rfl, rfl⟩) rfl rfl le_rfl rfl rfl
  ended := fun w r c R h hR hC hne => h.emit ((LogInv.invariant env F).ended _ _ _ _ h.log hR hC hne)
    (same_update hR rfl rfl) rfl rfl le_rfl rfl (fun _ => ⟨rfl, rfl⟩)
  period := fun w h => h.frame ((LogInv.invariant env F).period _ h.log) (fun r R hR => ⟨R, hR, rfl, rfl⟩) rfl rfl
    le_rfl rfl rfl
  destroyed := by
    intro w r R h hR _
    have hl := h.log.destroyed (env := env) hR
    obtain ⟨f, hf⟩ := afterDestroy_eq env w r R
    rw [hf] at hl ⊢
    refine h.emit hl ?_ rfl rfl le_rfl rfl (fun _ => ⟨rfl, rfl⟩)
    intro r' R' hR'
    have hR' : Function.update w.regions r none r' = some R' := hR'
    by_cases he : r' = r
    · subst he
      simp at hR'
    · rw [Function.update_of_ne he] at hR'
      exact ⟨R', hR', rfl, rfl⟩

/-- A call, if the names of the regions that exist after it agree. -/
theorem ProcessInv.call {env : Env M} {names models : ℕ → Str} {w w' : World M} (h : ProcessInv env names models w)
    {op : Op} {x : Ret} (hs : step env w op = .ok (x, w'))
    (ha : ∀ r R, w'.regions r = some R → R.name = names r ∧ R.modelName = models r) :
    ProcessInv env names models w' := by
  by_cases hc : ∃ nf name n mt info yaml, op = .create nf name n mt info yaml
  · obtain ⟨nf, name, n, mt, info, yaml, rfl⟩ := hc
    have hl := (LogInv.invariant env fun _ => True).step (fun _ _ _ _ => trivial) h.log hs
    simp only [step] at hs
    obtain ⟨⟨r, w₁⟩, h1, hs⟩ := (Res.bind_eq_ok _ _ _).1 hs
    simp only [Except.ok.injEq, Prod.mk.injEq] at hs
    obtain ⟨-, rfl⟩ := hs
    obtain ⟨R, m, l, hA⟩ := createRegion_ok h1
    refine ⟨hl, ha, fun hcsv hpr => ?_⟩
    have hob : observe w₁.log = (observe w.log).next (.created r R.dataset (env.ops.isTrainable m)) := by
      rw [hA.log, observe_snoc, observe_trained _ _ hA.events]
    have hfin : finishedAll w₁.log = finishedAll w.log := by
      rw [hA.log, finishedAll_snoc, finishedAll_trained _ _ hA.events]
      simp [finishedBy]
    rw [hob] at hpr
    obtain ⟨ks, k1, k2, k3, k4⟩ := h.text (by rw [← hA.cfg]; exact hcsv) hpr
    exact ⟨ks, by rw [hfin]; exact k1, k2, fun k hk => (k3 k hk).trans hA.tick, by rw [hA.gtrace, hfin]; exact k4⟩
  · push Not at hc
    exact (ProcessInv.stepwise env (fun _ => True) names models).step (fun _ _ _ _ => trivial)
      (fun nf name n mt info yaml e => absurd e (hc nf name n mt info yaml)) h hs

theorem processInv_init (env : Env M) (names models : ℕ → Str) (cfg : Cfg) (files : Str → Option Str) :
    ProcessInv env names models (initWorld cfg files : World M) := by
  refine ⟨logInv_init cfg files, ?_, ?_⟩
  · intro r R hR
    have hR : none = some R := hR
    cases hR
  · intro hcsv _
    have hcsv : cfg.traceCsv = true := hcsv
    refine ⟨[], rfl, List.Pairwise.nil, by simp, ?_⟩
    simp [initWorld, hcsv, finishedAll]

/-- All regions that exist at some moment between two calls have these names. -/
def NamedBy (env : Env M) (w₀ : World M) (ops : List Op) (names models : ℕ → Str) : Prop :=
  ∀ a, a <+: ops → ∀ w, exec env a w₀ = .ok w → ∀ r R, w.regions r = some R →
    R.name = names r ∧ R.modelName = models r

theorem ProcessInv.exec {env : Env M} {names models : ℕ → Str} : ∀ {ops : List Op} {w w' : World M},
    ProcessInv env names models w → NamedBy env w ops names models → exec env ops w = .ok w' →
    ProcessInv env names models w' := by
  intro ops
  induction ops with
  | nil =>
    intro w w' h _ he
    cases he
    exact h
  | cons op ops ih =>
    intro w w' h hn he
    obtain ⟨⟨x, w₁⟩, h1, h2⟩ := (Res.bind_eq_ok _ _ _).1 he
    have hex : ∀ a, Apollo.exec env (op :: a) w = Apollo.exec env a w₁ := by
      intro a
      rw [Apollo.exec, h1]
      rfl
    refine ih (h.call h1 (hn [op] ⟨ops, rfl⟩ w₁ (by rw [hex]; rfl))) ?_ h2
    intro a ha w₂ hw₂
    exact hn (op :: a) (List.cons_prefix_cons.2 ⟨rfl, ha⟩) w₂ (by rw [hex]; exact hw₂)

/-! ## Names of regions do not change -/

/-- The region has been created, and has these names as long as it exists. -/
def Keeps (r : ℕ) (x y : Str) (w : World M) : Prop :=
  r < w.nextRegion ∧ ∀ R, w.regions r = some R → R.name = x ∧ R.modelName = y

theorem Keeps.frame {r : ℕ} {x y : Str} {w w' : World M} (h : Keeps r x y w) (hn : w'.nextRegion = w.nextRegion)
    (hr : ∀ r R, w'.regions r = some R → ∃ R', w.regions r = some R' ∧ R.name = R'.name ∧ R.modelName = R'.modelName) :
    Keeps r x y w' := by
  refine ⟨by rw [hn]; exact h.1, fun R hR => ?_⟩
  obtain ⟨R', h1, h2, h3⟩ := hr r R hR
  rw [h2, h3]
  exact h.2 R' h1

theorem Keeps.finish {env : Env M} {r' : ℕ} {x y : Str} {w w' : World M} (h : Keeps r' x y w) {r : ℕ} {c : CtxPtr}
    {m : ℚ} (hf : collectContext env (w.emit (.finished r c m)) r c m = .ok w') : Keeps r' x y w' := by
  obtain ⟨R, _, C, l, h1⟩ := collectContext_ok hf
  refine h.frame h1.nextRegion ?_
  rw [h1.regions]
  exact same_update h1.region rfl rfl

theorem Keeps.invariant (env : Env M) (F : ℕ → Prop) (r : ℕ) (x y : Str) :
    Invariant env F (Keeps r x y : World M → Prop) where
  toKept := by
    refine Stable.kept (Stable.of ?_ ?_ ?_ ?_)
    · intro w l w' ht h
      exact h.frame ht.nextRegion fun r R hR => ⟨R, by rw [← ht.regions]; exact hR, rfl, rfl⟩
    · intro w c h
      exact h.frame rfl fun r R hR => ⟨R, hR, rfl, rfl⟩
    · intro w r c m w' h hf
      exact h.finish hf
    · intro w r R cs h hR
      exact h.frame rfl (same_update hR rfl rfl)
  finish := fun w r c m w' h hf => h.finish hf
  began := by
    intro w r c R C w' h hb
    refine h.frame hb.nextRegion ?_
    rw [hb.regions]
    exact same_update hb.region rfl rfl
  assigned := fun w c C f h _ => h.frame rfl fun r R hR => ⟨R, hR, rfl, rfl⟩
  feature := fun w c C v h _ => h.frame rfl fun r R hR => ⟨R, hR, rfl, rfl⟩
  chose := fun w r c R m C p m' h _ _ _ _ => h.frame rfl fun r R hR => ⟨R, hR, rfl, rfl⟩
  stop := fun w c C t h _ => h.frame rfl fun r R hR => ⟨R, hR, rfl, rfl⟩
  ended := fun w r c R h hR _ _ => h.frame rfl (same_update hR rfl rfl)
  period := fun w h => h.frame rfl fun r R hR => ⟨R, hR, rfl, rfl⟩
  destroyed := by
    intro w r R h hR _
    obtain ⟨f, hf⟩ := afterDestroy_eq env w r R
    rw [hf]
    refine h.frame rfl fun r' R' hR' => ?_
    have hR' : Function.update w.regions r none r' = some R' := hR'
    by_cases he : r' = r
    · subst he
      simp at hR'
    · rw [Function.update_of_ne he] at hR'
      exact ⟨R', hR', rfl, rfl⟩
  created := by
    intro w nf name n mt info yaml r' w' h hc
    obtain ⟨R, m, l, hA⟩ := createRegion_ok hc
    have h1 := h.1
    have hid := hA.id
    refine ⟨by rw [hA.nextRegion]; omega, fun R' hR' => ?_⟩
    rw [hA.regions, Function.update_of_ne (by omega)] at hR'
    exact h.2 R' hR'

/-- There are such names for every program. -/
theorem namedBy_exists (env : Env M) (cfg : Cfg) (files : Str → Option Str) (ops : List Op) :
    ∃ names models, NamedBy env (initWorld cfg files) ops names models := by
  classical
  let E : ℕ → Prop := fun r => ∃ a, a <+: ops ∧ ∃ w, Apollo.exec env a (initWorld cfg files) = .ok w ∧
    ∃ R, w.regions r = some R
  have key : ∀ r, ∃ xy : Str × Str, ∀ a, a <+: ops → ∀ w, Apollo.exec env a (initWorld cfg files) = .ok w →
      ∀ R, w.regions r = some R → R.name = xy.1 ∧ R.modelName = xy.2 := by
    intro r
    by_cases hE : E r
    · obtain ⟨a, ha, w, hw, R, hR⟩ := hE
      refine ⟨(R.name, R.modelName), fun b hb w' hw' R' hR' => ?_⟩
      have lem : ∀ {a b : List Op} {w w' : World M} {R R' : Region}, a <+: b →
          Apollo.exec env a (initWorld cfg files) = .ok w → Apollo.exec env b (initWorld cfg files) = .ok w' →
          w.regions r = some R → w'.regions r = some R' → R'.name = R.name ∧ R'.modelName = R.modelName := by
        intro a b w w' R R' hab hw hw' hR hR'
        obtain ⟨t, rfl⟩ := hab
        have hl := (LogInv.invariant env fun _ => True).exec (fun _ _ _ _ => trivial) (logInv_init cfg files) hw
        have hlt : r < w.nextRegion := by
          by_contra hge
          rw [hl.regFresh r (by omega)] at hR
          cases hR
        have hk : Keeps r R.name R.modelName w := ⟨hlt, fun R₁ h₁ => by rw [hR] at h₁; cases h₁; exact ⟨rfl, rfl⟩⟩
        rw [exec_append, hw] at hw'
        exact ((Keeps.invariant env (fun _ => True) r _ _).exec (fun _ _ _ _ => trivial) hk hw').2 R' hR'
      rcases List.prefix_or_prefix_of_prefix ha hb with hab | hba
      · exact lem hab hw hw' hR hR'
      · obtain ⟨h1, h2⟩ := lem hba hw' hw hR' hR
        exact ⟨h1.symm, h2.symm⟩
    · exact ⟨([], []), fun a ha w hw R hR => absurd ⟨a, ha, w, hw, R, hR⟩ hE⟩
  choose f hf using key
  exact ⟨fun r => (f r).1, fun r => (f r).2, fun a ha w hw r R hR => hf r a ha w hw R hR⟩

/-! ## Reading -/

/-- The words of the first line. -/
def processHead : List Str :=
  ["#".toList, "timestamp".toList, "(us),".toList, "region,".toList, "idx,".toList, "model,".toList, "policy".toList]

/-- The columns of a line: one of them is empty. -/
def processCols (names models : ℕ → Str) (t : ℤ) (x : ℕ × Row) : List Str :=
  [fmtInt t, names x.1, fmtInt x.2.index, models x.1, [], fmtInt x.2.policy]

theorem processLine_eq (names models : ℕ → Str) (t : ℤ) (x : ℕ × Row) :
    processLine names models t x = lineOf (processCols names models t x) := by
  simp [processLine, lineOf, processCols, List.intercalate]

theorem processText_eq (names models : ℕ → Str) (ts : List ℤ) (rows : List (ℕ × Row)) :
    "# timestamp (us), region, idx, model, policy\n".toList ++
      (List.zipWith (processLine names models) ts rows).flatten =
    ((processHead :: List.zipWith (processCols names models) ts rows).map lineOf).flatten := by
  rw [List.map_cons, List.flatten_cons, List.map_zipWith]
  congr 1
  congr 2
  funext t x
  exact processLine_eq names models t x

theorem plain_processHead : ∀ w ∈ processHead, Plain w := by
  unfold processHead Plain
  decide

theorem read_processText {names models : ℕ → Str} {ts : List ℤ} {rows : List (ℕ × Row)}
    (hn : ∀ x ∈ rows, Plain (names x.1)) (hm : ∀ x ∈ rows, Plain (models x.1)) :
    readTable ("# timestamp (us), region, idx, model, policy\n".toList ++
      (List.zipWith (processLine names models) ts rows).flatten) =
    processHead :: List.zipWith (processCols names models) ts rows := by
  rw [processText_eq]
  have hmem : ∀ ws ∈ List.zipWith (processCols names models) ts rows, ∃ t, ∃ x ∈ rows,
      ws = processCols names models t x := by
    intro ws hws
    rw [← List.map_uncurry_zip_eq_zipWith] at hws
    obtain ⟨⟨t, x⟩, hx, rfl⟩ := List.mem_map.1 hws
    exact ⟨t, x, (List.of_mem_zip hx).2, rfl⟩
  apply readTable_eq
  · intro ws hws
    rcases List.mem_cons.1 hws with rfl | hws
    · decide
    · obtain ⟨t, x, _, rfl⟩ := hmem ws hws
      simp [processCols]
  · intro ws hws w hw
    rcases List.mem_cons.1 hws with rfl | hws
    · exact plain_processHead w hw
    · obtain ⟨t, x, hx, rfl⟩ := hmem ws hws
      simp only [processCols, List.mem_cons, List.not_mem_nil, or_false] at hw
      rcases hw with rfl | rfl | rfl | rfl | rfl | rfl
      · exact plain_fmtInt _
      · exact hn x hx
      · exact plain_fmtInt _
      · exact hm x hx
      · exact ⟨by simp, by simp⟩
      · exact plain_fmtInt _

/-- The words of the lines. -/
theorem words_zip {names models : ℕ → Str} : ∀ {ts : List ℤ} {rows : List (ℕ × Row)},
    (∀ x ∈ rows, names x.1 ≠ []) → (∀ x ∈ rows, models x.1 ≠ []) →
    (List.zipWith (processCols names models) ts rows).map (fun ws => ws.filter fun w => w ≠ []) =
      processTable names models ts rows := by
  intro ts
  induction ts with
  | nil => intro rows _ _; rfl
  | cons t ts ih =>
    intro rows hn hm
    cases rows with
    | nil => rfl
    | cons x rows =>
      have e := ih (rows := rows) (fun y hy => hn y (by simp [hy])) (fun y hy => hm y (by simp [hy]))
      have e1 : (processCols names models t x).filter (fun w => w ≠ []) =
          [fmtInt t, names x.1, fmtInt x.2.index, models x.1, fmtInt x.2.policy] := by
        simp [processCols, hn x (by simp), hm x (by simp), (fmtInt_spec _).2]
      rw [List.zipWith_cons_cons, List.map_cons, e, e1]
      rfl

end Apollo
