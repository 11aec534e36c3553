import Verif.Proofs.KokkosMany
import Verif.Props.Explained
import Verif.Props.KokkosKernels

/-!
# C115: every kernel of a process is tuned for itself
-/

namespace Apollo.Props

open Apollo.Spec Kokkos

/-- After the calls `pre`, whatever they were, the variables `inputs` and `tuning` were not asked for yet.  The
tuning variables are declared with candidates, the process tunes every region for itself with a tree or forests, and
there is no model in the file that the connector would look for. -/
structure Begun (e : KEnv PolicyModel) (gen : ℕ → ℕ → ℕ) (tenv : ℕ → TrainEnv) (cfg : Cfg) (files : Str → Option Str)
    (pre : List KOp) (s₀ : State PolicyModel) (inputs tuning : List ℕ) (ds : List Decl) : Prop where
  ops : e.env.ops = policyOps gen tenv
  sorts : ∀ t, SortSpec (tenv t).sort
  single : cfg.single = false
  persistent : cfg.persistent = false
  global : cfg.globalPeriod = 0
  period : cfg.perRegionPeriod = 0
  learns : Learns cfg.policyModel
  run : ∃ ys, kexec e pre (initState cfg files) = .ok (ys, s₀)
  new : ∀ o ∈ pre, ¬ AsksFor o (inputs ++ tuning)
  vars : GoodVars s₀ tuning ds
  ne : tuning ≠ []
  small : combinations ds < 2 ^ 31
  clean : ∀ name, regionName s₀ (inputs ++ tuning) = .ok name → s₀.world.files (modelPath (name.take 63)) = none

/-- No region has the name of the region of these variables. -/
def NameFree (s₀ : State PolicyModel) (k : List ℕ) : Prop :=
  ∀ name, regionName s₀ k = .ok name → OMap.find s₀.world.registry (truncName (name.take 63)) = none

/-- After the first request for `inputs` and `tuning`, in `s₁`; the region `r` was created in `w`. -/
structure FirstAsked (e : KEnv PolicyModel) (gen : ℕ → ℕ → ℕ) (tenv : ℕ → TrainEnv) (cfg : Cfg) (s₀ : State PolicyModel)
    (inputs tuning : List ℕ) (ds : List Decl) (c₀ : ℕ) (ctx₀ : List (ℕ × Value)) (kk : Option ℕ) (d r : ℕ)
    (w : World PolicyModel) (s₁ : State PolicyModel) : Prop where
  explorer : NewExplorer e.env gen tenv cfg 0 r kk (combinations ds) d w
  runs : Runs e.env w s₁.world
  log : s₁.world.log = w.log ++ requestEvents r (feats e ctx₀) 0
  unchosen : ∀ c p, Ev.chose r c p ∉ w.log
  rows : (observe w.log).rows r = []
  proper : (observe w.log).proper r = true
  unused : ∀ c p, s₀.contexts c ≠ some (r, p)
  contexts : s₁.contexts = Function.update s₀.contexts c₀ (some (r, .sync r))
  mem : (inputs ++ tuning, r) ∈ s₁.regions
  kinv : KInv s₁
  pend : NoPending s₁.world
  hushed : Hushed s₁.world
  live : AllLive s₁.world
  loginv : LogInv s₁.world
  cfgs : s₁.world.cfg = cfg
  vars : GoodVars s₁ tuning ds
  named : NameFree s₀ (inputs ++ tuning) → r ∈ s₁.world.registry.map Prod.snd

theorem combinations_pos {s : State PolicyModel} {tuning : List ℕ} {ds : List Decl} (h : GoodVars s tuning ds) :
    0 < combinations ds := by
  have := combos_pos h.good
  rw [combos_eq] at this
  exact_mod_cast this

/-- The models that learn are new explorers. -/
theorem learns_made {model : Str} (h : Learns model) (gen : ℕ → ℕ) (nf : ℕ) (n : ℕ) :
    ∃ k d, k ≠ some 0 ∧ Made gen model nf n (exploring k n d 0) := by
  rcases h with rfl | rfl | rfl
  · exact ⟨none, 2, by simp, "DecisionTree".toList, [], by decide +kernel, by decide, rfl, rfl, rfl, by decide, by decide⟩
  · exact ⟨some 10, 2, by simp, "RandomForest".toList, [], by decide +kernel, by decide, rfl, rfl, rfl, by decide, by decide⟩
  · exact ⟨some 10, 2, by simp, "RandomForest".toList, [("explore".toList, "RoundRobin".toList)], by decide +kernel,
      by decide, rfl, rfl, rfl, by decide, by decide⟩

theorem Begun.first {e : KEnv PolicyModel} {gen : ℕ → ℕ → ℕ} {tenv : ℕ → TrainEnv} {cfg : Cfg} {files : Str → Option Str}
    {pre : List KOp} {s₀ s₁ : State PolicyModel} {inputs tuning : List ℕ} {ds : List Decl}
    (hb : Begun e gen tenv cfg files pre s₀ inputs tuning ds) {c₀ : ℕ} {ctx₀ : List (ℕ × Value)} {x : Kokkos.Ret}
    (hc : ctx₀.map Prod.fst = inputs) (h : kstep e s₀ (.request c₀ ctx₀ tuning) = .ok (x, s₁)) :
    ∃ kk d r w, FirstAsked e gen tenv cfg s₀ inputs tuning ds c₀ ctx₀ kk d r w s₁ ∧ x = .values r (combination ds 0) := by
  subst hc
  obtain ⟨ys, hrun⟩ := hb.run
  have ho : OneShot e.env.ops := by rw [hb.ops]; exact C108_models _ _
  have hi₀ : KInv (initState cfg files : State PolicyModel) := KInv.init cfg files
  have hn₀ : NoPending (initState cfg files : State PolicyModel).world := fun _ _ h => by cases h
  have hq₀ : Hushed (initState cfg files : State PolicyModel).world := ⟨hb.global, hb.period, fun _ _ h => by cases h⟩
  have hi : KInv s₀ := (hi₀.exec hrun).1
  have hn : NoPending s₀.world := hn₀.exec hi₀ hrun
  obtain ⟨hq, hcfg⟩ := hq₀.exec ho hi₀ hn₀ hb.single hrun
  have hcfg : s₀.world.cfg = cfg := hcfg
  have hlive : AllLive s₀.world := AllLive.exec hi₀ (AllLive.init cfg files) hrun
  have hfence : FenceInv pre ys s₀ := by
    have := (FenceInv.init cfg files : FenceInv [] [] (initState cfg files : State PolicyModel)).exec
      ((C62_models gen tenv).1 e.env hb.ops) hi₀ hrun
    simpa using this
  obtain ⟨ops₀, -, hex⟩ := kexec_runs hrun
  have hlog : LogInv s₀.world := reachable_log hex
  have hpos := combinations_pos hb.vars
  have h' : Kokkos.request e s₀ c₀ ctx₀ tuning = .ok (x, s₁) := h
  rcases request_ok h' with
    ⟨ht, -, -⟩ | ⟨ht, n, r, sp, w₁, w₂, p, w₃, vs, h0, -, h2, h3, h4, h5, h6, rfl, rfl⟩
  · exact absurd ht hb.ne
  have hkst := h
  obtain ⟨b1, b2, -, b4, b5, -⟩ := hi.problem (ctx := ctx₀.map Prod.fst) h0 ht (by simp) h2
  have hsp := space_ok hb.vars (a := 1) one_pos (by simpa using hb.small)
  rw [Nat.cast_one, h0, one_mul, Except.ok.injEq] at hsp
  subst hsp
  have hwrap : wrap32 ((combinations ds : ℕ) : ℤ) = combinations ds := by
    have := hb.small
    exact wrap32_of_range (by omega) (by exact_mod_cast this)
  rcases problemRegion_ok h2 with ⟨hf, -⟩ | ⟨-, name, info, u, w, hname, hinfo, hcr, rfl⟩
  · exfalso
    obtain ⟨o, h7, h8⟩ := (hfence.known (ctx₀.map Prod.fst ++ tuning)).1 ⟨r, (find_some_iff hi.sorted).1 hf⟩
    exact hb.new o h7 h8
  rw [hb.clean name hname] at hinfo
  simp only [Option.isSome_none, Bool.false_eq_true, if_false] at hinfo
  subst hinfo
  rw [hwrap] at hcr
  obtain ⟨kk, d, hkk, hmade⟩ := learns_made hb.learns (gen s₀.world.tick) ctx₀.length (combinations ds)
  obtain ⟨hm, hR⟩ := createRegion_made hb.ops (w := s₀.world) (by rw [hcfg]; exact hb.persistent)
    (by rw [if_pos rfl, hcfg]; exact hmade) hcr
  obtain ⟨R, m, l, hc1⟩ := createRegion_ok hcr
  have hqw : Hushed w := hq.update hc1.cfg hc1.regions hc1.minTraining
  obtain ⟨r1, r2, r3, ⟨m₁, m₂, r4, r5⟩, r6, r7⟩ := request_rest (e := e)
    (s₁ := { s₀ with world := w, regions := s₀.regions.insert (ctx₀.map Prod.fst ++ tuning) r, unconverged := u }) hqw h3 h4 h5
  have hnew : ∀ ev ∈ s₀.world.log, evRegion ev ≠ some r := fun ev hev hr => by
    have := hlog.evReg ev hev r hr
    have := hc1.id
    omega
  have hexp : NewExplorer e.env gen tenv cfg 0 r kk (combinations ds) d w :=
    ⟨hb.ops, hb.sorts, hb.single, hb.persistent, ⟨files, ops₀, s₀.world, _, _, _, _, _, hex, hcr⟩, hR, hm, hkk,
      by exact_mod_cast hpos⟩
  have hp0 : p = 0 := by
    have r4 : w.models r = some m₁ := r4
    rw [hm] at r4
    cases r4
    rw [hb.ops] at r5
    have r5 : (exploring kk (combinations ds) d 0).getIndex (feats e ctx₀) = .ok (p, m₂) := r5
    rw [(exploring_step (by exact_mod_cast hpos) kk d 0 _).1] at r5
    simp only [Except.ok.injEq, Prod.mk.injEq] at r5
    rw [← r5.1]
    simp
  subst hp0
  have hobs : observe w.log = (observe s₀.world.log).next (.created r R.dataset (e.env.ops.isTrainable m)) := by
    rw [hc1.log, observe_snoc, observe_trained _ _ hc1.events]
  obtain ⟨ops₁, -, hex₁⟩ := kstep_runs hkst
  obtain ⟨i1, i2, i3⟩ := hi.step hkst
  refine ⟨kk, d, r, w, ⟨hexp, r6, r3, ?_, ?_, ?_, ?_, ?_, b2, i1, hn.step hi hkst, r1, AllLive.step hi hlive hkst, ?_,
    (r2.trans hc1.cfg).trans hcfg, ?_, fun hnf => ?_⟩, ?_⟩
  · intro c p hp
    rw [hc1.log, List.mem_append, List.mem_append] at hp
    rcases hp with (hp | hp) | hp
    · exact hnew _ hp rfl
    · obtain ⟨_, _, h⟩ := hc1.events _ hp
      cases h
    · simp at hp
  · rw [hobs]
    exact (observe_fresh_reg hnew).2
  · rw [hobs]
    exact proper_fresh_reg hnew
  · intro c p hcp
    obtain ⟨-, k, hk⟩ := hi.ctxs c r p hcp
    have := hi.fresh k r hk
    have := hc1.id
    omega
  · rfl
  · exact reachable_log (exec_trans hex hex₁)
  · exact hb.vars
  · change r ∈ w₃.registry.map Prod.snd
    rw [r7]
    change r ∈ w.registry.map Prod.snd
    obtain ⟨-, hreg⟩ : LogInv s₀.world ∧ RegInv s₀.world :=
      (RegInv.invariant e.env fun _ => True).exec (fun _ _ _ _ => trivial) ⟨logInv_init cfg files, regInv_init cfg files⟩ hex
    refine List.mem_map.2 ⟨(R.name, r), ?_, rfl⟩
    rw [hc1.registry]
    have hs' : OMap.Sorted (OMap.insertNew R.name r s₀.world.registry) := OMap.Sorted.upsert hreg.sorted _ _
    rw [← hs'.find_eq_some_iff, OMap.find_insertNew hreg.sorted, if_pos rfl, hc1.name, hnf name hname]
    rfl
  · have : decode s₀ tuning 0 = .ok vs := by rw [← h6]; exact decode_decls rfl
    have h9 := decode_combination hb.vars 0
    rw [show ((0 : ℕ) : ℤ) = 0 from rfl, this] at h9
    simp only [Except.ok.injEq] at h9
    rw [h9]

/-- Another request for the variables is answered by the model of their region. -/
theorem asked_again {e : KEnv PolicyModel} {s s' : State PolicyModel} {tuning : List ℕ} {ds : List Decl} {r c : ℕ}
    {ctx : List (ℕ × Value)} {x : Kokkos.Ret} (hi : KInv s) (hq : Hushed s.world) (hg : GoodVars s tuning ds) (ht : tuning ≠ [])
    (hm : (ctx.map Prod.fst ++ tuning, r) ∈ s.regions) (h : kstep e s (.request c ctx tuning) = .ok (x, s')) :
    ∃ p m m', s.world.models r = some m ∧ e.env.ops.getIndex m (feats e ctx) = .ok (p, m') ∧
      (0 ≤ p → x = .values r (combination ds p.toNat)) := by
  have h' : Kokkos.request e s c ctx tuning = .ok (x, s') := h
  rcases request_ok h' with
    ⟨h0, -, -⟩ | ⟨-, n, r', sp, w₁, w₂, p, w₃, vs, h0, -, h2, h3, h4, h5, h6, rfl, rfl⟩
  · exact absurd h0 ht
  rcases problemRegion_ok h2 with ⟨hf, rfl⟩ | ⟨hf, -⟩
  · have := region_unique hi hm ((find_some_iff hi.sorted).1 hf)
    subst this
    obtain ⟨-, -, -, ⟨m, m', r4, r5⟩, -, -⟩ := request_rest (e := e) hq h3 h4 h5
    refine ⟨p, m, m', r4, r5, fun hp => ?_⟩
    have h9 := decode_combination hg p.toNat
    rw [Int.toNat_of_nonneg hp, h6] at h9
    simp only [Except.ok.injEq] at h9
    rw [h9]
  · rw [(find_some_iff hi.sorted).2 hm] at hf
    cases hf

theorem kexec_parts {M : Type} {e : KEnv M} : ∀ {a b : List KOp} {s s' : State M} {xs : List Kokkos.Ret},
    kexec e (a ++ b) s = .ok (xs, s') → ∃ ys zs s₁, kexec e a s = .ok (ys, s₁) ∧ kexec e b s₁ = .ok (zs, s') ∧
      xs = ys ++ zs ∧ ys.length = a.length
  | [], b, s, s', xs, h => ⟨[], xs, s, rfl, h, rfl, rfl⟩
  | o :: a, b, s, s', xs, h => by
    obtain ⟨x, s₁, ys, h1, h2, rfl⟩ := kexec_cons h
    obtain ⟨y1, y2, s₂, h3, h4, rfl, h5⟩ := kexec_parts h2
    exact ⟨x :: y1, y2, s₂, by simp only [kexec, h1, h3, Res.bind_ok], h4, rfl, by simp [h5]⟩

/-- What was started goes on without a training of the regions. -/
theorem FirstAsked.untrained {e : KEnv PolicyModel} {gen : ℕ → ℕ → ℕ} {tenv : ℕ → TrainEnv} {cfg : Cfg}
    {s₀ s₁ s₂ : State PolicyModel} {inputs tuning : List ℕ} {ds : List Decl} {c₀ : ℕ} {ctx₀ : List (ℕ × Value)} {kk : Option ℕ}
    {d r : ℕ} {w : World PolicyModel} (hs : FirstAsked e gen tenv cfg s₀ inputs tuning ds c₀ ctx₀ kk d r w s₁)
    (hc : ctx₀.map Prod.fst = inputs) (ht : tuning ≠ []) {mid : List KOp} {xs : List Kokkos.Ret}
    (h : kexec e mid s₁ = .ok (xs, s₂)) (hx : Ret.ended true ∉ xs) :
    Untrained (inputs ++ tuning) r w.log (.request c₀ ctx₀ tuning :: mid) s₂ := by
  have ho : OneShot e.env.ops := by rw [hs.explorer.ops]; exact C108_models _ _
  have h0 : Untrained (inputs ++ tuning) r w.log [.request c₀ ctx₀ tuning] s₁ := by
    refine ⟨hs.mem, _, hs.log, fun ds => not_trained_request _ _ _ _ _, ?_⟩
    rw [answers_request, if_pos rfl]
    simp [requests, isRequest, ht, hc]
  have := h0.exec ho hs.kinv hs.pend hs.hushed (by rw [hs.cfgs]; exact hs.explorer.single) h
    (fun x hx' he => hx (he ▸ hx'))
  simpa using this

/-- C115: many kernels may be tuned in one process.  Until the regions are trained, the `j`-th request for the
variables of a kernel, counted from zero, gets the `j`-th of their combinations, modulo their number: whatever other
kernels ask for in between, however contexts overlap, and whatever was measured. -/
theorem C115_turns {e : KEnv PolicyModel} {gen : ℕ → ℕ → ℕ} {tenv : ℕ → TrainEnv} {cfg : Cfg} {files : Str → Option Str}
    {pre : List KOp} {s₀ s' : State PolicyModel} {inputs tuning : List ℕ} {ds : List Decl}
    (hb : Begun e gen tenv cfg files pre s₀ inputs tuning ds) {c₀ : ℕ} {ctx₀ : List (ℕ × Value)} {ops : List KOp}
    {xs : List Kokkos.Ret} (hc : ctx₀.map Prod.fst = inputs) (hf : ops.head? = some (.request c₀ ctx₀ tuning))
    (h : kexec e ops s₀ = .ok (xs, s')) (i c : ℕ) (ctx : List (ℕ × Value)) (hi : ops[i]? = some (.request c ctx tuning))
    (hctx : ctx.map Prod.fst = inputs) (hx : Ret.ended true ∉ xs.take i) :
    ∃ r, xs[i]? = some (.values r
      (combination ds (requests (inputs ++ tuning) (ops.take i) % combinations ds))) := by
  cases ops with
  | nil => simp at hf
  | cons o mid =>
  simp only [List.head?_cons, Option.some.injEq] at hf
  subst hf
  obtain ⟨x, s₁, ys, h1, h2, rfl⟩ := kexec_cons h
  obtain ⟨kk, d, r, w, hs, rfl⟩ := hb.first hc h1
  have hpos := combinations_pos hb.vars
  refine ⟨r, ?_⟩
  cases i with
  | zero => simp [requests]
  | succ i =>
    simp only [List.getElem?_cons_succ, List.take_succ_cons] at hi hx ⊢
    obtain ⟨hil, hi'⟩ := List.getElem?_eq_some_iff.1 hi
    have hsplit : mid = mid.take i ++ (.request c ctx tuning :: mid.drop (i + 1)) := by
      rw [← hi', List.cons_getElem_drop_succ, List.take_append_drop]
    rw [hsplit] at h2
    obtain ⟨y1, y2, s₂, h3, h4, rfl, h5⟩ := kexec_parts h2
    have hy : y1.length = i := by rw [h5, List.length_take]; omega
    rw [List.take_append_of_le_length (by omega), List.take_of_length_le (by omega)] at hx
    obtain ⟨x, s₃, zs, h6, h7, rfl⟩ := kexec_cons h4
    rw [List.getElem?_append_right (by omega), hy, Nat.sub_self, List.getElem?_cons_zero]
    have ho : OneShot e.env.ops := by rw [hb.ops]; exact C108_models _ _
    have hsg : s₁.world.cfg.single = false := by rw [hs.cfgs]; exact hb.single
    obtain ⟨k1, k2, k3, -⟩ := hs.kinv.exec h3
    have hu := hs.untrained hc hb.ne h3 (fun hm => hx (List.mem_cons_of_mem _ hm))
    obtain ⟨l, hl, hl1, hl2⟩ := hu.log
    have hg : GoodVars s₂ tuning ds := hs.vars.imp fun id d hd => ⟨k3 id d hd.1, hd.2⟩
    obtain ⟨p, m, m', g1, g2, g3⟩ := asked_again k1 (hs.hushed.exec ho hs.kinv hs.pend hsg h3).1 hg hb.ne
      (by rw [hctx]; exact hu.mem) h6
    obtain ⟨opsr, -, hexr⟩ := hs.runs.trans (kexec_runs h3)
    obtain ⟨R, hR, hRd⟩ := hs.explorer.region
    obtain ⟨st, t1, t2, -⟩ := C113_story e.env cfg 0 r w _ opsr R _ l hs.explorer.created hR hs.explorer.model hexr hl
    have t3 := replay_turns hb.ops (by exact_mod_cast hpos) t1 hl1
    rw [t2 m g1, t3, hb.ops] at g2
    have g2 : (exploring kk (combinations ds) d (answers r l).length).getIndex (feats e ctx) = .ok (p, m') := g2
    rw [(exploring_step (by exact_mod_cast hpos) kk d _ _).1, hl2] at g2
    simp only [Except.ok.injEq, Prod.mk.injEq] at g2
    obtain ⟨rfl, -⟩ := g2
    rw [g3 (Int.emod_nonneg _ (by omega)), ← Int.natCast_mod, Int.toNat_natCast]

theorem kexec_registry {M : Type} {e : KEnv M} {ops : List KOp} {s s' : State M} {xs : List Kokkos.Ret} (ho : OneShot e.env.ops)
    (hi : KInv s) (hn : NoPending s.world) (hq : Hushed s.world) (hs : s.world.cfg.single = false)
    (h : kexec e ops s = .ok (xs, s')) : ∀ y ∈ s.world.registry, y ∈ s'.world.registry := by
  induction ops generalizing s xs with
  | nil => simp only [kexec] at h; cases h; exact fun _ h => h
  | cons o ops ih =>
    obtain ⟨x, s₁, ys, h1, h2, rfl⟩ := kexec_cons h
    obtain ⟨a, b, c, -⟩ := kstep_adds ho hi hn hq hs h1
    exact fun y hy => ih (hi.step h1).1 (hn.step hi h1) a (by rw [b]; exact hs) h2 y (c y hy)

/-- C115: the first training of the regions settles every kernel that was measured by then, if its contexts did not
overlap with each other.  All later requests for its variables get one combination, whatever the values of the
context variables, whatever other kernels do, are measured and trained: the one that was fastest for some values of
the context variables.  Every measurement it was learned from belongs to a request for these very variables: it has
the features of that request, and the policy whose combination that request got. -/
theorem C115_best_partial {e : KEnv PolicyModel} {gen : ℕ → ℕ → ℕ} {tenv : ℕ → TrainEnv} {cfg : Cfg} {files : Str → Option Str}
    {pre : List KOp} {s₀ s₂ : State PolicyModel} {inputs tuning : List ℕ} {ds : List Decl}
    (hb : Begun e gen tenv cfg files pre s₀ inputs tuning ds) (hname : NameFree s₀ (inputs ++ tuning))
    {c₀ c₁ : ℕ} {ctx₀ : List (ℕ × Value)} {mid : List KOp} {zs : List Kokkos.Ret} (hc : ctx₀.map Prod.fst = inputs)
    (h : kexec e ((.request c₀ ctx₀ tuning :: mid) ++ [.endContext c₁]) s₀ = .ok (zs ++ [.ended true], s₂))
    (hz : Ret.ended true ∉ zs)
    (hsplit : ∀ c ctx t, KOp.request c ctx t ∈ mid → ctx.map Prod.fst ++ t = inputs ++ tuning → ctx.length = inputs.length)
    (hone : OneAtATime (inputs ++ tuning) ((.request c₀ ctx₀ tuning :: mid) ++ [.endContext c₁]))
    (hend : EndedFor ((.request c₀ ctx₀ tuning :: mid) ++ [.endContext c₁]) (inputs ++ tuning)) :
    ∃ (r p : ℕ) (g : Features), zs.head? = some (.values r (combination ds 0)) ∧ p < combinations ds ∧
      IsBest (entries (((observe s₂.world.log).rows r).map Row.meas)) g p ∧
      (∀ x ∈ (observe s₂.world.log).rows r, 0 ≤ x.policy ∧ x.policy < combinations ds ∧
        Answered e.hash (inputs ++ tuning) ((.request c₀ ctx₀ tuning :: mid) ++ [.endContext c₁]) (zs ++ [.ended true])
          x.features (combination ds x.policy.toNat)) ∧
      ∀ (later : List KOp) (us : List Kokkos.Ret) (s₃ : State PolicyModel), kexec e later s₂ = .ok (us, s₃) →
        ∀ (i c : ℕ) (ctx : List (ℕ × Value)), later[i]? = some (.request c ctx tuning) → ctx.map Prod.fst = inputs →
          us[i]? = some (.values r (combination ds p)) := by
  have ho : OneShot e.env.ops := by rw [hb.ops]; exact C108_models _ _
  have hpos := combinations_pos hb.vars
  obtain ⟨y1, y2, s', h1, h2, hxs, hlen⟩ := kexec_parts h
  obtain ⟨x₂, s₂', y3, h3, h4, rfl⟩ := kexec_cons h2
  simp only [kexec] at h4
  cases h4
  obtain ⟨rfl, hx₂⟩ := List.append_inj' hxs rfl
  simp only [List.cons.injEq, and_true] at hx₂
  subst hx₂
  obtain ⟨x₁, s₁, ys, h5, h6, rfl⟩ := kexec_cons h1
  obtain ⟨kk, d, r, w, hs, rfl⟩ := hb.first hc h5
  have hsg : s₁.world.cfg.single = false := by rw [hs.cfgs]; exact hb.single
  obtain ⟨k1, k2, k3, -⟩ := hs.kinv.exec h6
  have hpend := hs.pend.exec hs.kinv h6
  obtain ⟨hq, hcfg⟩ := hs.hushed.exec ho hs.kinv hs.pend hsg h6
  have hu := hs.untrained hc hb.ne h6 (fun hm => hz (List.mem_cons_of_mem _ hm))
  obtain ⟨l, hl, hl1, hl2⟩ := hu.log
  have hsg' : s'.world.cfg.single = false := by rw [hcfg]; exact hsg
  obtain ⟨q1, q2, q3, l₂, q4, q5⟩ := kstep_adds ho k1 hpend hq hsg' h3
  obtain ⟨r₁, wE, hE, hT⟩ : ∃ r₁ wE, endCtx e.env s'.world r₁ (.sync r₁) = .ok wE ∧
      apolloTrain e.env wE 0 true = .ok s₂.world := by
    have h3' : Kokkos.endContext e s' c₁ = .ok (.ended true, s₂) := h3
    rcases endContext_ok h3' with ⟨-, hx, -⟩ | ⟨r₁, c, wE, hc₁, hE, -, -, ⟨-, w', hT, -, hs2⟩ | ⟨-, hx, -⟩⟩
    · cases hx
    · obtain ⟨rfl, -⟩ := k1.ctxs _ _ _ hc₁
      exact ⟨r₁, wE, hE, by rw [hs2]; exact hT⟩
    · cases hx
  obtain ⟨a1, -, a3, a4, -, y, a6⟩ := endCtx_hushed hpend hq hE
  obtain ⟨⟨lT, htr⟩, hrest⟩ := apolloTrain_rests ho a1 (by rw [a3]; exact hsg') hT
  have hlog₂ : s₂.world.log = w.log ++ (l ++ .finished r₁ (.sync r₁) y :: lT) := by
    rw [htr.log, a6, hl]; simp
  have hfull : kexec e (mid ++ [.endContext c₁]) s₁ = .ok (ys ++ [.ended true], s₂) := (kexec_snoc h6 h3).1
  obtain ⟨i1, i2, i3⟩ := k1.step h3
  have hran : ∀ c p, Ev.chose r c p ∈ s₂.world.log → 0 ≤ p ∧ p < combinations ds := by
    intro c p hp
    rw [hlog₂, List.mem_append, List.mem_append, List.mem_cons] at hp
    rcases hp with hp | hp | hp | hp
    · exact absurd hp (hs.unchosen c p)
    · obtain ⟨a, b, hab⟩ := List.append_of_mem hp
      obtain ⟨opsr, -, hexr⟩ := hs.runs.trans (kexec_runs h6)
      have := C114_turns hs.explorer _ opsr a b c p hexr (by rw [hl, hab]) (fun ds hd => hl1 ds (by rw [hab]; simp [hd]))
      rw [this]
      exact ⟨Int.emod_nonneg _ (by omega), Int.emod_lt_of_pos _ (by omega)⟩
    · cases hp
    · obtain ⟨_, _, h⟩ := htr.events _ hp
      cases h
  have hU : Uses e.hash ds (inputs ++ tuning) inputs.length r ((.request c₀ ctx₀ tuning :: mid) ++ [.endContext c₁])
      ((.values r (combination ds 0) :: ys) ++ [.ended true]) s₂.contexts s₂.world.log := by
    have hbase : Uses e.hash ds (inputs ++ tuning) inputs.length r [] [] s₀.contexts w.log := by
      have hno : ∀ c, ¬ AskedFor [] c (inputs ++ tuning) := by
        rintro c ⟨a, b, t, d, h, -⟩
        simp at h
      refine ⟨rfl, fun c p hp => absurd hp (hs.unused c p), fun c hc => absurd hc (hno c), fun c hc => absurd hc (hno c),
        ?_, hs.proper, ?_⟩
      · rw [hs.rows]; simp
      · rintro ⟨a, b, d, h, -⟩
        simp at h
    have h1 := hbase.asked (c := c₀) (ctx := ctx₀) (t := tuning) (p := 0) hb.ne (by rw [hc]) (by rw [← hc, List.length_map])
      le_rfl (by exact_mod_cast hpos) (by
        intro c' hc'
        rcases askedFor_snoc hc' with ⟨_, _, h, -⟩ | ⟨⟨a, b, t, d, h, -⟩, -⟩
        · cases h; rfl
        · simp at h)
    rw [← hs.contexts, show (ctx₀.map fun v => toFloat e.hash v.2) = feats e ctx₀ from rfl, ← hs.log] at h1
    have h2 := h1.exec ho (more := mid ++ [.endContext c₁]) hs.kinv hs.pend hs.hushed hsg hs.mem hs.vars (by simpa using hone)
      (fun c ctx t hm => hsplit c ctx t (by simpa using hm)) hran hfull
    simpa using h2
  have hrows := hU.ended hend
  obtain ⟨opsr, -, hexr⟩ := hs.runs.trans (kexec_runs hfull)
  obtain ⟨R, hR, hRd⟩ := hs.explorer.region
  obtain ⟨st, t1, t2, t3⟩ := C113_story e.env cfg 0 r w _ opsr R _ _ hs.explorer.created hR hs.explorer.model hexr hlog₂
  rw [hRd, hb.single] at t1
  have hex := replay_explained (nf := inputs.length) hb.sorts hb.ops hb.persistent hs.explorer.trees hs.explorer.policies hs.rows t1
    (by rw [← hlog₂]; exact hU.proper) (by rw [← hlog₂]; exact fun x hx => (hU.rows x hx).1)
  rw [← hlog₂] at hex
  have hmem₂ := i2 _ hu.mem
  have hlt : r < s₂.world.nextRegion := i1.fresh _ _ hmem₂
  have hbest : BestTrained (measAt s₂.world.log r) inputs.length (combinations ds) kk st.model := by
    rcases hex with ⟨-, hm, hd⟩ | ⟨pre', post', c1, c2, -, c4⟩
    · exfalso
      have hlive : AllLive s₂.world := AllLive.exec hs.kinv hs.live hfull
      have hlogi : LogInv s₂.world := by
        obtain ⟨ys', hr⟩ := hb.run
        obtain ⟨o, -, hex'⟩ := (kexec_runs hr).trans (kexec_runs h)
        exact reachable_log hex'
      obtain ⟨R₂, hR₂⟩ := Option.isSome_iff_exists.1 (hlive r hlt)
      obtain ⟨m, hm'⟩ := Option.isSome_iff_exists.1 ((hlogi.liveM r).trans (hlive r hlt))
      have hreg : r ∈ wE.registry.map Prod.snd := by
        rw [a4]
        obtain ⟨y, hy, hy'⟩ := List.mem_map.1 (hs.named hname)
        exact List.mem_map.2 ⟨y, kexec_registry ho hs.kinv hs.pend hs.hushed hsg h6 y hy, hy'⟩
      have hsz : R₂.dataset.size ≠ 0 := by
        rw [t3 R₂ hR₂, hd]
        intro h0
        obtain ⟨x, hx⟩ := List.exists_mem_of_ne_nil _ hrows
        obtain ⟨m, hm⟩ := (C01_key_iff (measAt s₂.world.log r) x.features x.policy).2
          ⟨x.meas, List.mem_map_of_mem hx, rfl, rfl⟩
        rw [entries, List.eq_nil_of_length_eq_zero h0] at hm
        simp [Dataset.toVectorOfTuples] at hm
      have := hrest r hreg R₂ m (by rw [← htr.regions]; exact hR₂) hsz hm'
      rw [t2 m hm', hm, hb.ops] at this
      have h9 := (exploring_step hs.explorer.policies kk d
        (answers r (l ++ Ev.finished r₁ (.sync r₁) y :: lT)).length []).2
      have this : (exploring kk (combinations ds) d _).isTrainable = false := this
      rw [h9] at this
      cases this
    · have : measAt (w.log ++ pre') r = measAt s₂.world.log r := by
        have key : ∃ t, pre' = l ++ [.finished r₁ (.sync r₁) y] ++ t ∧ ∀ ev ∈ t, ev ∈ lT := by
          have c1 : (l ++ [.finished r₁ (.sync r₁) y]) ++ lT = pre' ++ .trained r st.data :: post' := by
            rw [← c1]; simp
          rcases List.append_eq_append_iff.1 c1 with ⟨t, d1, d2⟩ | ⟨t, d1, d2⟩
          · exact ⟨t, d1, fun ev hev => by rw [d2]; simp [hev]⟩
          · cases t with
            | nil => exact ⟨[], by simpa using d1.symm, by simp⟩
            | cons ev t =>
              simp only [List.cons_append, List.cons.injEq] at d2
              have : Ev.trained r st.data ∈ l ++ [.finished r₁ (.sync r₁) y] := by rw [d1, d2.1]; simp
              simp [hl1] at this
        obtain ⟨t, rfl, ht⟩ := key
        unfold measAt
        rw [hlog₂, ← List.append_assoc w.log, observe_trained _ t fun ev hev => htr.events _ (ht ev hev),
          show w.log ++ (l ++ Ev.finished r₁ (.sync r₁) y :: lT) = w.log ++ (l ++ [.finished r₁ (.sync r₁) y]) ++ lT by simp,
          observe_trained _ lT htr.events]
      rw [← this]
      exact c4
  have hpo : ∀ q, BestOf (measAt s₂.world.log r) q → 0 ≤ q ∧ q < combinations ds := by
    rintro q ⟨g, m, hq, -⟩
    obtain ⟨x, hx, -, rfl⟩ := (C01_key_iff _ g q).1 ⟨m, hq⟩
    obtain ⟨y, hy, rfl⟩ := List.mem_map.1 hx
    exact ⟨(hU.rows y hy).2.1, (hU.rows y hy).2.2.1⟩
  obtain ⟨-, q, ⟨g, b1⟩, -, b3⟩ := bestTrained_answer hs.explorer.policies hpo hbest
  obtain ⟨hq0, hq1⟩ := hpo q ⟨g, b1⟩
  obtain ⟨p, rfl⟩ := Int.eq_ofNat_of_zero_le hq0
  refine ⟨r, p, g, by simp, by exact_mod_cast hq1, b1, fun x hx => (hU.rows x hx).2, ?_⟩
  intro later us s₃ hlater i c ctx hi hctx
  obtain ⟨hil, hi'⟩ := List.getElem?_eq_some_iff.1 hi
  have hsp : later = later.take i ++ (.request c ctx tuning :: later.drop (i + 1)) := by
    rw [← hi', List.cons_getElem_drop_succ, List.take_append_drop]
  rw [hsp] at hlater
  obtain ⟨u1, u2, sa, v1, v2, rfl, v3⟩ := kexec_parts hlater
  obtain ⟨x, sb, u3, v4, -, rfl⟩ := kexec_cons v2
  have hy : u1.length = i := by rw [v3, List.length_take]; omega
  rw [List.getElem?_append_right (by omega), hy, Nat.sub_self, List.getElem?_cons_zero]
  obtain ⟨j1, j2, j3, -⟩ := i1.exec v1
  have hg : GoodVars sa tuning ds := hs.vars.imp fun id d hd => ⟨j3 id d (i3 id d (k3 id d hd.1)), hd.2⟩
  have hsg2 : s₂.world.cfg.single = false := by rw [q2]; exact hsg'
  obtain ⟨p', m, m', g1, g2, g3⟩ := asked_again j1 (q1.exec ho i1 (hpend.step k1 h3) hsg2 v1).1 hg hb.ne
    (by rw [hctx]; exact j2 _ hmem₂) v4
  obtain ⟨opsl, hplain, hexl⟩ := kexec_runs v1
  have hset : Settled sa.world r st.model st.data :=
    (Settled.invariant (env := e.env) (by rw [hb.ops]; exact bestTrained_frozen gen tenv hbest)).exec
      (fun r' s c hm => absurd hm (hplain.2 r' s c)) ⟨hsg2, hlt, t2, fun _ => t3⟩ hexl
  rw [hset.model m g1, hb.ops] at g2
  have g2 : st.model.getIndex (feats e ctx) = .ok (p', m') := g2
  rw [b3 _ (by rw [feats, List.length_map, ← hctx, List.length_map])] at g2
  simp only [Except.ok.injEq, Prod.mk.injEq] at g2
  obtain ⟨rfl, -⟩ := g2
  rw [g3 (by omega), Int.toNat_natCast]

/-- C115: if what is measured depends only on the features and the values, this is the fastest combination of those
measured, for some values of the context variables that were asked for. -/
theorem C115_fastest_partial {e : KEnv PolicyModel} {gen : ℕ → ℕ → ℕ} {tenv : ℕ → TrainEnv} {cfg : Cfg} {files : Str → Option Str}
    {pre : List KOp} {s₀ s₂ : State PolicyModel} {inputs tuning : List ℕ} {ds : List Decl}
    (hb : Begun e gen tenv cfg files pre s₀ inputs tuning ds) (hname : NameFree s₀ (inputs ++ tuning))
    {c₀ c₁ r : ℕ} {ctx₀ : List (ℕ × Value)} {v₀ : List Value} {mid : List KOp} {zs : List Kokkos.Ret}
    (hc : ctx₀.map Prod.fst = inputs)
    (h : kexec e ((.request c₀ ctx₀ tuning :: mid) ++ [.endContext c₁]) s₀ = .ok (.values r v₀ :: zs ++ [.ended true], s₂))
    (hz : Ret.ended true ∉ zs)
    (hsplit : ∀ c ctx t, KOp.request c ctx t ∈ mid → ctx.map Prod.fst ++ t = inputs ++ tuning → ctx.length = inputs.length)
    (hone : OneAtATime (inputs ++ tuning) ((.request c₀ ctx₀ tuning :: mid) ++ [.endContext c₁]))
    (hend : EndedFor ((.request c₀ ctx₀ tuning :: mid) ++ [.endContext c₁]) (inputs ++ tuning))
    {cost : Features → List Value → ℚ}
    (hcost : ∀ x ∈ (observe s₂.world.log).rows r, NormalMetric x.metric ∧
      x.metric = cost x.features (combination ds x.policy.toNat)) :
    ∃ (v : List Value) (g : Features),
      Answered e.hash (inputs ++ tuning) ((.request c₀ ctx₀ tuning :: mid) ++ [.endContext c₁])
        (.values r v₀ :: zs ++ [.ended true]) g v ∧
      (∀ x ∈ (observe s₂.world.log).rows r, x.features = g → cost g v ≤ cost g (combination ds x.policy.toNat)) ∧
      ∀ (later : List KOp) (us : List Kokkos.Ret) (s₃ : State PolicyModel), kexec e later s₂ = .ok (us, s₃) →
        ∀ (i c : ℕ) (ctx : List (ℕ × Value)), later[i]? = some (.request c ctx tuning) → ctx.map Prod.fst = inputs →
          us[i]? = some (.values r v) := by
  obtain ⟨r', p, g, h1, -, h3, h4, h5⟩ := C115_best_partial hb hname (zs := .values r v₀ :: zs) hc h (by simpa using hz) hsplit hone hend
  simp only [List.head?_cons, Option.some.injEq, Kokkos.Ret.values.injEq] at h1
  obtain ⟨rfl, -⟩ := h1
  have hb' := best_of (time := fun f c => cost f (combination ds c.toNat)) (fun x hx => by
    obtain ⟨y, hy, rfl⟩ := List.mem_map.1 hx
    exact hcost y hy) h3
  refine ⟨combination ds p, g, ?_, fun x hx hg => ?_, h5⟩
  · obtain ⟨m, hm, -⟩ := h3
    obtain ⟨x, hx, e1, e2⟩ := (C01_key_iff _ g p).1 ⟨m, hm⟩
    obtain ⟨y, hy, rfl⟩ := List.mem_map.1 hx
    have := (h4 y hy).2.2
    have e1 : y.features = g := e1
    have e2 : y.policy = p := e2
    rw [e1, e2, Int.toNat_natCast] at this
    exact this
  · have := hb' x.meas (List.mem_map_of_mem hx) hg
    rw [Int.toNat_natCast] at this
    exact this

/-! ## Examples -/

/-- Two tuning variables and a context variable. -/
def manyDecls : List KOp :=
  [.declareOutput 1 "tile".toList (.set [.int 4, .int 8]), .declareOutput 2 "team".toList (.set [.int 1, .int 2]),
   .declareInput 3 "size".toList]

/-- Every third end of a context trains the regions. -/
def manyEnv : KEnv PolicyModel where
  env := demoEnv
  flush := 3

def manyCfg : Cfg := { policyModel := "DecisionTree".toList }

/-- Another kernel runs meanwhile, in context 9. -/
def manyPre : List KOp := manyDecls ++ [.request 9 [] [2]]

/-- The kernel runs twice; the other one ends. -/
def manyMid : List KOp := [.endContext 7, .request 8 [(3, .int 200)] [1], .endContext 9]

/-- What `Begun` says about the state for the problem `k` with one tuning variable `id` with declaration `d`. -/
def begunAt (s : State PolicyModel) (k : List ℕ) (id : ℕ) (d : Decl) : Bool :=
  (match s.decls id with
    | some d' => decide (d'.name = d.name ∧ d'.setSize = d.setSize ∧ d'.values = d.values)
    | none => false) &&
    match regionName s k with
    | .ok name => (s.world.files (modelPath (name.take 63))).isNone
    | .error _ => true

theorem begunAt_spec {s : State PolicyModel} {k : List ℕ} {id : ℕ} {d : Decl} (h : begunAt s k id d = true) :
    s.decls id = some d ∧ ∀ name, regionName s k = .ok name → s.world.files (modelPath (name.take 63)) = none := by
  unfold begunAt at h
  rw [Bool.and_eq_true] at h
  obtain ⟨h1, h2⟩ := h
  refine ⟨?_, fun name hn => ?_⟩
  · split at h1
    · rename_i d' hd
      rw [decide_eq_true_eq] at h1
      obtain ⟨a, b, c⟩ := h1
      rw [hd]
      cases d'
      cases d
      simp_all
    · cases h1
  · rw [hn] at h2
    simpa using h2

/-- What `NameFree` says. -/
def freeAt (s : State PolicyModel) (k : List ℕ) : Bool :=
  match regionName s k with
  | .ok name => (OMap.find s.world.registry (truncName (name.take 63))).isNone
  | .error _ => true

theorem freeAt_spec {s : State PolicyModel} {k : List ℕ} (h : freeAt s k = true) : NameFree s k := by
  intro name hn
  unfold freeAt at h
  rw [hn] at h
  simpa using h

theorem tile_good : tile.Good := by
  refine ⟨?_, ?_, ?_⟩ <;> simp [tile]

/-- Evaluating three parts of a history. -/
theorem three_ok {e : KEnv PolicyModel} {s : State PolicyModel} {a b c : List KOp} {P Q : State PolicyModel → Bool}
    {zs us : List Kokkos.Ret}
    (h : (match kexec e a s with
      | .error _ => false
      | .ok (_, s₀) => P s₀ && match kexec e b s₀ with
        | .error _ => false
        | .ok (zs', s₂) => (decide (zs' = zs) && Q s₂) && match kexec e c s₂ with
          | .error _ => false
          | .ok (us', _) => decide (us' = us)) = true) :
    ∃ ys s₀ s₂ s₃, kexec e a s = .ok (ys, s₀) ∧ P s₀ = true ∧ kexec e b s₀ = .ok (zs, s₂) ∧
      Q s₂ = true ∧ kexec e c s₂ = .ok (us, s₃) := by
  split at h
  · cases h
  rename_i ys s₀ h1
  rw [Bool.and_eq_true] at h
  obtain ⟨hP, h⟩ := h
  split at h
  · cases h
  rename_i zs' s₂ h2
  rw [Bool.and_eq_true, Bool.and_eq_true, decide_eq_true_eq] at h
  obtain ⟨⟨rfl, hQ⟩, h⟩ := h
  split at h
  · cases h
  rename_i us' s₃ h3
  rw [decide_eq_true_eq] at h
  subst h
  exact ⟨ys, s₀, s₂, s₃, h1, hP, h2, hQ, h3⟩

theorem many_ok : ∃ ys s₀ s₂ s₃, kexec manyEnv manyPre (initState manyCfg fun _ => none) = .ok (ys, s₀) ∧
    (begunAt s₀ [3, 1] 1 tile && freeAt s₀ [3, 1]) = true ∧
    kexec manyEnv ((.request 7 [(3, .int 100)] [1] :: manyMid) ++ [.endContext 8]) s₀ =
      .ok (.values 1 [.int 4] :: [.ended false, .values 1 [.int 8], .ended false] ++ [.ended true], s₂) ∧
    (decide ((observe s₂.world.log).rows 1 = [⟨0, [100], 0, 1⟩, ⟨1, [200], 1, 2⟩])) = true ∧
    kexec manyEnv [.request 7 [(3, .int 300)] [1], .request 9 [] [2]] s₂ =
      .ok ([.values 1 [.int 4], .values 0 [.int 1]], s₃) :=
  three_ok (P := fun s => begunAt s [3, 1] 1 tile && freeAt s [3, 1])
    (Q := fun s => decide ((observe s.world.log).rows 1 = [⟨0, [100], 0, 1⟩, ⟨1, [200], 1, 2⟩])) (by decide +kernel)

/-- **C115** without a condition on names. -/
def C115 : Prop :=
  ∀ (e : KEnv PolicyModel) (gen : ℕ → ℕ → ℕ) (tenv : ℕ → TrainEnv) (cfg : Cfg) (files : Str → Option Str)
    (pre : List KOp) (s₀ s₂ : State PolicyModel) (inputs tuning : List ℕ) (ds : List Decl),
    Begun e gen tenv cfg files pre s₀ inputs tuning ds →
    ∀ (c₀ c₁ : ℕ) (ctx₀ : List (ℕ × Value)) (mid : List KOp) (zs : List Kokkos.Ret), ctx₀.map Prod.fst = inputs →
    kexec e ((.request c₀ ctx₀ tuning :: mid) ++ [.endContext c₁]) s₀ = .ok (zs ++ [.ended true], s₂) →
    Ret.ended true ∉ zs →
    (∀ c ctx t, KOp.request c ctx t ∈ mid → ctx.map Prod.fst ++ t = inputs ++ tuning → ctx.length = inputs.length) →
    OneAtATime (inputs ++ tuning) ((.request c₀ ctx₀ tuning :: mid) ++ [.endContext c₁]) →
    EndedFor ((.request c₀ ctx₀ tuning :: mid) ++ [.endContext c₁]) (inputs ++ tuning) →
    ∃ (r p : ℕ), ∀ (later : List KOp) (us : List Kokkos.Ret) (s₃ : State PolicyModel), kexec e later s₂ = .ok (us, s₃) →
      ∀ (i c : ℕ) (ctx : List (ℕ × Value)), later[i]? = some (.request c ctx tuning) → ctx.map Prod.fst = inputs →
        us[i]? = some (.values r (combination ds p))

/-- A variable with the name of another, whose region is registered and trained. -/
def namesPre : List KOp := manyDecls ++
  [.declareOutput 4 "tile".toList (.set [.int 4, .int 8]), .request 5 [] [1], .endContext 5]

theorem names_ok : ∃ ys s₀ s₂ s₃, kexec demoK namesPre (initState manyCfg fun _ => none) = .ok (ys, s₀) ∧
    begunAt s₀ [4] 4 tile = true ∧
    kexec demoK ((.request 5 [] [4] :: []) ++ [.endContext 5]) s₀ = .ok ([.values 1 [.int 4]] ++ [.ended true], s₂) ∧ true = true ∧
    kexec demoK [.request 5 [] [4], .endContext 5, .request 5 [] [4]] s₂ =
      .ok ([.values 1 [.int 8], .ended false, .values 1 [.int 4]], s₃) :=
  three_ok (P := fun s => begunAt s [4] 4 tile) (Q := fun _ => true) (by decide +kernel)

/-- Settings and state of the examples. -/
theorem begun_of {e : KEnv PolicyModel} (he : e.env = demoEnv) {pre : List KOp} {ys : List Kokkos.Ret}
    {s₀ : State PolicyModel} {inputs : List ℕ} {v : ℕ} (h : kexec e pre (initState manyCfg fun _ => none) = .ok (ys, s₀))
    (hp : begunAt s₀ (inputs ++ [v]) v tile = true) (hn : ∀ o ∈ pre, ¬ AsksFor o (inputs ++ [v])) :
    Begun e (fun _ _ => 0) (fun _ => ⟨isort, id⟩) manyCfg (fun _ => none) pre s₀ inputs [v] [tile] where
  ops := by rw [he]; rfl
  sorts := fun _ => isort_spec
  single := rfl
  persistent := rfl
  global := rfl
  period := rfl
  learns := .inl rfl
  run := ⟨ys, h⟩
  new := hn
  vars := .cons ⟨(begunAt_spec hp).1, tile_good⟩ .nil
  ne := by simp
  small := by decide
  clean := (begunAt_spec hp).2

theorem one_context {k : List ℕ} {o o' : KOp} {c : ℕ} (h : ∀ c', Asks o c' → c' = c) (h' : ∀ c', ¬ Asks o' c') :
    OneAtATime k [o, o'] := by
  have key : ∀ a b c', [o, o'] = a ++ b → AskedFor a c' k → c' = c := by
    rintro a b c' he ⟨p, ctx, t, q, rfl, ht, -⟩
    have : KOp.request c' ctx t ∈ [o, o'] := by rw [he]; simp
    rcases List.mem_cons.1 this with rfl | this
    · exact h c' ⟨ctx, t, rfl, ht⟩
    · rw [List.mem_singleton] at this
      exact absurd ⟨ctx, t, this.symm, ht⟩ (h' c')
  exact fun a b c₁ c₂ he h1 h2 => (key a b c₁ he h1).trans (key a b c₂ he h2).symm

/-- **C115** is false without it: the region of the second variable is not registered, so no training settles it,
and its kernel explores for ever. -/
theorem C115_names_fails : ¬ C115 := by
  intro hC
  obtain ⟨ys, s₀, s₂, s₃, h1, h2, h3, -, h4⟩ := names_ok
  have hb : Begun demoK (fun _ _ => 0) (fun _ => ⟨isort, id⟩) manyCfg (fun _ => none) namesPre s₀ [] [4] [tile] :=
    begun_of (inputs := []) rfl h1 h2 (by
      rintro o ho ⟨c, ctx, t, rfl, -, hk⟩
      simp only [namesPre, manyDecls, List.cons_append, List.nil_append, List.mem_cons, reduceCtorEq, KOp.request.injEq,
        List.not_mem_nil, or_false, false_or] at ho
      obtain ⟨-, rfl, rfl⟩ := ho
      simp at hk)
  obtain ⟨r, p, hp⟩ := hC demoK _ _ _ _ _ s₀ s₂ [] [4] [tile] hb 5 5 [] [] [.values 1 [.int 4]] rfl h3 (by simp) (by simp)
    (one_context (c := 5) (by rintro c ⟨_, _, h, -⟩; cases h; rfl) (by rintro c ⟨_, _, h, -⟩; cases h))
    ⟨[.request 5 [] [4]], 5, [], rfl, [], [], [4], [], rfl, by simp, rfl, by simp⟩
  have a := hp _ _ _ h4 0 5 [] rfl rfl
  have b := hp _ _ _ h4 2 5 [] rfl rfl
  simp only [List.getElem?_cons_zero, List.getElem?_cons_succ, Option.some.injEq, Kokkos.Ret.values.injEq] at a b
  have := a.2.trans b.2.symm
  simp at this

/-- The hypotheses of `C115_turns`, `C115_best_partial` and `C115_fastest_partial`: while another kernel is running, the kernel runs
twice, for sizes 100 and 200, with tiles 4 and 8; the end of its second run trains the regions. -/
example : ∃ s₀ s₂, Begun manyEnv (fun _ _ => 0) (fun _ => ⟨isort, id⟩) manyCfg (fun _ => none) manyPre s₀ [3] [1] [tile] ∧
    NameFree s₀ ([3] ++ [1]) ∧
    kexec manyEnv ((.request 7 [(3, .int 100)] [1] :: manyMid) ++ [.endContext 8]) s₀ =
      .ok (.values 1 [.int 4] :: [.ended false, .values 1 [.int 8], .ended false] ++ [.ended true], s₂) ∧
    ((.request 7 [(3, .int 100)] [1] :: manyMid) ++ [.endContext 8] : List KOp)[2]? = some (.request 8 [(3, .int 200)] [1]) ∧
    (∀ c ctx t, KOp.request c ctx t ∈ manyMid → ctx.map Prod.fst ++ t = [3] ++ [1] → ctx.length = [3].length) ∧
    OneAtATime ([3] ++ [1]) ((.request 7 [(3, .int 100)] [1] :: manyMid) ++ [.endContext 8]) ∧
    EndedFor ((.request 7 [(3, .int 100)] [1] :: manyMid) ++ [.endContext 8]) ([3] ++ [1]) ∧
    (∀ x ∈ (observe s₂.world.log).rows 1, NormalMetric x.metric ∧
      x.metric = (fun (_ : Features) v => if v = [Value.int 4] then 1 else 2 : Features → List Value → ℚ) x.features
        (combination [tile] x.policy.toNat)) ∧
    ∃ s₃, kexec manyEnv [.request 7 [(3, .int 300)] [1], .request 9 [] [2]] s₂ =
      .ok ([.values 1 [.int 4], .values 0 [.int 1]], s₃) := by
  obtain ⟨ys, s₀, s₂, s₃, h1, h2, h3, h4, h5⟩ := many_ok
  rw [Bool.and_eq_true] at h2
  rw [decide_eq_true_eq] at h4
  refine ⟨s₀, s₂, begun_of (inputs := [3]) rfl h1 h2.1 ?_, freeAt_spec h2.2, h3, rfl, ?_, ?_, ?_, ?_, s₃, h5⟩
  · rintro o ho ⟨c, ctx, t, rfl, -, hk⟩
    simp only [manyPre, manyDecls, List.cons_append, List.nil_append, List.mem_cons, reduceCtorEq, KOp.request.injEq,
      List.not_mem_nil, or_false, false_or] at ho
    obtain ⟨-, rfl, rfl⟩ := ho
    simp at hk
  · intro c ctx t ho _
    simp only [manyMid, List.mem_cons, reduceCtorEq, KOp.request.injEq, List.not_mem_nil, or_false, false_or] at ho
    obtain ⟨-, rfl, rfl⟩ := ho
    rfl
  · intro a b c c' he ha hc
    have key : ∀ c, AskedFor a c ([3] ++ [1]) → (a.length = 1 ∧ c = 7) ∨ (2 < a.length ∧ c = 8) := by
      rintro c ⟨p, ctx, t, q, rfl, -, -, hq⟩
      simp only [manyMid, List.cons_append, List.nil_append, List.append_assoc] at he
      rcases p with _ | ⟨o, _ | ⟨o2, _ | ⟨o3, _ | ⟨o4, _ | ⟨o5, p⟩⟩⟩⟩⟩
      · simp only [List.nil_append, List.cons.injEq, KOp.request.injEq] at he
        obtain ⟨⟨rfl, -, -⟩, he⟩ := he
        cases q with
        | nil => exact .inl ⟨rfl, rfl⟩
        | cons o q =>
          simp only [List.cons_append, List.cons.injEq] at he
          exact absurd he.1.symm (hq o (by simp)).1
      · simp at he
      · simp only [List.cons_append, List.nil_append, List.cons.injEq, KOp.request.injEq] at he
        obtain ⟨-, -, ⟨rfl, -, -⟩, -⟩ := he
        exact .inr ⟨by simp, rfl⟩
      · simp at he
      · simp at he
      · have := congrArg List.length he
        simp at this
    rcases key c ha with ⟨h, rfl⟩ | ⟨h, rfl⟩ <;> rcases key c' hc with ⟨h', rfl⟩ | ⟨h', rfl⟩ <;> first | rfl | omega
  · exact ⟨[.request 7 [(3, .int 100)] [1]], 7, _, rfl, [], _, _, [], rfl, by simp, rfl, by simp⟩
  · rw [h4]
    intro x hx
    simp only [List.mem_cons, List.not_mem_nil, or_false] at hx
    rcases hx with rfl | rfl
    · exact ⟨by exact_mod_cast normal_small (n := 1) (.inl rfl), by decide⟩
    · exact ⟨by exact_mod_cast normal_small (n := 2) (.inr rfl), by decide⟩

end Apollo.Props
