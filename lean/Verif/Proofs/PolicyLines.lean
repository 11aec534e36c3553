import Verif.Proofs.RegionTrace
import Verif.Proofs.RegionWrite
import Verif.Proofs.RegionHush
import Verif.Proofs.TimerAsync
import Verif.Proofs.RegionNet
import Verif.Spec.PolicyLines

/-!
# The trace of the policies holds a line for each answer
-/

namespace Apollo

open Spec

variable {M : Type} {env : Env M}

/-! ## Answers -/

theorem givenFrom_append (o : Observer) (h h' : List Ev) :
    givenFrom o (h ++ h') = givenFrom o h ++ givenFrom (h.foldl Observer.next o) h' := by
  induction h generalizing o with
  | nil => rfl
  | cons e h ih => simp only [List.cons_append, givenFrom, ih, List.append_assoc, List.foldl_cons]

theorem given_snoc (h : List Ev) (e : Ev) : given (h ++ [e]) = given h ++ handedOut (observe h) e := by
  unfold given observe
  rw [givenFrom_append]
  simp [givenFrom]

theorem given_trained (h l : List Ev) (hl : ∀ e ∈ l, ∃ r ds, e = .trained r ds) :
    given (h ++ l) = given h := by
  induction l using List.reverseRecOn with
  | nil => simp
  | append_singleton l e ih =>
    obtain ⟨r, ds, rfl⟩ := hl e (by simp)
    rw [← List.append_assoc, given_snoc, ih fun e he => hl e (by simp [he])]
    simp [handedOut]

/-! ## Lines -/

theorem floatToInt_trunc {x : ℚ} {n : ℤ} (h : floatToInt x = .ok n) : IsTrunc x n := by
  unfold floatToInt at h
  dsimp only at h
  split at h
  · cases h
    have hd : (0 : ℤ) < x.den := by exact_mod_cast x.den_pos
    have hdq : (0 : ℚ) < x.den := by exact_mod_cast x.den_pos
    have hx : x = (x.num : ℚ) / (x.den : ℚ) := (Rat.num_div_den x).symm
    have hax : |x| = (|x.num| : ℤ) / (x.den : ℚ) := by
      conv_lhs => rw [hx]
      rw [abs_div, abs_of_pos hdq, Int.cast_abs]
    have habs : |x.num.tdiv x.den| = |x.num| / x.den := by
      rcases le_total 0 x.num with h0 | h0
      · rw [Int.tdiv_eq_ediv_of_nonneg h0, abs_of_nonneg h0, abs_of_nonneg (Int.ediv_nonneg h0 hd.le)]
      · have : x.num.tdiv x.den = -((-x.num) / x.den) := by
          rw [← Int.tdiv_eq_ediv_of_nonneg (by omega : 0 ≤ -x.num), Int.neg_tdiv, neg_neg]
        rw [this, abs_neg, abs_of_nonneg (Int.ediv_nonneg (by omega) hd.le), abs_of_nonpos h0]
    have h1 : |x.num| / x.den * x.den ≤ |x.num| := Int.ediv_mul_le _ hd.ne'
    have h2 : |x.num| < (|x.num| / x.den + 1) * x.den := by
      rw [mul_comm]; exact Int.lt_mul_ediv_self_add hd |>.trans_eq (by ring)
    refine ⟨?_, ?_, ?_⟩
    · rw [hax, le_div_iff₀ hdq, ← Int.cast_abs, habs]
      exact_mod_cast h1
    · rw [hax, div_lt_iff₀ hdq, ← Int.cast_abs, habs]
      exact_mod_cast h2
    · rcases le_total 0 x.num with h0 | h0
      · refine mul_nonneg (by rw [hx]; positivity) ?_
        exact_mod_cast Int.tdiv_nonneg h0 hd.le
      · refine mul_nonneg_of_nonpos_of_nonpos ?_ ?_
        · rw [hx]; exact div_nonpos_of_nonpos_of_nonneg (by exact_mod_cast h0) hdq.le
        · have h3 := Int.tdiv_nonneg (by omega : 0 ≤ -x.num) hd.le
          rw [Int.neg_tdiv] at h3
          exact_mod_cast (by omega : x.num.tdiv x.den ≤ 0)
  · cases h

theorem intColumns_words {f : Features} {s : Str} (h : intColumns f = .ok s) :
    ∃ ns, List.Forall₂ IsTrunc f ns ∧ s = ((ns.map fun n => fmtInt n ++ [',']).map
      fun w => w ++ [' ']).flatten := by
  induction f generalizing s with
  | nil =>
    cases h
    exact ⟨[], .nil, rfl⟩
  | cons x f ih =>
    simp only [intColumns] at h
    obtain ⟨n, h1, h⟩ := (Res.bind_eq_ok _ _ _).1 h
    obtain ⟨t, h2, h⟩ := (Res.bind_eq_ok _ _ _).1 h
    cases h
    obtain ⟨ns, h3, rfl⟩ := ih h2
    refine ⟨n :: ns, .cons (floatToInt_trunc h1) h3, ?_⟩
    simp

theorem policyLine_words {rank : ℤ} {region kind : Str} {r : ℕ} {f g : Features} {p : ℤ} {b : Bool}
    {s : Str} (h : policyLine rank region (modelColumn kind p) f p = .ok s) (hg : b = true → f = g) :
    IsPolicyLine rank region kind ⟨r, g, p, b⟩ s := by
  unfold policyLine at h
  obtain ⟨t, h1, h⟩ := (Res.bind_eq_ok _ _ _).1 h
  cases h
  obtain ⟨ns, h2, rfl⟩ := intColumns_words h1
  refine ⟨ns, fun hb => hg hb ▸ h2, ?_⟩
  unfold policyWords
  rw [intercalate_append (by simp)]
  simp [List.intercalate]

/-! ## Names -/

/-- The name without what follows a comma. -/
def plainName (s : Str) : Str := s.takeWhile (· ≠ ',')

/-- Models keep their name, which begins with that by which they were created. -/
structure Kinds (ops : ModelOps M) : Prop extends Named ops where
  column : ∀ m f p m', ops.getIndex m f = .ok (p, m') → ops.name m = modelColumn (plainName (ops.name m)) p
  create : ∀ t k nf n ps m, ops.create t k nf n ps = .ok m → plainName (ops.name m) = k
  load : ∀ s m m', ops.load s m = .ok m' → ops.name m' = ops.name m

theorem Kinds.evolved (ha : Kinds env.ops) {L : Prop} {l : List Ev} {r : ℕ} {m m' : M}
    (h : Evolved env L l r m m') : env.ops.name m' = env.ops.name m := by
  induction h with
  | refl => rfl
  | tail _ h ih =>
    rcases h with ⟨t, ds, -, h⟩ | ⟨-, s, h⟩
    · rw [ha.train _ _ _ _ h, ih]
    · rw [ha.load _ _ _ h, ih]

theorem parsePolicyModel_kind {info mn : Str} {ps : Params} (h : parsePolicyModel info = .ok (mn, ps)) :
    mn = info.takeWhile (· ≠ ',') := by
  have hf : ∀ s : Str, findChar ',' s = none → s.takeWhile (· ≠ ',') = s := by
    intro s hs
    refine takeWhile_eq_self fun c hc => ?_
    unfold findChar at hs
    rw [List.findIdx?_eq_none_iff] at hs
    simpa using hs c hc
  have hs : ∀ (s : Str) (p : ℕ), findChar ',' s = some p → s.take p = s.takeWhile (· ≠ ',') := by
    intro s
    induction s with
    | nil => intro p h; simp [findChar] at h
    | cons c s ih =>
      intro p hp
      unfold findChar at hp
      rw [List.findIdx?_cons] at hp
      by_cases hc : c = ','
      · subst hc
        simp at hp
        subst hp
        rfl
      · simp only [hc, decide_false, Bool.false_eq_true, if_false] at hp
        obtain ⟨q, hq, rfl⟩ := Option.map_eq_some_iff.1 hp
        rw [List.take_succ_cons, List.takeWhile_cons, ih q hq]
        simp [hc]
  unfold parsePolicyModel at h
  split at h
  next hn => cases h; exact (hf _ hn).symm
  next p hp =>
    obtain ⟨_, -, h⟩ := (Res.bind_eq_ok _ _ _).1 h
    obtain ⟨_, -, h⟩ := (Res.bind_eq_ok _ _ _).1 h
    cases h
    exact hs _ _ hp

theorem createRegion_kind {w w' : World M} {nf n mt : ℤ} {name info yaml : Str} {r : ℕ} {R : Region}
    (h : createRegion env w nf name n mt info yaml = .ok (r, w')) (hR : w'.regions r = some R) :
    R.modelName = kindOf (if info = [] then w.cfg.policyModel else info) := by
  rw [createRegion_split] at h
  obtain ⟨⟨r₀, w₀⟩, h0, h⟩ := (Res.bind_eq_ok _ _ _).1 h
  obtain ⟨w₁, h1, h⟩ := (Res.bind_eq_ok _ _ _).1 h
  unfold createAfter at h
  obtain ⟨R₁, hR₁, h⟩ := (Res.bind_eq_ok _ _ _).1 h
  obtain ⟨m, hm, h⟩ := (Res.bind_eq_ok _ _ _).1 h
  cases h
  have hR : w₁.regions r₀ = some R := hR
  have key : ∃ R₀, w₀.regions r₀ = some R₀ ∧ R.modelName = R₀.modelName := by
    obtain ⟨R₀, hR₀, ⟨-, -, rfl⟩ | ⟨-, rfl⟩⟩ := startTrace_cases h1
    · simp only [World.setRegion, Function.update_self, Option.some.injEq] at hR
      subst hR
      exact ⟨R₀, World.region_ok.1 hR₀, rfl⟩
    · exact ⟨R, hR, rfl⟩
  obtain ⟨R₀, hR₀, e⟩ := key
  obtain ⟨-, -, mn, ps, h3, h4⟩ := createBefore_kind h0 hR₀
  have hk := parsePolicyModel_kind h3
  unfold kindOf
  rw [← hk, e]
  unfold resolveStaticRegion at h4
  split at h4
  next hs =>
    rw [if_pos hs]
    split at h4
    · cases h4
    · simp only [Except.ok.injEq, Prod.mk.injEq] at h4
      exact h4.1.symm
  next hs =>
    rw [if_neg hs]
    simp only [Except.ok.injEq, Prod.mk.injEq] at h4
    exact h4.1.symm

/-! ## The invariant -/

theorem policiesPath_spared (env : Env M) (rank : ℤ) : Spared env (policiesPath rank) := by
  have hp : "-policies.txt".toList <:+ policiesPath rank := List.suffix_append _ _
  have key : ∀ (q t : Str), t <:+ q → t.length ≤ 13 → ¬ t <:+ "-policies.txt".toList →
      q ≠ policiesPath rank := by
    rintro q t ht hl hn rfl
    exact hn (List.suffix_of_suffix_length_le ht hp hl)
  refine .inr ⟨fun cfg name => key _ ".yaml".toList ?_ (by decide) (by decide),
    fun cfg rank k s name => key _ ".yaml".toList ?_ (by decide) (by decide),
    fun cfg rank k name => key _ ".yaml".toList ?_ (by decide) (by decide),
    fun rank s name => key _ "_policies.txt".toList ?_ (by decide) (by decide)⟩
  · exact List.suffix_append _ _
  · exact List.suffix_append _ _
  · exact List.suffix_append _ _
  · refine ⟨"step-".toList ++ fmtInt s ++ "-rank-".toList ++ fmtInt rank ++ "-".toList ++ name ++
      "-best".toList, ?_⟩
    unfold bestPath
    rw [show "-best_policies.txt".toList = "-best".toList ++ "_policies.txt".toList from by decide]
    simp only [List.append_assoc]

/-- The lines for answers, with the names of regions and models. -/
def LinesOf (rank : ℤ) (ns ks : List Str) (as : List Answer) (ls : List Str) : Prop :=
  List.Forall₂ (fun a s => ∃ region kind, ns[a.region]? = some region ∧ ks[a.region]? = some kind ∧
    IsPolicyLine rank region kind a s) as ls

/-- The names of regions and models are as listed, and the trace has a line for each answer. -/
structure LinesInv (env : Env M) (ns ks : List Str) (init : Str) (w : World M) : Prop where
  next : w.nextRegion = ns.length
  same : ks.length = ns.length
  name : ∀ r R, w.regions r = some R → ns[r]? = some R.name
  kind : ∀ r m, w.models r = some m → ks[r]? = some (plainName (env.ops.name m))
  text : ∃ ls, LinesOf env.rank ns ks (given w.log) ls ∧
    (w.files (policiesPath env.rank)).getD [] = init ++ ls.flatten

theorem LinesInv.frame {ns ks : List Str} {init : Str} {w w' : World M}
    (hw : LinesInv env ns ks init w) (hn : w'.nextRegion = w.nextRegion)
    (hr : ∀ r R, w'.regions r = some R → ∃ R', w.regions r = some R' ∧ R.name = R'.name)
    (hm : ∀ r m', w'.models r = some m' → ∃ m, w.models r = some m ∧
      env.ops.name m' = env.ops.name m)
    (ha : given w'.log = given w.log)
    (hf : FileHolds (policiesPath env.rank) (w.files (policiesPath env.rank)) w') :
    LinesInv env ns ks init w' where
  next := hn.trans hw.next
  same := hw.same
  name := fun r R h => by
    obtain ⟨R', h1, h2⟩ := hr r R h
    rw [h2]; exact hw.name r R' h1
  kind := fun r m h => by
    obtain ⟨m', h1, h2⟩ := hm r m h
    rw [h2]; exact hw.kind r m' h1
  text := by
    rw [ha]
    unfold FileHolds at hf
    rw [hf]
    exact hw.text

theorem LinesInv.update {r : ℕ} {w : World M} {R R₀ : Region} (hR : w.regions r = some R₀)
    (hn : R.name = R₀.name) {r' : ℕ} {R' : Region}
    (h : Function.update w.regions r (some R) r' = some R') :
    ∃ R'', w.regions r' = some R'' ∧ R'.name = R''.name := by
  by_cases heq : r' = r
  · subst heq; rw [Function.update_self] at h; cases h; exact ⟨R₀, hR, hn⟩
  · rw [Function.update_of_ne heq] at h; exact ⟨R', h, rfl⟩

theorem LinesInv.trained (ha : Kinds env.ops) {ns ks : List Str} {init : Str} {w w' : World M}
    {l : List Ev} (hw : LinesInv env ns ks init w) (h : Trained env w l w')
    (hf : FileHolds (policiesPath env.rank) (w.files (policiesPath env.rank)) w') :
    LinesInv env ns ks init w' := by
  refine hw.frame h.nextRegion ?_ ?_ (by rw [h.log, given_trained _ _ h.events]) hf
  · intro r R hR; rw [h.regions] at hR; exact ⟨R, hR, rfl⟩
  · intro r m' hm
    obtain ⟨m, h1, h2⟩ := h.chain r m' hm
    exact ⟨m, h1, ha.retrained h2⟩

theorem LinesInv.emit {ns ks : List Str} {init : Str} {w w' : World M}
    (hw : LinesInv env ns ks init w) (e : Ev) (he : ∀ o, handedOut o e = [])
    (hn : w'.nextRegion = w.nextRegion)
    (hr : ∀ r R, w'.regions r = some R → ∃ R', w.regions r = some R' ∧ R.name = R'.name)
    (hm : w'.models = w.models) (hl : w'.log = w.log ++ [e]) (hf : w'.files = w.files) :
    LinesInv env ns ks init w' := by
  refine hw.frame hn hr (fun r m h => ⟨m, by rw [← hm]; exact h, rfl⟩) ?_ (by unfold FileHolds; rw [hf])
  rw [hl, given_snoc, he, List.append_nil]

theorem linesInv_stable (ha : Kinds env.ops) (F : ℕ → Prop) (ns ks : List Str) (init : Str) :
    Stable env F (LinesInv env ns ks init) where
  advance := fun w hw => hw.frame rfl (fun r R h => ⟨R, h, rfl⟩) (fun r m h => ⟨m, h, rfl⟩) rfl rfl
  body := by
    intro w₀ w r s w' _ hw _ h
    obtain ⟨l, hl, _⟩ := trainBody_trained h
    exact hw.trained ha hl (FileHolds.body (policiesPath_spared env _) rfl h)
  single := by
    intro w ds rs w' hw hs h
    obtain ⟨l, hl⟩ := trainAllWith_trained hs h
    exact hw.trained ha hl (by unfold FileHolds; rw [(trainAllWith_files h).1])
  waiting := fun w c hw => hw.emit (.waiting c) (fun _ => rfl) rfl (fun r R h => ⟨R, h, rfl⟩) rfl rfl rfl
  finish := by
    intro w r c x w' hw h
    have hf := (FileHolds.stable F (w.files (policiesPath env.rank))
      (policiesPath_spared env env.rank)).finish w r c x w' rfl h
    obtain ⟨R, m, C, l, h1⟩ := collectContext_ok h
    refine hw.frame h1.nextRegion ?_ ?_ ?_ hf
    · intro r' R' h'
      rw [h1.regions] at h'
      refine LinesInv.update (w := w) h1.region ?_ h'
      unfold recRegion
      split <;> split <;> rfl
    · intro r' m' hm'
      obtain ⟨m₀, h2, h3⟩ := h1.chain r' m' hm'
      exact ⟨m₀, h2, ha.retrained h3⟩
    · rw [h1.log, given_trained _ _ h1.events]
      change given (w.log ++ [_]) = _
      rw [given_snoc]
      exact List.append_nil _
  pending := fun w r R cs hw hR =>
    hw.frame rfl (fun r' R' h => LinesInv.update (R := { R with pending := cs }) hR rfl h)
      (fun r m h => ⟨m, h, rfl⟩) rfl rfl

/-- What is kept by every call. -/
def Traced (env : Env M) (cfg : Cfg) (ns ks : List Str) (init : Str) (w : World M) : Prop :=
  (LogInv w ∧ CfgIs cfg w) ∧ LinesInv env ns ks init w

theorem append_files {w : World M} {p s : Str} (hp : env.canWrite p = true) :
    (w.append env p s).files = Function.update w.files p (some ((w.files p).getD [] ++ s)) := by
  unfold World.append World.write
  simp only [hp, if_true]

theorem LinesInv.asked (ha : Kinds env.ops) {cfg : Cfg} (ht : cfg.tracePolicy = true)
    (hc : env.canWrite (policiesPath env.rank) = true) {ns ks : List Str} {init : Str} {w w' : World M}
    {r : ℕ} {c : CtxPtr} {p : ℤ} (hl : LogInv w) (hcfg : CfgIs cfg w) (hw : LinesInv env ns ks init w)
    (h : getPolicyIndex env w r c = .ok (p, w')) : LinesInv env ns ks init w' := by
  obtain ⟨R, m, C, m', w₀, hR, hm, hC, hi, h1, rfl⟩ := getPolicyIndex_trace h
  unfold tracePolicy at h1
  rw [show w.cfg.tracePolicy = true by obtain ⟨G, e⟩ := hcfg; rw [e]; exact ht, if_pos rfl] at h1
  obtain ⟨s, h2, h1⟩ := (Res.bind_eq_ok _ _ _).1 h1
  have h1 : w.append env (policiesPath env.rank) s = w₀ := Except.ok.inj h1
  obtain ⟨F, hF⟩ : ∃ F, w₀ = { w with files := F } := by
    rw [← h1]; unfold World.append World.write; dsimp only; split <;> exact ⟨_, rfl⟩
  have hfile := congrArg World.files h1
  rw [append_files hc] at hfile
  rw [hF] at hfile ⊢
  rw [ha.index _ _ _ _ hi, ha.column _ _ _ _ hi] at h2
  refine ⟨hw.next, hw.same, hw.name, ?_, ?_⟩
  · intro r' m'' h'
    change Function.update w.models r (some m') r' = some m'' at h'
    by_cases heq : r' = r
    · subst heq
      rw [Function.update_self] at h'
      cases h'
      rw [ha.index _ _ _ _ hi]
      exact hw.kind _ _ hm
    · rw [Function.update_of_ne heq] at h'
      exact hw.kind _ _ h'
  · change ∃ ls, LinesOf env.rank ns ks
      (given (w.log ++ [.chose r c p])) ls ∧ (F (policiesPath env.rank)).getD [] = init ++ ls.flatten
    rw [given_snoc]
    obtain ⟨ls, h3, h4⟩ := hw.text
    refine ⟨ls ++ [s], List.rel_append h3 (.cons ⟨_, _, hw.name _ _ hR, hw.kind _ _ hm,
      policyLine_words h2 (hl.feats c C hC)⟩ .nil), ?_⟩
    have hfile : F = _ := hfile.symm
    rw [hfile, Function.update_self, Option.getD_some, h4]
    simp

theorem traced_callwise (ha : Kinds env.ops) {cfg : Cfg} (ht : cfg.tracePolicy = true)
    (hc : env.canWrite (policiesPath env.rank) = true) (F : ℕ → Prop) (ns ks : List Str) (init : Str) :
    Callwise env F (Traced env cfg ns ks init) := by
  have hI := (LogInv.invariant env F).and (CfgIs.invariant env F cfg)
  have hS := linesInv_stable (init := init) ha F ns ks
  exact {
    advance := fun w h => ⟨hI.advance w h.1, hS.advance w h.2⟩
    body := fun w₀ w r s w' h0 h hF ht => ⟨hI.body w₀ w r s w' h0.1 h.1 hF ht,
      hS.body w₀ w r s w' h0.2 h.2 hF ht⟩
    single := fun w ds rs w' h hs ht => ⟨hI.single w ds rs w' h.1 hs ht, hS.single w ds rs w' h.2 hs ht⟩
    collect := fun w r w' h hc => ⟨hI.collect w r w' h.1 hc, hS.kept.collect w r w' h.2 hc⟩
    finish := fun w r c m w' h hc => ⟨hI.finish w r c m w' h.1 hc, hS.finish w r c m w' h.2 hc⟩
    began := fun w r c R C w' h hb => ⟨hI.began w r c R C w' h.1 hb,
      h.2.emit (.began r c) (fun _ => rfl) hb.nextRegion (fun r' R' h' => by
        rw [hb.regions] at h'; exact LinesInv.update (R := { R with current := some c, idx := R.idx + 1 }) hb.region rfl h')
        hb.models hb.log hb.files⟩
    assigned := fun w c C f h hC => ⟨hI.assigned w c C f h.1 hC,
      h.2.emit (.assigned c f) (fun _ => rfl) rfl (fun r R h => ⟨R, h, rfl⟩) rfl rfl rfl⟩
    feature := fun w c C v h hC => ⟨hI.feature w c C v h.1 hC,
      h.2.emit (.feature c v) (fun _ => rfl) rfl (fun r R h => ⟨R, h, rfl⟩) rfl rfl rfl⟩
    asked := fun w r c p w' h hg => ⟨hI.callwise.asked w r c p w' h.1 hg,
      h.2.asked ha ht hc h.1.1 h.1.2 hg⟩
    stop := fun w c C t h hC => ⟨hI.stop w c C t h.1 hC,
      h.2.frame rfl (fun r R h => ⟨R, h, rfl⟩) (fun r m h => ⟨m, h, rfl⟩) rfl rfl⟩
    ended := fun w r c R h hR hC hne => ⟨hI.ended w r c R h.1 hR hC hne,
      h.2.emit (.ended r c) (fun _ => rfl) rfl
        (fun r' R' h' => LinesInv.update (R := { R with pending := R.pending ++ [c] }) hR rfl h') rfl rfl
        rfl⟩
    period := fun w h => ⟨hI.period w h.1,
      h.2.frame rfl (fun r R h => ⟨R, h, rfl⟩) (fun r m h => ⟨m, h, rfl⟩) rfl rfl⟩
    destroyed := fun w r R h hR hp => ⟨hI.destroyed w r R h.1 hR hp, by
      obtain ⟨f1, f2, f3, f4, f5, -⟩ := afterDestroy_frame env w r R
      refine h.2.frame f5 ?_ ?_ ?_ (FileHolds.destroyed (policiesPath_spared env _) rfl r R)
      · intro r' R' h'
        rw [f1] at h'
        by_cases heq : r' = r
        · subst heq; rw [Function.update_self] at h'; cases h'
        · rw [Function.update_of_ne heq] at h'; exact ⟨R', h', rfl⟩
      · intro r' m' h'
        rw [f2] at h'
        by_cases heq : r' = r
        · subst heq; rw [Function.update_self] at h'; cases h'
        · rw [Function.update_of_ne heq] at h'; exact ⟨m', h', rfl⟩
      · rw [f4, given_snoc]; exact List.append_nil _⟩ }

theorem Traced.created (ha : Kinds env.ops) {cfg : Cfg} {ns ks : List Str} {init : Str} {w w' : World M}
    {nf n mt : ℤ} {name info yaml : Str} {r : ℕ} (hw : Traced env cfg ns ks init w)
    (h : createRegion env w nf name n mt info yaml = .ok (r, w')) :
    Traced env cfg (ns ++ [name.take 63])
      (ks ++ [kindOf (if info = [] then cfg.policyModel else info)]) init w' := by
  have hI := (LogInv.invariant env fun _ => True).and (CfgIs.invariant env (fun _ => True) cfg)
  refine ⟨hI.created _ _ _ _ _ _ _ _ _ hw.1 h, ?_⟩
  obtain ⟨R, m, l, h1⟩ := createRegion_ok h
  have hf : FileHolds (policiesPath env.rank) (w.files (policiesPath env.rank)) w' :=
    FileHolds.created (policiesPath_spared env _) rfl h
  have hk := createRegion_kind h (R := R) (by rw [h1.regions, Function.update_self])
  have hcfg : w.cfg.policyModel = cfg.policyModel := by obtain ⟨G, e⟩ := hw.1.2; rw [e]
  rw [hcfg] at hk
  have hr : r = ns.length := h1.id.trans hw.2.next
  have hold : ∀ {xs : List Str} {i : ℕ} {x y : Str}, xs[i]? = some x → (xs ++ [y])[i]? = some x := by
    intro xs i x y hx
    rw [List.getElem?_append_left (by
      rcases lt_or_ge i xs.length with h | h
      · exact h
      · rw [List.getElem?_eq_none h] at hx; cases hx)]
    exact hx
  refine ⟨by rw [h1.nextRegion, hr]; simp, by simp [hw.2.same], ?_, ?_, ?_⟩
  · intro r' R' h'
    rw [h1.regions] at h'
    by_cases heq : r' = r
    · subst heq
      rw [Function.update_self] at h'
      cases h'
      rw [hr, h1.name, List.getElem?_concat_length]
      rfl
    · rw [Function.update_of_ne heq] at h'
      exact hold (hw.2.name _ _ h')
  · intro r' m' h'
    by_cases heq : r' = r
    · subst heq
      rw [h1.model] at h'
      cases h'
      obtain ⟨t, m₀, h2, h3⟩ := h1.origin
      rw [hr, ← hw.2.same, List.getElem?_concat_length, ha.evolved h3, ha.create _ _ _ _ _ _ h2, hk]
    · obtain ⟨m₀, h2, h3⟩ := h1.steps r' m' heq h'
      rw [show env.ops.name m' = env.ops.name m₀ from ha.retrained h3.retrained]
      exact hold (hw.2.kind _ _ h2)
  · have hl : given w'.log = given w.log := by
      rw [h1.log, given_snoc, given_trained _ _ h1.events]
      exact List.append_nil _
    rw [hl]
    unfold FileHolds at hf
    rw [hf]
    obtain ⟨ls, h2, h3⟩ := hw.2.text
    refine ⟨ls, h2.imp fun a s => ?_, h3⟩
    rintro ⟨region, kind, h4, h5, h6⟩
    exact ⟨region, kind, hold h4, hold h5, h6⟩

theorem traced_exec (ha : Kinds env.ops) {cfg : Cfg} (ht : cfg.tracePolicy = true)
    (hc : env.canWrite (policiesPath env.rank) = true) {init : Str} {ops : List Op} :
    ∀ {done : List Op} {w w' : World M},
      Traced env cfg (regionNames done) (modelKinds cfg done) init w → exec env ops w = .ok w' →
      Traced env cfg (regionNames (done ++ ops)) (modelKinds cfg (done ++ ops)) init w' := by
  induction ops with
  | nil =>
    intro done w w' hw h
    simp only [Apollo.exec] at h
    cases h
    simpa using hw
  | cons op ops ih =>
    intro done w w' hw h
    simp only [Apollo.exec] at h
    obtain ⟨⟨x, w₁⟩, h1, h⟩ := (Res.bind_eq_ok _ _ _).1 h
    rw [show done ++ op :: ops = (done ++ [op]) ++ ops by simp]
    refine ih ?_ h
    unfold regionNames modelKinds
    rw [List.filterMap_append, List.filterMap_append]
    by_cases hop : ∃ nf name n mt info yaml, op = .create nf name n mt info yaml
    · obtain ⟨nf, name, n, mt, info, yaml, rfl⟩ := hop
      simp only [step] at h1
      obtain ⟨⟨r, w₂⟩, h2, h1⟩ := (Res.bind_eq_ok _ _ _).1 h1
      cases h1
      exact hw.created ha h2
    · have e1 : regionNames [op] = [] := by
        cases op <;> first | rfl | exact absurd ⟨_, _, _, _, _, _, rfl⟩ hop
      have e2 : modelKinds cfg [op] = [] := by
        cases op <;> first | rfl | exact absurd ⟨_, _, _, _, _, _, rfl⟩ hop
      unfold regionNames at e1
      unfold modelKinds at e2
      rw [e1, e2, List.append_nil, List.append_nil]
      refine (traced_callwise ha ht hc (fun _ => True) _ _ init).step (fun _ _ _ _ => trivial) ?_ hw h1
      intro nf name n mt info yaml e
      exact absurd ⟨_, _, _, _, _, _, e⟩ hop

theorem traced_init (env : Env M) (cfg : Cfg) (files : Str → Option Str) :
    Traced env cfg (regionNames []) (modelKinds cfg []) ((files (policiesPath env.rank)).getD [])
      (initWorld cfg files) := by
  refine ⟨⟨logInv_init cfg files, ⟨cfg.globalPeriod, rfl⟩⟩, rfl, rfl, ?_, ?_, ⟨[], .nil, ?_⟩⟩
  · intro r R h; cases h
  · intro r m h; cases h
  · exact (List.append_nil _).symm

/-! ## The models of the library -/

theorem plain_plain {s : Str} (h : ',' ∉ s) : plainName s = s := by
  refine takeWhile_eq_self fun c hc => ?_
  simp only [ne_eq, decide_not, Bool.not_eq_eq_eq_not, Bool.not_true, decide_eq_false_iff_not]
  rintro rfl
  exact h hc

theorem column_plain {s : Str} (h : ',' ∉ s) (hs : s ≠ "Static".toList) (p : ℤ) :
    s = modelColumn (plainName s) p := by
  rw [plain_plain h, modelColumn, if_neg hs]

theorem createPolicyModel_kind {gen : ℕ → ℕ} {n : ℤ} : ∀ {fuel : ℕ} {name : Str}
    {nf : ℤ} {params : Params} {m : PolicyModel},
    createPolicyModel gen fuel name nf n params = .ok (.model m) → plainName m.name = name
  | 0, _, _, _, _, h => by cases h
  | fuel + 1, name, nf, params, m, h => by
    unfold createPolicyModel at h
    dsimp only at h
    have hst : ∀ c, plainName ("Static,".toList ++ fmtInt c) = "Static".toList := by
      intro c
      rw [show "Static,".toList = "Static".toList ++ [','] from by decide]
      unfold plainName
      rw [List.append_assoc, List.takeWhile_append_of_pos (by decide)]
      simp
    split at h
    next hn =>
      obtain ⟨m', h1, h⟩ := (Res.bind_eq_ok _ _ _).1 h
      cases h
      obtain ⟨p, hp, h1⟩ := (Res.bind_eq_ok _ _ _).1 h1
      rw [hn]
      split at h1
      · cases h1
      · split at h1
        · cases h1; exact hst _
        · cases h1; exact hst _
    split at h
    next hn => cases h; rw [hn]; exact plain_plain (s := "DatasetMap".toList) (by decide)
    split at h
    next hn =>
      obtain ⟨m', h1, h⟩ := (Res.bind_eq_ok _ _ _).1 h
      cases h
      unfold PolicyModel.newRandom at h1
      split at h1
      · cases h1
      · cases h1; rw [hn]; exact plain_plain (s := "Random".toList) (by decide)
    split at h
    next hn => cases h; rw [hn]; exact plain_plain (s := "RoundRobin".toList) (by decide)
    split at h
    next hn =>
      obtain ⟨d, -, h⟩ := (Res.bind_eq_ok _ _ _).1 h
      obtain ⟨e, he, h⟩ := (Res.bind_eq_ok _ _ _).1 h
      cases h
      rw [hn]; exact plain_plain (s := "DecisionTree".toList) (by decide)
    split at h
    next hn =>
      obtain ⟨k, -, h⟩ := (Res.bind_eq_ok _ _ _).1 h
      obtain ⟨d, -, h⟩ := (Res.bind_eq_ok _ _ _).1 h
      obtain ⟨e, he, h⟩ := (Res.bind_eq_ok _ _ _).1 h
      cases h
      rw [hn]; exact plain_plain (s := "RandomForest".toList) (by decide)
    split at h
    · obtain ⟨_, -, h⟩ := (Res.bind_eq_ok _ _ _).1 h
      obtain ⟨_, -, h⟩ := (Res.bind_eq_ok _ _ _).1 h
      obtain ⟨_, -, h⟩ := (Res.bind_eq_ok _ _ _).1 h
      obtain ⟨_, -, h⟩ := (Res.bind_eq_ok _ _ _).1 h
      obtain ⟨_, -, h⟩ := (Res.bind_eq_ok _ _ _).1 h
      cases h
    split at h
    next hn => cases h; rw [hn]; exact plain_plain (s := "Optimal".toList) (by decide)
    · cases h

theorem policyOps_kinds (gen : ℕ → ℕ → ℕ) (tenv : ℕ → TrainEnv) : Kinds (policyOps gen tenv) where
  toNamed := policyOps_named gen tenv
  column := by
    intro m f p m' h
    cases m with
    | null => cases h
    | static n c =>
      cases h
      change "Static,".toList ++ fmtInt p = modelColumn (plainName ("Static,".toList ++ fmtInt p)) p
      rw [show plainName ("Static,".toList ++ fmtInt p) = "Static".toList by
        rw [show "Static,".toList = "Static".toList ++ [','] from by decide]
        unfold plainName
        rw [List.append_assoc, List.takeWhile_append_of_pos (by decide)]
        simp]
      unfold modelColumn
      rw [if_pos rfl]
    | tree n b e t => exact column_plain (s := "DecisionTree".toList) (by decide) (by decide) _
    | forest n b e t => exact column_plain (s := "RandomForest".toList) (by decide) (by decide) _
    | roundRobin n c => exact column_plain (s := "RoundRobin".toList) (by decide) (by decide) _
    | random n c => exact column_plain (s := "Random".toList) (by decide) (by decide) _
    | optimal q => exact column_plain (s := "Optimal".toList) (by decide) (by decide) _
    | datasetMap n q => exact column_plain (s := "DatasetMap".toList) (by decide) (by decide) _
  create := by
    intro t k nf n ps m h
    simp only [policyOps] at h
    split at h
    next m' hm => cases h; exact createPolicyModel_kind hm
    · cases h
    · cases h
  load := by
    intro s m m' h
    cases m with
    | optimal q =>
      simp only [policyOps, PolicyModel.load] at h
      split at h
      · cases h; rfl
      · obtain ⟨q', -, h⟩ := (Res.bind_eq_ok _ _ _).1 h
        cases h; rfl
    | tree n b e t =>
      simp only [policyOps, PolicyModel.load] at h
      split at h
      · cases h
      · obtain ⟨q', -, h⟩ := (Res.bind_eq_ok _ _ _).1 h
        cases h; rfl
    | forest n b e t =>
      simp only [policyOps, PolicyModel.load] at h
      split at h
      · cases h
      · obtain ⟨q', -, h⟩ := (Res.bind_eq_ok _ _ _).1 h
        cases h; rfl
    | null => cases h
    | static n c => cases h; rfl
    | roundRobin n c => cases h; rfl
    | random n c => cases h; rfl
    | datasetMap n q => cases h; rfl

theorem netOps_kinds {α : Type} [Arith α] [Stored α] (gen : ℕ → ℕ → ℕ) (tenv : ℕ → TrainEnv)
    (d : NetDraws α) : Kinds (netOps gen tenv d) where
  toNamed := netOps_named
  column := by
    intro m f p m' h
    rcases netOps_index h with ⟨m₀, m₁, rfl, rfl, h'⟩ | ⟨P, P', rfl, rfl, h'⟩
    · exact (policyOps_kinds gen tenv).column m₀ f p m₁ h'
    · exact column_plain (s := "PolicyNet".toList) (by decide) (by decide) _
  create := by
    intro t k nf n ps m h
    rcases netOps_create h with ⟨m₀, rfl, hn, h'⟩ | ⟨hn, h1, h2, lr, beta, beta1, beta2, th, rfl⟩
    · exact (policyOps_kinds gen tenv).create t k nf n ps m₀ h'
    · rw [hn]
      exact plain_plain (s := "PolicyNet".toList) (by decide)
  load := by
    intro s m m' h
    rcases netOps_load h with ⟨m₀, m₁, rfl, rfl, h'⟩ | ⟨P, P', rfl, rfl, h'⟩
    · exact (policyOps_kinds gen tenv).load s m₀ m₁ h'
    · rfl

/-! ## No trace -/

/-- The file of the trace stays as it is when policies are not traced. -/
theorem untraced_invariant (env : Env M) (F : ℕ → Prop) {cfg : Cfg} (ht : cfg.tracePolicy = false)
    (x : Option Str) :
    Invariant env F (fun w => CfgIs cfg w ∧ FileHolds (policiesPath env.rank) x w) := by
  have hI := CfgIs.invariant env F cfg
  have hp := policiesPath_spared env env.rank
  have hS : Stable env F (FileHolds (policiesPath env.rank) x) := FileHolds.stable F x hp
  exact {
    advance := fun w h => ⟨hI.advance w h.1, hS.advance w h.2⟩
    body := fun w₀ w r s w' h0 h hF ht => ⟨hI.body w₀ w r s w' h0.1 h.1 hF ht,
      hS.body w₀ w r s w' h0.2 h.2 hF ht⟩
    single := fun w ds rs w' h hs ht => ⟨hI.single w ds rs w' h.1 hs ht, hS.single w ds rs w' h.2 hs ht⟩
    collect := fun w r w' h hc => ⟨hI.collect w r w' h.1 hc, hS.kept.collect w r w' h.2 hc⟩
    finish := fun w r c m w' h hc => ⟨hI.finish w r c m w' h.1 hc, hS.finish w r c m w' h.2 hc⟩
    created := fun w nf name n mt info yaml r w' h hc =>
      ⟨hI.created w nf name n mt info yaml r w' h.1 hc, h.2.created hp hc⟩
    began := fun w r c R C w' h hb => ⟨hI.began w r c R C w' h.1 hb, h.2.of hb.files⟩
    assigned := fun w c C f h hC => ⟨hI.assigned w c C f h.1 hC, h.2.of rfl⟩
    feature := fun w c C v h hC => ⟨hI.feature w c C v h.1 hC, h.2.of rfl⟩
    traced := fun w R m f p w' h h1 => ⟨hI.traced w R m f p w' h.1 h1, by
      unfold tracePolicy at h1
      rw [show w.cfg.tracePolicy = false by obtain ⟨G, e⟩ := h.1; rw [e]; exact ht] at h1
      cases h1
      exact h.2⟩
    chose := fun w r c R m C p m' h hR hm hC hp' =>
      ⟨hI.chose w r c R m C p m' h.1 hR hm hC hp', h.2.of rfl⟩
    stop := fun w c C t h hC => ⟨hI.stop w c C t h.1 hC, h.2.of rfl⟩
    ended := fun w r c R h hR hC hne => ⟨hI.ended w r c R h.1 hR hC hne, h.2.of rfl⟩
    period := fun w h => ⟨hI.period w h.1, h.2.of rfl⟩
    destroyed := fun w r R h hR hq => ⟨hI.destroyed w r R h.1 hR hq, h.2.destroyed hp r R⟩ }

end Apollo
