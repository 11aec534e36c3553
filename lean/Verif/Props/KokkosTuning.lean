import Verif.Proofs.KokkosTuning
import Verif.Props.TwoRuns
import Verif.Props.Forest
import Verif.Props.Kokkos
import Verif.Props.Startup
import Verif.Model.KokkosInit
import Verif.Props.Collective

/-!
# C107: the Kokkos connector settles on the fastest candidates
-/

namespace Apollo.Props

open Apollo.Spec Kokkos

/-- A model trained for the first time gives one answer, whatever the features: the best policy of some features. -/
theorem trained_answer {k : Option ℕ} (hk : k ≠ some 0) {n : ℤ} (hn : 0 < n) {d j : ℕ} {env : TrainEnv}
    (hσ : SortSpec env.sort) {h : List Meas} {nf : ℕ} (hf : ∀ x ∈ h, x.features.length = nf)
    (hp : ∀ g c, IsBest (entries h) g c → 0 ≤ c ∧ c < n) {m : PolicyModel}
    (hm : (exploring k n d j).train env (run h) = .ok m) :
    ∃ c, (∃ g, IsBest (entries h) g c) ∧ ∀ f : Features, f.length = nf → m.getIndex f = .ok (c, m) := by
  cases k with
  | none =>
    obtain ⟨c, h1, -, h3⟩ := C17_always_smallest env hσ n d nf _ m h hf hm
    exact ⟨c, h1, h3⟩
  | some k =>
    obtain ⟨new, rfl, hl, htr⟩ := C28_training_appends env n _ m true _ h hm
    simp only [ForestImpl.new, List.nil_append] at hl htr ⊢
    have hone : ∀ t, ∃ c, t ∈ new → (∃ g, IsBest (entries h) g c) ∧ ∀ f : Features, f.length = nf → t.predict f = .ok c := by
      intro t
      by_cases ht : t ∈ new
      · obtain ⟨ys, -, hb, hy⟩ := htr t ht
        obtain ⟨c, ⟨y, hy', rfl⟩, hc⟩ := trained_predict hσ hy (k := nf) fun x hx => by
          obtain ⟨p, hm, -⟩ := hb x hx
          obtain ⟨z, hz, e, -⟩ := (C01_key_iff h x.1 x.2).1 ⟨_, hm⟩
          rw [← e]
          exact hf z hz
        exact ⟨y.2, fun _ => ⟨⟨y.1, hb y hy'⟩, hc⟩⟩
      · exact ⟨0, fun h => absurd h ht⟩
    choose c hc using hone
    have hfa : ∀ f : Features, f.length = nf → List.Forall₂ (fun t c => TreeImpl.predict t f = .ok c) new (new.map c) := by
      intro f hfl
      rw [List.forall₂_map_right_iff, List.forall₂_same]
      exact fun t ht => (hc t ht).2 f hfl
    have hr : ∀ b ∈ new.map c, 0 ≤ b ∧ b < n := by
      intro b hb
      obtain ⟨t, ht, rfl⟩ := List.mem_map.1 hb
      obtain ⟨g, hg⟩ := (hc t ht).1
      exact hp g _ hg
    have hpred : ∀ f : Features, f.length = nf → ∃ w, ForestImpl.predict ⟨new, n, k, d⟩ f = .ok w ∧
        Wins n (new.map c) w := fun f hfl => C27_total ⟨new, n, k, d⟩ f _ (show 1 ≤ n by omega) (hfa f hfl) hr
    obtain ⟨w, -, hw⟩ := hpred (List.replicate nf 0) (by simp)
    have hwm : w ∈ new.map c := by
      obtain ⟨t, ts, hts⟩ := List.exists_cons_of_ne_nil (l := new) (by rintro rfl; simp at hl; exact hk (by rw [← hl]))
      obtain ⟨a1, a2⟩ := hr (c t) (List.mem_map_of_mem (by simp [hts]))
      have := hw.most (c t) a1 a2
      have h1 : 0 < (new.map c).count (c t) := List.count_pos_iff.2 (List.mem_map_of_mem (by simp [hts]))
      exact List.count_pos_iff.1 (by omega)
    obtain ⟨t, ht, rfl⟩ := List.mem_map.1 hwm
    refine ⟨c t, (hc t ht).1, fun f hfl => ?_⟩
    obtain ⟨w', h1, h2⟩ := hpred f hfl
    rw [Wins.unique h2 hw] at h1
    simp only [PolicyModel.getIndex, Bool.not_false, if_true, h1, Res.bind_ok]

/-- The best policies of measurements that depend only on the features and the policy. -/
theorem best_of {l : List Meas} {time : Features → ℤ → ℚ}
    (hx : ∀ x ∈ l, NormalMetric x.metric ∧ x.metric = time x.features x.policy) {g : Features} {c : ℤ}
    (h : IsBest (entries l) g c) : ∀ x ∈ l, x.features = g → time g c ≤ time g x.policy := by
  obtain ⟨m, hm, hbest⟩ := h
  have hmt := entry_time hx hm
  rintro x hx' rfl
  obtain ⟨m', hm'⟩ := (C01_key_iff l x.features x.policy).2 ⟨x, hx', rfl, rfl⟩
  have := entry_time hx hm'
  rcases hbest _ _ hm' with h | ⟨h, -⟩
  · rw [← hmt, ← this]; exact h.le
  · rw [← hmt, ← this]; exact h.le

/-- A policy is decoded into the combination with its number. -/
theorem decode_combination {s : State PolicyModel} {ids : List ℕ} {ds : List Decl} (h : GoodVars s ids ds) (p : ℕ) :
    decode s ids p = .ok (combination ds p) := by
  induction h generalizing p with
  | nil => rfl
  | @cons id d ids ds h _ ih =>
    obtain ⟨v, hv, he⟩ := decode_cons (ids := ids) (p := (p : ℤ)) h.1 h.2 (by omega)
    have e1 : ((p : ℤ) / (d.values.length : ℤ)) = ((p / d.values.length : ℕ) : ℤ) := by push_cast; rfl
    have e2 : ((p : ℤ) % (d.values.length : ℤ)).toNat = p % d.values.length := by
      rw [← Int.natCast_mod, Int.toNat_natCast]
    rw [he, e1, ih, Res.bind_ok, combination]
    rw [e2] at hv
    rw [List.getD_eq_getElem?_getD, hv]
    rfl

theorem combos_eq (ds : List Decl) : combos ds = (combinations ds : ℤ) := by
  induction ds with
  | nil => rfl
  | cons d ds ih =>
    simp only [combos, combinations, List.map_cons, List.prod_cons, Nat.cast_mul] at ih ⊢
    rw [ih]

theorem space_ok {s : State PolicyModel} {ids : List ℕ} {ds : List Decl} (h : GoodVars s ids ds) :
    ∀ {a : ℕ}, 0 < a → a * combinations ds < 2 ^ 31 → spaceSize s ids a = .ok ((a * combinations ds : ℕ) : ℤ) := by
  induction h with
  | nil => intro a _ _; simp [spaceSize, combinations]
  | @cons id d ids ds h hr ih =>
    intro a ha hl
    have hpos : 1 ≤ combinations ds := by
      have := combos_pos (Kokkos.GoodVars.good (s := s) hr)
      rw [combos_eq] at this
      exact_mod_cast this
    have hv := h.2.pos
    have hc : combinations (d :: ds) = d.values.length * combinations ds := by simp [combinations]
    rw [hc, ← mul_assoc] at hl ⊢
    have hle : a * d.values.length ≤ a * d.values.length * combinations ds := Nat.le_mul_of_pos_right _ hpos
    have hd : s.decl id = .ok d := by unfold State.decl; rw [h.1]
    have hsz : d.setSize ≠ 0 := by rw [h.2.size]; omega
    have hmul : (a : ℤ) * d.setSize = ((a * d.values.length : ℕ) : ℤ) := by rw [h.2.size]; push_cast; rfl
    have hi : i64 ((a * d.values.length : ℕ) : ℤ) = .ok ((a * d.values.length : ℕ) : ℤ) := by
      unfold i64
      rw [if_pos ⟨by omega, by omega⟩]
    simp only [spaceSize, hd, Res.bind_ok, if_neg hsz, hmul, hi]
    exact ih (Nat.mul_pos ha hv) hl

theorem GoodVars.decls {s s' : State PolicyModel} (h : s'.decls = s.decls) {ids : List ℕ} {ds : List Decl}
    (hg : GoodVars s ids ds) : GoodVars s' ids ds := by
  unfold GoodVars at *
  rw [h]
  exact hg

theorem declared {e : KEnv PolicyModel} {ops : List KOp} (hd : ∀ op ∈ ops, IsDeclaration op) :
    ∀ {s s' : State PolicyModel} {xs : List Kokkos.Ret}, kexec e ops s = .ok (xs, s') →
    chosenValues xs = [] ∧ s' = { s with decls := s'.decls } := by
  induction ops with
  | nil => intro s s' xs h; simp only [kexec] at h; cases h; exact ⟨rfl, rfl⟩
  | cons op ops ih =>
    intro s s' xs h
    obtain ⟨x, s1, ys, h1, h2, rfl⟩ := kexec_cons h
    obtain ⟨h3, h4⟩ := ih (fun o ho => hd o (by simp [ho])) h2
    have hstep : x = .unit ∧ s1 = { s with decls := s1.decls } := by
      have := hd op (by simp)
      cases op with
      | declareOutput id name c =>
        simp only [kstep] at h1
        obtain ⟨t, ht, h1⟩ := (Res.bind_eq_ok _ _ _).1 h1
        cases h1
        unfold declareOutput at ht
        split at ht
        · cases ht
        · obtain ⟨⟨n, vs⟩, -, ht⟩ := (Res.bind_eq_ok _ _ _).1 ht
          cases ht
          exact ⟨rfl, rfl⟩
      | declareInput id name =>
        simp only [kstep] at h1
        obtain ⟨t, ht, h1⟩ := (Res.bind_eq_ok _ _ _).1 h1
        cases h1
        unfold declareInput at ht
        split at ht
        · cases ht
        · cases ht
          exact ⟨rfl, rfl⟩
      | request => cases this
      | endContext => cases this
    obtain ⟨rfl, hs1⟩ := hstep
    refine ⟨h3, ?_⟩
    rw [h4, hs1]

theorem name_ok {s : State PolicyModel} : ∀ {ids : List ℕ},
    (∀ id ∈ ids, ∃ d, s.decls id = some d ∧ d.name.length < 64) → ∃ name, regionName s ids = .ok name := by
  intro ids
  induction ids with
  | nil => intro _; exact ⟨[], rfl⟩
  | cons id ids ih =>
    intro h
    obtain ⟨d, hd, hl⟩ := h id (by simp)
    obtain ⟨name, hn⟩ := ih fun i hi => h i (by simp [hi])
    have : s.decl id = .ok d := by unfold State.decl; rw [hd]
    simp only [regionName, this, Res.bind_ok, hn, if_neg (by omega : ¬ 64 ≤ d.name.length)]
    exact ⟨_, rfl⟩

/-- A process with the connector, in which the variables of one tuning problem were declared. -/
structure Tuning (e : KEnv PolicyModel) (gen : ℕ → ℕ → ℕ) (tenv : ℕ → TrainEnv) (model : Str)
    (files : Str → Option Str) (decls : List KOp) (s : State PolicyModel) (inputs tuning : List ℕ) (ds : List Decl) :
    Prop where
  ops : e.env.ops = policyOps gen tenv
  sort : ∀ t, SortSpec (tenv t).sort
  clean : ∀ name, files (modelPath name) = none
  declarations : ∀ op ∈ decls, IsDeclaration op
  run : ∃ xs, kexec e decls (initState (kcfg model) files) = .ok (xs, s)
  vars : GoodVars s tuning ds
  ne : tuning ≠ []
  names : ∀ id ∈ inputs ++ tuning, ∃ d, s.decls id = some d ∧ d.name.length < 64
  few : (inputs ++ tuning).length ≤ 50
  small : combinations ds < 2 ^ 31

theorem Tuning.fresh {e : KEnv PolicyModel} {gen : ℕ → ℕ → ℕ} {tenv : ℕ → TrainEnv} {model : Str}
    {files : Str → Option Str} {decls : List KOp} {s : State PolicyModel} {inputs tuning : List ℕ} {ds : List Decl}
    (h : Tuning e gen tenv model files decls s inputs tuning ds) (hlearn : Learns model) :
    ∃ k d, k ≠ some 0 ∧ Fresh e gen tenv model files s (inputs ++ tuning) tuning inputs.length (combinations ds)
      (fun c => combination ds c.toNat) k d := by
  obtain ⟨xs, hx⟩ := h.run
  obtain ⟨-, hs⟩ := declared h.declarations hx
  obtain ⟨name, hname⟩ := name_ok h.names
  have hpos : 0 < combinations ds := by
    have := combos_pos h.vars.good
    rw [combos_eq] at this
    exact_mod_cast this
  have hmade : ∃ k d, k ≠ some 0 ∧ Made (gen 0) model inputs.length (combinations ds)
      (exploring k (combinations ds) d 0) := by
    rcases hlearn with rfl | rfl | rfl
    · exact ⟨none, 2, by simp, "DecisionTree".toList, [], by decide +kernel, by decide, rfl, rfl, rfl, by decide, by decide⟩
    · exact ⟨some 10, 2, by simp, "RandomForest".toList, [], by decide +kernel, by decide, rfl, rfl, rfl, by decide, by decide⟩
    · exact ⟨some 10, 2, by simp, "RandomForest".toList, [("explore".toList, "RoundRobin".toList)], by decide +kernel,
        by decide, rfl, rfl, rfl, by decide, by decide⟩
  obtain ⟨k, d, hk, hm⟩ := hmade
  refine ⟨k, d, hk, h.ops, by rw [hs]; rfl, by rw [hs]; rfl, by rw [hs]; rfl, h.ne, h.few, ⟨name, hname, h.clean _⟩,
    by exact_mod_cast hpos, by exact_mod_cast h.small, fun s' h' => ?_, fun c h0 h1 s' h' => ?_, hm⟩
  · simpa using space_ok (GoodVars.decls h' h.vars) (a := 1) one_pos (by simpa using h.small)
  · obtain ⟨p, rfl⟩ := Int.eq_ofNat_of_zero_le h0
    exact decode_combination (GoodVars.decls h' h.vars) p

/-- Kernels with context variables: the first `flush_interval` runs try the combinations in turn.  All later runs
get the same combination, whatever the values of the context variables; it is the fastest of those tried with the
values of some run. -/
theorem C107_settles {e : KEnv PolicyModel} {gen : ℕ → ℕ → ℕ} {tenv : ℕ → TrainEnv} {model : Str}
    {files : Str → Option Str} {decls : List KOp} {s : State PolicyModel} {inputs tuning : List ℕ} {ds : List Decl}
    (h : Tuning e gen tenv model files decls s inputs tuning ds) (hlearn : Learns model) (cid : ℕ) {first rest : List (List (ℕ × Value))}
    (hctx : ∀ ctx ∈ first ++ rest, ctx.map Prod.fst = inputs)
    (hfit : ∀ ctx ∈ first, ∀ v ∈ ctx, FitsInt (toFloat e.hash v.2)) (hl : (first.length : ℤ) = e.flush)
    (hp : 0 < first.length) (hmax : first.length ≤ 2 ^ 19) (hl' : first.length + rest.length < 2 ^ 31) :
    ∃ rets s' v, kexec e (decls ++ kernelRuns cid tuning (first ++ rest)) (initState (kcfg model) files) =
        .ok (rets, s') ∧
      chosenValues rets = (List.range first.length).map (fun j => combination ds (j % combinations ds)) ++
        List.replicate rest.length v ∧
      ∃ i, ∃ hi : i < first.length, v = combination ds (i % combinations ds) ∧
        ∀ cost : List ℚ → List Value → ℚ,
          (∀ j, ∀ hj : j < first.length, NormalMetric (elapsed e.env.clock j) ∧
            elapsed e.env.clock j = cost (feats e first[j]) (combination ds (j % combinations ds))) →
          ∀ j, ∀ hj : j < first.length, feats e first[j] = feats e first[i] →
            cost (feats e first[i]) v ≤ cost (feats e first[i]) (combination ds (j % combinations ds)) := by
  obtain ⟨k, d, hk, hf⟩ := h.fresh hlearn
  obtain ⟨xs, hx⟩ := h.run
  obtain ⟨hcv, -⟩ := declared h.declarations hx
  have hpos : 0 < (combinations ds : ℤ) := hf.pos
  have hlen : ∀ ctx ∈ first ++ rest, ctx.length = inputs.length := fun c hc => by
    rw [← hctx c hc, List.length_map]
  obtain ⟨rets, s', m', h1, h2, ans, h3, h4⟩ := hf.tuned h.sort cid (first := first) (rest := rest)
    (fun c hc => by rw [hctx c hc]) hlen
    (fun c hc v hv => by
      obtain ⟨w, hw, rfl⟩ := List.mem_map.1 hv
      exact hfit c hc w hw) hl hp hmax hl'
  have hmem : ∀ x, x ∈ measured e.env.clock 1 (first.map (feats e)) (fun j => (j : ℤ) % (combinations ds : ℤ)) ↔
      ∃ j, ∃ hj : j < first.length, x = ⟨feats e first[j], ((j % combinations ds : ℕ) : ℤ), elapsed e.env.clock j⟩ := by
    intro x
    rw [mem_measured]
    simp only [List.length_map, List.getElem_map, elapsed]
    refine exists_congr fun j => exists_congr fun hj => ?_
    rw [show 1 + 2 * j + 1 = 2 * j + 2 by omega, show 1 + 2 * j = 2 * j + 1 by omega]
    push_cast
    rfl
  generalize hM : measured e.env.clock 1 (first.map (feats e)) (fun j => (j : ℤ) % (combinations ds : ℤ)) = l at h2 hmem
  have hbest : ∀ g c, IsBest (entries l) g c → ∃ i, ∃ hi : i < first.length, feats e first[i] = g ∧
      ((i % combinations ds : ℕ) : ℤ) = c := by
    rintro g c ⟨p, hm, -⟩
    obtain ⟨x, hx, e1, e2⟩ := (C01_key_iff l g c).1 ⟨_, hm⟩
    obtain ⟨j, hj, rfl⟩ := (hmem x).1 hx
    exact ⟨j, hj, e1, e2⟩
  obtain ⟨c, ⟨g, hg⟩, hc⟩ := trained_answer hk hpos (h.sort _) (nf := inputs.length)
    (fun x hx => by
      obtain ⟨j, hj, rfl⟩ := (hmem x).1 hx
      rw [feats, List.length_map]
      exact hlen _ (by simp))
    (fun g c hgc => by
      obtain ⟨i, hi, -, rfl⟩ := hbest g c hgc
      exact ⟨by omega, by exact_mod_cast Nat.mod_lt _ (by omega)⟩) h2
  obtain ⟨i, hi, rfl, rfl⟩ := hbest g c hg
  refine ⟨xs ++ rets, s', combination ds (i % combinations ds), ?_, ?_, i, hi, rfl, fun cost ht j hj hij => ?_⟩
  · rw [kexec_append, hx, Res.bind_ok]
    simp only
    rw [h1]
    rfl
  · rw [chosenValues_append, hcv, List.nil_append, h4]
    congr 1
    · rw [List.eq_replicate_iff]
      refine ⟨by simp, fun v hv => ?_⟩
      obtain ⟨ctx, hctx', rfl⟩ := List.mem_map.1 hv
      have h5 := (h3 ctx hctx').1
      rw [hc _ (by rw [feats, List.length_map]; exact hlen _ (by simp [hctx']))] at h5
      have : ((i % combinations ds : ℕ) : ℤ) = ans ctx := by
        injection h5 with h5
        injection h5
      rw [← this, Int.toNat_natCast]
  · have := best_of (time := fun f c => cost f (combination ds c.toNat)) (fun x hx => by
      obtain ⟨j, hj, rfl⟩ := (hmem x).1 hx
      obtain ⟨a, b⟩ := ht j hj
      exact ⟨a, by simpa only [Int.toNat_natCast] using b⟩) hg ⟨feats e first[j], ((j % combinations ds : ℕ) : ℤ), elapsed e.env.clock j⟩
      ((hmem _).2 ⟨j, hj, rfl⟩) hij
    simpa only [Int.toNat_natCast] using this

/-- Every combination has a number. -/
theorem combination_of {ds : List Decl} {vs : List Value} (h : Combination ds vs) :
    ∃ p < combinations ds, combination ds p = vs := by
  induction h with
  | nil => exact ⟨0, by simp [combinations], rfl⟩
  | @cons v d vs ds hv _ ih =>
    obtain ⟨p, hp, rfl⟩ := ih
    obtain ⟨i, hi, rfl⟩ := List.mem_iff_getElem.1 hv
    refine ⟨i + d.values.length * p, ?_, ?_⟩
    · have : combinations (d :: ds) = d.values.length * combinations ds := by simp [combinations]
      rw [this]
      nlinarith
    · rw [combination, Nat.add_mul_mod_self_left, Nat.mod_eq_of_lt hi, Nat.add_mul_div_left _ _ (by omega),
        Nat.div_eq_of_lt hi, Nat.zero_add]
      simp [List.getD_eq_getElem?_getD, hi]

theorem combination_is {ds : List Decl} (h : ∀ d ∈ ds, d.values ≠ []) (p : ℕ) : Combination ds (combination ds p) := by
  induction ds generalizing p with
  | nil => exact .nil
  | cons d ds ih =>
    refine .cons ?_ (ih (fun d hd => h d (by simp [hd])) _)
    have := List.length_pos_iff.2 (h d (by simp))
    have hm := Nat.mod_lt p this
    rw [List.getD_eq_getElem?_getD, List.getElem?_eq_getElem hm]
    simp

/-- C107: kernels without context variables, if there are at most `flush_interval` combinations: every run after the
first `flush_interval` gets the fastest combination. -/
theorem C107_fastest_partial {e : KEnv PolicyModel} {gen : ℕ → ℕ → ℕ} {tenv : ℕ → TrainEnv} {model : Str}
    {files : Str → Option Str} {decls : List KOp} {s : State PolicyModel} {tuning : List ℕ} {ds : List Decl}
    (h : Tuning e gen tenv model files decls s [] tuning ds) (hlearn : Learns model) (cid F K : ℕ)
    (hF : (F : ℤ) = e.flush) (hp : 0 < F) (hmax : F ≤ 2 ^ 19) (hK : F + K < 2 ^ 31) (hN : combinations ds ≤ F) {cost : List Value → ℚ}
    (hcost : ∀ j < F, NormalMetric (elapsed e.env.clock j) ∧
      elapsed e.env.clock j = cost (combination ds (j % combinations ds))) :
    ∃ rets s' v, kexec e (decls ++ kernelRuns cid tuning (List.replicate (F + K) [])) (initState (kcfg model) files) =
        .ok (rets, s') ∧
      (chosenValues rets).length = F + K ∧ (∀ u ∈ (chosenValues rets).drop F, u = v) ∧ Combination ds v ∧
      ∀ u, Combination ds u → cost v ≤ cost u := by
  obtain ⟨rets, s', v, h1, h2, i, hi, rfl, h3⟩ := C107_settles h hlearn cid (first := List.replicate F [])
    (rest := List.replicate K []) (by simp) (by simp) (by simpa using hF) (by simpa using hp)
    (by simpa using hmax) (by simpa using hK)
  rw [List.replicate_append_replicate] at h1
  have hne : ∀ d ∈ ds, d.values ≠ [] := fun d hd h0 => by
    have := (h.vars.good d hd).pos
    rw [h0] at this
    simp at this
  refine ⟨rets, s', combination ds (i % combinations ds), h1, by rw [h2]; simp, ?_, combination_is hne _, fun u hu => ?_⟩
  · rw [h2, List.length_replicate, List.drop_left' (by simp)]
    simp
  · obtain ⟨p, hp', rfl⟩ := combination_of hu
    have hpF : p < F := by omega
    have := h3 (fun _ => cost) (fun j hj => hcost j (by simpa using hj)) p (by simpa using hpF) (by simp)
    rwa [Nat.mod_eq_of_lt hp'] at this

/-- Different numbers are different combinations, if no candidate occurs twice. -/
theorem combination_inj {ds : List Decl} (hn : ∀ d ∈ ds, d.values.Nodup) : ∀ {p q : ℕ}, p < combinations ds →
    q < combinations ds → combination ds p = combination ds q → p = q := by
  induction ds with
  | nil => intro p q hp hq _; simp [combinations] at hp hq; omega
  | cons d ds ih =>
    intro p q hp hq h
    have hc : combinations (d :: ds) = d.values.length * combinations ds := by simp [combinations]
    rw [hc] at hp hq
    have hpos : 0 < d.values.length := Nat.pos_of_ne_zero fun h0 => by rw [h0] at hp; simp at hp
    have h1 := Nat.mod_lt p hpos
    have h2 := Nat.mod_lt q hpos
    simp only [combination, List.cons.injEq] at h
    have e1 : p % d.values.length = q % d.values.length := by
      have h3 := h.1
      rw [List.getD_eq_getElem _ _ h1, List.getD_eq_getElem _ _ h2] at h3
      exact (hn d (by simp)).getElem_inj_iff.1 h3
    have e2 := ih (fun d hd => hn d (by simp [hd])) (Nat.div_lt_of_lt_mul hp) (Nat.div_lt_of_lt_mul hq) h.2
    rw [← Nat.div_add_mod p d.values.length, ← Nat.div_add_mod q d.values.length, e1, e2]

/-- With more combinations than `flush_interval` those beyond are never tried and never chosen. -/
theorem C107_untried {e : KEnv PolicyModel} {gen : ℕ → ℕ → ℕ} {tenv : ℕ → TrainEnv} {model : Str}
    {files : Str → Option Str} {decls : List KOp} {s : State PolicyModel} {inputs tuning : List ℕ} {ds : List Decl}
    (h : Tuning e gen tenv model files decls s inputs tuning ds) (hlearn : Learns model) (cid : ℕ)
    {first rest : List (List (ℕ × Value))} (hctx : ∀ ctx ∈ first ++ rest, ctx.map Prod.fst = inputs)
    (hfit : ∀ ctx ∈ first, ∀ v ∈ ctx, FitsInt (toFloat e.hash v.2)) (hl : (first.length : ℤ) = e.flush)
    (hp : 0 < first.length) (hmax : first.length ≤ 2 ^ 19) (hl' : first.length + rest.length < 2 ^ 31)
    (hn : ∀ d ∈ ds, d.values.Nodup) {p : ℕ} (hp1 : first.length ≤ p) (hp2 : p < combinations ds) :
    ∃ rets s', kexec e (decls ++ kernelRuns cid tuning (first ++ rest)) (initState (kcfg model) files) =
        .ok (rets, s') ∧ (chosenValues rets).length = first.length + rest.length ∧
      combination ds p ∉ chosenValues rets := by
  obtain ⟨rets, s', v, h1, h2, i, hi, rfl, -⟩ := C107_settles h hlearn cid hctx hfit hl hp hmax hl'
  refine ⟨rets, s', h1, by rw [h2]; simp, fun hmem => ?_⟩
  have key : ∀ j < first.length, combination ds p ≠ combination ds (j % combinations ds) := by
    intro j hj heq
    have := combination_inj hn hp2 (Nat.mod_lt _ (by omega)) heq
    rw [Nat.mod_eq_of_lt (by omega)] at this
    omega
  rw [h2, List.mem_append] at hmem
  rcases hmem with hmem | hmem
  · obtain ⟨j, hj, he⟩ := List.mem_map.1 hmem
    exact key j (List.mem_range.1 hj) he.symm
  · exact key i hi (List.eq_of_mem_replicate hmem)

/-- The configuration with which the connector starts the library if only the model is set. -/
theorem C107_start (os : Os) (model : Option Str) (he : ∀ v, os.getenv v = if v = "APOLLO_POLICY_MODEL".toList then
    model else none) (hd : ∀ d, os.mkdir d = true) :
    initLibrary os = .ok (kcfg (model.getD "Static,policy=0".toList)) := by
  let os' : Os := { os with getenv := initEnviron os.getenv }
  let os0 : Os := { getenv := initEnviron fun _ => none }
  have hd' : ∀ d, os'.mkdir d = true := hd
  have hg : ∀ n d : String, n.toList ≠ "APOLLO_POLICY_MODEL".toList → safeGetEnv os' n d = safeGetEnv os0 n d := by
    intro n d hn
    simp only [safeGetEnv, os', os0, initEnviron, Function.update_apply, he, if_neg hn]
  have hp : safeGetEnv os' "APOLLO_POLICY_MODEL" "Static,policy=0" = model.getD "Static,policy=0".toList := by
    simp [safeGetEnv, os', initEnviron, he]
  have hi : ∀ n d : String, n.toList ≠ "APOLLO_POLICY_MODEL".toList → getInt os' n d = getInt os0 n d := by
    intro n d hn
    unfold getInt
    rw [hg n d hn]
  have hq : ∀ n d : String, n.toList ≠ "APOLLO_POLICY_MODEL".toList → getFloat os' n d = getFloat os0 n d := by
    intro n d hn
    unfold getFloat
    rw [hg n d hn]
  have i0 : getInt os' "APOLLO_COLLECTIVE_TRAINING" "0" = .ok 0 := (hi _ _ (by decide)).trans (by decide +kernel)
  have i1 : getInt os' "APOLLO_LOCAL_TRAINING" "1" = .ok 1 := (hi _ _ (by decide)).trans (by decide +kernel)
  have i2 : getInt os' "APOLLO_SINGLE_MODEL" "0" = .ok 0 := (hi _ _ (by decide)).trans (by decide +kernel)
  have i3 : getInt os' "APOLLO_REGION_MODEL" "1" = .ok 1 := (hi _ _ (by decide)).trans (by decide +kernel)
  have i4 : getInt os' "APOLLO_GLOBAL_TRAIN_PERIOD" "0" = .ok 0 := (hi _ _ (by decide)).trans (by decide +kernel)
  have i5 : getInt os' "APOLLO_PER_REGION_TRAIN_PERIOD" "0" = .ok 0 := (hi _ _ (by decide)).trans (by decide +kernel)
  have i6 : getInt os' "APOLLO_TRACE_POLICY" "0" = .ok 0 := (hi _ _ (by decide)).trans (by decide +kernel)
  have i7 : getInt os' "APOLLO_STORE_MODELS" "0" = .ok 1 := (hi _ _ (by decide)).trans (by decide +kernel)
  have i8 : getInt os' "APOLLO_TRACE_RETRAIN" "0" = .ok 0 := (hi _ _ (by decide)).trans (by decide +kernel)
  have i9 : getInt os' "APOLLO_TRACE_ALLGATHER" "0" = .ok 0 := (hi _ _ (by decide)).trans (by decide +kernel)
  have i10 : getInt os' "APOLLO_TRACE_BEST_POLICIES" "0" = .ok 1 := (hi _ _ (by decide)).trans (by decide +kernel)
  have i11 : getInt os' "APOLLO_RETRAIN_ENABLE" "0" = .ok 0 := (hi _ _ (by decide)).trans (by decide +kernel)
  have i12 : getInt os' "APOLLO_TRACE_CSV" "0" = .ok 0 := (hi _ _ (by decide)).trans (by decide +kernel)
  have i13 : getInt os' "APOLLO_PERSISTENT_DATASETS" "0" = .ok 0 := (hi _ _ (by decide)).trans (by decide +kernel)
  have i14 : getInt os' "APOLLO_STORE_EXEC_INFO" "0" = .ok 0 := (hi _ _ (by decide)).trans (by decide +kernel)
  have q0 : getFloat os' "APOLLO_RETRAIN_TIME_THRESHOLD" "2.0" = .ok 2 := (hq _ _ (by decide)).trans (by decide +kernel)
  have q1 : getFloat os' "APOLLO_RETRAIN_REGION_THRESHOLD" "0.5" = .ok (1 / 2) :=
    (hq _ _ (by decide)).trans (by decide +kernel)
  have s0 : safeGetEnv os' "APOLLO_OUTPUT_DIR" ".apollo" = ".apollo".toList := (hg _ _ (by decide)).trans (by decide +kernel)
  have s1 : safeGetEnv os' "APOLLO_DATASETS_DIR" "datasets" = "datasets".toList := (hg _ _ (by decide)).trans (by decide +kernel)
  have s2 : safeGetEnv os' "APOLLO_TRACES_DIR" "traces" = "traces".toList := (hg _ _ (by decide)).trans (by decide +kernel)
  have s3 : safeGetEnv os' "APOLLO_MODELS_DIR" "models" = "models".toList := (hg _ _ (by decide)).trans (by decide +kernel)
  change startup os' = _
  unfold startup readSettings createDirs createDirIf createDir openGtrace
  simp only [hd', i0, i1, i2, i3, i4, i5, i6, i7, i8, i9, i10, i11, i12, i13, i14,
    q0, q1, s0, s1, s2, s3, hp, Res.bind_ok, checkSettings_iff]
  simp [Settings.cfg, kcfg]

/-- Without a model in the environment the connector never tries anything: every run gets the first candidates. -/
theorem C107_default {e : KEnv PolicyModel} {gen : ℕ → ℕ → ℕ} {tenv : ℕ → TrainEnv}
    {files : Str → Option Str} {decls : List KOp} {s : State PolicyModel} {inputs tuning : List ℕ} {ds : List Decl}
    (h : Tuning e gen tenv "Static,policy=0".toList files decls s inputs tuning ds) (cid : ℕ)
    {ctxs : List (List (ℕ × Value))} (hctx : ∀ ctx ∈ ctxs, ctx.map Prod.fst = inputs) (hfl : e.flush ≠ 0)
    (hl : ctxs.length < 2 ^ 31) :
    ∃ rets s', kexec e (decls ++ kernelRuns cid tuning ctxs) (initState (kcfg "Static,policy=0".toList) files) =
        .ok (rets, s') ∧ chosenValues rets = List.replicate ctxs.length (combination ds 0) := by
  obtain ⟨xs, hx⟩ := h.run
  obtain ⟨hcv, hs⟩ := declared h.declarations hx
  obtain ⟨name, hname⟩ := name_ok h.names
  have hmade : Made (gen 0) "Static,policy=0".toList inputs.length (combinations ds) (.static (combinations ds) 0) := by
    refine ⟨"Static".toList, [("policy".toList, "0".toList)], by decide +kernel, by decide, ?_, by decide,
      by decide, by decide, by decide⟩
    have hp : paramOr [("policy".toList, "0".toList)] "policy".toList readInt' 0 = .ok 0 := by decide +kernel
    have hs : createStatic (combinations ds) [("policy".toList, "0".toList)] = .ok (.static (combinations ds) 0) := by
      unfold createStatic
      rw [hp, Res.bind_ok]
      split <;> [skip; split] <;> first | rfl | omega
    unfold createModel createPolicyModel
    rw [if_pos rfl, hs]
    rfl
  have hsp : ∀ s' : State PolicyModel, s'.decls = s.decls → spaceSize s' tuning 1 = .ok (combinations ds : ℤ) := by
    intro s' h'
    simpa using space_ok (GoodVars.decls h' h.vars) (a := 1) one_pos (by simpa using h.small)
  have hsm := h.small
  obtain ⟨s1, R, h1, h2, h3, h4, h5⟩ := first_request h.ops (s := s) (by rw [hs]; rfl) (by rw [hs]; rfl) (by rw [hs]; rfl)
    hname (h.clean _) ⟨by omega, by exact_mod_cast hsm⟩ hmade
  have hrw : kexec e (kernelRuns cid tuning ctxs) s = .ok ([], s) ∧ ctxs = [] ∨
      kexec e (kernelRuns cid tuning ctxs) s = kexec e (kernelRuns cid tuning ctxs) s1 := by
    cases ctxs with
    | nil => exact .inl ⟨rfl, rfl⟩
    | cons ctx ctxs =>
      right
      have hi := hctx ctx (by simp)
      have hl : ctx.length = inputs.length := by rw [← hi, List.length_map]
      have hp : problemRegion e s1 (inputs ++ tuning) inputs.length (combinations ds) = .ok (0, s1) := by
        rw [problemRegion, h2.regions, find_self]
      rw [kernelRuns, List.flatMap_cons, List.cons_append, kexec, kexec]
      simp only [kstep, request, if_neg h.ne, hsp s rfl, hsp s1 h2.decls, Res.bind_ok, hi, hl, h1, hp]
  rcases hrw with ⟨hr, rfl⟩ | hr
  · exact ⟨xs ++ [], s, by rw [kexec_append, hx, Res.bind_ok]; simp only; rw [hr]; rfl, by simp [hcv]⟩
  · obtain ⟨rets, s', R', e1, e2, -⟩ := uses_list h.ne h.few hsp hfl cid (b := false) (ctxs := ctxs)
      (ms := fun _ => .static (combinations ds) 0) (cs := fun _ => 0) (vs := fun _ => combination ds 0) (h := []) h2
      (fun c hc => by rw [hctx c hc]) (by omega) (by omega) h4 (fun j hj => by
        rw [h.ops]
        exact ⟨rfl, rfl, fun s' h' => by simpa using decode_combination (GoodVars.decls h' h.vars) 0, by simp⟩)
    refine ⟨xs ++ rets, s', ?_, ?_⟩
    · rw [kexec_append, hx, Res.bind_ok]
      simp only
      rw [hr, e1]
      rfl
    · rw [chosenValues_append, hcv, e2]
      simp

/-- The property in full: after the first `flush_interval` runs every run gets a combination that is fastest for the
values of its context variables. -/
def C107 : Prop :=
  ∀ (e : KEnv PolicyModel) (gen : ℕ → ℕ → ℕ) (tenv : ℕ → TrainEnv) (model : Str) (files : Str → Option Str)
    (decls : List KOp) (s : State PolicyModel) (inputs tuning : List ℕ) (ds : List Decl),
    Tuning e gen tenv model files decls s inputs tuning ds → Learns model →
    ∀ (cid : ℕ) (first rest : List (List (ℕ × Value))), (∀ ctx ∈ first ++ rest, ctx.map Prod.fst = inputs) →
    (∀ ctx ∈ first, ∀ v ∈ ctx, FitsInt (toFloat e.hash v.2)) → (first.length : ℤ) = e.flush → 0 < first.length →
    first.length ≤ 2 ^ 19 → first.length + rest.length < 2 ^ 31 →
    ∀ cost : List ℚ → List Value → ℚ, (∀ j, ∀ hj : j < first.length, NormalMetric (elapsed e.env.clock j) ∧
      elapsed e.env.clock j = cost (feats e first[j]) (combination ds (j % combinations ds))) →
    ∀ rets s', kexec e (decls ++ kernelRuns cid tuning (first ++ rest)) (initState (kcfg model) files) = .ok (rets, s') →
    ∀ j, ∀ hj : j < rest.length, ∃ v, (chosenValues rets)[first.length + j]? = some v ∧
      ∀ u, Combination ds u → cost (feats e rest[j]) v ≤ cost (feats e rest[j]) u

/-! ## Cases -/

/-- One tuning variable with the candidates 4 and 8, and one context variable. -/
def tileDecls : List KOp :=
  [.declareOutput 1 "tile".toList (.set [.int 4, .int 8]), .declareInput 3 "size".toList]

/-- The declaration of the tuning variable. -/
def tile : Decl := ⟨"tile".toList, 2, [.int 4, .int 8]⟩

/-- Real models. -/
def tileEnv (clock : ℕ → ℤ × ℤ) : KEnv PolicyModel where
  env := { ops := policyOps (fun _ _ => 0) (fun _ => ⟨isort, id⟩), clock := clock }
  flush := 4

/-- The state after the declarations. -/
def tileState (model : Str) : State PolicyModel :=
  { initState (kcfg model) fun _ => none with
    decls := Function.update (Function.update (fun _ => none) 1 (some tile)) 3 (some ⟨"size".toList, 0, []⟩) }

theorem tileTuning (clock : ℕ → ℤ × ℤ) (model : Str) (inputs : List ℕ) (h : inputs = [] ∨ inputs = [3]) :
    Tuning (tileEnv clock) (fun _ _ => 0) (fun _ => ⟨isort, id⟩) model (fun _ => none) tileDecls (tileState model)
      inputs [1] [tile] where
  ops := rfl
  sort := fun _ => isort_spec
  clean := fun _ => rfl
  declarations := by simp [tileDecls, IsDeclaration]
  run := ⟨[.unit, .unit], rfl⟩
  vars := .cons ⟨rfl, ⟨rfl, by decide, by decide⟩⟩ .nil
  ne := by simp
  names := by
    rcases h with rfl | rfl
    · intro id hid
      simp only [List.nil_append, List.mem_singleton] at hid
      subst hid
      exact ⟨_, rfl, by decide⟩
    · intro id hid
      simp only [List.singleton_append, List.mem_cons, List.not_mem_nil, or_false] at hid
      rcases hid with rfl | rfl
      · exact ⟨_, rfl, by decide⟩
      · exact ⟨_, rfl, by decide⟩
  few := by rcases h with rfl | rfl <;> simp
  small := by decide

/-- Size 1 takes one second with 4 and two with 8; size 2 the other way round. -/
def sizeClock (t : ℕ) : ℤ × ℤ :=
  ([0, 0, 1, 10, 12, 20, 22, 30, 31].getD t 40, 0)

theorem normal_small {n : ℕ} (h : n = 1 ∨ n = 2) : NormalMetric (n : ℚ) := by
  refine normal_of_ge ⟨by exact_mod_cast (finite64_nat (n := n) (by omega)).1, ?_⟩
  refine (zpow_le_one_of_nonpos₀ (by norm_num) (by norm_num)).trans ?_
  rcases h with rfl | rfl <;> norm_num

/-- Two sizes with different fastest candidates, both tried with both candidates before the training: the connector
uses the same candidate for both afterwards. -/
theorem C107_fails : ¬ C107 := by
  intro h
  let cost : List ℚ → List Value → ℚ := fun f v => if (f = [1] ↔ v = [.int 4]) then 1 else 2
  let a : List (ℕ × Value) := [(3, .int 1)]
  let b : List (ℕ × Value) := [(3, .int 2)]
  have hT := tileTuning sizeClock "DecisionTree".toList [3] (.inr rfl)
  have hctx : ∀ ctx ∈ [a, a, b, b] ++ [a, b], ctx.map Prod.fst = [3] := by decide +kernel
  have hfit : ∀ ctx ∈ [a, a, b, b], ∀ v ∈ ctx, FitsInt (toFloat (tileEnv sizeClock).hash v.2) := by
    decide +kernel
  have hcost : ∀ j, ∀ hj : j < [a, a, b, b].length, NormalMetric (elapsed sizeClock j) ∧
      elapsed sizeClock j = cost (feats (tileEnv sizeClock) [a, a, b, b][j])
        (combination [tile] (j % combinations [tile])) := by
    have h1 : ∀ j, ∀ hj : j < [a, a, b, b].length, (elapsed sizeClock j = (1 : ℕ) ∨ elapsed sizeClock j = (2 : ℕ)) ∧
        elapsed sizeClock j = cost (feats (tileEnv sizeClock) [a, a, b, b][j])
          (combination [tile] (j % combinations [tile])) := by decide +kernel
    intro j hj
    obtain ⟨h2, h3⟩ := h1 j hj
    refine ⟨?_, h3⟩
    rcases h2 with h2 | h2 <;> rw [h2]
    · exact normal_small (.inl rfl)
    · exact normal_small (.inr rfl)
  obtain ⟨rets, s', v, h1, h2, -⟩ := C107_settles hT (.inl rfl) 7 hctx hfit rfl (by decide) (by decide) (by decide)
  have key := h _ _ _ _ _ _ _ _ _ _ hT (.inl rfl) 7 [a, a, b, b] [a, b] hctx hfit rfl (by decide) (by decide)
    (by decide) cost hcost rets s' h1
  rw [h2] at key
  obtain ⟨v1, e1, k1⟩ := key 0 (by decide)
  obtain ⟨v2, e2, k2⟩ := key 1 (by decide)
  have e3 : v1 = v := by simpa using e1.symm
  have e4 : v2 = v := by simpa using e2.symm
  subst e3 e4
  have m4 : Combination [tile] [.int 4] := .cons (by simp [tile]) .nil
  have m8 : Combination [tile] [.int 8] := .cons (by simp [tile]) .nil
  have c1 := k1 _ m4
  have c2 := k2 _ m8
  rw [show cost (feats (tileEnv sizeClock) [a, b][0]) [.int 4] = 1 by decide +kernel] at c1
  rw [show cost (feats (tileEnv sizeClock) [a, b][1]) [.int 8] = 1 by decide +kernel] at c2
  have f1 : feats (tileEnv sizeClock) [a, b][0] = [1] := by decide +kernel
  have f2 : feats (tileEnv sizeClock) [a, b][1] = [2] := by decide +kernel
  rw [f1] at c1
  rw [f2] at c2
  by_cases hv : v2 = [.int 4]
  · norm_num [cost, hv] at c2
  · norm_num [cost, hv] at c1

/-- The hypotheses of `C107_settles` for the two sizes, with the contexts above. -/
example : Tuning (tileEnv sizeClock) (fun _ _ => 0) (fun _ => ⟨isort, id⟩) "RandomForest".toList (fun _ => none)
    tileDecls (tileState "RandomForest".toList) [3] [1] [tile] ∧ Learns "RandomForest".toList :=
  ⟨tileTuning _ _ _ (.inr rfl), .inr (.inl rfl)⟩

/-- Candidate 4 takes one second, candidate 8 two. -/
def tileClock (t : ℕ) : ℤ × ℤ :=
  ([0, 0, 1, 10, 12, 20, 21, 30, 32].getD t 40, 0)

/-- The hypotheses of `C107_fastest_partial`; then 4 is used. -/
example : Tuning (tileEnv tileClock) (fun _ _ => 0) (fun _ => ⟨isort, id⟩)
    "RandomForest,explore=RoundRobin".toList (fun _ => none) tileDecls
    (tileState "RandomForest,explore=RoundRobin".toList) [] [1] [tile] ∧
    Learns "RandomForest,explore=RoundRobin".toList ∧ ((4 : ℕ) : ℤ) = (tileEnv tileClock).flush ∧
    combinations [tile] ≤ 4 ∧ ∀ j < 4, NormalMetric (elapsed tileClock j) ∧
      elapsed tileClock j = (fun v : List Value => if v = [.int 4] then 1 else 2)
        (combination [tile] (j % combinations [tile])) := by
  refine ⟨tileTuning _ _ _ (.inl rfl), .inr (.inr rfl), rfl, by decide, fun j hj => ?_⟩
  have h1 : ∀ j < 4, (elapsed tileClock j = (1 : ℕ) ∨ elapsed tileClock j = (2 : ℕ)) ∧
      elapsed tileClock j = (fun v : List Value => if v = [.int 4] then 1 else 2)
        (combination [tile] (j % combinations [tile])) := by decide +kernel
  obtain ⟨h2, h3⟩ := h1 j hj
  refine ⟨?_, h3⟩
  rcases h2 with h2 | h2 <;> rw [h2]
  · exact normal_small (.inl rfl)
  · exact normal_small (.inr rfl)

/-- The hypotheses of `C107_untried`: `flush_interval` is 1, and there are two candidates. -/
example : ∃ e gen tenv s, Tuning e gen tenv "DecisionTree".toList (fun _ => none) tileDecls s [] [1] [tile] ∧
    e.flush = 1 ∧ (∀ d ∈ [tile], d.values.Nodup) ∧ 1 < combinations [tile] := by
  refine ⟨{ tileEnv tileClock with flush := 1 }, fun _ _ => 0, fun _ => ⟨isort, id⟩, tileState "DecisionTree".toList,
    ?_, rfl, by decide +kernel, by decide⟩
  have h := tileTuning tileClock "DecisionTree".toList [] (.inl rfl)
  exact ⟨rfl, h.sort, h.clean, h.declarations, ⟨[.unit, .unit], rfl⟩, h.vars, h.ne, h.names, h.few, h.small⟩

/-- The hypotheses of `C107_start` and `C107_default`. -/
example : (∃ os : Os, (∀ v, os.getenv v = if v = "APOLLO_POLICY_MODEL".toList then none else none) ∧
      ∀ d, os.mkdir d = true) ∧
    Tuning (tileEnv tileClock) (fun _ _ => 0) (fun _ => ⟨isort, id⟩) "Static,policy=0".toList (fun _ => none) tileDecls
      (tileState "Static,policy=0".toList) [] [1] [tile] ∧ (tileEnv tileClock).flush ≠ 0 :=
  ⟨⟨{ getenv := fun _ => none }, fun _ => (ite_self _).symm, fun _ => rfl⟩, tileTuning _ _ _ (.inl rfl), by decide⟩

end Apollo.Props
