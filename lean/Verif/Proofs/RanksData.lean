import Verif.Proofs.RanksSame
import Verif.Spec.Ranks

/-!
# Several ranks: what they hold after a collective training
-/

namespace Apollo.Ranks

open Apollo Apollo.Collective Apollo.Spec Apollo.Props

variable {M : Type}

theorem holds_view {w : World M} {v : Registry} (h : viewOf w w.registry = .ok v) (n : Str)
    (f : Features) (p : ℤ) : metricOn v n f p = holds w n f p := by
  unfold metricOn holds
  rw [(viewOf_find h).2]
  cases OMap.find w.registry n with
  | none => rfl
  | some r => simp only [Option.bind_some]; cases w.regions r <;> rfl

theorem mem_view {w : World M} {v : Registry}
    (h : viewOf w w.registry = .ok v) (hv : OMap.Sorted v) {x : Str × LReg} (hx : x ∈ v) :
    ∃ r R, (x.1, r) ∈ w.registry ∧ w.regions r = some R ∧ x.2 = ⟨R.numFeatures, R.dataset⟩ := by
  have hf := (hv.find_eq_some_iff x.1 x.2).2 hx
  rw [(viewOf_find h).2] at hf
  cases hr : OMap.find w.registry x.1 with
  | none => rw [hr] at hf; cases hf
  | some r =>
    rw [hr] at hf
    cases hR : w.regions r with
    | none => simp [hR] at hf
    | some R =>
      simp only [hR, Option.bind_some, Option.map_some, Option.some.injEq] at hf
      exact ⟨r, R, OMap.mem_of_find_eq_some hr, hR, hf.symm⟩

theorem sorted_view {w : World M} (hs : OMap.Sorted w.registry) {v : Registry}
    (h : viewOf w w.registry = .ok v) : OMap.Sorted v := by
  have := (viewOf_find h).1
  unfold OMap.Sorted at hs ⊢
  rw [← List.pairwise_map] at hs ⊢
  rw [this]
  exact hs

theorem wellFormed_view {w : World M} (hs : OMap.Sorted w.registry) (hf : Fit w) {v : Registry}
    (h : viewOf w w.registry = .ok v) : WellFormed v := by
  have hv := sorted_view hs h
  have key : ∀ n f p m, metricOn v n f p = some m → ∃ r R, (n, r) ∈ w.registry ∧
      w.regions r = some R ∧ OMap.find R.dataset (mkKey f p) = some m ∧
      OMap.find v n = some ⟨R.numFeatures, R.dataset⟩ := by
    intro n f p m hm
    unfold metricOn at hm
    cases hL : OMap.find v n with
    | none => rw [hL] at hm; cases hm
    | some L =>
      rw [hL] at hm
      obtain ⟨r, R, a, b, c⟩ := mem_view h hv (OMap.mem_of_find_eq_some hL)
      have c : L = _ := c
      subst c
      exact ⟨r, R, a, b, hm, rfl⟩
  refine ⟨hv, ?_, ?_, ?_, ?_, ?_, ?_⟩
  · intro x hx
    obtain ⟨r, R, a, b, c⟩ := mem_view h hv hx
    rw [c]; exact hf.data _ _ _ a b
  · intro x hx
    obtain ⟨r, R, a, b, c⟩ := mem_view h hv hx
    exact hf.name _ _ a
  · intro x hx
    obtain ⟨r, R, a, b, c⟩ := mem_view h hv hx
    rw [c]; exact hf.count _ _ _ a b
  · intro n f p m hm L hL
    obtain ⟨r, R, a, b, c, d⟩ := key n f p m hm
    rw [d] at hL
    cases hL
    have := hf.features n r R f p m a b c
    exact ⟨this.1, this.2.1⟩
  · intro n f p m hm
    obtain ⟨r, R, a, b, c, d⟩ := key n f p m hm
    exact (hf.features n r R f p m a b c).2.2.1
  · intro n f p m hm
    obtain ⟨r, R, a, b, c, d⟩ := key n f p m hm
    exact (hf.features n r R f p m a b c).2.2.2

theorem gather_received {vs : List Registry} {ms : List Msg} {mpi : Mpi}
    (h : received mpi vs = .ok ms) : gather mpi vs = .ok (absorbAll ms 0 vs) := by
  unfold received at h
  unfold gather
  obtain ⟨bufs, h1, h⟩ := (Res.bind_eq_ok _ _ _).1 h
  rw [h1, Res.bind_ok]
  simp only at h ⊢
  split at h
  · cases h
  next hc =>
    rw [if_neg hc, h, Res.bind_ok]

/-- What rank `j` has done when a collective training at a call of `Apollo::train` is over. -/
theorem together_rank {env : ℕ → Env M} {s s' : List (Proc M)}
    (hs : ∀ p ∈ s, Sound (fun w => LogInv w ∧ RegInv w) p) (hfit : ∀ p ∈ s, Fit p.world)
    (hall : ∀ p ∈ s, p.wait ≠ none)
    (h : together exactMpi env s = .ok s') :
    ∃ vs ms, received exactMpi vs = .ok ms ∧ vs.length = s.length ∧ (∀ v ∈ vs, WellFormed v) ∧
      (∀ n f p, vs.filterMap (fun v => metricOn v n f p) =
        s.filterMap fun q => holds q.world n f p) ∧
      (∀ v ∈ vs, ∃ p ∈ s, viewOf p.world p.world.registry = .ok v) ∧
      s'.length = s.length ∧
      ∀ (j : ℕ) p, s[j]? = some p → ∃ v p' st c w₂, vs[j]? = some v ∧ s'[j]? = some p' ∧
        viewOf p.world p.world.registry = .ok v ∧ p.wait = some (.train st c) ∧
        (∃ f, w₂ = { p.world with regions := w₂.regions, files := f }) ∧
        (∀ n r, (n, r) ∈ p.world.registry → ∃ R, p.world.regions r = some R ∧
          w₂.regions r = some { R with dataset :=
            ((OMap.find (ms.foldl (absorb j) v) n).map LReg.dataset).getD R.dataset }) ∧
        trainRest (env j) (fun w r => regionTrain (env j) w r st c false) w₂ = .ok p'.world := by
  obtain ⟨vs, ms, hv, hm, hl, hl', hg⟩ := together_get h
  have hget : ∀ v ∈ vs, ∃ p ∈ s, viewOf p.world p.world.registry = .ok v := by
    intro v hvm
    obtain ⟨j, hj⟩ := List.mem_iff_getElem?.1 hvm
    have hlt : j < s.length := by rw [← hl]; exact (List.getElem?_eq_some_iff.1 hj).1
    obtain ⟨v', p', a, _, b, _⟩ := hg j s[j] (List.getElem?_eq_getElem hlt)
    rw [hj] at a
    cases a
    exact ⟨s[j], List.getElem_mem hlt, b⟩
  refine ⟨vs, ms, hm, hl, ?_, ?_, hget, hl', ?_⟩
  · intro v hvm
    obtain ⟨p, hp, b⟩ := hget v hvm
    exact wellFormed_view (hs p hp).holds.2.sorted (hfit p hp) b
  · intro n f q
    have key : vs.map (fun v => metricOn v n f q) = s.map fun p => holds p.world n f q := by
      refine List.ext_getElem (by simp [hl]) fun j h1 h2 => ?_
      rw [List.length_map] at h1 h2
      rw [List.getElem_map, List.getElem_map]
      obtain ⟨v', p', a, _, b, _⟩ := hg j s[j] (List.getElem?_eq_getElem h2)
      rw [List.getElem?_eq_getElem h1] at a
      cases a
      exact holds_view b n f q
    have hid : ∀ {α : Type} (l : List α) (g : α → Option ℚ), l.filterMap g = (l.map g).filterMap id :=
      fun l g => by rw [List.filterMap_map]; rfl
    rw [hid vs, hid s, key]
  · intro j p hp
    obtain ⟨v, p', a, b, c, d⟩ := hg j p hp
    have hpm := List.mem_of_getElem? hp
    have hsp := hs p hpm
    cases hk : p.wait with
    | none => exact absurd hk (hall p hpm)
    | some k =>
      obtain ⟨st, cc, rfl⟩ := hsp.wait k hk
      unfold proceed at d
      rw [hk] at d
      simp only at d
      obtain ⟨w₁, h1, d⟩ := (Res.bind_eq_ok _ _ _).1 d
      obtain ⟨w₂, h2, d⟩ := (Res.bind_eq_ok _ _ _).1 d
      obtain ⟨w₃, h3, d⟩ := (Res.bind_eq_ok _ _ _).1 d
      cases d
      obtain ⟨f, rfl⟩ := traceGather_ok h1
      obtain ⟨e1, e2, e3⟩ := putBack_ok h2 hsp.holds.2.nodup
      exact ⟨v, _, st, cc, w₂, a, b, c, rfl, ⟨f, e1⟩, e3, h3⟩

/-- No context of a registered region waits for its measurement, or pending ones are not collected. -/
def Quiet (p : Proc M) : Prop :=
  (∃ st, p.wait = some (.train st false)) ∨ ∀ r R, p.world.regions r = some R → R.pending = []

/-- A region of a rank after a collective training. -/
structure After (env : Env M) (D : Dataset) (p p' : Proc M) (r : ℕ) : Prop where
  registry : p'.world.registry = p.world.registry
  region : ∃ R, p.world.regions r = some R ∧ p'.world.regions r = some { R with dataset := D }
  model : ∀ m, p.world.models r = some m → ∃ m', p'.world.models r = some m' ∧
    (((env.ops.isTrainable m = false ∨ D.size = 0) ∧ m' = m) ∨
      (env.ops.isTrainable m = true ∧ D.size ≠ 0 ∧ ∃ t, env.ops.train t D m = .ok m'))

theorem together_region {env : ℕ → Env M} {s s' : List (Proc M)}
    (hs : ∀ p ∈ s, Sound (fun w => LogInv w ∧ RegInv w) p) (hfit : ∀ p ∈ s, Fit p.world)
    (hall : ∀ p ∈ s, p.wait ≠ none) (hlen : s.length ≤ 2 ^ 31)
    (h : together exactMpi env s = .ok s') :
    ∃ vs vs', gather exactMpi vs = .ok vs' ∧ vs.length ≤ 2 ^ 31 ∧ (∀ v ∈ vs, WellFormed v) ∧
      (∀ n f p, vs.filterMap (fun v => metricOn v n f p) =
        s.filterMap fun q => holds q.world n f p) ∧
      (∀ v ∈ vs, ∃ p ∈ s, viewOf p.world p.world.registry = .ok v) ∧
      ∀ (j : ℕ) p, s[j]? = some p → ∃ v v' p', vs[j]? = some v ∧ vs'[j]? = some v' ∧
        s'[j]? = some p' ∧ viewOf p.world p.world.registry = .ok v ∧
        (p.world.cfg.single = false → Quiet p → ∀ n r, (n, r) ∈ p.world.registry →
          ∃ L, OMap.find v' n = some L ∧ OMap.Sorted L.dataset ∧ After (env j) L.dataset p p' r) := by
  obtain ⟨vs, ms, hm, hl, hw, hmet, hget, hl', hg⟩ := together_rank hs hfit hall h
  refine ⟨vs, absorbAll ms 0 vs, gather_received hm, by rw [hl]; exact hlen, hw, hmet, hget, ?_⟩
  intro j p hp
  obtain ⟨v, p', st, c, w₂, a, b, e, hk, ⟨f, hw2⟩, hreg, ht⟩ := hg j p hp
  have hpm := List.mem_of_getElem? hp
  have hsp := hs p hpm
  have hwv := hw v (List.mem_of_getElem? a)
  refine ⟨v, ms.foldl (absorb j) v, p', a, by rw [absorbAll_get, a]; simp, b, e, ?_⟩
  intro hsingle hq n r hmem
  have hcfg : w₂.cfg = p.world.cfg := by rw [hw2]
  have hrg : w₂.registry = p.world.registry := by rw [hw2]
  have hmo : w₂.models = p.world.models := by rw [hw2]
  unfold trainRest at ht
  rw [hcfg, hsingle, hrg] at ht
  simp only [Bool.false_eq_true, if_false] at ht
  obtain ⟨R, hR, hR2⟩ := hreg n r hmem
  have hfv : OMap.find v n = some ⟨R.numFeatures, R.dataset⟩ := by
    rw [(viewOf_find e).2, (hsp.holds.2.sorted.find_eq_some_iff n r).2 hmem, Option.bind_some, hR]
    rfl
  have hfa := (absorbs_find (me := (j : ℤ)) hwv.sorted ms n).2
  rw [hfv, Option.map_some] at hfa
  rw [hfa, Option.map_some, Option.getD_some] at hR2
  refine ⟨_, hfa, Dataset.sorted_insertAll (hwv.data _ (OMap.mem_of_find_eq_some hfv)) _, ?_⟩
  have hrs : ∀ x ∈ p.world.registry.map Prod.snd, ∃ R, w₂.regions x = some R ∧
      (c = false ∨ R.pending = []) := by
    intro x hx
    obtain ⟨⟨n', x'⟩, hx', rfl⟩ := List.mem_map.1 hx
    obtain ⟨R', hR', hR2'⟩ := hreg n' x' hx'
    refine ⟨_, hR2', ?_⟩
    rcases hq with ⟨st', hq⟩ | hq
    · rw [hk] at hq
      cases hq
      exact .inl rfl
    · exact .inr (hq x' R' hR')
  have hms : ∀ x ∈ p.world.registry.map Prod.snd, ∃ m, w₂.models x = some m := by
    intro x hx
    obtain ⟨⟨n', x'⟩, hx', rfl⟩ := List.mem_map.1 hx
    obtain ⟨R', hR', _⟩ := hreg n' x' hx'
    rw [hmo]
    have := hsp.holds.1.liveM x'
    rw [hR'] at this
    exact Option.isSome_iff_exists.1 this
  obtain ⟨g1, g2, g3⟩ := forRegions_models hsp.holds.2.nodup hrs hms ht
  have hkeep : p'.world.registry = p.world.registry := by
    have hk' : Kept (env j) (fun _ => True) (fun w => w.registry = p.world.registry) :=
      (Stable.of (fun w l w' ht hw => by rw [ht.registry]; exact hw) (fun w c hw => hw)
        (fun w r c m w' hw h => by
          obtain ⟨R, m', C, l, h1⟩ := collectContext_ok h
          rw [h1.registry]; exact hw) (fun w r R cs hw _ => hw)).kept
    exact forRegions_induct (fun w => w.registry = p.world.registry)
      (fun _ _ _ hw h => hk'.regionTrain (by simp) hw h) hrg ht
  refine ⟨hkeep, ⟨R, hR, by rw [g1]; exact hR2⟩, ?_⟩
  intro m hmr
  obtain ⟨m', h1, h2⟩ := g3 r (List.mem_map.2 ⟨(n, r), hmem, rfl⟩) _ m hR2 (by rw [hmo]; exact hmr)
  exact ⟨m', h1, h2⟩

end Apollo.Ranks
