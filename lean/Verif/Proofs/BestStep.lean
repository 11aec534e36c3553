import Verif.Proofs.BestLines
import Verif.Proofs.RegionTrain

/-!
# Which files of best policies are written when several regions are trained
-/

namespace Apollo

open Apollo.Spec

variable {M : Type} {env : Env M}

/-- All trainings in `l` wrote their best policies with step `s`. -/
def Bests (env : Env M) (s : ℤ) (w : World M) (l : List Ev) (w' : World M) : Prop :=
  ∀ r ds, Ev.trained r ds ∈ l → ∃ R, w.regions r = some R ∧ R.dataset = ds ∧
    (env.canWrite (bestPath env.rank s R.name) = true →
      ∃ t, bestText env.rank R.name ds = .ok t ∧ w'.files (bestPath env.rank s R.name) = some t)

theorem bestPath_name {rank s : ℤ} {n n' : Str} (h : bestPath rank s n = bestPath rank s n') : n = n' := by
  unfold bestPath at h
  exact List.append_cancel_left (List.append_cancel_right h)

theorem trainNoCollectOf_bests {s : ℤ} {w w' : World M} {r : ℕ} (ht : w.cfg.traceBest = true)
    (h : trainNoCollectOf env s w r = .ok w') :
    ∃ l, Trained env w l w' ∧ Bests env s w l w' ∧ (∀ r' ds, Ev.trained r' ds ∈ l → r' = r) ∧
      ∀ n, (∀ R, w.regions r = some R → R.name ≠ n) →
        w'.files (bestPath env.rank s n) = w.files (bestPath env.rank s n) := by
  obtain ⟨R₀, hR₀, h⟩ := (Res.bind_eq_ok _ _ _).1 h
  obtain ⟨m, hm, h2⟩ := (Res.bind_eq_ok _ _ _).1 h
  split at h2
  · cases h2
    exact ⟨[], .refl _ _, fun _ _ h => absurd h List.not_mem_nil,
      fun _ _ h => absurd h List.not_mem_nil, fun _ _ => rfl⟩
  · obtain ⟨l, hl, -⟩ := trainBody_trained h2
    refine ⟨l, hl, ?_, ?_, ?_⟩
    · intro r' ds hd
      have hp := bestName_best env.rank s R₀.name
      obtain ⟨R, hR, h3⟩ := trainBody_best h2 hp
      have e : R₀ = R := by
        have := World.region_ok.1 hR₀
        rw [hR] at this
        exact (Option.some.inj this).symm
      subst e
      rcases h3 with ⟨-, rfl⟩ | ⟨-, hlog, ⟨h4, -⟩ | ⟨-, t, h5, ⟨-, -, h6⟩ | ⟨h6 | h6, -⟩⟩⟩
      · have hl' := hl.log
        rw [List.self_eq_append_right] at hl'
        rw [hl'] at hd
        cases hd
      · rw [ht] at h4; cases h4
      · have hl' := hl.log
        rw [hlog, List.append_cancel_left_eq] at hl'
        rw [← hl', List.mem_singleton] at hd
        cases hd
        exact ⟨R₀, hR, rfl, fun _ => ⟨t, h5, h6⟩⟩
      · exact absurd rfl h6
      · have hl' := hl.log
        rw [hlog, List.append_cancel_left_eq] at hl'
        rw [← hl', List.mem_singleton] at hd
        cases hd
        exact ⟨R₀, hR, rfl, fun hc => by rw [hc] at h6; cases h6⟩
    · intro r' ds hd
      obtain ⟨R, hR, h3⟩ := trainBody_best h2 (bestName_best env.rank s R₀.name)
      have hl' := hl.log
      rcases h3 with ⟨-, rfl⟩ | ⟨-, hlog, -⟩
      · rw [List.self_eq_append_right] at hl'
        rw [hl'] at hd
        cases hd
      · rw [hlog, List.append_cancel_left_eq] at hl'
        rw [← hl', List.mem_singleton] at hd
        cases hd
        rfl
    · intro n hn
      obtain ⟨R, hR, h3⟩ := trainBody_best h2 (bestName_best env.rank s n)
      rcases h3 with ⟨-, rfl⟩ | ⟨-, hlog, ⟨h4, h⟩ | ⟨-, t, h5, ⟨e, -, h6⟩ | ⟨-, h6⟩⟩⟩
      · rfl
      · exact h
      · exact absurd (bestPath_name e).symm (hn R hR)
      · exact h6

theorem forRegions_bests {s : ℤ} {rs : List ℕ} {w w' : World M} (ht : w.cfg.traceBest = true)
    (hnd : rs.Nodup)
    (hn : ∀ r ∈ rs, ∀ r' ∈ rs, ∀ R R', w.regions r = some R → w.regions r' = some R' → R.name = R'.name → r = r')
    (h : forRegions (trainNoCollectOf env s) rs w = .ok w') :
    ∃ l, w'.log = w.log ++ l ∧ Bests env s w l w' ∧
      (∀ r ds, Ev.trained r ds ∈ l → r ∈ rs) ∧
      ∀ n, (∀ r ∈ rs, ∀ R, w.regions r = some R → R.name ≠ n) →
        w'.files (bestPath env.rank s n) = w.files (bestPath env.rank s n) := by
  induction rs generalizing w with
  | nil =>
    cases h
    exact ⟨[], by simp, fun _ _ h => absurd h List.not_mem_nil, fun _ _ h => absurd h List.not_mem_nil, fun _ _ => rfl⟩
  | cons r rs ih =>
    obtain ⟨w₁, h1, h2⟩ := (Res.bind_eq_ok _ _ _).1 h
    obtain ⟨l₁, a1, a2, hl₁, a3⟩ := trainNoCollectOf_bests ht h1
    obtain ⟨l₂, b1, b2, b3, b4⟩ := ih (by rw [a1.cfg]; exact ht) (List.nodup_cons.1 hnd).2
      (by
        rw [a1.regions]
        exact fun x hx y hy => hn x (.tail _ hx) y (.tail _ hy)) h2
    refine ⟨l₁ ++ l₂, by rw [b1, a1.log, List.append_assoc], ?_, ?_, ?_⟩
    · intro r' ds hd
      rcases List.mem_append.1 hd with hd | hd
      · obtain ⟨R, c1, c2, c3⟩ := a2 r' ds hd
        refine ⟨R, c1, c2, fun hc => ?_⟩
        obtain ⟨t, c4, c5⟩ := c3 hc
        refine ⟨t, c4, ?_⟩
        rw [b4, c5]
        intro x hx Rx hRx e
        rw [a1.regions] at hRx
        have e1 := hl₁ r' ds hd
        subst e1
        have := hn x (.tail _ hx) r' (.head _) Rx R hRx c1 e
        subst this
        exact (List.nodup_cons.1 hnd).1 hx
      · obtain ⟨R, c1, c2, c3⟩ := b2 r' ds hd
        rw [a1.regions] at c1
        exact ⟨R, c1, c2, c3⟩
    · intro r' ds hd
      rcases List.mem_append.1 hd with hd | hd
      · rw [hl₁ r' ds hd]; exact .head _
      · exact .tail _ (b3 r' ds hd)
    · intro n hn'
      rw [b4, a3]
      · exact hn' r (.head _)
      · intro x hx R hR
        rw [a1.regions] at hR
        exact hn' x (.tail _ hx) R hR

/-- The number of executions as an `int`. -/
theorem toInt32_bmod (n : ℕ) : toInt32 n = Int.bmod n (2 ^ 32) := by
  unfold toInt32 Int.bmod
  norm_num
  split <;> split <;> omega

theorem registry_names {w : World M} (hw : RegInv w) : ∀ r ∈ w.registry.map Prod.snd,
    ∀ r' ∈ w.registry.map Prod.snd, ∀ R R', w.regions r = some R → w.regions r' = some R' →
      R.name = R'.name → r = r' := by
  intro r hr r' hr' R R' hR hR' e
  obtain ⟨⟨k, _⟩, h1, rfl⟩ := List.mem_map.1 hr
  obtain ⟨⟨k', _⟩, h2, rfl⟩ := List.mem_map.1 hr'
  have e1 := hw.name _ _ _ h1 hR
  have e2 := hw.name _ _ _ h2 hR'
  rw [← hw.sorted.find_eq_some_iff] at h1 h2
  rw [← e1, e, e2] at h1
  rw [h1] at h2
  exact Option.some.inj h2

theorem autoTrain_bests {w w' : World M} {r : ℕ} {R : Region} (hw : RegInv w) (hs : w.cfg.single = false)
    (ht : w.cfg.traceBest = true) (hR : w.regions r = some R) {s : ℤ}
    (hst : (if w.cfg.globalPeriod ≠ 0 ∧ w.executions % (w.cfg.globalPeriod % 2 ^ 64).toNat = 0 then
        toInt32 w.executions else R.idx) = s) (h : autoTrain env w r = .ok w') :
    ∃ l, w'.log = w.log ++ l ∧ Bests env s w l w' := by
  subst hst
  obtain ⟨R', hR', h⟩ := (Res.bind_eq_ok _ _ _).1 h
  have e := World.region_ok.1 hR'
  rw [hR] at e
  cases e
  obtain ⟨m, hm, h⟩ := (Res.bind_eq_ok _ _ _).1 h
  have one : ∀ s w', trainNoCollect env w r s false = .ok w' →
      ∃ l, w'.log = w.log ++ l ∧ Bests env s w l w' := by
    intro s w' h
    have h' : trainNoCollectOf env s w r = .ok w' := by
      unfold trainNoCollectOf
      rw [hR', Res.bind_ok]
      exact h
    obtain ⟨l, a, b, -⟩ := trainNoCollectOf_bests ht h'
    exact ⟨l, a.log, b⟩
  have none' : ∀ s, ∃ l, w.log = w.log ++ l ∧ Bests env s w l w :=
    fun s => ⟨[], by simp, fun _ _ h => absurd h List.not_mem_nil⟩
  split at h
  · cases h; exact none' _
  · split at h
    next hg =>
      rw [if_pos hg]
      unfold apolloTrainNoCollect apolloTrainWith at h
      split at h
      · cases h
      · rw [if_neg (by simp [hs])] at h
        obtain ⟨l, a, b, -, -⟩ := forRegions_bests ht hw.nodup (registry_names hw) h
        exact ⟨l, a, b⟩
    next hg =>
      rw [if_neg hg]
      split at h
      · exact one _ _ h
      · split at h
        · exact one _ _ h
        · cases h; exact none' _

end Apollo
