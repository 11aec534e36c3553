import Verif.Proofs.RegionLog
import Verif.Spec.Clock

/-!
# Readings of the clock as double
-/

namespace Apollo

open Spec

theorem frac_bounds {n : ℤ} (h0 : 0 ≤ n) (h1 : n < 10 ^ 9) :
    0 ≤ rnd64 ((n : ℚ) / 10 ^ 9) ∧ rnd64 ((n : ℚ) / 10 ^ 9) < 1 := by
  have h0' : (0 : ℚ) ≤ n := by exact_mod_cast h0
  have h1' : (n : ℚ) ≤ 10 ^ 9 - 1 := by
    have : n ≤ 10 ^ 9 - 1 := by omega
    exact_mod_cast this
  refine ⟨rnd_nonneg (by positivity), ?_⟩
  have hr : Representable 53 (-1074) (1 - 2 ^ (-30 : ℤ)) :=
    ⟨2 ^ 30 - 1, -30, by norm_num, by norm_num, by norm_num⟩
  have : rnd64 ((n : ℚ) / 10 ^ 9) ≤ 1 - 2 ^ (-30 : ℤ) := by
    refine rnd_le_of_le (by norm_num) hr ?_
    rw [div_le_iff₀ (by norm_num)]
    refine h1'.trans ?_
    norm_num
  refine this.trans_lt ?_
  norm_num

theorem roundEven_add_small {n : ℤ} {d : ℚ} (h0 : 0 ≤ d) (h1 : d < 1 / 2) :
    roundEven (n + d) = n := by
  have hf : ⌊(n : ℚ) + d⌋ = n := by
    rw [Int.floor_eq_iff]
    constructor <;> linarith
  unfold roundEven
  simp only [hf]
  rw [if_pos (by linarith)]

/-- Adding less than a second to a large number of seconds is lost. -/
theorem rnd64_add_small {a d : ℚ} (ha : (2 : ℚ) ^ (53 : ℤ) ≤ a) (hr : Float64 a) (h0 : 0 ≤ d)
    (h1 : d < 1) : rnd64 (a + d) = a := by
  have hpos : (0 : ℚ) < a := lt_of_lt_of_le (two_zpow_pos 53) ha
  have hfix : rnd64 a = a := rnd_of_representable (by norm_num) hr
  set k := Int.log 2 |a| with hk
  have hk53 : 53 ≤ k := by
    rw [hk, ← Int.zpow_le_iff_le_log (by norm_num) (abs_pos.2 hpos.ne'), abs_of_pos hpos]
    exact_mod_cast ha
  have hE : ulpExp 53 (-1074) a = k - 52 := by
    unfold ulpExp
    rw [← hk]
    push_cast
    omega
  have hfix' : ((roundEven (a / 2 ^ (k - 52)) : ℤ) : ℚ) * 2 ^ (k - 52) = a := by
    have := hfix
    unfold rnd64 rnd at this
    rwa [hE] at this
  set n := roundEven (a / 2 ^ (k - 52)) with hn
  -- `a` is an integer
  obtain ⟨z, hz⟩ : ∃ z : ℤ, a = z := by
    refine ⟨n * 2 ^ (k - 52).toNat, ?_⟩
    rw [← hfix']
    push_cast
    rw [← zpow_natCast]
    congr 2
    omega
  -- the exponent does not change
  have hlt : a < 2 ^ (k + 1) := by
    have := Int.lt_zpow_succ_log_self (R := ℚ) (b := 2) (by norm_num) |a|
    rw [← hk, abs_of_pos hpos] at this
    exact_mod_cast this
  have hlt' : a + d < 2 ^ (k + 1) := by
    have hp : (2 : ℚ) ^ (k + 1) = ((2 ^ (k + 1).toNat : ℤ) : ℚ) := by
      push_cast
      rw [← zpow_natCast]
      congr 1
      omega
    rw [hp, hz] at hlt
    rw [hp, hz]
    have : z + 1 ≤ 2 ^ (k + 1).toNat := by
      have : z < 2 ^ (k + 1).toNat := by exact_mod_cast hlt
      omega
    have : (z : ℚ) + 1 ≤ ((2 ^ (k + 1).toNat : ℤ) : ℚ) := by exact_mod_cast this
    linarith
  have hpd : (0 : ℚ) < a + d := by linarith
  have hlog : Int.log 2 |a + d| = k := by
    rw [abs_of_pos hpd]
    refine le_antisymm ?_ ?_
    · have := (Int.lt_zpow_iff_log_lt (R := ℚ) (b := 2) (by norm_num) (x := k + 1) hpd).1
        (by exact_mod_cast hlt')
      omega
    · rw [hk, abs_of_pos hpos]
      exact Int.log_mono_right hpos (by linarith)
  have hE' : ulpExp 53 (-1074) (a + d) = k - 52 := by
    unfold ulpExp
    rw [hlog]
    push_cast
    omega
  have h2 : (2 : ℚ) ≤ 2 ^ (k - 52) := by
    have := zpow_le_zpow_right₀ (a := (2 : ℚ)) (by norm_num) (show (1 : ℤ) ≤ k - 52 by omega)
    simpa using this
  have h2' : (0 : ℚ) < 2 ^ (k - 52) := by linarith
  unfold rnd64 rnd
  rw [hE']
  have : (a + d) / 2 ^ (k - 52) = (n : ℚ) + d / 2 ^ (k - 52) := by
    rw [add_div]
    congr 1
    rw [← hfix', mul_div_assoc, div_self h2'.ne', mul_one]
  rw [this, roundEven_add_small (by positivity)]
  · exact hfix'
  · rw [div_lt_iff₀ h2']
    linarith

/-- Readings as doubles are ordered as the clock. -/
theorem seconds_mono {a b : ℤ × ℤ} (ha : ClockOk a) (hb : ClockOk b) (h : ClockLe a b) :
    seconds a ≤ seconds b := by
  obtain ⟨s1, n1⟩ := a
  obtain ⟨s2, n2⟩ := b
  obtain ⟨a1, a2, a3⟩ := ha
  obtain ⟨b1, b2, b3⟩ := hb
  obtain ⟨d0, d1⟩ := frac_bounds a2 a3
  obtain ⟨e0, e1⟩ := frac_bounds b2 b3
  unfold seconds
  simp only [ClockLe] at *
  rcases h with h | ⟨rfl, h⟩
  · have hbr : Representable 53 (-1074) (rnd64 s2) := representable_rnd _
    have hup : rnd64 s2 ≤ rnd64 (rnd64 s2 + rnd64 (n2 / 10 ^ 9)) :=
      le_rnd_of_le (by norm_num) hbr (by linarith)
    refine le_trans ?_ hup
    by_cases hbig : (2 : ℤ) ^ 53 ≤ s1
    · have hp : Representable 53 (-1074) ((2 : ℚ) ^ (53 : ℤ)) :=
        ⟨1, 53, by norm_num, by norm_num, by norm_num⟩
      have hge : (2 : ℚ) ^ (53 : ℤ) ≤ rnd64 s1 := by
        refine le_rnd_of_le (by norm_num) hp ?_
        have : ((2 ^ 53 : ℤ) : ℚ) ≤ s1 := by exact_mod_cast hbig
        norm_num at this ⊢
        exact this
      rw [rnd64_add_small hge (representable_rnd _) d0 d1]
      refine rnd_mono (by norm_num) ?_
      have : s1 ≤ s2 := by omega
      exact_mod_cast this
    · have hs1 : rnd64 (s1 : ℚ) = s1 := by
        refine rnd_of_representable (by norm_num) (representable_intCast (by norm_num) ?_)
        rw [abs_of_nonneg a1]
        omega
      rw [hs1]
      refine rnd_le_of_le (by norm_num) hbr ?_
      have hle : ((s1 + 1 : ℤ) : ℚ) ≤ rnd64 s2 := by
        refine le_rnd_of_le (by norm_num) (representable_intCast (by norm_num) ?_) ?_
        · rw [abs_of_nonneg (by omega)]
          omega
        · have : s1 + 1 ≤ s2 := by omega
          exact_mod_cast this
      push_cast at hle
      linarith
  · refine rnd_mono (by norm_num) ?_
    have : rnd64 ((n1 : ℚ) / 10 ^ 9) ≤ rnd64 ((n2 : ℚ) / 10 ^ 9) := by
      refine rnd_mono (by norm_num) ?_
      have : (n1 : ℚ) ≤ n2 := by exact_mod_cast h
      gcongr
    linarith

/-! ## Starting times of contexts -/

variable {M : Type} {env : Env M} {F : ℕ → Prop}

/-- Starting times are readings of the clock in the past. -/
def Timed (env : Env M) (w : World M) : Prop :=
  ∀ c C s, w.ctxs c = some C → C.start = some s → ∃ t < w.tick, s = seconds (env.clock t)

theorem Timed.of {w w' : World M} (h : Timed env w) (ht : w.tick ≤ w'.tick)
    (hc : ∀ c C, w'.ctxs c = some C → C.start = none ∨ ∃ C₀, w.ctxs c = some C₀ ∧
      C.start = C₀.start) : Timed env w' := by
  intro c C s hC hs
  rcases hc c C hC with h1 | ⟨C₀, h1, h2⟩
  · rw [h1] at hs; cases hs
  · obtain ⟨t, h3, h4⟩ := h c C₀ s h1 (by rw [← h2]; exact hs)
    exact ⟨t, by omega, h4⟩

theorem Timed.update {w w' : World M} {c : CtxPtr} {C C' : Ctx} (h : Timed env w)
    (hC : w.ctxs c = some C) (hs : C'.start = C.start) (ht : w.tick ≤ w'.tick)
    (he : w'.ctxs = Function.update w.ctxs c (some C')) : Timed env w' := by
  refine h.of ht fun c₁ C₁ h1 => ?_
  rw [he] at h1
  by_cases heq : c₁ = c
  · subst heq
    rw [Function.update_self] at h1
    cases h1
    exact .inr ⟨C, hC, hs⟩
  · rw [Function.update_of_ne heq] at h1
    exact .inr ⟨C₁, h1, rfl⟩

theorem Timed.same {w w' : World M} (h : Timed env w) (ht : w.tick ≤ w'.tick)
    (he : w'.ctxs = w.ctxs) : Timed env w' :=
  h.of ht fun _ C₁ h1 => .inr ⟨C₁, by rw [← he]; exact h1, rfl⟩

theorem Timed.collected {w w' : World M} {r : ℕ} {c : CtxPtr} {m : ℚ} {e : Ev} (hw : Timed env w)
    (h : collectContext env (w.emit e) r c m = .ok w') : Timed env w' := by
  obtain ⟨R, x, C, l, hc⟩ := collectContext_ok h
  refine hw.of hc.tick fun c₁ C₁ h1 => ?_
  rw [hc.ctxs] at h1
  by_cases heq : c₁ = c
  · subst heq
    rw [Function.update_self] at h1
    split at h1
    · cases h1; exact .inr ⟨C, hc.ctx, rfl⟩
    · cases h1
  · rw [Function.update_of_ne heq] at h1
    exact .inr ⟨C₁, h1, rfl⟩

theorem Timed.invariant (env : Env M) (F : ℕ → Prop) : Invariant env F (Timed env) where
  toStepwise :=
    { toKept := (Stable.of (F := F) (fun w l w' h hw => hw.same h.tick h.ctxs)
        (fun w c hw => hw.same (le_refl _) rfl)
        (fun w r c m w' hw h => hw.collected h)
        (fun w r R cs hw _ => hw.same (le_refl _) rfl)).kept
      finish := fun w r c m w' hw h => hw.collected h
      began := by
        intro w r c R C w' hw h c₁ C₁ s h1 hs
        rw [h.ctxs] at h1
        rw [h.tick]
        by_cases heq : c₁ = c
        · subst heq
          rw [Function.update_self] at h1
          cases h1
          cases hs
          exact ⟨w.tick, by omega, rfl⟩
        · rw [Function.update_of_ne heq] at h1
          obtain ⟨t, h3, h4⟩ := hw c₁ C₁ s h1 hs
          exact ⟨t, by omega, h4⟩
      assigned := fun w c C f hw hC => hw.update hC (C' := { C with features := f }) rfl (le_refl _) rfl
      feature := fun w c C v hw hC =>
        hw.update hC (C' := { C with features := C.features ++ [v] }) rfl (le_refl _) rfl
      chose := fun w r c R m C p m' hw _ _ hC _ =>
        hw.update hC (C' := { C with policy := p }) rfl (le_refl _) rfl
      stop := fun w c C t hw hC => hw.update hC (C' := { C with stop := some t }) rfl (le_refl _) rfl
      ended := fun w r c R hw _ _ _ => hw.same (le_refl _) rfl
      period := fun w hw => hw.same (le_refl _) rfl
      destroyed := by
        intro w r R hw _ _
        have e : (afterDestroy env w r R).ctxs = Function.update w.ctxs (.sync r) none ∧
            (afterDestroy env w r R).tick = w.tick := by
          obtain ⟨f, hf⟩ := afterDestroy_eq env w r R
          rw [hf]
          exact ⟨rfl, rfl⟩
        refine hw.of (by rw [e.2]) fun c₁ C₁ h1 => ?_
        rw [e.1] at h1
        by_cases heq : c₁ = .sync r
        · subst heq; rw [Function.update_self] at h1; cases h1
        · rw [Function.update_of_ne heq] at h1
          exact .inr ⟨C₁, h1, rfl⟩ }
  created := by
    intro w nf name n mt info yaml r w' hw h
    obtain ⟨R, m, l, hc⟩ := createRegion_ok h
    refine hw.of hc.tick fun c₁ C₁ h1 => ?_
    rw [hc.ctxs] at h1
    by_cases heq : c₁ = .sync r
    · subst heq
      rw [Function.update_self] at h1
      cases h1
      exact .inl rfl
    · rw [Function.update_of_ne heq] at h1
      exact .inr ⟨C₁, h1, rfl⟩

theorem timed_init (cfg : Cfg) (files : Str → Option Str) :
    Timed env (initWorld cfg files : World M) := by
  have hr : (initWorld cfg files : World M).ctxs = fun _ => none := rfl
  intro c C s hC
  rw [hr] at hC
  cases hC

end Apollo
