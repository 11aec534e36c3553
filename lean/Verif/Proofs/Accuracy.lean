import Verif.Proofs.Timer
import Verif.Spec.Accuracy
import Verif.Model.TimeTrace

/-!
# Lemmas about the accuracy of timings
-/

namespace Apollo

open Spec

/-- Rounding a number of at most `2 ^ k` changes it by at most `2 ^ (k - 54)`. -/
theorem rnd64_off_le {x : ℚ} {k : ℤ} (hk : -1021 ≤ k) (hx : |x| ≤ 2 ^ k) :
    |rnd64 x - x| ≤ 2 ^ (k - 54) := by
  rcases eq_or_ne x 0 with rfl | h0
  · have : rnd64 0 = 0 := by
      exact rnd_of_representable (by norm_num) representable_zero
    rw [this, sub_zero, abs_zero]
    exact (two_zpow_pos _).le
  rcases hx.lt_or_eq with hlt | heq
  · have hlog : Int.log 2 |x| ≤ k - 1 := by
      have := (Int.lt_zpow_iff_log_lt (b := 2) (by norm_num) (abs_pos.2 h0)).1 (by exact_mod_cast hlt)
      omega
    have hu : ulpExp 53 (-1074) x ≤ k - 53 := by
      unfold ulpExp
      omega
    refine (abs_rnd_sub_le x).trans ?_
    have : (2 : ℚ) ^ ulpExp 53 (-1074) x ≤ 2 ^ (k - 53) := zpow_le_zpow_right₀ (by norm_num) hu
    have e : (2 : ℚ) ^ (k - 53) = 2 ^ (k - 54) * 2 := by
      rw [← zpow_add_one₀ (by norm_num)]
      congr 1
      omega
    rw [e] at this
    linarith
  · have hr : Representable 53 (-1074) (2 ^ k : ℚ) := ⟨1, k, by norm_num, by omega, by norm_num⟩
    have : rnd64 x = x := by
      rcases abs_eq_abs.1 (heq.trans (abs_of_pos (two_zpow_pos k)).symm) with h | h
      · rw [h]
        exact rnd_of_representable (by norm_num) hr
      · rw [h]
        exact rnd_of_representable (by norm_num) (representable_neg hr)
    rw [this]
    simp only [sub_self, abs_zero]
    exact (two_zpow_pos _).le

theorem reading_off {a : ℤ × ℤ} (ha : ClockOk a) {k : ℕ} (hk : k ≤ 53) (hs : a.1 < 2 ^ k) :
    |seconds a - exactly a| ≤ 2 ^ k / 2 ^ 54 + 1 / 2 ^ 54 ∧ 0 ≤ seconds a ∧ seconds a ≤ 2 ^ k := by
  have hs' : (a.1 : ℚ) ≤ 2 ^ k - 1 := by
    have : a.1 ≤ 2 ^ k - 1 := by omega
    exact_mod_cast this
  have h0 : (0 : ℚ) ≤ a.1 := by exact_mod_cast ha.sec
  have hsec : rnd64 (a.1 : ℚ) = a.1 := by
    refine rnd_of_representable (by norm_num) (representable_intCast (by norm_num) ?_)
    rw [abs_of_nonneg ha.sec]
    have : (2 : ℤ) ^ k ≤ 2 ^ 53 := pow_le_pow_right₀ (by norm_num) hk
    omega
  have hf := frac_bounds ha.nano ha.nano_lt
  have hfrac : |rnd64 ((a.2 : ℚ) / 10 ^ 9) - (a.2 : ℚ) / 10 ^ 9| ≤ 2 ^ (0 - 54 : ℤ) := by
    refine rnd64_off_le (by norm_num) ?_
    have h1 : (0 : ℚ) ≤ a.2 := by exact_mod_cast ha.nano
    have h2 : (a.2 : ℚ) ≤ 10 ^ 9 := by exact_mod_cast ha.nano_lt.le
    rw [abs_of_nonneg (by positivity), zpow_zero]
    exact (div_le_one (by norm_num)).2 h2
  have hsum : 0 ≤ (a.1 : ℚ) + rnd64 ((a.2 : ℚ) / 10 ^ 9) ∧ (a.1 : ℚ) + rnd64 ((a.2 : ℚ) / 10 ^ 9) ≤ 2 ^ k :=
    ⟨by linarith [hf.1], by linarith [hf.2]⟩
  have hround : |seconds a - ((a.1 : ℚ) + rnd64 ((a.2 : ℚ) / 10 ^ 9))| ≤ 2 ^ ((k : ℤ) - 54) := by
    unfold seconds
    rw [hsec]
    exact rnd64_off_le (by omega) (by rw [abs_of_nonneg hsum.1]; exact_mod_cast hsum.2)
  have hb : Representable 53 (-1074) ((2 : ℚ) ^ k) := ⟨1, k, by norm_num, by omega, by norm_num⟩
  refine ⟨?_, ?_, ?_⟩
  · have e : ((2 : ℚ) ^ ((k : ℤ) - 54)) = 2 ^ k / 2 ^ 54 := by
      rw [zpow_sub₀ (by norm_num)]
      norm_cast
    have e' : ((2 : ℚ) ^ (0 - 54 : ℤ)) = 1 / 2 ^ 54 := by norm_num
    rw [e] at hround
    rw [e'] at hfrac
    unfold exactly
    rw [abs_le] at *
    constructor <;> linarith [hround.1, hround.2, hfrac.1, hfrac.2]
  · unfold seconds
    rw [hsec]
    exact rnd_nonneg hsum.1
  · unfold seconds
    rw [hsec]
    exact rnd_le_of_le (by norm_num) hb hsum.2

theorem metric_off {a b : ℤ × ℤ} (ha : ClockOk a) (hb : ClockOk b) {k : ℕ} (hk : k ≤ 53)
    (hsa : a.1 < 2 ^ k) (hsb : b.1 < 2 ^ k) :
    |rnd64 (seconds b - seconds a) - between a b| ≤ offBy k := by
  obtain ⟨h1, h2, h3⟩ := reading_off ha hk hsa
  obtain ⟨h4, h5, h6⟩ := reading_off hb hk hsb
  have hd : |rnd64 (seconds b - seconds a) - (seconds b - seconds a)| ≤ 2 ^ ((k : ℤ) - 54) := by
    refine rnd64_off_le (by omega) ?_
    rw [abs_le, zpow_natCast]
    constructor <;> linarith
  have e : ((2 : ℚ) ^ ((k : ℤ) - 54)) = 2 ^ k / 2 ^ 54 := by
    rw [zpow_sub₀ (by norm_num)]
    norm_cast
  rw [e] at hd
  unfold between offBy
  have e2 : (3 * 2 ^ k / 2 ^ 54 + 1 / 2 ^ 53 : ℚ) = 3 * (2 ^ k / 2 ^ 54) + 2 * (1 / 2 ^ 54) := by ring
  rw [e2]
  rw [abs_le] at *
  constructor <;> linarith [h1.1, h1.2, h4.1, h4.2, hd.1, hd.2]

/-! ## The start of an execution -/

variable {M : Type} {env : Env M}

/-- What was added to the log is given by `log₀`, time does not go back; unless an execution began in the context since, its start is
`s`. -/
def StartKept (r : ℕ) (log₀ : List Ev) (t₀ : ℕ) (s : ℚ) (w : World M) : Prop :=
  ∃ l, w.log = log₀ ++ l ∧ t₀ ≤ w.tick ∧ ((∀ r', Ev.began r' (.sync r) ∉ l) →
    ∀ C s', w.ctxs (.sync r) = some C → C.start = some s' → s' = s)

theorem StartKept.of {r : ℕ} {log₀ l : List Ev} {t₀ : ℕ} {s : ℚ} {w w' : World M} (h : StartKept r log₀ t₀ s w)
    (hl : w'.log = w.log ++ l) (ht : w.tick ≤ w'.tick)
    (hc : ∀ C, w'.ctxs (.sync r) = some C → C.start = none ∨ ∃ C₀, w.ctxs (.sync r) = some C₀ ∧
      C.start = C₀.start) : StartKept r log₀ t₀ s w' := by
  obtain ⟨l₀, h1, h0, h2⟩ := h
  refine ⟨l₀ ++ l, by rw [hl, h1, List.append_assoc], h0.trans ht, fun hn C s' hC hs => ?_⟩
  rcases hc C hC with h3 | ⟨C₀, h3, h4⟩
  · rw [h3] at hs
    cases hs
  · exact h2 (fun r' hm => hn r' (List.mem_append_left _ hm)) C₀ s' h3 (by rw [← h4]; exact hs)

theorem StartKept.update {r : ℕ} {log₀ l : List Ev} {t₀ : ℕ} {s : ℚ} {w w' : World M} {c : CtxPtr} {C C' : Ctx}
    (h : StartKept r log₀ t₀ s w) (hl : w'.log = w.log ++ l) (ht : w.tick ≤ w'.tick) (hC : w.ctxs c = some C)
    (hs : C'.start = C.start) (he : w'.ctxs = Function.update w.ctxs c (some C')) :
    StartKept r log₀ t₀ s w' := by
  refine h.of hl ht fun C₁ h1 => ?_
  rw [he] at h1
  by_cases heq : CtxPtr.sync r = c
  · subst heq
    rw [Function.update_self] at h1
    cases h1
    exact .inr ⟨C, hC, hs⟩
  · rw [Function.update_of_ne heq] at h1
    exact .inr ⟨C₁, h1, rfl⟩

theorem StartKept.same {r : ℕ} {log₀ l : List Ev} {t₀ : ℕ} {s : ℚ} {w w' : World M}
    (h : StartKept r log₀ t₀ s w) (hl : w'.log = w.log ++ l) (ht : w.tick ≤ w'.tick) (he : w'.ctxs = w.ctxs) :
    StartKept r log₀ t₀ s w' :=
  h.of hl ht fun C₁ h1 => .inr ⟨C₁, by rw [← he]; exact h1, rfl⟩

theorem StartKept.collected {r₀ : ℕ} {log₀ : List Ev} {t₀ : ℕ} {s : ℚ} {w w' : World M} {r : ℕ} {c : CtxPtr}
    {m : ℚ} {e : Ev} (hw : StartKept r₀ log₀ t₀ s w)
    (h : collectContext env (w.emit e) r c m = .ok w') : StartKept r₀ log₀ t₀ s w' := by
  obtain ⟨R, x, C, l, hc⟩ := collectContext_ok h
  refine hw.of (l := e :: l) (by rw [hc.log]; simp [World.emit]) hc.tick fun C₁ h1 => ?_
  rw [hc.ctxs] at h1
  by_cases heq : CtxPtr.sync r₀ = c
  · subst heq
    rw [Function.update_self] at h1
    split at h1
    · cases h1; exact .inr ⟨C, hc.ctx, rfl⟩
    · cases h1
  · rw [Function.update_of_ne heq] at h1
    exact .inr ⟨C₁, h1, rfl⟩

theorem StartKept.invariant (env : Env M) (F : ℕ → Prop) (r₀ : ℕ) (log₀ : List Ev) (t₀ : ℕ) (s : ℚ) :
    Invariant env F (StartKept r₀ log₀ t₀ s) where
  toStepwise :=
    { toKept := (Stable.of (F := F) (fun w l w' h hw => hw.same h.log h.tick h.ctxs)
        (fun w c hw => hw.same rfl (le_refl _) rfl)
        (fun w r c m w' hw h => hw.collected h)
        (fun w r R cs hw _ => hw.same (List.append_nil _).symm (le_refl _) rfl)).kept
      finish := fun w r c m w' hw h => hw.collected h
      began := by
        intro w r c R C w' hw h
        by_cases heq : CtxPtr.sync r₀ = c
        · subst heq
          obtain ⟨l, h1, h0, h2⟩ := hw
          refine ⟨l ++ [.began r (.sync r₀)], by rw [h.log, h1, List.append_assoc], by rw [h.tick]; omega, fun hn => ?_⟩
          exact absurd (by simp) (hn r)
        · refine hw.of h.log (by rw [h.tick]; omega) fun C₁ h1 => ?_
          rw [h.ctxs, Function.update_of_ne heq] at h1
          exact .inr ⟨C₁, h1, rfl⟩
      assigned := fun w c C f hw hC => hw.update rfl (le_refl _) hC (C' := { C with features := f }) rfl rfl
      feature := fun w c C v hw hC => hw.update rfl (le_refl _) hC (C' := { C with features := C.features ++ [v] }) rfl rfl
      chose := fun w r c R m C p m' hw _ _ hC _ => hw.update rfl (le_refl _) hC (C' := { C with policy := p }) rfl rfl
      stop := fun w c C t hw hC =>
        hw.update (List.append_nil _).symm (le_refl _) hC (C' := { C with stop := some t }) rfl rfl
      ended := fun w r c R hw _ _ _ => hw.same rfl (le_refl _) rfl
      period := fun w hw => hw.same (List.append_nil _).symm (le_refl _) rfl
      destroyed := by
        intro w r R hw _ _
        obtain ⟨f, hf⟩ := afterDestroy_eq env w r R
        rw [hf]
        refine hw.of rfl (le_refl _) fun C₁ h1 => ?_
        by_cases heq : CtxPtr.sync r₀ = .sync r
        · rw [heq] at h1
          simp only [World.emit, Function.update_self] at h1
          cases h1
        · simp only [World.emit, Function.update_of_ne heq] at h1
          exact .inr ⟨C₁, h1, rfl⟩ }
  created := by
    intro w nf name n mt info yaml r w' hw h
    obtain ⟨R, m, l, hc⟩ := createRegion_ok h
    refine hw.of (hc.log.trans (List.append_assoc ..)) hc.tick fun C₁ h1 => ?_
    rw [hc.ctxs] at h1
    by_cases heq : CtxPtr.sync r₀ = .sync r
    · rw [heq, Function.update_self] at h1
      cases h1
      exact .inl rfl
    · rw [Function.update_of_ne heq] at h1
      exact .inr ⟨C₁, h1, rfl⟩

end Apollo
