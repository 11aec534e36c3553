import Verif.Proofs.Timer
import Verif.Props.Region

/-!
# Property C47: synchronous timings are never negative
-/

namespace Apollo.Props

open Apollo Apollo.Spec

variable {M : Type}

/-- C47: converting readings of the clock to `double` keeps their order, for all readings of a
non-negative clock. -/
theorem C47_seconds_mono {a b : ℤ × ℤ} (ha : ClockOk a) (hb : ClockOk b) (h : ClockLe a b) :
    seconds a ≤ seconds b := seconds_mono ha hb h

/-- C47: for readings up to 2^53 seconds the order is strict once a second has passed: no second is
lost in rounding. -/
theorem C47_seconds_strict {a b : ℤ × ℤ} (ha : ClockOk a) (hb : ClockOk b) (h : a.1 + 1 < b.1)
    (hs : b.1 ≤ 2 ^ 53) : seconds a < seconds b := by
  have h1 : seconds a ≤ ((a.1 + 1 : ℤ) : ℚ) := by
    have := seconds_mono (a := a) (b := (a.1 + 1, 0)) ha
      ⟨by have := ha.sec; show 0 ≤ a.1 + 1; omega, le_refl _, by norm_num⟩ (.inl (by simp))
    refine this.trans (le_of_eq ?_)
    unfold seconds
    have e : rnd64 ((a.1 + 1 : ℤ) : ℚ) = ((a.1 + 1 : ℤ) : ℚ) := by
      refine rnd_of_representable (by norm_num) (representable_intCast (by norm_num) ?_)
      have := ha.sec
      rw [abs_of_nonneg (by omega)]
      omega
    have z : rnd64 (((0 : ℤ) : ℚ) / 10 ^ 9) = 0 := by norm_num [rnd64, rnd_zero]
    simp only [e, z, add_zero]
  have h2 : ((b.1 : ℤ) : ℚ) ≤ seconds b := by
    have e : rnd64 ((b.1 : ℤ) : ℚ) = ((b.1 : ℤ) : ℚ) := by
      refine rnd_of_representable (by norm_num) (representable_intCast (by norm_num) ?_)
      rw [abs_of_nonneg hb.sec]
      exact hs
    unfold seconds
    rw [e]
    refine le_rnd_of_le (by norm_num) (representable_intCast (by norm_num) ?_) ?_
    · rw [abs_of_nonneg hb.sec]
      exact hs
    · have := (frac_bounds hb.nano hb.nano_lt).1
      linarith
  have h3 : ((a.1 + 1 : ℤ) : ℚ) < ((b.1 : ℤ) : ℚ) := by exact_mod_cast h
  exact h1.trans_lt (h3.trans_le h2)

/-- C47: in every execution with a clock that does not go back, the time that a synchronous execution
reports is not negative. -/
theorem C47_metric_nonneg (env : Env M) (hclock : Monotonic env.clock) (cfg : Cfg)
    (files : Str → Option Str) (ops : List Op) (w : World M)
    (h : exec env ops (initWorld cfg files) = .ok w) (r : ℕ) (w' : World M)
    (he : endCtx env w r (.sync r) = .ok w') :
    ∃ m l, w'.log = w.log ++ .finished r (.sync r) m :: l ∧ 0 ≤ m := by
  have hw := (Timed.invariant env fun _ => True).exec (fun _ _ _ _ => trivial)
    (timed_init cfg files) h
  obtain ⟨R, C, hR, hC, ⟨m, -, hm, h1⟩ | ⟨h1, -⟩⟩ := endCtx_ok he
  · obtain ⟨R', x, C', l, hc⟩ := collectContext_ok h1
    refine ⟨m, l, ?_, ?_⟩
    · rw [hc.log]
      simp [World.emit, World.advance, World.setCtx]
    · unfold syncMetric at hm
      split at hm
      next a b ha hb =>
        obtain ⟨t, ht, rfl⟩ := hw _ _ _ hC ha
        cases hb
        cases hm
        refine rnd_nonneg (sub_nonneg.2 (seconds_mono (hclock.ok _) (hclock.ok _)
          (hclock.mono _ _ ht.le)))
      · cases hm
  · exact absurd rfl h1

/-- A clock of 100 ns per request, starting where doubles are far apart. -/
def tickClock (t : ℕ) : ℤ × ℤ := (2 ^ 40 + t / 10 ^ 7, t % 10 ^ 7 * 100)

example : Monotonic tickClock where
  ok := fun t => ⟨by simp only [tickClock]; omega, by simp only [tickClock]; omega,
    by simp only [tickClock]; omega⟩
  mono := fun s t h => by simp only [ClockLe, tickClock]; omega

/-- Hypotheses of `C47_metric_nonneg` in an example: here the elapsed time is lost in rounding. -/
example : ∃ w, exec { demoEnv with clock := tickClock } [.create 1 "a".toList 2 0 [] [],
      .begin 0 .sync, .getPolicyIndex 0 (.sync 0)] (initWorld {} fun _ => none) = .ok w ∧
    (∃ w', endCtx { demoEnv with clock := tickClock } w 0 (.sync 0) = .ok w' ∧
      w'.log.getLast? = some (.finished 0 (.sync 0) 0)) := by
  have h : ∃ w, (do
      let w ← exec { demoEnv with clock := tickClock } [.create 1 "a".toList 2 0 [] [],
        .begin 0 .sync, .getPolicyIndex 0 (.sync 0)] (initWorld {} fun _ => none)
      endCtx { demoEnv with clock := tickClock } w 0 (.sync 0)) = .ok w ∧
      w.log.getLast? = some (.finished 0 (.sync 0) 0) := run_ok (by decide +kernel)
  obtain ⟨w', h1, h2⟩ := h
  obtain ⟨w, h3, h4⟩ := (Res.bind_eq_ok _ _ _).1 h1
  exact ⟨w, h3, w', h4, h2⟩

/-- Hypotheses of `C47_seconds_mono` and `C47_seconds_strict` in an example. -/
example : ClockOk (7, 999999999) ∧ ClockOk (9, 0) ∧ ClockLe (7, 999999999) (9, 0) ∧
    (7, 999999999).1 + 1 < ((9, 0) : ℤ × ℤ).1 ∧ ((9, 0) : ℤ × ℤ).1 ≤ 2 ^ 53 :=
  ⟨⟨by norm_num, by norm_num, by norm_num⟩, ⟨by norm_num, by norm_num, by norm_num⟩,
    .inl (by norm_num), by norm_num, by norm_num⟩

/-- Readings of a small clock one nanosecond apart differ. -/
example : seconds (5, 1) - seconds (5, 0) > 0 := by decide +kernel

/-- Seconds are lost where the clock exceeds the precision of `double`. -/
example : seconds (2 ^ 53, 0) = seconds (2 ^ 53 + 1, 0) := by decide +kernel

end Apollo.Props
