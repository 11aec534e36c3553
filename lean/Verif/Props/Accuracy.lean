import Verif.Proofs.Accuracy
import Verif.Proofs.DecimalRange
import Verif.Props.Region

/-!
# C117: timings are accurate to a nanosecond
-/

namespace Apollo.Props

open Apollo Apollo.Spec

variable {M : Type}

/-- The full statement: whatever the clock shows at the begin and at the end, the time measured is off by
less than a nanosecond. -/
def C117 : Prop := ∀ a b, ClockOk a → ClockOk b → ClockLe a b → b.1 < 2 ^ 53 →
  |rnd64 (seconds b - seconds a) - between a b| < 1 / 10 ^ 9

/-- A time measured with readings below `2 ^ k` seconds is off by at most `3 * 2 ^ k / 2 ^ 54 + 1 / 2 ^ 53`
seconds. -/
theorem C117_metric_partial {a b : ℤ × ℤ} (ha : ClockOk a) (hb : ClockOk b) (h : ClockLe a b) {k : ℕ}
    (hk : k ≤ 53) (hs : b.1 < 2 ^ k) : |rnd64 (seconds b - seconds a) - between a b| ≤ offBy k :=
  metric_off ha hb hk (by rcases h with h | h <;> omega) hs

theorem offBy_22 : offBy 22 < 1 / 10 ^ 9 := by norm_num [offBy]

/-- A time measured within 48 days (4194304 seconds) of the start of the clock is off by less than a
nanosecond. -/
theorem C117_nanosecond_partial {a b : ℤ × ℤ} (ha : ClockOk a) (hb : ClockOk b) (h : ClockLe a b)
    (hs : b.1 < 2 ^ 22) : |rnd64 (seconds b - seconds a) - between a b| < 1 / 10 ^ 9 :=
  (C117_metric_partial ha hb h (by norm_num) hs).trans_lt offBy_22

/-- What a synchronous execution records, in every state and whatever is called between its begin and its
end: the time between them, as far as `C117_metric_partial` says.  No other execution of the region may begin
in between, because it would use the same context. -/
theorem C117_execution_partial (env : Env M) (hclock : Monotonic env.clock) (w₀ w₁ w₂ w' : World M)
    (r : ℕ) (c : CtxPtr) (ops : List Op) (l : List Ev) (hb : begin env w₀ r .sync = .ok (c, w₁))
    (hx : exec env ops w₁ = .ok w₂) (hl : w₂.log = w₁.log ++ l)
    (hn : ∀ r', Ev.began r' (.sync r) ∉ l) (he : endCtx env w₂ r (.sync r) = .ok w')
    {k : ℕ} (hk : k ≤ 53) (hs : (env.clock w₂.tick).1 < 2 ^ k) :
    ∃ m l', w'.log = w₂.log ++ .finished r (.sync r) m :: l' ∧
      |m - between (env.clock w₀.tick) (env.clock w₂.tick)| ≤ offBy k := by
  obtain ⟨R₀, C₀, hbeg⟩ := begin_ok hb
  have hc : c = .sync r := by
    unfold begin at hb
    obtain ⟨_, _, hb⟩ := (Res.bind_eq_ok _ _ _).1 hb
    obtain ⟨⟨c', w⟩, h1, hb⟩ := (Res.bind_eq_ok _ _ _).1 hb
    unfold createContext at h1
    obtain ⟨C, _, h1⟩ := (Res.bind_eq_ok _ _ _).1 h1
    cases h1
    simp only at hb
    obtain ⟨_, _, hb⟩ := (Res.bind_eq_ok _ _ _).1 hb
    split at hb
    · obtain ⟨_, _, hb⟩ := (Res.bind_eq_ok _ _ _).1 hb
      cases hb
      rfl
    · obtain ⟨_, _, hb⟩ := (Res.bind_eq_ok _ _ _).1 hb
      cases hb
  subst hc
  have h0 : StartKept r w₁.log w₀.tick (seconds (env.clock w₀.tick)) w₁ := by
    refine ⟨[], by simp, by rw [hbeg.tick]; omega, fun _ C s' hC hs' => ?_⟩
    rw [hbeg.ctxs, Function.update_self] at hC
    cases hC
    cases hs'
    rfl
  obtain ⟨l₀, hl₀, ht, hk₀⟩ := (StartKept.invariant env (fun _ => True) r w₁.log _ _).exec
    (fun _ _ _ _ => trivial) h0 hx
  rw [hl, List.append_cancel_left_eq] at hl₀
  subst hl₀
  obtain ⟨R, C, hR, hC, ⟨m, -, hm, h1⟩ | ⟨h1, -⟩⟩ := endCtx_ok he
  · obtain ⟨R', x, C', l', hc⟩ := collectContext_ok h1
    refine ⟨m, l', ?_, ?_⟩
    · rw [hc.log]
      simp [World.emit, World.advance, World.setCtx]
    · unfold syncMetric at hm
      split at hm
      next a b ha hb' =>
        have := hk₀ hn C a hC ha
        subst this
        cases hb'
        cases hm
        exact C117_metric_partial (hclock.ok _) (hclock.ok _) (hclock.mono _ _ ht) hk hs
      · cases hm
  · exact absurd rfl h1

/-- Of two executions the one that takes less time is measured as the faster one, if they differ by more than
the two times can be off. -/
theorem C117_order_partial {a b a' b' : ℤ × ℤ} (ha : ClockOk a) (hb : ClockOk b) (h : ClockLe a b)
    (ha' : ClockOk a') (hb' : ClockOk b') (h' : ClockLe a' b') {k : ℕ} (hk : k ≤ 53) (hs : b.1 < 2 ^ k)
    (hs' : b'.1 < 2 ^ k) (hlt : between a b + 2 * offBy k < between a' b') :
    rnd64 (seconds b - seconds a) < rnd64 (seconds b' - seconds a') := by
  have h1 := abs_le.1 (C117_metric_partial ha hb h hk hs)
  have h2 := abs_le.1 (C117_metric_partial ha' hb' h' hk hs')
  linarith [h1.2, h2.1]

/-- The full statement is false: after a year (2 ^ 25 seconds) three nanoseconds are measured as none. -/
theorem C117_fails : ¬ C117 := by
  intro h
  have := h (2 ^ 25, 0) (2 ^ 25, 3) ⟨by norm_num, by norm_num, by norm_num⟩
    ⟨by norm_num, by norm_num, by norm_num⟩ (.inr ⟨rfl, by norm_num⟩) (by norm_num)
  have e : rnd64 (seconds (2 ^ 25, 3) - seconds (2 ^ 25, 0)) = 0 := by decide +kernel
  rw [e] at this
  norm_num [between, exactly] at this

/-- What a block of a time trace prints: an integer that is off by at most half a microsecond and what the
roundings of the time and of the product amount to, for blocks of less than a quarter of an hour
(2 ^ 10 seconds). -/
theorem C117_trace_partial (ref : Str) {a b : ℤ × ℤ} (ha : ClockOk a) (hb : ClockOk b) (h : ClockLe a b)
    {k : ℕ} (hk : k ≤ 53) (hs : b.1 < 2 ^ k) (hd : between a b + offBy k ≤ 2 ^ 10) :
    ∃ n : ℕ, timeTrace ref a b = "=== T ref ".toList ++ ref ++ " = ".toList ++ natDigits n ++ " us\n".toList ∧
      |(n : ℚ) - between a b * 10 ^ 6| ≤ 1 / 2 + offBy k * 10 ^ 6 + 1 / 2 ^ 24 := by
  have hoff := C117_metric_partial ha hb h hk hs
  have hm := seconds_mono ha hb h
  generalize hx : rnd64 (seconds b - seconds a) = x at hoff
  have hx0 : 0 ≤ x := by
    rw [← hx]
    exact rnd_nonneg (sub_nonneg.2 hm)
  have hx1 : x ≤ 2 ^ 10 := by
    have := (abs_le.1 hoff).2
    linarith
  have hy0 : 0 ≤ rnd64 (x * 10 ^ 6) := rnd_nonneg (by positivity)
  have hy : |rnd64 (x * 10 ^ 6) - x * 10 ^ 6| ≤ 1 / 2 ^ 24 := by
    have := rnd64_off_le (x := x * 10 ^ 6) (k := 30) (by norm_num) (by
      rw [abs_of_nonneg (by positivity)]
      have : (2 : ℚ) ^ (30 : ℤ) = 2 ^ 10 * 2 ^ 20 := by norm_num
      rw [this]
      exact mul_le_mul hx1 (by norm_num) (by norm_num) (by norm_num))
    refine this.trans (le_of_eq ?_)
    norm_num
  have hn0 : 0 ≤ roundEven (rnd64 (x * 10 ^ 6)) := le_roundEven_of_int_le (by exact_mod_cast hy0)
  refine ⟨(roundEven (rnd64 (x * 10 ^ 6))).natAbs, ?_, ?_⟩
  · unfold timeTrace fixed0
    simp only [hx]
    rw [if_neg (not_lt.2 hy0), List.nil_append]
  · have e : (((roundEven (rnd64 (x * 10 ^ 6))).natAbs : ℕ) : ℚ) = (roundEven (rnd64 (x * 10 ^ 6)) : ℚ) := by
      rw [← Int.cast_natCast, Int.natAbs_of_nonneg hn0]
    rw [e]
    have h1 := abs_le.1 (abs_roundEven_sub (rnd64 (x * 10 ^ 6)))
    have h2 := abs_le.1 hy
    have h3 := abs_le.1 hoff
    rw [abs_le]
    constructor <;> nlinarith [h1.1, h1.2, h2.1, h2.2, h3.1, h3.2]

/-! ## Cases that meet the hypotheses -/

/-- A clock of 100 ns per request. -/
def fineClock (t : ℕ) : ℤ × ℤ := (1000 + t / 10 ^ 7, t % 10 ^ 7 * 100)

theorem fineClock_monotonic : Monotonic fineClock where
  ok := fun t => ⟨by simp only [fineClock]; omega, by simp only [fineClock]; omega,
    by simp only [fineClock]; omega⟩
  mono := fun s t h => by simp only [ClockLe, fineClock]; omega

/-- The begin of an execution, calls in between, among them an execution of another region, and the end. -/
example : (match exec { demoEnv with clock := fineClock } [demoCreate "a", demoCreate "b"]
      (initWorld {} fun _ => none) with
    | .ok w₀ => match begin { demoEnv with clock := fineClock } w₀ 0 .sync with
      | .ok (_, w₁) => match exec { demoEnv with clock := fineClock } ([.setFeature 0 (.sync 0) 1, .begin 1 .sync,
            .getPolicyIndex 1 (.sync 1), .endCtx 1 (.sync 1), .getPolicyIndex 0 (.sync 0)]) w₁ with
        | .ok w₂ => match endCtx { demoEnv with clock := fineClock } w₂ 0 (.sync 0) with
          | .ok w' => decide (Ev.began 0 (.sync 0) ∉ w₂.log.drop w₁.log.length ∧ w₀.tick < w₂.tick ∧
              (fineClock w₂.tick).1 < 2 ^ 22) &&
              match w'.log[w₂.log.length]? with
              | some (.finished 0 (.sync 0) m) => decide
                (|m - between (fineClock w₀.tick) (fineClock w₂.tick)| < 1 / 10 ^ 9 ∧ 1 / 10 ^ 7 < m)
              | _ => false
          | _ => false
        | _ => false
      | _ => false
    | _ => false) = true := by decide +kernel

example : timeTrace "train".toList (77, 999999000) (79, 700) = "=== T ref train = 1000002 us\n".toList := by
  decide +kernel

example : timeTrace "train".toList (77, 0) (77, 2500) = "=== T ref train = 2 us\n".toList ∨
    timeTrace "train".toList (77, 0) (77, 2500) = "=== T ref train = 3 us\n".toList := by
  decide +kernel

example : ClockOk (77, 999999000) ∧ ClockOk (79, 500) ∧ ClockLe (77, 999999000) (79, 500) ∧
    (79, 500).1 < (2 : ℤ) ^ 7 ∧ between (77, 999999000) (79, 500) + offBy 7 ≤ 2 ^ 10 :=
  ⟨⟨by norm_num, by norm_num, by norm_num⟩, ⟨by norm_num, by norm_num, by norm_num⟩, .inl (by norm_num),
    by norm_num, by norm_num [between, exactly, offBy]⟩

/-- Two executions that differ by ten nanoseconds: `C117_order_partial` applies. -/
example : between (77, 0) (77, 100) + 2 * offBy 7 < between (78, 0) (78, 110) := by
  norm_num [between, exactly, offBy]

end Apollo.Props
