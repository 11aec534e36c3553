import Verif.Proofs.Nearest

/-!
# Property C09: numbers in files

`fmtG6` is what `os << x` writes for a float or double (default format), `stof`/`stod` is how the
parser reads it back.
-/

namespace Apollo.Props

open Apollo

/-- Decimal numbers with at most six significant digits. -/
def SixDigitDecimal (d : ℚ) : Prop := ∃ n k : ℤ, |n| ≤ 1000000 ∧ d = n * 10 ^ k

/-- `d` is a nearest number with at most six significant decimal digits. -/
def NearestSixDigit (q d : ℚ) : Prop :=
  SixDigitDecimal d ∧ ∀ d', SixDigitDecimal d' → |d - q| ≤ |d' - q|

/-- C09 (double): a double in the normal range written to a file reads back as the double nearest to
its six digit decimal rounding, and the whole text is consumed. -/
theorem C09_double (q : ℚ) (hq : q = 0 ∨ (10 ^ (-307 : ℤ) ≤ |q| ∧ |q| ≤ 10 ^ (308 : ℤ))) :
    ∃ d, NearestSixDigit q d ∧ stod (fmtG6 q) = .ok (rnd64 d, (fmtG6 q).length) := by
  refine ⟨round6 q, ⟨sixDigits_round6 q, fun d' hd' => round6_nearest q d' hd'⟩, ?_⟩
  have := stod_fmtG6 (q := q) hq [] trivial
  simpa using this

example : (10 : ℚ) ^ (-307 : ℤ) ≤ |1234567.5| ∧ |(1234567.5 : ℚ)| ≤ 10 ^ (308 : ℤ) := by
  decide +kernel

/-- C09 (float): the same for a float. -/
theorem C09_float (q : ℚ) (hq : q = 0 ∨ (10 ^ (-37 : ℤ) ≤ |q| ∧ |q| ≤ 10 ^ (38 : ℤ))) :
    ∃ d, NearestSixDigit q d ∧ stof (fmtG6 q) = .ok (rnd32 d, (fmtG6 q).length) := by
  refine ⟨round6 q, ⟨sixDigits_round6 q, fun d' hd' => round6_nearest q d' hd'⟩, ?_⟩
  have := stof_fmtG6 (q := q) hq [] trivial
  simpa using this

example : (10 : ℚ) ^ (-37 : ℤ) ≤ |16777217| ∧ |(16777217 : ℚ)| ≤ 10 ^ (38 : ℤ) := by
  decide +kernel

/-- C09 (six digits survive): the float/double nearest to a decimal literal of at most six significant
digits is written as that literal and reads back unchanged. -/
theorem C09_six_digits_survive (d : ℚ) (h : SixDigitDecimal d) :
    ((d = 0 ∨ (2 * 10 ^ (-37 : ℤ) ≤ |d| ∧ |d| ≤ 9 * 10 ^ (37 : ℤ))) →
      stof (fmtG6 (rnd32 d)) = .ok (rnd32 d, (fmtG6 (rnd32 d)).length)) ∧
    ((d = 0 ∨ (2 * 10 ^ (-307 : ℤ) ≤ |d| ∧ |d| ≤ 9 * 10 ^ (307 : ℤ))) →
      stod (fmtG6 (rnd64 d)) = .ok (rnd64 d, (fmtG6 (rnd64 d)).length)) := by
  constructor
  · intro hr
    have := stof_fmtG6 (rangeFloat_rnd32 hr) [] trivial
    rw [round6_rnd32 h (hr.imp id fun h => le_trans (by decide +kernel) h.1), List.append_nil] at this
    exact this
  · intro hr
    have := stod_fmtG6 (rangeDouble_rnd64 hr) [] trivial
    rw [round6_rnd64 h (hr.imp id fun h => le_trans (by decide +kernel) h.1), List.append_nil] at this
    exact this

/-- 0.1 is such a literal. -/
example : SixDigitDecimal (1/10) := ⟨1, -1, by norm_num, by norm_num⟩

/-- C09 (integers): integers up to 10^6 in magnitude are read back exactly. -/
theorem C09_integers_survive (n : ℤ) (h : |n| ≤ 1000000) :
    stof (fmtG6 n) = .ok ((n : ℚ), (fmtG6 n).length) ∧
    stod (fmtG6 n) = .ok ((n : ℚ), (fmtG6 n).length) := by
  have h6 : SixDigitDecimal (n : ℚ) := ⟨n, 0, h, by simp⟩
  have f32 : rnd32 (n : ℚ) = n :=
    rnd_of_representable (by norm_num) (representable_intCast (by norm_num) (by
      refine h.trans (by norm_num)))
  have f64 : rnd64 (n : ℚ) = n :=
    rnd_of_representable (by norm_num) (representable_intCast (by norm_num) (by
      refine h.trans (by norm_num)))
  obtain ⟨s1, s2⟩ := C09_six_digits_survive (n : ℚ) h6
  rw [f32] at s1
  rw [f64] at s2
  have hq : |(n : ℚ)| ≤ 1000000 := by exact_mod_cast h
  by_cases hn : n = 0
  · subst hn; exact ⟨s1 (Or.inl (by simp)), s2 (Or.inl (by simp))⟩
  · have h1 : (1 : ℚ) ≤ |(n : ℚ)| := by exact_mod_cast Int.one_le_abs hn
    exact ⟨s1 (Or.inr ⟨le_trans (by decide +kernel) h1, hq.trans (by decide +kernel)⟩),
      s2 (Or.inr ⟨le_trans (by decide +kernel) h1, hq.trans (by decide +kernel)⟩)⟩

/-- C09 (loss): 1234567 is written as `1.23457e+06` and reads back as 1234570. -/
theorem C09_loses_beyond_six_digits :
    fmtG6 1234567 = "1.23457e+06".toList ∧ stof (fmtG6 1234567) = .ok (1234570, 11) ∧
    Float32 1234567 := by
  refine ⟨by decide +kernel, by decide +kernel, ⟨1234567, 0, by norm_num, by norm_num, by norm_num⟩⟩

end Apollo.Props
