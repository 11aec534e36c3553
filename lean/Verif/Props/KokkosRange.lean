import Verif.Proofs.KokkosRange

/-!
# Candidates of ranges of floating-point numbers (C104)
-/

namespace Apollo.Props

open Kokkos Spec

/-- C104, part: all candidates lie between the ends of the range.

Full statement: the candidates lie in the declared range, without ends that are open.  Missing: an open
lower end is always a candidate (`C104_open_lower_fails`), an open upper end can be one
(`C104_open_upper_fails`). -/
theorem C104_partial {r : Range ℚ} (hr : DblRange r) {n : ℤ} {vs : List Value}
    (h : associate (.dblRange r) = .ok (n, vs)) :
    vs.length = n.toNat ∧ ∀ v ∈ vs, ∃ c, v = .dbl c ∧ r.lower ≤ c ∧ c ≤ r.upper := by
  obtain ⟨hn, hn', rfl⟩ := associate_dbl hr.pos h
  refine ⟨by simp, fun v hv => ?_⟩
  obtain ⟨x, hx, rfl⟩ := List.mem_map.1 hv
  rw [List.mem_range] at hx
  exact ⟨_, rfl, le_candidate hr x, candidate_le hr hn' hn (by omega)⟩

/-- C104 for ranges that include both ends. -/
theorem C104_closed {r : Range ℚ} (hr : DblRange r) (hl : r.openLower = false) (hu : r.openUpper = false)
    {n : ℤ} {vs : List Value} (h : associate (.dblRange r) = .ok (n, vs)) :
    ∀ v ∈ vs, ∃ c, v = .dbl c ∧ InDblRange r c := by
  intro v hv
  obtain ⟨c, rfl, h1, h2⟩ := (C104_partial hr h).2 v hv
  exact ⟨c, rfl, by simp [hl, h1], by simp [hu, h2]⟩

/-- C104: the candidates never decrease. -/
theorem C104_increasing {r : Range ℚ} (hr : DblRange r) {n : ℤ} {vs : List Value}
    (h : associate (.dblRange r) = .ok (n, vs)) {x y : ℕ} (hxy : x ≤ y) {b : Value} (hb : vs[y]? = some b) :
    ∃ c d, vs[x]? = some (.dbl c) ∧ b = .dbl d ∧ c ≤ d := by
  obtain ⟨hn, hn', rfl⟩ := associate_dbl hr.pos h
  have hy : y < n.toNat := by
    have := (List.getElem?_eq_some_iff.1 hb).1
    simpa using this
  rw [List.getElem?_map, List.getElem?_range hy, Option.map_some, Option.some.injEq] at hb
  refine ⟨_, _, ?_, hb.symm, candidate_mono hr hxy⟩
  rw [List.getElem?_map, List.getElem?_range (by omega)]
  rfl

/-- C104: the `x`-th candidate is `lower + x * step` up to an error that is small in comparison with both,
or with the `1E-24` that the connector adds. -/
theorem C104_accurate {r : Range ℚ} (hr : DblRange r) {n : ℤ} {vs : List Value}
    (h : associate (.dblRange r) = .ok (n, vs)) {x : ℕ} (hx : (x : ℤ) < n) :
    ∃ c, vs[x]? = some (.dbl c) ∧
      |c - (r.lower + x * r.step)| ≤ 2 / 10 ^ 24 + (|r.lower| + x * r.step) / 2 ^ 51 := by
  obtain ⟨hn, hn', rfl⟩ := associate_dbl hr.pos h
  refine ⟨_, ?_, candidate_near hr.pos x⟩
  rw [List.getElem?_map, List.getElem?_range (by omega)]
  rfl

/-- C104: each of the values `lower + k * step` that lies at least a step (and the errors of rounding)
below the upper end has its candidate. -/
theorem C104_covers {r : Range ℚ} (hr : DblRange r) {n : ℤ} {vs : List Value}
    (h : associate (.dblRange r) = .ok (n, vs)) {k : ℕ}
    (hk : r.lower + k * r.step ≤
      r.upper - r.step - 3 / 10 ^ 24 - (|r.lower| + |r.upper|) / 2 ^ 51) :
    ∃ c, vs[k]? = some (.dbl c) ∧
      |c - (r.lower + k * r.step)| ≤ 2 / 10 ^ 24 + (|r.lower| + k * r.step) / 2 ^ 51 := by
  obtain ⟨hn, hn', -⟩ := associate_dbl hr.pos h
  exact C104_accurate hr h (count_ge hr hn' hn (by linarith))

/-- C104 is false: an open lower end is the first candidate. -/
theorem C104_open_lower_fails {r : Range ℚ} (hr : DblRange r) (hl : r.openLower = true) {n : ℤ}
    {vs : List Value} (h : associate (.dblRange r) = .ok (n, vs)) (hn : 0 < n) :
    vs[0]? = some (.dbl r.lower) ∧ ¬ InDblRange r r.lower := by
  obtain ⟨-, -, rfl⟩ := associate_dbl hr.pos h
  constructor
  · rw [List.getElem?_map, List.getElem?_range (by omega), Option.map_some]
    have e : candidate r 0 = r.lower := by
      unfold candidate lowEnd
      rw [if_pos hl, Nat.cast_zero, zero_mul, show rnd64 0 = 0 from rnd_zero, add_zero]
      exact f64 hr.lower
    rw [e]
  · intro hi
    have := hi.1
    simp [hl] at this

/-- The range `(0, 10)` with step 5/2. -/
example : DblRange ⟨0, 10, 5 / 2, true, true⟩ ∧
    associate (.dblRange ⟨0, 10, 5 / 2, true, true⟩) = .ok (4, [.dbl 0, .dbl (5 / 2), .dbl 5, .dbl (15 / 2)]) := by
  exact ⟨⟨⟨0, 0, by norm_num, by norm_num, by norm_num⟩, ⟨10, 0, by norm_num, by norm_num, by norm_num⟩,
    ⟨5, -1, by norm_num, by norm_num, by norm_num⟩, by norm_num⟩, by decide +kernel⟩

/-- A closed range for `C104_closed`, and for `C104_covers` the value 2 of it. -/
example : DblRange ⟨1, 9, 1 / 2, false, false⟩ ∧
    associate (.dblRange ⟨1, 9, 1 / 2, false, false⟩) =
      .ok (16, (List.range 16).map fun x : ℕ => .dbl (1 + x / 2)) ∧
    (1 : ℚ) + (2 : ℕ) * (1 / 2) ≤ 9 - 1 / 2 - 3 / 10 ^ 24 - (|1| + |9|) / 2 ^ 51 := by
  exact ⟨⟨⟨1, 0, by norm_num, by norm_num, by norm_num⟩, ⟨9, 0, by norm_num, by norm_num, by norm_num⟩,
    ⟨1, -1, by norm_num, by norm_num, by norm_num⟩, by norm_num⟩, by decide +kernel, by norm_num⟩

/-- C104 is false: an open upper end can be a candidate, if the step is less than the distance to the next
number of type `double`. -/
theorem C104_open_upper_fails :
    DblRange ⟨9007199254740992, 9007199254740996, 1, false, true⟩ ∧
    associate (.dblRange ⟨9007199254740992, 9007199254740996, 1, false, true⟩) =
      .ok (4, [.dbl 9007199254740992, .dbl 9007199254740992, .dbl 9007199254740994, .dbl 9007199254740996]) ∧
    ¬ InDblRange ⟨9007199254740992, 9007199254740996, 1, false, true⟩ 9007199254740996 := by
  refine ⟨⟨⟨1, 53, by norm_num, by norm_num, by norm_num⟩, ⟨2251799813685249, 2, by norm_num, by norm_num, by norm_num⟩,
    ⟨1, 0, by norm_num, by norm_num, by norm_num⟩, by norm_num⟩, by decide +kernel, ?_⟩
  simp [InDblRange]

/-- The candidates need not be different. -/
theorem C104_repeats :
    associate (.dblRange ⟨9007199254740992, 9007199254740994, 1, false, true⟩) =
      .ok (2, [.dbl 9007199254740992, .dbl 9007199254740992]) := by decide +kernel

/-- Both ends of a closed range can be missing: 0 and 1 in `[0, 1]` with step 1/2.  The first candidate is
the `1E-24` that the connector adds. -/
theorem C104_ends_missing :
    associate (.dblRange ⟨0, 1, 1 / 2, false, false⟩) = .ok (2, [.dbl epsilon, .dbl (1 / 2)]) ∧ epsilon ≠ 0 ∧
      InDblRange ⟨0, 1, 1 / 2, false, false⟩ 0 ∧ InDblRange ⟨0, 1, 1 / 2, false, false⟩ 1 := by
  refine ⟨by decide +kernel, epsilon_pos.ne', ?_, ?_⟩ <;> simp [InDblRange]

end Apollo.Props
