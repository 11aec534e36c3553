import Verif.Proofs.Kokkos

/-!
# C58: decoding of policies into candidates; C59: candidates of ranges
-/

namespace Apollo.Props

open Kokkos

/-! ## C58 -/

variable {M : Type}

/-- Every policy, of whatever region, is decoded into one candidate of each variable. -/
theorem C58_safe {s : State M} {ids : List ℕ} {ds : List Decl} (h : GoodVars s ids ds) {p : ℤ}
    (hp : 0 ≤ p) : ∃ vs, decode s ids p = .ok vs ∧ List.Forall₂ (fun v d => v ∈ d.values) vs ds := by
  induction h generalizing p with
  | nil => exact ⟨[], rfl, .nil⟩
  | @cons id d ids ds h _ ih =>
    obtain ⟨v, hv, he⟩ := decode_cons (ids := ids) h.1 h.2 hp
    obtain ⟨vs, h1, h2⟩ := ih (p := p / d.values.length) (Int.ediv_nonneg hp (by omega))
    exact ⟨v :: vs, by rw [he, h1, Res.bind_ok], .cons (List.mem_of_getElem? hv) h2⟩

/-- Every combination of candidates is chosen by a policy below the number of combinations. -/
theorem C58_reaches {s : State M} {ids : List ℕ} {ds : List Decl} (h : GoodVars s ids ds)
    {vs : List Value} (hv : List.Forall₂ (fun v d => v ∈ d.values) vs ds) :
    ∃ p, 0 ≤ p ∧ p < combos ds ∧ decode s ids p = .ok vs := by
  induction h generalizing vs with
  | nil => cases hv; exact ⟨0, le_rfl, by simp [combos], rfl⟩
  | @cons id d ids ds h hrest ih =>
    cases hv with
    | @cons v _ vs _ hv hvs =>
      obtain ⟨q, hq0, hq1, hq⟩ := ih hvs
      obtain ⟨i, hi, rfl⟩ := List.mem_iff_getElem.1 hv
      have hpos : (1 : ℤ) ≤ d.values.length := by exact_mod_cast h.2.pos
      have hi' : (i : ℤ) < d.values.length := by exact_mod_cast hi
      refine ⟨i + d.values.length * q, by positivity, ?_, ?_⟩
      · simp only [combos, List.map_cons, List.prod_cons] at hq1 ⊢
        nlinarith
      · obtain ⟨v, hv, he⟩ := decode_cons (ids := ids) h.1 h.2
          (p := i + d.values.length * q) (by positivity)
        have e1 : ((i : ℤ) + d.values.length * q) % d.values.length = i := by
          rw [Int.add_mul_emod_self_left, Int.emod_eq_of_lt (by omega) hi']
        have e2 : ((i : ℤ) + d.values.length * q) / d.values.length = q := by
          rw [Int.add_mul_ediv_left _ _ (by omega), Int.ediv_eq_zero_of_lt (by omega) hi', zero_add]
        rw [e1, Int.toNat_natCast, List.getElem?_eq_getElem hi] at hv
        rw [he, e2, hq, Res.bind_ok, Option.some.inj hv]

/-- Different policies below the number of combinations choose different combinations, if no
variable has the same candidate twice. -/
theorem C58_distinct {s : State M} {ids : List ℕ} {ds : List Decl} (h : GoodVars s ids ds)
    (hn : ∀ d ∈ ds, d.values.Nodup) {p q : ℤ} (hp : 0 ≤ p ∧ p < combos ds)
    (hq : 0 ≤ q ∧ q < combos ds) (he : decode s ids p = decode s ids q) : p = q := by
  induction h generalizing p q with
  | nil => simp [combos] at hp hq; omega
  | @cons id d ids ds h hrest ih =>
    obtain ⟨v, hv, hpe⟩ := decode_cons (ids := ids) h.1 h.2 hp.1
    obtain ⟨u, hu, hqe⟩ := decode_cons (ids := ids) h.1 h.2 hq.1
    have hpos : (1 : ℤ) ≤ d.values.length := by exact_mod_cast h.2.pos
    have hp' := Int.ediv_nonneg hp.1 (b := d.values.length) (by omega)
    have hq' := Int.ediv_nonneg hq.1 (b := d.values.length) (by omega)
    obtain ⟨vs, hvs, -⟩ := C58_safe hrest hp'
    obtain ⟨us, hus, -⟩ := C58_safe hrest hq'
    rw [hpe, hqe, hvs, hus] at he
    simp only [Res.bind_ok, Except.ok.injEq, List.cons.injEq] at he
    obtain ⟨rfl, rfl⟩ := he
    simp only [combos, List.map_cons, List.prod_cons] at hp hq
    have hdiv : p / d.values.length = q / d.values.length := by
      refine ih (fun d hd => hn d (List.mem_cons_of_mem _ hd)) ⟨hp', ?_⟩ ⟨hq', ?_⟩
        (hvs.trans hus.symm)
      · exact Int.ediv_lt_of_lt_mul (by omega) (by rw [mul_comm]; exact hp.2)
      · exact Int.ediv_lt_of_lt_mul (by omega) (by rw [mul_comm]; exact hq.2)
    have hmod : p % d.values.length = q % d.values.length := by
      have h1 := Int.emod_nonneg p (b := d.values.length) (by omega)
      have h2 := Int.emod_nonneg q (b := d.values.length) (by omega)
      have h3 := Int.emod_lt_of_pos p (b := (d.values.length : ℤ)) (by omega)
      have := (List.getElem?_inj (l := d.values) (i := (p % d.values.length).toNat)
        (j := (q % d.values.length).toNat) (by omega) (hn d List.mem_cons_self)).1 (by rw [hv, hu])
      omega
    rw [← Int.emod_add_mul_ediv p d.values.length, ← Int.emod_add_mul_ediv q d.values.length, hdiv,
      hmod]

/-- **C58.** For variables with at least one candidate each and no candidate twice, the policies
`0, …, s₁⋯s_k - 1` correspond one to one to the combinations of candidates. -/
theorem C58_bijection {s : State M} {ids : List ℕ} {ds : List Decl} (h : GoodVars s ids ds)
    (hn : ∀ d ∈ ds, d.values.Nodup) :
    (∀ p, 0 ≤ p → p < combos ds → ∃ vs, decode s ids p = .ok vs ∧
      List.Forall₂ (fun v d => v ∈ d.values) vs ds) ∧
    ∀ vs, List.Forall₂ (fun v d => v ∈ d.values) vs ds →
      ∃! p, (0 ≤ p ∧ p < combos ds) ∧ decode s ids p = .ok vs := by
  refine ⟨fun p h0 _ => C58_safe h h0, fun vs hv => ?_⟩
  obtain ⟨p, h0, h1, h2⟩ := C58_reaches h hv
  exact ⟨p, ⟨⟨h0, h1⟩, h2⟩, fun q hq => C58_distinct h hn hq.1 ⟨h0, h1⟩ (hq.2.trans h2.symm)⟩

/-- Two variables, with three and two candidates. -/
example : ∃ s : State Unit, ∃ ds, GoodVars s [4, 9] ds ∧ (∀ d ∈ ds, d.values.Nodup) ∧ combos ds = 6 ∧
    decode s [4, 9] 5 = .ok [.int 30, .str ['b']] := by
  refine ⟨{ initState {} (fun _ => none) with
    decls := fun id => if id = 4 then some ⟨['x'], 3, [.int 10, .int 20, .int 30]⟩
      else if id = 9 then some ⟨['y'], 2, [.str ['a'], .str ['b']]⟩ else none }, _,
    .cons ⟨rfl, ⟨rfl, by decide, by decide⟩⟩ (.cons ⟨rfl, ⟨rfl, by decide, by decide⟩⟩ .nil), ?_, ?_, ?_⟩
  · decide
  · decide
  · rfl

/-- A candidate given twice is chosen by two policies: `C58_distinct` needs its hypothesis. -/
example : ∃ s : State Unit, ∃ ds, GoodVars s [4] ds ∧ combos ds = 2 ∧
    decode s [4] 0 = .ok [.int 10] ∧ decode s [4] 1 = .ok [.int 10] :=
  ⟨{ initState {} (fun _ => none) with
    decls := fun id => if id = 4 then some ⟨['x'], 2, [.int 10, .int 10]⟩ else none }, _,
    .cons ⟨rfl, ⟨rfl, by decide, by decide⟩⟩ .nil, by decide, rfl, rfl⟩

/-! ## C59 -/

/-- `v` lies in the declared range. -/
def InRange (r : Range ℤ) (v : ℤ) : Prop :=
  (if r.openLower then r.lower < v else r.lower ≤ v) ∧
  (if r.openUpper then v < r.upper else v ≤ r.upper)

/-- The candidates of an integer range, in the words of the declaration: `n` of them, the `x`-th being
`lower + x * step` for an open lower end and `lower + (x + 1) * step` for a closed one. -/
theorem C59_candidates {r : Range ℤ} {n : ℤ} {vs : List Value}
    (h : associate (.intRange r) = .ok (n, vs)) (hn : 0 < n) :
    vs = (List.range n.toNat).map fun x : ℕ =>
      .int (r.lower + (if r.openLower then (x : ℤ) else x + 1) * r.step) := by
  obtain ⟨-, h⟩ := associate_int h
  rw [h hn]
  refine List.map_congr_left fun x _ => ?_
  split <;> congr 1
  ring

/-- The property fails for every integer range with positive step that gets candidates at all: one of
the candidates is outside of the range.  (`form_set_from_range` treats open lower ends as closed and
closed ones as if the first value were `lower + step`.) -/
theorem C59_fails {r : Range ℤ} (hs : 0 < r.step) {n : ℤ} {vs : List Value}
    (h : associate (.intRange r) = .ok (n, vs)) (hn : 0 < n) :
    ∃ v, .int v ∈ vs ∧ ¬ InRange r v := by
  have hc := C59_candidates h hn
  obtain ⟨hcount, -⟩ := associate_int h
  have hmem : ∀ x : ℕ, (x : ℤ) < n →
      .int (r.lower + (if r.openLower then (x : ℤ) else x + 1) * r.step) ∈ vs := by
    intro x hx
    rw [hc]
    exact List.mem_map.2 ⟨x, List.mem_range.2 (by omega), rfl⟩
  by_cases ho : r.openLower = true
  · refine ⟨r.lower, by simpa [ho] using hmem 0 (by omega), ?_⟩
    simp [InRange, ho]
  · refine ⟨_, hmem (n - 1).toNat (by omega), ?_⟩
    rw [if_neg ho, Int.toNat_of_nonneg (by omega), sub_add_cancel]
    have hb := tdiv_mul_gt (d := (if r.openUpper then r.upper - 1 else r.upper) - r.lower) hs
    simp only [ho, Bool.false_eq_true, if_false] at hcount
    intro hin
    have h2 := hin.2
    split at h2 <;> rename_i hu <;> simp only [hu, if_true, Bool.false_eq_true, if_false] at hcount hb
    · rw [hcount, add_mul, one_mul] at h2
      omega
    · rw [hcount, add_mul, one_mul] at h2
      omega

/-- What is left of **C59**: every candidate is the lower bound plus a multiple of the step, and for a
positive step exactly one candidate is outside of the range — the last one for a closed lower end, the
first one for an open lower end.  Missing: that this candidate is in the range too, which is false
(`C59_fails`). -/
theorem C59_partial {r : Range ℤ} (hs : 0 < r.step) {n : ℤ} {vs : List Value}
    (h : associate (.intRange r) = .ok (n, vs)) (hn : 0 < n) :
    (∀ v ∈ vs, ∃ k : ℤ, v = .int (r.lower + k * r.step)) ∧
    ∀ x : ℕ, (x : ℤ) < n → ∃ v, vs[x]? = some (.int v) ∧
      ((r.openLower = true → x ≠ 0 → InRange r v) ∧
       (r.openLower = false → (x : ℤ) ≠ n - 1 → InRange r v)) := by
  have hc := C59_candidates h hn
  obtain ⟨hcount, -⟩ := associate_int h
  refine ⟨fun v hv => ?_, fun x hx => ?_⟩
  · rw [hc] at hv
    obtain ⟨x, -, rfl⟩ := List.mem_map.1 hv
    exact ⟨_, rfl⟩
  · refine ⟨_, by rw [hc, List.getElem?_map, List.getElem?_range (by omega)]; rfl, ?_, ?_⟩
    · intro ho hx0
      simp only [ho, if_true] at hcount ⊢
      have hx1 : (1 : ℤ) ≤ x := by omega
      have hd : 0 ≤ (if r.openUpper then r.upper - 1 else r.upper) - (r.lower + 1) := by
        by_contra hneg
        have := tdiv_nonpos_of_neg (s := r.step) (not_le.1 hneg) hs
        omega
      have hle := tdiv_mul_le hd hs
      have hxs : (x : ℤ) * r.step ≤
          ((if r.openUpper then r.upper - 1 else r.upper) - (r.lower + 1)).tdiv r.step * r.step :=
        mul_le_mul_of_nonneg_right (by omega) hs.le
      have hx2 : r.step ≤ x * r.step := by nlinarith
      refine ⟨?_, ?_⟩
      · simp only [ho, if_true]; omega
      · split at hle <;> rename_i hu <;> simp only [hu, if_true, Bool.false_eq_true, if_false] at hxs ⊢ <;>
          omega
    · intro ho hx0
      simp only [ho, Bool.false_eq_true, if_false] at hcount ⊢
      have hd : 0 ≤ (if r.openUpper then r.upper - 1 else r.upper) - r.lower := by
        by_contra hneg
        have := tdiv_nonpos_of_neg (s := r.step) (not_le.1 hneg) hs
        omega
      have hle := tdiv_mul_le hd hs
      have hxs : ((x : ℤ) + 1) * r.step ≤
          ((if r.openUpper then r.upper - 1 else r.upper) - r.lower).tdiv r.step * r.step :=
        mul_le_mul_of_nonneg_right (by omega) hs.le
      have hx2 : 0 ≤ ((x : ℤ) + 1) * r.step := by positivity
      refine ⟨?_, ?_⟩
      · simp only [ho, Bool.false_eq_true, if_false]; omega
      · split at hle <;> rename_i hu <;> simp only [hu, if_true, Bool.false_eq_true, if_false] at hxs ⊢ <;>
          omega

/-- The range `[0, 10]` with step 5 gets the candidates 5, 10 and 15; the range `(0, 10)` gets 0 and 5. -/
example : associate (.intRange ⟨0, 10, 5, false, false⟩) = .ok (3, [.int 5, .int 10, .int 15]) ∧
    associate (.intRange ⟨0, 10, 5, true, true⟩) = .ok (2, [.int 0, .int 5]) := by
  constructor <;> rfl

/-- A closed lower bound is never a candidate, though it is in the range. -/
theorem C59_lowerMissing {r : Range ℤ} (hs : 0 < r.step) (ho : r.openLower = false) {n : ℤ}
    {vs : List Value} (h : associate (.intRange r) = .ok (n, vs)) (hn : 0 < n) :
    .int r.lower ∉ vs := by
  rw [C59_candidates h hn]
  simp only [List.mem_map, List.mem_range, ho, Bool.false_eq_true, if_false, Value.int.injEq,
    not_exists, not_and]
  intro x _ he
  have : ((x : ℤ) + 1) * r.step = 0 := by omega
  have : 0 < ((x : ℤ) + 1) * r.step := by positivity
  omega

/-- No value of the range is missing but one: a value `lower + k * step` of the range is a candidate
unless it is the closed lower bound, or the lower end is open and it is the last integer of the range. -/
theorem C59_covers {r : Range ℤ} (hs : 0 < r.step) {n : ℤ} {vs : List Value}
    (h : associate (.intRange r) = .ok (n, vs)) {k v : ℤ} (hv : v = r.lower + k * r.step)
    (hr : InRange r v) :
    (r.openLower = false → v = r.lower ∨ .int v ∈ vs) ∧
    (r.openLower = true → .int v ∈ vs ∨ ¬ InRange r (v + 1)) := by
  obtain ⟨hcount, -⟩ := associate_int h
  have hle : ∀ d j : ℤ, 0 ≤ j → j * r.step ≤ d → j ≤ d.tdiv r.step := by
    intro d j hj hd
    have h0 : 0 ≤ d := le_trans (mul_nonneg hj hs.le) hd
    rw [Int.tdiv_eq_ediv_of_nonneg h0]
    exact Int.le_ediv_of_mul_le hs hd
  obtain ⟨h1, h2⟩ := hr
  constructor
  · intro ho
    simp only [ho, Bool.false_eq_true, if_false] at hcount h1
    by_cases hk : k = 0
    · left; rw [hv, hk]; ring
    right
    have hk0 : 0 < k := by
      have : 0 ≤ k := by
        by_contra hneg
        have : k * r.step < 0 := mul_neg_of_neg_of_pos (not_le.1 hneg) hs
        omega
      omega
    have := hle ((if r.openUpper then r.upper - 1 else r.upper) - r.lower) k hk0.le
      (by split at h2 <;> rename_i hu <;> simp only [hu, if_true, Bool.false_eq_true, if_false] <;> omega)
    rw [C59_candidates h (by omega), hv]
    refine List.mem_map.2 ⟨(k - 1).toNat, List.mem_range.2 (by omega), ?_⟩
    rw [ho, if_neg (by simp), Int.toNat_of_nonneg (by omega), sub_add_cancel]
  · intro ho
    simp only [ho, if_true] at hcount h1
    by_cases hlast : InRange r (v + 1)
    swap
    · exact .inr hlast
    left
    have hk0 : 0 < k := by
      by_contra hneg
      have : k * r.step ≤ 0 := mul_nonpos_of_nonpos_of_nonneg (not_lt.1 hneg) hs.le
      omega
    obtain ⟨-, h3⟩ := hlast
    have := hle ((if r.openUpper then r.upper - 1 else r.upper) - (r.lower + 1)) k hk0.le
      (by split at h3 <;> rename_i hu <;> simp only [hu, if_true, Bool.false_eq_true, if_false] <;> omega)
    rw [C59_candidates h (by omega), hv]
    refine List.mem_map.2 ⟨k.toNat, List.mem_range.2 (by omega), ?_⟩
    rw [ho, if_pos rfl, Int.toNat_of_nonneg (by omega)]

/-- The last integer of a range with an open lower end can be missing: 10 in `(0, 10]` with step 5. -/
theorem C59_upperMissing : associate (.intRange ⟨0, 10, 5, true, false⟩) = .ok (2, [.int 0, .int 5]) ∧
    InRange ⟨0, 10, 5, true, false⟩ 10 := by
  refine ⟨rfl, ?_⟩
  simp [InRange]

example : InRange ⟨0, 10, 5, true, false⟩ (0 + 1 * 5) ∧ InRange ⟨0, 10, 5, false, false⟩ (0 + 2 * 5) := by
  simp [InRange]

/-- A range of `double` declared with step 0 (a continuous range) gets 100 times the same candidate. -/
theorem C59_continuous {r : Range ℚ} (hs : r.step = 0) {n : ℤ} {vs : List Value}
    (h : associate (.dblRange r) = .ok (n, vs)) :
    n = 100 ∧ vs.length = 100 ∧ ∃ v, ∀ u ∈ vs, u = v := by
  simp only [associate, countDbl, hs, if_true, Res.bind_ok] at h
  norm_num at h
  obtain ⟨rfl, rfl⟩ := h
  refine ⟨rfl, by simp [fillDbl], .dbl (rnd64
    ((if r.openLower then r.lower else rnd64 (r.lower + epsilon)) + rnd64 0)), fun u hu => ?_⟩
  simp only [fillDbl, List.mem_map] at hu
  obtain ⟨x, -, rfl⟩ := hu
  rw [hs, mul_zero]

example : (associate (.dblRange ⟨0, 1, 0, true, true⟩)).isOk := by decide +kernel

end Apollo.Props
