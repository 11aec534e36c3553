import Verif.Model.Kokkos
import Verif.Proofs.Region
import Mathlib.Data.Int.Lemmas
import Mathlib.Algebra.BigOperators.Group.List.Basic
import Mathlib.Tactic.Linarith
import Mathlib.Tactic.Ring

/-!
# Lemmas about the Kokkos connector: the order of tuning problems, the map, decoding, candidates
-/

namespace Apollo.Kokkos

/-! ## The order -/

theorem lessLoop_irrefl (l : List ℕ) : lessLoop l l = false := by
  induction l with
  | nil => rfl
  | cons a l ih => simp [lessLoop, ih]

theorem lessLoop_trans {a b c : List ℕ} (h1 : lessLoop a b = true) (h2 : lessLoop b c = true) :
    lessLoop a c = true := by
  induction a generalizing b c with
  | nil => simp [lessLoop] at h1
  | cons x a ih =>
    cases b with
    | nil => simp [lessLoop] at h1
    | cons y b =>
      cases c with
      | nil => simp [lessLoop] at h2
      | cons z c =>
        unfold lessLoop at h1 h2 ⊢
        by_cases hxy : x = y
        · subst hxy
          by_cases hxz : x = z
          · subst hxz
            simp only [ne_eq, not_true_eq_false, if_false] at h1 h2 ⊢
            exact ih h1 h2
          · simpa [hxz] using h2
        · by_cases hyz : y = z
          · subst hyz
            simpa [hxy] using h1
          · simp only [ne_eq, hxy, hyz, not_false_eq_true, if_true, decide_eq_true_eq] at h1 h2
            rw [if_pos (by omega)]
            simp only [decide_eq_true_eq]
            omega

theorem lessLoop_total {a b : List ℕ} (hl : a.length = b.length) (hne : a ≠ b) :
    lessLoop a b = true ∨ lessLoop b a = true := by
  induction a generalizing b with
  | nil => cases b with
    | nil => exact absurd rfl hne
    | cons _ _ => simp at hl
  | cons x a ih =>
    cases b with
    | nil => simp at hl
    | cons y b =>
      unfold lessLoop
      by_cases hxy : x = y
      · subst hxy
        simp only [ne_eq, not_true_eq_false, if_false]
        exact ih (by simpa using hl) (fun h => hne (by rw [h]))
      · rw [if_pos hxy, if_pos (fun h => hxy h.symm)]
        simp only [decide_eq_true_eq]
        omega

theorem less_irrefl (l : List ℕ) : less l l = false := by
  simp [less, lessLoop_irrefl]

theorem less_trans {a b c : List ℕ} (h1 : less a b = true) (h2 : less b c = true) :
    less a c = true := by
  unfold less at *
  by_cases hab : a.length = b.length
  · by_cases hbc : b.length = c.length
    · rw [if_neg (by simpa using hab)] at h1
      rw [if_neg (by simpa using hbc)] at h2
      rw [if_neg (by simpa using hab.trans hbc)]
      exact lessLoop_trans h1 h2
    · rw [if_pos hbc] at h2
      rw [hab, if_pos hbc]
      exact h2
  · rw [if_pos hab] at h1
    simp only [decide_eq_true_eq] at h1
    by_cases hbc : b.length = c.length
    · rw [← hbc, if_pos hab]
      simpa using h1
    · rw [if_pos hbc] at h2
      simp only [decide_eq_true_eq] at h2
      rw [if_pos (by omega)]
      simp only [decide_eq_true_eq]
      omega

theorem less_total {a b : List ℕ} (hne : a ≠ b) : less a b = true ∨ less b a = true := by
  unfold less
  by_cases hab : a.length = b.length
  · rw [if_neg (by simpa using hab), if_neg (by simpa using hab.symm)]
    exact lessLoop_total hab hne
  · rw [if_pos hab, if_pos (fun h => hab h.symm)]
    simp only [decide_eq_true_eq]
    omega

theorem less_asymm {a b : List ℕ} (h : less a b = true) : less b a = false := by
  by_contra hb
  have := less_trans h (by simpa using hb)
  rw [less_irrefl] at this
  cases this

/-! ## The map -/

/-- Keys strictly increase. -/
def Sorted (m : TuningMap) : Prop := m.Pairwise fun a b => less a.1 b.1 = true

theorem find_some_iff {m : TuningMap} (hm : Sorted m) {k : List ℕ} {r : ℕ} :
    m.find k = some r ↔ (k, r) ∈ m := by
  induction m with
  | nil => simp [TuningMap.find]
  | cons a m ih =>
    obtain ⟨k', r'⟩ := a
    obtain ⟨h1, h2⟩ := List.pairwise_cons.1 hm
    unfold TuningMap.find
    by_cases hk : k = k'
    · subst hk
      simp only [less_irrefl, Bool.false_eq_true, if_false, Option.some.injEq, List.mem_cons,
        Prod.mk.injEq, true_and]
      constructor
      · exact fun h => .inl h.symm
      · rintro (h | h)
        · exact h.symm
        · have := h1 _ h
          simp [less_irrefl] at this
    · by_cases hl : less k' k = true
      · rw [if_pos hl, ih h2]
        simp [hk]
      · have hl' := (less_total (Ne.symm hk)).resolve_left hl
        rw [if_neg hl, if_pos hl']
        simp only [reduceCtorEq, List.mem_cons, Prod.mk.injEq, hk, false_and, false_or, false_iff]
        intro h
        have := less_trans (h1 _ h) (b := k) (c := k') hl'
        simp [less_irrefl] at this

theorem mem_insert {m : TuningMap} {k : List ℕ} {r : ℕ} {x : List ℕ × ℕ} :
    x ∈ m.insert k r ↔ x = (k, r) ∨ x ∈ m := by
  induction m with
  | nil => simp [TuningMap.insert]
  | cons a m ih =>
    unfold TuningMap.insert
    split
    · simp only [List.mem_cons, ih]
      tauto
    · simp only [List.mem_cons]

theorem sorted_insert {m : TuningMap} (hm : Sorted m) {k : List ℕ} (hk : m.find k = none) (r : ℕ) :
    Sorted (m.insert k r) := by
  induction m with
  | nil => simp [TuningMap.insert, Sorted]
  | cons a m ih =>
    obtain ⟨k', r'⟩ := a
    obtain ⟨h1, h2⟩ := List.pairwise_cons.1 hm
    unfold TuningMap.find at hk
    unfold TuningMap.insert
    by_cases hl : less k' k = true
    · rw [if_pos hl] at hk ⊢
      refine List.pairwise_cons.2 ⟨fun x hx => ?_, ih h2 hk⟩
      rcases mem_insert.1 hx with rfl | hx
      · exact hl
      · exact h1 x hx
    · rw [if_neg hl] at hk ⊢
      have hl' : less k k' = true := by
        by_contra h
        rw [if_neg h] at hk
        cases hk
      refine List.pairwise_cons.2 ⟨fun x hx => ?_, hm⟩
      rcases List.mem_cons.1 hx with rfl | hx
      · exact hl'
      · exact less_trans hl' (h1 x hx)

/-! ## Decoding -/

theorem wrap32_of_range {v : ℤ} (h0 : -2 ^ 31 ≤ v) (h1 : v < 2 ^ 31) : wrap32 v = v := by
  unfold wrap32
  rw [Int.bmod_eq_of_le] <;> omega

theorem decodeStep_nonneg {size p : ℤ} (hs : 1 ≤ size) (hp : 0 ≤ p) :
    decodeStep size p = .ok (p % size, p / size) := by
  unfold decodeStep
  rw [if_neg (by omega), if_neg (by omega), Int.tmod_eq_emod_of_nonneg hp,
    Int.tdiv_eq_ediv_of_nonneg hp]

/-- The candidates of a declared variable: as many as its set size says, at least one. -/
structure Decl.Good (d : Decl) : Prop where
  size : d.setSize = d.values.length
  pos : 1 ≤ d.values.length
  small : d.values.length < 2 ^ 31

theorem Decl.Good.wrap {d : Decl} (h : d.Good) : wrap32 d.setSize = d.values.length := by
  rw [h.size]
  have := h.small
  exact wrap32_of_range (by omega) (by omega)

/-- The variables are declared with candidates. -/
def GoodVars {M : Type} (s : State M) (ids : List ℕ) (ds : List Decl) : Prop :=
  List.Forall₂ (fun id d => s.decls id = some d ∧ d.Good) ids ds

/-- Number of combinations. -/
def combos (ds : List Decl) : ℤ := (ds.map fun d => (d.values.length : ℤ)).prod

theorem combos_pos {ds : List Decl} (h : ∀ d ∈ ds, d.Good) : 1 ≤ combos ds := by
  induction ds with
  | nil => simp [combos]
  | cons d ds ih =>
    have h1 := (h d List.mem_cons_self).pos
    have h2 := ih fun x hx => h x (List.mem_cons_of_mem _ hx)
    simp only [combos, List.map_cons, List.prod_cons] at h2 ⊢
    have h1' : (1 : ℤ) ≤ d.values.length := by exact_mod_cast h1
    nlinarith

theorem GoodVars.good {M : Type} {s : State M} {ids : List ℕ} {ds : List Decl}
    (h : GoodVars s ids ds) : ∀ d ∈ ds, d.Good := by
  induction h with
  | nil => simp
  | cons h _ ih =>
    intro d hd
    rcases List.mem_cons.1 hd with rfl | hd
    · exact h.2
    · exact ih d hd

theorem decode_cons {M : Type} {s : State M} {id : ℕ} {ids : List ℕ} {d : Decl} {p : ℤ}
    (h : s.decls id = some d) (hd : d.Good) (hp : 0 ≤ p) :
    ∃ v, d.values[(p % d.values.length).toNat]? = some v ∧
      decode s (id :: ids) p = (do
        let vs ← decode s ids (p / d.values.length)
        .ok (v :: vs)) := by
  have hpos : (1 : ℤ) ≤ d.values.length := by exact_mod_cast hd.pos
  have h0 := Int.emod_nonneg p (b := d.values.length) (by omega)
  have h1 := Int.emod_lt_of_pos p (b := (d.values.length : ℤ)) (by omega)
  obtain ⟨v, hv⟩ : ∃ v, d.values[(p % d.values.length).toNat]? = some v :=
    ⟨_, List.getElem?_eq_getElem (by omega)⟩
  refine ⟨v, hv, ?_⟩
  have hdecl : s.decl id = .ok d := by unfold State.decl; rw [h]
  rw [decode, hdecl, Res.bind_ok, hd.wrap, decodeStep_nonneg hpos hp, Res.bind_ok]
  simp only
  rw [if_neg (by omega), hv]

/-! ## Candidates -/

theorem i64_ok {v w : ℤ} (h : i64 v = .ok w) : w = v := by
  unfold i64 at h
  split at h
  · cases h; rfl
  · cases h

theorem countInt_ok {r : Range ℤ} {n : ℤ} (h : countInt r = .ok n) :
    r.step ≠ 0 ∧ n = 1 + ((if r.openUpper then r.upper - 1 else r.upper) -
      (if r.openLower then r.lower + 1 else r.lower)).tdiv r.step := by
  unfold countInt at h
  obtain ⟨hi, h1, h⟩ := (Res.bind_eq_ok _ _ _).1 h
  obtain ⟨lo, h2, h⟩ := (Res.bind_eq_ok _ _ _).1 h
  obtain ⟨d, h3, h⟩ := (Res.bind_eq_ok _ _ _).1 h
  have e1 : hi = if r.openUpper then r.upper - 1 else r.upper := by
    unfold upperInt at h1
    cases hu : r.openUpper <;> simp only [hu] at h1
    · cases h1; rfl
    · exact i64_ok h1
  have e2 : lo = if r.openLower then r.lower + 1 else r.lower := by
    unfold lowerInt at h2
    cases hu : r.openLower <;> simp only [hu] at h2
    · cases h2; rfl
    · exact i64_ok h2
  split at h
  · cases h
  · rename_i hs
    obtain ⟨q, h4, h⟩ := (Res.bind_eq_ok _ _ _).1 h
    refine ⟨hs, ?_⟩
    rw [i64_ok h, i64_ok h4, i64_ok h3, e1, e2]

theorem fillInt_ok {r : Range ℤ} {n : ℕ} {x : ℤ} {vs : List Value} (h : fillInt r n x = .ok vs) :
    vs = (List.range n).map fun i : ℕ =>
      .int ((if r.openLower then r.lower else r.lower + r.step) + (x + i) * r.step) := by
  induction n generalizing x vs with
  | zero => simp only [fillInt] at h; cases h; rfl
  | succ n ih =>
    unfold fillInt at h
    obtain ⟨lo, h1, h⟩ := (Res.bind_eq_ok _ _ _).1 h
    obtain ⟨d, h2, h⟩ := (Res.bind_eq_ok _ _ _).1 h
    obtain ⟨v, h3, h⟩ := (Res.bind_eq_ok _ _ _).1 h
    obtain ⟨us, h4, h⟩ := (Res.bind_eq_ok _ _ _).1 h
    cases h
    have e1 : lo = if r.openLower then r.lower else r.lower + r.step := by
      unfold firstInt at h1
      cases hu : r.openLower <;> simp only [hu] at h1
      · exact i64_ok h1
      · cases h1; rfl
    rw [ih h4, i64_ok h3, i64_ok h2, e1, List.range_succ_eq_map, List.map_cons, List.map_map]
    congr 1
    · simp
    · refine List.map_congr_left fun i _ => ?_
      simp only [Function.comp, Nat.succ_eq_add_one]
      push_cast
      congr 2
      ring

theorem associate_int {r : Range ℤ} {n : ℤ} {vs : List Value}
    (h : associate (.intRange r) = .ok (n, vs)) :
    n = 1 + ((if r.openUpper then r.upper - 1 else r.upper) -
      (if r.openLower then r.lower + 1 else r.lower)).tdiv r.step ∧
    (0 < n → vs = (List.range n.toNat).map fun i : ℕ =>
      .int ((if r.openLower then r.lower else r.lower + r.step) + i * r.step)) := by
  simp only [associate] at h
  obtain ⟨k, h1, h⟩ := (Res.bind_eq_ok _ _ _).1 h
  have e := (countInt_ok h1).2
  split at h
  · cases h
    exact ⟨e, fun h0 => absurd h0 (by omega)⟩
  · split at h
    · obtain ⟨us, h2, h⟩ := (Res.bind_eq_ok _ _ _).1 h
      cases h
      refine ⟨e, fun _ => ?_⟩
      have := fillInt_ok h2
      simpa using this
    · cases h

theorem tdiv_mul_gt {d s : ℤ} (hs : 0 < s) : d < s + d.tdiv s * s := by
  have h1 := Int.mul_tdiv_add_tmod d s
  have h2 := Int.tmod_lt_of_pos d hs
  rw [mul_comm (d.tdiv s)]
  omega

theorem tdiv_mul_le {d s : ℤ} (hd : 0 ≤ d) (_hs : 0 < s) : d.tdiv s * s ≤ d := by
  have h1 := Int.mul_tdiv_add_tmod d s
  have h2 := Int.tmod_nonneg s hd
  rw [mul_comm (d.tdiv s)]
  omega

theorem tdiv_nonpos_of_neg {d s : ℤ} (hd : d < 0) (hs : 0 < s) : d.tdiv s ≤ 0 := by
  have := Int.neg_tdiv (-d) s
  rw [neg_neg] at this
  have h2 := Int.tdiv_nonneg (a := -d) (b := s) (by omega) hs.le
  omega

end Apollo.Kokkos
