import Verif.Num.Decimal
import Mathlib.Tactic.IntervalCases

/-! Helper lemmas: reading back what was formatted. -/

namespace Apollo

theorem digitVal_digitChar {d : ℕ} (h : d < 10) : digitVal (digitChar d) = d := by
  interval_cases d <;> rfl

theorem isDigit_digitChar {d : ℕ} (h : d < 10) : isDigit (digitChar d) = true := by
  interval_cases d <;> rfl

theorem valDigits_foldl (a : ℕ) (l : List Char) :
    l.foldl (fun a c => 10 * a + digitVal c) a = a * 10 ^ l.length + valDigits l := by
  induction l generalizing a with
  | nil => simp [valDigits]
  | cons c l ih =>
    unfold valDigits
    simp only [List.foldl_cons, List.length_cons]
    rw [ih, ih (10 * 0 + digitVal c)]
    ring

theorem valDigits_append (a b : List Char) :
    valDigits (a ++ b) = valDigits a * 10 ^ b.length + valDigits b := by
  conv_lhs => unfold valDigits
  rw [List.foldl_append, valDigits_foldl]
  rfl

@[simp] theorem valDigits_nil : valDigits [] = 0 := rfl

theorem valDigits_singleton (c : Char) : valDigits [c] = digitVal c := by simp [valDigits]

theorem valDigits_replicate_zero (k : ℕ) : valDigits (List.replicate k '0') = 0 := by
  induction k with
  | zero => rfl
  | succ k ih =>
    rw [List.replicate_succ, ← List.singleton_append, valDigits_append, ih]
    simp [valDigits_singleton, digitVal]

theorem natDigitsAux_spec (fuel n : ℕ) (h : n < fuel) :
    valDigits (natDigitsAux fuel n) = n ∧ (∀ c ∈ natDigitsAux fuel n, isDigit c = true) ∧
    natDigitsAux fuel n ≠ [] ∧ (∀ k, 1 ≤ k → n < 10 ^ k → (natDigitsAux fuel n).length ≤ k) := by
  induction fuel generalizing n with
  | zero => omega
  | succ fuel ih =>
    unfold natDigitsAux
    split
    next hn =>
      refine ⟨?_, ?_, by simp, ?_⟩
      · rw [valDigits_singleton, digitVal_digitChar hn]
      · intro c hc; simp only [List.mem_singleton] at hc; rw [hc]; exact isDigit_digitChar hn
      · intro k hk _; simpa using hk
    next hn =>
      obtain ⟨h1, h2, h3, h4⟩ := ih (n / 10) (by omega)
      have hm : n % 10 < 10 := Nat.mod_lt _ (by norm_num)
      refine ⟨?_, ?_, by simp, ?_⟩
      · rw [valDigits_append, h1, valDigits_singleton, digitVal_digitChar hm]
        simp only [List.length_singleton]
        omega
      · intro c hc
        rcases List.mem_append.1 hc with hc | hc
        · exact h2 c hc
        · simp only [List.mem_singleton] at hc; rw [hc]; exact isDigit_digitChar hm
      · intro k hk hlt
        rw [List.length_append, List.length_singleton]
        have hk2 : 2 ≤ k := by
          rcases Nat.lt_or_ge k 2 with h | h
          · have : k = 1 := by omega
            subst this; omega
          · exact h
        have := h4 (k - 1) (by omega) (by
          obtain ⟨j, rfl⟩ : ∃ j, k = j + 1 := ⟨k - 1, by omega⟩
          simp only [Nat.add_sub_cancel]
          rw [pow_succ] at hlt
          omega)
        omega

theorem valDigits_natDigits (n : ℕ) : valDigits (natDigits n) = n :=
  (natDigitsAux_spec (n + 1) n (by omega)).1

theorem isDigit_of_mem_natDigits {n : ℕ} {c : Char} (h : c ∈ natDigits n) : isDigit c = true :=
  (natDigitsAux_spec (n + 1) n (by omega)).2.1 c h

theorem natDigits_ne_nil (n : ℕ) : natDigits n ≠ [] :=
  (natDigitsAux_spec (n + 1) n (by omega)).2.2.1

theorem length_natDigits_le {n k : ℕ} (hk : 1 ≤ k) (h : n < 10 ^ k) : (natDigits n).length ≤ k :=
  (natDigitsAux_spec (n + 1) n (by omega)).2.2.2 k hk h

theorem fixDigits_spec (k n : ℕ) :
    (fixDigits k n).length = k ∧ valDigits (fixDigits k n) = n % 10 ^ k ∧
    ∀ c ∈ fixDigits k n, isDigit c = true := by
  induction k generalizing n with
  | zero => simp [fixDigits, Nat.mod_one]
  | succ k ih =>
    obtain ⟨h1, h2, h3⟩ := ih (n / 10)
    have hm : n % 10 < 10 := Nat.mod_lt _ (by norm_num)
    refine ⟨by simp [fixDigits, h1], ?_, ?_⟩
    · simp only [fixDigits]
      rw [valDigits_append, h2, valDigits_singleton, digitVal_digitChar hm]
      simp only [List.length_singleton, pow_one]
      rw [pow_succ, mul_comm (10 ^ k) 10, Nat.mod_mul]
      ring
    · intro c hc
      simp only [fixDigits] at hc
      rcases List.mem_append.1 hc with hc | hc
      · exact h3 c hc
      · simp only [List.mem_singleton] at hc; rw [hc]; exact isDigit_digitChar hm

theorem stripZeros_spec (l : List Char) :
    ∃ k, l = stripZeros l ++ List.replicate k '0' := by
  unfold stripZeros
  refine ⟨(l.reverse.takeWhile (· = '0')).length, ?_⟩
  have h1 : l = (l.reverse.takeWhile (· = '0') ++ l.reverse.dropWhile (· = '0')).reverse := by
    rw [List.takeWhile_append_dropWhile, List.reverse_reverse]
  conv_lhs => rw [h1, List.reverse_append]
  congr 1
  rw [List.eq_replicate_iff]
  refine ⟨by simp, ?_⟩
  intro b hb
  rw [List.mem_reverse] at hb
  have := List.all_takeWhile (p := fun c : Char => decide (c = '0')) (l := l.reverse)
  rw [List.all_eq_true] at this
  simpa using this b hb

theorem mem_of_mem_stripZeros {l : List Char} {c : Char} (h : c ∈ stripZeros l) : c ∈ l := by
  obtain ⟨k, hk⟩ := stripZeros_spec l
  rw [hk]; exact List.mem_append_left _ h

theorem length_stripZeros_le (l : List Char) : (stripZeros l).length ≤ l.length := by
  obtain ⟨k, hk⟩ := stripZeros_spec l
  conv_rhs => rw [hk]
  simp

/-- The value of a fraction does not depend on trailing zeros. -/
theorem val_stripZeros (a l : List Char) :
    (valDigits (a ++ stripZeros l) : ℚ) * 10 ^ (-((stripZeros l).length : ℤ)) =
      valDigits (a ++ l) * 10 ^ (-(l.length : ℤ)) := by
  obtain ⟨k, hk⟩ := stripZeros_spec l
  have hv : valDigits (a ++ l) = valDigits (a ++ stripZeros l) * 10 ^ k := by
    conv_lhs => rw [hk, ← List.append_assoc, valDigits_append, valDigits_replicate_zero]
    simp
  have hl : (l.length : ℤ) = (stripZeros l).length + k := by
    conv_lhs => rw [hk]
    simp
  rw [hv, hl, neg_add, zpow_add₀ (by norm_num)]
  push_cast
  rw [show (10 : ℚ) ^ (-(k : ℤ)) = (10 ^ k)⁻¹ by rw [zpow_neg, zpow_natCast]]
  field_simp

/-! ## Character classes -/

theorem isDigit_ne_of_not {c d : Char} (h : isDigit c = true) (hd : isDigit d = false) : c ≠ d := by
  rintro rfl; rw [h] at hd; cases hd

/-- The text after a number: nothing, or a character that cannot continue the number. -/
def Stops : List Char → Prop
  | [] => True
  | c :: _ => isDigit c = false ∧ c ≠ '.' ∧ c ≠ 'e' ∧ c ≠ 'E' ∧ c ≠ 'x' ∧ c ≠ 'X'

theorem takeWhile_digits (a : List Char) (ha : ∀ c ∈ a, isDigit c = true) (s : List Char)
    (hs : ∀ c ∈ s.head?, isDigit c = false) :
    (a ++ s).takeWhile isDigit = a ∧ (a ++ s).dropWhile isDigit = s := by
  induction a with
  | nil =>
    cases s with
    | nil => simp
    | cons c s => have := hs c (by simp); simp [this]
  | cons x a ih =>
    have hx := ha x (by simp)
    have := ih (fun c hc => ha c (List.mem_cons_of_mem _ hc))
    simp only [List.cons_append, List.takeWhile_cons, List.dropWhile_cons, hx, if_true, this,
      and_self]

theorem Stops.head {s : List Char} (h : Stops s) : ∀ c ∈ s.head?, isDigit c = false := by
  cases s with
  | nil => simp
  | cons c s => intro d hd; simp at hd; rw [← hd]; exact h.1

theorem readSign_of_digit {c : Char} {s : List Char} (h : isDigit c = true) :
    readSign (c :: s) = (false, c :: s) := by
  unfold readSign
  split
  · next heq => cases heq; simp [isDigit] at h
  · next heq => cases heq; simp [isDigit] at h
  · rfl

theorem readFrac_of_not {s : List Char} (h : s.head? ≠ some '.') : readFrac s = ([], s) := by
  unfold readFrac
  split
  · simp at h
  · rfl

theorem readExp_of_stops {s : List Char} (h : Stops s) : readExp s = (0, s) := by
  unfold readExp
  cases s with
  | nil => rfl
  | cons c r =>
    simp only
    rw [if_neg]
    rintro (rfl | rfl)
    · exact h.2.2.1 rfl
    · exact h.2.2.2.1 rfl

theorem readExp_fmtExp (e : ℤ) (s : List Char) (hs : Stops s) :
    readExp ('e' :: fmtExp e ++ s) = (e, s) := by
  unfold readExp fmtExp
  simp only [List.cons_append, true_or, if_true]
  set ds : List Char := if e.natAbs < 10 then '0' :: natDigits e.natAbs else natDigits e.natAbs
    with hds
  have hdig : ∀ c ∈ ds, isDigit c = true := by
    intro c hc
    rw [hds] at hc
    split at hc
    · rcases List.mem_cons.1 hc with rfl | hc
      · rfl
      · exact isDigit_of_mem_natDigits hc
    · exact isDigit_of_mem_natDigits hc
  have hne : ds ≠ [] := by
    rw [hds]; split
    · simp
    · exact natDigits_ne_nil _
  have hval : valDigits ds = e.natAbs := by
    rw [hds]; split
    · rw [← List.singleton_append, valDigits_append, valDigits_natDigits]; simp [valDigits_singleton, digitVal]
    · exact valDigits_natDigits _
  obtain ⟨t1, t2⟩ := takeWhile_digits ds hdig s hs.head
  by_cases hneg : e < 0
  · simp only [hneg, if_true, readSign, t1, t2, hval, if_neg hne]
    congr 1; omega
  · simp only [hneg, if_false, readSign, t1, t2, hval, if_neg hne]
    congr 1
    simp only [Bool.false_eq_true, if_false]
    omega

theorem fmtExp_stops_digit (e : ℤ) (s : List Char) :
    ∀ c ∈ ('e' :: fmtExp e ++ s).head?, isDigit c = false := by
  intro c hc; simp at hc; rw [← hc]; rfl

/-- Value denoted by the parts of a rendered number. -/
def partsVal (ip fp : List Char) (ex : Option ℤ) : ℚ :=
  valDigits (ip ++ fp) * 10 ^ (ex.getD 0 - (fp.length : ℤ))

theorem readDecimal_render (neg : Bool) (ip fp : List Char) (ex : Option ℤ) (s : List Char)
    (hip : ip ≠ []) (hipd : ∀ c ∈ ip, isDigit c = true) (hfpd : ∀ c ∈ fp, isDigit c = true)
    (hs : Stops s) :
    readDecimal (render neg ip fp ex ++ s) =
      some (if neg then - partsVal ip fp ex else partsVal ip fp ex, s) := by
  -- exponent part
  set ep : List Char := fmtExpOpt ex with hep
  have hexp : readExp (ep ++ s) = (ex.getD 0, s) := by
    rw [hep]
    cases ex with
    | none => simpa [fmtExpOpt] using readExp_of_stops hs
    | some e => simpa [fmtExpOpt] using readExp_fmtExp e s hs
  have hephead : ∀ c ∈ (ep ++ s).head?, isDigit c = false ∧ c ≠ '.' := by
    intro c hc
    rw [hep] at hc
    cases ex with
    | none =>
      simp only [fmtExpOpt, List.nil_append] at hc
      cases s with
      | nil => simp at hc
      | cons d s => simp at hc; rw [← hc]; exact ⟨hs.1, hs.2.1⟩
    | some e => simp [fmtExpOpt] at hc; rw [← hc]; exact ⟨by rfl, by decide⟩
  -- fraction part
  set fpart : List Char := (if fp = [] then [] else '.' :: fp) with hfpart
  have hfrac : readFrac (fpart ++ (ep ++ s)) = (fp, ep ++ s) := by
    rw [hfpart]
    by_cases hfp : fp = []
    · subst hfp
      simp only [if_true, List.nil_append]
      apply readFrac_of_not
      intro h
      exact (hephead '.' (by rw [h]; rfl)).2 rfl
    · rw [if_neg hfp]
      simp only [List.cons_append, readFrac]
      obtain ⟨t1, t2⟩ := takeWhile_digits fp hfpd (ep ++ s) (fun c hc => (hephead c hc).1)
      rw [t1, t2]
  have hfhead : ∀ c ∈ (fpart ++ (ep ++ s)).head?, isDigit c = false := by
    intro c hc
    rw [hfpart] at hc
    by_cases hfp : fp = []
    · rw [if_pos hfp] at hc; exact (hephead c hc).1
    · rw [if_neg hfp] at hc; simp at hc; rw [← hc]; rfl
  obtain ⟨t1, t2⟩ := takeWhile_digits ip hipd (fpart ++ (ep ++ s)) hfhead
  have hsign : readSign (render neg ip fp ex ++ s) = (neg, ip ++ (fpart ++ (ep ++ s))) := by
    have e1 : render neg ip fp ex ++ s =
        (if neg then ['-'] else []) ++ (ip ++ (fpart ++ (ep ++ s))) := by
      unfold render
      simp only [← hfpart, ← hep, List.append_assoc]
    rw [e1]
    cases neg with
    | true => rfl
    | false =>
      cases ip with
      | nil => exact absurd rfl hip
      | cons c ip =>
        simp only [Bool.false_eq_true, if_false, List.nil_append, List.cons_append]
        exact readSign_of_digit (hipd c (by simp))
  unfold readDecimal
  simp only [hsign, t1, t2, hfrac, hexp]
  rw [if_neg (by simp [hip])]
  rfl

/-! ## Six significant digits -/

theorem ten_zpow_pos (e : ℤ) : (0 : ℚ) < 10 ^ e := zpow_pos (by norm_num) e

theorem sig6_bounds {x : ℚ} (hx : 0 < x) :
    100000 ≤ roundEven (x / 10 ^ unit6 x) ∧ roundEven (x / 10 ^ unit6 x) ≤ 1000000 := by
  have hpos := ten_zpow_pos (unit6 x)
  have habs : |x| = x := abs_of_pos hx
  have h1 := Int.zpow_log_le_self (R := ℚ) (b := 10) (r := x) (by norm_num) hx
  have h2 := Int.lt_zpow_succ_log_self (R := ℚ) (b := 10) (by norm_num) x
  have e1 : (10 : ℚ) ^ Int.log 10 x = 100000 * 10 ^ unit6 x := by
    unfold unit6
    rw [habs, zpow_sub₀ (by norm_num)]
    norm_num
    field_simp
  have e2 : (10 : ℚ) ^ (Int.log 10 x + 1) = 1000000 * 10 ^ unit6 x := by
    rw [zpow_add₀ (by norm_num), e1]; ring
  push_cast at h1 h2
  rw [e1] at h1
  rw [e2] at h2
  constructor
  · apply le_roundEven_of_int_le
    rw [le_div_iff₀ hpos]; exact_mod_cast h1
  · apply roundEven_le_of_le_int
    rw [div_le_iff₀ hpos]; exact_mod_cast h2.le

theorem sig6_spec {x : ℚ} (hx : 0 < x) :
    100000 ≤ (sig6 x).1 ∧ (sig6 x).1 < 1000000 ∧
    ((sig6 x).1 : ℚ) * 10 ^ ((sig6 x).2 - 5) = round6 x := by
  obtain ⟨h1, h2⟩ := sig6_bounds hx
  have habs : |x| = x := abs_of_pos hx
  unfold sig6
  simp only
  set r := roundEven (x / 10 ^ unit6 x) with hr
  have hnn : (r.toNat : ℤ) = r := Int.toNat_of_nonneg (by omega)
  by_cases hc : r.toNat = 1000000
  · rw [if_pos hc]
    refine ⟨by norm_num, by norm_num, ?_⟩
    unfold round6
    rw [← hr]
    have : r = 1000000 := by omega
    rw [this]
    have : Int.log 10 x + 1 - 5 = unit6 x + 1 := by unfold unit6; rw [habs]; ring
    simp only
    rw [this, zpow_add₀ (by norm_num)]
    push_cast
    ring
  · rw [if_neg hc]
    refine ⟨by show 100000 ≤ r.toNat; omega, by show r.toNat < 1000000; omega, ?_⟩
    simp only
    unfold round6
    rw [← hr]
    have e : ((r.toNat : ℕ) : ℚ) = (r : ℚ) := by exact_mod_cast hnn
    rw [e]
    congr 2
    unfold unit6; rw [habs]

theorem round6_neg (q : ℚ) : round6 (-q) = - round6 q := by
  unfold round6 unit6
  rw [abs_neg, neg_div, roundEven_neg]
  push_cast; ring

theorem parts6_spec {x : ℚ} (hx : 0 < x) :
    (parts6 x).1 ≠ [] ∧ (∀ c ∈ (parts6 x).1, isDigit c = true) ∧
    (∀ c ∈ (parts6 x).2.1, isDigit c = true) ∧
    partsVal (parts6 x).1 (parts6 x).2.1 (parts6 x).2.2 = round6 x ∧
    (parts6 x).1.length ≤ 6 ∧ (parts6 x).2.1.length ≤ 9 ∧
    (∀ e, (parts6 x).2.2 = some e → e = (sig6 x).2) := by
  obtain ⟨h1, h2, h3⟩ := sig6_spec hx
  obtain ⟨f1, f2, f3⟩ := fixDigits_spec 6 (sig6 x).1
  unfold parts6
  simp only
  set n := (sig6 x).1
  set e := (sig6 x).2
  set D := fixDigits 6 n
  have hDn : valDigits D = n := by rw [f2]; exact Nat.mod_eq_of_lt h2
  by_cases c1 : 0 ≤ e ∧ e < 6
  · rw [if_pos c1]
    refine ⟨?_, ?_, ?_, ?_, ?_, ?_, ?_⟩
    · intro h
      have := congrArg List.length h
      simp [f1] at this
    · intro c hc; exact f3 c (List.mem_of_mem_take hc)
    · intro c hc; exact f3 c (List.mem_of_mem_drop (mem_of_mem_stripZeros hc))
    · unfold partsVal
      simp only [Option.getD_none, zero_sub]
      rw [val_stripZeros, List.take_append_drop, hDn, List.length_drop, f1, ← h3]
      congr 2
      omega
    · simp [f1]
    · refine (length_stripZeros_le _).trans ?_
      simp [f1]; omega
    · simp
  · rw [if_neg c1]
    by_cases c2 : -4 ≤ e ∧ e < 0
    · rw [if_pos c2]
      refine ⟨by simp, by simp [isDigit], ?_, ?_, by simp, ?_, by simp⟩
      · intro c hc
        rcases List.mem_append.1 hc with hc | hc
        · rw [List.mem_replicate] at hc; rw [hc.2]; rfl
        · exact f3 c (mem_of_mem_stripZeros hc)
      · unfold partsVal
        simp only [Option.getD_none, zero_sub, List.length_append, List.length_replicate]
        have hv : valDigits (['0'] ++ (List.replicate (-e - 1).toNat '0' ++ stripZeros D)) =
            valDigits ([] ++ stripZeros D) := by
          rw [← List.append_assoc, valDigits_append, valDigits_append, valDigits_replicate_zero]
          simp [valDigits_singleton, digitVal]
        rw [hv]
        push_cast
        rw [neg_add, zpow_add₀ (by norm_num), mul_left_comm, val_stripZeros, List.nil_append, hDn, f1,
          ← h3, mul_left_comm, ← zpow_add₀ (by norm_num)]
        congr 2
        omega
      · rw [List.length_append, List.length_replicate]
        have := length_stripZeros_le D
        rw [f1] at this
        omega
    · rw [if_neg c2]
      refine ⟨?_, ?_, ?_, ?_, ?_, ?_, ?_⟩
      · intro h
        have := congrArg List.length h
        simp [f1] at this
      · intro c hc; exact f3 c (List.mem_of_mem_take hc)
      · intro c hc; exact f3 c (List.mem_of_mem_drop (mem_of_mem_stripZeros hc))
      · unfold partsVal
        simp only [Option.getD_some]
        rw [sub_eq_add_neg, zpow_add₀ (by norm_num), mul_left_comm, val_stripZeros,
          List.take_append_drop, hDn, List.length_drop, f1, ← h3, mul_left_comm,
          ← zpow_add₀ (by norm_num)]
        congr 2
      · simp [f1]
      · refine (length_stripZeros_le _).trans ?_
        simp [f1]
      · intro e' he; simpa using he.symm

@[simp] theorem round6_zero : round6 0 = 0 := by
  have : roundEven 0 = 0 := roundEven_intCast 0
  simp [round6, this]

/-- Reading back a formatted number gives the number rounded to six significant digits. -/
theorem readDecimal_fmtG6 (q : ℚ) (s : List Char) (hs : Stops s) :
    readDecimal (fmtG6 q ++ s) = some (round6 q, s) := by
  unfold fmtG6
  by_cases hq : q = 0
  · rw [if_pos hq]
    have := readDecimal_render false ['0'] [] none s (by simp) (by simp [isDigit]) (by simp) hs
    simp only [render, fmtExpOpt, Bool.false_eq_true, if_false, if_true, List.nil_append, List.append_nil] at this
    rw [this, hq, round6_zero]
    simp [partsVal, valDigits_singleton, digitVal]
  · rw [if_neg hq]
    have hx : 0 < |q| := abs_pos.2 hq
    obtain ⟨p1, p2, p3, p4, _⟩ := parts6_spec hx
    simp only
    rw [readDecimal_render _ _ _ _ s p1 p2 p3 hs, p4]
    congr 2
    by_cases hneg : q < 0
    · simp only [hneg, decide_true, if_true]
      rw [abs_of_neg hneg, round6_neg, neg_neg]
    · simp only [hneg, decide_false, Bool.false_eq_true, if_false]
      rw [abs_of_nonneg (not_lt.1 hneg)]

end Apollo
