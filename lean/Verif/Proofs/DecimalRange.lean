import Verif.Proofs.Decimal

/-! Range and precision lemmas for reading back formatted numbers. -/

namespace Apollo

theorem unit6_le {q : ℚ} (hq : q ≠ 0) : (10 : ℚ) ^ unit6 q ≤ |q| / 100000 := by
  have hx : 0 < |q| := abs_pos.2 hq
  have h1 := Int.zpow_log_le_self (R := ℚ) (b := 10) (r := |q|) (by norm_num) hx
  unfold unit6
  rw [zpow_sub₀ (by norm_num)]
  push_cast at h1
  norm_num
  linarith

/-- Rounding to six digits: at most half a unit of the sixth digit. -/
theorem abs_round6_sub_le (q : ℚ) : |round6 q - q| ≤ 10 ^ unit6 q / 2 := by
  have hpos := ten_zpow_pos (unit6 q)
  have h := abs_roundEven_sub (q / 10 ^ unit6 q)
  have e : round6 q - q =
      ((roundEven (q / 10 ^ unit6 q) : ℚ) - q / 10 ^ unit6 q) * 10 ^ unit6 q := by
    unfold round6
    rw [sub_mul, div_mul_cancel₀ _ hpos.ne']
  rw [e, abs_mul, abs_of_pos hpos]
  nlinarith

theorem abs_round6_sub_rel (q : ℚ) : |round6 q - q| ≤ |q| / 200000 := by
  by_cases hq : q = 0
  · subst hq; simp
  · have h1 := abs_round6_sub_le q
    have h2 := unit6_le hq
    linarith

/-- Numbers with at most six significant decimal digits. -/
def SixDigits (q : ℚ) : Prop := ∃ n k : ℤ, |n| ≤ 1000000 ∧ q = n * 10 ^ k

theorem ten_zpow_split (E k : ℤ) (h : E ≤ k) :
    (10 : ℚ) ^ k = ((10 ^ (k - E).toNat : ℤ) : ℚ) * 10 ^ E := by
  have : k = ((k - E).toNat : ℤ) + E := by omega
  conv_lhs => rw [this, zpow_add₀ (by norm_num), zpow_natCast]
  push_cast
  rfl

theorem round6_of_sixDigits {q : ℚ} (h : SixDigits q) : round6 q = q := by
  obtain ⟨n, k, hn, rfl⟩ := h
  have key : ∀ n k : ℤ, n ≠ 0 → |n| < 1000000 →
      round6 ((n : ℚ) * 10 ^ k) = (n : ℚ) * 10 ^ k := by
    intro n k hn0 hn
    have hpos : (0 : ℚ) < 10 ^ k := ten_zpow_pos k
    have habs : |(n : ℚ) * 10 ^ k| = |(n : ℚ)| * 10 ^ k := by rw [abs_mul, abs_of_pos hpos]
    have hlt : |(n : ℚ) * 10 ^ k| < 10 ^ (6 + k) := by
      rw [habs, zpow_add₀ (by norm_num)]
      refine mul_lt_mul_of_pos_right ?_ hpos
      have : |(n : ℚ)| < ((1000000 : ℤ) : ℚ) := by exact_mod_cast hn
      refine lt_of_lt_of_le this ?_
      norm_num
    have hq0 : 0 < |(n : ℚ) * 10 ^ k| := abs_pos.2 (mul_ne_zero (by exact_mod_cast hn0) hpos.ne')
    have hlog : Int.log 10 |(n : ℚ) * 10 ^ k| < 6 + k := by
      rw [← Int.lt_zpow_iff_log_lt (by norm_num) hq0]
      simpa using hlt
    have hE : unit6 ((n : ℚ) * 10 ^ k) ≤ k := by
      unfold unit6; omega
    have hsplit := ten_zpow_split _ _ hE
    unfold round6
    set E := unit6 ((n : ℚ) * 10 ^ k) with hEdef
    have hEpos : (0 : ℚ) < 10 ^ E := ten_zpow_pos E
    have : (n : ℚ) * 10 ^ k / 10 ^ E = ((n * 10 ^ (k - E).toNat : ℤ) : ℚ) := by
      rw [div_eq_iff hEpos.ne', hsplit]; push_cast; ring
    rw [this, roundEven_intCast, hsplit]
    push_cast; ring
  by_cases hn0 : n = 0
  · subst hn0; simp
  rcases lt_or_eq_of_le hn with hlt | heq
  · exact key n k hn0 hlt
  · have h6 : (0 : ℤ) ≤ 1000000 := by norm_num
    rcases (abs_eq h6).1 heq with h | h
    · have e1 : (n : ℚ) * 10 ^ k = ((100000 : ℤ) : ℚ) * 10 ^ (k + 1) := by
        rw [h, zpow_add₀ (by norm_num)]; push_cast; ring
      rw [e1]; exact key _ _ (by norm_num) (by norm_num)
    · have e1 : (n : ℚ) * 10 ^ k = ((-100000 : ℤ) : ℚ) * 10 ^ (k + 1) := by
        rw [h, zpow_add₀ (by norm_num)]; push_cast; ring
      rw [e1]; exact key _ _ (by norm_num) (by norm_num)

theorem sixDigits_round6 (q : ℚ) : SixDigits (round6 q) := by
  by_cases hq : q = 0
  · subst hq; exact ⟨0, 0, by norm_num, by simp⟩
  · have main : ∀ x : ℚ, 0 < x → SixDigits (round6 x) := by
      intro x hx
      obtain ⟨h1, h2⟩ := sig6_bounds hx
      exact ⟨_, _, by rw [abs_of_nonneg (by omega)]; exact h2, rfl⟩
    rcases lt_or_gt_of_ne hq with h | h
    · obtain ⟨n, k, hn, e⟩ := main (-q) (by linarith)
      rw [round6_neg] at e
      refine ⟨-n, k, by rwa [abs_neg], ?_⟩
      push_cast
      linarith
    · exact main q h

/-- Any six digit decimal within half a unit of the sixth digit... uniqueness of the nearest one. -/
theorem roundEven_of_close {x : ℚ} {n : ℤ} (h : |x - n| < 1/2) : roundEven x = n := by
  have h1 := abs_roundEven_sub x
  rw [abs_lt] at h
  rw [abs_le] at h1
  have a : ((roundEven x : ℤ) : ℚ) < (n + 1 : ℤ) := by push_cast; linarith
  have b : ((n - 1 : ℤ) : ℚ) < (roundEven x : ℤ) := by push_cast; linarith
  have a' := Int.cast_lt.1 a
  have b' := Int.cast_lt.1 b
  omega

/-- A value close to a six digit decimal (relative distance below 2^-24) prints as that decimal. -/
theorem round6_of_close {d x : ℚ} (h : SixDigits d) (hc : |x - d| ≤ |d| / 2 ^ 24) :
    round6 x = d := by
  have main : ∀ d x : ℚ, 0 < d → SixDigits d → |x - d| ≤ |d| / 2 ^ 24 → round6 x = d := by
    intro d x hd h hc
    rw [abs_of_pos hd] at hc
    -- normalise to 10^5 ≤ n < 10^6
    obtain ⟨n, k, hn1, hn2, rfl⟩ : ∃ n k : ℤ, 100000 ≤ n ∧ n < 1000000 ∧ d = n * 10 ^ k := by
      have hr := round6_of_sixDigits h
      obtain ⟨b1, b2, b3⟩ := sig6_spec hd
      exact ⟨((sig6 d).1 : ℤ), (sig6 d).2 - 5, by exact_mod_cast b1, by exact_mod_cast b2, by
        rw [Int.cast_natCast, b3, hr]⟩
    have hk := ten_zpow_pos k
    have hnq1 : (100000 : ℚ) ≤ n := by exact_mod_cast hn1
    have hnq2 : (n : ℚ) ≤ 999999 := by exact_mod_cast (by omega : n ≤ 999999)
    rw [abs_le] at hc
    have hxpos : 0 < x := by nlinarith
    -- upper bound on x
    have hup : x < 10 ^ (k + 6) := by
      rw [zpow_add₀ (by norm_num)]
      norm_num
      nlinarith
    have hlow4 : (10 : ℚ) ^ (k + 4) ≤ x := by
      rw [zpow_add₀ (by norm_num)]
      norm_num
      nlinarith
    have hlogup : Int.log 10 |x| < k + 6 := by
      rw [abs_of_pos hxpos, ← Int.lt_zpow_iff_log_lt (by norm_num) hxpos]; simpa using hup
    have hloglow : k + 4 ≤ Int.log 10 |x| := by
      rw [abs_of_pos hxpos, ← Int.zpow_le_iff_le_log (by norm_num) hxpos]; simpa using hlow4
    by_cases hcase : (10 : ℚ) ^ (k + 5) ≤ x
    · have hlog5 : k + 5 ≤ Int.log 10 |x| := by
        rw [abs_of_pos hxpos, ← Int.zpow_le_iff_le_log (by norm_num) hxpos]; simpa using hcase
      have hu : unit6 x = k := by unfold unit6; omega
      unfold round6
      rw [hu]
      congr 2
      apply roundEven_of_close
      have e : x / 10 ^ k - n = (x - n * 10 ^ k) / 10 ^ k := by
        rw [sub_div, mul_div_assoc, div_self hk.ne', mul_one]
      rw [e, abs_lt]
      constructor
      · rw [lt_div_iff₀ hk]; nlinarith
      · rw [div_lt_iff₀ hk]; nlinarith
    · have hlog5 : Int.log 10 |x| < k + 5 := by
        rw [abs_of_pos hxpos, ← Int.lt_zpow_iff_log_lt (by norm_num) hxpos]
        simpa using not_le.1 hcase
      have hu : unit6 x = k - 1 := by unfold unit6; omega
      have hk1 := ten_zpow_pos (k - 1)
      have hkk : (10 : ℚ) ^ k = 10 * 10 ^ (k - 1) := by
        rw [zpow_sub₀ (by norm_num)]; field_simp
      have hn5 : n = 100000 := by
        by_contra hne
        have : (100001 : ℚ) ≤ n := by exact_mod_cast (by omega : (100001 : ℤ) ≤ n)
        have hc5 : (10 : ℚ) ^ (k + 5) = 100000 * 10 ^ k := by
          rw [zpow_add₀ (by norm_num)]; norm_num; ring
        rw [hc5] at hcase
        nlinarith
      subst hn5
      unfold round6
      rw [hu, hkk]
      have : roundEven (x / 10 ^ (k - 1)) = 1000000 := by
        apply roundEven_of_close
        rw [hkk] at hc
        push_cast at hc ⊢
        have e : x / 10 ^ (k - 1) - 1000000 = (x - 1000000 * 10 ^ (k - 1)) / 10 ^ (k - 1) := by
          rw [sub_div, mul_div_assoc, div_self hk1.ne', mul_one]
        rw [e, abs_lt]
        constructor
        · rw [lt_div_iff₀ hk1]; nlinarith
        · rw [div_lt_iff₀ hk1]; nlinarith
      rw [this]
      push_cast
      ring
  rcases lt_trichotomy d 0 with hd | hd | hd
  · have h' : SixDigits (-d) := by
      obtain ⟨n, k, hn, rfl⟩ := h
      exact ⟨-n, k, by rwa [abs_neg], by push_cast; ring⟩
    have := main (-d) (-x) (by linarith) h' (by
      rw [abs_neg, show -x - -d = -(x - d) by ring, abs_neg]; exact hc)
    rw [round6_neg] at this
    linarith
  · subst hd
    simp at hc
    rw [hc]; simp
  · exact main d x hd h hc

/-! ## relative error of binary rounding -/

theorem abs_rnd_sub_rel {p : ℕ} {emin : ℤ} {q : ℚ} (hq : (2 : ℚ) ^ (emin + (p : ℤ) - 1) ≤ |q|) :
    |rnd p emin q - q| ≤ |q| / 2 ^ p := by
  have hqpos : 0 < |q| := lt_of_lt_of_le (two_zpow_pos _) hq
  have hlog : emin + (p : ℤ) - 1 ≤ Int.log 2 |q| := by
    rw [← Int.zpow_le_iff_le_log (by norm_num) hqpos]; simpa using hq
  have hu : ulpExp p emin q = Int.log 2 |q| - ((p : ℤ) - 1) := by
    unfold ulpExp; omega
  have h := abs_rnd_sub_le (p := p) (emin := emin) q
  rw [hu] at h
  have h1 := Int.zpow_log_le_self (R := ℚ) (b := 2) (r := |q|) (by norm_num) hqpos
  refine h.trans ?_
  have e : (2 : ℚ) ^ (Int.log 2 |q| - ((p : ℤ) - 1)) / 2 = 2 ^ Int.log 2 |q| / 2 ^ p := by
    rw [show Int.log 2 |q| - ((p : ℤ) - 1) = Int.log 2 |q| + 1 - p by ring,
      zpow_sub₀ (by norm_num), zpow_add₀ (by norm_num), zpow_natCast]
    field_simp
  rw [e]
  have hp : (0 : ℚ) < 2 ^ p := by positivity
  push_cast at h1
  exact (div_le_div_iff_of_pos_right hp).2 h1

/-! ## std::stof / std::stod of a formatted number -/

theorem fmtG6_head (q : ℚ) : ∃ c r, fmtG6 q = c :: r ∧ (isDigit c = true ∨
    (c = '-' ∧ ∃ d r', r = d :: r' ∧ isDigit d = true)) := by
  unfold fmtG6
  by_cases hq : q = 0
  · rw [if_pos hq]; exact ⟨'0', [], rfl, Or.inl rfl⟩
  · rw [if_neg hq]
    obtain ⟨p1, p2, -⟩ := parts6_spec (abs_pos.2 hq)
    simp only
    unfold render
    cases hp : (parts6 |q|).1 with
    | nil => exact absurd hp p1
    | cons d ip =>
      have hd : isDigit d = true := p2 d (by rw [hp]; simp)
      by_cases hneg : q < 0
      · simp only [hneg, decide_true, if_true, List.cons_append, List.nil_append]
        exact ⟨_, _, rfl, Or.inr ⟨rfl, _, _, rfl, hd⟩⟩
      · simp only [hneg, decide_false, Bool.false_eq_true, if_false, List.cons_append, List.nil_append]
        exact ⟨_, _, rfl, Or.inl hd⟩

theorem isDigit_not_space {c : Char} (h : isDigit c = true) : isSpace c = false := by
  by_contra hc
  simp only [isSpace, Bool.not_eq_false, Bool.or_eq_true, decide_eq_true_eq] at hc
  rcases hc with ((((rfl | rfl) | rfl) | rfl) | rfl) | rfl <;> simp [isDigit] at h

theorem fmtG6_not_space (q : ℚ) (s : List Char) :
    (fmtG6 q ++ s).dropWhile isSpace = fmtG6 q ++ s := by
  obtain ⟨c, r, h, hc⟩ := fmtG6_head q
  rw [h, List.cons_append, List.dropWhile_cons]
  have : isSpace c = false := by
    rcases hc with hc | ⟨rfl, -⟩
    · exact isDigit_not_space hc
    · rfl
  simp [this]


/-! ## Characters of formatted numbers -/

/-- Characters that can occur in a formatted number. -/
def numChar (c : Char) : Prop := isDigit c = true ∨ c = '-' ∨ c = '+' ∨ c = '.' ∨ c = 'e'

theorem numChar.not_space {c : Char} (h : numChar c) : isSpace c = false := by
  rcases h with h | rfl | rfl | rfl | rfl
  · exact isDigit_not_space h
  all_goals rfl

theorem numChar.ne {c d : Char} (h : numChar c) (hd : isDigit d = false ∧ d ≠ '-' ∧ d ≠ '+' ∧ d ≠ '.' ∧ d ≠ 'e') :
    c ≠ d := by
  rintro rfl
  rcases h with h | h | h | h | h
  · rw [hd.1] at h; cases h
  · exact hd.2.1 h
  · exact hd.2.2.1 h
  · exact hd.2.2.2.1 h
  · exact hd.2.2.2.2 h

theorem numChar_fmtExp (e : ℤ) : ∀ c ∈ fmtExp e, numChar c := by
  intro c hc
  unfold fmtExp at hc
  rcases List.mem_cons.1 hc with rfl | hc
  · split
    · exact Or.inr (Or.inl rfl)
    · exact Or.inr (Or.inr (Or.inl rfl))
  · split at hc
    · rcases List.mem_cons.1 hc with rfl | hc
      · exact Or.inl rfl
      · exact Or.inl (isDigit_of_mem_natDigits hc)
    · exact Or.inl (isDigit_of_mem_natDigits hc)

theorem numChar_render (neg : Bool) (ip fp : List Char) (ex : Option ℤ)
    (hipd : ∀ c ∈ ip, isDigit c = true) (hfpd : ∀ c ∈ fp, isDigit c = true) :
    ∀ c ∈ render neg ip fp ex, numChar c := by
  intro c hc
  unfold render at hc
  simp only [List.mem_append] at hc
  rcases hc with ((hc | hc) | hc) | hc
  · split at hc
    · simp at hc; exact Or.inr (Or.inl hc)
    · simp at hc
  · exact Or.inl (hipd c hc)
  · split at hc
    · simp at hc
    · rcases List.mem_cons.1 hc with rfl | hc
      · exact Or.inr (Or.inr (Or.inr (Or.inl rfl)))
      · exact Or.inl (hfpd c hc)
  · cases ex with
    | none => simp [fmtExpOpt] at hc
    | some e =>
      unfold fmtExpOpt at hc
      rcases List.mem_cons.1 hc with rfl | hc
      · exact Or.inr (Or.inr (Or.inr (Or.inr rfl)))
      · exact numChar_fmtExp e c hc

theorem numChar_fmtG6 (q : ℚ) : ∀ c ∈ fmtG6 q, numChar c := by
  unfold fmtG6
  by_cases hq : q = 0
  · rw [if_pos hq]; intro c hc; simp at hc; rw [hc]; exact Or.inl rfl
  · rw [if_neg hq]
    obtain ⟨p1, p2, p3, -⟩ := parts6_spec (abs_pos.2 hq)
    exact numChar_render _ _ _ _ p2 p3

theorem fmtInt_spec (n : ℤ) : (∀ c ∈ fmtInt n, numChar c) ∧ fmtInt n ≠ [] := by
  unfold fmtInt
  split
  · refine ⟨?_, by simp⟩
    intro c hc
    rcases List.mem_cons.1 hc with rfl | hc
    · exact Or.inr (Or.inl rfl)
    · exact Or.inl (isDigit_of_mem_natDigits hc)
  · exact ⟨fun c hc => Or.inl (isDigit_of_mem_natDigits hc), natDigits_ne_nil _⟩

/-- Any suffix of digits-or-stopping text after a digit is not a special literal. -/
theorem not_special_of_digit {d : Char} {r : List Char} (hd : isDigit d = true)
    (hr : ∀ c ∈ r.head?, c ≠ 'x' ∧ c ≠ 'X') (s : List Char) (hs : (readSign s).2 = d :: r) :
    isSpecialFloat s = false := by
  unfold isSpecialFloat
  rw [hs]
  split
  · next x _ heq =>
    simp only [List.cons.injEq] at heq
    obtain ⟨-, rfl⟩ := heq
    have := hr x (by simp)
    simp [this.1, this.2]
  · next a b c _ _ heq =>
    simp only [List.cons.injEq] at heq
    obtain ⟨rfl, -⟩ := heq
    have h1 : 48 ≤ d.toNat ∧ d.toNat ≤ 57 := by simpa [isDigit] using hd
    have h2 : d.toLower = d := by
      unfold Char.toLower
      rw [dif_neg]
      intro hh
      have : 65 ≤ d.toNat := UInt32.le_iff_toNat_le.1 hh.1
      omega
    have h3 : d ≠ 'i' := by rintro rfl; simp at h1
    have h4 : d ≠ 'n' := by rintro rfl; simp at h1
    simp [h2, h3, h4]
  · rfl

theorem fmtG6_not_special (q : ℚ) (s : List Char) (hs : Stops s) :
    isSpecialFloat (fmtG6 q ++ s) = false := by
  have hall := numChar_fmtG6 q
  obtain ⟨c, r, h, hc⟩ := fmtG6_head q
  have hx : ∀ t : List Char, (∀ c ∈ t, numChar c) → ∀ c ∈ (t ++ s).head?, c ≠ 'x' ∧ c ≠ 'X' := by
    intro t ht c hc
    cases t with
    | nil =>
      cases s with
      | nil => simp at hc
      | cons d s => simp at hc; rw [← hc]; exact ⟨hs.2.2.2.2.1, hs.2.2.2.2.2⟩
    | cons a t =>
      simp at hc; rw [← hc]
      have := ht a (by simp)
      exact ⟨this.ne (by decide), this.ne (by decide)⟩
  rcases hc with hc | ⟨rfl, d, r', rfl, hd⟩
  · refine not_special_of_digit (d := c) (r := r ++ s) hc
      (hx r (fun c hc => hall c (by rw [h]; exact List.mem_cons_of_mem _ hc))) _ ?_
    rw [h, List.cons_append, readSign_of_digit hc]
  · refine not_special_of_digit (d := d) (r := r' ++ s) hd
      (hx r' (fun c hc => hall c (by
        rw [h]; exact List.mem_cons_of_mem _ (List.mem_cons_of_mem _ hc)))) _ ?_
    rw [h]; rfl

theorem readFloat_fmtG6 (p : ℕ) (emin : ℤ) (maxv minn : ℚ) (q : ℚ) (s : List Char) (hs : Stops s) :
    readFloat p emin maxv minn (fmtG6 q ++ s) =
      if maxv < |rnd p emin (round6 q)| then .error .throw
      else if |rnd p emin (round6 q)| < minn ∧ rnd p emin (round6 q) ≠ round6 q then .error .throw
      else .ok (rnd p emin (round6 q), (fmtG6 q).length) := by
  unfold readFloat
  simp only [fmtG6_not_space, fmtG6_not_special q s hs, Bool.false_eq_true, if_false,
    readDecimal_fmtG6 q s hs, List.length_append, Nat.add_sub_cancel]

/-- Values for which writing and reading a double succeeds. -/
def RangeDouble (q : ℚ) : Prop := q = 0 ∨ (10 ^ (-307 : ℤ) ≤ |q| ∧ |q| ≤ 10 ^ (308 : ℤ))

/-- Values for which writing and reading a float succeeds. -/
def RangeFloat (q : ℚ) : Prop := q = 0 ∨ (10 ^ (-37 : ℤ) ≤ |q| ∧ |q| ≤ 10 ^ (38 : ℤ))

theorem abs_rnd {p : ℕ} {emin : ℤ} (q : ℚ) : |rnd p emin q| = rnd p emin |q| := by
  rcases le_total 0 q with h | h
  · rw [abs_of_nonneg h, abs_of_nonneg (rnd_nonneg h)]
  · rw [abs_of_nonpos h, rnd_neg, abs_of_nonpos (rnd_nonpos h)]

theorem round6_abs_bounds (q : ℚ) :
    |q| * (199999 / 200000) ≤ |round6 q| ∧ |round6 q| ≤ |q| * (200001 / 200000) := by
  have h := abs_round6_sub_rel q
  have h1 := abs_sub_abs_le_abs_sub (round6 q) q
  have h2 := abs_sub_abs_le_abs_sub q (round6 q)
  rw [abs_sub_comm] at h2
  constructor <;> linarith

theorem stod_fmtG6 {q : ℚ} (h : RangeDouble q) (s : List Char) (hs : Stops s) :
    stod (fmtG6 q ++ s) = .ok (rnd64 (round6 q), (fmtG6 q).length) := by
  unfold stod
  rw [readFloat_fmtG6 _ _ _ _ _ _ hs]
  rcases h with rfl | ⟨h1, h2⟩
  · rw [if_neg (by simp [maxDouble]; norm_num), if_neg (by simp)]; rfl
  · obtain ⟨b1, b2⟩ := round6_abs_bounds q
    rw [if_neg, if_neg]
    · rfl
    · rintro ⟨hlt, -⟩
      have : (2 : ℚ) ^ (-1022 : ℤ) ≤ |rnd 53 (-1074) (round6 q)| := by
        rw [abs_rnd]
        refine le_rnd_of_le (by norm_num) ⟨1, -1022, by norm_num, by norm_num, by simp⟩ ?_
        refine le_trans ?_ b1
        refine le_trans ?_ (mul_le_mul_of_nonneg_right h1 (by norm_num))
        decide +kernel
      linarith
    · rw [not_lt, abs_rnd]
      refine rnd_le_of_le (by norm_num) ⟨2 ^ 53 - 1, 971, by norm_num, by norm_num, ?_⟩ ?_
      · unfold maxDouble; norm_num
      · refine b2.trans (le_trans (mul_le_mul_of_nonneg_right h2 (by norm_num)) ?_)
        decide +kernel

theorem stof_fmtG6 {q : ℚ} (h : RangeFloat q) (s : List Char) (hs : Stops s) :
    stof (fmtG6 q ++ s) = .ok (rnd32 (round6 q), (fmtG6 q).length) := by
  unfold stof
  rw [readFloat_fmtG6 _ _ _ _ _ _ hs]
  rcases h with rfl | ⟨h1, h2⟩
  · rw [if_neg (by simp [maxFloat]; norm_num), if_neg (by simp)]; rfl
  · obtain ⟨b1, b2⟩ := round6_abs_bounds q
    rw [if_neg, if_neg]
    · rfl
    · rintro ⟨hlt, -⟩
      have : (2 : ℚ) ^ (-126 : ℤ) ≤ |rnd 24 (-149) (round6 q)| := by
        rw [abs_rnd]
        refine le_rnd_of_le (by norm_num) ⟨1, -126, by norm_num, by norm_num, by simp⟩ ?_
        refine le_trans ?_ b1
        refine le_trans ?_ (mul_le_mul_of_nonneg_right h1 (by norm_num))
        decide +kernel
      linarith
    · rw [not_lt, abs_rnd]
      refine rnd_le_of_le (by norm_num) ⟨2 ^ 24 - 1, 104, by norm_num, by norm_num, ?_⟩ ?_
      · unfold maxFloat; norm_num
      · refine b2.trans (le_trans (mul_le_mul_of_nonneg_right h2 (by norm_num)) ?_)
        decide +kernel

/-! ## integers -/

theorem readInt_fmtInt (n : ℤ) (s : List Char) (hs : ∀ c ∈ s.head?, isDigit c = false) :
    readInt (fmtInt n ++ s) = some (n, s) := by
  have hne := natDigits_ne_nil n.natAbs
  obtain ⟨t1, t2⟩ := takeWhile_digits (natDigits n.natAbs) (fun c hc => isDigit_of_mem_natDigits hc) s hs
  have hspace : (fmtInt n ++ s).dropWhile isSpace = fmtInt n ++ s := by
    obtain ⟨h1, h2⟩ := fmtInt_spec n
    cases hf : fmtInt n with
    | nil => exact absurd hf h2
    | cons c r =>
      have := (h1 c (by rw [hf]; simp)).not_space
      rw [List.cons_append, List.dropWhile_cons, this]; rfl
  unfold readInt
  rw [hspace]
  unfold fmtInt
  by_cases hn : n < 0
  · simp only [hn, if_true, List.cons_append, readSign, t1, t2, if_neg hne, valDigits_natDigits]
    congr 2; omega
  · simp only [hn, if_false]
    cases hd : natDigits n.natAbs with
    | nil => exact absurd hd hne
    | cons c r =>
      have hc : isDigit c = true := isDigit_of_mem_natDigits (n := n.natAbs) (by rw [hd]; simp)
      rw [List.cons_append, readSign_of_digit hc, ← List.cons_append, ← hd]
      simp only [t1, t2, if_neg hne, valDigits_natDigits, Bool.false_eq_true, if_false]
      congr 2; omega

theorem stoi_fmtInt {n : ℤ} (h : -2 ^ 31 ≤ n ∧ n < 2 ^ 31) (s : List Char)
    (hs : ∀ c ∈ s.head?, isDigit c = false) :
    stoi (fmtInt n ++ s) = .ok (n, (fmtInt n).length) := by
  unfold stoi
  rw [readInt_fmtInt n s hs]
  simp only
  rw [if_neg (by omega)]
  simp

theorem stoul_fmtInt {n : ℕ} (h : n < 2 ^ 64) (s : List Char)
    (hs : ∀ c ∈ s.head?, isDigit c = false) :
    stoul (fmtInt n ++ s) = .ok (n, (fmtInt n).length) := by
  unfold stoul
  rw [readInt_fmtInt n s hs]
  simp only
  rw [if_neg (by simpa using h), Int.emod_eq_of_lt (by omega) (by exact_mod_cast h)]
  simp

/-! ## lengths -/

theorem length_fmtInt_le {n : ℤ} {k : ℕ} (hk : 1 ≤ k) (h : n.natAbs < 10 ^ k) :
    (fmtInt n).length ≤ k + 1 := by
  unfold fmtInt
  have := length_natDigits_le hk h
  split
  · simpa using this
  · omega

theorem length_render_le (neg : Bool) (ip fp : List Char) (ex : Option ℤ)
    (h : ∀ e, ex = some e → e.natAbs < 1000) :
    (render neg ip fp ex).length ≤ ip.length + fp.length + 7 := by
  unfold render
  simp only [List.length_append]
  have a1 : (if neg = true then ['-'] else ([] : List Char)).length ≤ 1 := by
    split <;> simp
  have a2 : (if fp = [] then [] else '.' :: fp).length ≤ fp.length + 1 := by
    split <;> simp
  have a3 : (fmtExpOpt ex).length ≤ 5 := by
    cases ex with
    | none => simp [fmtExpOpt]
    | some e =>
      have := h e rfl
      simp only [fmtExpOpt, List.length_cons, fmtExp]
      split
      · next h10 =>
        have := length_natDigits_le (n := e.natAbs) (k := 1) (by norm_num) (by omega)
        simp; omega
      · have := length_natDigits_le (n := e.natAbs) (k := 3) (by norm_num) (by omega)
        simp; omega
  omega

theorem length_fmtG6_le {q : ℚ} (h : q = 0 ∨ (10 ^ (-400 : ℤ) ≤ |q| ∧ |q| ≤ 10 ^ (400 : ℤ))) :
    (fmtG6 q).length ≤ 22 := by
  unfold fmtG6
  by_cases hq : q = 0
  · rw [if_pos hq]; simp
  · rw [if_neg hq]
    have hx := abs_pos.2 hq
    obtain ⟨-, -, -, -, l1, l2, l3⟩ := parts6_spec hx
    have h := h.resolve_left hq
    have e1 : -400 ≤ Int.log 10 |q| := by
      rw [← Int.zpow_le_iff_le_log (by norm_num) hx]; simpa using h.1
    have e2 : Int.log 10 |q| < 401 := by
      rw [← Int.lt_zpow_iff_log_lt (by norm_num) hx]
      refine lt_of_le_of_lt h.2 ?_
      exact zpow_lt_zpow_right₀ (by norm_num) (by norm_num)
    have hsig : -400 ≤ (sig6 |q|).2 ∧ (sig6 |q|).2 ≤ 401 := by
      unfold sig6
      simp only
      split <;> constructor <;> simp only <;> omega
    change (render _ (parts6 |q|).1 (parts6 |q|).2.1 (parts6 |q|).2.2).length ≤ 22
    refine (length_render_le _ _ _ _ (fun e he => ?_)).trans ?_
    · rw [l3 e he]; omega
    · omega

end Apollo
