import Verif.Proofs.ScriptNum

/-! Helper lemmas: trace files as tables. -/

namespace Apollo.Scripts

open Apollo Apollo.Spec

/-! ## The table in a text -/

theorem splitOn_flatten (ls : List Text) (h : ∀ l ∈ ls, '\n' ∉ l) :
    ((ls.map fun l => l ++ ['\n']).flatten).splitOn '\n' = ls ++ [[]] := by
  have e : (ls.map fun l => l ++ ['\n']).flatten = ['\n'].intercalate (ls ++ [[]]) := by
    induction ls with
    | nil => rfl
    | cons x xs ih =>
      rw [List.map_cons, List.flatten_cons, ih fun l hl => h l (by simp [hl])]
      cases xs with
      | nil => simp [List.intercalate]
      | cons y ys => simp [List.intercalate]
  rw [e, List.splitOn_intercalate]
  · intro l hl
    rcases List.mem_append.1 hl with hl | hl
    · exact h l hl
    · simp at hl; subst hl; simp
  · simp

theorem mem_intercalate {ws : List Text} {c : Char} (h : c ∈ [' '].intercalate ws) :
    c = ' ' ∨ ∃ w ∈ ws, c ∈ w := by
  induction ws with
  | nil => simp [List.intercalate] at h
  | cons x xs ih =>
    cases xs with
    | nil =>
      have e : [' '].intercalate [x] = x := by simp [List.intercalate]
      rw [e] at h
      exact Or.inr ⟨x, by simp, h⟩
    | cons y ys =>
      rw [intercalate_cons (by simp)] at h
      rcases List.mem_append.1 h with h | h
      · exact Or.inr ⟨x, by simp, h⟩
      · rcases List.mem_cons.1 h with h | h
        · exact Or.inl h
        · rcases ih h with h | ⟨w, hw, h⟩
          · exact Or.inl h
          · exact Or.inr ⟨w, by simp [hw], h⟩

theorem csvTable_eq (t : List (List Text)) (hne : ∀ ws ∈ t, ∃ w vs, ws = w :: vs ∧ w ≠ [])
    (h : ∀ ws ∈ t, ∀ w ∈ ws, Plain w) :
    csvTable (t.map fun ws => [' '].intercalate ws ++ ['\n']).flatten = t := by
  have e : (t.map fun ws => [' '].intercalate ws ++ ['\n']) =
      (t.map fun ws => [' '].intercalate ws).map fun l => l ++ ['\n'] := by simp
  unfold csvTable
  rw [e, splitOn_flatten]
  · rw [List.filter_append]
    have h1 : (t.map fun ws => [' '].intercalate ws).filter (fun l => !l.isEmpty) =
        t.map fun ws => [' '].intercalate ws := by
      refine List.filter_eq_self.2 fun l hl => ?_
      obtain ⟨ws, hws, rfl⟩ := List.mem_map.1 hl
      obtain ⟨w, vs, rfl, hw⟩ := hne ws hws
      cases w with
      | nil => exact absurd rfl hw
      | cons c w =>
        cases vs with
        | nil => simp [List.intercalate]
        | cons v vs => rw [intercalate_cons (by simp)]; rfl
    rw [h1]
    have h2 : [([] : Text)].filter (fun l => !l.isEmpty) = [] := by decide
    rw [h2, List.append_nil, List.map_map]
    conv_rhs => rw [← List.map_id t]
    refine List.map_congr_left fun ws hws => ?_
    obtain ⟨w, vs, rfl, -⟩ := hne ws hws
    exact List.splitOn_intercalate _ (fun w hw => (h _ hws w hw).1) (by simp)
  · intro l hl hm
    obtain ⟨ws, hws, rfl⟩ := List.mem_map.1 hl
    rcases mem_intercalate hm with hm | ⟨w, hw, hm⟩
    · revert hm; decide
    · exact (h ws hws w hw).2 hm

/-! ## Columns -/

/-- The name of a feature. -/
def fcol (i : ℕ) : Text := 'f' :: fmtInt i

theorem fcol_inj {i j : ℕ} (h : fcol i = fcol j) : i = j := by
  have h1 : fmtInt i = fmtInt j := List.tail_eq_of_cons_eq h
  have h2 := congrArg intValue h1
  rw [intValue_fmtInt, intValue_fmtInt] at h2
  exact_mod_cast h2

theorem headerColumns_fcol (n : ℕ) : Spec.headerColumns n =
    ["rankid".toList, "training".toList, "region".toList, "idx".toList] ++ (List.range n).map fcol ++
      ["policy".toList, "xtime".toList] := rfl

theorem fcol_head (i : ℕ) : (fcol i).head? = some 'f' := rfl

theorem fcol_not_fixed (i : ℕ) :
    fcol i ∉ ["rankid".toList, "training".toList, "region".toList, "idx".toList] ∧
    fcol i ∉ ["policy".toList, "xtime".toList] ∧ fcol i ≠ "index".toList := by
  have key : ∀ w ∈ ["rankid".toList, "training".toList, "region".toList, "idx".toList],
    w.head? ≠ some 'f' := by decide
  have key2 : ∀ w ∈ ["policy".toList, "xtime".toList], w.head? ≠ some 'f' := by decide
  exact ⟨fun h => key _ h (fcol_head i), fun h => key2 _ h (fcol_head i),
    fun h => absurd (h ▸ fcol_head i) (by decide)⟩

theorem nodup_headerColumns (n : ℕ) : (Spec.headerColumns n).Nodup := by
  rw [headerColumns_fcol, List.nodup_append, List.nodup_append]
  refine ⟨⟨by decide, ?_, ?_⟩, by decide, ?_⟩
  · exact List.nodup_range.map fun i j h => fcol_inj h
  · intro a ha b hb e
    obtain ⟨i, -, rfl⟩ := List.mem_map.1 hb
    exact (fcol_not_fixed i).1 (e ▸ ha)
  · intro a ha b hb e
    rcases List.mem_append.1 ha with ha | ha
    · subst e
      have key : ∀ w ∈ ["rankid".toList, "training".toList, "region".toList, "idx".toList],
        w ∉ ["policy".toList, "xtime".toList] := by decide
      exact key _ ha hb
    · obtain ⟨i, -, rfl⟩ := List.mem_map.1 ha
      exact (fcol_not_fixed i).2.1 (e ▸ hb)

theorem mem_headerColumns {n : ℕ} {c : Text} : c ∈ Spec.headerColumns n ↔
    c ∈ ["rankid".toList, "training".toList, "region".toList, "idx".toList] ∨
      c ∈ ["policy".toList, "xtime".toList] ∨ ∃ i < n, c = fcol i := by
  rw [headerColumns_fcol, List.mem_append, List.mem_append, List.mem_map, or_assoc]
  refine or_congr_right ?_
  rw [or_comm]
  refine or_congr_right ⟨?_, ?_⟩
  · rintro ⟨i, hi, rfl⟩
    exact ⟨i, List.mem_range.1 hi, rfl⟩
  · rintro ⟨i, hi, rfl⟩
    exact ⟨i, List.mem_range.2 hi, rfl⟩

theorem fcol_mem {n i : ℕ} : fcol i ∈ Spec.headerColumns n ↔ i < n := by
  rw [mem_headerColumns]
  constructor
  · rintro (h | h | ⟨j, hj, e⟩)
    · exact absurd h (fcol_not_fixed i).1
    · exact absurd h (fcol_not_fixed i).2.1
    · rw [fcol_inj e]; exact hj
  · exact fun h => Or.inr (Or.inr ⟨i, h, rfl⟩)

theorem ordinary_fcol (i : ℕ) : Ordinary (fcol i) := by
  have hn := (fmtInt_spec (i : ℤ))
  have hne : ∀ d : Char, isDigit d = false ∧ d ≠ '-' ∧ d ≠ '+' ∧ d ≠ '.' ∧ d ≠ 'e' → d ≠ 'f' →
      d ∉ fcol i := by
    intro d hd hf hm
    rcases List.mem_cons.1 hm with h | h
    · exact hf h
    · exact (hn.1 d h).ne hd rfl
  refine ⟨⟨'f', fmtInt i, rfl, by decide⟩, hne _ (by decide) (by decide), hne _ (by decide) (by decide),
    hne _ (by decide) (by decide), hne _ (by decide) (by decide), ?_⟩
  intro hm
  obtain ⟨c, l, e⟩ : ∃ c l, fmtInt (i : ℤ) = c :: l := by
    cases e : fmtInt (i : ℤ) with
    | nil => exact absurd e hn.2
    | cons c l => exact ⟨c, l, rfl⟩
  have key : ∀ w ∈ (["n/a", "na", "null", "nan", "none", "inf", "infinity", "true", "false"].map
      String.toList), w.head? = some 'f' → w.tail.head? = some 'a' := by decide
  have h1 := key _ hm (by
    simp only [fcol, List.map_cons, List.head?_cons]; decide)
  rw [fcol, e] at h1
  have h2 : c.toLower = 'a' := by simpa using h1
  have hc : numChar c := hn.1 c (by rw [e]; simp)
  rcases hc with h | rfl | rfl | rfl | rfl
  · rw [toLower_digit h] at h2; subst h2; revert h; decide
  all_goals revert h2; decide

theorem header_ok (n : ℕ) : ∀ c ∈ Spec.headerColumns n, c ≠ [] ∧ isOdd c = false ∧ Plain c := by
  intro c hc
  rcases mem_headerColumns.1 hc with h | h | ⟨i, -, rfl⟩
  · have key : ∀ w ∈ ["rankid".toList, "training".toList, "region".toList, "idx".toList],
      w ≠ [] ∧ isOdd w = false ∧ ' ' ∉ w ∧ '\n' ∉ w := by decide
    exact key c h
  · have key : ∀ w ∈ ["policy".toList, "xtime".toList],
      w ≠ [] ∧ isOdd w = false ∧ ' ' ∉ w ∧ '\n' ∉ w := by decide
    exact key c h
  · exact ⟨(ordinary_fcol i).ne, (ordinary_fcol i).not_odd, (ordinary_fcol i).plain⟩

/-! ## Rows -/

theorem length_headerColumns (n : ℕ) : (Spec.headerColumns n).length = n + 6 := by
  simp [Spec.headerColumns]

theorem length_rowColumns (rank : ℤ) (m r : Text) (x : Row) :
    (rowColumns rank m r x).length = x.features.length + 6 := by
  simp [rowColumns]

/-- The field of column `i`. -/
theorem field_row (rank : ℤ) (m r : Text) {x : Row} {n : ℕ} (h : x.features.length = n) :
    field (rowColumns rank m r x) 0 = fmtInt rank ∧ field (rowColumns rank m r x) 1 = m ∧
    field (rowColumns rank m r x) 2 = r ∧ field (rowColumns rank m r x) 3 = fmtInt x.index ∧
    (∀ i < n, field (rowColumns rank m r x) (4 + i) = fmtG6 (x.features.getD i 0)) ∧
    field (rowColumns rank m r x) (4 + n) = fmtInt x.policy ∧
    field (rowColumns rank m r x) (5 + n) = fmtG6 x.metric := by
  subst h
  refine ⟨rfl, rfl, rfl, rfl, ?_, ?_, ?_⟩
  · intro i hi
    simp [field, rowColumns, List.getD_eq_getElem?_getD, List.getElem?_append, hi, Nat.add_comm 4]
  · simp [field, rowColumns, List.getD_eq_getElem?_getD, Nat.add_comm 4]
  · simp [field, rowColumns, List.getD_eq_getElem?_getD, Nat.add_comm 5]

theorem header_get (n : ℕ) :
    (Spec.headerColumns n)[0]? = some "rankid".toList ∧ (Spec.headerColumns n)[1]? = some "training".toList ∧
    (Spec.headerColumns n)[2]? = some "region".toList ∧ (Spec.headerColumns n)[3]? = some "idx".toList ∧
    (∀ i < n, (Spec.headerColumns n)[4 + i]? = some (fcol i)) ∧
    (Spec.headerColumns n)[4 + n]? = some "policy".toList ∧
    (Spec.headerColumns n)[5 + n]? = some "xtime".toList := by
  refine ⟨rfl, rfl, rfl, rfl, ?_, ?_, ?_⟩
  · intro i hi
    simp [headerColumns_fcol, List.getElem?_append, hi, Nat.add_comm 4]
  · simp [headerColumns_fcol, Nat.add_comm 4]
  · simp [headerColumns_fcol, Nat.add_comm 5]

theorem position_some {cols : List Text} (hn : cols.Nodup) {j : ℕ} {c : Text} (h : cols[j]? = some c) :
    position cols c = some j := by
  obtain ⟨hj, e⟩ := List.getElem?_eq_some_iff.1 h
  unfold position
  rw [List.findIdx?_eq_some_iff_getElem]
  refine ⟨hj, by simp [e], fun k hk => ?_⟩
  have : cols[k] ≠ c := by
    rw [← e]
    intro e2
    have := (List.Nodup.getElem_inj_iff hn).1 e2
    omega
  simpa using this

theorem position_none {cols : List Text} {c : Text} (h : c ∉ cols) : position cols c = none := by
  unfold position
  rw [List.findIdx?_eq_none_iff]
  intro x hx
  have : x ≠ c := fun e => h (e ▸ hx)
  simpa using this

/-! ## Cells -/

/-- What a number of a trace can be in a table. -/
def Form (q : ℚ) (c : Cell) : Prop :=
  (∃ v : ℤ, c = .int v ∧ (v : ℚ) = round6 q ∧ |v| < 10 ^ 6) ∨ c = .flt (rnd64 (round6 q))

theorem Form.toFlt {q : ℚ} {c : Cell} (h : Form q c) : Form q (toFlt c) := by
  rcases h with ⟨v, rfl, e, -⟩ | rfl
  · exact Or.inr (by rw [Scripts.toFlt, e])
  · exact Or.inr rfl

theorem Form.ne_nan {q : ℚ} {c : Cell} (h : Form q c) : c ≠ .nan := by
  rcases h with ⟨v, rfl, -, -⟩ | rfl <;> simp

theorem cell_num (py : Py) {col : List Text} (hcol : ∀ t ∈ col, isNumber t = true) {q : ℚ}
    (hq : fmtG6 q ∈ col) (hr : Reprints py (fmtG6 q) (round6 q)) :
    Form q (py.cell (kindOf col) (fmtG6 q)) := by
  unfold kindOf
  by_cases h1 : col.all isInt = true
  · rw [if_pos h1]
    have hi := List.all_eq_true.1 h1 _ hq
    exact Or.inl ⟨_, rfl, intValue_fmtG6 hi, intValue_fmtG6_lt hi⟩
  · rw [if_neg h1, if_pos]
    · right
      simp [Py.cell, not_na_num (numChar_fmtG6 q) (fmtG6_ne_nil q), hr.read]
    · rw [List.all_eq_true]
      intro t ht
      rw [hcol t ht, Bool.or_true]

theorem cell_int (py : Py) {col : List Text} (hcol : ∀ t ∈ col, isInt t = true) (n : ℤ) :
    py.cell (kindOf col) (fmtInt n) = .int n := by
  unfold kindOf
  rw [if_pos (List.all_eq_true.2 hcol)]
  simp [Py.cell, intValue_fmtInt]

theorem cell_str (py : Py) {col : List Text} {s : Text} (hs : s ∈ col) (ho : Ordinary s) :
    py.cell (kindOf col) s = .str s := by
  unfold kindOf
  rw [if_neg, if_neg]
  · simp [Py.cell, ho.not_na]
  · intro h
    have := List.all_eq_true.1 h s hs
    rw [ho.not_na, ho.not_number] at this
    cases this
  · intro h
    have := List.all_eq_true.1 h s hs
    rw [ho.not_int] at this
    cases this

/-- The row of an execution in a table. -/
structure RowOf (F : RegionTrace) (x : Row) (rec : Record) : Prop where
  mem : x ∈ F.rows
  region : rec "region".toList = .str F.region
  policy : rec "policy".toList = .int x.policy
  xtime : Form x.metric (rec "xtime".toList)
  feats : ∀ i < F.nf, Form (x.features.getD i 0) (rec (fcol i))
  none : ∀ c, c ∉ Spec.headerColumns F.nf → rec c = .nan
  some : ∀ c, c ∈ Spec.headerColumns F.nf → rec c ≠ .nan
  rank : rec "rankid".toList = .int F.rank
  idx : rec "idx".toList = .int x.index
  training : rec "training".toList = .str F.model

theorem frame_rows (py : Py) {F : RegionTrace} (hF : F.Wellformed) (hk : F.Kept py) :
    List.Forall₂ (RowOf F) F.rows (py.frame (Spec.headerColumns F.nf)
      (F.rows.map (rowColumns F.rank F.model F.region))).rows := by
  unfold Py.frame
  simp only [List.map_map]
  rw [List.forall₂_map_right_iff, List.forall₂_same]
  intro x hx
  simp only [Function.comp_apply]
  suffices H : ∀ rec : Record, (∀ j c, (Spec.headerColumns F.nf)[j]? = some c → rec c =
      py.cell (kindOf (F.rows.map fun y => field (rowColumns F.rank F.model F.region y) j))
        (field (rowColumns F.rank F.model F.region x) j)) →
      (∀ c, c ∉ Spec.headerColumns F.nf → rec c = .nan) → RowOf F x rec by
    refine H _ ?_ ?_
    · intro j c h
      simp only [position_some (nodup_headerColumns _) h]
      rfl
    · intro c hc
      simp only [position_none hc]
  intro rec hcell hnone
  have hlen : ∀ y ∈ F.rows, y.features.length = F.nf := fun y hy => (hF.rows y hy).1
  have hf := fun y (hy : y ∈ F.rows) => field_row F.rank F.model F.region (hlen y hy)
  obtain ⟨g0, g1, g2, g3, g4, g5, g6⟩ := header_get F.nf
  obtain ⟨f0, f1, f2, f3, f4, f5, f6⟩ := hf x hx
  have h0 := hcell 0 _ g0
  have h1 := hcell 1 _ g1
  have h2 := hcell 2 _ g2
  have h3 := hcell 3 _ g3
  have h5 := hcell _ _ g5
  have h6 := hcell _ _ g6
  rw [f0, cell_int _ (by
    intro t ht
    obtain ⟨y, hy, rfl⟩ := List.mem_map.1 ht
    rw [(hf y hy).1]; exact isInt_fmtInt _)] at h0
  rw [f1, cell_str _ (List.mem_map.2 ⟨x, hx, f1⟩) hF.model] at h1
  rw [f2, cell_str _ (List.mem_map.2 ⟨x, hx, f2⟩) hF.region] at h2
  rw [f3, cell_int _ (by
    intro t ht
    obtain ⟨y, hy, rfl⟩ := List.mem_map.1 ht
    rw [(hf y hy).2.2.2.1]; exact isInt_fmtInt _)] at h3
  rw [f5, cell_int _ (by
    intro t ht
    obtain ⟨y, hy, rfl⟩ := List.mem_map.1 ht
    rw [(hf y hy).2.2.2.2.2.1]; exact isInt_fmtInt _)] at h5
  have h6' : Form x.metric (rec "xtime".toList) := by
    rw [h6, f6]
    refine cell_num py ?_ (List.mem_map.2 ⟨x, hx, f6⟩) (hk x hx).2.2
    intro t ht
    obtain ⟨y, hy, rfl⟩ := List.mem_map.1 ht
    rw [(hf y hy).2.2.2.2.2.2]; exact isNumber_fmtG6 _
  have h4' : ∀ i < F.nf, Form (x.features.getD i 0) (rec (fcol i)) := by
    intro i hi
    rw [hcell _ _ (g4 i hi), f4 i hi]
    refine cell_num py ?_ (List.mem_map.2 ⟨x, hx, f4 i hi⟩) ((hk x hx).1 _ ?_).2
    · intro t ht
      obtain ⟨y, hy, rfl⟩ := List.mem_map.1 ht
      rw [(hf y hy).2.2.2.2.1 i hi]; exact isNumber_fmtG6 _
    · have hi' : i < x.features.length := by rw [hlen x hx]; exact hi
      rw [List.getD_eq_getElem?_getD, List.getElem?_eq_getElem hi', Option.getD_some]
      exact List.getElem_mem hi'
  refine ⟨hx, h2, h5, h6', h4', hnone, ?_, h0, h3, h1⟩
  intro c hc
  rcases mem_headerColumns.1 hc with h | h | ⟨i, hi, rfl⟩
  · rcases List.mem_cons.1 h with rfl | h
    · rw [h0]; simp
    rcases List.mem_cons.1 h with rfl | h
    · rw [h1]; simp
    rcases List.mem_cons.1 h with rfl | h
    · rw [h2]; simp
    rw [List.mem_singleton.1 h, h3]; simp
  · rcases List.mem_cons.1 h with rfl | h
    · rw [h5]; simp
    rw [List.mem_singleton.1 h]
    exact h6'.ne_nan
  · exact (h4' i hi).ne_nan

/-- Reading a trace file. -/
theorem readCsv_text (py : Py) {F : RegionTrace} (hF : F.Wellformed) :
    py.readCsv F.text = .ok (some (py.frame (Spec.headerColumns F.nf)
      (F.rows.map (rowColumns F.rank F.model F.region)))) := by
  have hp : ∀ ws ∈ traceTable F.rank F.model F.region F.nf F.rows, ∀ w ∈ ws, Plain w := by
    intro ws hws w hw
    rcases List.mem_cons.1 hws with rfl | hws
    · exact (header_ok _ w hw).2.2
    · obtain ⟨x, hx, rfl⟩ := List.mem_map.1 hws
      exact plain_rowColumns hF.model.plain hF.region.plain x w hw
  have hne : ∀ ws ∈ traceTable F.rank F.model F.region F.nf F.rows,
      ∃ w vs, ws = w :: vs ∧ w ≠ [] := by
    intro ws hws
    rcases List.mem_cons.1 hws with rfl | hws
    · exact ⟨_, _, rfl, by decide⟩
    · obtain ⟨x, hx, rfl⟩ := List.mem_map.1 hws
      exact ⟨_, _, rfl, (fmtInt_spec _).2⟩
  have hodd : ∀ x ∈ F.rows, ∀ w ∈ rowColumns F.rank F.model F.region x, isOdd w = false := by
    intro x hx w hw
    have hxr := hF.rows x hx
    simp only [rowColumns, List.mem_append, List.mem_cons, List.not_mem_nil, or_false, List.mem_map] at hw
    rcases hw with ((rfl | rfl | rfl | rfl) | ⟨q, hq, rfl⟩) | (rfl | rfl)
    · exact not_odd_fmtInt (lt_trans hF.rank (by norm_num))
    · exact hF.model.not_odd
    · exact hF.region.not_odd
    · exact not_odd_fmtInt (by
        rw [abs_of_nonneg (by positivity)]
        have := hxr.2.1
        omega)
    · exact not_odd_fmtG6 q
    · exact not_odd_fmtInt (by rw [abs_lt]; omega)
    · exact not_odd_fmtG6 _
  unfold Py.readCsv RegionTrace.text
  rw [csvTable_eq _ hne hp]
  simp only [traceTable]
  rw [if_neg]
  rintro (h | h | h)
  · obtain ⟨c, hc, h⟩ := List.any_eq_true.1 h
    obtain ⟨h1, h2, -⟩ := header_ok _ c hc
    rw [h2, Bool.or_false] at h
    exact h1 (by simpa using h)
  · exact h (nodup_headerColumns _)
  · obtain ⟨row, hrow, h⟩ := List.any_eq_true.1 h
    obtain ⟨x, hx, rfl⟩ := List.mem_map.1 hrow
    rw [Bool.or_eq_true] at h
    rcases h with h | h
    · rw [decide_eq_true_eq, length_headerColumns, length_rowColumns, (hF.rows x hx).1] at h
      omega
    · obtain ⟨w, hw, h⟩ := List.any_eq_true.1 h
      rw [hodd x hx w hw] at h
      cases h

end Apollo.Scripts
