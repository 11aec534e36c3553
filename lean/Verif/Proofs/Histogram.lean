import Verif.Model.Histogram
import Verif.Spec.Histogram
import Verif.Proofs.ScriptReport

/-!
# Proofs about the histograms of policies
-/

namespace Apollo.Scripts

open Apollo.Spec

/-- The bins from `a` on. -/
theorem npHistogram_from (zs : List ℤ) (a m : ℕ) :
    npHistogram (zs.map fun z : ℤ => (z : ℚ)) ((List.range' a (m + 1)).map fun k : ℕ => (k : ℚ)) =
      (List.range' a m).map fun k : ℕ => ((k : ℚ), zs.countP (fun z => decide (z = (k : ℤ))) +
        if k + 1 = a + m then zs.countP (fun z => decide (z = ((a + m : ℕ) : ℤ))) else 0) := by
  induction m generalizing a with
  | zero => rfl
  | succ m ih =>
    have hlow : ∀ (z : ℤ), ((a : ℚ) ≤ z ∧ (z : ℚ) < ((a + 1 : ℕ) : ℚ)) ↔ z = (a : ℤ) := by
      intro z
      have h1 : ((a : ℚ) ≤ z) ↔ (a : ℤ) ≤ z := by exact_mod_cast Iff.rfl
      have h2 : ((z : ℚ) < ((a + 1 : ℕ) : ℚ)) ↔ z < ((a + 1 : ℕ) : ℤ) := by exact_mod_cast Iff.rfl
      rw [h1, h2]
      omega
    cases m with
    | zero =>
      show [((a : ℚ), _)] = [((a : ℚ), _)]
      rw [List.countP_map]
      congr 2
      rw [if_pos rfl]
      clear ih
      induction zs with
      | nil => rfl
      | cons z zs ih =>
        rw [List.countP_cons, List.countP_cons, List.countP_cons, ih]
        have h1 : ((a : ℚ) ≤ z) ↔ (a : ℤ) ≤ z := by exact_mod_cast Iff.rfl
        have h2 : ((z : ℚ) ≤ ((a + 1 : ℕ) : ℚ)) ↔ z ≤ ((a + 1 : ℕ) : ℤ) := by exact_mod_cast Iff.rfl
        simp only [Function.comp_apply, h1, h2, decide_eq_true_eq]
        split_ifs <;> omega
    | succ m =>
      have e : npHistogram (zs.map fun z : ℤ => (z : ℚ))
          ((List.range' a (m + 1 + 1 + 1)).map fun k : ℕ => (k : ℚ)) =
          ((a : ℚ), (zs.map fun z : ℤ => (z : ℚ)).countP fun x => decide ((a : ℚ) ≤ x ∧ x < ((a + 1 : ℕ) : ℚ))) ::
            npHistogram (zs.map fun z : ℤ => (z : ℚ))
              ((List.range' (a + 1) (m + 1 + 1)).map fun k : ℕ => (k : ℚ)) := rfl
      rw [e, ih (a + 1), List.range'_succ (s := a) (n := m + 1), List.map_cons, List.countP_map]
      congr 1
      · rw [if_neg (by omega), Nat.add_zero]
        congr 1
        refine List.countP_congr fun z _ => ?_
        simp only [Function.comp_apply, decide_eq_true_eq]
        exact hlow z
      · refine List.map_congr_left fun k _ => ?_
        rw [show a + 1 + (m + 1) = a + (m + 1 + 1) by omega]

theorem histogram_eq (n : ℕ) (es : List (RegionTrace × Row)) :
    npHistogram (es.map fun p => (p.2.policy : ℚ)) (arange (n + 1)) = tallyUpTo n (es.map conv) := by
  have e1 : es.map (fun p => (p.2.policy : ℚ)) = (es.map fun p => p.2.policy).map fun z : ℤ => (z : ℚ) := by
    rw [List.map_map]; rfl
  have h := npHistogram_from (es.map fun p => p.2.policy) 0 n
  rw [← List.range_eq_range', ← List.range_eq_range'] at h
  rw [e1, arange, h]
  unfold tallyUpTo withPolicy
  simp only [List.countP_map, Nat.zero_add]
  rfl

theorem column_policy {es : List (RegionTrace × Row)} {rows : List Record} (h : RowsOf es rows) :
    column "policy".toList rows = .ok (es.map fun p => (p.2.policy : ℚ)) := by
  unfold column
  have : rows.mapM (fun row => numOf (row "policy".toList)) = some (es.map fun p => (p.2.policy : ℚ)) := by
    induction h with
    | nil => rfl
    | cons hR _ ih =>
      rw [List.mapM_cons, hR.policy, ih]
      rfl
  rw [this]

theorem modelHistograms_ok {py : Py} (n : ℕ) {gs : List RegionTrace} {rank : ℤ} {es : List (RegionTrace × Row)}
    {opt : List Record} (hopt : RowsOf es opt) (hg : Readable py gs) (trained : Text) :
    modelHistograms n (concat (gs.map (frameOf py))) rank opt trained =
      .ok (tallyUpTo n (es.map conv), tallyUpTo n (hitsOf rank trained gs)) := by
  obtain ⟨hne, h⟩ := hg
  have hsel : RowsOf ((execs gs).filter fun p => decide (p.1.rank = rank) && decide (trained <:+: p.1.model))
      ((concat (gs.map (frameOf py))).rows.filter fun row =>
        decide (numOf (row "rankid".toList) = some (rank : ℚ)) &&
        (match row "training".toList with | .str s => decide (trained <:+: s) | _ => false)) := by
    refine filter_rows (concat_files py h) fun p rec hR => ?_
    rw [hR.rank, hR.training]
    simp [numOf]
  have hhits : hitsOf rank trained gs = ((execs gs).filter fun p =>
      decide (p.1.rank = rank) && decide (trained <:+: p.1.model)).map conv := by
    unfold hitsOf
    rw [ranOn_eq]
  unfold modelHistograms
  rw [if_pos]
  · simp only
    generalize (concat (gs.map (frameOf py))).rows.filter _ = rows at hsel
    rw [hhits, column_policy hopt, Res.bind_ok, column_policy hsel, Res.bind_ok, histogram_eq, histogram_eq]
  · refine ⟨?_, ?_, ?_, ?_, ?_, ?_⟩
    · exact concat_cols_mem py hne fun n => mem_headerColumns.2 (Or.inl (by decide))
    · exact concat_cols_mem py hne fun n => mem_headerColumns.2 (Or.inl (by decide))
    · exact concat_cols_mem py hne fun n => mem_headerColumns.2 (Or.inl (by decide))
    · exact concat_cols_mem py hne fun n => mem_headerColumns.2 (Or.inl (by decide))
    · exact concat_cols_mem py hne fun n => mem_headerColumns.2 (Or.inr (Or.inl (by decide)))
    · exact concat_cols_mem py hne fun n => mem_headerColumns.2 (Or.inr (Or.inl (by decide)))

theorem optionHistograms_ok {py : Py} (n : ℕ) {rank : ℤ} {es : List (RegionTrace × Row)} {opt : List Record}
    (hopt : RowsOf es opt) {o : Option (List RegionTrace)} (h : ∀ gs ∈ o, Readable py gs) (init trained : Text) :
    optionHistograms n (o.map fun fs => concat (fs.map (frameOf py))) rank opt init trained =
      .ok (o.toList.map fun gs => (init, tallyUpTo n (es.map conv), tallyUpTo n (hitsOf rank trained gs))) := by
  cases o with
  | none => rfl
  | some gs =>
    simp only [Option.map_some, optionHistograms, modelHistograms_ok n hopt (h gs rfl), Res.bind_ok]
    rfl

end Apollo.Scripts
