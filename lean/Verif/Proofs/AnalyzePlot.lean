import Verif.Model.AnalyzePlot
import Verif.Spec.AnalyzePlot
import Verif.Proofs.ScriptReport
import Verif.Proofs.PlotTrace
import Verif.Proofs.Accuracy

/-!
# Proofs about the pictures of an analysis
-/

namespace Apollo.Scripts

open Apollo.Spec

/-! ## Texts -/

/-- Counts are numbers of type `double`. -/
theorem rnd64_count {n : ℕ} (h : n < 2 ^ 53) : rnd64 (n : ℚ) = n := by
  refine rnd_of_representable (by norm_num) ⟨n, 0, ?_, by norm_num, by simp⟩
  rw [abs_of_nonneg (by omega)]
  exact_mod_cast h.le

theorem percentText_shows {a n : ℕ} (ha : a ≤ n) (hn : n ≤ 2 ^ 46) : ShowsPercent (percentText a n) a n := by
  refine ⟨fun h => by rw [percentText, if_pos h], fun h => ?_⟩
  have e1 : rnd64 (rnd64 a * 100) = ((a * 100 : ℕ) : ℚ) := by
    rw [rnd64_count (by omega)]
    have := rnd64_count (n := a * 100) (by omega)
    push_cast at this ⊢
    exact this
  rw [percentText, if_neg h, e1, rnd64_count (n := n) (by omega)]
  have hn0 : (0 : ℚ) < n := by exact_mod_cast Nat.pos_of_ne_zero h
  have ha' : (a : ℚ) ≤ n := by exact_mod_cast ha
  have ha0 : (0 : ℚ) ≤ a := by positivity
  have hx : |((a * 100 : ℕ) : ℚ) / n| ≤ 2 ^ (7 : ℤ) := by
    rw [abs_of_nonneg (by positivity), div_le_iff₀ hn0]
    push_cast
    linarith
  have h1 := rnd64_off_le (k := 7) (by norm_num) hx
  obtain ⟨v, hv, hv'⟩ := fixed2_shows (rnd64 (((a * 100 : ℕ) : ℚ) / n))
  refine ⟨v, hv, ?_⟩
  have e2 : (100 * a / n : ℚ) = ((a * 100 : ℕ) : ℚ) / n := by push_cast; ring
  rw [e2]
  have h2 := abs_sub_le v (rnd64 (((a * 100 : ℕ) : ℚ) / n)) (((a * 100 : ℕ) : ℚ) / n)
  norm_num at h1 h2 hv' ⊢
  linarith

theorem accuracyLine_shows {e : Text × ℕ × ℕ × ℕ} (h1 : e.2.1 ≤ e.2.2.1) (h2 : e.2.2.1 ≤ e.2.2.2)
    (hn : e.2.2.2 ≤ 2 ^ 46) : ShowsAccuracy (accuracyLine e) e :=
  ⟨_, _, rfl, percentText_shows (h1.trans h2) hn, percentText_shows h2 hn⟩

/-! ## Paths -/

theorem canSave_plain (dirs : Text → Bool) {dir : Text} (h : '/' ∉ dir) : canSave dirs (pictureName dir) = true := by
  have : '/' ∉ pictureName dir := by
    unfold pictureName
    simp only [List.mem_append, not_or]
    exact ⟨⟨by decide +kernel, h⟩, by decide +kernel⟩
  rw [canSave, folder, if_neg this]

theorem folder_slash (x : Text) {y : Text} (h : '/' ∉ y) : folder (x ++ '/' :: y) = some x := by
  have hy : ∀ c ∈ y.reverse, (c != '/') = true := by
    intro c hc
    rw [List.mem_reverse] at hc
    rw [bne_iff_ne]
    rintro rfl
    exact h hc
  have hm : '/' ∈ x ++ '/' :: y := List.mem_append_right _ List.mem_cons_self
  have e : (x ++ '/' :: y).reverse = y.reverse ++ '/' :: x.reverse := by
    rw [List.reverse_append, List.reverse_cons, List.append_assoc]
    rfl
  rw [folder, if_pos hm, e, List.dropWhile_append_of_pos hy, List.dropWhile_cons_of_neg (by decide),
    List.drop_one, List.tail_cons, List.reverse_reverse]

theorem canSave_slash (dirs : Text → Bool) {a b : Text} (h : '/' ∉ b) :
    canSave dirs (pictureName (a ++ '/' :: b)) = dirs ("analysis-".toList ++ a) := by
  have e : pictureName (a ++ '/' :: b) = ("analysis-".toList ++ a) ++ '/' :: (b ++ ".pdf".toList) := by
    unfold pictureName
    rw [List.append_assoc, List.append_assoc, List.append_assoc, List.cons_append]
  have hb : '/' ∉ b ++ ".pdf".toList := by
    rw [List.mem_append, not_or]
    exact ⟨h, by decide +kernel⟩
  rw [canSave, e, folder_slash _ hb]

/-! ## The ranks -/

theorem leftIn_append {α : Type} (out : List (Text × α)) (path : Text) (x : α) (p : Text) :
    leftIn (out ++ [(p, x)]) path = if p = path then some x else leftIn out path := by
  unfold leftIn
  rw [List.filter_append]
  by_cases h : p = path <;> simp [h]

/-- All reports succeed: a picture for each, all in the same file. -/
theorem plotRanks_ok (py : Py) (order : List ℚ → List ℕ) (sum : List ℚ → ℚ) {dirs : Text → Bool}
    {traces : Traces} {dir : Text} {regions : List Cell} (hd : canSave dirs (pictureName dir) = true)
    (rep : ℤ → Report) : ∀ {ranks : List ℤ},
    (∀ r ∈ ranks, py.report order sum traces r = .ok (rep r)) →
    py.plotRanks order sum dirs traces dir true false regions ranks =
      (ranks.map fun r => (pictureName dir, rankPicture sum dir (rep r)), none)
  | [], _ => rfl
  | r :: rs, h => by
    have ih := plotRanks_ok py order sum (traces := traces) (regions := regions) hd rep (ranks := rs)
      fun r hr => h r (List.mem_cons_of_mem _ hr)
    rw [Py.plotRanks, h r List.mem_cons_self]
    simp only [hd, ih]
    rfl

theorem uniqueCells_ne_nil {l : List Cell} (h : l ≠ []) : (uniqueCells l).isEmpty = false := by
  have key : ∀ (l seen : List Cell), seen ≠ [] →
      l.foldl (fun seen c => if c ∈ seen then seen else seen ++ [c]) seen ≠ [] := by
    intro l
    induction l with
    | nil => exact fun _ h => h
    | cons c l ih =>
      intro seen hs
      rw [List.foldl_cons]
      refine ih _ ?_
      split
      · exact hs
      · simp
  cases l with
  | nil => exact absurd rfl h
  | cons c l =>
    rw [Bool.eq_false_iff]
    intro he
    refine key l [c] (by simp) ?_
    have := List.isEmpty_iff.1 he
    rw [uniqueCells, List.foldl_cons, if_neg (by simp)] at this
    exact this

end Apollo.Scripts
