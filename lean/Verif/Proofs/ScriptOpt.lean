import Verif.Proofs.ScriptAgg
import Verif.Model.AnalyzeTraces

/-!
# The files of the model Optimal
-/

namespace Apollo.Scripts

open Apollo Apollo.Spec

/-- Rearranging one of two related lists. -/
theorem forall₂_perm {α β : Type} {R : α → β → Prop} {l : List α} {l' l'' : List β}
    (h : List.Forall₂ R l l') (hp : l'.Perm l'') : ∃ l3, l.Perm l3 ∧ List.Forall₂ R l3 l'' := by
  have := List.forall₂_comp_perm_eq_perm_comp_forall₂ (r := R)
  have h1 : Relation.Comp (List.Forall₂ R) List.Perm l l'' := ⟨l', h, hp⟩
  rw [this] at h1
  exact h1

theorem map_getD_range {α : Type} (l : List α) (d : α) :
    (List.range l.length).map (fun i => l.getD i d) = l := by
  refine List.ext_getElem (by simp) fun i h1 h2 => ?_
  simp [List.getD_eq_getElem?_getD, h2]

/-- Sorting by time. -/
theorem sortTimes_ok {py : Py} {order : List ℚ → List ℕ} (ho : Orders order)
    {es : List (RegionTrace × Row)} {rows : List Record} (h : RowsOf es rows)
    (hk : ∀ p ∈ es, p.1.Kept py) :
    ∃ es' rows', sortTimes order rows = .ok rows' ∧ es.Perm es' ∧ RowsOf es' rows' ∧
      es'.Pairwise fun a b => a.2.metric ≤ b.2.metric := by
  have hc := column_xtime (py := py) h hk
  obtain ⟨h1, h2⟩ := ho (es.map fun p => p.2.metric)
  rw [List.length_map] at h1
  have hlen := h.length_eq
  let d : RegionTrace × Row := (⟨0, [], [], 0, []⟩, ⟨0, [], 0, 0⟩)
  have hget : ∀ i ∈ order (es.map fun p => p.2.metric), i < es.length := by
    intro i hi
    exact List.mem_range.1 (h1.mem_iff.1 hi)
  refine ⟨(order (es.map fun p => p.2.metric)).map fun i => es.getD i d,
    (order (es.map fun p => p.2.metric)).map fun i => rows.getD i fun _ => .nan, ?_, ?_, ?_, ?_⟩
  · simp only [sortTimes, hc, Res.bind_ok]
  · have := h1.map fun i => es.getD i d
    rw [map_getD_range] at this
    exact this.symm
  · unfold RowsOf
    rw [List.forall₂_map_left_iff, List.forall₂_map_right_iff, List.forall₂_same]
    intro i hi
    have hi1 := hget i hi
    have hi2 : i < rows.length := by omega
    rw [List.getD_eq_getElem?_getD, List.getElem?_eq_getElem hi1, Option.getD_some,
      List.getD_eq_getElem?_getD, List.getElem?_eq_getElem hi2, Option.getD_some]
    exact List.Forall₂.get h hi1 hi2
  · rw [List.pairwise_map] at h2 ⊢
    refine h2.imp_of_mem fun {i j} hi hj hij => ?_
    have hi1 := hget i hi
    have hj1 := hget j hj
    simp only [List.getD_eq_getElem?_getD, List.getElem?_map, List.getElem?_eq_getElem hi1,
      List.getElem?_eq_getElem hj1, Option.map_some, Option.getD_some] at hij ⊢
    exact hij

/-- The region and the index. -/
def place (p : RegionTrace × Row) : Text × ℕ := (p.1.region, p.2.index)

/-- The cells of a place. -/
def placeCells (k : Text × ℕ) : List Cell := [.str k.1, .int k.2]

theorem placeCells_inj {k k' : Text × ℕ} (h : placeCells k = placeCells k') : k = k' := by
  unfold placeCells at h
  simp only [List.cons.injEq, Cell.str.injEq, Cell.int.injEq, Nat.cast_inj, and_true] at h
  exact Prod.ext h.1 h.2

theorem dropDuplicates_ok {es : List (RegionTrace × Row)} {rows : List Record} (h : RowsOf es rows)
    (hs : es.Pairwise fun a b => a.2.metric ≤ b.2.metric) (seen : List (Text × ℕ)) :
    ∃ es', RowsOf es' (dropDuplicates ["region".toList, "idx".toList] rows (seen.map placeCells)) ∧
      (∀ p ∈ es', p ∈ es ∧ place p ∉ seen) ∧ (es'.map place).Nodup ∧
      ∀ p ∈ es, place p ∈ seen ∨ ∃ p' ∈ es', place p' = place p ∧ p'.2.metric ≤ p.2.metric := by
  induction h generalizing seen with
  | nil => exact ⟨[], List.Forall₂.nil, by simp, by simp, by simp⟩
  | @cons p rec es rows hR _ ih =>
    rw [List.pairwise_cons] at hs
    have hcells : ["region".toList, "idx".toList].map rec = placeCells (place p) := by
      simp only [List.map_cons, List.map_nil, hR.region, hR.idx]
      rfl
    by_cases hm : place p ∈ seen
    · obtain ⟨es', e1, e2, e3, e4⟩ := ih hs.2 seen
      refine ⟨es', ?_, fun q hq => ⟨by simp [(e2 q hq).1], (e2 q hq).2⟩, e3, ?_⟩
      · rw [dropDuplicates, if_pos (by rw [hcells]; exact List.mem_map.2 ⟨_, hm, rfl⟩)]
        exact e1
      · intro q hq
        rcases List.mem_cons.1 hq with rfl | hq
        · exact Or.inl hm
        · exact e4 q hq
    · obtain ⟨es', e1, e2, e3, e4⟩ := ih hs.2 (place p :: seen)
      refine ⟨p :: es', ?_, ?_, ?_, ?_⟩
      · rw [dropDuplicates, if_neg]
        · rw [hcells]
          exact List.Forall₂.cons hR e1
        · rw [hcells]
          intro hcon
          obtain ⟨k, hk, e⟩ := List.mem_map.1 hcon
          rw [placeCells_inj e] at hk
          exact hm hk
      · intro q hq
        rcases List.mem_cons.1 hq with rfl | hq
        · exact ⟨by simp, hm⟩
        · obtain ⟨a, b⟩ := e2 q hq
          exact ⟨by simp [a], fun hc => b (by simp [hc])⟩
      · rw [List.map_cons, List.nodup_cons]
        refine ⟨?_, e3⟩
        intro hc
        obtain ⟨q, hq, e⟩ := List.mem_map.1 hc
        exact (e2 q hq).2 (by rw [e]; simp)
      · intro q hq
        rcases List.mem_cons.1 hq with rfl | hq
        · exact Or.inr ⟨q, by simp, rfl, le_refl _⟩
        · rcases e4 q hq with h1 | ⟨q', h1, h2, h3⟩
          · rcases List.mem_cons.1 h1 with h1 | h1
            · exact Or.inr ⟨p, by simp, h1.symm, hs.1 q hq⟩
            · exact Or.inl h1
          · exact Or.inr ⟨q', by simp [h1], h2, h3⟩

theorem filter_rows {es : List (RegionTrace × Row)} {rows : List Record} (h : RowsOf es rows)
    {P : RegionTrace × Row → Bool} {Q : Record → Bool}
    (hPQ : ∀ (p : RegionTrace × Row) (rec : Record), RowOf p.1 p.2 rec → P p = Q rec) : RowsOf (es.filter P) (rows.filter Q) := by
  induction h with
  | nil => exact List.Forall₂.nil
  | @cons p rec es rows hR _ ih =>
    rw [List.filter_cons, List.filter_cons, hPQ p rec hR]
    split
    · exact List.Forall₂.cons hR ih
    · exact ih

theorem column_idx {es : List (RegionTrace × Row)} {rows : List Record} (h : RowsOf es rows) :
    column "idx".toList rows = .ok (es.map fun p => (p.2.index : ℚ)) := by
  have : rows.mapM (fun row => numOf (row "idx".toList)) = some (es.map fun p => (p.2.index : ℚ)) := by
    induction h with
    | nil => rfl
    | cons hR _ ih =>
      rw [List.mapM_cons, hR.idx, ih]
      simp [numOf]
  unfold column
  rw [this]

/-- The policies of a region: of the executions `es`, sorted by index. -/
theorem optimalPolicies_ok (py : Py) {es : List (RegionTrace × Row)} {rows : List Record}
    (h : RowsOf es rows) (hd : (es.map place).Nodup) (r : Text) :
    ∃ es', (ofRegion es r).Perm es' ∧ es'.Pairwise (fun a b => a.2.index < b.2.index) ∧
      py.optimalPolicies rows (.str r) = .ok (es'.map fun p => fmtInt p.2.policy) := by
  have h1 : RowsOf (ofRegion es r) (rows.filter fun row => decide (row "region".toList = .str r)) := by
    refine filter_rows h fun p rec hR => ?_
    rw [hR.region]
    simp
  have hc := column_idx h1
  have h2 : List.Forall₂ (fun (p : RegionTrace × Row) (q : ℚ × Record) =>
      q.1 = (p.2.index : ℚ) ∧ RowOf p.1 p.2 q.2) (ofRegion es r)
      (((ofRegion es r).map fun p => (p.2.index : ℚ)).zip
        (rows.filter fun row => decide (row "region".toList = .str r))) := by
    clear hc
    generalize rows.filter (fun row => decide (row "region".toList = .str r)) = rs at h1
    generalize ofRegion es r = es0 at h1
    induction h1 with
    | nil => exact List.Forall₂.nil
    | cons hR _ ih => exact List.Forall₂.cons ⟨rfl, hR⟩ ih
  obtain ⟨es', p1, p2⟩ := forall₂_perm h2
    (List.perm_insertionSort (fun a b : ℚ × Record => a.1 ≤ b.1) _).symm
  refine ⟨es', p1, ?_, ?_⟩
  · have hs := List.pairwise_insertionSort (fun a b : ℚ × Record => a.1 ≤ b.1)
      (((ofRegion es r).map fun p => (p.2.index : ℚ)).zip
        (rows.filter fun row => decide (row "region".toList = .str r)))
    have hle : es'.Pairwise fun a b => a.2.index ≤ b.2.index := by
      generalize List.insertionSort (fun a b : ℚ × Record => a.1 ≤ b.1) _ = L at p2 hs
      clear p1
      induction p2 with
      | nil => exact List.Pairwise.nil
      | cons hq hqs ih =>
        rw [List.pairwise_cons] at hs ⊢
        refine ⟨?_, ih hs.2⟩
        intro b hb
        obtain ⟨c, hc, hbc⟩ := forall₂_left hqs hb
        have := hs.1 c hc
        rw [hq.1, hbc.1] at this
        exact_mod_cast this
    have hnd : (es'.map place).Nodup := by
      refine ((p1.map place).nodup_iff).1 ?_
      exact hd.sublist (List.filter_sublist.map _)
    have hr : ∀ p ∈ es', p.1.region = r := by
      intro p hp
      have := p1.mem_iff.2 hp
      simpa using (List.mem_filter.1 this).2
    have hne : es'.Pairwise fun a b => place a ≠ place b := by
      rwa [List.Nodup, List.pairwise_map] at hnd
    refine (hle.and hne).imp_of_mem fun {a b} ha hb hab => ?_
    refine lt_of_le_of_ne hab.1 fun e => hab.2 ?_
    unfold place
    rw [hr a ha, hr b hb, e]
  · simp only [Py.optimalPolicies, hc, Res.bind_ok]
    congr 1
    generalize List.insertionSort (fun a b : ℚ × Record => a.1 ≤ b.1) _ = L at p2
    clear p1
    induction p2 with
    | nil => rfl
    | cons hq _ ih =>
      rw [List.map_cons, List.map_cons, ih, hq.2.policy]
      rfl

theorem mem_rowsAt {fs : List RegionTrace} {rank : ℤ} {r : Text} {i : ℕ} {x : Row} :
    x ∈ rowsAt fs rank r i ↔ ∃ F ∈ fs, F.rank = rank ∧ F.region = r ∧ x ∈ F.rows ∧ x.index = i := by
  unfold rowsAt
  rw [List.mem_flatMap]
  constructor
  · rintro ⟨F, hF, hx⟩
    split_ifs at hx with hc
    · obtain ⟨h1, h2⟩ := List.mem_filter.1 hx
      exact ⟨F, hF, hc.1, hc.2, h1, by simpa using h2⟩
    · cases hx
  · rintro ⟨F, hF, h1, h2, h3, h4⟩
    exact ⟨F, hF, by rw [if_pos ⟨h1, h2⟩]; exact List.mem_filter.2 ⟨h3, by simpa using h4⟩⟩

theorem concat_cols_mem (py : Py) {fs : List RegionTrace} (hne : fs ≠ []) {c : Text}
    (h : ∀ n, c ∈ Spec.headerColumns n) : c ∈ (concat (fs.map (frameOf py))).cols := by
  show c ∈ (stack (fs.map (frameOf py))).cols
  rw [stack_cols, List.map_map]
  cases fs with
  | nil => exact absurd rfl hne
  | cons F fs =>
    rw [List.map_cons, List.foldl_cons, unionCols_nil]
    have key : ∀ (ls : List (List Text)) (acc : List Text), c ∈ acc → c ∈ ls.foldl unionCols acc := by
      intro ls
      induction ls with
      | nil => exact fun _ h => h
      | cons l ls ih =>
        intro acc hc
        exact ih _ (List.mem_append_left _ hc)
    exact key _ _ (h _)

/-- The rows that are kept: for every region and index one of the fastest executions. -/
theorem optimalRows_ok (py : Py) {order : List ℚ → List ℕ} (ho : Orders order) {fs : List RegionTrace}
    (hne : fs ≠ []) (h : ∀ F ∈ fs, F.Wellformed ∧ F.Kept py) (rank : ℤ) :
    ∃ es rows, optimalRows order (concat (fs.map (frameOf py))) rank = .ok rows ∧ RowsOf es rows ∧
      (es.map place).Nodup ∧ (∀ p ∈ es, p.1 ∈ fs ∧ p.1.rank = rank ∧ p.2 ∈ p.1.rows) ∧
      ∀ F ∈ fs, F.rank = rank → ∀ x ∈ F.rows,
        ∃ p ∈ es, place p = (F.region, x.index) ∧ p.2.metric ≤ x.metric := by
  have hrows := concat_files py h
  have hsel : RowsOf ((execs fs).filter fun p => decide (p.1.rank = rank))
      ((concat (fs.map (frameOf py))).rows.filter
        fun row => decide (numOf (row "rankid".toList) = some (rank : ℚ))) := by
    refine filter_rows hrows fun p rec hR => ?_
    rw [hR.rank]
    simp [numOf]
  have hmem : ∀ p ∈ execs fs, p.1 ∈ fs ∧ p.2 ∈ p.1.rows := by
    intro p hp
    obtain ⟨F, hF, hp⟩ := List.mem_flatMap.1 hp
    obtain ⟨x, hx, rfl⟩ := List.mem_map.1 hp
    exact ⟨hF, hx⟩
  obtain ⟨es1, rows1, s1, s2, s3, s4⟩ := sortTimes_ok (py := py) ho hsel
    fun p hp => (h _ (hmem p (List.mem_of_mem_filter hp)).1).2
  obtain ⟨es2, d1, d2, d3, d4⟩ := dropDuplicates_ok s3 s4 []
  have hopt : optimalRows order (concat (fs.map (frameOf py))) rank =
      .ok (dropDuplicates ["region".toList, "idx".toList] rows1 []) := by
    unfold optimalRows
    rw [if_pos]
    · simp only [s1, Res.bind_ok]
    · refine ⟨?_, ?_, ?_, ?_, ?_⟩
      · exact concat_cols_mem py hne fun n => mem_headerColumns.2 (Or.inl (by decide))
      · exact concat_cols_mem py hne fun n => mem_headerColumns.2 (Or.inr (Or.inl (by decide)))
      · exact concat_cols_mem py hne fun n => mem_headerColumns.2 (Or.inl (by decide))
      · exact concat_cols_mem py hne fun n => mem_headerColumns.2 (Or.inl (by decide))
      · exact concat_cols_mem py hne fun n => mem_headerColumns.2 (Or.inr (Or.inl (by decide)))
  rw [List.map_nil] at d1
  generalize dropDuplicates ["region".toList, "idx".toList] rows1 [] = rows2 at hopt d1
  -- the executions kept
  have hes1 : ∀ p, p ∈ es1 ↔ ∃ F ∈ fs, F.rank = rank ∧ ∃ x ∈ F.rows, p = (F, x) := by
    intro p
    rw [← s2.mem_iff, List.mem_filter]
    constructor
    · rintro ⟨hp, hr⟩
      obtain ⟨a, b⟩ := hmem p hp
      exact ⟨p.1, a, by simpa using hr, p.2, b, rfl⟩
    · rintro ⟨F, hF, hr, x, hx, rfl⟩
      exact ⟨List.mem_flatMap.2 ⟨F, hF, List.mem_map.2 ⟨x, hx, rfl⟩⟩, by simpa using hr⟩
  refine ⟨es2, rows2, hopt, d1, d3, ?_, ?_⟩
  · intro p hp
    obtain ⟨F, hF, hr, x, hx, rfl⟩ := (hes1 p).1 (d2 p hp).1
    exact ⟨hF, hr, hx⟩
  · intro F hF hr x hx
    rcases d4 (F, x) ((hes1 _).2 ⟨F, hF, hr, x, hx, rfl⟩) with hc | ⟨p', hp', e, hle⟩
    · cases hc
    · exact ⟨p', hp', e, hle⟩

/-- The files of a rank. -/
theorem writeOpt_ok (py : Py) {order : List ℚ → List ℕ} (ho : Orders order) {fs : List RegionTrace}
    (hne : fs ≠ []) (h : ∀ F ∈ fs, F.Wellformed ∧ F.Kept py) (rank : ℤ) :
    ∃ out rs, py.writeOpt order (fs.map RegionTrace.text) rank = .ok out ∧ rs.Nodup ∧
      (∀ r, r ∈ rs ↔ ∃ i, rowsAt fs rank r i ≠ []) ∧
      List.Forall₂ (fun r o => o.1 = optimalName rank r ∧ ∃ is ps, is.Pairwise (· < ·) ∧
        (∀ i, i ∈ is ↔ rowsAt fs rank r i ≠ []) ∧ List.Forall₂ (BestAt fs rank r) is ps ∧
        o.2 = [','].intercalate (ps.map fmtInt)) rs out := by
  obtain ⟨es2, rows2, hopt, d1, d3, d2, d4⟩ := optimalRows_ok py ho hne h rank
  have hkeep : ∀ r i, (∃ p ∈ es2, place p = (r, i)) ↔ rowsAt fs rank r i ≠ [] := by
    intro r i
    constructor
    · rintro ⟨p, hp, e⟩
      obtain ⟨hF, hr, hx⟩ := d2 p hp
      unfold place at e
      rw [Prod.mk.injEq] at e
      exact List.ne_nil_of_mem (mem_rowsAt.2 ⟨p.1, hF, hr, e.1, hx, e.2⟩)
    · intro hne'
      obtain ⟨x, hx⟩ := List.exists_mem_of_ne_nil _ hne'
      obtain ⟨F, hF, h1, h2, h3, h4⟩ := mem_rowsAt.1 hx
      obtain ⟨p', hp', e, -⟩ := d4 F hF h1 x h3
      exact ⟨p', hp', by rw [e, h2, h4]⟩
  obtain ⟨rs, u1, u2, u3⟩ := regions_of_rows (data := ⟨[], rows2⟩) d1
  have hrs : ∀ r, r ∈ rs ↔ ∃ i, rowsAt fs rank r i ≠ [] := by
    intro r
    rw [u3]
    constructor
    · rintro ⟨p, hp, rfl⟩
      exact ⟨p.2.index, (hkeep _ _).1 ⟨p, hp, rfl⟩⟩
    · rintro ⟨i, hi⟩
      obtain ⟨p, hp, e⟩ := (hkeep r i).2 hi
      exact ⟨p, hp, congrArg Prod.fst e⟩
  obtain ⟨out, o1, o2⟩ := mapM_res (f := fun r => py.optimalFile rows2 rank (.str r)) (l := rs)
    (R := fun r o => o.1 = optimalName rank r ∧ ∃ is ps, is.Pairwise (· < ·) ∧
        (∀ i, i ∈ is ↔ rowsAt fs rank r i ≠ []) ∧ List.Forall₂ (BestAt fs rank r) is ps ∧
        o.2 = [','].intercalate (ps.map fmtInt)) (by
      intro r _
      obtain ⟨es3, q1, q2, q3⟩ := optimalPolicies_ok py d1 d3 r
      refine ⟨_, by simp only [Py.optimalFile, q3, Res.bind_ok]; rfl, rfl,
        es3.map (fun p => p.2.index), es3.map (fun p => p.2.policy), ?_, ?_, ?_, ?_⟩
      · rw [List.pairwise_map]
        exact q2
      · intro i
        rw [← hkeep r i]
        constructor
        · intro hi
          obtain ⟨p, hp, rfl⟩ := List.mem_map.1 hi
          obtain ⟨a, b⟩ := List.mem_filter.1 (q1.mem_iff.2 hp)
          rw [decide_eq_true_eq] at b
          exact ⟨p, a, by unfold place; rw [b]⟩
        · rintro ⟨p, hp, e⟩
          unfold place at e
          rw [Prod.mk.injEq] at e
          exact List.mem_map.2 ⟨p, q1.mem_iff.1 (List.mem_filter.2 ⟨hp, by simpa using e.1⟩), e.2⟩
      · rw [List.forall₂_map_left_iff, List.forall₂_map_right_iff, List.forall₂_same]
        intro p hp
        obtain ⟨a, b⟩ := List.mem_filter.1 (q1.mem_iff.2 hp)
        rw [decide_eq_true_eq] at b
        obtain ⟨hF, hr, hx⟩ := d2 p a
        refine ⟨p.2, mem_rowsAt.2 ⟨p.1, hF, hr, b, hx, rfl⟩, rfl, ?_⟩
        intro y hy
        obtain ⟨G, hG, g1, g2, g3, g4⟩ := mem_rowsAt.1 hy
        obtain ⟨p', hp', e, hle⟩ := d4 G hG g1 y g3
        have : p' = p := by
          refine List.inj_on_of_nodup_map d3 hp' a ?_
          rw [e]
          unfold place
          rw [g2, g4, b]
        rw [this] at hle
        exact hle
      · rw [List.map_map]; rfl)
  refine ⟨out, rs, ?_, u2, hrs, o2⟩
  unfold Py.writeOpt
  rw [readTracefiles_text py hne fun F hF => (h F hF).1]
  simp only [Res.bind_ok, hopt]
  rw [u1, List.mapM_map]
  exact o1

end Apollo.Scripts
