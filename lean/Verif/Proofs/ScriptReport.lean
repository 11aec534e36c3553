import Verif.Proofs.ScriptOpt
import Verif.Model.AnalyzeReport
import Verif.Spec.Report

/-!
# The report of analyze-traces.py: helper lemmas
-/

namespace Apollo.Scripts

open Apollo Apollo.Spec

/-- The region and the row of an execution. -/
def conv (p : RegionTrace × Row) : Text × Row := (p.1.region, p.2)

theorem ranOn_eq (fs : List RegionTrace) (rank : ℤ) (P : Text → Bool) :
    ranOn fs rank P = ((execs fs).filter fun p => decide (p.1.rank = rank) && P p.1.model).map conv := by
  unfold ranOn execs
  induction fs with
  | nil => rfl
  | cons F fs ih =>
    rw [List.flatMap_cons, List.flatMap_cons, List.filter_append, List.map_append, ← ih]
    congr 1
    rw [List.filter_map, List.map_map]
    by_cases h : F.rank = rank ∧ P F.model = true
    · rw [if_pos h, List.filter_eq_self.2]
      · rfl
      · intro x _
        simp [h.1, h.2]
    · rw [if_neg h, List.filter_eq_nil_iff.2]
      · rfl
      · intro x _ hc
        apply h
        simpa using hc

theorem mem_execs {fs : List RegionTrace} {p : RegionTrace × Row} (h : p ∈ execs fs) :
    p.1 ∈ fs ∧ p.2 ∈ p.1.rows := by
  obtain ⟨F, hF, hp⟩ := List.mem_flatMap.1 h
  obtain ⟨x, hx, rfl⟩ := List.mem_map.1 hp
  exact ⟨hF, hx⟩

theorem timesOf_ok (py : Py) {fs : List RegionTrace} (hne : fs ≠ [])
    (h : ∀ F ∈ fs, F.Wellformed ∧ F.Kept py) (rank : ℤ) (m : Text) :
    timesOf (concat (fs.map (frameOf py))) rank m = .ok (modelTimes fs rank m) := by
  have hsel : RowsOf ((execs fs).filter fun p => decide (p.1.rank = rank) && decide (p.1.model = m))
      ((concat (fs.map (frameOf py))).rows.filter fun row =>
        decide (numOf (row "rankid".toList) = some (rank : ℚ) ∧ row "training".toList = .str m)) := by
    refine filter_rows (concat_files py h) fun p rec hR => ?_
    rw [hR.rank, hR.training]
    simp [numOf]
  have hc := column_xtime (py := py) hsel fun p hp => (h _ (mem_execs (List.mem_of_mem_filter hp)).1).2
  unfold timesOf
  rw [if_pos, hc, modelTimes, ranOn_eq, List.map_map]
  · rfl
  · refine ⟨?_, ?_, ?_⟩
    · exact concat_cols_mem py hne fun n => mem_headerColumns.2 (Or.inl (by decide))
    · exact concat_cols_mem py hne fun n => mem_headerColumns.2 (Or.inl (by decide))
    · exact concat_cols_mem py hne fun n => mem_headerColumns.2 (Or.inr (Or.inl (by decide)))

theorem mapM_placeKey {es : List (RegionTrace × Row)} {rows : List Record} (h : RowsOf es rows) :
    rows.mapM placeKey = .ok (es.map fun p => toLex (p.1.region, (p.2.index : ℚ))) := by
  induction h with
  | nil => rfl
  | cons hR _ ih =>
    rw [List.mapM_cons, ih]
    simp only [placeKey, hR.region, hR.idx, numOf]
    rfl

/-- The table of the optimal choice. -/
theorem optimalTable_ok (py : Py) {order : List ℚ → List ℕ} (ho : Orders order) {fs : List RegionTrace}
    (hne : fs ≠ []) (h : ∀ F ∈ fs, F.Wellformed ∧ F.Kept py) (rank : ℤ) :
    ∃ es rows, optimalTable order (concat (fs.map (frameOf py))) rank = .ok rows ∧ RowsOf es rows ∧
      (∀ p ∈ es, p.1 ∈ fs) ∧ Chosen fs rank (es.map conv) ∧
      ∃ es0 rows0, optimalRows order (concat (fs.map (frameOf py))) rank = .ok rows0 ∧ RowsOf es0 rows0 ∧
        (es0.map place).Nodup ∧ es0.Perm es := by
  obtain ⟨es, rows, h1, h2, h3, h4, h5⟩ := optimalRows_ok py ho hne h rank
  have hz : List.Forall₂ (fun (p : RegionTrace × Row) (q : (Text ×ₗ ℚ) × Record) =>
      q.1 = toLex (p.1.region, (p.2.index : ℚ)) ∧ RowOf p.1 p.2 q.2) es
      ((es.map fun p => toLex (p.1.region, (p.2.index : ℚ))).zip rows) := by
    clear h1 h3 h4 h5
    induction h2 with
    | nil => exact List.Forall₂.nil
    | cons hR _ ih => exact List.Forall₂.cons ⟨rfl, hR⟩ ih
  obtain ⟨es', p1, p2⟩ := forall₂_perm hz
    (List.perm_insertionSort (fun a b : (Text ×ₗ ℚ) × Record => a.1 ≤ b.1) _).symm
  have hs := List.pairwise_insertionSort (fun a b : (Text ×ₗ ℚ) × Record => a.1 ≤ b.1)
    ((es.map fun p => toLex (p.1.region, (p.2.index : ℚ))).zip rows)
  have htab : optimalTable order (concat (fs.map (frameOf py))) rank = .ok
      ((List.insertionSort (fun a b : (Text ×ₗ ℚ) × Record => a.1 ≤ b.1)
        ((es.map fun p => toLex (p.1.region, (p.2.index : ℚ))).zip rows)).map Prod.snd) := by
    simp only [optimalTable, h1, Res.bind_ok, sortIndex, mapM_placeKey h2]
  generalize List.insertionSort (fun a b : (Text ×ₗ ℚ) × Record => a.1 ≤ b.1) _ = L at p2 hs htab
  refine ⟨es', _, htab, ?_, fun p hp => (h4 p (p1.mem_iff.2 hp)).1, ⟨?_, ?_, ?_⟩,
    es, rows, h1, h2, h3, p1⟩
  · unfold RowsOf
    rw [List.forall₂_map_right_iff]
    exact p2.imp fun _ _ a => a.2
  · have hle : es'.Pairwise fun a b =>
        toLex (a.1.region, (a.2.index : ℚ)) ≤ toLex (b.1.region, (b.2.index : ℚ)) := by
      clear htab p1
      induction p2 with
      | nil => exact List.Pairwise.nil
      | cons hq hqs ih =>
        rw [List.pairwise_cons] at hs ⊢
        refine ⟨?_, ih hs.2⟩
        intro b hb
        obtain ⟨c, hc, hbc⟩ := forall₂_left hqs hb
        have := hs.1 c hc
        rwa [hq.1, hbc.1] at this
    have hnd : es'.Pairwise fun a b => place a ≠ place b := by
      have := ((p1.map place).nodup_iff).1 h3
      rwa [List.Nodup, List.pairwise_map] at this
    rw [List.pairwise_map]
    refine (hle.and hnd).imp fun {a b} hab => ?_
    obtain ⟨h1, h2⟩ := hab
    rw [Prod.Lex.le_iff] at h1
    rcases h1 with h1 | ⟨h1, h3⟩
    · exact Or.inl h1
    · right
      have h3' : (a.2.index : ℚ) ≤ (b.2.index : ℚ) := h3
      have h4' : a.2.index ≤ b.2.index := by exact_mod_cast h3'
      refine ⟨h1, lt_of_le_of_ne h4' fun e => h2 ?_⟩
      unfold place
      have h1' : a.1.region = b.1.region := h1
      have e' : a.2.index = b.2.index := e
      rw [h1', e']
  · intro r i
    constructor
    · rintro ⟨x, hx, rfl⟩
      obtain ⟨p, hp, e⟩ := List.mem_map.1 hx
      obtain ⟨a, b, c⟩ := h4 p (p1.mem_iff.2 hp)
      unfold conv at e
      rw [Prod.mk.injEq] at e
      rw [← e.1, ← e.2]
      exact List.ne_nil_of_mem (mem_rowsAt.2 ⟨p.1, a, b, rfl, c, rfl⟩)
    · intro hne'
      obtain ⟨x, hx⟩ := List.exists_mem_of_ne_nil _ hne'
      obtain ⟨F, hF, e1, e2, e3, e4⟩ := mem_rowsAt.1 hx
      obtain ⟨p, hp, e, -⟩ := h5 F hF e1 x e3
      unfold place at e
      rw [Prod.mk.injEq, e2, e4] at e
      exact ⟨p.2, List.mem_map.2 ⟨p, p1.mem_iff.1 hp, by unfold conv; rw [e.1]⟩, e.2⟩
  · intro q hq
    obtain ⟨p, hp, rfl⟩ := List.mem_map.1 hq
    have hp' := p1.mem_iff.2 hp
    obtain ⟨a, b, c⟩ := h4 p hp'
    refine ⟨mem_rowsAt.2 ⟨p.1, a, b, rfl, c, rfl⟩, ?_⟩
    intro y hy
    obtain ⟨G, hG, g1, g2, g3, g4⟩ := mem_rowsAt.1 hy
    obtain ⟨p', hp'', e, hle⟩ := h5 G hG g1 y g3
    have : p' = p := by
      refine List.inj_on_of_nodup_map h3 hp'' hp' ?_
      rw [e, g2, g4]
      rfl
    rw [this] at hle
    exact hle

/-- The rows of a region are the same in the table and in the files. -/
theorem ofRegion_sorted {es es' es3 : List (RegionTrace × Row)} (hp : es.Perm es')
    (hs : (es'.map conv).Pairwise fun a b => a.1 < b.1 ∨ a.1 = b.1 ∧ a.2.index < b.2.index) {r : Text}
    (q1 : (ofRegion es r).Perm es3) (q2 : es3.Pairwise fun a b => a.2.index < b.2.index) :
    es3 = ofRegion es' r := by
  have hp3 : es3.Perm (ofRegion es' r) := q1.symm.trans (hp.filter _)
  have hs' : (ofRegion es' r).Pairwise fun a b => a.2.index < b.2.index := by
    rw [List.pairwise_map] at hs
    have h1 : (ofRegion es' r).Pairwise fun a b =>
        (conv a).1 < (conv b).1 ∨ (conv a).1 = (conv b).1 ∧ (conv a).2.index < (conv b).2.index :=
      hs.sublist List.filter_sublist
    refine h1.imp_of_mem fun {a b} ha hb hab => ?_
    have ra : a.1.region = r := by simpa using (List.mem_filter.1 ha).2
    have rb : b.1.region = r := by simpa using (List.mem_filter.1 hb).2
    rcases hab with hab | hab
    · exfalso
      have hab' : a.1.region < b.1.region := hab
      rw [ra, rb] at hab'
      exact lt_irrefl _ hab'
    · exact hab.2
  refine List.Perm.eq_of_pairwise (le := fun a b => a.2.index < b.2.index) ?_ q2 hs' hp3
  intro a b _ _ h1 h2
  omega

/-! ## Accuracy -/

theorem sameIndex_eq {p q : RegionTrace × Row} {a b : Record} (ha : RowOf p.1 p.2 a)
    (hb : RowOf q.1 q.2 b) : sameIndex a b = samePlace (conv p) (conv q) := by
  unfold sameIndex samePlace conv
  rw [ha.region, hb.region, ha.idx, hb.idx]
  simp

theorem samePlace_comm (a b : Text × Row) : samePlace a b = samePlace b a := by
  unfold samePlace
  rw [decide_eq_decide]
  constructor <;> rintro ⟨h1, h2⟩ <;> exact ⟨h1.symm, h2.symm⟩

/-- Finding a row at a place. -/
theorem find_any {es : List (RegionTrace × Row)} {rows : List Record} (h : RowsOf es rows)
    (hd : (es.map conv).Pairwise fun a b => samePlace a b = false) {p : RegionTrace × Row} {row : Record}
    (hp : RowOf p.1 p.2 row) {f : Record → Bool} {g : Text × Row → Bool}
    (hfg : ∀ q ∈ es, ∀ rec, RowOf q.1 q.2 rec → f rec = g (conv q)) :
    ((rows.find? (sameIndex row)).elim false f) =
      ((es.map conv).any fun c => samePlace c (conv p) && g c) := by
  induction h with
  | nil => rfl
  | @cons q rec es rows hR hrest ih =>
    rw [List.map_cons, List.pairwise_cons] at hd
    rw [List.map_cons, List.any_cons, List.find?_cons, sameIndex_eq hp hR, samePlace_comm]
    cases hs : samePlace (conv q) (conv p) with
    | false =>
      rw [Bool.false_and, Bool.false_or]
      exact ih hd.2 fun q hq => hfg q (by simp [hq])
    | true =>
      rw [Bool.true_and, Option.elim_some, hfg q (by simp) rec hR]
      have : ((es.map conv).any fun c => samePlace c (conv p) && g c) = false := by
        rw [List.any_eq_false]
        intro c hc hcon
        rw [Bool.and_eq_true] at hcon
        have h1 := hd.1 c hc
        unfold samePlace at h1 hs hcon
        rw [decide_eq_false_iff_not] at h1
        rw [decide_eq_true_eq] at hs
        have h2 := of_decide_eq_true hcon.1
        exact h1 ⟨hs.1.trans h2.1.symm, hs.2.trans h2.2.symm⟩
      rw [this, Bool.or_false]

theorem chosen_apart {fs : List RegionTrace} {rank : ℤ} {ch : List (Text × Row)} (h : Chosen fs rank ch) :
    ch.Pairwise fun a b => samePlace a b = false := by
  refine h.sorted.imp fun {a b} hab => ?_
  unfold samePlace
  rw [decide_eq_false_iff_not]
  rintro ⟨h1, h2⟩
  rcases hab with hab | ⟨-, hab⟩
  · rw [h1] at hab; exact lt_irrefl _ hab
  · omega

theorem matchesOpt_eq {es : List (RegionTrace × Row)} {opt : List Record} (h : RowsOf es opt)
    (hd : (es.map conv).Pairwise fun a b => samePlace a b = false) {p : RegionTrace × Row} {row : Record}
    (hp : RowOf p.1 p.2 row) : matchesOpt opt row = agrees (es.map conv) (conv p) := by
  have := find_any h hd hp (f := fun o => decide (o "policy".toList = row "policy".toList))
    (g := fun c => decide (c.2.policy = (conv p).2.policy)) (by
      intro q _ rec hR
      rw [hR.policy, hp.policy]
      exact decide_eq_decide.2 (by simp [conv]))
  unfold agrees
  rw [← this]
  unfold matchesOpt
  cases opt.find? (sameIndex row) <;> rfl

theorem nearOpt_eq {py : Py} {es : List (RegionTrace × Row)} {opt : List Record} (h : RowsOf es opt)
    (hd : (es.map conv).Pairwise fun a b => samePlace a b = false) {p : RegionTrace × Row} {row : Record}
    (hk : ∀ q ∈ es, q.1.Kept py) (hkp : p.1.Kept py)
    (hp : RowOf p.1 p.2 row) : nearOpt opt row = near (es.map conv) (conv p) := by
  have hrow : numOf (row "xtime".toList) = some p.2.metric := by
    rw [hp.xtime.num, (hkp p.2 hp.mem).2.1.eq]
  have := find_any h hd hp (f := fun o => match numOf (o "xtime".toList), numOf (row "xtime".toList) with
      | some a, some b => decide (a ≠ 0 ∧ rnd64 (rnd64 (|rnd64 (a - b)| * 100) / a) ≤ 10)
      | _, _ => false)
    (g := fun c => decide (c.2.metric ≠ 0 ∧ percent c.2.metric (conv p).2.metric ≤ 10)) (by
      intro q hq rec hR
      rw [hR.xtime.num, (hk q hq q.2 hR.mem).2.1.eq, hrow]
      rfl)
  unfold near
  rw [← this]
  unfold nearOpt
  cases opt.find? (sameIndex row) <;> rfl

theorem rowsOf_any {es : List (RegionTrace × Row)} {rows : List Record} (h : RowsOf es rows)
    {f : Record → Bool} {g : RegionTrace × Row → Bool}
    (hfg : ∀ q ∈ es, ∀ rec, RowOf q.1 q.2 rec → f rec = g q) : rows.any f = es.any g := by
  induction h with
  | nil => rfl
  | @cons q rec es rows hR _ ih =>
    rw [List.any_cons, List.any_cons, hfg q (by simp) rec hR, ih fun q hq => hfg q (by simp [hq])]

theorem filter_rows' {es : List (RegionTrace × Row)} {rows : List Record} (h : RowsOf es rows)
    {P : RegionTrace × Row → Bool} {Q : Record → Bool}
    (hPQ : ∀ p ∈ es, ∀ rec : Record, RowOf p.1 p.2 rec → P p = Q rec) :
    RowsOf (es.filter P) (rows.filter Q) := by
  induction h with
  | nil => exact List.Forall₂.nil
  | @cons p rec es rows hR _ ih =>
    rw [List.filter_cons, List.filter_cons, hPQ p (by simp) rec hR]
    split
    · exact List.Forall₂.cons hR (ih fun p hp => hPQ p (by simp [hp]))
    · exact ih fun p hp => hPQ p (by simp [hp])

theorem countP_or {α : Type} {a b : α → Bool} {l : List α} (h : ∀ x ∈ l, a x = true → b x = false) :
    l.countP (fun x => a x || b x) = l.countP b + l.countP a := by
  induction l with
  | nil => rfl
  | cons x l ih =>
    rw [List.countP_cons, List.countP_cons, List.countP_cons, ih fun y hy => h y (by simp [hy])]
    have := h x (by simp)
    cases ha : a x <;> cases hb : b x <;> simp_all <;> omega

theorem accuracy_ok (py : Py) {fs gs : List RegionTrace} {rank : ℤ} {es : List (RegionTrace × Row)}
    {opt : List Record} (hopt : RowsOf es opt) (hes : ∀ p ∈ es, p.1.Kept py)
    (hch : Chosen fs rank (es.map conv)) (hne : gs ≠ []) (h : ∀ F ∈ gs, F.Wellformed ∧ F.Kept py)
    (trained : Text) :
    accuracy (concat (gs.map (frameOf py))) rank opt trained =
      .ok (accuracyOf (es.map conv) (hitsOf rank trained gs)) := by
  have hd := chosen_apart hch
  have hsel : RowsOf ((execs gs).filter fun p => decide (p.1.rank = rank) && decide (trained <:+: p.1.model))
      ((concat (gs.map (frameOf py))).rows.filter fun row =>
        decide (numOf (row "rankid".toList) = some (rank : ℚ)) &&
        (match row "training".toList with | .str s => decide (trained <:+: s) | _ => false)) := by
    refine filter_rows (concat_files py h) fun p rec hR => ?_
    rw [hR.rank, hR.training]
    simp [numOf]
  have hhits : hitsOf rank trained gs = ((execs gs).filter fun p =>
      decide (p.1.rank = rank) && decide (trained <:+: p.1.model)).map conv := by
    unfold hitsOf
    rw [ranOn_eq]
  have hmem : ∀ p ∈ (execs gs).filter (fun p => decide (p.1.rank = rank) && decide (trained <:+: p.1.model)),
      p.1.Kept py := fun p hp => (h _ (mem_execs (List.mem_of_mem_filter hp)).1).2
  unfold accuracy
  rw [if_pos]
  · simp only
    generalize (concat (gs.map (frameOf py))).rows.filter _ = rows at hsel
    rw [hhits]
    generalize (execs gs).filter _ = hs at hsel hmem
    have hm : RowsOf (hs.filter fun p => agrees (es.map conv) (conv p)) (rows.filter (matchesOpt opt)) :=
      filter_rows hsel fun p rec hR => (matchesOpt_eq hopt hd hR).symm
    have hany : ∀ p ∈ hs, ∀ rec, RowOf p.1 p.2 rec →
        ((hs.filter fun p => agrees (es.map conv) (conv p)).any fun q => samePlace (conv q) (conv p)) =
          ((rows.filter (matchesOpt opt)).any fun row' => sameIndex row' rec) := by
      intro p _ rec hR
      exact (rowsOf_any hm fun q _ rec' hR' => sameIndex_eq hR' hR).symm
    have hr : RowsOf (hs.filter fun p => !((hs.filter fun p => agrees (es.map conv) (conv p)).any
        fun q => samePlace (conv q) (conv p)))
        (rows.filter fun row => !((rows.filter (matchesOpt opt)).any fun row' => sameIndex row' row)) :=
      filter_rows' hsel fun p hp rec hR => by rw [hany p hp rec hR]
    have hn : RowsOf ((hs.filter fun p => !((hs.filter fun p => agrees (es.map conv) (conv p)).any
        fun q => samePlace (conv q) (conv p))).filter fun p => near (es.map conv) (conv p))
        ((rows.filter fun row => !((rows.filter (matchesOpt opt)).any
          fun row' => sameIndex row' row)).filter (nearOpt opt)) :=
      filter_rows' hr fun p hp rec hR =>
        (nearOpt_eq (py := py) hopt hd hes (hmem p (List.mem_of_mem_filter hp)) hR).symm
    rw [← hm.length_eq, ← hn.length_eq, ← hsel.length_eq]
    unfold accuracyOf
    have e1 : (hs.map conv).countP (agrees (es.map conv)) =
        (hs.filter fun p => agrees (es.map conv) (conv p)).length := by
      rw [List.countP_map, List.countP_eq_length_filter]
      rfl
    have e3 : ∀ p : RegionTrace × Row, ((hs.map conv).any fun q => agrees (es.map conv) q &&
        samePlace q (conv p)) = ((hs.filter fun p => agrees (es.map conv) (conv p)).any
          fun q => samePlace (conv q) (conv p)) := by
      intro p
      rw [List.any_map, List.any_filter]
      rfl
    have e2 : (hs.map conv).countP (fun p => agrees (es.map conv) p || near (es.map conv) p &&
        !(hs.map conv).any fun q => agrees (es.map conv) q && samePlace q p) =
        ((hs.filter fun p => !((hs.filter fun p => agrees (es.map conv) (conv p)).any
          fun q => samePlace (conv q) (conv p))).filter fun p => near (es.map conv) (conv p)).length +
          (hs.filter fun p => agrees (es.map conv) (conv p)).length := by
      rw [countP_or, e1]
      · congr 1
        rw [List.countP_map, List.countP_eq_length_filter, List.filter_filter]
        congr 1
        refine List.filter_congr fun p _ => ?_
        simp only [Function.comp_apply]
        rw [e3]
      · intro x hx hax
        rw [Bool.and_eq_false_iff]
        right
        rw [Bool.not_eq_false', List.any_eq_true]
        exact ⟨x, hx, by rw [hax]; simp [samePlace]⟩
    rw [e1, List.length_map]
    congr 3
    split_ifs with hlt
    · exact e2.symm
    · -- all agree
      have hall : (hs.map conv).countP (agrees (es.map conv)) = (hs.map conv).length := by
        rw [e1, List.length_map]
        have := List.length_filter_le (fun p => agrees (es.map conv) (conv p)) hs
        omega
      rw [← e1]
      rw [List.countP_eq_length] at hall
      have h2 : (hs.map conv).countP (fun p => agrees (es.map conv) p || near (es.map conv) p &&
          !(hs.map conv).any fun q => agrees (es.map conv) q && samePlace q p) = (hs.map conv).length := by
        rw [List.countP_eq_length]
        intro p hp
        rw [hall p hp, Bool.true_or]
      rw [h2, List.countP_eq_length]
      exact hall
  · refine ⟨?_, ?_, ?_, ?_, ?_, ?_⟩
    · exact concat_cols_mem py hne fun n => mem_headerColumns.2 (Or.inl (by decide))
    · exact concat_cols_mem py hne fun n => mem_headerColumns.2 (Or.inl (by decide))
    · exact concat_cols_mem py hne fun n => mem_headerColumns.2 (Or.inl (by decide))
    · exact concat_cols_mem py hne fun n => mem_headerColumns.2 (Or.inl (by decide))
    · exact concat_cols_mem py hne fun n => mem_headerColumns.2 (Or.inr (Or.inl (by decide)))
    · exact concat_cols_mem py hne fun n => mem_headerColumns.2 (Or.inr (Or.inl (by decide)))

/-! ## The report -/

/-- The tables of traces. -/
def _root_.Apollo.Spec.Runs.texts (runs : Runs) : Traces where
  static := runs.static.map (·.map RegionTrace.text)
  rr := runs.rr.map (·.map RegionTrace.text)
  random := runs.random.map (·.map RegionTrace.text)
  load := runs.load.map (·.map RegionTrace.text)
  opt := runs.opt.map (·.map RegionTrace.text)

theorem readOption_ok {py : Py} {o : Option (List RegionTrace)} (h : ∀ fs ∈ o, Readable py fs) :
    py.readOption (o.map (·.map RegionTrace.text)) =
      .ok (o.map fun fs => concat (fs.map (frameOf py))) := by
  cases o with
  | none => rfl
  | some fs =>
    obtain ⟨h1, h2⟩ := h fs rfl
    simp only [Option.map_some, Py.readOption, readTracefiles_text py h1 fun F hF => (h2 F hF).1,
      Res.bind_ok]

theorem executionTime_ok {py : Py} (sum : List ℚ → ℚ) {fs : List RegionTrace} (h : Readable py fs)
    (rank : ℤ) (init : Text) (trained : Option Text) :
    executionTime sum (concat (fs.map (frameOf py))) rank init trained =
      .ok (sum (modelTimes fs rank init), trained.map fun t => sum (modelTimes fs rank t)) := by
  cases trained <;>
    simp only [executionTime, timesOf_ok py h.1 h.2, Res.bind_ok, Option.map_none, Option.map_some]

theorem optionTime_ok {py : Py} (sum : List ℚ → ℚ) {o : Option (List RegionTrace)}
    (h : ∀ fs ∈ o, Readable py fs) (rank : ℤ) (init : Text) (trained : Option Text) :
    optionTime sum (o.map fun fs => concat (fs.map (frameOf py))) rank init trained =
      .ok (o.toList.map fun fs => (init, sum (modelTimes fs rank init),
        trained.map fun t => sum (modelTimes fs rank t))) := by
  cases o with
  | none => rfl
  | some fs =>
    simp only [Option.map_some, optionTime, executionTime_ok sum (h fs rfl), Res.bind_ok]
    rfl

theorem optionAccuracy_ok {py : Py} {fs : List RegionTrace} {rank : ℤ} {es : List (RegionTrace × Row)}
    {opt : List Record} (hopt : RowsOf es opt) (hes : ∀ p ∈ es, p.1.Kept py)
    (hch : Chosen fs rank (es.map conv)) {o : Option (List RegionTrace)} (h : ∀ gs ∈ o, Readable py gs)
    (init trained : Text) :
    optionAccuracy (o.map fun fs => concat (fs.map (frameOf py))) rank opt init trained =
      .ok (o.toList.map fun gs => (init, accuracyOf (es.map conv) (hitsOf rank trained gs))) := by
  cases o with
  | none => rfl
  | some gs =>
    simp only [Option.map_some, optionAccuracy, accuracy_ok py hopt hes hch (h gs rfl).1 (h gs rfl).2,
      Res.bind_ok]
    rfl

theorem staticName_inj {i j : ℕ} (h : staticName i = staticName j) : i = j := by
  have h1 := congrArg intValue (List.append_cancel_left h)
  rw [intValue_fmtInt, intValue_fmtInt] at h1
  exact_mod_cast h1

theorem lookup_static {α : Type} (f : ℕ → α) (n j : ℕ) (hj : j < n) :
    ((List.range n).map fun k => (staticName k, f k)).lookup (staticName j) = some (f j) := by
  induction n with
  | zero => omega
  | succ n ih =>
    rw [List.range_succ, List.map_append, List.map_singleton, List.lookup_append]
    by_cases h : j < n
    · rw [ih h]; rfl
    · have : j = n := by omega
      subst this
      have hnone : ((List.range j).map fun k => (staticName k, f k)).lookup (staticName j) = none := by
        rw [List.lookup_eq_none_iff]
        intro p hp
        obtain ⟨k, hk, rfl⟩ := List.mem_map.1 hp
        rw [List.mem_range] at hk
        have : staticName j ≠ staticName k := fun e => by have := staticName_inj e; omega
        simpa using this
      rw [hnone]
      simp [List.lookup]

theorem minTime_ok (times : ℕ → ℚ) {n : ℕ} (hn : 0 < n) :
    ∃ j, FirstFastest times n j ∧
      minTime ((List.range n).map fun k => (staticName k, times k)) = .ok (staticName j) := by
  obtain ⟨pre, x, post, e, h1, h2, h3⟩ := idxmin_spec (l := (List.range n).map times) (by
    intro hc
    have := congrArg List.length hc
    simp at this
    omega)
  have hlen := congrArg List.length e
  simp only [List.length_map, List.length_range, List.length_append, List.length_cons] at hlen
  have hget : ∀ k < n, (pre ++ x :: post)[k]? = some (times k) := by
    intro k hk
    rw [← e]
    simp [hk]
  have hx : x = times pre.length := by
    have := hget pre.length (by omega)
    simpa using this
  refine ⟨pre.length, ⟨by omega, ?_⟩, ?_⟩
  · intro k hk
    have hk' := hget k hk
    rcases lt_trichotomy k pre.length with hlt | rfl | hgt
    · rw [List.getElem?_append_left hlt] at hk'
      have := h2 _ (List.mem_of_getElem? hk')
      rw [hx] at this
      exact ⟨le_of_lt this, fun _ => this⟩
    · exact ⟨le_refl _, fun h => absurd h (lt_irrefl _)⟩
    · rw [List.getElem?_append_right (by omega)] at hk'
      obtain ⟨m, hm⟩ : ∃ m, k - pre.length = m + 1 := ⟨k - pre.length - 1, by omega⟩
      rw [hm, List.getElem?_cons_succ] at hk'
      have := h3 _ (List.mem_of_getElem? hk')
      rw [hx] at this
      exact ⟨this, fun h => absurd h (by omega)⟩
  · obtain ⟨m, rfl⟩ : ∃ m, n = m + 1 := ⟨n - 1, by omega⟩
    have hi : idxmin (((List.range (m + 1)).map fun k => (staticName k, times k)).map Prod.snd) =
        pre.length := by
      rw [h1, List.map_map]
      rfl
    have hcons : ∃ a l, ((List.range (m + 1)).map fun k => (staticName k, times k)) = a :: l := by
      rw [List.range_succ_eq_map]
      exact ⟨_, _, rfl⟩
    obtain ⟨a, l, hal⟩ := hcons
    have hg : ((List.range (m + 1)).map fun k => (staticName k, times k))[pre.length]? =
        some (staticName pre.length, times pre.length) := by
      rw [List.getElem?_map, List.getElem?_range (by omega)]
      rfl
    rw [hal] at hi hg ⊢
    simp only [minTime, hi, List.getD_eq_getElem?_getD, hg, Option.getD_some]

theorem speedup_ok (sum : List ℚ → ℚ) (times : ℕ → ℚ) {n j : ℕ} (hj : j < n) (x : ℚ) :
    speedup sum ((List.range n).map fun k => (staticName k, times k, none)) (staticName j) x =
      if x = 0 then .error .throw else .ok (rnd64 (times 0 / x), rnd64 (times j / x)) := by
  simp only [speedup, lookup_static (fun k => (times k, (none : Option ℚ))) n 0 (by omega),
    lookup_static (fun k => (times k, (none : Option ℚ))) n j hj, total, quotient]
  split_ifs <;> rfl

theorem optionSpeedup_ok (sum : List ℚ → ℚ) (times : ℕ → ℚ) {n j : ℕ} (hj : j < n)
    (l : List (Text × ℚ × Option ℚ)) :
    optionSpeedup sum ((List.range n).map fun k => (staticName k, times k, none)) (staticName j) l =
      if ∃ e ∈ l, entryTime sum e = 0 then .error .throw
      else .ok (l.map fun e => (e.1, rnd64 (times 0 / entryTime sum e), rnd64 (times j / entryTime sum e))) := by
  induction l with
  | nil => simp [optionSpeedup]
  | cons e l ih =>
    obtain ⟨k, t⟩ := e
    have ht : total sum t = entryTime sum (k, t) := by
      obtain ⟨a, b⟩ := t
      cases b <;> rfl
    simp only [optionSpeedup, ht, speedup_ok sum times hj, ih]
    by_cases h1 : entryTime sum (k, t) = 0
    · have hc : ∃ e ∈ (k, t) :: l, entryTime sum e = 0 := ⟨_, by simp, h1⟩
      rw [if_pos h1, if_pos hc]
      rfl
    · rw [if_neg h1, Res.bind_ok]
      by_cases h2 : ∃ e ∈ l, entryTime sum e = 0
      · obtain ⟨e, he, h2'⟩ := h2
        rw [if_pos ⟨e, he, h2'⟩, if_pos ⟨e, by simp [he], h2'⟩]
        rfl
      · rw [if_neg h2, Res.bind_ok, if_neg]
        · rfl
        · rintro ⟨e, he, h3⟩
          rcases List.mem_cons.1 he with rfl | he
          · exact h1 h3
          · exact h2 ⟨e, he, h3⟩

theorem mapM_ok {α β : Type} (f : α → β) (g : α → Res β) (l : List α) (h : ∀ a ∈ l, g a = .ok (f a)) :
    l.mapM g = .ok (l.map f) := by
  induction l with
  | nil => rfl
  | cons a l ih =>
    rw [List.mapM_cons, h a (by simp), ih fun b hb => h b (by simp [hb])]
    rfl

theorem optimalName_inj' {rank : ℤ} {r r' : Text} (h : optimalName rank r = optimalName rank r') :
    r = r' := by
  unfold optimalName at h
  simp only [List.append_assoc] at h
  exact List.append_cancel_right (List.append_cancel_left h)

/-- The whole report. -/
theorem report_ok (py : Py) {order : List ℚ → List ℕ} (ho : Orders order) (sum : List ℚ → ℚ) {runs : Runs}
    (hs : Readable py runs.static.flatten) (hrr : ∀ fs ∈ runs.rr, Readable py fs)
    (hrandom : ∀ fs ∈ runs.random, Readable py fs) (hload : ∀ fs ∈ runs.load, Readable py fs)
    (hopt : ∀ fs ∈ runs.opt, Readable py fs) (rank : ℤ) :
    ∃ ch j, Chosen runs.static.flatten rank ch ∧
      FirstFastest (staticTime sum runs.static.flatten rank) runs.static.length j ∧
      py.report order sum runs.texts rank =
        (if ∃ d ∈ denominators sum runs rank ch, d.2 = 0 then .error .throw
        else .ok ⟨reportEntries sum runs rank, sum (ch.map fun p => p.2.metric), "Static,".toList ++ fmtInt j,
          (denominators sum runs rank ch).map fun d => (d.1,
            rnd64 (staticTime sum runs.static.flatten rank 0 / d.2),
            rnd64 (staticTime sum runs.static.flatten rank j / d.2)),
          accuracies runs rank ch⟩) ∧
      ∃ out, py.writeOpt order (runs.static.flatten.map RegionTrace.text) rank = .ok out ∧
        ∀ r text, (optimalName rank r, text) ∈ out → text =
          [','].intercalate ((ch.filter fun p => decide (p.1 = r)).map fun p => fmtInt p.2.policy) := by
  obtain ⟨es, rows, t1, t2, t3, t4, es0, rows0, z1, z2, z3, z4⟩ := optimalTable_ok py ho hs.1 hs.2 rank
  have hn : 0 < runs.static.length := by
    rcases hr : runs.static with _ | ⟨a, l⟩
    · exact absurd (by rw [hr]; rfl) hs.1
    · simp
  obtain ⟨j, j1, j2⟩ := minTime_ok (staticTime sum runs.static.flatten rank) hn
  refine ⟨es.map conv, j, t4, j1, ?_, ?_⟩
  swap
  · obtain ⟨rs, u1, u2, -⟩ := regions_of_rows (data := ⟨[], rows0⟩) z2
    obtain ⟨out, o1, o2⟩ := mapM_res (f := fun r => py.optimalFile rows0 rank (.str r)) (l := rs)
      (R := fun r o => o.1 = optimalName rank r ∧ o.2 = [','].intercalate
        (((es.map conv).filter fun p => decide (p.1 = r)).map fun p => fmtInt p.2.policy)) (by
        intro r _
        obtain ⟨es3, q1, q2, q3⟩ := optimalPolicies_ok py z2 z3 r
        refine ⟨_, by simp only [Py.optimalFile, q3, Res.bind_ok]; rfl, rfl, ?_⟩
        rw [ofRegion_sorted z4 t4.sorted q1 q2, List.filter_map, List.map_map]
        rfl)
    refine ⟨out, ?_, ?_⟩
    · unfold Py.writeOpt
      rw [readTracefiles_text py hs.1 fun F hF => (hs.2 F hF).1]
      simp only [Res.bind_ok, z1]
      rw [u1, List.mapM_map]
      exact o1
    · intro r text hm
      obtain ⟨r', -, e1, e2⟩ := forall₂_right o2 hm
      simp only at e1 e2
      rw [e2, optimalName_inj' e1]
  have hes : ∀ p ∈ es, p.1.Kept py := fun p hp => (hs.2 _ (t3 p hp)).2
  have hread : py.readTracefiles runs.texts.static.flatten =
      .ok (concat (runs.static.flatten.map (frameOf py))) := by
    show py.readTracefiles (runs.static.map (·.map RegionTrace.text)).flatten = _
    rw [← List.map_flatten, readTracefiles_text py hs.1 fun F hF => (hs.2 F hF).1]
  have hstat : (List.range runs.texts.static.length).mapM (fun j => do
      let t ← executionTime sum (concat (runs.static.flatten.map (frameOf py))) rank (staticName j) none
      (.ok (staticName j, t) : Res _)) = .ok ((List.range runs.static.length).map fun k =>
        (staticName k, staticTime sum runs.static.flatten rank k, none)) := by
    have hlen : runs.texts.static.length = runs.static.length := by simp [Runs.texts]
    rw [hlen]
    refine mapM_ok _ _ _ fun k _ => ?_
    rw [executionTime_ok sum hs]
    rfl
  have hxs := column_xtime (py := py) t2 hes
  have hmin : minTime (((List.range runs.static.length).map fun k =>
      (staticName k, staticTime sum runs.static.flatten rank k, (none : Option ℚ))).map
        fun e => (e.1, e.2.1)) = .ok (staticName j) := by
    rw [List.map_map]
    exact j2
  have hsum : (es.map conv).map (fun p => p.2.metric) = es.map fun p => p.2.metric := by
    rw [List.map_map]
    rfl
  have o1 : optionTime sum (runs.rr.map fun fs => concat (fs.map (frameOf py))) rank "RoundRobin".toList
      (some "DecisionTree".toList) =
      .ok (runs.rr.toList.map (trainedEntry sum rank "RoundRobin".toList)) := optionTime_ok sum hrr _ _ _
  have o2 : optionTime sum (runs.random.map fun fs => concat (fs.map (frameOf py))) rank "Random".toList
      (some "DecisionTree".toList) =
      .ok (runs.random.toList.map (trainedEntry sum rank "Random".toList)) := optionTime_ok sum hrandom _ _ _
  have o3 : optionTime sum (runs.load.map fun fs => concat (fs.map (frameOf py))) rank "Load".toList none =
      .ok (runs.load.toList.map (plainEntry sum rank "Load".toList)) := optionTime_ok sum hload _ _ _
  have o4 : optionTime sum (runs.opt.map fun fs => concat (fs.map (frameOf py))) rank "Optimal".toList none =
      .ok (runs.opt.toList.map (plainEntry sum rank "Optimal".toList)) := optionTime_ok sum hopt _ _ _
  unfold Py.report
  simp only [hread, Res.bind_ok, show runs.texts.rr = runs.rr.map (·.map RegionTrace.text) from rfl,
    show runs.texts.random = runs.random.map (·.map RegionTrace.text) from rfl,
    show runs.texts.load = runs.load.map (·.map RegionTrace.text) from rfl,
    show runs.texts.opt = runs.opt.map (·.map RegionTrace.text) from rfl,
    readOption_ok hrr, readOption_ok hrandom, readOption_ok hload, readOption_ok hopt, hstat,
    o1, o2, o3, o4, t1, hxs,
    hmin, speedup_ok sum (staticTime sum runs.static.flatten rank) j1.1,
    optionSpeedup_ok sum (staticTime sum runs.static.flatten rank) j1.1,
    optionAccuracy_ok t2 hes t4 hrr, optionAccuracy_ok t2 hes t4 hrandom, optionAccuracy_ok t2 hes t4 hload,
    optionAccuracy_ok t2 hes t4 hopt]
  have hden : denominators sum runs rank (es.map conv) =
      ("Opt".toList, sum (es.map fun p => p.2.metric)) ::
      ((runs.rr.toList.map (trainedEntry sum rank "RoundRobin".toList)) ++
      (runs.random.toList.map (trainedEntry sum rank "Random".toList))).map
        fun e => (e.1, entryTime sum e) := by
    unfold denominators
    rw [hsum]
  rw [hden, hsum]
  by_cases h0 : sum (es.map fun p => p.2.metric) = 0
  · have hc : ∃ d ∈ ("Opt".toList, sum (es.map fun p => p.2.metric)) ::
        ((runs.rr.toList.map (trainedEntry sum rank "RoundRobin".toList)) ++
        (runs.random.toList.map (trainedEntry sum rank "Random".toList))).map
          (fun e => (e.1, entryTime sum e)), d.2 = 0 := ⟨_, List.mem_cons_self, h0⟩
    rw [if_pos h0, if_pos hc]
    rfl
  · rw [if_neg h0, Res.bind_ok]
    by_cases h1 : ∃ e ∈ (runs.rr.toList.map (trainedEntry sum rank "RoundRobin".toList)) ++
        (runs.random.toList.map (trainedEntry sum rank "Random".toList)), entryTime sum e = 0
    · rw [if_pos h1, if_pos]
      · rfl
      · obtain ⟨e, he, h1⟩ := h1
        exact ⟨(e.1, entryTime sum e), List.mem_cons_of_mem _ (List.mem_map.2 ⟨e, he, rfl⟩), h1⟩
    · rw [if_neg h1, Res.bind_ok, if_neg]
      · unfold reportEntries accuracies
        rw [List.map_cons, List.map_map]
        rfl
      · rintro ⟨d, hd, h2⟩
        rcases List.mem_cons.1 hd with rfl | hd
        · exact h0 h2
        · obtain ⟨e, he, rfl⟩ := List.mem_map.1 hd
          exact h1 ⟨e, he, h2⟩

end Apollo.Scripts
