import Verif.Model.RegionPlot
import Verif.Spec.RegionPlot
import Verif.Proofs.AnalyzePlot

/-!
# Proofs about the pictures of the regions
-/

namespace Apollo.Scripts

open Apollo.Spec

/-! ## Values in ascending order -/

section

variable {α β : Type} [LinearOrder α] [LinearOrder β]

theorem mem_ascend {l : List α} {x : α} : x ∈ ascend l ↔ x ∈ l := by
  rw [ascend, (List.perm_insertionSort _ _).mem_iff, List.mem_dedup]

theorem ascend_sorted (l : List α) : (ascend l).Pairwise (· < ·) := by
  have h1 : (ascend l).Pairwise (· ≤ ·) := List.pairwise_insertionSort _ _
  have h2 : (ascend l).Nodup := ((List.perm_insertionSort _ _).nodup_iff).2 (List.nodup_dedup l)
  exact (List.pairwise_and_iff.2 ⟨h1, h2⟩).imp fun h => lt_of_le_of_ne h.1 h.2

theorem ascending_unique {l m : List α} (hl : l.Pairwise (· < ·)) (hm : m.Pairwise (· < ·))
    (h : ∀ x, x ∈ l ↔ x ∈ m) : l = m :=
  List.Perm.eq_of_pairwise' (r := (· < ·)) hl hm
    ((List.perm_ext_iff_of_nodup (hl.imp fun h => ne_of_lt h) (hm.imp fun h => ne_of_lt h)).2 h)

theorem ascend_map {g : α → β} {l : List α} (hg : ∀ a ∈ l, ∀ b ∈ l, a < b → g a < g b) :
    ascend (l.map g) = (ascend l).map g := by
  refine ascending_unique (ascend_sorted _) ?_ fun x => ?_
  · rw [List.pairwise_map]
    exact (ascend_sorted l).imp_of_mem fun ha hb hab => hg _ (mem_ascend.1 ha) _ (mem_ascend.1 hb) hab
  · rw [mem_ascend, List.mem_map, List.mem_map]
    simp only [mem_ascend]

end

theorem map_lt_map {g : ℚ → ℚ} : ∀ {a b : List ℚ}, a.length = b.length →
    (∀ x ∈ a, ∀ y ∈ b, x < y → g x < g y) → a < b → a.map g < b.map g
  | [], [], _, _, h => absurd h (lt_irrefl _)
  | [], _ :: _, hl, _, _ => by simp at hl
  | _ :: _, [], hl, _, _ => by simp at hl
  | x :: a, y :: b, hl, hg, h => by
    rw [List.map_cons, List.map_cons, List.cons_lt_cons_iff]
    rcases List.cons_lt_cons_iff.1 h with h' | ⟨e, h'⟩
    · exact Or.inl (hg _ List.mem_cons_self _ List.mem_cons_self h')
    · exact Or.inr ⟨by rw [e], map_lt_map (by simpa using hl)
        (fun u hu v hv => hg u (List.mem_cons_of_mem _ hu) v (List.mem_cons_of_mem _ hv)) h'⟩

/-! ## The table of means -/

theorem pivot_shows (py : Py) {js : List ℕ} {es : List (Text × Row)}
    (hg : ∀ a ∈ es.map (fun e => inOrder js e.2), ∀ b ∈ es.map (fun e => inOrder js e.2),
      a < b → a.map shownAs < b.map shownAs) :
    ShowsMeans py.mean js es
      (py.pivot (es.map fun e => ((inOrder js e.2).map shownAs, e.1, e.2.metric))) := by
  have e1 : (es.map fun e => ((inOrder js e.2).map shownAs, e.1, e.2.metric)).map Prod.fst =
      (es.map fun e => inOrder js e.2).map (List.map shownAs) := by
    rw [List.map_map, List.map_map]; rfl
  refine ⟨ascend_sorted _, fun m => ?_, ascend (es.map fun e => inOrder js e.2), ascend_sorted _,
    fun v => ?_, ?_⟩
  · show m ∈ ascend _ ↔ _
    simp [mem_ascend]
  · simp [mem_ascend]
  · show List.Forall₂ _ _ (List.map _ (ascend _))
    rw [e1, ascend_map hg, List.map_map]
    refine forall₂_map fun v hv => ⟨rfl, forall₂_map fun m _ => ?_⟩
    have hv := mem_ascend.1 hv
    have key : ((es.map fun e => ((inOrder js e.2).map shownAs, e.1, e.2.metric)).filter fun x =>
        decide (x.1 = v.map shownAs ∧ x.2.1 = m)).map (fun x => x.2.2) = timesFor es js v m := by
      unfold timesFor
      rw [List.filter_map, List.map_map]
      congr 1
      refine List.filter_congr fun e he => ?_
      have he' := List.mem_map_of_mem (f := fun e : Text × Row => inOrder js e.2) he
      have hinj : (inOrder js e.2).map shownAs = v.map shownAs ↔ inOrder js e.2 = v := by
        refine ⟨fun h => ?_, fun h => by rw [h]⟩
        rcases lt_trichotomy (inOrder js e.2) v with hlt | h0 | hlt
        · exact absurd h (ne_of_lt (hg _ he' _ hv hlt))
        · exact h0
        · exact absurd h.symm (ne_of_lt (hg _ hv _ he' hlt))
      simp only [Function.comp_apply, hinj]
    show HasHeight _ _ (py.pivotMean _ (v.map shownAs) m)
    unfold Py.pivotMean
    simp only [key]
    exact ⟨fun h => if_pos h, fun h => if_neg h⟩

/-! ## The rows of a region -/

theorem ranIn_eq (fs : List RegionTrace) (r : Text) :
    ranIn fs r = (ofRegion (execs fs) r).map fun p => (p.1.model, p.2) := by
  unfold ranIn ofRegion execs
  rw [List.filter_flatMap, List.map_flatMap]
  refine congrArg List.flatten (List.map_congr_left fun F _ => ?_)
  rw [List.filter_map, List.map_map]
  by_cases h : F.region = r
  · rw [if_pos h, List.filter_eq_self.2 fun x _ => by simp [h]]
    rfl
  · rw [if_neg h, List.filter_eq_nil_iff.2 fun x _ => by simp [h]]
    rfl

theorem mapM_some {α β : Type} {f : α → Option β} {g : α → β} {l : List α} (h : ∀ x ∈ l, f x = some (g x)) :
    l.mapM f = some (l.map g) := by
  induction l with
  | nil => rfl
  | cons x l ih =>
    rw [List.mapM_cons, h x List.mem_cons_self, ih fun y hy => h y (List.mem_cons_of_mem _ hy)]
    rfl

theorem pivotRow_ok {F : RegionTrace} {x : Row} {rec : Record} (h : RowOf F x rec) (hk : Keeps64 x.metric)
    {js : List ℕ} (hj : ∀ j ∈ js, j < F.nf) :
    pivotRow (js.map fcol) rec = .ok ((inOrder js x).map shownAs, F.model, x.metric) := by
  have h1 : keyOf (js.map fcol) rec = .ok ((inOrder js x).map shownAs) := by
    unfold keyOf
    rw [List.mapM_map, mapM_some (f := (fun c => numOf (rec c)) ∘ fcol)
      (g := fun j => shownAs (x.features.getD j 0)) fun j hj' => (h.feats j (hj j hj')).num]
    simp only [inOrder, List.map_map]
    rfl
  have h2 : numOf (rec "xtime".toList) = some x.metric := by
    rw [h.xtime.num, hk.eq]
  unfold pivotRow
  rw [h1, Res.bind_ok, h.training, h2]

theorem pivotRows_ok {es : List (RegionTrace × Row)} {rows : List Record} (h : RowsOf es rows)
    (hk : ∀ p ∈ es, Keeps64 p.2.metric) {js : List ℕ} (hj : ∀ p ∈ es, ∀ j ∈ js, j < p.1.nf) :
    rows.mapM (pivotRow (js.map fcol)) =
      .ok (es.map fun p => ((inOrder js p.2).map shownAs, p.1.model, p.2.metric)) := by
  induction h with
  | nil => rfl
  | @cons p rec es rows h1 _ ih =>
    rw [List.mapM_cons, pivotRow_ok h1 (hk p List.mem_cons_self) (hj p List.mem_cons_self), Res.bind_ok,
      ih (fun q hq => hk q (List.mem_cons_of_mem _ hq)) fun q hq => hj q (List.mem_cons_of_mem _ hq)]
    rfl

/-! ## The columns of a region -/

theorem fold_unionCols_mem {acc : List Text} {ls : List (List Text)} {c : Text}
    (h : c ∈ acc ∨ ∃ l ∈ ls, c ∈ l) : c ∈ ls.foldl unionCols acc := by
  induction ls generalizing acc with
  | nil => simpa using h
  | cons l ls ih =>
    rw [List.foldl_cons]
    refine ih ?_
    rcases h with h | ⟨l', hl', h⟩
    · exact Or.inl (List.mem_append_left _ h)
    · rcases List.mem_cons.1 hl' with rfl | hl'
      · left
        by_cases hc : c ∈ acc
        · exact List.mem_append_left _ hc
        · exact List.mem_append_right _ (List.mem_filter.2 ⟨h, by simpa using hc⟩)
      · exact Or.inr ⟨l', hl', h⟩

theorem fold_unionCols_nodup {acc : List Text} {ls : List (List Text)} (ha : acc.Nodup)
    (hl : ∀ l ∈ ls, l.Nodup) : (ls.foldl unionCols acc).Nodup := by
  induction ls generalizing acc with
  | nil => exact ha
  | cons l ls ih =>
    rw [List.foldl_cons]
    refine ih ?_ fun l' h' => hl l' (List.mem_cons_of_mem _ h')
    unfold unionCols
    rw [List.nodup_append]
    refine ⟨ha, (hl l List.mem_cons_self).filter _, ?_⟩
    rintro a h1 b h2 rfl
    have := (List.mem_filter.1 h2).2
    simp [h1] at this

theorem startsF_header {n : ℕ} {c : Text} (hc : c ∈ Spec.headerColumns n) :
    startsF c = true ↔ ∃ i < n, c = fcol i := by
  constructor
  · intro hs
    rcases mem_headerColumns.1 hc with h | h | h
    · have key : ∀ w ∈ ["rankid".toList, "training".toList, "region".toList, "idx".toList],
        startsF w = false := by decide
      rw [key c h] at hs
      cases hs
    · have key : ∀ w ∈ ["policy".toList, "xtime".toList], startsF w = false := by decide
      rw [key c h] at hs
      cases hs
    · exact h
  · rintro ⟨i, -, rfl⟩
    rfl

/-- The columns that remain for a region are those of its trace files. -/
theorem region_columns (py : Py) {fs : List RegionTrace} (h : ∀ F ∈ fs, F.Wellformed ∧ F.Kept py) {r : Text}
    {n : ℕ} (hr : ofRegion (execs fs) r ≠ []) (hn : ∀ p ∈ ofRegion (execs fs) r, p.1.nf = n) :
    (((concat (fs.map (frameOf py))).select "region".toList (.str r)).dropna).cols.Nodup ∧
    ∀ c, c ∈ (((concat (fs.map (frameOf py))).select "region".toList (.str r)).dropna).cols ↔
      c ∈ Spec.headerColumns n := by
  have h1 := select_rows (concat_files py h) r
  have hcols : ((concat (fs.map (frameOf py))).select "region".toList (.str r)).cols =
      ((fs.map (frameOf py)).map Frame.cols).foldl unionCols [] := stack_cols _
  obtain ⟨p0, hp0⟩ := List.exists_mem_of_ne_nil _ hr
  unfold Frame.dropna
  simp only
  rw [hcols]
  refine ⟨(fold_unionCols_nodup List.nodup_nil ?_).filter _, fun c => ?_⟩
  · intro l hl
    rw [List.map_map] at hl
    obtain ⟨G, -, rfl⟩ := List.mem_map.1 hl
    exact nodup_headerColumns _
  · rw [List.mem_filter]
    constructor
    · rintro ⟨-, h2⟩
      by_contra hc
      obtain ⟨rec, hrec, hR⟩ := forall₂_left h1 hp0
      have := List.all_eq_true.1 h2 rec hrec
      rw [decide_eq_true_eq] at this
      exact this (hR.none c (by rw [hn p0 hp0]; exact hc))
    · intro hc
      refine ⟨fold_unionCols_mem (Or.inr ?_), ?_⟩
      · have hp := List.mem_of_mem_filter hp0
        obtain ⟨F, hF, hp⟩ := List.mem_flatMap.1 hp
        obtain ⟨x, -, rfl⟩ := List.mem_map.1 hp
        refine ⟨_, List.mem_map_of_mem (List.mem_map_of_mem hF), ?_⟩
        show c ∈ Spec.headerColumns F.nf
        rw [show F.nf = n from hn _ hp0]
        exact hc
      · rw [List.all_eq_true]
        intro rec hrec
        obtain ⟨p, hp, hR⟩ := forall₂_right h1 hrec
        rw [decide_eq_true_eq]
        exact hR.some c (by rw [hn p hp]; exact hc)

/-- The features, in some order. -/
theorem feature_columns {cols : List Text} {n : ℕ} (hc : cols.Nodup)
    (hm : ∀ c, c ∈ cols ↔ c ∈ Spec.headerColumns n) :
    ∃ js : List ℕ, js.Perm (List.range n) ∧ cols.filter startsF = js.map fcol := by
  have hp : (cols.filter startsF).Perm ((List.range n).map fcol) := by
    refine (List.perm_ext_iff_of_nodup (hc.filter _) (List.nodup_range.map fun i j h => fcol_inj h)).2 fun c => ?_
    rw [List.mem_filter, hm, List.mem_map]
    constructor
    · rintro ⟨h1, h2⟩
      obtain ⟨i, hi, rfl⟩ := (startsF_header h1).1 h2
      exact ⟨i, List.mem_range.2 hi, rfl⟩
    · rintro ⟨i, hi, rfl⟩
      exact ⟨fcol_mem.2 (List.mem_range.1 hi), rfl⟩
  have hinv : Function.LeftInverse (Function.invFun fcol) fcol :=
    Function.leftInverse_invFun fun i j h => fcol_inj h
  refine ⟨(cols.filter startsF).map (Function.invFun fcol), ?_, ?_⟩
  · refine (hp.map _).trans (List.Perm.of_eq ?_)
    rw [List.map_map, hinv.id, List.map_id]
  · rw [List.map_map]
    refine (List.map_id _).symm.trans (List.map_congr_left fun c hcm => ?_)
    obtain ⟨i, -, rfl⟩ := List.mem_map.1 (hp.mem_iff.1 hcm)
    rw [Function.comp_apply, hinv i]
    rfl

/-! ## The picture of a region -/

theorem regionPicture_ok (py : Py) {arrange : List Text → List Text} (ha : ∀ l, (arrange l).Perm l)
    {fs : List RegionTrace} (h : ∀ F ∈ fs, F.Wellformed ∧ F.Kept py) {r : Text} {n : ℕ}
    (hr : ofRegion (execs fs) r ≠ []) (hn : ∀ p ∈ ofRegion (execs fs) r, p.1.nf = n) :
    ∃ js P, js.Perm (List.range n) ∧ ((∀ l, (arrange l).Pairwise (· ≤ ·)) → ByName js) ∧
      py.regionPicture arrange (concat (fs.map (frameOf py))) (.str r) = .ok P ∧
      ShowsMeans py.mean js (ranIn fs r) P := by
  have h1 := select_rows (concat_files py h) r
  obtain ⟨hc, hm⟩ := region_columns py h hr hn
  have hp := ha (((concat (fs.map (frameOf py))).select "region".toList (.str r)).dropna).cols
  obtain ⟨js, hjs, hf⟩ := feature_columns (cols := arrange _) (hp.nodup_iff.2 hc)
    fun c => hp.mem_iff.trans (hm c)
  have hmem : ∀ p ∈ ofRegion (execs fs) r, p.1 ∈ fs ∧ p.2 ∈ p.1.rows := by
    intro p hp
    obtain ⟨F, hF, hp⟩ := List.mem_flatMap.1 (List.mem_of_mem_filter hp)
    obtain ⟨x, hx, rfl⟩ := List.mem_map.1 hp
    exact ⟨hF, hx⟩
  have hlt : ∀ j ∈ js, j < n := fun j hj => List.mem_range.1 (hjs.mem_iff.1 hj)
  refine ⟨js, py.pivot ((ofRegion (execs fs) r).map fun p =>
    ((inOrder js p.2).map shownAs, p.1.model, p.2.metric)), hjs, ?_, ?_, ?_⟩
  · intro hs
    have h2 := (hs (((concat (fs.map (frameOf py))).select "region".toList (.str r)).dropna).cols).filter startsF
    rw [hf, List.pairwise_map] at h2
    have h3 : js.Nodup := hjs.nodup_iff.2 List.nodup_range
    exact (List.pairwise_and_iff.2 ⟨h2, h3⟩).imp fun h =>
      lt_of_le_of_ne h.1 fun e => h.2 (fcol_inj e)
  · unfold Py.regionPicture
    simp only
    rw [if_neg, if_neg, hf]
    · have h2 : (((concat (fs.map (frameOf py))).select "region".toList (.str r)).dropna).rows =
        ((concat (fs.map (frameOf py))).select "region".toList (.str r)).rows := rfl
      rw [h2, pivotRows_ok h1 (fun p hp => ((h p.1 (hmem p hp).1).2 p.2 (hmem p hp).2).2.1)
        fun p hp j hj => by rw [hn p hp]; exact hlt j hj, Res.bind_ok]
    · rintro (h2 | h2) <;> exact h2 ((hm _).2 (mem_headerColumns.2 (by simp)))
    · intro h2
      have h3 : ((concat (fs.map (frameOf py))).select "region".toList (.str r)).rows = [] := h2
      rw [h3] at h1
      cases hes : ofRegion (execs fs) r with
      | nil => exact hr hes
      | cons p es => rw [hes] at h1; cases h1
  · rw [ranIn_eq]
    have e : (ofRegion (execs fs) r).map (fun p => ((inOrder js p.2).map shownAs, p.1.model, p.2.metric)) =
        ((ofRegion (execs fs) r).map fun p => (p.1.model, p.2)).map
          fun e => ((inOrder js e.2).map shownAs, e.1, e.2.metric) := by
      rw [List.map_map]; rfl
    rw [e]
    refine pivot_shows py ?_
    have hkept : ∀ a ∈ ((ofRegion (execs fs) r).map fun p => (p.1.model, p.2)).map
        (fun e : Text × Row => inOrder js e.2),
        a.length = js.length ∧ ∀ q ∈ a, Keeps32 q ∧ Reprints py (fmtG6 q) (round6 q) := by
      intro a ha
      rw [List.map_map] at ha
      obtain ⟨p, hp, rfl⟩ := List.mem_map.1 ha
      refine ⟨by simp [inOrder], fun q hq => ?_⟩
      obtain ⟨j, hj, rfl⟩ := List.mem_map.1 hq
      have hw := h p.1 (hmem p hp).1
      have hl : j < p.2.features.length := by
        rw [(hw.1.rows p.2 (hmem p hp).2).1, hn p hp]
        exact hlt j hj
      refine (hw.2 p.2 (hmem p hp).2).1 _ ?_
      rw [List.getD_eq_getElem?_getD, List.getElem?_eq_getElem hl, Option.getD_some]
      exact List.getElem_mem hl
    intro a ha' b hb hab
    obtain ⟨a1, a2⟩ := hkept a ha'
    obtain ⟨b1, b2⟩ := hkept b hb
    exact map_lt_map (a1.trans b1.symm) (fun x hx y hy hxy => asRead_mono (a2 x hx) (b2 y hy) hxy) hab

/-! ## The files -/

theorem canSave_region (dirs : Text → Bool) {r : Text} (h : '/' ∉ r) : canSave dirs (regionPictureName r) = true := by
  have : '/' ∉ regionPictureName r := by
    unfold regionPictureName
    simp only [List.mem_append, not_or]
    exact ⟨h, by decide +kernel⟩
  rw [canSave, folder, if_neg this]

theorem plotRegions_ok (py : Py) {arrange : List Text → List Text} (dirs : Text → Bool) {data : Frame}
    {P : Text → RegionPicture} : ∀ {rs : List Text},
    (∀ r ∈ rs, '/' ∉ r ∧ py.regionPicture arrange data (.str r) = .ok (P r)) →
    py.plotRegions arrange dirs data true (rs.map Cell.str) =
      (rs.map fun r => (regionPictureName r, P r), none)
  | [], _ => rfl
  | r :: rs, h => by
    have ih := plotRegions_ok py dirs fun r hr => h r (List.mem_cons_of_mem _ hr)
    obtain ⟨h1, h2⟩ := h r List.mem_cons_self
    simp only [List.map_cons, Py.plotRegions, h2, canSave_region dirs h1, ih]
    rfl

/-- All reports succeed: the pictures of all ranks, after each those of the regions. -/
theorem plotRanksAll_ok (py : Py) (order : List ℚ → List ℕ) (sum : List ℚ → ℚ) {arrange : List Text → List Text}
    {dirs : Text → Bool} {traces : Traces} {dir : Text} {data : Frame} (hd : canSave dirs (pictureName dir) = true)
    {more : List (Text × RegionPicture)}
    (hm : py.plotRegions arrange dirs data true (uniqueCells (data.rows.map (· "region".toList))) = (more, none))
    (rep : ℤ → Report) : ∀ {ranks : List ℤ},
    (∀ r ∈ ranks, py.report order sum traces r = .ok (rep r)) →
    py.plotRanksAll order sum arrange dirs traces dir true true data ranks =
      (ranks.flatMap fun r => (pictureName dir, .inl (rankPicture sum dir (rep r))) ::
        more.map fun p => (p.1, .inr p.2), none)
  | [], _ => rfl
  | r :: rs, h => by
    have ih := plotRanksAll_ok py order sum (traces := traces) hd hm rep (ranks := rs)
      fun r hr => h r (List.mem_cons_of_mem _ hr)
    rw [Py.plotRanksAll, h r List.mem_cons_self]
    simp only [hd, ih, hm]
    rfl

/-- Without `--plot2` the pictures are those of `plotRanks`. -/
theorem plotRanksAll_one (py : Py) (order : List ℚ → List ℕ) (sum : List ℚ → ℚ) (arrange : List Text → List Text)
    (dirs : Text → Bool) (traces : Traces) (dir : Text) (plot : Bool) (data : Frame) (regions : List Cell) :
    ∀ ranks : List ℤ, py.plotRanksAll order sum arrange dirs traces dir plot false data ranks =
      ((py.plotRanks order sum dirs traces dir plot false regions ranks).1.map fun p => (p.1, .inl p.2),
        (py.plotRanks order sum dirs traces dir plot false regions ranks).2)
  | [] => rfl
  | r :: rs => by
    have ih := plotRanksAll_one py order sum arrange dirs traces dir plot data regions rs
    rw [Py.plotRanksAll, Py.plotRanks]
    cases py.report order sum traces r with
    | error e => rfl
    | ok rep =>
      simp only [ih, Bool.false_and]
      by_cases hs : (plot && !canSave dirs (pictureName dir)) = true
      · simp [hs]
      · cases plot <;> simp [hs]

theorem leftIn_append_list {α : Type} (a b : List (Text × α)) (path : Text) :
    leftIn (a ++ b) path = (leftIn b path).or (leftIn a path) := by
  unfold leftIn
  rw [List.filter_append, List.map_append, List.getLast?_append]

theorem leftIn_none {α : Type} {l : List (Text × α)} {path : Text} (h : ∀ o ∈ l, o.1 ≠ path) :
    leftIn l path = none := by
  unfold leftIn
  rw [List.filter_eq_nil_iff.2 fun o ho => by simpa using h o ho]
  rfl

theorem leftIn_mem {α : Type} {l : List (Text × α)} (hn : (l.map Prod.fst).Nodup) {o : Text × α} (ho : o ∈ l) :
    leftIn l o.1 = some o.2 := by
  obtain ⟨a, b, rfl⟩ := List.append_of_mem ho
  rw [List.map_append, List.map_cons, List.nodup_append, List.nodup_cons] at hn
  have hb : leftIn b o.1 = none := leftIn_none fun p hp e =>
    hn.2.1.1 (e ▸ List.mem_map_of_mem hp)
  rw [show a ++ o :: b = (a ++ [(o.1, o.2)]) ++ b by simp, leftIn_append_list, hb, leftIn_append, if_pos rfl]
  rfl

end Apollo.Scripts
