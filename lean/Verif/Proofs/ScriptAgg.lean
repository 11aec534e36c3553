import Verif.Proofs.ScriptData

/-! Helper lemmas: the aggregations of create-dataset.py. -/

namespace Apollo.Scripts

open Apollo Apollo.Spec

/-! ## Numbers as keys -/

theorem Form.num {q : ℚ} {c : Cell} (h : Form q c) : numOf c = some (rnd64 (round6 q)) := by
  rcases h with ⟨v, rfl, e, hv⟩ | rfl
  · rw [← e, numOf, Dataset.rnd64_of_float64]
    exact ⟨v, 0, by
      have : (10 : ℤ) ^ 6 < 2 ^ 53 := by norm_num
      omega, by norm_num, by simp⟩
  · rfl

/-- The key of features. -/
def fkey (f : Features) : List ℚ := f.map fun q => rnd64 (round6 q)

theorem rnd64_round6_inj {a b : ℚ} (ha : Keeps32 a) (hb : Keeps32 b)
    (h : rnd64 (round6 a) = rnd64 (round6 b)) : a = b := by
  have key : ∀ q, Keeps32 q → round6 (rnd64 (round6 q)) = round6 q := by
    intro q hq
    refine round6_rnd64 (sixDigits_round6 q) ?_
    rcases hq.range with rfl | ⟨h1, -⟩
    · left; exact round6_zero
    · right
      obtain ⟨b1, -⟩ := round6_abs_bounds q
      refine le_trans ?_ b1
      refine le_trans ?_ (mul_le_mul_of_nonneg_right h1 (by norm_num))
      decide +kernel
  have := congrArg round6 h
  rw [key a ha, key b hb] at this
  rw [← ha.eq, ← hb.eq, this]

theorem fkey_inj {f f' : Features} (h : ∀ q ∈ f, Keeps32 q) (h' : ∀ q ∈ f', Keeps32 q)
    (e : fkey f = fkey f') : f = f' := by
  induction f generalizing f' with
  | nil =>
    cases f' with
    | nil => rfl
    | cons a f' => simp [fkey] at e
  | cons a f ih =>
    cases f' with
    | nil => simp [fkey] at e
    | cons b f' =>
      simp only [fkey, List.map_cons, List.cons.injEq] at e
      rw [rnd64_round6_inj (h a (by simp)) (h' b (by simp)) e.1,
        ih (fun q hq => h q (by simp [hq])) (fun q hq => h' q (by simp [hq])) e.2]

theorem mapM_option {α β : Type} {f : α → Option β} {g : α → β} {l : List α}
    (h : ∀ a ∈ l, f a = some (g a)) : l.mapM f = some (l.map g) := by
  induction l with
  | nil => rfl
  | cons a l ih =>
    rw [List.mapM_cons, h a (by simp), ih fun a ha => h a (by simp [ha])]
    rfl

theorem RowOf.length {F : RegionTrace} {x : Row} {rec : Record} (h : RowOf F x rec) (hF : F.Wellformed) :
    x.features.length = F.nf := (hF.rows x h.mem).1

theorem range_getD {f : Features} {n : ℕ} (h : f.length = n) :
    (List.range n).map (fun i => f.getD i 0) = f := by
  refine (List.ext_getElem (by simp [h]) fun i h1 h2 => ?_).symm
  simp [List.getD_eq_getElem?_getD, h1]

theorem RowOf.key {F : RegionTrace} {x : Row} {rec : Record} (h : RowOf F x rec) (hF : F.Wellformed) :
    keyOf ((List.range F.nf).map fcol) rec = .ok (fkey x.features) := by
  unfold keyOf
  rw [List.mapM_map, mapM_option (f := (fun c => numOf (rec c)) ∘ fcol)
    (g := fun i => rnd64 (round6 (x.features.getD i 0)))
    fun i hi => (h.feats i (List.mem_range.1 hi)).num]
  have : (List.range F.nf).map (fun i => rnd64 (round6 (x.features.getD i 0))) = fkey x.features := by
    conv_rhs => rw [← range_getD (h.length hF)]
    simp [fkey]
  rw [this]

theorem RowOf.keyPolicy {F : RegionTrace} {x : Row} {rec : Record} (h : RowOf F x rec) :
    keyOf ["policy".toList] rec = .ok [(x.policy : ℚ)] := by
  unfold keyOf
  rw [mapM_option (g := fun _ => (x.policy : ℚ)) fun c hc => by
    rw [List.mem_singleton.1 hc, h.policy]; rfl]
  rfl

theorem RowOf.key2 {F : RegionTrace} {x : Row} {rec : Record} (h : RowOf F x rec) (hF : F.Wellformed) :
    keyOf ((List.range F.nf).map fcol ++ ["policy".toList]) rec =
      .ok (fkey x.features ++ [(x.policy : ℚ)]) := by
  have h1 := h.key hF
  have h2 := h.keyPolicy
  unfold keyOf at h1 h2 ⊢
  rw [List.mapM_append]
  cases e1 : ((List.range F.nf).map fcol).mapM (fun c => numOf (rec c)) with
  | none => rw [e1] at h1; cases h1
  | some k =>
    rw [e1] at h1
    cases e2 : ["policy".toList].mapM (fun c => numOf (rec c)) with
    | none => rw [e2] at h2; cases h2
    | some k2 =>
      rw [e2] at h2
      cases h1; cases h2; rfl

/-! ## Groups -/

/-- The executions with a key. -/
def withKey (key : RegionTrace × Row → List ℚ) (es : List (RegionTrace × Row)) (k : List ℚ) :
    List (RegionTrace × Row) := es.filter fun p => decide (key p = k)

theorem groupRows_aux {by_ : List Text} {key : RegionTrace × Row → List ℚ}
    {es : List (RegionTrace × Row)} {rows : List Record} (h : RowsOf es rows)
    (hkey : ∀ p ∈ es, ∀ rec, RowOf p.1 p.2 rec → keyOf by_ rec = .ok (key p))
    {es0 : List (RegionTrace × Row)} {g0 : OMap (List ℚ) (List Record)} (hs : OMap.Sorted g0)
    (h0 : ∀ k, (OMap.find g0 k = none ∧ withKey key es0 k = []) ∨
      ∃ rs, OMap.find g0 k = some rs ∧ withKey key es0 k ≠ [] ∧ RowsOf (withKey key es0 k) rs) :
    ∃ g, groupRows by_ rows g0 = .ok g ∧ OMap.Sorted g ∧
      ∀ k, (OMap.find g k = none ∧ withKey key (es0 ++ es) k = []) ∨
        ∃ rs, OMap.find g k = some rs ∧ withKey key (es0 ++ es) k ≠ [] ∧
          RowsOf (withKey key (es0 ++ es) k) rs := by
  induction h generalizing es0 g0 with
  | nil => exact ⟨g0, rfl, hs, by simpa using h0⟩
  | @cons p rec es rows hR _ ih =>
    have hk := hkey p (by simp) rec hR
    have hstep := ih (fun q hq => hkey q (by simp [hq])) (es0 := es0 ++ [p])
      (g0 := OMap.upsert (fun o => o.getD [] ++ [rec]) (key p) g0) (hs.upsert _ _) (by
        intro k
        rw [OMap.find_upsert_of_sorted hs]
        by_cases hkk : k = key p
        · subst hkk
          right
          rw [if_pos rfl]
          refine ⟨_, rfl, ?_, ?_⟩
          · simp [withKey]
          · have e : withKey key (es0 ++ [p]) (key p) = withKey key es0 (key p) ++ [p] := by
              simp [withKey]
            rw [e]
            rcases h0 (key p) with ⟨h1, h2⟩ | ⟨rs, h1, -, h2⟩
            · rw [h1, h2]
              exact List.Forall₂.cons hR List.Forall₂.nil
            · rw [h1]
              exact List.rel_append h2 (List.Forall₂.cons hR List.Forall₂.nil)
        · rw [if_neg hkk]
          have e : withKey key (es0 ++ [p]) k = withKey key es0 k := by
            simp [withKey, Ne.symm hkk]
          rw [e]
          exact h0 k)
    obtain ⟨g, h1, h2, h3⟩ := hstep
    refine ⟨g, ?_, h2, by simpa using h3⟩
    simp only [groupRows, hk, Res.bind_ok]
    exact h1

theorem groupRows_ok {by_ : List Text} {key : RegionTrace × Row → List ℚ}
    {es : List (RegionTrace × Row)} {rows : List Record} (h : RowsOf es rows)
    (hkey : ∀ p ∈ es, ∀ rec, RowOf p.1 p.2 rec → keyOf by_ rec = .ok (key p)) :
    ∃ g, groupRows by_ rows [] = .ok g ∧ OMap.Sorted g ∧
      (∀ k, k ∈ g.map Prod.fst ↔ ∃ p ∈ es, key p = k) ∧
      ∀ kr ∈ g, withKey key es kr.1 ≠ [] ∧ RowsOf (withKey key es kr.1) kr.2 := by
  obtain ⟨g, h1, h2, h3⟩ := groupRows_aux h hkey (es0 := []) (g0 := []) OMap.sorted_nil
    (fun k => Or.inl ⟨rfl, rfl⟩)
  simp only [List.nil_append] at h3
  refine ⟨g, h1, h2, ?_, ?_⟩
  · intro k
    rw [← OMap.find_isSome_iff]
    rcases h3 k with ⟨e1, e2⟩ | ⟨rs, e1, e2, -⟩
    · rw [e1]
      simp only [Option.isSome_none, Bool.false_eq_true, false_iff, not_exists, not_and]
      intro p hp e
      have : p ∈ withKey key es k := List.mem_filter.2 ⟨hp, by simpa using e⟩
      rw [e2] at this
      cases this
    · rw [e1]
      simp only [Option.isSome_some, true_iff]
      obtain ⟨p, hp⟩ := List.exists_mem_of_ne_nil _ e2
      obtain ⟨hp, hk⟩ := List.mem_filter.1 hp
      exact ⟨p, hp, by simpa using hk⟩
  · rintro ⟨k, rs⟩ hkr
    rcases h3 k with ⟨e1, -⟩ | ⟨rs', e1, e2, e3⟩
    · rw [(h2.find_eq_some_iff k rs).2 hkr] at e1
      cases e1
    · rw [(h2.find_eq_some_iff k rs).2 hkr] at e1
      cases e1
      exact ⟨e2, e3⟩

theorem mapM_res {α β : Type} {f : α → Res β} {R : α → β → Prop} {l : List α}
    (h : ∀ a ∈ l, ∃ b, f a = .ok b ∧ R a b) : ∃ l', l.mapM f = .ok l' ∧ List.Forall₂ R l l' := by
  induction l with
  | nil => exact ⟨[], rfl, List.Forall₂.nil⟩
  | cons a l ih =>
    obtain ⟨b, h1, h2⟩ := h a (by simp)
    obtain ⟨l', h3, h4⟩ := ih fun a ha => h a (by simp [ha])
    refine ⟨b :: l', ?_, List.Forall₂.cons h2 h4⟩
    rw [List.mapM_cons, h1, h3]
    rfl

/-- The times of executions. -/
theorem column_xtime {py : Py} {es : List (RegionTrace × Row)} {rows : List Record} (h : RowsOf es rows)
    (hk : ∀ p ∈ es, p.1.Kept py) :
    column "xtime".toList rows = .ok (es.map fun p => p.2.metric) := by
  unfold column
  have : rows.mapM (fun row => numOf (row "xtime".toList)) = some (es.map fun p => p.2.metric) := by
    induction h with
    | nil => rfl
    | @cons p rec es rows hR _ ih =>
      rw [List.mapM_cons, ih fun p hp => hk p (by simp [hp]), hR.xtime.num,
        ((hk p (by simp)) p.2 hR.mem).2.1.eq]
      rfl
  rw [this]

/-! ## The least number -/

theorem idxmin_spec {l : List ℚ} (h : l ≠ []) : ∃ pre x post, l = pre ++ x :: post ∧
    pre.length = idxmin l ∧ (∀ y ∈ pre, x < y) ∧ ∀ y ∈ post, x ≤ y := by
  induction l with
  | nil => exact absurd rfl h
  | cons a l ih =>
    by_cases ha : l.all (fun y => decide (a ≤ y)) = true
    · refine ⟨[], a, l, rfl, ?_, by simp, ?_⟩
      · rw [idxmin, if_pos ha]; rfl
      · intro y hy
        simpa using List.all_eq_true.1 ha y hy
    · have hl : l ≠ [] := by rintro rfl; exact ha rfl
      obtain ⟨pre, x, post, e, h1, h2, h3⟩ := ih hl
      refine ⟨a :: pre, x, post, by rw [e]; rfl, ?_, ?_, h3⟩
      · rw [idxmin, if_neg ha, ← h1]; rfl
      · intro y hy
        rcases List.mem_cons.1 hy with rfl | hy
        · rw [Bool.not_eq_true, List.all_eq_false] at ha
          obtain ⟨z, hz, hlt⟩ := ha
          rw [decide_eq_true_eq, not_le] at hlt
          have : x ≤ z := by
            rw [e] at hz
            rcases List.mem_append.1 hz with hz | hz
            · exact (h2 z hz).le
            · rcases List.mem_cons.1 hz with rfl | hz
              · exact le_refl _
              · exact h3 z hz
          linarith
        · exact h2 y hy

theorem split_map {α β : Type} {f : α → β} {l : List α} {pre post : List β} {x : β}
    (h : l.map f = pre ++ x :: post) : ∃ pre' x' post', l = pre' ++ x' :: post' ∧ pre'.map f = pre ∧
      f x' = x ∧ post'.map f = post := by
  obtain ⟨a, b, rfl, h1, h2⟩ := List.map_eq_append_iff.1 h
  obtain ⟨c, d, rfl, h3, h4⟩ := List.map_eq_cons_iff.1 h2
  exact ⟨a, c, d, rfl, h1, h3, h4⟩

theorem split_filter {α : Type} {q : α → Bool} {l : List α} {pre post : List α} {x : α}
    (h : l.filter q = pre ++ x :: post) : ∃ pre' post', l = pre' ++ x :: post' ∧ pre'.filter q = pre ∧
      post'.filter q = post := by
  obtain ⟨a, b, rfl, h1, h2⟩ := List.filter_eq_append_iff.1 h
  obtain ⟨c, d, rfl, h3, h4, h5⟩ := List.filter_eq_cons_iff.1 h2
  refine ⟨a ++ c, d, by simp, ?_, h5⟩
  rw [List.filter_append, h1, List.filter_eq_nil_iff.2 h3, List.append_nil]

theorem forall₂_split {α β : Type} {R : α → β → Prop} {pre post : List α} {x : α} {l' : List β}
    (h : List.Forall₂ R (pre ++ x :: post) l') (d : β) : R x (l'.getD pre.length d) := by
  induction pre generalizing l' with
  | nil =>
    cases h with
    | cons h1 _ => exact h1
  | cons a pre ih =>
    cases h with
    | cons _ h2 => exact ih h2

/-! ## Entries of a dataset with different keys -/

theorem entries_distinct {ms : List Meas} (h : (ms.map fun x => (x.features, x.policy)).Nodup)
    (f : List ℚ) (p : ℤ) (m : ℚ) : (f, p, m) ∈ entries ms ↔ (⟨f, p, m⟩ : Meas) ∈ ms := by
  rw [mem_entries]
  have key : ∀ ms : List Meas, (ms.map fun x => (x.features, x.policy)).Nodup →
      metricsOf ms f p = [] ∧ (∀ x ∈ ms, ¬ (x.features = f ∧ x.policy = p)) ∨
      ∃ m0, metricsOf ms f p = [m0] ∧ ∀ x ∈ ms, x.features = f ∧ x.policy = p → x = ⟨f, p, m0⟩ := by
    intro ms
    induction ms with
    | nil => intro; exact Or.inl ⟨rfl, by simp⟩
    | cons x ms ih =>
      intro hn
      rw [List.map_cons, List.nodup_cons] at hn
      by_cases hx : x.features = f ∧ x.policy = p
      · right
        have hno : ∀ y ∈ ms, ¬ (y.features = f ∧ y.policy = p) := by
          intro y hy hy2
          refine hn.1 (List.mem_map.2 ⟨y, hy, ?_⟩)
          rw [hy2.1, hy2.2, hx.1, hx.2]
        refine ⟨x.metric, ?_, ?_⟩
        · unfold metricsOf
          rw [List.filter_cons_of_pos (by simpa using hx), List.filter_eq_nil_iff.2]
          · rfl
          · intro y hy
            simpa using hno y hy
        · intro y hy hy2
          rcases List.mem_cons.1 hy with rfl | hy
          · rw [← hx.1, ← hx.2]
          · exact absurd hy2 (hno y hy)
      · have e : metricsOf (x :: ms) f p = metricsOf ms f p := by
          unfold metricsOf
          rw [List.filter_cons_of_neg (by simpa using hx)]
        rw [e]
        rcases ih hn.2 with ⟨h1, h2⟩ | ⟨m0, h1, h2⟩
        · left
          refine ⟨h1, fun y hy => ?_⟩
          rcases List.mem_cons.1 hy with rfl | hy
          · exact hx
          · exact h2 y hy
        · right
          refine ⟨m0, h1, fun y hy hy2 => ?_⟩
          rcases List.mem_cons.1 hy with rfl | hy
          · exact absurd hy2 hx
          · exact h2 y hy hy2
  constructor
  · intro hm
    have hne : metricsOf ms f p ≠ [] := by
      intro e; rw [e] at hm; cases hm
    obtain ⟨y, hy⟩ := List.exists_mem_of_ne_nil _ hne
    obtain ⟨x, hx, -⟩ := List.mem_map.1 hy
    obtain ⟨hx1, hx2⟩ := List.mem_filter.1 hx
    rw [decide_eq_true_eq] at hx2
    rcases key ms h with ⟨h1, -⟩ | ⟨m0, h1, h2⟩
    · exact absurd h1 hne
    · rw [h1] at hm
      have : m0 = m := by simpa [runningAverage] using hm
      rw [← this, ← h2 x hx1 hx2]
      exact hx1
  · intro hm
    rcases key ms h with ⟨-, h2⟩ | ⟨m0, h1, h2⟩
    · exact absurd ⟨rfl, rfl⟩ (h2 _ hm)
    · have := h2 _ hm ⟨rfl, rfl⟩
      rw [h1]
      simp only [Meas.mk.injEq, true_and] at this
      rw [this]
      rfl

theorem forall₂_choose {α β γ : Type} {S : α → γ → Prop} {T : β → γ → Prop} {l : List α} {l' : List β}
    (h : List.Forall₂ (fun a b => ∃ c, S a c ∧ T b c) l l') :
    ∃ l'', List.Forall₂ S l l'' ∧ List.Forall₂ T l' l'' := by
  induction h with
  | nil => exact ⟨[], List.Forall₂.nil, List.Forall₂.nil⟩
  | cons h1 _ ih =>
    obtain ⟨c, hc1, hc2⟩ := h1
    obtain ⟨l'', h3, h4⟩ := ih
    exact ⟨c :: l'', List.Forall₂.cons hc1 h3, List.Forall₂.cons hc2 h4⟩

theorem nodup_fst {g : OMap (List ℚ) (List Record)} (h : OMap.Sorted g) : (g.map Prod.fst).Nodup :=
  ((OMap.sorted_iff g).1 h).imp fun h => ne_of_lt h

theorem length_groups {g : OMap (List ℚ) (List Record)} (h : OMap.Sorted g)
    {key : RegionTrace × Row → List ℚ} {es : List (RegionTrace × Row)}
    (hk : ∀ k, k ∈ g.map Prod.fst ↔ ∃ p ∈ es, key p = k) : g.length ≤ es.length := by
  have h1 : (g.map Prod.fst) ⊆ es.map key := by
    intro k hk'
    obtain ⟨p, hp, e⟩ := (hk k).1 hk'
    exact List.mem_map.2 ⟨p, hp, e⟩
  have := ((nodup_fst h).subperm h1).length_le
  simpa using this

theorem first_least_unique {α : Type} {v : α → ℚ} {pre post pre' post' : List α} {x x' : α}
    (e : pre ++ x :: post = pre' ++ x' :: post') (h1 : ∀ y ∈ pre, v x < v y)
    (h2 : ∀ y ∈ post, v x ≤ v y) (h1' : ∀ y ∈ pre', v x' < v y) (h2' : ∀ y ∈ post', v x' ≤ v y) :
    x = x' := by
  rcases List.append_eq_append_iff.1 e with ⟨a, rfl, ha⟩ | ⟨a, rfl, ha⟩
  · cases a with
    | nil => simp at ha; exact ha.1
    | cons b a =>
      simp only [List.cons_append, List.cons.injEq] at ha
      obtain ⟨rfl, rfl⟩ := ha
      have := h1' x (by simp)
      have := h2 x' (by simp)
      linarith
  · cases a with
    | nil => simp at ha; exact ha.1.symm
    | cons b a =>
      simp only [List.cons_append, List.cons.injEq] at ha
      obtain ⟨rfl, rfl⟩ := ha
      have := h1 x' (by simp)
      have := h2' x (by simp)
      linarith

/-! ## Least times -/

theorem features_key {py : Py} {es : List (RegionTrace × Row)} (hin : ∀ p ∈ es, p.2 ∈ p.1.rows)
    (hk : ∀ p ∈ es, p.1.Kept py) {p p' : RegionTrace × Row} (hp : p ∈ es) (hp' : p' ∈ es) :
    fkey p.2.features = fkey p'.2.features ↔ p.2.features = p'.2.features := by
  refine ⟨fun e => fkey_inj ?_ ?_ e, fun e => by rw [e]⟩
  · exact fun q hq => ((hk p hp p.2 (hin p hp)).1 q hq).1
  · exact fun q hq => ((hk p' hp' p'.2 (hin p' hp')).1 q hq).1

theorem RowsOf.mem_rows {es : List (RegionTrace × Row)} {rows : List Record} (h : RowsOf es rows) :
    ∀ p ∈ es, p.2 ∈ p.1.rows := by
  intro p hp
  obtain ⟨rec, -, hR⟩ := forall₂_left h hp
  exact hR.mem

theorem fcols_ne_nil {n : ℕ} (h : n ≠ 0) : (List.range n).map fcol ≠ [] := by
  intro e
  have := congrArg List.length e
  simp at this
  exact h this

theorem groupby_index {n : ℕ} {by_ : List Text} (hne : by_ ≠ [])
    (hsub : ∀ c ∈ by_, c ∈ Spec.headerColumns n) {rows : List Record}
    {g : OMap (List ℚ) (List Record)} (hg : groupRows by_ rows [] = .ok g) :
    (⟨"index".toList :: Spec.headerColumns n, rows⟩ : Frame).groupby by_ = .ok (g.map Prod.snd) := by
  unfold Frame.groupby
  rw [if_neg]
  · simp only [hg, Res.bind_ok]
  · rintro (h | h)
    · exact hne h
    · exact h fun c hc => List.mem_cons_of_mem _ (hsub c hc)

theorem agg_min (py : Py) {es : List (RegionTrace × Row)}
    (hw : ∀ p ∈ es, p.1.Wellformed ∧ p.1.Kept py) (hl : es.length ≤ 2 ^ 31) {n : ℕ} (hn0 : n ≠ 0)
    (hn : ∀ p ∈ es, p.1.nf = n) {rows : List Record} (h : RowsOf es rows) :
    ∃ l ms, py.aggregate ⟨"index".toList :: Spec.headerColumns n, rows⟩ .min =
        .ok ('#' :: " agg by min".toList ++ "\n".toList, l) ∧
      List.Forall₂ EntryReads l ms ∧ l.length ≤ 2 ^ 31 ∧
      ∀ f p m, (f, p, m) ∈ entries ms ↔ IsFirstLeast (es.map fun p => p.2.meas) ⟨f, p, m⟩ := by
  have hin := h.mem_rows
  obtain ⟨g, g1, g2, g3, g4⟩ := groupRows_ok (by_ := (List.range n).map fcol)
    (key := fun p => fkey p.2.features) h (by
      intro p hp rec hR
      rw [← hn p hp]
      exact hR.key (hw p hp).1)
  obtain ⟨l, l1, l2⟩ := mapM_res (f := fun kr => py.minEntry ((List.range n).map fcol) kr.2) (l := g)
    (R := fun kr e => ∃ x, (∃ pre p post, withKey (fun p => fkey p.2.features) es kr.1 =
      pre ++ p :: post ∧ (∀ y ∈ pre, p.2.metric < y.2.metric) ∧
      (∀ y ∈ post, p.2.metric ≤ y.2.metric) ∧ x = p.2.meas) ∧ EntryReads e x) (by
      rintro ⟨k, rs⟩ hkr
      obtain ⟨hne, hrs⟩ := g4 _ hkr
      simp only at hne hrs ⊢
      have hsub : ∀ p ∈ withKey (fun p => fkey p.2.features) es k, p ∈ es :=
        fun p hp => List.mem_of_mem_filter hp
      have hc := column_xtime (py := py) hrs fun p hp => (hw p (hsub p hp)).2
      obtain ⟨pre, x, post, e, i1, i2, i3⟩ := idxmin_spec
        (l := (withKey (fun p => fkey p.2.features) es k).map fun p => p.2.metric) (by simpa using hne)
      obtain ⟨pre', p, post', e', rfl, rfl, rfl⟩ := split_map e
      have hp := hsub p (by rw [e']; simp)
      refine ⟨_, by simp only [Py.minEntry, hc, Res.bind_ok]; rfl, p.2.meas,
        ⟨pre', p, post', e', ?_, ?_, rfl⟩, ?_⟩
      · intro y hy; exact i2 _ (List.mem_map.2 ⟨y, hy, rfl⟩)
      · intro y hy; exact i3 _ (List.mem_map.2 ⟨y, hy, rfl⟩)
      · rw [e'] at hrs
        have hR := forall₂_split hrs fun _ => Cell.nan
        rw [← i1, List.length_map]
        have := hR.entry (hw p hp).1 (hw p hp).2
        rwa [hn p hp] at this)
  obtain ⟨ms, m1, m2⟩ := forall₂_choose l2
  have hfeat : ms.map (fun x => fkey x.features) = g.map Prod.fst := by
    clear l1 l2 m2 g1 g2 g3 g4
    induction m1 with
    | nil => rfl
    | @cons kr _ _ _ hS _ ih =>
      obtain ⟨pre, p, post, e, -, -, rfl⟩ := hS
      rw [List.map_cons, List.map_cons, ih]
      have : p ∈ withKey (fun p => fkey p.2.features) es kr.1 := by rw [e]; simp
      have := (List.mem_filter.1 this).2
      rw [decide_eq_true_eq] at this
      rw [← this]
      rfl
  have hnd : (ms.map fun x => (x.features, x.policy)).Nodup := by
    have h1 : (ms.map fun x => fkey x.features).Nodup := by rw [hfeat]; exact nodup_fst g2
    have h2 : (ms.map fun x => fkey x.features) =
        (ms.map fun x => (x.features, x.policy)).map fun y => fkey y.1 := by simp
    rw [h2] at h1
    exact List.Nodup.of_map _ h1
  refine ⟨l, ms, ?_, m2, ?_, ?_⟩
  · simp only [Py.aggregate, Py.aggMin, featureCols_index]
    rw [groupby_index (fcols_ne_nil hn0) (by
      intro c hc
      obtain ⟨i, hi, rfl⟩ := List.mem_map.1 hc
      exact fcol_mem.2 (List.mem_range.1 hi)) g1]
    simp only [Res.bind_ok, needs_index, List.mapM_map]
    have e : (py.minEntry ((List.range n).map fcol) ∘ Prod.snd) =
        fun kr : List ℚ × List Record => py.minEntry ((List.range n).map fcol) kr.2 := rfl
    rw [e, l1]
    by_cases hg : g.map Prod.snd = []
    · have : g = [] := by simpa using hg
      subst this
      cases l2
      rfl
    · rw [if_neg hg]; rfl
  · rw [← l2.length_eq]
    exact (length_groups g2 g3).trans hl
  · intro f p m
    rw [entries_distinct hnd]
    constructor
    · intro hm
      obtain ⟨kr, -, pre, q, post, e, h1, h2, hx⟩ := forall₂_right m1 hm
      rw [hx]
      obtain ⟨pre', post', e', rfl, rfl⟩ := split_filter e
      refine ⟨pre'.map (fun p => p.2.meas), post'.map (fun p => p.2.meas), by rw [e']; simp, ?_, ?_⟩
      all_goals
        have hq : fkey q.2.features = kr.1 := by
          have : q ∈ withKey (fun p => fkey p.2.features) es kr.1 := by rw [e]; simp
          simpa using (List.mem_filter.1 this).2
        intro y hy hy2
        obtain ⟨z, hz, rfl⟩ := List.mem_map.1 hy
      · refine h1 z (List.mem_filter.2 ⟨hz, ?_⟩)
        rw [decide_eq_true_eq, ← hq]
        exact congrArg fkey hy2
      · refine h2 z (List.mem_filter.2 ⟨hz, ?_⟩)
        rw [decide_eq_true_eq, ← hq]
        exact congrArg fkey hy2
    · rintro ⟨pre, post, e, h1, h2⟩
      obtain ⟨pre', q, post', e', rfl, hx, rfl⟩ := split_map e
      rw [← hx] at h1 h2 ⊢
      have hq : q ∈ es := by rw [e']; simp
      obtain ⟨kr, hkr, hk⟩ := List.mem_map.1 ((g3 (fkey q.2.features)).2 ⟨q, hq, rfl⟩)
      obtain ⟨x, hx, pre2, q2, post2, e2, a1, a2, rfl⟩ := forall₂_left m1 hkr
      have e3 : withKey (fun p => fkey p.2.features) es kr.1 =
          pre'.filter (fun p => decide (fkey p.2.features = kr.1)) ++
            q :: post'.filter (fun p => decide (fkey p.2.features = kr.1)) := by
        conv_lhs => rw [e']
        unfold withKey
        rw [List.filter_append, List.filter_cons_of_pos (by simpa using hk.symm)]
      have hsame : ∀ z ∈ es, fkey z.2.features = kr.1 → z.2.features = q.2.features := by
        intro z hz hzk
        exact (features_key hin (fun p hp => (hw p hp).2) hz hq).1 (by rw [hzk, hk])
      have : q2 = q := by
        refine first_least_unique (v := fun p => p.2.metric) (e2.symm.trans e3) a1 a2 ?_ ?_
        · intro y hy
          obtain ⟨hy, hyk⟩ := List.mem_filter.1 hy
          rw [decide_eq_true_eq] at hyk
          exact h1 _ (List.mem_map.2 ⟨y, hy, rfl⟩) (hsame y (by rw [e']; simp [hy]) hyk)
        · intro y hy
          obtain ⟨hy, hyk⟩ := List.mem_filter.1 hy
          rw [decide_eq_true_eq] at hyk
          exact h2 _ (List.mem_map.2 ⟨y, hy, rfl⟩) (hsame y (by rw [e']; simp [hy]) hyk)
      rw [← this]
      exact hx

/-! ## Mean times -/

theorem _root_.Apollo.Spec.Prints.time {py : Py} {y : ℚ} (h : Prints py y) :
    TokText (py.repr y) ∧ ∃ n, stod (py.repr y) = .ok (y, n) := by
  obtain ⟨v, hv, hr, hrange⟩ := h.value
  have hs : Shows (py.repr y) v := ⟨fun c hc => by
    have := h.chars c hc
    simp only [List.mem_cons, List.not_mem_nil, or_false] at this
    exact this, hv, h.short⟩
  refine ⟨hs.tok, (py.repr y).length, ?_⟩
  have e2 := dropWhile_num (r := []) hs.chars hs.ne_nil
  have e4 := not_special (r := []) hs.chars (Or.inl rfl)
  rw [List.append_nil] at e2 e4
  unfold stod readFloat
  simp only [e2, e4, hv]
  have hr' : rnd 53 (-1074) v = y := hr
  simp only [Bool.false_eq_true, if_false, hr', List.length_nil, Nat.sub_zero]
  rcases hrange with rfl | ⟨h1, h2⟩
  · have : y = 0 := by rw [← hr', rnd_zero]
    subst this
    rw [if_neg (by simp [maxDouble]; norm_num), if_neg (by simp)]
  · rw [if_neg (by rw [not_lt]; exact h2), if_neg (by rintro ⟨h3, -⟩; linarith)]

theorem RowsOf.head {p : RegionTrace × Row} {es : List (RegionTrace × Row)} {rows : List Record}
    (h : RowsOf (p :: es) rows) (d : Record) : RowOf p.1 p.2 (rows.headD d) := by
  cases h with
  | cons h1 _ => exact h1

/-- The features and the policy of an execution. -/
def key2 (p : RegionTrace × Row) : List ℚ := fkey p.2.features ++ [(p.2.policy : ℚ)]

theorem key2_iff {py : Py} {es : List (RegionTrace × Row)} (hin : ∀ p ∈ es, p.2 ∈ p.1.rows)
    (hk : ∀ p ∈ es, p.1.Kept py) {p p' : RegionTrace × Row} (hp : p ∈ es) (hp' : p' ∈ es) :
    key2 p = key2 p' ↔ p.2.features = p'.2.features ∧ p.2.policy = p'.2.policy := by
  unfold key2
  constructor
  · intro e
    obtain ⟨h1, h2⟩ := List.append_inj' e rfl
    exact ⟨(features_key hin hk hp hp').1 h1, by simpa using h2⟩
  · rintro ⟨h1, h2⟩
    rw [h1, h2]

theorem metricsOf_key2 {py : Py} {es : List (RegionTrace × Row)} (hin : ∀ p ∈ es, p.2 ∈ p.1.rows)
    (hk : ∀ p ∈ es, p.1.Kept py) {q : RegionTrace × Row} (hq : q ∈ es) :
    metricsOf (es.map fun p => p.2.meas) q.2.features q.2.policy =
      (withKey key2 es (key2 q)).map fun p => p.2.metric := by
  unfold metricsOf withKey
  rw [List.filter_map, List.map_map]
  have : es.filter ((fun x : Meas => decide (x.features = q.2.features ∧ x.policy = q.2.policy)) ∘
      fun p => p.2.meas) = es.filter fun p => decide (key2 p = key2 q) := by
    refine List.filter_congr fun p hp => ?_
    exact decide_eq_decide.2 (key2_iff hin hk hp hq).symm
  rw [this]
  rfl

theorem metricsOf_ne_nil {es : List (RegionTrace × Row)} {f : List ℚ} {p : ℤ} :
    metricsOf (es.map fun p => p.2.meas) f p ≠ [] ↔
      ∃ q ∈ es, q.2.features = f ∧ q.2.policy = p := by
  unfold metricsOf
  constructor
  · intro h
    obtain ⟨m, hm⟩ := List.exists_mem_of_ne_nil _ h
    obtain ⟨x, hx, -⟩ := List.mem_map.1 hm
    obtain ⟨hx, h2⟩ := List.mem_filter.1 hx
    obtain ⟨q, hq, rfl⟩ := List.mem_map.1 hx
    rw [decide_eq_true_eq] at h2
    exact ⟨q, hq, h2⟩
  · rintro ⟨q, hq, h1, h2⟩ e
    have : q.2.meas.metric ∈ ((es.map fun p => p.2.meas).filter
        fun x => decide (x.features = f ∧ x.policy = p)).map Meas.metric :=
      List.mem_map.2 ⟨_, List.mem_filter.2 ⟨List.mem_map.2 ⟨q, hq, rfl⟩, by
        rw [decide_eq_true_eq]; exact ⟨h1, h2⟩⟩, rfl⟩
    rw [e] at this
    cases this

theorem agg_mean (py : Py) {es : List (RegionTrace × Row)}
    (hw : ∀ p ∈ es, p.1.Wellformed ∧ p.1.Kept py) (hl : es.length ≤ 2 ^ 31) {n : ℕ}
    (hn0 : n ≠ 0 ∨ py.single ≠ none)
    (hpr : ∀ f p, metricsOf (es.map fun p => p.2.meas) f p ≠ [] →
      Prints py (py.mean (metricsOf (es.map fun p => p.2.meas) f p)))
    (hn : ∀ p ∈ es, p.1.nf = n) {rows : List Record} (h : RowsOf es rows) :
    ∃ l ms, py.aggregate ⟨"index".toList :: Spec.headerColumns n, rows⟩ .mean =
        .ok ('#' :: " agg by mean".toList ++ "\n".toList, l) ∧
      List.Forall₂ EntryReads l ms ∧ l.length ≤ 2 ^ 31 ∧
      ∀ f p m, (f, p, m) ∈ entries ms ↔ metricsOf (es.map fun p => p.2.meas) f p ≠ [] ∧
        m = py.mean (metricsOf (es.map fun p => p.2.meas) f p) := by
  have hin := h.mem_rows
  have hkept := fun p hp => (hw p hp).2
  obtain ⟨g, g1, g2, g3, g4⟩ := groupRows_ok (by_ := (List.range n).map fcol ++ ["policy".toList])
    (key := key2) h (by
      intro p hp rec hR
      rw [← hn p hp]
      exact hR.key2 (hw p hp).1)
  obtain ⟨l, l1, l2⟩ := mapM_res (f := fun kr => py.meanEntry ((List.range n).map fcol) kr.2) (l := g)
    (R := fun kr e => ∃ x : Meas, (∃ q ∈ es, key2 q = kr.1 ∧ x = ⟨q.2.features, q.2.policy,
      py.mean (metricsOf (es.map fun p => p.2.meas) q.2.features q.2.policy)⟩) ∧ EntryReads e x) (by
      rintro ⟨k, rs⟩ hkr
      obtain ⟨hne, hrs⟩ := g4 _ hkr
      simp only at hne hrs ⊢
      have hsub : ∀ p ∈ withKey key2 es k, p ∈ es := fun p hp => List.mem_of_mem_filter hp
      have hc := column_xtime (py := py) hrs fun p hp => (hw p (hsub p hp)).2
      obtain ⟨q, tl, hq⟩ := List.exists_cons_of_ne_nil hne
      have hqk : q ∈ withKey key2 es k := by rw [hq]; simp
      have hqe := hsub q hqk
      have hk : key2 q = k := by simpa using (List.mem_filter.1 hqk).2
      refine ⟨_, by simp only [Py.meanEntry, hc, Res.bind_ok]; rfl, _, ⟨q, hqe, hk, rfl⟩, ?_⟩
      rw [hq] at hrs
      have hR := hrs.head fun _ => Cell.nan
      have hE := hR.entry (hw q hqe).1 (hw q hqe).2
      rw [hn q hqe] at hE
      refine ⟨hE.feats, hE.pol, ?_⟩
      rw [metricsOf_key2 hin hkept hqe, hk]
      have := hpr q.2.features q.2.policy (metricsOf_ne_nil.2 ⟨q, hqe, rfl, rfl⟩)
      rw [metricsOf_key2 hin hkept hqe, hk] at this
      exact this.time)
  obtain ⟨ms, m1, m2⟩ := forall₂_choose l2
  have hfeat : ms.map (fun x => fkey x.features ++ [(x.policy : ℚ)]) = g.map Prod.fst := by
    clear l1 l2 m2 g1 g2 g3 g4
    induction m1 with
    | nil => rfl
    | cons hS _ ih =>
      obtain ⟨q, -, hk, rfl⟩ := hS
      rw [List.map_cons, List.map_cons, ih, ← hk]
      rfl
  have hnd : (ms.map fun x => (x.features, x.policy)).Nodup := by
    have h1 : (ms.map fun x => fkey x.features ++ [(x.policy : ℚ)]).Nodup := by
      rw [hfeat]; exact nodup_fst g2
    have h2 : (ms.map fun x => fkey x.features ++ [(x.policy : ℚ)]) =
        (ms.map fun x => (x.features, x.policy)).map fun y => fkey y.1 ++ [(y.2 : ℚ)] := by simp
    rw [h2] at h1
    exact List.Nodup.of_map _ h1
  refine ⟨l, ms, ?_, m2, ?_, ?_⟩
  · simp only [Py.aggregate, Py.aggMean, featureCols_index]
    rw [groupby_index (by simp) (by
      intro c hc
      rcases List.mem_append.1 hc with hc | hc
      · obtain ⟨i, hi, rfl⟩ := List.mem_map.1 hc
        exact fcol_mem.2 (List.mem_range.1 hi)
      · rw [List.mem_singleton.1 hc]
        exact mem_headerColumns.2 (Or.inr (Or.inl (by decide)))) g1]
    have hfc : ¬ ((List.range n).map fcol = [] ∧ py.single = none) := by
      rintro ⟨h1, h2⟩
      rcases hn0 with h3 | h3
      · exact fcols_ne_nil h3 h1
      · exact h3 h2
    simp only [Res.bind_ok, needs_index, List.mapM_map, if_neg hfc]
    have e : (py.meanEntry ((List.range n).map fcol) ∘ Prod.snd) =
        fun kr : List ℚ × List Record => py.meanEntry ((List.range n).map fcol) kr.2 := rfl
    rw [e, l1]
    by_cases hg : g.map Prod.snd = []
    · have : g = [] := by simpa using hg
      subst this
      cases l2
      rfl
    · rw [if_neg hg]; rfl
  · rw [← l2.length_eq]
    exact (length_groups g2 g3).trans hl
  · intro f p m
    rw [entries_distinct hnd]
    constructor
    · intro hm
      obtain ⟨kr, -, q, hq, -, hx⟩ := forall₂_right m1 hm
      injection hx with h1 h2 h3
      subst h1 h2
      exact ⟨metricsOf_ne_nil.2 ⟨q, hq, rfl, rfl⟩, h3⟩
    · rintro ⟨h1, rfl⟩
      obtain ⟨q, hq, rfl, rfl⟩ := metricsOf_ne_nil.1 h1
      obtain ⟨kr, hkr, hk⟩ := List.mem_map.1 ((g3 (key2 q)).2 ⟨q, hq, rfl⟩)
      obtain ⟨x, hx, q2, hq2, hk2, rfl⟩ := forall₂_left m1 hkr
      obtain ⟨e1, e2⟩ := (key2_iff hin hkept hq2 hq).1 (hk2.trans hk)
      rw [e1, e2] at hx
      exact hx

/-! ## Least mean times -/

theorem metricsOf_group {py : Py} {es : List (RegionTrace × Row)} (hin : ∀ p ∈ es, p.2 ∈ p.1.rows)
    (hk : ∀ p ∈ es, p.1.Kept py) {q : RegionTrace × Row} (hq : q ∈ es) (p : ℤ) :
    metricsOf (es.map fun p => p.2.meas) q.2.features p =
      (withKey (fun p => [(p.2.policy : ℚ)])
        (withKey (fun p => fkey p.2.features) es (fkey q.2.features)) [(p : ℚ)]).map
          fun p => p.2.metric := by
  unfold metricsOf withKey
  rw [List.filter_map, List.map_map, List.filter_filter]
  have : es.filter ((fun x : Meas => decide (x.features = q.2.features ∧ x.policy = p)) ∘
      fun p => p.2.meas) = es.filter fun a => decide ([(a.2.policy : ℚ)] = [(p : ℚ)]) &&
        decide (fkey a.2.features = fkey q.2.features) := by
    refine List.filter_congr fun a ha => ?_
    rw [Bool.and_comm, ← Bool.decide_and]
    refine decide_eq_decide.2 (and_congr (features_key hin hk ha hq).symm ?_)
    simp [Row.meas]
  rw [this]
  rfl

/-- The best policy of a group. -/
theorem meanMinEntry_ok (py : Py) {es : List (RegionTrace × Row)} (hne : es ≠ [])
    (hw : ∀ p ∈ es, p.1.Wellformed ∧ p.1.Kept py) {rows : List Record} (h : RowsOf es rows)
    (fc : List Text) (M : ℤ → List ℚ)
    (hM : ∀ p : ℤ, M p = (withKey (fun p => [(p.2.policy : ℚ)]) es [(p : ℚ)]).map fun p => p.2.metric) :
    ∃ bestRow, ∃ q ∈ es, RowOf q.1 q.2 bestRow ∧
      py.meanMinEntry fc rows = .ok (py.nameTexts fc (rows.headD fun _ => Cell.nan),
        py.str (bestRow "policy".toList), py.repr (py.mean (M q.2.policy))) ∧
      ∀ q' ∈ es, py.mean (M q.2.policy) < py.mean (M q'.2.policy) ∨
        (py.mean (M q.2.policy) = py.mean (M q'.2.policy) ∧ q.2.policy ≤ q'.2.policy) := by
  obtain ⟨g, g1, g2, g3, g4⟩ := groupRows_ok (by_ := ["policy".toList])
    (key := fun p => [(p.2.policy : ℚ)]) h (fun p hp rec hR => hR.keyPolicy)
  have hmeans : (g.mapM fun p => do
      let xs ← column "xtime".toList p.2
      .ok (py.mean xs)) = .ok (g.map fun kr =>
        py.mean ((withKey (fun p => [(p.2.policy : ℚ)]) es kr.1).map fun p => p.2.metric)) := by
    obtain ⟨l, l1, l2⟩ := mapM_res (f := fun kr : List ℚ × List Record => (do
        let xs ← column "xtime".toList kr.2
        .ok (py.mean xs) : Res ℚ)) (l := g)
      (R := fun kr y => y = py.mean ((withKey (fun p => [(p.2.policy : ℚ)]) es kr.1).map
        fun p => p.2.metric)) (by
        intro kr hkr
        obtain ⟨-, hrs⟩ := g4 kr hkr
        have hc := column_xtime (py := py) hrs fun p hp => (hw p (List.mem_of_mem_filter hp)).2
        exact ⟨_, by simp only [hc, Res.bind_ok], rfl⟩)
    rw [l1]
    congr 1
    clear l1 hM g1 g2 g3 g4
    induction l2 with
    | nil => rfl
    | cons h1 _ ih => rw [List.map_cons, h1, ih]
  have hgne : g ≠ [] := by
    rintro rfl
    obtain ⟨q, hq⟩ := List.exists_mem_of_ne_nil _ hne
    have := (g3 [(q.2.policy : ℚ)]).2 ⟨q, hq, rfl⟩
    cases this
  obtain ⟨pre, x, post, e, i1, i2, i3⟩ := idxmin_spec (l := g.map fun kr =>
    py.mean ((withKey (fun p => [(p.2.policy : ℚ)]) es kr.1).map fun p => p.2.metric)) (by simpa using hgne)
  obtain ⟨A, kr, B, eg, rfl, rfl, rfl⟩ := split_map e
  have hkr : kr ∈ g := by rw [eg]; simp
  obtain ⟨hne2, hrs⟩ := g4 kr hkr
  obtain ⟨q, tl, hq⟩ := List.exists_cons_of_ne_nil hne2
  have hqk : q ∈ withKey (fun p => [(p.2.policy : ℚ)]) es kr.1 := by rw [hq]; simp
  have hqe : q ∈ es := List.mem_of_mem_filter hqk
  have hk : [(q.2.policy : ℚ)] = kr.1 := by simpa using (List.mem_filter.1 hqk).2
  rw [hq] at hrs
  rw [List.length_map] at i1
  refine ⟨kr.2.headD fun _ => Cell.nan, q, hqe, hrs.head _, ?_, ?_⟩
  · simp only [Py.meanMinEntry, g1, Res.bind_ok, hmeans, ← i1]
    have e1 : (g.map Prod.snd).getD A.length [] = kr.2 := by
      rw [eg]; simp [List.getD_eq_getElem?_getD]
    have e2 : (g.map fun kr => py.mean ((withKey (fun p => [(p.2.policy : ℚ)]) es kr.1).map
        fun p => p.2.metric)).getD A.length 0 = py.mean (M q.2.policy) := by
      rw [hM, hk, eg]; simp [List.getD_eq_getElem?_getD]
    rw [e1, e2]
    rfl
  · intro q' hq'
    rw [hM, hM, hk]
    obtain ⟨kr', hkr', hk'⟩ := List.mem_map.1 ((g3 [(q'.2.policy : ℚ)]).2 ⟨q', hq', rfl⟩)
    have hs := (OMap.sorted_iff g).1 g2
    rw [eg, List.map_append, List.map_cons] at hs
    rw [← hk']
    rw [eg] at hkr'
    rcases List.mem_append.1 hkr' with hA | hA
    · exact Or.inl (i2 _ (List.mem_map.2 ⟨kr', hA, rfl⟩))
    · rcases List.mem_cons.1 hA with rfl | hB
      · refine Or.inr ⟨rfl, ?_⟩
        have : [(q.2.policy : ℚ)] = [(q'.2.policy : ℚ)] := hk.trans hk'
        have : q.2.policy = q'.2.policy := by simpa using this
        exact le_of_eq this
      · have h1 := i3 _ (List.mem_map.2 ⟨kr', hB, rfl⟩)
        rcases lt_or_eq_of_le h1 with h1 | h1
        · exact Or.inl h1
        · refine Or.inr ⟨h1, ?_⟩
          have h2 := (List.pairwise_cons.1 (List.pairwise_append.1 hs).2.1).1 kr'.1
            (List.mem_map.2 ⟨kr', hB, rfl⟩)
          rw [← hk, hk'] at h2
          have h3 : (q.2.policy : ℚ) < q'.2.policy := by
            by_contra hcon
            rw [not_lt] at hcon
            rcases lt_or_eq_of_le hcon with h4 | h4
            · exact absurd h2 (not_lt_of_gt (List.cons_lt_cons_iff.2 (Or.inl h4)))
            · rw [h4] at h2; exact lt_irrefl _ h2
          exact_mod_cast le_of_lt h3

theorem nameTexts_eq {py : Py} {n : ℕ} (h : n ≠ 1 ∨ py.single = none) (row : Record) :
    py.nameTexts ((List.range n).map fcol) row =
      ((List.range n).map fcol).map fun c => py.str (row c) := by
  rcases h with h | h
  · match n, h with
    | 0, _ => rfl
    | n + 2, _ =>
      rw [List.range_succ_eq_map, List.range_succ_eq_map]
      rfl
  · unfold Py.nameTexts
    rw [h]
    split
    · rename_i h2; cases h2
    · rfl

theorem agg_meanMin (py : Py) {es : List (RegionTrace × Row)}
    (hw : ∀ p ∈ es, p.1.Wellformed ∧ p.1.Kept py) (hl : es.length ≤ 2 ^ 31) {n : ℕ}
    (hn0 : n ≠ 0) (hn1 : n ≠ 1 ∨ py.single = none)
    (hpr : ∀ f p, metricsOf (es.map fun p => p.2.meas) f p ≠ [] →
      Prints py (py.mean (metricsOf (es.map fun p => p.2.meas) f p)))
    (hn : ∀ p ∈ es, p.1.nf = n) {rows : List Record} (h : RowsOf es rows) :
    ∃ l ms, py.aggregate ⟨"index".toList :: Spec.headerColumns n, rows⟩ .meanMin =
        .ok ('#' :: " agg by mean_min".toList ++ "\n".toList, l) ∧
      List.Forall₂ EntryReads l ms ∧ l.length ≤ 2 ^ 31 ∧
      ∀ f p m, (f, p, m) ∈ entries ms ↔ metricsOf (es.map fun p => p.2.meas) f p ≠ [] ∧
        m = py.mean (metricsOf (es.map fun p => p.2.meas) f p) ∧
        ∀ p', metricsOf (es.map fun p => p.2.meas) f p' ≠ [] →
          m < py.mean (metricsOf (es.map fun p => p.2.meas) f p') ∨
          (m = py.mean (metricsOf (es.map fun p => p.2.meas) f p') ∧ p ≤ p') := by
  have hin := h.mem_rows
  have hkept := fun p hp => (hw p hp).2
  obtain ⟨g, g1, g2, g3, g4⟩ := groupRows_ok (by_ := (List.range n).map fcol)
    (key := fun p => fkey p.2.features) h (by
      intro p hp rec hR
      rw [← hn p hp]
      exact hR.key (hw p hp).1)
  obtain ⟨l, l1, l2⟩ := mapM_res (f := fun kr => py.meanMinEntry ((List.range n).map fcol) kr.2) (l := g)
    (R := fun kr e => ∃ x : Meas, (∃ q ∈ es, fkey q.2.features = kr.1 ∧ x = ⟨q.2.features, q.2.policy,
      py.mean (metricsOf (es.map fun p => p.2.meas) q.2.features q.2.policy)⟩ ∧
      ∀ p', metricsOf (es.map fun p => p.2.meas) q.2.features p' ≠ [] →
          x.metric < py.mean (metricsOf (es.map fun p => p.2.meas) q.2.features p') ∨
          (x.metric = py.mean (metricsOf (es.map fun p => p.2.meas) q.2.features p') ∧
            q.2.policy ≤ p')) ∧ EntryReads e x) (by
      rintro ⟨k, rs⟩ hkr
      obtain ⟨hne, hrs⟩ := g4 _ hkr
      simp only at hne hrs ⊢
      have hsub : ∀ p ∈ withKey (fun p => fkey p.2.features) es k, p ∈ es :=
        fun p hp => List.mem_of_mem_filter hp
      have hkey : ∀ p ∈ withKey (fun p => fkey p.2.features) es k, fkey p.2.features = k :=
        fun p hp => by simpa using (List.mem_filter.1 hp).2
      obtain ⟨q0, tl, hq0⟩ := List.exists_cons_of_ne_nil hne
      have hq0k : q0 ∈ withKey (fun p => fkey p.2.features) es k := by rw [hq0]; simp
      obtain ⟨bestRow, q, hqk, hR, he, hbest⟩ := meanMinEntry_ok py hne
        (fun p hp => hw p (hsub p hp)) hrs ((List.range n).map fcol)
        (fun p => metricsOf (es.map fun p => p.2.meas) q0.2.features p) (by
          intro p
          have := metricsOf_group hin hkept (hsub q0 hq0k) p
          rw [hkey q0 hq0k] at this
          exact this)
      have hqe := hsub q hqk
      have hf : q0.2.features = q.2.features :=
        (features_key hin hkept (hsub q0 hq0k) hqe).1 ((hkey q0 hq0k).trans (hkey q hqk).symm)
      rw [hf] at he hbest
      refine ⟨_, he, _, ⟨q, hqe, hkey q hqk, rfl, ?_⟩, ?_⟩
      · intro p' hp'
        obtain ⟨q', hq', e1, rfl⟩ := metricsOf_ne_nil.1 hp'
        refine hbest q' (List.mem_filter.2 ⟨hq', ?_⟩)
        rw [decide_eq_true_eq]
        exact (congrArg fkey e1).trans (hkey q hqk)
      · have hE := hR.entry (hw q hqe).1 (hw q hqe).2
        rw [hq0] at hrs
        have hE0 := (hrs.head fun _ => Cell.nan).entry (hw q0 (hsub q0 hq0k)).1 (hw q0 (hsub q0 hq0k)).2
        rw [hn q0 (hsub q0 hq0k)] at hE0
        refine ⟨?_, hE.pol, ?_⟩
        · have := hE0.feats
          simp only [nameTexts_eq hn1]
          simp only [Row.meas, hf] at this
          exact this
        · exact (hpr q.2.features q.2.policy (metricsOf_ne_nil.2 ⟨q, hqe, rfl, rfl⟩)).time)
  obtain ⟨ms, m1, m2⟩ := forall₂_choose l2
  have hfeat : ms.map (fun x => fkey x.features) = g.map Prod.fst := by
    clear l1 l2 m2 g1 g2 g3 g4
    induction m1 with
    | nil => rfl
    | cons hS _ ih =>
      obtain ⟨q, -, hk, rfl, -⟩ := hS
      rw [List.map_cons, List.map_cons, ih, ← hk]
  have hnd : (ms.map fun x => (x.features, x.policy)).Nodup := by
    have h1 : (ms.map fun x => fkey x.features).Nodup := by rw [hfeat]; exact nodup_fst g2
    have h2 : (ms.map fun x => fkey x.features) =
        (ms.map fun x => (x.features, x.policy)).map fun y => fkey y.1 := by simp
    rw [h2] at h1
    exact List.Nodup.of_map _ h1
  refine ⟨l, ms, ?_, m2, ?_, ?_⟩
  · simp only [Py.aggregate, Py.aggMeanMin, featureCols_index]
    rw [groupby_index (fcols_ne_nil hn0) (by
      intro c hc
      obtain ⟨i, hi, rfl⟩ := List.mem_map.1 hc
      exact fcol_mem.2 (List.mem_range.1 hi)) g1]
    simp only [Res.bind_ok, needs_index, List.mapM_map]
    have e : (py.meanMinEntry ((List.range n).map fcol) ∘ Prod.snd) =
        fun kr : List ℚ × List Record => py.meanMinEntry ((List.range n).map fcol) kr.2 := rfl
    rw [e, l1]
    by_cases hg : g.map Prod.snd = []
    · have : g = [] := by simpa using hg
      subst this
      cases l2
      rfl
    · rw [if_neg hg]; rfl
  · rw [← l2.length_eq]
    exact (length_groups g2 g3).trans hl
  · intro f p m
    rw [entries_distinct hnd]
    constructor
    · intro hm
      obtain ⟨kr, -, q, hq, -, hx, hbest⟩ := forall₂_right m1 hm
      injection hx with h1 h2 h3
      subst h1 h2
      exact ⟨metricsOf_ne_nil.2 ⟨q, hq, rfl, rfl⟩, h3, hbest⟩
    · rintro ⟨h1, rfl, hbest⟩
      obtain ⟨q, hq, rfl, rfl⟩ := metricsOf_ne_nil.1 h1
      obtain ⟨kr, hkr, hk⟩ := List.mem_map.1 ((g3 (fkey q.2.features)).2 ⟨q, hq, rfl⟩)
      obtain ⟨x, hx, q2, hq2, hk2, rfl, hbest2⟩ := forall₂_left m1 hkr
      have e1 := (features_key hin hkept hq2 hq).1 (hk2.trans hk)
      rw [e1] at hx hbest2
      have a1 := hbest2 q.2.policy (metricsOf_ne_nil.2 ⟨q, hq, rfl, rfl⟩)
      have a2 := hbest q2.2.policy (metricsOf_ne_nil.2 ⟨q2, hq2, e1, rfl⟩)
      have : q2.2.policy = q.2.policy := by
        rcases a1 with a1 | ⟨a1, b1⟩
        · rcases a2 with a2 | ⟨a2, b2⟩
          · exact absurd a1 (not_lt_of_gt a2)
          · rw [a2] at a1; exact absurd a1 (lt_irrefl _)
        · rcases a2 with a2 | ⟨a2, b2⟩
          · simp only at a1; rw [a1] at a2; exact absurd a2 (lt_irrefl _)
          · exact le_antisymm b1 b2
      rw [this] at hx
      exact hx

end Apollo.Scripts
