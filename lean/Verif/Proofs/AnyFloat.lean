import Verif.Model.AnyFloat
import Verif.Proofs.SearchTree
import Verif.Proofs.DatasetHist

/-! Features that are any floats: helper lemmas for C91. -/

namespace Apollo

open Apollo.Spec

/-- The numbers of the features, and the policy. -/
abbrev NumKey := List (WithBot (WithTop ℚ)) ×ₗ ℤ

/-- The key of features and a policy. -/
def numKey (k : List AnyFloat × ℤ) : NumKey := toLex (numbers k.1, k.2)

theorem lt_eq {a b : AnyFloat} (ha : a ≠ .nan) (hb : b ≠ .nan) :
    a.lt b = decide ((num a).getD ⊥ < (num b).getD ⊥) := by
  cases a <;> cases b <;> simp_all [AnyFloat.lt, num]
  · exact decide_eq_true (WithBot.coe_lt_coe.2 (WithTop.coe_lt_top _))
  · exact decide_eq_true (WithBot.coe_lt_coe.2 (WithTop.coe_lt_top (0 : ℚ)))

theorem lexLt_eq_of {L : Type} [LinearOrder L] {g : AnyFloat → L} {P : AnyFloat → Prop}
    (h : ∀ a b, P a → P b → a.lt b = decide (g a < g b)) (f f' : List AnyFloat)
    (hf : ∀ x ∈ f, P x) (hf' : ∀ x ∈ f', P x) :
    lexLt f f' = decide (f.map g < f'.map g) := by
  induction f generalizing f' with
  | nil => cases f' <;> simp [lexLt]
  | cons a f ih =>
    cases f' with
    | nil => simp [lexLt]
    | cons b f' =>
      simp only [List.forall_mem_cons] at hf hf'
      rw [lexLt, h _ _ hf.1 hf'.1, h _ _ hf'.1 hf.1, ih f' hf.2 hf'.2]
      simp only [List.map_cons, List.cons_lt_cons_iff]
      rcases lt_trichotomy (g a) (g b) with h1 | h1 | h1
      · simp [h1]
      · simp [h1]
      · simp [h1, h1.not_gt, h1.ne']

theorem keyLt_eq_of {L : Type} [LinearOrder L] {g : AnyFloat → L} {P : AnyFloat → Prop}
    (h : ∀ a b, P a → P b → a.lt b = decide (g a < g b)) (a b : List AnyFloat × ℤ)
    (ha : ∀ x ∈ a.1, P x) (hb : ∀ x ∈ b.1, P x) :
    keyLt a b = decide ((toLex (a.1.map g, a.2) : List L ×ₗ ℤ) < toLex (b.1.map g, b.2)) := by
  rw [keyLt, lexLt_eq_of h _ _ ha hb, lexLt_eq_of h _ _ hb ha, Bool.eq_iff_iff]
  simp only [Bool.or_eq_true, decide_eq_true_eq, Bool.and_eq_true, Bool.not_eq_true',
    decide_eq_false_iff_not, Prod.Lex.toLex_lt_toLex]
  rcases lt_trichotomy (a.1.map g) (b.1.map g) with h1 | h1 | h1
  · simp [h1]
  · simp [h1]
  · simp [h1, h1.not_gt, h1.ne']

theorem numbers_inj {f g : List AnyFloat} (hf : ∀ x ∈ f, x ≠ .nan) (hg : ∀ x ∈ g, x ≠ .nan) :
    numbers f = numbers g ↔ SameFeatures f g := by
  have key : ∀ f : List AnyFloat, (∀ x ∈ f, x ≠ .nan) → f.map num = (numbers f).map some := by
    intro f hf
    rw [numbers, List.map_map]
    refine List.map_congr_left fun x hx => ?_
    have := hf x hx
    cases x <;> simp_all [num]
  rw [SameFeatures, key f hf, key g hg]
  exact ⟨fun h => by rw [h], fun h => List.map_injective_iff.2 (Option.some_injective _) h⟩

/-- The dataset after a history. -/
def anyRun (balance : AnyDataset → AnyDataset) (h : List AnyMeas) : AnyDataset :=
  h.foldl (fun ds x => AnyDataset.insert balance ds x.1 x.2.1 x.2.2) .leaf

theorem insert_view {L : Type} [LinearOrder L] {g : AnyFloat → L} {P : AnyFloat → Prop}
    (h : ∀ a b, P a → P b → a.lt b = decide (g a < g b)) {balance : AnyDataset → AnyDataset}
    (hb : ∀ t, (balance t).toList = t.toList) {ds : AnyDataset}
    (hd : ∀ e ∈ ds.toList, ∀ x ∈ e.1.1, P x)
    (hs : (ds.view fun k => (toLex (k.1.map g, k.2) : List L ×ₗ ℤ)).Sorted) {f : List AnyFloat}
    (hf : ∀ x ∈ f, P x) (p : ℤ) (m : ℚ) :
    (AnyDataset.insert balance ds f p m).view (fun k => (toLex (k.1.map g, k.2) : List L ×ₗ ℤ)) =
      OMap.upsert (fun | none => m | some old => Dataset.ema old m) (toLex (f.map g, p))
        (ds.view fun k => (toLex (k.1.map g, k.2) : List L ×ₗ ℤ)) ∧
      ∀ e ∈ (AnyDataset.insert balance ds f p m).toList, ∀ x ∈ e.1.1, P x := by
  refine SearchTree.view_upsert (P := fun k : List AnyFloat × ℤ => ∀ x ∈ k.1, P x)
    (fun a b ha hb => keyLt_eq_of h a b ha hb) hb hd hs (k := (f, p)) hf _ ?_
  rw [AnyDataset.insert]
  cases SearchTree.find keyLt (f, p) ds <;> rfl

theorem anyRun_view {L : Type} [LinearOrder L] {g : AnyFloat → L} {P : AnyFloat → Prop}
    (hg : ∀ a b, P a → P b → a.lt b = decide (g a < g b)) {balance : AnyDataset → AnyDataset}
    (hb : ∀ t, (balance t).toList = t.toList) (h : List AnyMeas) (hP : ∀ y ∈ h, ∀ x ∈ y.1, P x) :
    (anyRun balance h).view (fun k => (toLex (k.1.map g, k.2) : List L ×ₗ ℤ)) =
      h.foldl (fun ds y => OMap.upsert (fun | none => y.2.2 | some old => Dataset.ema old y.2.2)
        (toLex (y.1.map g, y.2.1)) ds) [] ∧
      OMap.Sorted ((anyRun balance h).view fun k => (toLex (k.1.map g, k.2) : List L ×ₗ ℤ)) ∧
      ∀ e ∈ (anyRun balance h).toList, ∀ x ∈ e.1.1, P x := by
  induction h using List.reverseRecOn with
  | nil => exact ⟨rfl, OMap.sorted_nil, by simp [anyRun, SearchTree.toList]⟩
  | append_singleton h y ih =>
    obtain ⟨i1, i2, i3⟩ := ih fun z hz => hP z (by simp [hz])
    obtain ⟨j1, j2⟩ := insert_view hg hb i3 i2 (hP y (by simp)) y.2.1 y.2.2
    have e : anyRun balance (h ++ [y]) =
        AnyDataset.insert balance (anyRun balance h) y.1 y.2.1 y.2.2 := by
      simp [anyRun]
    rw [e, List.foldl_append]
    refine ⟨by rw [j1, i1]; rfl, ?_, j2⟩
    rw [j1]
    exact i2.upsert _ _

theorem runningAverage_snoc (avg : ℚ → ℚ → ℚ) (l : List ℚ) (m : ℚ) :
    runningAverage avg (l ++ [m]) = some (match runningAverage avg l with
      | none => m
      | some old => avg old m) := by
  cases l <;> simp [runningAverage]

theorem find_anyRun {balance : AnyDataset → AnyDataset} (hb : ∀ t, (balance t).toList = t.toList)
    (h : List AnyMeas) (hP : ∀ y ∈ h, ∀ x ∈ y.1, x ≠ .nan) {f : List AnyFloat}
    (hf : ∀ x ∈ f, x ≠ .nan) (p : ℤ) :
    OMap.find ((anyRun balance h).view numKey) (numKey (f, p)) =
      runningAverage halfHalf (anyMetricsOf h f p) := by
  have hg := anyRun_view (P := fun x => x ≠ .nan) (g := fun x => (num x).getD ⊥)
    (fun a b => lt_eq) hb
  have : ∀ h : List AnyMeas, (anyRun balance h).view numKey = (anyRun balance h).view
    (fun k => (toLex (k.1.map fun x => (num x).getD ⊥, k.2) : NumKey)) := fun h => rfl
  induction h using List.reverseRecOn with
  | nil => rfl
  | append_singleton h y ih =>
    obtain ⟨i1, i2, i3⟩ := hg h fun z hz => hP z (by simp [hz])
    rw [this, (hg _ hP).1, List.foldl_append, ← i1, List.foldl_cons, List.foldl_nil,
      OMap.find_upsert_of_sorted i2]
    have ih := ih fun z hz => hP z (by simp [hz])
    have hy := hP y (by simp)
    have e : (numKey (f, p) = toLex (y.1.map fun x => (num x).getD ⊥, y.2.1)) ↔
        SameFeatures y.1 f ∧ y.2.1 = p := by
      rw [← numbers_inj hy hf, numKey, toLex_inj, Prod.mk.injEq]
      exact and_congr eq_comm eq_comm
    unfold anyMetricsOf at ih ⊢
    rw [List.filter_append, List.map_append]
    by_cases hc : SameFeatures y.1 f ∧ y.2.1 = p
    · rw [if_pos (e.2 hc), ← e.2 hc, ← this, ih, List.filter_singleton, decide_eq_true hc,
        cond_true, List.map_singleton, runningAverage_snoc, ema_eq_halfHalf]
    · rw [if_neg (fun h => hc (e.1 h)), ← this, ih, List.filter_singleton,
        decide_eq_false hc]
      simp

theorem entries_view {balance : AnyDataset → AnyDataset} (h : List AnyMeas) (f : List AnyFloat)
    (p : ℤ) (m : ℚ) : (f, p, m) ∈ anyEntries balance h ↔ ((f, p), m) ∈ (anyRun balance h).toList := by
  unfold anyEntries AnyDataset.toVectorOfTuples
  simp only [List.mem_map, Prod.mk.injEq]
  constructor
  · rintro ⟨⟨⟨f', p'⟩, m'⟩, h1, rfl, rfl, rfl⟩
    exact h1
  · exact fun h => ⟨((f, p), m), h, rfl, rfl, rfl⟩

/-- The finite number of a float (zero for the special values). -/
def finVal : AnyFloat → ℚ
  | .fin q => q
  | _ => 0

/-- A history with finite features, as one with any features. -/
def ofFinite (h : List Meas) : List AnyMeas :=
  h.map fun x => (x.features.map .fin, x.policy, x.metric)

theorem anyRun_finite {balance : AnyDataset → AnyDataset} (hb : ∀ t, (balance t).toList = t.toList)
    (h : List Meas) :
    (anyRun balance (ofFinite h)).toList =
      (run h).map fun e => (((ofLex e.1).1.map .fin, (ofLex e.1).2), e.2) := by
  have hP : ∀ y ∈ ofFinite h, ∀ x ∈ y.1, ∃ q, x = .fin q := by
    intro y hy x hx
    obtain ⟨z, -, rfl⟩ := List.mem_map.1 hy
    obtain ⟨q, -, rfl⟩ := List.mem_map.1 hx
    exact ⟨q, rfl⟩
  obtain ⟨h1, -, h3⟩ := anyRun_view (P := fun x => ∃ q, x = .fin q) (g := finVal) (by
    rintro _ _ ⟨a, rfl⟩ ⟨b, rfl⟩
    rfl) hb (ofFinite h) hP
  have h4 : (ofFinite h).foldl (fun ds y => OMap.upsert
      (fun | none => y.2.2 | some old => Dataset.ema old y.2.2)
        (toLex (y.1.map finVal, y.2.1)) ds) [] = run h := by
    rw [ofFinite, List.foldl_map, run]
    have : ∀ f : List ℚ, (f.map AnyFloat.fin).map finVal = f := by
      intro f
      rw [List.map_map]
      exact List.map_id' f
    simp only [this]
    rfl
  rw [h4] at h1
  rw [← h1, SearchTree.view, List.map_map]
  refine (List.map_id' _).symm.trans (List.map_congr_left fun e he => ?_)
  obtain ⟨⟨f, p⟩, m⟩ := e
  simp only [Function.comp_apply, ofLex_toLex, List.map_map]
  have : f.map (AnyFloat.fin ∘ finVal) = f := by
    refine (List.map_congr_left fun x hx => ?_).trans (List.map_id' f)
    obtain ⟨q, rfl⟩ := h3 _ he x hx
    rfl
  rw [this]

/-- Features that consist of one NaN, and other features with one element, are not ordered. -/
theorem keyLt_nan (x y : AnyFloat) (p : ℤ) (h : x = .nan ∨ y = .nan) :
    keyLt ([x], p) ([y], p) = false := by
  rcases h with rfl | rfl
  · cases y <;> simp [keyLt, lexLt, AnyFloat.lt]
  · cases x <;> simp [keyLt, lexLt, AnyFloat.lt]

theorem anyRun_nan (balance : AnyDataset → AnyDataset) (p : ℤ) (m : ℚ) (ms : List (AnyFloat × ℚ)) :
    ms.foldl (fun ds x => AnyDataset.insert balance ds [x.1] p x.2)
        (.node .leaf ([.nan], p) m .leaf) =
      .node .leaf ([.nan], p) ((ms.map Prod.snd).foldl halfHalf m) .leaf := by
  induction ms generalizing m with
  | nil => rfl
  | cons x ms ih =>
    rw [List.foldl_cons, List.map_cons, List.foldl_cons, ← ih]
    congr 1
    simp [AnyDataset.insert, SearchTree.find, SearchTree.lowerBound, SearchTree.toList, keyLt_nan,
      SearchTree.modify, SearchTree.size, ema_eq_halfHalf]

end Apollo
