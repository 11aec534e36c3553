import Verif.Model.CollectiveRun
import Verif.Props.Collective

/-!
# Histories of collective training: invariants
-/

namespace Apollo.Props

open Apollo Apollo.Collective Apollo.Spec

/-- The ranks declare regions of the same name with the same number of features. -/
def Agree (ranks : List Registry) : Prop :=
  ∀ r ∈ ranks, ∀ r' ∈ ranks, ∀ n R R', OMap.find r n = some R → OMap.find r' n = some R' →
    R.numFeatures = R'.numFeatures

/-- A measurement of a region with as many features as any rank declares, of finite numbers. -/
structure Fit (ranks : List Registry) (n : Str) (f : Features) (p : ℤ) (m : ℚ) : Prop where
  features : ∀ r ∈ ranks, ∀ R, OMap.find r n = some R → (f.length : ℤ) = R.numFeatures
  finite : ∀ x ∈ f, fmt32.Finite x
  policy : -2 ^ 31 ≤ p ∧ p < 2 ^ 31
  metric : fmt64.Finite m

/-- All measurements of a history fit. -/
def AllFit (ranks : List Registry) (ops : List COp) : Prop :=
  ∀ i n f p m, COp.measure i n f p m ∈ ops → Fit ranks n f p m

/-! ## Finite averages -/

/-- The greatest finite double. -/
def maxDouble : ℚ := (2 ^ 53 - 1) * 2 ^ (971 : ℤ)

theorem maxDouble_half : Float64 (maxDouble / 2) :=
  ⟨2 ^ 53 - 1, 970, by norm_num, by norm_num, by
    unfold maxDouble
    rw [show (971 : ℤ) = 970 + 1 by norm_num, zpow_add₀ (by norm_num)]
    push_cast
    ring⟩

theorem maxDouble_float : Float64 maxDouble :=
  ⟨2 ^ 53 - 1, 971, by norm_num, by norm_num, by unfold maxDouble; push_cast; ring⟩

theorem two_1024 : (2 : ℚ) ^ (fmt64.emin + 2 ^ fmt64.ebits - 3 + fmt64.p) =
    2 ^ 53 * 2 ^ (971 : ℤ) := by
  show (2 : ℚ) ^ (1024 : ℤ) = 2 ^ 53 * 2 ^ (971 : ℤ)
  rw [show (1024 : ℤ) = (53 : ℕ) + 971 by norm_num, zpow_add₀ (by norm_num), zpow_natCast]

theorem le_maxDouble {a : ℚ} (h : fmt64.Finite a) : |a| ≤ maxDouble := by
  obtain ⟨⟨m, e, hm, -, rfl⟩, hlt⟩ := h
  rw [two_1024] at hlt
  have hm' : |(m : ℚ)| ≤ 2 ^ 53 := by exact_mod_cast hm
  rw [abs_mul, abs_of_pos (two_zpow_pos e)] at hlt ⊢
  have hp := two_zpow_pos (971 : ℤ)
  unfold maxDouble
  by_cases he : 971 ≤ e
  · obtain ⟨k, rfl⟩ : ∃ k : ℕ, e = 971 + k := ⟨(e - 971).toNat, by omega⟩
    rw [zpow_add₀ (by norm_num), zpow_natCast, ← mul_assoc, mul_right_comm] at hlt ⊢
    refine mul_le_mul_of_nonneg_right ?_ hp.le
    have h1 := lt_of_mul_lt_mul_right hlt hp.le
    have h2 : |m| * 2 ^ k < 2 ^ 53 := by exact_mod_cast h1
    have h3 : |m| * 2 ^ k ≤ 2 ^ 53 - 1 := by omega
    exact_mod_cast h3
  · have h1 : (2 : ℚ) ^ e ≤ 2 ^ (970 : ℤ) := zpow_le_zpow_right₀ (by norm_num) (by omega)
    have h2 : (2 : ℚ) ^ (971 : ℤ) = 2 * 2 ^ (970 : ℤ) := by
      rw [show (971 : ℤ) = 1 + 970 by norm_num, zpow_add₀ (by norm_num), zpow_one]
    rw [h2]
    calc |(m : ℚ)| * 2 ^ e ≤ 2 ^ 53 * 2 ^ (970 : ℤ) :=
          mul_le_mul hm' h1 (two_zpow_pos e).le (by positivity)
      _ ≤ _ := by
          have := two_zpow_pos (970 : ℤ)
          generalize (2 : ℚ) ^ (970 : ℤ) = x at this
          linarith

theorem finite_of_le {a : ℚ} (h : Float64 a) (h2 : |a| ≤ maxDouble) : fmt64.Finite a := by
  refine ⟨h, ?_⟩
  rw [two_1024]
  refine lt_of_le_of_lt h2 ?_
  unfold maxDouble
  have := two_zpow_pos (971 : ℤ)
  generalize (2 : ℚ) ^ (971 : ℤ) = x at this
  linarith

theorem finite_halfHalf {a b : ℚ} (ha : fmt64.Finite a) (hb : fmt64.Finite b) :
    fmt64.Finite (halfHalf a b) := by
  have bound : ∀ {x : ℚ}, |x| ≤ maxDouble → |rnd64 (x / 2)| ≤ maxDouble / 2 := by
    intro x hx
    obtain ⟨h1, h2⟩ := abs_le.1 hx
    refine abs_le.2 ⟨?_, ?_⟩
    · exact le_rnd_of_le (by norm_num) (representable_neg maxDouble_half) (by linarith)
    · exact rnd_le_of_le (by norm_num) maxDouble_half (by linarith)
  have h1 := abs_le.1 (bound (le_maxDouble ha))
  have h2 := abs_le.1 (bound (le_maxDouble hb))
  refine finite_of_le (representable_rnd _) (abs_le.2 ⟨?_, ?_⟩)
  · exact le_rnd_of_le (by norm_num) (representable_neg maxDouble_float) (by linarith [h1.1, h2.1])
  · exact rnd_le_of_le (by norm_num) maxDouble_float (by linarith [h1.2, h2.2])

theorem finite_runningAverage {l : List ℚ} (h : ∀ x ∈ l, fmt64.Finite x) {v : ℚ}
    (hv : runningAverage halfHalf l = some v) : fmt64.Finite v := by
  cases l with
  | nil => cases hv
  | cons a l =>
    cases hv
    have : ∀ (l : List ℚ) (a : ℚ), fmt64.Finite a → (∀ x ∈ l, fmt64.Finite x) →
        fmt64.Finite (l.foldl halfHalf a) := by
      intro l
      induction l with
      | nil => intro a ha _; exact ha
      | cons b l ih =>
        intro a ha hl
        exact ih _ (finite_halfHalf ha (hl b (by simp))) fun x hx => hl x (by simp [hx])
    exact this l a (h a (by simp)) fun x hx => h x (by simp [hx])

/-! ## One event -/

theorem gather_length {ranks ranks' : List Registry} (h : ∀ regs ∈ ranks, WellFormed regs)
    (hn : ranks.length ≤ 2 ^ 31) (hg : gather exactMpi ranks = .ok ranks') :
    ranks'.length = ranks.length := by
  have hlen : ∀ (ms : List Msg) (l : List Registry) (i : ℕ),
      (absorbAll ms i l).length = l.length := by
    intro ms l
    induction l with
    | nil => intro i; rfl
    | cons r rs ih => intro i; simp [absorbAll, ih]
  rw [gather_eq h hn hg, hlen]

/-- What a rank had before. -/
theorem gather_before {ranks ranks' : List Registry} (h : ∀ regs ∈ ranks, WellFormed regs)
    (hn : ranks.length ≤ 2 ^ 31) (hg : gather exactMpi ranks = .ok ranks') {i : ℕ}
    {regs' : Registry} (hi' : ranks'[i]? = some regs') : ∃ regs, ranks[i]? = some regs := by
  have h1 := gather_length h hn hg
  have h2 : i < ranks'.length := by
    by_contra hx
    rw [List.getElem?_eq_none (by omega)] at hi'
    cases hi'
  exact ⟨ranks[i], by simp⟩

/-- The data of a region after gathering. -/
theorem gather_find {ranks ranks' : List Registry} (h : ∀ regs ∈ ranks, WellFormed regs)
    (hn : ranks.length ≤ 2 ^ 31) (hg : gather exactMpi ranks = .ok ranks') {i : ℕ}
    {regs regs' : Registry} (hi : ranks[i]? = some regs) (hi' : ranks'[i]? = some regs') (n : Str) :
    OMap.Sorted regs' ∧ OMap.find regs' n = (OMap.find regs n).map fun R =>
      { R with dataset := R.dataset.insertAll (taken i n (allMsgs 0 ranks)) } := by
  rw [gather_eq h hn hg, absorbAll_get, hi, Option.map_some, Nat.zero_add] at hi'
  cases hi'
  exact absorbs_find (me := (i : ℕ)) (h regs (List.mem_of_getElem? hi)).sorted (allMsgs 0 ranks) n

/-- A pair known after gathering was known to a rank before, and where from it has its metric. -/
theorem gather_known {ranks ranks' : List Registry} (h : ∀ regs ∈ ranks, WellFormed regs)
    (hn : ranks.length ≤ 2 ^ 31) (hg : gather exactMpi ranks = .ok ranks') {i : ℕ}
    {regs regs' : Registry} (hi : ranks[i]? = some regs) (hi' : ranks'[i]? = some regs') {n : Str}
    {f : Features} {p : ℤ} {m : ℚ} (hm : metricOn regs' n f p = some m) :
    hasRegion regs n ∧ (∃ r ∈ ranks, (metricOn r n f p).isSome) ∧
      ∃ l, runningAverage halfHalf l = some m ∧
        ∀ v ∈ l, ∃ r ∈ ranks, metricOn r n f p = some v := by
  have hr : hasRegion regs n := by
    rw [← (C49_regions h hn hg hi hi' n).1]
    unfold hasRegion
    unfold metricOn at hm
    cases hf : OMap.find regs' n with
    | none => rw [hf] at hm; cases hm
    | some R => rfl
  refine ⟨hr, (C49_union h hn hg hi hi' hr f p).1 (by rw [hm]; rfl), _,
    (C49_metric h hn hg hi hi' hr f p).symm.trans hm, fun v hv => (mem_all hi n f p v).1 hv⟩

theorem gather_wellFormed {ranks ranks' : List Registry} (h : ∀ regs ∈ ranks, WellFormed regs)
    (ha : Agree ranks) (hn : ranks.length ≤ 2 ^ 31) (hg : gather exactMpi ranks = .ok ranks') :
    ∀ regs ∈ ranks', WellFormed regs := by
  intro regs' hmem
  obtain ⟨i, hi'⟩ := List.getElem?_of_mem hmem
  obtain ⟨regs, hi⟩ := gather_before h hn hg hi'
  have hw := h regs (List.mem_of_getElem? hi)
  have hs := (gather_find h hn hg hi hi' []).1
  have hf := fun n => (gather_find h hn hg hi hi' n).2
  have back : ∀ x ∈ regs', ∃ R, (x.1, R) ∈ regs ∧ x.2.numFeatures = R.numFeatures ∧
      x.2.dataset = R.dataset.insertAll (taken i x.1 (allMsgs 0 ranks)) := by
    rintro ⟨n, R'⟩ hx
    have h1 := hf n
    rw [(hs.find_eq_some_iff n R').2 hx] at h1
    cases hR : OMap.find regs n with
    | none => rw [hR] at h1; cases h1
    | some R =>
      rw [hR] at h1
      cases h1
      exact ⟨R, OMap.mem_of_find_eq_some hR, rfl, rfl⟩
  refine ⟨hs, ?_, ?_, ?_, ?_, ?_, ?_⟩
  · intro x hx
    obtain ⟨R, h1, -, h2⟩ := back x hx
    rw [h2]
    exact Dataset.sorted_insertAll (hw.data _ h1) _
  · intro x hx
    obtain ⟨R, h1, -, -⟩ := back x hx
    exact hw.name (x.1, R) h1
  · intro x hx
    obtain ⟨R, h1, h2, -⟩ := back x hx
    rw [h2]
    exact hw.count _ h1
  · intro n f p m hm R' hR'
    obtain ⟨hr, ⟨r, hr1, hr2⟩, -⟩ := gather_known h hn hg hi hi' hm
    obtain ⟨v, hv⟩ := Option.isSome_iff_exists.1 hr2
    obtain ⟨R, hR⟩ := Option.isSome_iff_exists.1 hr
    have hnf := (C49_regions h hn hg hi hi' n).2 R R' hR hR'
    cases hQ : OMap.find r n with
    | none => unfold metricOn at hv; rw [hQ] at hv; cases hv
    | some Q =>
      have h1 := (h r hr1).features n f p v hv Q hQ
      refine ⟨?_, h1.2⟩
      rw [h1.1, hnf]
      exact ha _ hr1 _ (List.mem_of_getElem? hi) n Q R hQ hR
  · intro n f p m hm
    obtain ⟨hr, ⟨r, hr1, hr2⟩, -⟩ := gather_known h hn hg hi hi' hm
    obtain ⟨v, hv⟩ := Option.isSome_iff_exists.1 hr2
    exact (h r hr1).policy n f p v hv
  · intro n f p m hm
    obtain ⟨-, -, l, hl, hmem⟩ := gather_known h hn hg hi hi' hm
    refine finite_runningAverage (fun x hx => ?_) hl
    obtain ⟨r, hr1, hr2⟩ := hmem x hx
    exact (h r hr1).metric n f p x hr2

/-! ## What a history leaves unchanged -/

/-- The same regions with the same numbers of features on every rank. -/
def SameRegions (ranks ranks' : List Registry) : Prop :=
  ranks'.length = ranks.length ∧ ∀ (i : ℕ) (r r' : Registry), ranks[i]? = some r →
    ranks'[i]? = some r' → ∀ n, (OMap.find r' n).map LReg.numFeatures =
      (OMap.find r n).map LReg.numFeatures

theorem SameRegions.refl (ranks : List Registry) : SameRegions ranks ranks :=
  ⟨rfl, fun i r r' h h' n => by rw [h] at h'; cases h'; rfl⟩

theorem SameRegions.trans {a b c : List Registry} (h1 : SameRegions a b) (h2 : SameRegions b c) :
    SameRegions a c := by
  refine ⟨h2.1.trans h1.1, fun i r r' hr hr' n => ?_⟩
  have hi : i < b.length := by
    rw [h1.1]
    by_contra hx
    rw [List.getElem?_eq_none (by omega)] at hr
    cases hr
  have hb : b[i]? = some b[i] := by simp
  rw [h2.2 i _ r' hb hr' n, h1.2 i r _ hr hb n]

theorem SameRegions.back {a b : List Registry} (h : SameRegions a b) {r' : Registry} (hr : r' ∈ b)
    {n : Str} {R' : LReg} (hR : OMap.find r' n = some R') :
    ∃ r ∈ a, ∃ R, OMap.find r n = some R ∧ R'.numFeatures = R.numFeatures := by
  obtain ⟨i, hi⟩ := List.getElem?_of_mem hr
  have hlt : i < a.length := by
    rw [← h.1]
    by_contra hx
    rw [List.getElem?_eq_none (by omega)] at hi
    cases hi
  have ha : a[i]? = some a[i] := by simp
  have := h.2 i _ r' ha hi n
  rw [hR] at this
  cases hR0 : OMap.find a[i] n with
  | none => rw [hR0] at this; cases this
  | some R =>
    rw [hR0] at this
    exact ⟨a[i], List.getElem_mem hlt, R, hR0, Option.some.inj this⟩

theorem SameRegions.agree {a b : List Registry} (h : SameRegions a b) (ha : Agree a) : Agree b := by
  intro r hr r' hr' n R R' hR hR'
  obtain ⟨q, hq, Q, hQ, e⟩ := h.back hr hR
  obtain ⟨q', hq', Q', hQ', e'⟩ := h.back hr' hR'
  rw [e, e']
  exact ha q hq q' hq' n Q Q' hQ hQ'

theorem SameRegions.fit {a b : List Registry} (h : SameRegions a b) {n : Str} {f : Features} {p : ℤ}
    {m : ℚ} (hf : Fit a n f p m) : Fit b n f p m := by
  refine ⟨fun r hr R hR => ?_, hf.finite, hf.policy, hf.metric⟩
  obtain ⟨q, hq, Q, hQ, e⟩ := h.back hr hR
  rw [e]
  exact hf.features q hq Q hQ

theorem gather_same {ranks ranks' : List Registry} (h : ∀ regs ∈ ranks, WellFormed regs)
    (hn : ranks.length ≤ 2 ^ 31) (hg : gather exactMpi ranks = .ok ranks') :
    SameRegions ranks ranks' := by
  refine ⟨gather_length h hn hg, fun i r r' hi hi' n => ?_⟩
  rw [(gather_find h hn hg hi hi' n).2]
  cases OMap.find r n <;> rfl

theorem recordOn_find {n : Str} {f : Features} {p : ℤ} {m : ℚ} {regs : Registry}
    (hs : OMap.Sorted regs) (n' : Str) :
    OMap.Sorted (recordOn n f p m regs) ∧ OMap.find (recordOn n f p m regs) n' =
      (OMap.find regs n').map fun R =>
        if n' = n then { R with dataset := R.dataset.insert f p m } else R := by
  unfold recordOn
  cases h : OMap.find regs n with
  | none =>
    refine ⟨hs, ?_⟩
    by_cases hn : n' = n
    · subst hn; rw [h]; rfl
    · simp [hn]
  | some R =>
    refine ⟨OMap.Sorted.upsert hs _ _, ?_⟩
    dsimp only
    rw [OMap.find_assign hs]
    by_cases hn : n' = n
    · subst hn; rw [if_pos rfl, h]; simp
    · rw [if_neg hn]; simp [hn]

theorem recordOn_metric {n : Str} {f : Features} {p : ℤ} {m : ℚ} {regs : Registry}
    (hw : WellFormed regs) (n' : Str) (f' : Features) (p' : ℤ) :
    metricOn (recordOn n f p m regs) n' f' p' =
      if (n' = n ∧ f' = f ∧ p' = p) ∧ (OMap.find regs n).isSome then
        runningAverage halfHalf ((metricOn regs n f p).toList ++ [m])
      else metricOn regs n' f' p' := by
  unfold metricOn
  rw [(recordOn_find hw.sorted n').2]
  by_cases hn : n' = n
  · subst hn
    cases hR : OMap.find regs n' with
    | none => simp
    | some R =>
      simp only [Option.map_some, if_true, Option.bind_some, true_and, Option.isSome_some, and_true]
      rw [Dataset.find_insert (hw.data _ (OMap.mem_of_find_eq_some hR))]
      simp only [Dataset.mkKey_inj]
      split
      next h =>
        rw [h.1, h.2, ← runningAverage_append]
        rfl
      next => rfl
  · simp [hn]

/-- Recording a measurement that fits. -/
theorem recordOn_wellFormed {ranks : List Registry} {n : Str} {f : Features} {p : ℤ} {m : ℚ}
    {regs : Registry} (hw : WellFormed regs) (hr : regs ∈ ranks) (hf : Fit ranks n f p m) :
    WellFormed (recordOn n f p m regs) := by
  have hs := (recordOn_find (n := n) (f := f) (p := p) (m := m) hw.sorted []).1
  have hfind := fun n' => (recordOn_find (n := n) (f := f) (p := p) (m := m) hw.sorted n').2
  have back : ∀ x ∈ recordOn n f p m regs, ∃ R, (x.1, R) ∈ regs ∧
      x.2.numFeatures = R.numFeatures ∧ OMap.Sorted x.2.dataset := by
    rintro ⟨n', R'⟩ hx
    have h1 := hfind n'
    rw [(hs.find_eq_some_iff n' R').2 hx] at h1
    cases hR : OMap.find regs n' with
    | none => rw [hR] at h1; cases h1
    | some R =>
      rw [hR] at h1
      have hd := hw.data _ (OMap.mem_of_find_eq_some hR)
      refine ⟨R, OMap.mem_of_find_eq_some hR, ?_, ?_⟩
      · have h1 := Option.some.inj h1
        rw [h1]; dsimp only; split <;> rfl
      · have h1 := Option.some.inj h1
        rw [h1]; dsimp only; split
        · exact Dataset.sorted_insert hd _ _ _
        · exact hd
  have hmetric : ∀ {n' f' p' m'}, metricOn (recordOn n f p m regs) n' f' p' = some m' →
      (n' = n ∧ f' = f ∧ p' = p ∧ hasRegion regs n) ∨ metricOn regs n' f' p' = some m' := by
    intro n' f' p' m' h
    rw [recordOn_metric hw] at h
    split at h
    next hc => exact .inl ⟨hc.1.1, hc.1.2.1, hc.1.2.2, hc.2⟩
    next => exact .inr h
  refine ⟨hs, fun x hx => (back x hx).elim fun R h => h.2.2, ?_, ?_, ?_, ?_, ?_⟩
  · intro x hx
    obtain ⟨R, h1, -, -⟩ := back x hx
    exact hw.name (x.1, R) h1
  · intro x hx
    obtain ⟨R, h1, h2, -⟩ := back x hx
    rw [h2]
    exact hw.count _ h1
  · intro n' f' p' m' hm R' hR'
    have hnf : ∃ R, OMap.find regs n' = some R ∧ R'.numFeatures = R.numFeatures := by
      have h1 := hfind n'
      rw [hR'] at h1
      cases hR : OMap.find regs n' with
      | none => rw [hR] at h1; cases h1
      | some R =>
        rw [hR] at h1
        have h1 := Option.some.inj h1
        refine ⟨R, rfl, ?_⟩
        rw [h1]; dsimp only; split <;> rfl
    obtain ⟨R, hR, hnf⟩ := hnf
    rw [hnf]
    rcases hmetric hm with ⟨rfl, rfl, rfl, -⟩ | hm
    · exact ⟨hf.features regs hr R hR, hf.finite⟩
    · exact hw.features _ _ _ _ hm R hR
  · intro n' f' p' m' hm
    rcases hmetric hm with ⟨rfl, rfl, rfl, -⟩ | hm
    · exact hf.policy
    · exact hw.policy _ _ _ _ hm
  · intro n' f' p' m' hm
    rw [recordOn_metric hw] at hm
    split at hm
    next hc =>
      refine finite_runningAverage (fun x hx => ?_) hm
      rcases List.mem_append.1 hx with hx | hx
      · exact hw.metric n f p x (by simpa using hx)
      · rw [List.mem_singleton.1 hx]; exact hf.metric
    next => exact hw.metric _ _ _ _ hm

theorem recordOn_same {ranks : List Registry} (h : ∀ regs ∈ ranks, WellFormed regs) (i : ℕ) (n : Str)
    (f : Features) (p : ℤ) (m : ℚ) : SameRegions ranks (ranks.modify i (recordOn n f p m)) := by
  refine ⟨by simp, fun j r r' hj hj' n' => ?_⟩
  rw [List.getElem?_modify, hj] at hj'
  cases hj'
  split
  · dsimp only
    rw [(recordOn_find (h r (List.mem_of_getElem? hj)).sorted n').2]
    cases OMap.find r n' with
    | none => rfl
    | some R => simp only [Option.map_some]; split <;> rfl
  · rfl

theorem mem_modify {ranks : List Registry} {i : ℕ} {g : Registry → Registry} {r : Registry}
    (h : r ∈ ranks.modify i g) : ∃ q ∈ ranks, r = q ∨ r = g q := by
  obtain ⟨j, hj⟩ := List.getElem?_of_mem h
  rw [List.getElem?_modify] at hj
  cases hq : ranks[j]? with
  | none => rw [hq] at hj; cases hj
  | some q =>
    rw [hq] at hj
    refine ⟨q, List.mem_of_getElem? hq, ?_⟩
    have := Option.some.inj hj
    split at this
    · exact .inr this.symm
    · exact .inl this.symm

/-! ## Histories -/

/-- Only sizes beyond an `int` can fail; see `gather`. -/
theorem gather_cases {ranks : List Registry} (h : ∀ regs ∈ ranks, WellFormed regs)
    (hn : ranks.length ≤ 2 ^ 31) :
    (∃ ranks', gather exactMpi ranks = .ok ranks') ∨
      gather exactMpi ranks = .error .unmodelled ∧ 2 ^ 31 ≤ (ranks.map bytesSent).sum := by
  by_cases hb : (ranks.map bytesSent).sum < 2 ^ 31
  · obtain ⟨ranks', hg, -⟩ := C49_succeeds h hn hb
    exact .inl ⟨ranks', hg⟩
  · obtain ⟨bufs, hs, hd⟩ := all_decodes (i := 0) (ranks := ranks) (by omega)
      (fun r hr => (h r hr).sendable)
    have hl := length_all (fun r hr => (h r hr).sendable) hs
    refine .inr ⟨?_, by omega⟩
    unfold gather
    rw [hs, Res.bind_ok]
    simp only
    rw [if_pos (by rw [hl]; exact not_lt.1 hb)]

/-- What holds at all times. -/
structure Orderly (ranks₀ ranks : List Registry) : Prop where
  wellFormed : ∀ regs ∈ ranks, WellFormed regs
  same : SameRegions ranks₀ ranks

theorem Orderly.measure {ranks₀ ranks : List Registry} (h : Orderly ranks₀ ranks) {n : Str}
    {f : Features} {p : ℤ} {m : ℚ} (hf : Fit ranks₀ n f p m) (i : ℕ) :
    Orderly ranks₀ (ranks.modify i (recordOn n f p m)) := by
  refine ⟨fun r hr => ?_, h.same.trans (recordOn_same h.wellFormed i n f p m)⟩
  obtain ⟨q, hq, rfl | rfl⟩ := mem_modify hr
  · exact h.wellFormed _ hq
  · exact recordOn_wellFormed (h.wellFormed _ hq) hq (h.same.fit hf)

theorem Orderly.gather {ranks₀ ranks ranks' : List Registry} (h : Orderly ranks₀ ranks)
    (ha : Agree ranks₀) (hn : ranks₀.length ≤ 2 ^ 31) (hg : gather exactMpi ranks = .ok ranks') :
    Orderly ranks₀ ranks' := by
  have hn' : ranks.length ≤ 2 ^ 31 := by rw [h.same.1]; exact hn
  exact ⟨gather_wellFormed h.wellFormed (h.same.agree ha) hn' hg,
    h.same.trans (gather_same h.wellFormed hn' hg)⟩

theorem Orderly.step {ranks₀ ranks ranks' : List Registry} (h : Orderly ranks₀ ranks)
    (ha : Agree ranks₀) (hn : ranks₀.length ≤ 2 ^ 31) {op : COp} (hf : AllFit ranks₀ [op])
    (hs : cstep exactMpi op ranks = .ok ranks') : Orderly ranks₀ ranks' := by
  cases op with
  | measure i n f p m => cases hs; exact h.measure (hf i n f p m (by simp)) i
  | gather => exact h.gather ha hn hs

theorem AllFit.cons {ranks : List Registry} {op : COp} {ops : List COp}
    (h : AllFit ranks (op :: ops)) : AllFit ranks [op] ∧ AllFit ranks ops :=
  ⟨fun i n f p m hm => h i n f p m (by rw [List.mem_singleton.1 hm]; simp),
    fun i n f p m hm => h i n f p m (by simp [hm])⟩

theorem Orderly.exec {ranks₀ ranks ranks' : List Registry} (h : Orderly ranks₀ ranks)
    (ha : Agree ranks₀) (hn : ranks₀.length ≤ 2 ^ 31) {ops : List COp} (hf : AllFit ranks₀ ops)
    (hs : cexec exactMpi ops ranks = .ok ranks') : Orderly ranks₀ ranks' := by
  induction ops generalizing ranks with
  | nil => cases hs; exact h
  | cons op ops ih =>
    obtain ⟨r₁, h1, h2⟩ := (Res.bind_eq_ok _ _ _).1 hs
    exact ih (h.step ha hn hf.cons.1 h1) hf.cons.2 h2

theorem Orderly.fails {ranks₀ ranks : List Registry} (h : Orderly ranks₀ ranks)
    (ha : Agree ranks₀) (hn : ranks₀.length ≤ 2 ^ 31) {ops : List COp} (hf : AllFit ranks₀ ops)
    {e : Err} (hs : cexec exactMpi ops ranks = .error e) : e = .unmodelled := by
  induction ops generalizing ranks with
  | nil => cases hs
  | cons op ops ih =>
    change (cstep exactMpi op ranks >>= fun r => cexec exactMpi ops r) = _ at hs
    cases h1 : cstep exactMpi op ranks with
    | ok r₁ =>
      rw [h1] at hs
      exact ih (h.step ha hn hf.cons.1 h1) hf.cons.2 hs
    | error e' =>
      rw [h1] at hs
      cases hs
      cases op with
      | measure i n f p m => cases h1
      | gather =>
        rcases gather_cases h.wellFormed (by rw [h.same.1]; exact hn) with ⟨r, hr⟩ | ⟨hr, -⟩
        · rw [show cstep exactMpi .gather ranks = Collective.gather exactMpi ranks from rfl, hr] at h1
          cases h1
        · rw [show cstep exactMpi .gather ranks = Collective.gather exactMpi ranks from rfl, hr] at h1
          cases h1
          rfl

/-- Something about all ranks that no event of a history destroys. -/
theorem Orderly.run {ranks₀ ranks ranks' : List Registry} (h : Orderly ranks₀ ranks)
    (ha : Agree ranks₀) (hn : ranks₀.length ≤ 2 ^ 31) {ops : List COp} (hf : AllFit ranks₀ ops)
    (hs : cexec exactMpi ops ranks = .ok ranks') {P : List Registry → Prop}
    (hm : ∀ i n f p m, COp.measure i n f p m ∈ ops → ∀ ranks, Orderly ranks₀ ranks → P ranks →
      P (ranks.modify i (recordOn n f p m)))
    (hg : COp.gather ∈ ops → ∀ ranks ranks', Orderly ranks₀ ranks → P ranks →
      Collective.gather exactMpi ranks = .ok ranks' → P ranks') (hP : P ranks) : P ranks' := by
  induction ops generalizing ranks with
  | nil => cases hs; exact hP
  | cons op ops ih =>
    obtain ⟨r₁, h1, h2⟩ := (Res.bind_eq_ok _ _ _).1 hs
    refine ih (h.step ha hn hf.cons.1 h1) hf.cons.2 h2
      (fun i n f p m hx => hm i n f p m (by simp [hx])) (fun hx => hg (by simp [hx])) ?_
    cases op with
    | measure i n f p m => cases h1; exact hm i n f p m (by simp) ranks h hP
    | gather => exact hg (by simp) ranks r₁ h hP h1

theorem cexec_append (mpi : Mpi) (a b : List COp) (ranks : List Registry) :
    cexec mpi (a ++ b) ranks = (do let r ← cexec mpi a ranks; cexec mpi b r) := by
  induction a generalizing ranks with
  | nil => rfl
  | cons op a ih =>
    show (cstep mpi op ranks >>= fun r => cexec mpi (a ++ b) r) =
      ((cstep mpi op ranks >>= fun r => cexec mpi a r) >>= _)
    cases cstep mpi op ranks with
    | error e => rfl
    | ok r => exact ih r

theorem AllFit.append {ranks : List Registry} {a b : List COp} (h : AllFit ranks (a ++ b)) :
    AllFit ranks a ∧ AllFit ranks b :=
  ⟨fun i n f p m hm => h i n f p m (by simp [hm]), fun i n f p m hm => h i n f p m (by simp [hm])⟩

/-! ## Sizes -/

/-- The pairs of the regions which a history can bring about: those known at the beginning, and those
measured. -/
def Within (K : Finset (Str × Features × ℤ)) (ranks : List Registry) : Prop :=
  ∀ r ∈ ranks, ∀ n f p, (metricOn r n f p).isSome → (n, f, p) ∈ K

theorem Within.measure {K : Finset (Str × Features × ℤ)} {ranks : List Registry}
    (h : Within K ranks) (hw : ∀ regs ∈ ranks, WellFormed regs) {n : Str} {f : Features} {p : ℤ}
    (hK : (n, f, p) ∈ K) (i : ℕ) (m : ℚ) : Within K (ranks.modify i (recordOn n f p m)) := by
  intro r hr n' f' p' hm
  obtain ⟨q, hq, rfl | rfl⟩ := mem_modify hr
  · exact h _ hq _ _ _ hm
  · rw [recordOn_metric (hw _ hq)] at hm
    split at hm
    next hc => rw [hc.1.1, hc.1.2.1, hc.1.2.2]; exact hK
    next => exact h _ hq _ _ _ hm

theorem Within.gather {K : Finset (Str × Features × ℤ)} {ranks ranks' : List Registry}
    (h : Within K ranks) (hw : ∀ regs ∈ ranks, WellFormed regs) (hn : ranks.length ≤ 2 ^ 31)
    (hg : gather exactMpi ranks = .ok ranks') : Within K ranks' := by
  intro r' hr' n f p hm
  obtain ⟨i, hi'⟩ := List.getElem?_of_mem hr'
  obtain ⟨regs, hi⟩ := gather_before hw hn hg hi'
  obtain ⟨m, hm⟩ := Option.isSome_iff_exists.1 hm
  obtain ⟨-, ⟨r, hr1, hr2⟩, -⟩ := gather_known hw hn hg hi hi' hm
  exact h r hr1 _ _ _ hr2

theorem bytesSent_le {K : Finset (Str × Features × ℤ)} {regs : Registry} (hw : WellFormed regs)
    (hK : ∀ n f p, (metricOn regs n f p).isSome → (n, f, p) ∈ K) {F : ℕ}
    (hF : ∀ x ∈ regs, x.2.numFeatures ≤ F) : bytesSent regs ≤ K.card * (84 + 4 * F) := by
  have h1 : bytesSent regs ≤ (regs.map fun x => x.2.dataset.size).sum * (84 + 4 * F) := by
    clear hw hK
    unfold bytesSent
    induction regs with
    | nil => simp
    | cons x regs ih =>
      simp only [List.map_cons, List.sum_cons]
      have h2 := ih fun y hy => hF y (by simp [hy])
      have h3 : x.2.numFeatures.toNat ≤ F := by
        have := hF x (by simp)
        omega
      rw [Nat.add_mul]
      exact Nat.add_le_add (Nat.mul_le_mul_left _ (by omega)) h2
  refine h1.trans (Nat.mul_le_mul_right _ ?_)
  have h2 : (regs.map fun x => x.2.dataset.size).sum = (rankMsgs 0 regs).length := by
    clear h1 hF hK hw
    unfold rankMsgs
    induction regs with
    | nil => rfl
    | cons x regs ih =>
      simp only [List.map_cons, List.sum_cons, List.flatMap_cons, List.length_append, ih]
      simp [regionMsgs, Dataset.toVectorOfTuples, Dataset.size]
  rw [h2]
  have h3 := nodup_rankMsgs (rank := 0) hw.sorted hw.data
  have h4 : ((rankMsgs 0 regs).map fun m => (m.name, m.features, m.policy)).Nodup := by
    refine (List.nodup_map_iff_inj_on h3).2 ?_
    intro a ha b hb hab
    obtain ⟨ha1, ha2⟩ := (mem_rankMsgs_iff hw a).1 ha
    obtain ⟨hb1, hb2⟩ := (mem_rankMsgs_iff hw b).1 hb
    simp only [Prod.mk.injEq] at hab
    obtain ⟨e1, e2, e3⟩ := hab
    rw [e1, e2, e3, hb2] at ha2
    cases a; cases b
    simp_all
  rw [← List.length_map (f := fun m : Msg => (m.name, m.features, m.policy)),
    ← List.toFinset_card_of_nodup h4]
  refine Finset.card_le_card fun x hx => ?_
  rw [List.mem_toFinset, List.mem_map] at hx
  obtain ⟨m, hm, rfl⟩ := hx
  exact hK _ _ _ (by rw [((mem_rankMsgs_iff hw m).1 hm).2]; rfl)

theorem Orderly.succeeds {K : Finset (Str × Features × ℤ)} {ranks₀ ranks : List Registry}
    (h : Orderly ranks₀ ranks) (ha : Agree ranks₀) (hn : ranks₀.length ≤ 2 ^ 31) (hK : Within K ranks)
    {F : ℕ} (hF : ∀ r ∈ ranks₀, ∀ n R, OMap.find r n = some R → R.numFeatures ≤ F)
    (hb : ranks₀.length * (K.card * (84 + 4 * F)) < 2 ^ 31) {ops : List COp} (hf : AllFit ranks₀ ops)
    (hm : ∀ i n f p m, COp.measure i n f p m ∈ ops → (n, f, p) ∈ K) :
    ∃ ranks', cexec exactMpi ops ranks = .ok ranks' := by
  induction ops generalizing ranks with
  | nil => exact ⟨ranks, rfl⟩
  | cons op ops ih =>
    have hm' : ∀ i n f p m, COp.measure i n f p m ∈ ops → (n, f, p) ∈ K :=
      fun i n f p m h => hm i n f p m (by simp [h])
    cases op with
    | measure i n f p m =>
      have hfit := hf.cons.1 i n f p m (by simp)
      exact ih (h.measure hfit i)
        (hK.measure h.wellFormed (hm i n f p m (by simp)) i m) hf.cons.2 hm'
    | gather =>
      have hn' : ranks.length ≤ 2 ^ 31 := by rw [h.same.1]; exact hn
      have hsum : (ranks.map bytesSent).sum < 2 ^ 31 := by
        refine lt_of_le_of_lt ?_ hb
        rw [← h.same.1]
        have : ∀ x ∈ ranks.map bytesSent, x ≤ K.card * (84 + 4 * F) := by
          intro x hx
          obtain ⟨r, hr, rfl⟩ := List.mem_map.1 hx
          refine bytesSent_le (h.wellFormed r hr) (hK r hr) fun x hx => ?_
          obtain ⟨q, hq, Q, hQ, e⟩ := h.same.back hr ((h.wellFormed r hr).find (n := x.1) (R := x.2) hx)
          rw [e]
          exact hF q hq _ Q hQ
        have := List.sum_le_card_nsmul _ _ this
        simpa using this
      obtain ⟨r₁, hg, -⟩ := C49_succeeds h.wellFormed hn' hsum
      obtain ⟨ranks', hx⟩ := ih (h.gather ha hn hg) (hK.gather h.wellFormed hn' hg) hf.cons.2 hm'
      exact ⟨ranks', by
        show (Collective.gather exactMpi ranks >>= fun r => cexec exactMpi ops r) = _
        rw [hg]; exact hx⟩

/-! ## Values that are the same everywhere -/

theorem runningAverage_const {v : ℚ} (hv : halfHalf v v = v) {l : List ℚ} (h : ∀ x ∈ l, x = v)
    (hl : l ≠ []) : runningAverage halfHalf l = some v := by
  cases l with
  | nil => exact absurd rfl hl
  | cons a l =>
    have ha := h a (by simp)
    subst ha
    show some (l.foldl halfHalf a) = some a
    congr 1
    have h' : ∀ x ∈ l, x = a := fun x hx => h x (by simp [hx])
    clear h
    induction l with
    | nil => rfl
    | cons b l ih =>
      rw [List.foldl_cons, h' b (by simp), hv]
      exact ih (by simp) fun x hx => h' x (by simp [hx])

theorem halfHalf_self {v : ℚ} (h : NormalMetric v) : halfHalf v v = v := by
  rw [← ema_eq_halfHalf]
  exact Dataset.ema_self h.1 (Dataset.float64_half h.1 h.2)

/-- All ranks that know the pair hold the same metric for it. -/
def Held (ranks : List Registry) (n : Str) (f : Features) (p : ℤ) (v : ℚ) : Prop :=
  ∀ r ∈ ranks, ∀ m, metricOn r n f p = some m → m = v

/-- Gathering what is the same everywhere. -/
theorem gather_held {ranks ranks' : List Registry} (h : ∀ regs ∈ ranks, WellFormed regs)
    (hn : ranks.length ≤ 2 ^ 31) (hg : gather exactMpi ranks = .ok ranks') {n : Str} {f : Features}
    {p : ℤ} {v : ℚ} (hv : halfHalf v v = v) (hh : Held ranks n f p v)
    (hs : ∃ r ∈ ranks, metricOn r n f p = some v) {i : ℕ} {regs regs' : Registry}
    (hi : ranks[i]? = some regs) (hi' : ranks'[i]? = some regs') (hr : hasRegion regs n) :
    metricOn regs' n f p = some v := by
  rw [C49_metric h hn hg hi hi' hr]
  refine runningAverage_const hv (fun x hx => ?_) fun hx => ?_
  · obtain ⟨r, hr1, hr2⟩ := (mem_all hi n f p x).1 hx
    exact hh r hr1 x hr2
  · have := (mem_all hi n f p v).2 hs
    rw [hx] at this
    cases this

theorem gather_held' {ranks ranks' : List Registry} (h : ∀ regs ∈ ranks, WellFormed regs)
    (hn : ranks.length ≤ 2 ^ 31) (hg : gather exactMpi ranks = .ok ranks') {n : Str} {f : Features}
    {p : ℤ} {v : ℚ} (hv : halfHalf v v = v) (hh : Held ranks n f p v) : Held ranks' n f p v := by
  intro r' hr' m hm
  obtain ⟨i, hi'⟩ := List.getElem?_of_mem hr'
  obtain ⟨regs, hi⟩ := gather_before h hn hg hi'
  obtain ⟨hr, ⟨r, hr1, hr2⟩, -⟩ := gather_known h hn hg hi hi' hm
  obtain ⟨q, hq⟩ := Option.isSome_iff_exists.1 hr2
  have hqv := hh r hr1 q hq
  subst hqv
  have := gather_held h hn hg hv hh ⟨r, hr1, hq⟩ hi hi' hr
  rw [this] at hm
  exact (Option.some.inj hm).symm

theorem hasRegion_of_metric {regs : Registry} {n : Str} {f : Features} {p : ℤ}
    (h : (metricOn regs n f p).isSome) : hasRegion regs n := by
  unfold hasRegion
  unfold metricOn at h
  cases hf : OMap.find regs n with
  | none => rw [hf] at h; cases h
  | some R => rfl

/-- Where the ranks with a region hold the same data for it, for every region, gathering changes
nothing. -/
theorem gather_settled {ranks ranks' : List Registry} (h : ∀ regs ∈ ranks, WellFormed regs)
    (hn : ranks.length ≤ 2 ^ 31) (hg : gather exactMpi ranks = .ok ranks')
    (hsame : ∀ r ∈ ranks, ∀ r' ∈ ranks, ∀ n f p, hasRegion r n → hasRegion r' n →
      metricOn r n f p = metricOn r' n f p)
    (hv : ∀ r ∈ ranks, ∀ n f p v, metricOn r n f p = some v → halfHalf v v = v) :
    ranks' = ranks := by
  have hlen := gather_length h hn hg
  refine List.ext_getElem? fun i => ?_
  cases hi : ranks[i]? with
  | none =>
    rw [List.getElem?_eq_none_iff] at hi ⊢
    omega
  | some regs =>
    have hilt : i < ranks.length := by
      by_contra hx
      rw [List.getElem?_eq_none (by omega)] at hi
      cases hi
    have hi' : ranks'[i]? = some ranks'[i] := by simp
    rw [hi']
    congr 1
    generalize ranks'[i] = regs' at hi'
    have hmem := List.mem_of_getElem? hi
    have hw := h regs hmem
    obtain ⟨hs', -⟩ := gather_find h hn hg hi hi' []
    refine OMap.ext_of_find hs' hw.sorted fun n => ?_
    rw [(gather_find h hn hg hi hi' n).2]
    cases hR : OMap.find regs n with
    | none => rfl
    | some R =>
      have hr : hasRegion regs n := by unfold hasRegion; rw [hR]; rfl
      have hmetric : ∀ f p, metricOn regs' n f p = metricOn regs n f p := by
        intro f p
        cases hm : metricOn regs n f p with
        | some v =>
          refine gather_held h hn hg (hv regs hmem n f p v hm) ?_ ⟨regs, hmem, hm⟩ hi hi' hr
          intro r hr1 m hm1
          have := hsame r hr1 regs hmem n f p (hasRegion_of_metric (by rw [hm1]; rfl)) hr
          rw [hm1, hm] at this
          exact Option.some.inj this
        | none =>
          cases hm' : metricOn regs' n f p with
          | none => rfl
          | some v =>
            obtain ⟨-, ⟨r, hr1, hr2⟩, -⟩ := gather_known h hn hg hi hi' hm'
            have := hsame r hr1 regs hmem n f p (hasRegion_of_metric hr2) hr
            rw [this, hm] at hr2
            cases hr2
      rw [Option.map_some]
      congr 1
      have hf := (gather_find h hn hg hi hi' n).2
      rw [hR, Option.map_some] at hf
      have hd := hw.data _ (OMap.mem_of_find_eq_some hR)
      have : R.dataset.insertAll (taken i n (allMsgs 0 ranks)) = R.dataset := by
        refine OMap.ext_of_find (Dataset.sorted_insertAll hd _) hd fun k => ?_
        have := hmetric (ofLex k).1 (ofLex k).2
        unfold metricOn at this
        rwa [hf, hR, Option.bind_some, Option.bind_some, Dataset.mkKey_ofLex] at this
      rw [this]

end Apollo.Props
