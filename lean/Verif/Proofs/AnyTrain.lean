import Verif.Proofs.AnyFloat
import Verif.Proofs.TreeTrain
import Verif.Spec.AnyTrain

/-!
# Training with any floats: lemmas

Floats that are numbers are put into the rationals by `standIn`; the steps of training are those of
`Model/Tree.lean` on the stand-ins, apart from thresholds.
-/

namespace Apollo

open Spec

/-- A number within the range of floats. -/
def Good (v : AnyFloat) : Prop := v ≠ .nan ∧ ∀ q, v = .fin q → |q| ≤ maxFloat

theorem maxFloat_lt : maxFloat < 2 ^ 128 := by unfold maxFloat; norm_num

theorem good_zero : Good (.fin 0) :=
  ⟨by simp, fun q h => by
    simp only [AnyFloat.fin.injEq] at h
    subst h
    unfold maxFloat
    norm_num⟩

theorem lt_standIn {a b : AnyFloat} (ha : Good a) (hb : Good b) :
    a.lt b = decide (standIn a < standIn b) := by
  have hm := maxFloat_lt
  cases a with
  | nan => exact absurd rfl ha.1
  | fin x =>
    have hx := abs_le.1 (ha.2 x rfl)
    cases b with
    | nan => exact absurd rfl hb.1
    | fin y => rfl
    | negZero => rfl
    | posInf => exact (decide_eq_true (show x < 2 ^ 128 by linarith)).symm
    | negInf => exact (decide_eq_false (show ¬ x < -2 ^ 128 by linarith)).symm
  | negZero =>
    cases b with
    | nan => exact absurd rfl hb.1
    | fin y => rfl
    | negZero => simp [AnyFloat.lt, standIn]
    | posInf => simp [AnyFloat.lt, standIn]
    | negInf => simp [AnyFloat.lt, standIn]
  | posInf =>
    cases b with
    | nan => exact absurd rfl hb.1
    | fin y =>
      have hy := abs_le.1 (hb.2 y rfl)
      exact (decide_eq_false (show ¬ (2 : ℚ) ^ 128 < y by linarith)).symm
    | negZero => exact (decide_eq_false (show ¬ (2 : ℚ) ^ 128 < 0 by norm_num)).symm
    | posInf => simp [AnyFloat.lt, standIn]
    | negInf =>
      exact (decide_eq_false (show ¬ (2 : ℚ) ^ 128 < -2 ^ 128 by norm_num)).symm
  | negInf =>
    cases b with
    | nan => exact absurd rfl hb.1
    | fin y =>
      have hy := abs_le.1 (hb.2 y rfl)
      exact (decide_eq_true (show -(2 : ℚ) ^ 128 < y by linarith)).symm
    | negZero => simp [AnyFloat.lt, standIn]
    | posInf => exact (decide_eq_true (show -(2 : ℚ) ^ 128 < 2 ^ 128 by norm_num)).symm
    | negInf => simp [AnyFloat.lt, standIn]

theorem eq_standIn {a b : AnyFloat} (ha : Good a) (hb : Good b) :
    a.eq b = decide (standIn a = standIn b) := by
  have hm := maxFloat_lt
  cases a with
  | nan => exact absurd rfl ha.1
  | fin x =>
    have hx := abs_le.1 (ha.2 x rfl)
    cases b with
    | nan => exact absurd rfl hb.1
    | fin y => exact decide_eq_decide.2 (by simp [standIn])
    | negZero => rfl
    | posInf => exact (decide_eq_false (show ¬ x = 2 ^ 128 by intro h; linarith)).symm
    | negInf => exact (decide_eq_false (show ¬ x = -2 ^ 128 by intro h; linarith)).symm
  | negZero =>
    cases b with
    | nan => exact absurd rfl hb.1
    | fin y => simp [AnyFloat.eq, standIn, eq_comm]
    | negZero => simp [AnyFloat.eq, standIn]
    | posInf => exact (decide_eq_false (show ¬ (0 : ℚ) = 2 ^ 128 by norm_num)).symm
    | negInf => simp [AnyFloat.eq, standIn]
  | posInf =>
    cases b with
    | nan => exact absurd rfl hb.1
    | fin y =>
      have hy := abs_le.1 (hb.2 y rfl)
      exact (decide_eq_false (show ¬ (2 : ℚ) ^ 128 = y by intro h; linarith)).symm
    | negZero => simp [AnyFloat.eq, standIn]
    | posInf => simp [AnyFloat.eq, standIn]
    | negInf =>
      exact (decide_eq_false (show ¬ (2 : ℚ) ^ 128 = -2 ^ 128 by norm_num)).symm
  | negInf =>
    cases b with
    | nan => exact absurd rfl hb.1
    | fin y =>
      have hy := abs_le.1 (hb.2 y rfl)
      exact (decide_eq_false (show ¬ -(2 : ℚ) ^ 128 = y by intro h; linarith)).symm
    | negZero => simp [AnyFloat.eq, standIn]
    | posInf => exact (decide_eq_false (show ¬ -(2 : ℚ) ^ 128 = 2 ^ 128 by norm_num)).symm
    | negInf => simp [AnyFloat.eq, standIn]

theorem less_iff (a b : AnyFloat) : Less a b ↔ a.lt b = true := by
  by_cases ha : a = .nan
  · subst ha; simp [Less, num, AnyFloat.lt]
  by_cases hb : b = .nan
  · subst hb; cases a <;> simp [Less, num, AnyFloat.lt]
  rw [lt_eq ha hb, decide_eq_true_eq]
  unfold Less
  cases a <;> cases b <;> simp_all [num]

/-! ## Samples -/

theorem emb_perm {xs ys : List AnySample} (h : xs.Perm ys) :
    (standInSamples xs).Perm (standInSamples ys) := h.map _

theorem feat_emb (x : AnySample) (i : ℕ) :
    feat (x.1.map standIn, x.2) i = standIn (anyFeat x i) := by
  unfold feat anyFeat
  simp only [List.getD_eq_getElem?_getD, List.getElem?_map]
  cases x.1[i]? <;> simp [standIn]

theorem Spec.Numeric.good {xs : List AnySample} (h : Numeric xs) {x : AnySample} (hx : x ∈ xs) (i : ℕ) :
    Good (anyFeat x i) := by
  unfold anyFeat
  rw [List.getD_eq_getElem?_getD]
  cases hv : x.1[i]? with
  | none => exact good_zero
  | some v => exact h x hx v (List.mem_of_getElem? hv)

theorem Spec.Numeric.sub {xs ys : List AnySample} (h : Numeric xs) (hs : ∀ x ∈ ys, x ∈ xs) : Numeric ys :=
  fun x hx => h x (hs x hx)

theorem countClass_congr {xs ys : List Sample} (h : xs.map Prod.snd = ys.map Prod.snd) (c : ℤ) :
    countClass xs c = countClass ys c := by
  have key : ∀ zs : List Sample, countClass zs c = (zs.map Prod.snd).countP (fun x => x = c) := by
    intro zs
    unfold countClass
    rw [List.countP_map]
    rfl
  rw [key, key, h]

theorem gini_congr (classes : List ℤ) {xs ys : List Sample}
    (h : xs.map Prod.snd = ys.map Prod.snd) : gini classes xs = gini classes ys := by
  have hl : xs.length = ys.length := by simpa using congrArg List.length h
  have : giniStep xs = giniStep ys := by
    funext g c
    unfold giniStep
    rw [countClass_congr h, hl]
  unfold gini
  rw [this]

theorem snd_only (xs : List AnySample) :
    (classesOnly xs).map Prod.snd = (standInSamples xs).map Prod.snd := by
  simp [classesOnly, standInSamples]

theorem gini_only (classes : List ℤ) (xs : List AnySample) :
    gini classes (classesOnly xs) = gini classes (standInSamples xs) := gini_congr _ (snd_only xs)

theorem counts_only (classes : List ℤ) (xs : List AnySample) :
    getCountPerClass classes (classesOnly xs) = getCountPerClass classes (standInSamples xs) := by
  unfold getCountPerClass
  exact List.map_congr_left fun c _ => countClass_congr (snd_only xs) c

theorem length_emb (xs : List AnySample) : (standInSamples xs).length = xs.length := by
  simp [standInSamples]

theorem length_only (xs : List AnySample) : (classesOnly xs).length = xs.length := by
  simp [classesOnly]

theorem emb_take (xs : List AnySample) (i : ℕ) :
    standInSamples (xs.take i) = (standInSamples xs).take i := List.map_take

theorem emb_drop (xs : List AnySample) (i : ℕ) :
    standInSamples (xs.drop i) = (standInSamples xs).drop i := List.map_drop

theorem weighted_only (classes : List ℤ) (ys : List AnySample) (i : ℕ) :
    weightedGini classes (classesOnly ys) i = weightedGini classes (standInSamples ys) i := by
  unfold weightedGini
  have e1 : (classesOnly ys).take i = classesOnly (ys.take i) := List.map_take.symm
  have e2 : (classesOnly ys).drop i = classesOnly (ys.drop i) := List.map_drop.symm
  rw [e1, e2, gini_only, gini_only, emb_take, emb_drop, length_only, length_emb]

theorem emb_length_eq {xs : List AnySample} {k : ℕ} (hk : ∀ x ∈ xs, x.1.length = k) :
    ∀ x ∈ standInSamples xs, x.1.length = k := by
  intro x hx
  obtain ⟨y, hy, rfl⟩ := List.mem_map.1 hx
  simpa using hk y hy

theorem emb_nil {xs : List AnySample} : standInSamples xs = [] ↔ xs = [] := by
  simp [standInSamples]

/-! ## Sorting -/

theorem strictWeak_numeric {xs : List AnySample} (h : Numeric xs) (i : ℕ) : strictWeak i xs = true := by
  unfold strictWeak
  simp only [List.all_eq_true, Bool.or_eq_true, Bool.not_eq_true', Bool.and_eq_true,
    Bool.and_eq_false_iff]
  intro x hx y hy z hz
  simp only [Bool.not_eq_eq_eq_not, Bool.not_false]
  rw [lt_standIn (h.good hx i) (h.good hy i), lt_standIn (h.good hy i) (h.good hx i),
    lt_standIn (h.good hy i) (h.good hz i), lt_standIn (h.good hz i) (h.good hy i),
    lt_standIn (h.good hx i) (h.good hz i), lt_standIn (h.good hz i) (h.good hx i)]
  simp only [decide_eq_true_eq, decide_eq_false_iff_not, not_lt]
  generalize standIn (anyFeat x i) = a
  generalize standIn (anyFeat y i) = b
  generalize standIn (anyFeat z i) = c
  rcases lt_or_ge a b with h1 | h1
  · exact .inl (.inl (.inl h1))
  rcases lt_or_ge b a with h2 | h2
  · exact .inl (.inl (.inr h2))
  rcases lt_or_ge b c with h3 | h3
  · exact .inl (.inr (.inl h3))
  rcases lt_or_ge c b with h4 | h4
  · exact .inl (.inr (.inr h4))
  · exact .inr ⟨h3.trans h1, h2.trans h4⟩

theorem sort_emb {σ : AnySortFn} (hσ : AnySortSpec σ) {xs : List AnySample} (h : Numeric xs) (i : ℕ) :
    (σ i xs).Perm xs ∧ SortedBy i (standInSamples (σ i xs)) := by
  obtain ⟨h1, h2⟩ := hσ i xs (strictWeak_numeric h i)
  refine ⟨h1, ?_⟩
  unfold SortedBy standInSamples
  rw [List.pairwise_map]
  refine h2.imp_of_mem ?_
  intro a b ha hb hab
  rw [lt_standIn (h.good (h1.mem_iff.1 hb) i) (h.good (h1.mem_iff.1 ha) i),
    decide_eq_false_iff_not, not_lt] at hab
  rw [feat_emb, feat_emb]
  exact hab

theorem sortAny_ok {σ : AnySortFn} {i : ℕ} {xs : List AnySample} (h : Numeric xs)
    (hl : ∀ x ∈ xs, i < x.1.length) : sortAny σ i xs = .ok (σ i xs) := by
  unfold sortAny
  rw [if_pos (by simpa using hl), if_pos (strictWeak_numeric h i)]

/-! ## Thresholds -/

/-- Thresholds as numbers: nothing is below a NaN. -/
def encThr : AnyFloat → ℚ
  | .nan => -2 ^ 129
  | v => standIn v

/-- A float for a stand-in. -/
def unembed (q : ℚ) : AnyFloat :=
  if 2 ^ 128 ≤ q then .posInf else if q ≤ -2 ^ 128 then .negInf else .fin q

/-- The threshold as a function of stand-ins. -/
def thrQ (l r : ℚ) : ℚ := encThr (anyThreshold (unembed l) (unembed r))

theorem unembed_posInf : unembed (2 ^ 128) = .posInf := by simp [unembed]

theorem unembed_negInf : unembed (-2 ^ 128) = .negInf := by
  unfold unembed
  rw [if_neg (by norm_num), if_pos (le_refl _)]

theorem unembed_fin {q : ℚ} (h : |q| ≤ maxFloat) : unembed q = .fin q := by
  have hm := maxFloat_lt
  have hq := abs_le.1 h
  unfold unembed
  rw [if_neg (by linarith), if_neg (by linarith)]

theorem thr_emb {a b : AnyFloat} (ha : Good a) (hb : Good b) (hab : a.eq b = false) :
    encThr (anyThreshold a b) = thrQ (standIn a) (standIn b) := by
  unfold thrQ
  have h0 : |(0 : ℚ)| ≤ maxFloat := by unfold maxFloat; norm_num
  have hu : ∀ v, Good v → unembed (standIn v) = if v = .negZero then .fin 0 else v := by
    intro v hv
    cases v with
    | nan => exact absurd rfl hv.1
    | fin q => exact unembed_fin (hv.2 q rfl)
    | negZero => exact unembed_fin h0
    | posInf => exact unembed_posInf
    | negInf => exact unembed_negInf
  rw [hu a ha, hu b hb]
  cases a <;> cases b <;>
    simp [anyThreshold, AnyFloat.add, AnyFloat.value, AnyFloat.eq] at hab ⊢

/-- A finite threshold is within the range of floats. -/
def SmallThr (v : AnyFloat) : Prop := ∀ q, v = .fin q → |q| < 2 ^ 128

theorem half_ofRounded (s : ℚ) : SmallThr ((AnyFloat.ofRounded (rnd32 s)).half) := by
  have hmax : Representable 24 (-149) maxFloat := ⟨2 ^ 24 - 1, 104, by norm_num, by norm_num, by
    unfold maxFloat; norm_num⟩
  have hm := maxFloat_lt
  have hs : Float32 (rnd32 s) := representable_rnd _
  have h0 : (0 : ℚ) < maxFloat := by unfold maxFloat; norm_num
  intro q hq
  unfold AnyFloat.ofRounded at hq
  split at hq
  · simp [AnyFloat.half] at hq
  split at hq
  · simp [AnyFloat.half] at hq
  · next h1 h2 =>
    have h64 : rnd64 (rnd32 s / 2) = rnd32 s / 2 := by
      apply rnd_of_representable (by norm_num)
      obtain ⟨m, e, h1, h2, h3⟩ := hs
      refine ⟨m, e - 1, le_trans h1 (by norm_num), by omega, ?_⟩
      rw [h3, zpow_sub₀ (by norm_num)]; ring
    simp only [AnyFloat.half, AnyFloat.fin.injEq] at hq
    rw [h64] at hq
    have b1 : rnd32 (rnd32 s / 2) ≤ maxFloat :=
      rnd_le_of_le (by norm_num) hmax (by linarith [not_lt.1 h1])
    have b2 : -maxFloat ≤ rnd32 (rnd32 s / 2) :=
      le_rnd_of_le (by norm_num) (representable_neg hmax) (by linarith [not_lt.1 h2])
    rw [← hq]
    exact lt_of_le_of_lt (abs_le.2 ⟨b2, b1⟩) hm

theorem anyThreshold_small (a b : AnyFloat) : SmallThr (anyThreshold a b) := by
  have hs : ∀ v : AnyFloat, (∀ q, v ≠ .fin q) → SmallThr v := fun v h q hq => absurd hq (h q)
  unfold anyThreshold
  cases a <;> cases b <;> simp only [AnyFloat.add] <;>
    first
    | exact half_ofRounded _
    | exact hs _ (by intro q; simp [AnyFloat.half])

theorem lt_encThr {v thr : AnyFloat} (hv : Good v) (ht : SmallThr thr) :
    v.lt thr = decide (standIn v < encThr thr) := by
  have hm := maxFloat_lt
  cases thr with
  | nan =>
    have : ¬ standIn v < -2 ^ 129 := by
      rw [not_lt]
      cases v with
      | nan => exact absurd rfl hv.1
      | fin x =>
        have hx := abs_le.1 (hv.2 x rfl)
        simp only [standIn]
        norm_num at hm ⊢
        linarith
      | _ => simp only [standIn]; norm_num
    unfold encThr
    rw [decide_eq_false this]
    cases v <;> rfl
  | fin q =>
    have hq := abs_lt.1 (ht q rfl)
    show v.lt (.fin q) = decide (standIn v < q)
    cases v with
    | nan => exact absurd rfl hv.1
    | fin x => rfl
    | negZero => rfl
    | posInf => exact (decide_eq_false (show ¬ (2 : ℚ) ^ 128 < q by linarith)).symm
    | negInf => exact (decide_eq_true (show -(2 : ℚ) ^ 128 < q by linarith)).symm
  | negZero => exact lt_standIn hv ⟨by simp, by simp⟩
  | posInf => exact lt_standIn hv ⟨by simp, by simp⟩
  | negInf => exact lt_standIn hv ⟨by simp, by simp⟩

theorem thrQ_fin {a b : ℚ} (ha : |a| ≤ maxFloat) (hb : |b| ≤ maxFloat) : thrQ a b = threshold a b := by
  unfold thrQ
  rw [unembed_fin ha, unembed_fin hb]
  have e : anyThreshold (.fin a) (.fin b) = (AnyFloat.ofRounded (rnd32 (a + b))).half := rfl
  rw [e]
  unfold threshold AnyFloat.ofRounded
  simp only
  by_cases h1 : maxFloat < rnd32 (a + b)
  · rw [if_pos h1, if_pos h1]; rfl
  rw [if_neg h1, if_neg h1]
  by_cases h2 : rnd32 (a + b) < -maxFloat
  · rw [if_pos h2, if_pos h2]; rfl
  · rw [if_neg h2, if_neg h2]; rfl

theorem encThr_ge {v : AnyFloat} (hv : SmallThr v) (h : v ≠ .nan) : -2 ^ 128 ≤ encThr v := by
  cases v with
  | nan => exact absurd rfl h
  | fin q => exact (abs_lt.1 (hv q rfl)).1.le
  | negZero => simp [encThr, standIn]
  | posInf => simp only [encThr, standIn]; norm_num
  | negInf => simp only [encThr, standIn]; norm_num

theorem not_nan_of_thr {thr : AnyFloat} {a b : ℚ} (h : encThr thr = thrQ a b) (ha : |a| ≤ maxFloat)
    (hb : |b| ≤ maxFloat) : thr ≠ .nan := by
  rintro rfl
  have e : thrQ a b = encThr (AnyFloat.ofRounded (rnd32 (a + b))).half := by
    unfold thrQ
    rw [unembed_fin ha, unembed_fin hb]
    rfl
  have hn : (AnyFloat.ofRounded (rnd32 (a + b))).half ≠ .nan := by
    unfold AnyFloat.ofRounded
    split
    · simp [AnyFloat.half]
    split <;> simp [AnyFloat.half]
  have := encThr_ge (half_ofRounded (a + b)) hn
  rw [← e, ← h] at this
  norm_num [encThr] at this

theorem encThr_eq {v : AnyFloat} (h : v ≠ .nan) : encThr v = standIn v := by
  cases v with
  | nan => exact absurd rfl h
  | _ => rfl

theorem emb_small {xs : List AnySample} (hn : Numeric xs) (hf : NoInfinity xs) {x : Sample}
    (hx : x ∈ standInSamples xs) (i : ℕ) : |x.1.getD i 0| ≤ maxFloat := by
  obtain ⟨y, hy, rfl⟩ := List.mem_map.1 hx
  have e : (y.1.map standIn).getD i 0 = standIn (anyFeat y i) := feat_emb y i
  rw [e]
  have h0 : |(0 : ℚ)| ≤ maxFloat := by unfold maxFloat; norm_num
  unfold anyFeat
  rw [List.getD_eq_getElem?_getD]
  cases hv : y.1[i]? with
  | none => exact h0
  | some v =>
    have hm := List.mem_of_getElem? hv
    obtain ⟨h1, h2⟩ := hn y hy v hm
    obtain ⟨h3, h4⟩ := hf y hy v hm
    cases v with
    | nan => exact absurd rfl h1
    | fin q => exact h2 q rfl
    | negZero => exact h0
    | posInf => exact absurd rfl h3
    | negInf => exact absurd rfl h4

/-! ## The search for the best split -/

/-- The state of the search with stand-ins. -/
def embBest (st : AnyBest) : Best :=
  ⟨st.minGini, st.at?.map fun b => (b.1, b.2.1, standIn b.2.2.1, standIn b.2.2.2)⟩

/-- The values around the best split are different numbers. -/
def GoodBest (st : AnyBest) : Prop :=
  ∀ pos i l r, st.at? = some (pos, i, l, r) → Good l ∧ Good r ∧ l.eq r = false

theorem getD_feats (ys : List AnySample) (i j : ℕ) :
    ((standInSamples ys).map fun x => feat x i).getD j 0 =
      standIn ((ys.map fun x => anyFeat x i).getD j (.fin 0)) := by
  simp only [List.getD_eq_getElem?_getD, List.getElem?_map, standInSamples]
  cases ys[j]? with
  | none => simp [standIn]
  | some x => simp [feat_emb]

theorem good_getD {ys : List AnySample} (h : Numeric ys) (i j : ℕ) :
    Good ((ys.map fun x => anyFeat x i).getD j (.fin 0)) := by
  simp only [List.getD_eq_getElem?_getD, List.getElem?_map]
  cases hj : ys[j]? with
  | none => exact good_zero
  | some x => exact h.good (List.mem_of_getElem? hj) i

theorem scanPosAny_emb {classes : List ℤ} {fidx : ℕ} {ys : List AnySample} (h : Numeric ys)
    (st : AnyBest) (hst : GoodBest st) (i : ℕ) :
    embBest (scanPosAny classes fidx ys st i) =
      scanPos classes fidx (standInSamples ys) (embBest st) i ∧
    GoodBest (scanPosAny classes fidx ys st i) := by
  unfold scanPosAny scanPos
  simp only [getD_feats]
  have hl := good_getD h fidx (i - 1)
  have hr := good_getD h fidx i
  generalize ((ys.map fun x => anyFeat x fidx).getD (i - 1) (.fin 0)) = l at hl ⊢
  generalize ((ys.map fun x => anyFeat x fidx).getD i (.fin 0)) = r at hr ⊢
  rw [eq_standIn hl hr]
  by_cases he : standIn l = standIn r
  · simp only [he, decide_true, if_true]
    exact ⟨trivial, hst⟩
  · simp only [he, decide_false, if_false, weighted_only]
    have hm : (embBest st).minGini = st.minGini := rfl
    rw [hm, if_neg (by simp)]
    by_cases hg : st.minGini ≤ weightedGini classes (standInSamples ys) i
    · simp only [if_pos hg]
      exact ⟨trivial, hst⟩
    · simp only [if_neg hg]
      refine ⟨rfl, ?_⟩
      intro pos i' l' r' hb
      simp only [Option.some.injEq, Prod.mk.injEq] at hb
      obtain ⟨-, -, rfl, rfl⟩ := hb
      exact ⟨hl, hr, by rw [eq_standIn hl hr]; simpa using he⟩

theorem scanFeatureAny_emb {classes : List ℤ} {fidx : ℕ} {ys : List AnySample} (h : Numeric ys)
    (st : AnyBest) (hst : GoodBest st) :
    embBest (scanFeatureAny classes fidx ys st) =
      scanFeature classes fidx (standInSamples ys) (embBest st) ∧
    GoodBest (scanFeatureAny classes fidx ys st) := by
  unfold scanFeatureAny scanFeature
  rw [length_emb]
  generalize List.range' 1 (ys.length - 1) = is
  induction is generalizing st with
  | nil => exact ⟨rfl, hst⟩
  | cons i is ih =>
    simp only [List.foldl_cons]
    obtain ⟨h1, h2⟩ := scanPosAny_emb (classes := classes) (fidx := fidx) h st hst i
    rw [← h1]
    exact ih _ h2

/-- All features. -/
theorem scanAllAny {σ : AnySortFn} (hσ : AnySortSpec σ) (classes : List ℤ) {xs : List AnySample}
    {k : ℕ} (hn : Numeric xs) (hk : ∀ x ∈ xs, x.1.length = k) (m : ℕ) (hm : m ≤ k) :
    ∃ ys best, (List.range m).foldlM (scanStepAny σ classes) (xs, ⟨1, none⟩) = .ok (ys, best) ∧
      ys.Perm xs ∧ GoodBest best ∧
      ScanInv classes (standInSamples xs) (fun i l r => IsCut (standInSamples xs) i l r ∧ i < m)
        (embBest best) := by
  induction m with
  | zero =>
    refine ⟨xs, ⟨1, none⟩, rfl, List.Perm.refl _, by simp [GoodBest], ?_⟩
    simp [ScanInv, embBest]
  | succ m ih =>
    obtain ⟨ys, best, h1, h2, hg, h3⟩ := ih (by omega)
    have hny : Numeric ys := hn.sub fun x hx => h2.mem_iff.1 hx
    obtain ⟨hs1, hs2⟩ := sort_emb hσ hny m
    have hnz : Numeric (σ m ys) := hny.sub fun x hx => hs1.mem_iff.1 hx
    obtain ⟨e1, e2⟩ := scanFeatureAny_emb (classes := classes) (fidx := m) hnz best hg
    refine ⟨σ m ys, scanFeatureAny classes m (σ m ys) best, ?_, hs1.trans h2, e2, ?_⟩
    · rw [List.range_succ, List.foldlM_append, h1]
      simp only [Res.bind_ok, List.foldlM_cons, List.foldlM_nil]
      unfold scanStepAny
      rw [sortAny_ok hny (by intro x hx; rw [hk x (h2.mem_iff.1 hx)]; omega)]
      rfl
    · rw [e1]
      exact scanFeature_inv (emb_perm (hs1.trans h2)) hs2 h3

/-- The outcome of the search. -/
theorem splitAny_cases {σ : AnySortFn} (hσ : AnySortSpec σ) (classes : List ℤ) {xs : List AnySample}
    {k : ℕ} (hn : Numeric xs) (hk : ∀ x ∈ xs, x.1.length = k) (hlen : 1 < xs.length) :
    (∃ ys pos fidx thr l r, splitAny σ classes xs = .ok (ys, pos, fidx, thr) ∧ ys.Perm xs ∧
      IsSplit classes k (standInSamples xs) (standInSamples ys) pos fidx (threshold l r) l r ∧
      encThr thr = thrQ l r ∧ SmallThr thr) ∨
    ((∀ i l r, i < k → IsCut (standInSamples xs) i l r →
        1 ≤ wg classes (below (standInSamples xs) i l) (above (standInSamples xs) i l)) ∧
      splitAny σ classes xs = .error (if k = 0 then .ub .outOfBounds else .abort)) := by
  obtain ⟨ys, best, h1, h2, hg, h3⟩ := scanAllAny hσ classes hn hk k (le_refl k)
  have hhead : (xs.headD ([], 0)).1.length = k := by
    cases xs with
    | nil => simp at hlen
    | cons x xs => exact hk x (by simp)
  have hk' : ∀ x ∈ ys, x.1.length = k := fun x hx => hk x (h2.mem_iff.1 hx)
  have hny : Numeric ys := hn.sub fun x hx => h2.mem_iff.1 hx
  unfold splitAny
  rw [if_neg (by omega)]
  simp only [hhead, h1, Res.bind_ok]
  obtain ⟨m, a⟩ := best
  cases a with
  | none =>
    right
    simp only [ScanInv, embBest, Option.map_none] at h3
    refine ⟨fun i l r hi hc => h3.2 i l r ⟨hc, hi⟩, ?_⟩
    by_cases hk0 : k = 0
    · unfold sortAny
      rw [if_neg, if_pos hk0]
      · rfl
      · have hne : ys ≠ [] := by
          intro h
          have := h2.length_eq
          rw [h] at this
          simp at this
          omega
        obtain ⟨x, hx⟩ := List.exists_mem_of_ne_nil ys hne
        simp only [List.all_eq_true, decide_eq_true_eq, not_forall]
        exact ⟨x, hx, by rw [hk' x hx]; omega⟩
    · rw [if_neg hk0]
      simp only
      rw [sortAny_ok hny (by intro x hx; rw [hk' x hx]; omega)]
      rfl
  | some b =>
    left
    obtain ⟨pos, i, la, ra⟩ := b
    obtain ⟨g1, g2, g3⟩ := hg pos i la ra rfl
    simp only [ScanInv, embBest, Option.map_some] at h3
    obtain ⟨⟨hc, hi⟩, hpos, hm, hlt, hall⟩ := h3
    have hs := sort_emb hσ hny i
    refine ⟨σ i ys, pos, i, anyThreshold la ra, standIn la, standIn ra, ?_, hs.1.trans h2, ?_,
      thr_emb g1 g2 g3, anyThreshold_small la ra⟩
    · simp only
      rw [sortAny_ok (i := i) hny (by intro x hx; rw [hk' x hx]; exact hi)]
      rfl
    · have hperm := emb_perm (hs.1.trans h2)
      obtain ⟨j, hj1, hj2, hj, e1, e2⟩ := pos_of_cut hs.2 (hc.perm hperm.symm)
      have hjp : j = pos := by rw [hj, hpos]; exact (below_perm hperm i _).length_eq
      subst hjp
      obtain ⟨-, t1, t2⟩ := cut_of_pos hs.2 hj1 hj2 (by rw [e1, e2]; exact ne_of_lt hc.lt)
      rw [e1] at t1 t2
      exact ⟨hperm, ⟨hi, hc, fun i' l' r' hi' hc' => (hall i' l' r' ⟨hc', hi'⟩).1,
        fun i' l' r' hi' hc' => (hall i' l' r' ⟨hc', hi'⟩).2⟩, hlt, rfl, t1, t2⟩

/-! ## Building -/

/-- The tree with numbers for its thresholds. -/
def encTree : AnyTree → Tree
  | .nil => .nil
  | .node n thr l r => .node { n with threshold := encThr thr } (encTree l) (encTree r)

/-- All thresholds are within range. -/
def SmallTree : AnyTree → Prop
  | .nil => True
  | .node _ thr l r => SmallThr thr ∧ SmallTree l ∧ SmallTree r

theorem grown_perm_any {classes : List ℤ} {thr : ℚ → ℚ → ℚ} {k d : ℕ} {xs ys : List Sample} {t : Tree}
    (h : Grown classes (gini classes) (wg classes) thr k d xs t) (hp : xs.Perm ys) :
    Grown classes (gini classes) (wg classes) thr k d ys t := by
  induction h generalizing ys with
  | leaf d xs n hd hg hn hc hi =>
    refine .leaf d ys n ?_ ?_ ?_ ?_ hi
    · rwa [← gini_perm classes hp]
    · rwa [← gini_perm classes hp]
    · rwa [← hp.length_eq]
    · rw [hc]; exact List.map_congr_left fun c _ => numOf_perm hp c
  | inner d xs n i l r tl tr himp hg hn hc hbest hi ht hl hr ihl ihr =>
    refine .inner d ys n i l r tl tr ?_ ?_ ?_ ?_ (hbest.perm hp) hi ht (ihl (below_perm hp i l))
      (ihr (above_perm hp i l))
    · rwa [← gini_perm classes hp]
    · rwa [← gini_perm classes hp]
    · rwa [← hp.length_eq]
    · rw [hc]; exact List.map_congr_left fun c _ => numOf_perm hp c

/-- Success of training yields the specified tree, with other thresholds. -/
theorem buildAny_grown {σ : AnySortFn} (hσ : AnySortSpec σ) (classes : List ℤ) {k : ℕ} (d : ℕ) :
    ∀ {xs : List AnySample} {t : AnyTree} {ys : List AnySample}, Numeric xs →
      (∀ x ∈ xs, x.1.length = k) → buildAny σ classes d xs = .ok (t, ys) →
      Grown classes (gini classes) (wg classes) thrQ k d (standInSamples xs) (encTree t) ∧
        ys.Perm xs ∧ SmallTree t := by
  have small0 : SmallThr (.fin 0) := by
    intro q hq
    simp only [AnyFloat.fin.injEq] at hq
    subst hq
    norm_num
  have leafCase : ∀ (d : ℕ) {xs : List AnySample} {g : ℚ} {n : NodeInfo},
      (d = 0 ∨ gini classes (standInSamples xs) ≤ 0) →
      computeGini classes (classesOnly xs) = .ok g →
      newNode classes g xs.length (getCountPerClass classes (classesOnly xs)) = .ok n →
      Grown classes (gini classes) (wg classes) thrQ k d (standInSamples xs)
          (encTree (.node n (.fin 0) .nil .nil)) ∧ xs.Perm xs ∧
        SmallTree (.node n (.fin 0) .nil .nil) := by
    intro d xs g n hd hg hn
    obtain ⟨c, rest, hcl, rfl⟩ := newNode_ok_iff.1 hn
    unfold computeGini at hg
    split at hg
    · simp at hg
    · simp only [Except.ok.injEq] at hg
      subst hg
      refine ⟨.leaf d _ _ hd (gini_only classes xs) (length_emb xs).symm ?_ rfl, List.Perm.refl _,
        small0, trivial, trivial⟩
      rw [← getCountPerClass_eq, ← counts_only]
  induction d with
  | zero =>
    intro xs t ys hnum hk h
    unfold buildAny at h
    obtain ⟨g, h1, h2⟩ := (Res.bind_eq_ok _ _ _).1 h
    obtain ⟨n, h3, h4⟩ := (Res.bind_eq_ok _ _ _).1 h2
    simp only [Except.ok.injEq, Prod.mk.injEq] at h4
    obtain ⟨rfl, rfl⟩ := h4
    exact leafCase 0 (Or.inl rfl) h1 h3
  | succ d ih =>
    intro xs t ys hnum hk h
    unfold buildAny at h
    obtain ⟨g, h1, h2⟩ := (Res.bind_eq_ok _ _ _).1 h
    obtain ⟨n, h3, h4⟩ := (Res.bind_eq_ok _ _ _).1 h2
    have h1' := h1
    unfold computeGini at h1
    split at h1
    · simp at h1
    rename_i hne
    have hne' : xs ≠ [] := by rintro rfl; exact hne rfl
    simp only [Except.ok.injEq] at h1
    subst h1
    rw [if_neg hne', gini_only] at h4
    by_cases hg : gini classes (standInSamples xs) ≤ 0
    · rw [if_pos hg] at h4
      simp only [Except.ok.injEq, Prod.mk.injEq] at h4
      obtain ⟨rfl, rfl⟩ := h4
      exact leafCase (d + 1) (Or.inr hg) h1' h3
    · rw [if_neg hg] at h4
      obtain ⟨⟨zs, pos, fidx, thr⟩, h5, h6⟩ := (Res.bind_eq_ok _ _ _).1 h4
      have hlen : 1 < xs.length := by
        by_contra hcon
        unfold splitAny at h5
        rw [if_pos (by omega)] at h5
        simp at h5
      rcases splitAny_cases hσ classes hnum hk hlen with
        ⟨zs', pos', fidx', thr', l, r, e, hp, hs, ht, hsm⟩ | ⟨-, e⟩
      · rw [e] at h5
        simp only [Except.ok.injEq, Prod.mk.injEq] at h5
        obtain ⟨rfl, rfl, rfl, rfl⟩ := h5
        obtain ⟨⟨tl, ys1⟩, h7, h8⟩ := (Res.bind_eq_ok _ _ _).1 h6
        obtain ⟨⟨tr, ys2⟩, h9, h10⟩ := (Res.bind_eq_ok _ _ _).1 h8
        simp only [Except.ok.injEq, Prod.mk.injEq] at h10
        obtain ⟨rfl, rfl⟩ := h10
        have hsub : ∀ x ∈ zs', x ∈ xs := fun x hx => hp.mem_iff.1 hx
        obtain ⟨g1, p1, s1⟩ := ih (hnum.sub fun x hx => hsub x (List.mem_of_mem_take hx))
          (fun x hx => hk x (hsub x (List.mem_of_mem_take hx))) h7
        obtain ⟨g2, p2, s2⟩ := ih (hnum.sub fun x hx => hsub x (List.mem_of_mem_drop hx))
          (fun x hx => hk x (hsub x (List.mem_of_mem_drop hx))) h9
        refine ⟨?_, ?_, hsm, s1, s2⟩
        · obtain ⟨c, rest, hcl, rfl⟩ := newNode_ok_iff.1 h3
          refine .inner d _ _ fidx' l r _ _ (not_le.1 hg) (gini_only classes xs)
            (length_emb xs).symm ?_ hs.best rfl ht ?_ ?_
          · rw [← getCountPerClass_eq, ← counts_only]
          · rw [emb_take, hs.take] at g1
            exact grown_perm_any g1 (below_perm hs.perm _ _)
          · rw [emb_drop, hs.drop] at g2
            exact grown_perm_any g2 (above_perm hs.perm _ _)
        · have := p1.append p2
          rw [List.take_append_drop] at this
          exact this.trans hp
      · rw [e] at h5
        split at h5 <;> simp at h5

/-- Training of the samples and of their stand-ins go alike; also for the thresholds if `F`. -/
def Alike (F : Prop) : Res (AnyTree × List AnySample) → Res (Tree × List Sample) → Prop
  | .ok a, .ok b => SameButThresholds a.1 b.1 ∧ (F → SameThresholds a.1 b.1)
  | .error e, .error e' => e = e'
  | _, _ => False

theorem buildAny_alike {σ : AnySortFn} (hσ : AnySortSpec σ) {σ' : SortFn} (hσ' : SortSpec σ')
    (classes : List ℤ) {k : ℕ} (d : ℕ) :
    ∀ {xs : List AnySample} {xs' : List Sample}, Numeric xs → (∀ x ∈ xs, x.1.length = k) →
      (standInSamples xs).Perm xs' →
      Alike (NoInfinity xs) (buildAny σ classes d xs) (buildTree σ' classes d xs') := by
  induction d with
  | zero =>
    intro xs xs' hnum hk hp
    unfold buildAny buildTree computeGini
    have hnil : classesOnly xs = [] ↔ xs' = [] := by
      rw [← List.length_eq_zero_iff, ← List.length_eq_zero_iff, length_only, ← hp.length_eq,
        length_emb]
    rw [gini_only, counts_only, gini_perm classes hp, getCountPerClass_perm classes hp,
      ← length_emb, hp.length_eq]
    by_cases hx : xs' = []
    · rw [if_pos hx, if_pos (hnil.2 hx)]; rfl
    · rw [if_neg hx, if_neg (fun h => hx (hnil.1 h))]
      simp only [Res.bind_ok]
      cases hnn : newNode classes (gini classes xs') xs'.length (getCountPerClass classes xs') with
      | error e => rfl
      | ok n =>
        obtain ⟨c, rest, -, rfl⟩ := newNode_ok_iff.1 hnn
        exact ⟨⟨rfl, rfl, rfl, rfl, rfl, trivial, trivial⟩, fun _ => ⟨by simp, rfl, trivial, trivial⟩⟩
  | succ d ih =>
    intro xs xs' hnum hk hp
    have hk' : ∀ x ∈ xs', x.1.length = k := fun x hx => emb_length_eq hk x (hp.mem_iff.2 hx)
    have hll : xs.length = xs'.length := by rw [← length_emb, hp.length_eq]
    unfold buildAny buildTree computeGini
    have hnil : classesOnly xs = [] ↔ xs' = [] := by
      rw [← List.length_eq_zero_iff, ← List.length_eq_zero_iff, length_only, hll]
    have hnil' : xs = [] ↔ xs' = [] := by
      rw [← List.length_eq_zero_iff, ← List.length_eq_zero_iff, hll]
    rw [gini_only, counts_only, gini_perm classes hp, getCountPerClass_perm classes hp, hll]
    by_cases hx : xs' = []
    · rw [if_pos hx, if_pos (hnil.2 hx)]; rfl
    rw [if_neg hx, if_neg (fun h => hx (hnil.1 h))]
    simp only [Res.bind_ok]
    cases hnn : newNode classes (gini classes xs') xs'.length (getCountPerClass classes xs') with
    | error e => rfl
    | ok n =>
      simp only [Res.bind_ok]
      rw [if_neg hx, if_neg (fun h => hx (hnil'.1 h))]
      by_cases hg : gini classes xs' ≤ 0
      · rw [if_pos hg, if_pos hg]
        obtain ⟨c, rest, -, rfl⟩ := newNode_ok_iff.1 hnn
        exact ⟨⟨rfl, rfl, rfl, rfl, rfl, trivial, trivial⟩, fun _ => ⟨by simp, rfl, trivial, trivial⟩⟩
      rw [if_neg hg, if_neg hg]
      by_cases hlen : xs.length ≤ 1
      · unfold splitAny split
        rw [if_pos hlen, if_pos (by omega)]; rfl
      rcases splitAny_cases hσ classes hnum hk (by omega) with
        ⟨ys, pos, fidx, thr, l, r, e, hpy, hs, hthr, -⟩ | ⟨hall, e⟩
      · rcases split_cases hσ' classes hk' (by omega) with
          ⟨ys', pos', fidx', thr', l', r', e', hs'⟩ | ⟨hall', e'⟩
        · have hb := hs.best.perm hp
          have hb' := hs'.best
          have e1 := hb.least _ _ _ hb'.feature hb'.cut
          have e2 := hb'.least _ _ _ hb.feature hb.cut
          have f1 := hb.first _ _ _ hb'.feature hb'.cut (le_antisymm e2 e1)
          have f2 := hb'.first _ _ _ hb.feature hb.cut (le_antisymm e1 e2)
          have hfi : fidx = fidx' := by omega
          subst hfi
          have hl : l = l' := by
            rcases f1 with h | ⟨-, h⟩
            · omega
            · rcases f2 with h' | ⟨-, h'⟩
              · omega
              · exact le_antisymm h h'
          subst hl
          have hr := hb.cut.right_unique hb'.cut
          subst hr
          have hpp : (standInSamples ys).Perm ys' := hs.perm.trans (hp.trans hs'.perm.symm)
          have ht : (standInSamples (ys.take pos)).Perm (ys'.take pos') := by
            rw [emb_take, hs.take, hs'.take]; exact below_perm hpp _ _
          have hd : (standInSamples (ys.drop pos)).Perm (ys'.drop pos') := by
            rw [emb_drop, hs.drop, hs'.drop]; exact above_perm hpp _ _
          have hsub : ∀ x ∈ ys, x ∈ xs := fun x hx => hpy.mem_iff.1 hx
          have i1 := ih (hnum.sub fun x hx => hsub x (List.mem_of_mem_take hx))
            (fun x hx => hk x (hsub x (List.mem_of_mem_take hx))) ht
          have i2 := ih (hnum.sub fun x hx => hsub x (List.mem_of_mem_drop hx))
            (fun x hx => hk x (hsub x (List.mem_of_mem_drop hx))) hd
          rw [e, e']
          simp only [Res.bind_ok]
          cases h1 : buildAny σ classes d (ys.take pos) with
          | error er =>
            rw [h1] at i1
            cases h1' : buildTree σ' classes d (ys'.take pos') with
            | error er' => rw [h1'] at i1; exact i1
            | ok p => rw [h1'] at i1; exact i1.elim
          | ok p =>
            rw [h1] at i1
            cases h1' : buildTree σ' classes d (ys'.take pos') with
            | error er' => rw [h1'] at i1; exact i1.elim
            | ok p' =>
              rw [h1'] at i1
              simp only [Res.bind_ok]
              cases h2 : buildAny σ classes d (ys.drop pos) with
              | error er =>
                rw [h2] at i2
                cases h2' : buildTree σ' classes d (ys'.drop pos') with
                | error er' => rw [h2'] at i2; exact i2
                | ok q => rw [h2'] at i2; exact i2.elim
              | ok q =>
                rw [h2] at i2
                cases h2' : buildTree σ' classes d (ys'.drop pos') with
                | error er' => rw [h2'] at i2; exact i2.elim
                | ok q' =>
                  rw [h2'] at i2
                  refine ⟨⟨rfl, rfl, rfl, rfl, rfl, i1.1, i2.1⟩, fun hF => ?_⟩
                  obtain ⟨x, hx, ex⟩ := hs.best.cut.left
                  obtain ⟨y, hy, ey⟩ := hs.best.cut.right
                  have sl := emb_small hnum hF hx fidx
                  have sr := emb_small hnum hF hy fidx
                  rw [ex] at sl
                  rw [ey] at sr
                  have hnn := not_nan_of_thr hthr sl sr
                  refine ⟨hnn, ?_, i1.2 fun x hx => hF x (hsub x (List.mem_of_mem_take hx)),
                    i2.2 fun x hx => hF x (hsub x (List.mem_of_mem_drop hx))⟩
                  rw [← encThr_eq hnn, hthr, thrQ_fin sl sr, hs'.thr_eq]
        · have hb := hs.best.perm hp
          have h1 := hall' _ _ _ hb.feature hb.cut
          have h2 := hs.lt_one
          rw [wg_perm classes (below_perm hp _ _) (above_perm hp _ _)] at h2
          linarith
      · rcases split_cases hσ' classes hk' (by omega) with
          ⟨ys', pos', fidx', thr', l', r', e', hs'⟩ | ⟨hall', e'⟩
        · have hb := hs'.best.perm hp.symm
          have h1 := hall _ _ _ hb.feature hb.cut
          have h2 := hs'.lt_one
          rw [wg_perm classes (below_perm hp.symm _ _) (above_perm hp.symm _ _)] at h2
          linarith
        · rw [e, e']; rfl

/-! ## Routing -/

theorem goes_enc {x : List AnyFloat} (hx : ∀ v ∈ x, Good v) : ∀ {t : AnyTree}, SmallTree t →
    ∀ p, goes (encTree t) p (x.map standIn) ↔ anyGoes t p x
  | .nil, _, [] => Iff.rfl
  | .nil, _, _ :: _ => Iff.rfl
  | .node .., _, [] => Iff.rfl
  | .node n thr l r, ⟨h1, h2, h3⟩, b :: p => by
    have e : (x.map standIn).getD n.featureIdx.toNat 0 =
        standIn (x.getD n.featureIdx.toNat (.fin 0)) := by
      have := feat_emb (x, 0) n.featureIdx.toNat
      exact this
    have hg : Good (x.getD n.featureIdx.toNat (.fin 0)) := by
      rw [List.getD_eq_getElem?_getD]
      cases hv : x[n.featureIdx.toNat]? with
      | none => exact good_zero
      | some v => exact hx v (List.mem_of_getElem? hv)
    simp only [encTree, goes, anyGoes, e]
    rw [less_iff, lt_encThr hg h1, decide_eq_true_eq]
    have : (if b = true then encTree r else encTree l) = encTree (if b = true then r else l) := by
      cases b <;> rfl
    rw [this]
    cases b with
    | false => rw [if_neg (by simp), goes_enc hx h2 p]
    | true => rw [if_pos rfl, goes_enc hx h3 p]

theorem subtree_enc : ∀ {t : AnyTree} {p : List Bool} {n thr l r}, anySubtreeAt t p = .node n thr l r →
    subtreeAt (encTree t) p = .node { n with threshold := encThr thr } (encTree l) (encTree r)
  | t, [], n, thr, l, r, h => by
    simp only [anySubtreeAt] at h
    subst h
    rfl
  | .nil, _ :: _, _, _, _, _, h => by simp [anySubtreeAt] at h
  | .node m _ tl tr, b :: p, n, thr, l, r, h => by
    simp only [anySubtreeAt, encTree, subtreeAt] at h ⊢
    cases b with
    | false => simpa using subtree_enc h
    | true => simpa using subtree_enc h

theorem separable_any {k : ℕ} {xs : List AnySample} (hn : Numeric xs) (h : AnySpaced k xs) :
    Separable thrQ k (standInSamples xs) := by
  have hm := maxFloat_lt
  intro i hi x hx y hy hlt
  obtain ⟨x', hx', rfl⟩ := List.mem_map.1 hx
  obtain ⟨y', hy', rfl⟩ := List.mem_map.1 hy
  have ex : (x'.1.map standIn).getD i 0 = standIn (x'.1.getD i (.fin 0)) := feat_emb x' i
  have ey : (y'.1.map standIn).getD i 0 = standIn (y'.1.getD i (.fin 0)) := feat_emb y' i
  simp only [ex, ey] at hlt ⊢
  obtain ⟨h1, h2⟩ := h i hi x' hx' y' hy'
  have gx : Good (x'.1.getD i (.fin 0)) := hn.good hx' i
  have gy : Good (y'.1.getD i (.fin 0)) := hn.good hy' i
  rw [less_iff, lt_standIn gx gy, decide_eq_true_eq] at h2
  have h3 := h2 hlt
  have gb : ∀ v, Good v → v ≠ .posInf → v ≠ .negInf → |standIn v| ≤ maxFloat := by
    intro v hv h1 h2
    cases v with
    | nan => exact absurd rfl hv.1
    | fin q => exact hv.2 q rfl
    | negZero => simp only [standIn]; unfold maxFloat; norm_num
    | posInf => exact absurd rfl h1
    | negInf => exact absurd rfl h2
  have h1y := (h i hi y' hy' x' hx').1
  generalize x'.1.getD i (.fin 0) = a at *
  generalize y'.1.getD i (.fin 0) = b at *
  have ha : a ≠ .posInf := by
    rintro rfl
    by_cases hb : b = .posInf
    · subst hb; exact lt_irrefl _ hlt
    · have := abs_le.1 (gb b gy hb h1y)
      simp only [standIn] at hlt this
      linarith
  have gba := gb a gx ha h1
  by_cases hb : b = .posInf
  · subst hb
    have : thrQ (standIn a) (standIn .posInf) = 2 ^ 128 := by
      unfold thrQ
      rw [unembed_fin gba]
      show encThr (anyThreshold _ (unembed (2 ^ 128))) = _
      rw [unembed_posInf]
      rfl
    rw [this]
    have := abs_le.1 gba
    exact ⟨by linarith, le_refl _⟩
  · obtain ⟨s1, s2, s3⟩ := h3 hb
    rw [thrQ_fin gba (gb b gy hb h1y)]
    exact threshold_spaced (le_max_left _ _) (le_max_right _ _) s1 s2 s3

theorem filter_emb {xs : List AnySample} {P : Sample → Prop} {Q : AnySample → Prop} [DecidablePred P]
    [DecidablePred Q] (h : ∀ x ∈ xs, (P (x.1.map standIn, x.2) ↔ Q x)) :
    (standInSamples xs).filter (fun x => P x) = standInSamples (xs.filter fun x => Q x) := by
  unfold standInSamples
  rw [List.filter_map]
  congr 1
  apply List.filter_congr
  intro x hx
  simp only [Function.comp]
  exact decide_eq_decide.2 (h x hx)

theorem numOf_emb (xs : List AnySample) : numOf (standInSamples xs) = anyNumOf xs := by
  funext c
  unfold numOf anyNumOf
  rw [filter_emb (Q := fun x => x.2 = c) (fun x _ => Iff.rfl), length_emb]

/-! ## NaN -/

theorem strictWeak_false {i : ℕ} {xs : List AnySample} (h : Unordered i xs) :
    strictWeak i xs = false := by
  obtain ⟨⟨z, hz, ez⟩, x, hx, y, hy, hl⟩ := h
  rw [less_iff] at hl
  have ez' : anyFeat z i = .nan := ez
  have hl' : (anyFeat x i).lt (anyFeat y i) = true := hl
  by_contra hcon
  rw [Bool.not_eq_false] at hcon
  unfold strictWeak at hcon
  simp only [List.all_eq_true] at hcon
  have := hcon x hx z hz y hy
  have n1 : ∀ v : AnyFloat, v.lt .nan = false := fun v => by cases v <;> rfl
  have n2 : ∀ v : AnyFloat, AnyFloat.nan.lt v = false := fun v => rfl
  rw [ez', n1, n2, n1, n2, hl'] at this
  simp at this

theorem Spec.Unordered.perm {i : ℕ} {xs ys : List AnySample} (hp : xs.Perm ys) (h : Unordered i xs) :
    Unordered i ys := by
  obtain ⟨⟨z, hz, ez⟩, x, hx, y, hy, hl⟩ := h
  exact ⟨⟨z, hp.mem_iff.1 hz, ez⟩, x, hp.mem_iff.1 hx, y, hp.mem_iff.1 hy, hl⟩

theorem scanAny_unordered {σ : AnySortFn} (hσ : AnySortSpec σ) (classes : List ℤ)
    {xs : List AnySample} {k : ℕ} (hk : ∀ x ∈ xs, x.1.length = k) {i : ℕ} (hu : Unordered i xs)
    (st : AnyBest) (m : ℕ) (hm : m ≤ k) :
    (List.range m).foldlM (scanStepAny σ classes) (xs, st) = .error (.ub .badOrder) ∨
    (m ≤ i ∧ ∃ ys best, (List.range m).foldlM (scanStepAny σ classes) (xs, st) = .ok (ys, best) ∧
      ys.Perm xs) := by
  induction m with
  | zero => exact .inr ⟨by omega, xs, st, rfl, List.Perm.refl _⟩
  | succ m ih =>
    rw [List.range_succ, List.foldlM_append]
    rcases ih (by omega) with h | ⟨hmi, ys, best, h, hp⟩
    · rw [h]; exact .inl rfl
    · rw [h]
      simp only [Res.bind_ok, List.foldlM_cons, List.foldlM_nil]
      unfold scanStepAny sortAny
      rw [if_pos (by
        simp only [List.all_eq_true, decide_eq_true_eq]
        intro x hx
        rw [hk x (hp.mem_iff.1 hx)]; omega)]
      by_cases hw : strictWeak m ys = true
      · rw [if_pos hw]
        refine .inr ⟨?_, _, _, rfl, (hσ m ys hw).1.trans hp⟩
        by_contra hcon
        have : m = i := by omega
        subst this
        rw [strictWeak_false (hu.perm hp.symm)] at hw
        simp at hw
      · rw [if_neg hw]; exact .inl rfl

theorem splitAny_unordered {σ : AnySortFn} (hσ : AnySortSpec σ) (classes : List ℤ)
    {xs : List AnySample} {k : ℕ} (hk : ∀ x ∈ xs, x.1.length = k) {i : ℕ} (hi : i < k)
    (hu : Unordered i xs) (hlen : 1 < xs.length) :
    splitAny σ classes xs = .error (.ub .badOrder) := by
  have hhead : (xs.headD ([], 0)).1.length = k := by
    cases xs with
    | nil => simp at hlen
    | cons x xs => exact hk x (by simp)
  unfold splitAny
  rw [if_neg (by omega)]
  simp only [hhead]
  rcases scanAny_unordered hσ classes hk hu ⟨1, none⟩ k (le_refl k) with h | ⟨h, -⟩
  · rw [h]; rfl
  · omega

/-- The class of a sample in the sense of the impurity. -/
theorem impure_only {classes : List ℤ} (hnd : classes.Nodup) {xs : List AnySample}
    (hcls : ∀ x ∈ xs, x.2 ∈ classes) (hlen : xs.length ≤ 2 ^ 20) {x y : AnySample} (hx : x ∈ xs)
    (hy : y ∈ xs) (hxy : x.2 ≠ y.2) : 0 < gini classes (classesOnly xs) := by
  have mem : ∀ z ∈ xs, (([], z.2) : Sample) ∈ classesOnly xs := fun z hz =>
    List.mem_map.2 ⟨z, hz, rfl⟩
  have hc : ∀ z ∈ classesOnly xs, z.2 ∈ classes := by
    intro z hz
    obtain ⟨w, hw, rfl⟩ := List.mem_map.1 hz
    exact hcls w hw
  exact gini_pos hnd (List.ne_nil_of_mem (mem x hx)) hc (by rw [length_only]; exact hlen)
    (two_le_nonzero (mem x hx) (mem y hy) hxy hc)

/-! ## Answers -/

theorem scanFeatureAny_fidx {classes : List ℤ} {m : ℕ} {ys : List AnySample} {st : AnyBest}
    (h : ∀ pos i l r, st.at? = some (pos, i, l, r) → i < m) :
    ∀ pos i l r, (scanFeatureAny classes m ys st).at? = some (pos, i, l, r) → i < m + 1 := by
  unfold scanFeatureAny
  have h' : ∀ pos i l r, st.at? = some (pos, i, l, r) → i < m + 1 := fun pos i l r e => by
    have := h pos i l r e
    omega
  clear h
  generalize List.range' 1 (ys.length - 1) = js
  induction js generalizing st with
  | nil => exact h'
  | cons j js ih =>
    rw [List.foldl_cons]
    refine ih ?_
    intro pos i l r e
    unfold scanPosAny at e
    simp only at e
    split at e
    · exact h' _ _ _ _ e
    split at e
    · exact h' _ _ _ _ e
    · simp only [Option.some.injEq, Prod.mk.injEq] at e
      omega

theorem sortAny_perm {σ : AnySortFn} (hσ : AnySortSpec σ) {i : ℕ} {xs ys : List AnySample}
    (h : sortAny σ i xs = .ok ys) : ys.Perm xs := by
  unfold sortAny at h
  split at h
  · split at h
    · next hw =>
      simp only [Except.ok.injEq] at h
      subst h
      exact (hσ i xs hw).1
    · simp at h
  · simp at h

theorem scanAny_fidx {σ : AnySortFn} (hσ : AnySortSpec σ) {classes : List ℤ} {xs ys : List AnySample}
    {best : AnyBest} (m : ℕ)
    (h : (List.range m).foldlM (scanStepAny σ classes) (xs, ⟨1, none⟩) = .ok (ys, best)) :
    ys.Perm xs ∧ ∀ pos i l r, best.at? = some (pos, i, l, r) → i < m := by
  induction m generalizing ys best with
  | zero =>
    simp only [List.range_zero, List.foldlM_nil, Res.pure_eq, Except.ok.injEq, Prod.mk.injEq] at h
    obtain ⟨rfl, rfl⟩ := h
    exact ⟨List.Perm.refl _, by simp⟩
  | succ m ih =>
    rw [List.range_succ, List.foldlM_append] at h
    obtain ⟨⟨zs, b⟩, h1, h2⟩ := (Res.bind_eq_ok _ _ _).1 h
    obtain ⟨hp, hb⟩ := ih h1
    simp only [List.foldlM_cons, List.foldlM_nil] at h2
    obtain ⟨⟨ws, b'⟩, h3, h4⟩ := (Res.bind_eq_ok _ _ _).1 h2
    simp only [Res.pure_eq, Except.ok.injEq, Prod.mk.injEq] at h4
    obtain ⟨rfl, rfl⟩ := h4
    unfold scanStepAny at h3
    obtain ⟨vs, h5, h6⟩ := (Res.bind_eq_ok _ _ _).1 h3
    simp only [Except.ok.injEq, Prod.mk.injEq] at h6
    obtain ⟨rfl, rfl⟩ := h6
    exact ⟨(sortAny_perm hσ h5).trans hp, scanFeatureAny_fidx hb⟩

theorem splitAny_fidx {σ : AnySortFn} (hσ : AnySortSpec σ) {classes : List ℤ} {xs ys : List AnySample}
    {k pos fidx : ℕ} {thr : AnyFloat} (hk : ∀ x ∈ xs, x.1.length = k)
    (h : splitAny σ classes xs = .ok (ys, pos, fidx, thr)) : ys.Perm xs ∧ fidx < k := by
  unfold splitAny at h
  split at h
  · simp at h
  · next hlen =>
    have hhead : (xs.headD ([], 0)).1.length = k := by
      cases xs with
      | nil => simp at hlen
      | cons x xs => exact hk x (by simp)
    rw [hhead] at h
    obtain ⟨⟨zs, b⟩, h1, h2⟩ := (Res.bind_eq_ok _ _ _).1 h
    obtain ⟨hp, hb⟩ := scanAny_fidx hσ k h1
    obtain ⟨g, a⟩ := b
    cases a with
    | none =>
      simp only at h2
      obtain ⟨_, _, h3⟩ := (Res.bind_eq_ok _ _ _).1 h2
      simp at h3
    | some q =>
      obtain ⟨p, i, l, r⟩ := q
      simp only at h2
      obtain ⟨vs, h3, h4⟩ := (Res.bind_eq_ok _ _ _).1 h2
      simp only [Except.ok.injEq, Prod.mk.injEq] at h4
      obtain ⟨rfl, rfl, rfl, rfl⟩ := h4
      exact ⟨(sortAny_perm hσ h3).trans hp, hb p i l r rfl⟩

theorem buildAny_const {σ : AnySortFn} (hσ : AnySortSpec σ) (c : ℤ) (rest : List ℤ) {k : ℕ} (d : ℕ) :
    ∀ {xs ys : List AnySample} {t : AnyTree}, (∀ x ∈ xs, x.1.length = k) →
      buildAny σ (c :: rest) d xs = .ok (t, ys) → t ≠ .nil ∧
      ∀ f : List AnyFloat, f.length = k → t.evaluate f = .ok c := by
  have leafCase : ∀ {g : ℚ} {m : ℕ} {cs : List ℕ} {n : NodeInfo} {f : List AnyFloat},
      newNode (c :: rest) g m cs = .ok n →
      AnyTree.evaluate (.node n (.fin 0) .nil .nil) f = .ok c := by
    intro g m cs n f h
    rw [newNode_cons] at h
    simp only [Except.ok.injEq] at h
    subst h
    simp [AnyTree.evaluate]
  induction d with
  | zero =>
    intro xs ys t hk h
    unfold buildAny at h
    obtain ⟨g, h1, h2⟩ := (Res.bind_eq_ok _ _ _).1 h
    obtain ⟨n, h3, h4⟩ := (Res.bind_eq_ok _ _ _).1 h2
    simp only [Except.ok.injEq, Prod.mk.injEq] at h4
    obtain ⟨rfl, rfl⟩ := h4
    exact ⟨by simp, fun f _ => leafCase h3⟩
  | succ d ih =>
    intro xs ys t hk h
    unfold buildAny at h
    obtain ⟨g, h1, h2⟩ := (Res.bind_eq_ok _ _ _).1 h
    obtain ⟨n, h3, h4⟩ := (Res.bind_eq_ok _ _ _).1 h2
    split at h4
    · simp only [Except.ok.injEq, Prod.mk.injEq] at h4
      obtain ⟨rfl, rfl⟩ := h4
      exact ⟨by simp, fun f _ => leafCase h3⟩
    split at h4
    · simp only [Except.ok.injEq, Prod.mk.injEq] at h4
      obtain ⟨rfl, rfl⟩ := h4
      exact ⟨by simp, fun f _ => leafCase h3⟩
    obtain ⟨⟨zs, pos, fidx, thr⟩, h5, h6⟩ := (Res.bind_eq_ok _ _ _).1 h4
    obtain ⟨⟨tl, ys1⟩, h7, h8⟩ := (Res.bind_eq_ok _ _ _).1 h6
    obtain ⟨⟨tr, ys2⟩, h9, h10⟩ := (Res.bind_eq_ok _ _ _).1 h8
    simp only [Except.ok.injEq, Prod.mk.injEq] at h10
    obtain ⟨rfl, rfl⟩ := h10
    obtain ⟨hp, hfi⟩ := splitAny_fidx hσ hk h5
    have hkz : ∀ x ∈ zs, x.1.length = k := fun x hx => hk x (hp.mem_iff.1 hx)
    obtain ⟨n1, e1⟩ := ih (fun x hx => hkz x (List.mem_of_mem_take hx)) h7
    obtain ⟨n2, e2⟩ := ih (fun x hx => hkz x (List.mem_of_mem_drop hx)) h9
    refine ⟨by simp, fun f hf => ?_⟩
    conv_lhs => unfold AnyTree.evaluate
    simp only
    rw [if_neg (by omega), if_neg (by omega), Int.toNat_natCast,
      List.getElem?_eq_getElem (by omega)]
    simp only [if_neg n1, if_neg n2]
    split
    · exact e1 f hf
    · exact e2 f hf

/-- A sort that satisfies the specification. -/
def anySort : AnySortFn := fun i xs =>
  if xs.any (fun x => anyFeat x i = .nan) then xs
  else xs.insertionSort fun a b => (num (anyFeat a i)).getD ⊥ ≤ (num (anyFeat b i)).getD ⊥

theorem anySort_spec : AnySortSpec anySort := by
  intro i xs hw
  unfold anySort
  split
  · next h =>
    refine ⟨List.Perm.refl _, ?_⟩
    rw [List.pairwise_iff_forall_sublist]
    intro a b hab
    by_contra hcon
    rw [Bool.not_eq_false] at hcon
    simp only [List.any_eq_true, decide_eq_true_eq] at h
    have ha : a ∈ xs := hab.subset (by simp)
    have hb : b ∈ xs := hab.subset (by simp)
    have := strictWeak_false (i := i) (xs := xs) ⟨h, b, hb, a, ha, (less_iff _ _).2 hcon⟩
    rw [this] at hw
    simp at hw
  · next h =>
    simp only [List.any_eq_true, decide_eq_true_eq, not_exists, not_and] at h
    have : IsTrans AnySample (fun a b => (num (anyFeat a i)).getD ⊥ ≤ (num (anyFeat b i)).getD ⊥) :=
      ⟨fun _ _ _ h h' => le_trans h h'⟩
    have : Std.Total (fun a b : AnySample =>
        (num (anyFeat a i)).getD ⊥ ≤ (num (anyFeat b i)).getD ⊥) := ⟨fun _ _ => le_total _ _⟩
    have hp := List.perm_insertionSort
      (fun a b => (num (anyFeat a i)).getD ⊥ ≤ (num (anyFeat b i)).getD ⊥) xs
    refine ⟨hp, (List.pairwise_insertionSort _ xs).imp_of_mem ?_⟩
    intro a b ha hb hab
    rw [lt_eq (h b (hp.mem_iff.1 hb)) (h a (hp.mem_iff.1 ha))]
    simpa using hab

end Apollo
