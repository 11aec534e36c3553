import Verif.Model.PlotTrace
import Verif.Spec.PlotTrace
import Verif.Proofs.ScriptData
import Verif.Proofs.NetSoftmax

/-!
# The picture of a trace
-/

namespace Apollo.Scripts

open Spec

theorem levels_ascending (l : List ℚ) : Ascending (levels l) l where
  sorted := by
    have h1 : (levels l).Pairwise (· ≤ ·) := List.pairwise_insertionSort _ _
    have h2 : (levels l).Nodup := ((List.perm_insertionSort _ _).nodup_iff).2 (List.nodup_dedup l)
    exact (List.pairwise_and_iff.2 ⟨h1, h2⟩).imp fun h => lt_of_le_of_ne h.1 h.2
  mem := fun x => by rw [levels, (List.perm_insertionSort _ _).mem_iff, List.mem_dedup]

theorem length_fixDigits (k n : ℕ) : (fixDigits k n).length = k := by
  induction k generalizing n with
  | zero => rfl
  | succ k ih => simp [fixDigits, ih]

theorem fixed2_shows (q : ℚ) : ShowsRounded (fixed2 q) q := by
  set n := (roundEven (|q| * 100)).toNat with hn
  have h0 : 0 ≤ roundEven (|q| * 100) := by
    have := roundEven_mono (show ((0 : ℤ) : ℚ) ≤ |q| * 100 by have := abs_nonneg q; push_cast; linarith)
    rwa [roundEven_intCast] at this
  have hr : |(n : ℚ) - |q| * 100| ≤ 1 / 2 := by
    have h1 := abs_roundEven_sub (|q| * 100)
    have h2 : ((n : ℕ) : ℚ) = (roundEven (|q| * 100) : ℚ) := by
      rw [hn]; exact_mod_cast Int.toNat_of_nonneg h0
    rwa [h2]
  have hd : ∀ c ∈ natDigits (n / 100), isDigit c = true := fun c hc => isDigit_of_mem_natDigits hc
  have hf : fixDigits 2 n = [digitChar (n / 10 % 10), digitChar (n % 10)] := rfl
  have hfd : ∀ c ∈ fixDigits 2 n, isDigit c = true := by
    rw [hf]
    intro c hc
    simp only [List.mem_cons, List.not_mem_nil, or_false] at hc
    rcases hc with rfl | rfl <;> exact isDigit_digitChar (Nat.mod_lt _ (by norm_num))
  have hs : readSign (fixed2 q) = (decide (q < 0), natDigits (n / 100) ++ '.' :: fixDigits 2 n) := by
    unfold fixed2
    simp only [← hn]
    by_cases hq : q < 0
    · simp [hq, readSign]
    · obtain ⟨c, l, e⟩ : ∃ c l, natDigits (n / 100) = c :: l := by
        cases e : natDigits (n / 100) with
        | nil => exact absurd e (natDigits_ne_nil _)
        | cons c l => exact ⟨c, l, rfl⟩
      rw [if_neg hq, e, List.nil_append, List.cons_append,
        readSign_of_digit (hd c (by rw [e]; exact List.mem_cons_self))]
      simp [hq]
  have hv : valDigits (natDigits (n / 100) ++ fixDigits 2 n) = n := by
    rw [hf, show [digitChar (n / 10 % 10), digitChar (n % 10)] =
      [digitChar (n / 10 % 10)] ++ [digitChar (n % 10)] from rfl, ← List.append_assoc]
    simp only [valDigits_append, valDigits_natDigits, valDigits_singleton, List.length_singleton,
      digitVal_digitChar (Nat.mod_lt _ (by norm_num : 0 < 10))]
    omega
  have htw : (natDigits (n / 100) ++ '.' :: fixDigits 2 n).takeWhile isDigit = natDigits (n / 100) := by
    rw [List.takeWhile_append_of_pos hd]
    simp [isDigit]
  have hdw : (natDigits (n / 100) ++ '.' :: fixDigits 2 n).dropWhile isDigit = '.' :: fixDigits 2 n := by
    rw [List.dropWhile_append_of_pos hd]
    simp [isDigit]
  have htf : (fixDigits 2 n).takeWhile isDigit = fixDigits 2 n := by
    rw [← List.append_nil (fixDigits 2 n), List.takeWhile_append_of_pos hfd]; rfl
  have hdf : (fixDigits 2 n).dropWhile isDigit = [] := by
    rw [← List.append_nil (fixDigits 2 n), List.dropWhile_append_of_pos hfd]; rfl
  refine ⟨if q < 0 then -((n : ℚ) / 100) else (n : ℚ) / 100, ?_, ?_⟩
  · simp only [readDecimal, hs, htw, hdw, readFrac, htf, hdf, readExp, hv, length_fixDigits]
    rw [if_neg (fun h => natDigits_ne_nil _ h.1)]
    have : (10 : ℚ) ^ ((0 : ℤ) - ((2 : ℕ) : ℤ)) = 1 / 100 := by norm_num
    rw [this]
    by_cases hq : q < 0 <;> simp [hq, div_eq_mul_inv]
  · rw [abs_le] at hr ⊢
    split
    next hq => rw [abs_of_neg hq] at hr; constructor <;> linarith [hr.1, hr.2]
    next hq => rw [abs_of_nonneg (not_lt.1 hq)] at hr; constructor <;> linarith [hr.1, hr.2]

theorem barLabel_labelled (py : Py) (times : List ℚ) :
    Labelled py.mean (1 / 1000000) times (py.barLabel times) := by
  refine ⟨fun h => by rw [Py.barLabel, if_pos h], fun h => ?_⟩
  rw [Py.barLabel, if_neg h]
  obtain ⟨v, h1, h2⟩ := fixed2_shows (rnd64 (py.mean times * 1000000))
  refine ⟨v, h1, ?_⟩
  have e : py.mean times / (1 / 1000000) = py.mean times * 1000000 := by ring
  rw [e]
  have h3 := abs_rnd64_sub_le (py.mean times * 1000000)
  have h4 := abs_sub_le v (rnd64 (py.mean times * 1000000)) (py.mean times * 1000000)
  have h5 : (2 : ℚ) ^ (-1075 : ℤ) ≤ 2 ^ (-8 : ℤ) := zpow_le_zpow_right₀ (by norm_num) (by norm_num)
  have h6 : (2 : ℚ) ^ (-8 : ℤ) ≤ 1 / 200 := by norm_num
  have h7 : (2 : ℚ) ^ (-53 : ℤ) * |py.mean times * 1000000| = |py.mean times * 1000000| / 2 ^ 53 := by
    rw [zpow_neg, div_eq_mul_inv, mul_comm]
    norm_cast
  rw [h7] at h3
  have h8 := h5.trans h6
  generalize (2 : ℚ) ^ (-1075 : ℤ) = t at h3 h8
  generalize |py.mean times * 1000000| / 2 ^ 53 = u at h3 ⊢
  clear h5 h6 h7
  linarith

theorem forall₂_map {α β : Type} {R : α → β → Prop} {g : α → β} {l : List α} (h : ∀ a ∈ l, R a (g a)) :
    List.Forall₂ R l (l.map g) := by
  induction l with
  | nil => exact .nil
  | cons a l ih =>
    exact .cons (h a List.mem_cons_self) (ih fun b hb => h b (List.mem_cons_of_mem _ hb))

/-! ## Groups of bars -/

theorem stride_drop (n i : ℕ) (l : List Text) : stride n i l = stride n 0 (l.drop i) := by
  induction i generalizing l with
  | zero => rfl
  | succ i ih =>
    cases l with
    | nil => simp [stride]
    | cons a l => rw [stride, List.drop_succ_cons]; exact ih l

theorem stride_flatMap {α : Type} (g : α → List Text) {n : ℕ} (ps : List α) (h : ∀ p ∈ ps, (g p).length = n)
    {i : ℕ} (hi : i < n) : stride n i (ps.flatMap g) = ps.map fun p => (g p).getD i [] := by
  induction ps with
  | nil => cases i <;> rfl
  | cons p ps ih =>
    have hp := h p List.mem_cons_self
    rw [List.flatMap_cons, List.map_cons, stride_drop,
      List.drop_append_of_le_length (by omega), List.drop_eq_getElem_cons (by omega), List.cons_append, stride,
      stride_drop, List.drop_append]
    have h1 : (g p).getD i [] = (g p)[i] := by simp [List.getD, hp, hi]
    rw [h1, List.drop_drop, List.drop_eq_nil_of_le (by omega), List.nil_append]
    have h2 : n - 1 - ((g p).drop (i + 1)).length = i := by rw [List.length_drop]; omega
    rw [h2, ← stride_drop, ih fun q hq => h q (List.mem_cons_of_mem _ hq)]

theorem containers_eq (py : Py) (data : List (ℚ × ℚ × ℚ)) :
    (List.range (levels (data.map fun r => r.2.1)).length).map
      (fun i => stride (levels (data.map fun r => r.2.1)).length i (py.barLabels data)) =
    (levels (data.map fun r => r.2.1)).map fun f =>
      (levels (data.map Prod.fst)).map fun p => py.barLabel (timesAt data f p) := by
  refine List.ext_getElem (by simp) fun i h1 h2 => ?_
  simp only [List.length_map, List.length_range] at h1
  rw [List.getElem_map, List.getElem_range, List.getElem_map, Py.barLabels,
    stride_flatMap _ _ (by simp) h1]
  refine List.map_congr_left fun p _ => ?_
  simp [List.getD, h1]

/-! ## Reading the rows -/

theorem rnd64_small {v : ℤ} (h : |v| < 10 ^ 6) : rnd64 (v : ℚ) = v := by
  refine rnd_of_representable (p := 53) (emin := -1074) (by norm_num) ⟨v, 0, ?_, by norm_num, by simp⟩
  have : |v| ≤ 2 ^ 53 := le_trans h.le (by norm_num)
  exact this

theorem Form.num {q : ℚ} {c : Cell} (h : Form q c) : numOf c = some (rnd64 (round6 q)) := by
  rcases h with ⟨v, rfl, e, hv⟩ | rfl
  · simp only [numOf, ← e, rnd64_small hv]
  · rfl

theorem column_ok {rows : List Record} {c : Text} {α : Type} {xs : List α} {g : α → ℚ} {R : α → Record → Prop}
    (h : List.Forall₂ R xs rows) (hg : ∀ x r, R x r → numOf (r c) = some (g x)) :
    column c rows = .ok (xs.map g) := by
  unfold column
  have : rows.mapM (fun row => numOf (row c)) = some (xs.map g) := by
    induction h with
    | nil => rfl
    | cons h1 _ ih =>
      rw [List.mapM_cons, hg _ _ h1, ih]
      rfl
  rw [this]

/-- The number that is read for a feature. -/
def asRead (q : ℚ) : ℚ := rnd64 (round6 q)

theorem plotRows_ok {F : RegionTrace} (hnf : 0 < F.nf) (hk : ∀ x ∈ F.rows, Keeps64 x.metric) {xs : List Row} {rows : List Record}
    (h : List.Forall₂ (RowOf F) xs rows) : plotRows rows =
      .ok (xs.map fun x => ((x.policy : ℚ), asRead (firstFeature x), x.metric)) := by
  unfold plotRows
  rw [column_ok h (g := fun x => (x.policy : ℚ)) fun x r hr => by rw [hr.policy]; rfl, Res.bind_ok,
    column_ok h (g := fun x => asRead (firstFeature x)) fun x r hr => by
      have h1 := (hr.feats 0 hnf).num
      have h2 : x.features.getD 0 0 = firstFeature x := by
        unfold firstFeature
        cases x.features <;> rfl
      rw [h2] at h1
      exact h1, Res.bind_ok,
    column_ok h (g := fun x => x.metric) fun x r hr => by
      have h1 := hr.xtime.num
      rwa [(hk x hr.mem).eq] at h1, Res.bind_ok]
  congr 1
  clear h hk
  induction xs with
  | nil => rfl
  | cons x xs ih => simp only [List.map_cons, List.zip_cons_cons, ih]

theorem asRead_mono {py : Py} {p q : ℚ} (hp : Keeps32 p ∧ Reprints py (fmtG6 p) (round6 p))
    (hq : Keeps32 q ∧ Reprints py (fmtG6 q) (round6 q)) (h : p < q) : asRead p < asRead q := by
  have h1 : round6 p < round6 q := by
    by_contra hle
    have := rnd_mono (p := 24) (emin := -149) (by norm_num) (not_lt.1 hle)
    have e1 := hp.1.eq
    have e2 := hq.1.eq
    unfold rnd32 at e1 e2
    rw [e1, e2] at this
    linarith
  refine lt_of_le_of_ne (rnd_mono (by norm_num) h1.le) fun he => ?_
  have v1 := hp.2.value
  have v2 := hq.2.value
  unfold asRead at he
  rw [he, v2] at v1
  have : round6 q = round6 p := congrArg Prod.fst (Option.some.inj v1)
  linarith

theorem levels_map {g : ℚ → ℚ} {l : List ℚ} (hg : ∀ a ∈ l, ∀ b ∈ l, a < b → g a < g b) :
    levels (l.map g) = (levels l).map g := by
  have h1 := levels_ascending (l.map g)
  have h2 := levels_ascending l
  refine List.Perm.eq_of_pairwise' (r := (· < ·)) h1.sorted ?_ ?_
  · rw [List.pairwise_map]
    exact h2.sorted.imp_of_mem fun {a b} ha hb hab => hg a ((h2.mem a).1 ha) b ((h2.mem b).1 hb) hab
  · refine (List.perm_ext_iff_of_nodup (h1.sorted.imp fun h => ne_of_lt h) ?_).2 fun x => ?_
    · have : ((levels l).map g).Pairwise (· < ·) := by
        rw [List.pairwise_map]
        exact h2.sorted.imp_of_mem fun {a b} ha hb hab => hg a ((h2.mem a).1 ha) b ((h2.mem b).1 hb) hab
      exact this.imp fun h => ne_of_lt h
    · rw [h1.mem, List.mem_map, List.mem_map]
      exact ⟨fun ⟨a, ha, e⟩ => ⟨a, (h2.mem a).2 ha, e⟩, fun ⟨a, ha, e⟩ => ⟨a, (h2.mem a).1 ha, e⟩⟩

theorem plotBars_ok (py : Py) {F : RegionTrace} (hF : F.Wellformed) (hk : F.Kept py) (hnf : 0 < F.nf)
    {xs : List Row} {rows : List Record} (h : List.Forall₂ (RowOf F) xs rows) (hne : xs ≠ []) :
    ∃ bars, py.plotBars rows = .ok bars ∧ Charts (Labelled py.mean (1 / 1000000)) xs bars := by
  have hmem : ∀ x ∈ xs, x ∈ F.rows := by
    intro x hx
    obtain ⟨r, -, hr⟩ := forall₂_left h hx
    exact hr.mem
  have hfeat : ∀ x ∈ xs, Keeps32 (firstFeature x) ∧
      Reprints py (fmtG6 (firstFeature x)) (round6 (firstFeature x)) := by
    intro x hx
    have h1 := (hk x (hmem x hx)).1
    have h2 := (hF.rows x (hmem x hx)).1
    unfold firstFeature
    cases hxf : x.features with
    | nil => rw [hxf] at h2; simp at h2; omega
    | cons a l => exact h1 a (by rw [hxf]; exact List.mem_cons_self)
  have hrne : rows ≠ [] := by
    rintro rfl
    cases h
    exact hne rfl
  have hg : ∀ a ∈ xs.map firstFeature, ∀ b ∈ xs.map firstFeature, a < b → asRead a < asRead b := by
    intro a ha b hb hab
    obtain ⟨x, hx, rfl⟩ := List.mem_map.1 ha
    obtain ⟨y, hy, rfl⟩ := List.mem_map.1 hb
    exact asRead_mono (hfeat x hx) (hfeat y hy) hab
  have hl : levels ((xs.map fun x => ((x.policy : ℚ), asRead (firstFeature x), x.metric)).map fun r => r.2.1) =
      (levels (xs.map firstFeature)).map asRead := by
    rw [← levels_map hg, List.map_map, List.map_map]
    rfl
  refine ⟨_, ?_, levels (xs.map firstFeature), levels (xs.map fun x => (x.policy : ℚ)),
    levels_ascending _, levels_ascending _, forall₂_map fun f _ => forall₂_map fun p _ => barLabel_labelled py _⟩
  unfold Py.plotBars
  rw [if_neg hrne, plotRows_ok hnf (fun x hx => (hk x hx).2.1) h, Res.bind_ok]
  simp only [containers_eq]
  rw [hl, List.map_map, List.map_map]
  congr 1
  refine List.map_congr_left fun f hf => List.map_congr_left fun p _ => ?_
  have hf' := ((levels_ascending _).mem f).1 hf
  congr 1
  unfold timesAt timesWith
  rw [List.filter_map, List.map_map]
  congr 1
  refine List.filter_congr fun x hx => ?_
  have hinj : asRead (firstFeature x) = asRead f ↔ firstFeature x = f := by
    refine ⟨fun e => ?_, fun e => by rw [e]⟩
    rcases lt_trichotomy (firstFeature x) f with hlt | he | hlt
    · exact absurd e (ne_of_lt (hg _ (List.mem_map_of_mem hx) _ hf' hlt))
    · exact he
    · exact absurd e.symm (ne_of_lt (hg _ hf' _ (List.mem_map_of_mem hx) hlt))
  simp only [Function.comp_apply, hinj]

theorem plotTrace_ok (py : Py) {F : RegionTrace} (hF : F.Wellformed) (hk : F.Kept py) (hnf : 0 < F.nf)
    {file name : Text} (hn : plotName file = .ok name) (n : ℕ) (b : Bool)
    (h1 : (F.rows.take n).drop (if b then 1 else 0) ≠ []) (h2 : F.rows.drop n ≠ []) :
    ∃ P, py.plotTrace file F.text n b = .ok P ∧ P.name = name ∧
      P.trained = (n : ℤ) - (if b then 1 else 0) ∧ P.tuned = (F.rows.drop n).length ∧
      Charts (Labelled py.mean (1 / 1000000)) ((F.rows.take n).drop (if b then 1 else 0)) P.training ∧
      Charts (Labelled py.mean (1 / 1000000)) (F.rows.drop n) P.tuning := by
  have hrows := frame_rows py hF hk
  obtain ⟨ba, hba, ca⟩ := plotBars_ok py hF hk hnf (List.forall₂_drop (if b then 1 else 0) (List.forall₂_take n hrows)) h1
  obtain ⟨bb, hbb, cb⟩ := plotBars_ok py hF hk hnf (List.forall₂_drop n hrows) h2
  have hlen : ∀ k, ((py.frame (Spec.headerColumns F.nf)
      (F.rows.map (rowColumns F.rank F.model F.region))).rows.drop k).length = (F.rows.drop k).length := by
    intro k
    rw [List.length_drop, List.length_drop, ← hrows.length_eq]
  refine ⟨⟨name, (n : ℤ) - (if b then 1 else 0), ba, (F.rows.drop n).length, bb⟩, ?_, rfl, rfl, rfl, ca, cb⟩
  have hc : ∀ c, c ∈ ["policy".toList, "xtime".toList] → c ∈ Spec.headerColumns F.nf := by
    intro c hc
    unfold Spec.headerColumns
    simp only [List.mem_cons, List.not_mem_nil, or_false] at hc
    rcases hc with rfl | rfl <;> simp
  have hf0 : "f0".toList ∈ Spec.headerColumns F.nf := (fcol_mem (n := F.nf) (i := 0)).2 hnf
  unfold Py.plotTrace
  simp only [hn, readCsv_text py hF, Res.bind_ok]
  rw [if_neg (by omega), if_neg]
  · simp only [Int.toNat_natCast, hba, hbb, Res.bind_ok, hlen]
    cases b <;> rfl
  · rintro (h | h | h)
    · exact h hf0
    · exact h (hc _ (by simp))
    · exact h (hc _ (by simp))

theorem plotName_file {info region : Text} (rank : ℤ) (h : ∀ c ∈ info, c ≠ '-' ∧ c ≠ '\n') :
    plotName (traceFile info region rank) = .ok info := by
  have hb : ∀ c ∈ info, (c != '-' && c != '\n') = true := by
    intro c hc
    simp [h c hc]
  obtain ⟨rest, e⟩ : ∃ rest, traceFile info region rank = "trace-".toList ++ (info ++ '-' :: rest) :=
    ⟨"region-".toList ++ region ++ "-rank-".toList ++ fmtInt rank ++ ".csv".toList, by
      unfold traceFile
      simp only [List.append_assoc]
      rfl⟩
  have hd : ("trace-".toList ++ (info ++ '-' :: rest)).drop 6 = info ++ '-' :: rest := rfl
  unfold plotName
  rw [e, if_pos (List.prefix_append _ _), hd, List.dropWhile_append_of_pos hb,
    List.takeWhile_append_of_pos hb]
  simp

end Apollo.Scripts
