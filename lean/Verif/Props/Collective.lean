import Verif.Proofs.Collective

/-!
# Collective training: C48, C49, C50

`ranks` holds the registries of all ranks, `ranks[i]` that of rank `i`.
-/

namespace Apollo.Props

open Apollo Apollo.Collective Apollo.Spec

/-- The metric a rank holds for features and policy in the region of the given name. -/
def metricOn (regs : Registry) (n : Str) (f : Features) (p : ℤ) : Option ℚ :=
  (OMap.find regs n).bind fun R => OMap.find R.dataset (mkKey f p)

/-- Whether a rank has a region of the given name. -/
def hasRegion (regs : Registry) (n : Str) : Prop := (OMap.find regs n).isSome

/-- What the constructors of regions and datasets ensure, and: every measurement has `num_features`
features, and all numbers are finite values of their types. -/
structure WellFormed (regs : Registry) : Prop where
  sorted : OMap.Sorted regs
  data : ∀ x ∈ regs, OMap.Sorted x.2.dataset
  name : ∀ x ∈ regs, x.1.length ≤ 63 ∧ nul ∉ x.1
  count : ∀ x ∈ regs, 0 ≤ x.2.numFeatures ∧ x.2.numFeatures < 2 ^ 31
  features : ∀ n f p m, metricOn regs n f p = some m → ∀ R, OMap.find regs n = some R →
    (f.length : ℤ) = R.numFeatures ∧ ∀ x ∈ f, fmt32.Finite x
  policy : ∀ n f p m, metricOn regs n f p = some m → -2 ^ 31 ≤ p ∧ p < 2 ^ 31
  metric : ∀ n f p m, metricOn regs n f p = some m → fmt64.Finite m

theorem WellFormed.find {regs : Registry} (h : WellFormed regs) {n : Str} {R : LReg}
    (hm : (n, R) ∈ regs) : OMap.find regs n = some R := (h.sorted.find_eq_some_iff n R).2 hm

theorem WellFormed.metricOn {regs : Registry} (h : WellFormed regs) {n : Str} {R : LReg}
    (hm : (n, R) ∈ regs) {f : Features} {p : ℤ} {q : ℚ}
    (hv : (f, p, q) ∈ R.dataset.toVectorOfTuples) : Props.metricOn regs n f p = some q := by
  unfold Props.metricOn
  rw [h.find hm, Option.bind_some, (h.data _ hm).find_eq_some_iff]
  exact (Dataset.mem_toVector ..).1 hv

theorem WellFormed.sendable {regs : Registry} (h : WellFormed regs) :
    ∀ x ∈ regs, Sendable x.1 x.2 := by
  rintro ⟨n, R⟩ hx
  refine ⟨(h.name _ hx).1, (h.name _ hx).2, h.count _ hx, ?_, ?_⟩
  · rintro ⟨f, p, q⟩ hm
    exact (h.features n f p q (h.metricOn hx hm) R (h.find hx)).1
  · rintro ⟨f, p, q⟩ hm
    have := h.metricOn hx hm
    exact ⟨(h.features n f p q this R (h.find hx)).2, h.policy n f p q this, h.metric n f p q this⟩

theorem mem_rankMsgs_iff {regs : Registry} (h : WellFormed regs) {rank : ℤ} (m : Msg) :
    m ∈ rankMsgs rank regs ↔
      m.rank = rank ∧ metricOn regs m.name m.features m.policy = some m.metric := by
  rw [mem_rankMsgs]
  refine and_congr_right fun _ => ⟨?_, fun hm => ?_⟩
  · rintro ⟨R, hR, hm⟩
    exact h.metricOn hR hm
  · unfold metricOn at hm
    cases hf : OMap.find regs m.name with
    | none => rw [hf] at hm; cases hm
    | some R =>
      rw [hf, Option.bind_some] at hm
      exact ⟨R, OMap.mem_of_find_eq_some hf,
        (Dataset.mem_toVector ..).2 (OMap.mem_of_find_eq_some hm)⟩

/-- Bytes sent by a rank. -/
def bytesSent (regs : Registry) : ℕ :=
  (regs.map fun x => x.2.dataset.size * (84 + 4 * x.2.numFeatures.toNat)).sum

/-! ## C48: packing round-trips -/

/-- The buffer of a rank decodes to its measurements, each once and nothing else. -/
theorem C48_round_trip {regs : Registry} (h : WellFormed regs) (rank : ℤ) (h0 : 0 ≤ rank)
    (h1 : rank < 2 ^ 31) :
    ∃ buf ms, sendParts exactMpi rank regs = .ok buf ∧ buf.length = bytesSent regs ∧
      unpackAll buf.length buf = .ok ms ∧ ms.Nodup ∧
      ∀ m, m ∈ ms ↔
        m.rank = rank ∧ metricOn regs m.name m.features m.policy = some m.metric := by
  obtain ⟨buf, hb, hd⟩ := rank_decodes (rank := rank) ⟨by omega, h1⟩ h.sendable
  exact ⟨buf, _, hb, length_rank h.sendable hb, hd.all, nodup_rankMsgs h.sorted h.data,
    mem_rankMsgs_iff h⟩

/-- So does what every rank receives: the buffers of all ranks one after the other. -/
theorem C48_received {ranks : List Registry} (h : ∀ regs ∈ ranks, WellFormed regs)
    (hn : ranks.length ≤ 2 ^ 31) :
    ∃ bufs ms, sendAll exactMpi 0 ranks = .ok bufs ∧
      unpackAll bufs.flatten.length bufs.flatten = .ok ms ∧ ms.Nodup ∧
      ∀ m, m ∈ ms ↔ ∃ (j : ℕ) (regs : Registry), ranks[j]? = some regs ∧ m.rank = j ∧
        metricOn regs m.name m.features m.policy = some m.metric := by
  obtain ⟨bufs, hb, hd⟩ := all_decodes (i := 0) (ranks := ranks) (by omega)
    (fun r hr => (h r hr).sendable)
  refine ⟨bufs, _, hb, hd.all, nodup_allMsgs (fun r hr => (h r hr).sorted)
    (fun r hr => (h r hr).data), fun m => ?_⟩
  rw [mem_allMsgs]
  refine exists_congr fun j => exists_congr fun regs => and_congr_right fun hj => ?_
  rw [mem_rankMsgs_iff (h regs (List.mem_of_getElem? hj)), Nat.zero_add]

/-- A measurement with more features than `num_features` does not fit into the buffer. -/
theorem C48_too_many_features :
    ∃ regs : Registry, (∀ x ∈ regs, x.2.numFeatures = 1) ∧
      (match sendParts exactMpi 0 regs with
        | .error .abort => true
        | _ => false) = true :=
  ⟨[("r".toList, ⟨1, Dataset.insert [] [1, 2] 0 1⟩)], by decide +kernel, by decide +kernel⟩

/-- A measurement with fewer leaves a part of the buffer unwritten, which the receivers read. -/
theorem C48_too_few_features :
    ∃ regs : Registry, (∀ x ∈ regs, x.2.numFeatures = 2) ∧
      (match gather exactMpi [regs] with
        | .error (.ub .uninit) => true
        | _ => false) = true :=
  ⟨[("r".toList, ⟨2, Dataset.insert [] [1] 0 1⟩)], by decide +kernel, by decide +kernel⟩

/-- The send buffer is laid out by `MPI_Pack_size`, of which the standard promises only that it is
not too small: where it is larger than the packed bytes, the receivers read what was never
written. -/
theorem C48_needs_exact_sizes :
    ∃ mpi : Mpi, (∀ t n, exactMpi.packSize t n ≤ mpi.packSize t n) ∧
      ∃ regs : Registry, (∀ x ∈ regs, x.2.numFeatures = 1) ∧
        (match sendParts exactMpi 0 regs with
          | .ok _ => true
          | _ => false) = true ∧
        (match gather mpi [regs] with
          | .error (.ub .uninit) => true
          | _ => false) = true := by
  refine ⟨⟨fun t n => n * t.width + 4⟩, fun t n => Nat.le_add_right _ _,
    [("r".toList, ⟨1, Dataset.insert [] [1] 0 1⟩)], ?_, ?_, ?_⟩ <;> decide +kernel

/-! ## C49: what the ranks know afterwards -/

theorem gather_eq {ranks ranks' : List Registry} (h : ∀ regs ∈ ranks, WellFormed regs)
    (hn : ranks.length ≤ 2 ^ 31) (hg : gather exactMpi ranks = .ok ranks') :
    ranks' = absorbAll (allMsgs 0 ranks) 0 ranks := by
  obtain ⟨bufs, hb, hd⟩ := all_decodes (i := 0) (ranks := ranks) (by omega)
    (fun r hr => (h r hr).sendable)
  unfold gather at hg
  rw [hb, Res.bind_ok] at hg
  simp only at hg
  split at hg
  next => cases hg
  next =>
    rw [hd.all, Res.bind_ok] at hg
    cases hg
    rfl

/-- Gathering goes through whenever the bytes of all ranks fit into an `int`. -/
theorem C49_succeeds {ranks : List Registry} (h : ∀ regs ∈ ranks, WellFormed regs)
    (hn : ranks.length ≤ 2 ^ 31) (hb : (ranks.map bytesSent).sum < 2 ^ 31) :
    ∃ ranks', gather exactMpi ranks = .ok ranks' ∧ ranks'.length = ranks.length := by
  obtain ⟨bufs, hs, hd⟩ := all_decodes (i := 0) (ranks := ranks) (by omega)
    (fun r hr => (h r hr).sendable)
  have hl := length_all (fun r hr => (h r hr).sendable) hs
  refine ⟨absorbAll (allMsgs 0 ranks) 0 ranks, ?_, ?_⟩
  · unfold gather
    rw [hs, Res.bind_ok]
    simp only
    rw [if_neg (by rw [hl]; exact not_le.2 hb), hd.all, Res.bind_ok]
  · have : ∀ i, (absorbAll (allMsgs 0 ranks) i ranks).length = ranks.length := by
      generalize allMsgs 0 ranks = ms
      induction ranks with
      | nil => intro i; rfl
      | cons r rs ih =>
        intro i
        simp only [absorbAll, List.length_cons]
        congr 1
        have hw : ∀ regs ∈ rs, WellFormed regs := fun x hx => h x (List.mem_cons_of_mem _ hx)
        clear ih hd hl hs hb hn h hw bufs
        induction rs generalizing i with
        | nil => rfl
        | cons a rs ih => simp only [absorbAll, List.length_cons]; rw [ih]
    exact this 0

/-- The metrics which ranks other than `i` hold for a pair of a region, in the order of ranks. -/
def heldByOthers (ranks : List Registry) (i : ℕ) (n : Str) (f : Features) (p : ℤ) : List ℚ :=
  (ranks.zipIdx.filter fun x => x.2 ≠ i).filterMap fun x => metricOn x.1 n f p

/-- A rank with the region holds afterwards: its own metric, with the metrics of the other ranks
averaged into it in the order of ranks.  Its own is not averaged in twice. -/
theorem C49_metric {ranks ranks' : List Registry} (h : ∀ regs ∈ ranks, WellFormed regs)
    (hn : ranks.length ≤ 2 ^ 31) (hg : gather exactMpi ranks = .ok ranks') {i : ℕ}
    {regs regs' : Registry} (hi : ranks[i]? = some regs) (hi' : ranks'[i]? = some regs') {n : Str}
    (hr : hasRegion regs n) (f : Features) (p : ℤ) :
    metricOn regs' n f p = runningAverage halfHalf
      ((metricOn regs n f p).toList ++ heldByOthers ranks i n f p) := by
  rw [gather_eq h hn hg, absorbAll_get, hi, Option.map_some, Nat.zero_add] at hi'
  cases hi'
  have hw := h regs (List.mem_of_getElem? hi)
  obtain ⟨R, hR⟩ := Option.isSome_iff_exists.1 hr
  have hfind := (absorbs_find (me := (i : ℕ)) hw.sorted (allMsgs 0 ranks) n).2
  unfold metricOn
  rw [hfind, hR, Option.map_some, Option.bind_some, Option.bind_some,
    Dataset.find_insertAll (hw.data (n, R) (OMap.mem_of_find_eq_some hR)),
    metricsFor_taken (fun r hr => (h r hr).sorted) (fun r hr => (h r hr).data),
    runningAverage_append]
  rfl

/-- The regions of a rank stay the same: measurements of regions unknown to it are ignored. -/
theorem C49_regions {ranks ranks' : List Registry} (h : ∀ regs ∈ ranks, WellFormed regs)
    (hn : ranks.length ≤ 2 ^ 31) (hg : gather exactMpi ranks = .ok ranks') {i : ℕ}
    {regs regs' : Registry} (hi : ranks[i]? = some regs) (hi' : ranks'[i]? = some regs') (n : Str) :
    (hasRegion regs' n ↔ hasRegion regs n) ∧
      ∀ R R', OMap.find regs n = some R → OMap.find regs' n = some R' →
        R'.numFeatures = R.numFeatures := by
  rw [gather_eq h hn hg, absorbAll_get, hi, Option.map_some, Nat.zero_add] at hi'
  cases hi'
  have hw := h regs (List.mem_of_getElem? hi)
  have hfind := (absorbs_find (me := (i : ℕ)) hw.sorted (allMsgs 0 ranks) n).2
  refine ⟨by unfold hasRegion; rw [hfind, Option.isSome_map], fun R R' h1 h2 => ?_⟩
  rw [hfind, h1] at h2
  cases h2
  rfl

theorem runningAverage_isSome (l : List ℚ) : (runningAverage halfHalf l).isSome ↔ l ≠ [] := by
  cases l <;> simp [runningAverage]

theorem mem_all {ranks : List Registry} {i : ℕ} {regs : Registry} (hi : ranks[i]? = some regs)
    (n : Str) (f : Features) (p : ℤ) (v : ℚ) :
    v ∈ (metricOn regs n f p).toList ++ heldByOthers ranks i n f p ↔
      ∃ r ∈ ranks, metricOn r n f p = some v := by
  have hp := perm_others (fun r => metricOn r n f p) (k := 0) hi
  rw [Nat.zero_add] at hp
  have := hp.mem_iff (a := v)
  rw [show heldByOthers ranks i n f p = othersOf (fun r => metricOn r n f p) i (ranks.zipIdx 0)
    from rfl, this, List.mem_filterMap]

/-- For a region a rank has, it knows afterwards the pairs any rank knew before: the union. -/
theorem C49_union {ranks ranks' : List Registry} (h : ∀ regs ∈ ranks, WellFormed regs)
    (hn : ranks.length ≤ 2 ^ 31) (hg : gather exactMpi ranks = .ok ranks') {i : ℕ}
    {regs regs' : Registry} (hi : ranks[i]? = some regs) (hi' : ranks'[i]? = some regs') {n : Str}
    (hr : hasRegion regs n) (f : Features) (p : ℤ) :
    (metricOn regs' n f p).isSome ↔ ∃ r ∈ ranks, (metricOn r n f p).isSome := by
  rw [C49_metric h hn hg hi hi' hr, runningAverage_isSome, ne_eq, List.eq_nil_iff_forall_not_mem]
  constructor
  · intro hx
    rw [not_forall] at hx
    obtain ⟨v, hv⟩ := hx
    obtain ⟨r, hr, he⟩ := (mem_all hi n f p v).1 (not_not.1 hv)
    exact ⟨r, hr, by rw [he]; rfl⟩
  · rintro ⟨r, hr, he⟩ hx
    obtain ⟨v, hv⟩ := Option.isSome_iff_exists.1 he
    exact hx v ((mem_all hi n f p v).2 ⟨r, hr, hv⟩)

/-- A pair measured on a single rank has that rank's metric everywhere. -/
theorem C49_single {ranks ranks' : List Registry} (h : ∀ regs ∈ ranks, WellFormed regs)
    (hn : ranks.length ≤ 2 ^ 31) (hg : gather exactMpi ranks = .ok ranks') {i j : ℕ}
    {regs regs' src : Registry} (hi : ranks[i]? = some regs) (hi' : ranks'[i]? = some regs')
    (hj : ranks[j]? = some src) {n : Str} (hr : hasRegion regs n) {f : Features} {p : ℤ} {v : ℚ}
    (hv : metricOn src n f p = some v)
    (ho : ∀ k r, ranks[k]? = some r → k ≠ j → metricOn r n f p = none) :
    metricOn regs' n f p = some v := by
  rw [C49_metric h hn hg hi hi' hr]
  have hp := perm_others (fun r => metricOn r n f p) (k := 0) hi
  have hq := perm_others (fun r => metricOn r n f p) (k := 0) hj
  rw [Nat.zero_add] at hp hq
  have he : othersOf (fun r => metricOn r n f p) j (ranks.zipIdx 0) = [] := by
    unfold othersOf
    rw [List.filterMap_eq_nil_iff]
    rintro ⟨r, k⟩ hx
    obtain ⟨hx1, hx2⟩ := List.mem_filter.1 hx
    have := List.mem_zipIdx_iff_getElem?.1 hx1
    exact ho k r (by simpa using this) (by simpa using hx2)
  rw [hv, he] at hq
  have := List.perm_singleton.1 (hp.trans hq.symm)
  rw [show (metricOn regs n f p).toList ++ heldByOthers ranks i n f p = [v] from this]
  rfl

/-! ## C50: the same data on all ranks -/

/-- Two ranks hold the same metric for a pair afterwards if at most two ranks have measured it. -/
theorem C50_metric_partial {ranks ranks' : List Registry} (h : ∀ regs ∈ ranks, WellFormed regs)
    (hn : ranks.length ≤ 2 ^ 31) (hg : gather exactMpi ranks = .ok ranks') {i j : ℕ}
    {ri rj ri' rj' : Registry} (hi : ranks[i]? = some ri) (hi' : ranks'[i]? = some ri')
    (hj : ranks[j]? = some rj) (hj' : ranks'[j]? = some rj') {n : Str} (hri : hasRegion ri n)
    (hrj : hasRegion rj n) (f : Features) (p : ℤ)
    (h2 : (ranks.filterMap fun r => metricOn r n f p).length ≤ 2) :
    metricOn ri' n f p = metricOn rj' n f p := by
  rw [C49_metric h hn hg hi hi' hri, C49_metric h hn hg hj hj' hrj]
  have hp := perm_others (fun r => metricOn r n f p) (k := 0) hi
  have hq := perm_others (fun r => metricOn r n f p) (k := 0) hj
  rw [Nat.zero_add] at hp hq
  exact (runningAverage_perm hp h2).trans (runningAverage_perm hq h2).symm

/-- So the datasets of a region are equal where every pair was measured on at most two ranks; in
particular with two ranks.  Missing for the full claim: pairs measured on three ranks or more, for
which it is false (`C50_fails`). -/
theorem C50_partial {ranks ranks' : List Registry} (h : ∀ regs ∈ ranks, WellFormed regs)
    (hn : ranks.length ≤ 2 ^ 31) (hg : gather exactMpi ranks = .ok ranks') {i j : ℕ}
    {ri' rj' : Registry} (hi' : ranks'[i]? = some ri') (hj' : ranks'[j]? = some rj') {n : Str}
    {Ri Rj : LReg} (hri : OMap.find ri' n = some Ri) (hrj : OMap.find rj' n = some Rj)
    (h2 : ∀ f p, (ranks.filterMap fun r => metricOn r n f p).length ≤ 2) :
    Ri.dataset = Rj.dataset := by
  have hgo := gather_eq h hn hg
  have key : ∀ {i : ℕ} {ri' : Registry} {R : LReg}, ranks'[i]? = some ri' →
      OMap.find ri' n = some R → ∃ r, ranks[i]? = some r ∧ hasRegion r n ∧
        OMap.Sorted R.dataset := by
    intro i ri' R hi' hR
    rw [hgo, absorbAll_get, Nat.zero_add] at hi'
    cases hr : ranks[i]? with
    | none => rw [hr] at hi'; cases hi'
    | some r =>
      rw [hr] at hi'
      cases hi'
      have hw := h r (List.mem_of_getElem? hr)
      rw [(absorbs_find hw.sorted _ n).2] at hR
      cases hr0 : OMap.find r n with
      | none => rw [hr0] at hR; cases hR
      | some R0 =>
        rw [hr0] at hR
        cases hR
        refine ⟨r, rfl, by unfold hasRegion; rw [hr0]; rfl, ?_⟩
        exact Dataset.sorted_insertAll (hw.data _ (OMap.mem_of_find_eq_some hr0)) _
  obtain ⟨ri, hi, hhi, hsi⟩ := key hi' hri
  obtain ⟨rj, hj, hhj, hsj⟩ := key hj' hrj
  refine OMap.ext_of_find hsi hsj fun k => ?_
  have := C50_metric_partial h hn hg hi hi' hj hj' hhi hhj (ofLex k).1 (ofLex k).2 (h2 _ _)
  unfold metricOn at this
  rwa [hri, hrj, Option.bind_some, Option.bind_some, Dataset.mkKey_ofLex] at this

/-- Whatever the number of ranks, what a rank holds lies between the least and the greatest of the
metrics measured. -/
theorem C50_within {ranks ranks' : List Registry} (h : ∀ regs ∈ ranks, WellFormed regs)
    (hn : ranks.length ≤ 2 ^ 31) (hg : gather exactMpi ranks = .ok ranks') {i : ℕ}
    {regs regs' : Registry} (hi : ranks[i]? = some regs) (hi' : ranks'[i]? = some regs') {n : Str}
    (hr : hasRegion regs n) {f : Features} {p : ℤ} {lo hi v : ℚ} (hlo : NormalMetric lo)
    (hhi : NormalMetric hi)
    (hb : ∀ r ∈ ranks, ∀ m, metricOn r n f p = some m → lo ≤ m ∧ m ≤ hi)
    (hv : metricOn regs' n f p = some v) : lo ≤ v ∧ v ≤ hi := by
  rw [C49_metric h hn hg (by assumption) hi' hr] at hv
  have hm : ∀ m ∈ (metricOn regs n f p).toList ++ heldByOthers ranks i n f p, lo ≤ m ∧ m ≤ hi := by
    intro m hm
    obtain ⟨r, hr, he⟩ := (mem_all (by assumption) n f p m).1 hm
    exact hb r hr m he
  revert hv hm
  generalize (metricOn regs n f p).toList ++ heldByOthers ranks i n f p = l
  intro hv hm
  cases l with
  | nil => cases hv
  | cons a l =>
    cases hv
    exact foldl_ema_between hlo hhi l a (hm a List.mem_cons_self)
      (fun m h => hm m (List.mem_cons_of_mem _ h))

/-! ## Cases -/

/-- A registry with one region and measurements. -/
def oneRegion (name : String) (nf : ℤ) (ms : List (Features × ℤ × ℚ)) : Registry :=
  [(name.toList, ⟨nf, Dataset.insertAll [] ms⟩)]

theorem finite32_nat {n : ℕ} (h : n ≤ 2 ^ 24) : fmt32.Finite (n : ℚ) := by
  refine ⟨⟨n, 0, ?_, by decide, by simp⟩, ?_⟩
  · show |(n : ℤ)| ≤ 2 ^ 24
    rw [abs_of_nonneg (by omega)]; exact_mod_cast h
  · rw [abs_of_nonneg (by positivity)]
    calc (n : ℚ) ≤ 2 ^ 24 := by exact_mod_cast h
      _ < _ := by norm_num [fmt32]

theorem finite64_nat {n : ℕ} (h : n ≤ 2 ^ 53) : fmt64.Finite (n : ℚ) := by
  refine ⟨⟨n, 0, ?_, by decide, by simp⟩, ?_⟩
  · show |(n : ℤ)| ≤ 2 ^ 53
    rw [abs_of_nonneg (by omega)]; exact_mod_cast h
  · rw [abs_of_nonneg (by positivity)]
    calc (n : ℚ) ≤ 2 ^ 53 := by exact_mod_cast h
      _ < _ := by
        show (2 : ℚ) ^ 53 < 2 ^ (1024 : ℤ)
        exact_mod_cast (Nat.pow_lt_pow_iff_right (by norm_num)).2 (by norm_num : 53 < 1024)

/-- Small natural numbers are finite values of both types. -/
theorem wellFormed_oneRegion {name : String} {k : ℕ} {ms : List (Features × ℤ × ℚ)}
    (hname : name.toList.length ≤ 63 ∧ nul ∉ name.toList) (hk : k < 2 ^ 31)
    (hf : ∀ x ∈ Dataset.insertAll [] ms, (ofLex x.1).1.length = k ∧
      (∀ v ∈ (ofLex x.1).1, ∃ n ≤ 2 ^ 24, v = (n : ℕ)) ∧
      (-2 ^ 31 ≤ (ofLex x.1).2 ∧ (ofLex x.1).2 < 2 ^ 31) ∧ ∃ n ≤ 2 ^ 53, x.2 = (n : ℕ)) :
    WellFormed (oneRegion name k ms) := by
  have hm : ∀ {n f p m}, metricOn (oneRegion name k ms) n f p = some m →
      n = name.toList ∧ (mkKey f p, m) ∈ Dataset.insertAll [] ms := by
    intro n f p m h
    unfold metricOn oneRegion at h
    simp only [OMap.find] at h
    split at h
    next he => exact ⟨he, OMap.mem_of_find_eq_some h⟩
    next => cases h
  refine ⟨List.pairwise_singleton _ _, ?_, ?_, ?_, ?_, ?_, ?_⟩
  · intro x hx
    rw [List.mem_singleton.1 hx]
    exact Dataset.sorted_insertAll OMap.sorted_nil _
  · intro x hx
    rw [List.mem_singleton.1 hx]
    exact hname
  · intro x hx
    rw [List.mem_singleton.1 hx]
    exact ⟨by simp, by simpa using (by exact_mod_cast hk : (k : ℤ) < 2 ^ 31)⟩
  · intro n f p m h R hR
    obtain ⟨rfl, h1⟩ := hm h
    have hh := hf _ h1
    simp only [oneRegion, OMap.find, if_true, Option.some.injEq] at hR
    rw [← hR]
    have h1 := hh.1
    refine ⟨congrArg Nat.cast h1, fun x hx => ?_⟩
    obtain ⟨n, hn, rfl⟩ := hh.2.1 x hx
    exact finite32_nat hn
  · intro n f p m h
    exact (hf _ (hm h).2).2.2.1
  · intro n f p m h
    obtain ⟨q, hq, e⟩ := (hf _ (hm h).2).2.2.2
    simp only at e
    rw [e]
    exact finite64_nat hq

/-- Three ranks which measured the same pair: 1, 2 and 3 seconds. -/
def threeRanks : List Registry :=
  [oneRegion "r" 1 [([7], 0, 1)], oneRegion "r" 1 [([7], 0, 2)], oneRegion "r" 1 [([7], 0, 3)]]

theorem wellFormed_case (v : ℕ) (hv : v ≤ 2 ^ 53) :
    WellFormed (oneRegion "r" (1 : ℕ) [([7], 0, (v : ℚ))]) := by
  refine wellFormed_oneRegion (by decide) (by decide) ?_
  intro x hx
  rw [show Dataset.insertAll [] [([7], 0, (v : ℚ))] = [(mkKey [7] 0, (v : ℚ))] from rfl] at hx
  rw [List.mem_singleton.1 hx]
  refine ⟨rfl, fun w hw => ⟨7, by norm_num, ?_⟩, by constructor <;> norm_num [mkKey], v, hv, rfl⟩
  simpa using hw

theorem wellFormed_threeRanks : ∀ regs ∈ threeRanks, WellFormed regs := by
  intro regs h
  simp only [threeRanks, List.mem_cons, List.not_mem_nil, or_false] at h
  rcases h with rfl | rfl | rfl
  · exact_mod_cast wellFormed_case 1 (by norm_num)
  · exact_mod_cast wellFormed_case 2 (by norm_num)
  · exact_mod_cast wellFormed_case 3 (by norm_num)

/-- With three ranks the claim is false: rank 0 and rank 2 then hold different metrics. -/
theorem C50_fails :
    ∃ ranks : List Registry, ranks.length = 3 ∧ (∀ regs ∈ ranks, WellFormed regs) ∧
      ∃ ranks', gather exactMpi ranks = .ok ranks' ∧
        ∃ r0 r2, ranks'[0]? = some r0 ∧ ranks'[2]? = some r2 ∧
          metricOn r0 "r".toList [7] 0 = some (9 / 4) ∧
          metricOn r2 "r".toList [7] 0 = some 2 := by
  refine ⟨threeRanks, rfl, wellFormed_threeRanks, ?_⟩
  obtain ⟨ranks', hg, -⟩ := C49_succeeds wellFormed_threeRanks (by decide) (by decide)
  have hlen := gather_eq wellFormed_threeRanks (by decide) hg
  refine ⟨ranks', hg, _, _, by rw [hlen, absorbAll_get]; rfl, by rw [hlen, absorbAll_get]; rfl,
    ?_, ?_⟩ <;> decide +kernel

/-- The hypotheses of C48 and C49 hold for the three ranks. -/
example : (∀ regs ∈ threeRanks, WellFormed regs) ∧
    (∃ ranks', gather exactMpi threeRanks = .ok ranks' ∧ ranks'.length = 3) ∧
    hasRegion (oneRegion "r" 1 [([7], 0, 1)]) "r".toList ∧
    heldByOthers threeRanks 1 "r".toList [7] 0 = [1, 3] :=
  ⟨wellFormed_threeRanks, C49_succeeds wellFormed_threeRanks (by decide) (by decide),
    rfl, by decide +kernel⟩

/-- Those of C50 for two of them. -/
example : (∀ regs ∈ threeRanks.take 2, WellFormed regs) ∧
    (∀ f p, ((threeRanks.take 2).filterMap fun r => metricOn r "r".toList f p).length ≤ 2) :=
  ⟨fun r hr => wellFormed_threeRanks r (List.mem_of_mem_take hr),
    fun f p => (List.length_filterMap_le _ _).trans (by decide)⟩

end Apollo.Props
