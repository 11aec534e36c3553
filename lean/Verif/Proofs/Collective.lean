import Verif.Model.Collective
import Verif.Proofs.DatasetHist

/-!
# Helpers for collective training
-/

namespace Apollo.Collective

open Apollo

/-! ## Packing -/

/-- The bytes of a measurement. -/
def encMeasure (rank : ℤ) (name : Str) (nf : ℤ) (m : Features × ℤ × ℚ) : List Char :=
  encInt 4 rank ++ (encInt 4 nf ++ (m.1.flatMap encFloat ++ (encInt 4 m.2.1 ++
    (nameBytes name ++ encDouble m.2.2))))

theorem pack_ok {size : ℕ} {bytes buf : List Char} (h : buf.length + bytes.length ≤ size) :
    pack size bytes buf = .ok (buf ++ bytes) := if_pos h

theorem length_flatMap_encFloat (xs : List ℚ) : (xs.flatMap encFloat).length = 4 * xs.length := by
  induction xs with
  | nil => rfl
  | cons x xs ih => rw [List.flatMap_cons, List.length_append, ih, length_encFloat, List.length_cons]; ring

theorem length_nameBytes {name : Str} (h : name.length ≤ 64) : (nameBytes name).length = 64 := by
  simp [nameBytes]; omega

theorem length_encMeasure (rank : ℤ) {name : Str} (h : name.length ≤ 64) (nf : ℤ)
    (m : Features × ℤ × ℚ) : (encMeasure rank name nf m).length = 84 + 4 * m.1.length := by
  simp only [encMeasure, List.length_append, length_encInt, length_flatMap_encFloat,
    length_nameBytes h, length_encDouble]
  ring

theorem packFeatures_ok {size : ℕ} {xs : List ℚ} {buf : List Char}
    (h : buf.length + 4 * xs.length ≤ size) :
    packFeatures size xs buf = .ok (buf ++ xs.flatMap encFloat) := by
  induction xs generalizing buf with
  | nil => simp [packFeatures]
  | cons x xs ih =>
    rw [List.length_cons] at h
    simp only [packFeatures]
    rw [pack_ok (by rw [length_encFloat]; omega), Res.bind_ok,
      ih (by rw [List.length_append, length_encFloat]; omega), List.flatMap_cons, List.append_assoc]

theorem packMeasure_ok {size : ℕ} {rank nf : ℤ} {name : Str} (hn : name.length ≤ 64)
    {m : Features × ℤ × ℚ} {buf : List Char} (h : buf.length + (84 + 4 * m.1.length) ≤ size) :
    packMeasure size rank name nf m buf = .ok (buf ++ encMeasure rank name nf m) := by
  unfold packMeasure
  rw [pack_ok (by rw [length_encInt]; omega), Res.bind_ok,
    pack_ok (by simp only [List.length_append, length_encInt]; omega), Res.bind_ok,
    packFeatures_ok (by simp only [List.length_append, length_encInt]; omega), Res.bind_ok,
    pack_ok (by simp only [List.length_append, length_encInt, length_flatMap_encFloat]; omega),
    Res.bind_ok,
    pack_ok (by
      simp only [List.length_append, length_encInt, length_flatMap_encFloat, length_nameBytes hn]
      omega),
    Res.bind_ok,
    pack_ok (by
      simp only [List.length_append, length_encInt, length_flatMap_encFloat, length_nameBytes hn,
        length_encDouble]
      omega)]
  simp only [encMeasure, List.append_assoc]

theorem packMeasures_ok {size : ℕ} {rank : ℤ} {name : Str} (hn : name.length ≤ 64) {k : ℕ}
    {ms : List (Features × ℤ × ℚ)} (hk : ∀ m ∈ ms, m.1.length = k) {buf : List Char}
    (h : buf.length + ms.length * (84 + 4 * k) ≤ size) :
    packMeasures size rank name k ms buf = .ok (buf ++ ms.flatMap (encMeasure rank name k)) := by
  induction ms generalizing buf with
  | nil => simp [packMeasures]
  | cons m ms ih =>
    rw [List.length_cons, Nat.add_mul, one_mul] at h
    have hm := hk m List.mem_cons_self
    simp only [packMeasures]
    rw [packMeasure_ok hn (by rw [hm]; omega), Res.bind_ok,
      ih (fun x hx => hk x (List.mem_cons_of_mem _ hx)) (by
        rw [List.length_append, length_encMeasure _ hn, hm]; omega),
      List.flatMap_cons, List.append_assoc]

theorem length_flatMap_encMeasure {rank : ℤ} {name : Str} (hn : name.length ≤ 64) {nf : ℤ} {k : ℕ}
    {ms : List (Features × ℤ × ℚ)} (hk : ∀ m ∈ ms, m.1.length = k) :
    (ms.flatMap (encMeasure rank name nf)).length = ms.length * (84 + 4 * k) := by
  induction ms with
  | nil => simp
  | cons m ms ih =>
    rw [List.flatMap_cons, List.length_append, length_encMeasure _ hn, hk m List.mem_cons_self,
      ih (fun x hx => hk x (List.mem_cons_of_mem _ hx)), List.length_cons]
    ring

theorem regionPart_ok {rank : ℤ} {name : Str} (hn : name.length ≤ 64) {R : LReg} {k : ℕ}
    (hR : R.numFeatures = k) (hk : ∀ m ∈ R.dataset.toVectorOfTuples, m.1.length = k) :
    regionPart exactMpi rank name R =
      .ok ((R.dataset.toVectorOfTuples.flatMap (encMeasure rank name R.numFeatures)).map some) := by
  have hs : measureSize exactMpi R.numFeatures = .ok (84 + 4 * k) := by
    unfold measureSize
    rw [hR, if_neg (by omega)]
    simp only [exactMpi, MpiType.width, Int.toNat_natCast]
    congr 1
    ring
  have hl : R.dataset.size = R.dataset.toVectorOfTuples.length := by
    simp [Dataset.size, Dataset.toVectorOfTuples]
  unfold regionPart
  rw [hs, Res.bind_ok]
  simp only
  rw [hR, packMeasures_ok hn hk (by rw [hl]; simp), Res.bind_ok, List.nil_append,
    length_flatMap_encMeasure hn hk, hl, Nat.sub_self]
  simp

/-! ## Unpacking -/

theorem unpack_ok {n : ℕ} {a : List Char} (ha : a.length = n) (rest : List Cell) :
    unpack n (a.map some ++ rest) = .ok (a, rest) := by
  subst ha
  unfold unpack
  rw [if_neg (by simp)]
  have : (List.map some a ++ rest).take a.length = a.map some := by
    rw [List.take_append_of_le_length (by simp)]; simp
  rw [this]
  have h2 : (a.map some).all Option.isSome = true := by simp
  rw [if_pos h2]
  have h3 : (a.map some).filterMap id = a := by
    rw [List.filterMap_map]; simp
  have h4 : (List.map some a ++ rest).drop a.length = rest := by
    have := List.drop_left (l₁ := List.map some a) (l₂ := rest)
    rwa [List.length_map] at this
  rw [h3, h4]

theorem unpackFeatures_ok {xs : List ℚ} (h : ∀ x ∈ xs, fmt32.Finite x) (rest : List Cell) :
    unpackFeatures xs.length ((xs.flatMap encFloat).map some ++ rest) = .ok (xs, rest) := by
  induction xs with
  | nil => rfl
  | cons x xs ih =>
    simp only [List.length_cons, unpackFeatures, List.flatMap_cons, List.map_append,
      List.append_assoc]
    rw [unpack_ok (length_encFloat x), Res.bind_ok]
    simp only
    rw [decFloat_encFloat (h x List.mem_cons_self), Res.bind_ok,
      ih (fun y hy => h y (List.mem_cons_of_mem _ hy)), Res.bind_ok]

theorem cString_nameBytes {name : Str} (h : name.length ≤ 63) (hn : nul ∉ name) :
    cString (nameBytes name) = .ok name := by
  have h1 : nul ∈ nameBytes name := by
    unfold nameBytes
    rw [List.mem_append]
    right
    rw [List.mem_replicate]
    exact ⟨by omega, rfl⟩
  unfold cString
  rw [if_pos h1]
  congr 1
  unfold nameBytes
  rw [List.takeWhile_append_of_pos (fun c hc => by
    simp only [ne_eq, decide_not, Bool.not_eq_eq_eq_not, Bool.not_true, decide_eq_false_iff_not]
    rintro rfl; exact hn hc)]
  have : 64 - name.length = (63 - name.length) + 1 := by omega
  rw [this, List.replicate_succ]
  simp

/-- A measurement whose numbers fit into their types. -/
structure Fits (m : Features × ℤ × ℚ) : Prop where
  feat : ∀ x ∈ m.1, fmt32.Finite x
  pol : -2 ^ 31 ≤ m.2.1 ∧ m.2.1 < 2 ^ 31
  metric : fmt64.Finite m.2.2

theorem decInt_encInt4 {v : ℤ} (h : -2 ^ 31 ≤ v ∧ v < 2 ^ 31) : decInt (encInt 4 v) = v := by
  apply decInt_encInt <;> norm_num at * <;> omega

theorem unpackMsg_ok {rank : ℤ} (hr : -2 ^ 31 ≤ rank ∧ rank < 2 ^ 31) {name : Str}
    (hn : name.length ≤ 63) (hz : nul ∉ name) {m : Features × ℤ × ℚ} (hm : Fits m)
    (hl : m.1.length < 2 ^ 31) (rest : List Cell) :
    unpackMsg ((encMeasure rank name m.1.length m).map some ++ rest) =
      .ok (⟨rank, m.1, m.2.1, name, m.2.2⟩, rest) := by
  unfold unpackMsg encMeasure
  simp only [List.map_append, List.append_assoc]
  rw [unpack_ok (length_encInt 4 rank), Res.bind_ok]
  simp only
  rw [unpack_ok (length_encInt 4 _), Res.bind_ok]
  simp only
  rw [decInt_encInt4 (v := (m.1.length : ℤ)) ⟨by omega, by omega⟩, Int.toNat_natCast,
    unpackFeatures_ok hm.feat, Res.bind_ok]
  simp only
  rw [unpack_ok (length_encInt 4 _), Res.bind_ok]
  simp only
  rw [unpack_ok (length_nameBytes (by omega)), Res.bind_ok]
  simp only
  rw [cString_nameBytes hn hz, Res.bind_ok, unpack_ok (length_encDouble _), Res.bind_ok]
  simp only
  rw [decDouble_encDouble hm.metric, Res.bind_ok, decInt_encInt4 hr, decInt_encInt4 hm.pol]

/-- A region whose measurements can be sent. -/
structure Sendable (name : Str) (R : LReg) : Prop where
  short : name.length ≤ 63
  noNul : nul ∉ name
  nf : 0 ≤ R.numFeatures ∧ R.numFeatures < 2 ^ 31
  len : ∀ m ∈ R.dataset.toVectorOfTuples, (m.1.length : ℤ) = R.numFeatures
  fits : ∀ m ∈ R.dataset.toVectorOfTuples, Fits m

/-- What a region sends. -/
def regionMsgs (rank : ℤ) (name : Str) (R : LReg) : List Msg :=
  R.dataset.toVectorOfTuples.map fun m => ⟨rank, m.1, m.2.1, name, m.2.2⟩

/-- What a rank sends. -/
def rankMsgs (rank : ℤ) (regs : Registry) : List Msg :=
  regs.flatMap fun x => regionMsgs rank x.1 x.2

/-- Decoding a buffer and then something. -/
def Decodes (buf : List Cell) (ms : List Msg) : Prop :=
  ms.length ≤ buf.length ∧ ∀ rest fuel, unpackAll (ms.length + fuel) (buf ++ rest) = do
    let ms' ← unpackAll fuel rest
    .ok (ms ++ ms')

theorem Decodes.nil : Decodes [] [] := by
  refine ⟨le_rfl, fun rest fuel => ?_⟩
  simp only [List.length_nil, Nat.zero_add, List.nil_append]
  cases unpackAll fuel rest <;> rfl

theorem Decodes.append {a b : List Cell} {ms ns : List Msg} (ha : Decodes a ms)
    (hb : Decodes b ns) : Decodes (a ++ b) (ms ++ ns) := by
  refine ⟨by simp only [List.length_append]; have := ha.1; have := hb.1; omega, fun rest fuel => ?_⟩
  rw [List.length_append, Nat.add_assoc, List.append_assoc, ha.2, hb.2]
  cases unpackAll fuel rest <;> simp

theorem Decodes.one {rank : ℤ} (hr : -2 ^ 31 ≤ rank ∧ rank < 2 ^ 31) {name : Str}
    (hn : name.length ≤ 63) (hz : nul ∉ name) {m : Features × ℤ × ℚ} (hm : Fits m)
    (hl : m.1.length < 2 ^ 31) :
    Decodes ((encMeasure rank name m.1.length m).map some) [⟨rank, m.1, m.2.1, name, m.2.2⟩] := by
  have hlen := length_encMeasure rank (name := name) (by omega) m.1.length m
  refine ⟨by rw [List.length_map, hlen, List.length_singleton]; omega, fun rest fuel => ?_⟩
  rw [List.length_singleton, Nat.add_comm]
  simp only [unpackAll]
  rw [if_neg (by
    intro h
    have := congrArg List.length h
    simp only [List.length_append, List.length_map, hlen, List.length_nil] at this
    omega), unpackMsg_ok hr hn hz hm hl, Res.bind_ok]
  rfl

theorem region_decodes {rank : ℤ} (hr : -2 ^ 31 ≤ rank ∧ rank < 2 ^ 31) {name : Str} {R : LReg}
    (h : Sendable name R) :
    ∃ buf, regionPart exactMpi rank name R = .ok buf ∧ Decodes buf (regionMsgs rank name R) := by
  obtain ⟨k, hk⟩ := Int.eq_ofNat_of_zero_le h.nf.1
  have hlen : ∀ m ∈ R.dataset.toVectorOfTuples, m.1.length = k := fun m hm => by
    have := h.len m hm; omega
  refine ⟨_, regionPart_ok (by have := h.short; omega) hk hlen, ?_⟩
  unfold regionMsgs
  have hfits := h.fits
  generalize R.dataset.toVectorOfTuples = ms at hlen hfits
  induction ms with
  | nil => exact Decodes.nil
  | cons m ms ih =>
    rw [List.flatMap_cons, List.map_append, List.map_cons]
    have h1 := hlen m List.mem_cons_self
    have := Decodes.one hr h.short h.noNul (hfits m List.mem_cons_self) (by have := h.nf; omega)
    rw [hk, ← h1]
    rw [hk, ← h1] at ih
    exact this.append (ih (fun x hx => by rw [hlen x (List.mem_cons_of_mem _ hx), h1])
      (fun x hx => hfits x (List.mem_cons_of_mem _ hx)))

theorem rank_decodes {rank : ℤ} (hr : -2 ^ 31 ≤ rank ∧ rank < 2 ^ 31) {regs : Registry}
    (h : ∀ x ∈ regs, Sendable x.1 x.2) :
    ∃ buf, sendParts exactMpi rank regs = .ok buf ∧ Decodes buf (rankMsgs rank regs) := by
  induction regs with
  | nil => exact ⟨[], rfl, Decodes.nil⟩
  | cons x regs ih =>
    obtain ⟨a, ha, da⟩ := region_decodes hr (h x List.mem_cons_self)
    obtain ⟨b, hb, db⟩ := ih (fun y hy => h y (List.mem_cons_of_mem _ hy))
    refine ⟨a ++ b, ?_, ?_⟩
    · obtain ⟨name, R⟩ := x
      simp only [sendParts]
      rw [ha, Res.bind_ok, hb, Res.bind_ok]
    · exact da.append db

/-- What all ranks send, from number `i` on. -/
def allMsgs : ℕ → List Registry → List Msg
  | _, [] => []
  | i, regs :: rs => rankMsgs i regs ++ allMsgs (i + 1) rs

theorem all_decodes {i : ℕ} {ranks : List Registry} (hi : i + ranks.length ≤ 2 ^ 31)
    (h : ∀ regs ∈ ranks, ∀ x ∈ regs, Sendable x.1 x.2) :
    ∃ bufs, sendAll exactMpi i ranks = .ok bufs ∧ Decodes bufs.flatten (allMsgs i ranks) := by
  induction ranks generalizing i with
  | nil => exact ⟨[], rfl, Decodes.nil⟩
  | cons regs rs ih =>
    rw [List.length_cons] at hi
    obtain ⟨a, ha, da⟩ := rank_decodes (rank := i) ⟨by omega, by omega⟩ (h regs List.mem_cons_self)
    obtain ⟨b, hb, db⟩ := ih (i := i + 1) (by omega) (fun y hy => h y (List.mem_cons_of_mem _ hy))
    refine ⟨a :: b, ?_, da.append db⟩
    simp only [sendAll]
    rw [ha, Res.bind_ok, hb, Res.bind_ok]

theorem Decodes.all {buf : List Cell} {ms : List Msg} (h : Decodes buf ms) :
    unpackAll buf.length buf = .ok ms := by
  obtain ⟨k, hk⟩ := Nat.exists_eq_add_of_le h.1
  have := h.2 [] k
  rw [List.append_nil, ← hk] at this
  rw [this]
  cases k <;> simp [unpackAll]

/-! ## What the ranks know afterwards -/

theorem absorb_find {me : ℤ} {regs : Registry} (hs : OMap.Sorted regs) (m : Msg) (n : Str) :
    OMap.Sorted (absorb me regs m) ∧ OMap.find (absorb me regs m) n =
      (OMap.find regs n).map fun R => if m.rank ≠ me ∧ m.name = n then
        { R with dataset := R.dataset.insert m.features m.policy m.metric } else R := by
  unfold absorb
  split
  next h => exact ⟨hs, by simp [h]⟩
  next h =>
    split
    next h2 =>
      refine ⟨hs, ?_⟩
      by_cases hn : m.name = n
      · subst hn; rw [h2]; rfl
      · simp [hn]
    next R h2 =>
      refine ⟨OMap.Sorted.upsert hs _ _, ?_⟩
      rw [OMap.find_assign hs]
      by_cases hn : n = m.name
      · subst hn; rw [if_pos rfl, h2]; simp [h]
      · rw [if_neg hn]
        have : ¬ m.name = n := fun h => hn h.symm
        simp [this]

/-- The measurements a rank takes for a region. -/
def taken (me : ℤ) (n : Str) (ms : List Msg) : List (Features × ℤ × ℚ) :=
  (ms.filter fun m => decide (m.rank ≠ me ∧ m.name = n)).map fun m =>
    (m.features, m.policy, m.metric)

theorem absorbs_find {me : ℤ} {regs : Registry} (hs : OMap.Sorted regs) (ms : List Msg) (n : Str) :
    OMap.Sorted (ms.foldl (absorb me) regs) ∧ OMap.find (ms.foldl (absorb me) regs) n =
      (OMap.find regs n).map fun R =>
        { R with dataset := R.dataset.insertAll (taken me n ms) } := by
  induction ms generalizing regs with
  | nil =>
    refine ⟨hs, ?_⟩
    cases h : OMap.find regs n <;> simp [taken, Dataset.insertAll, h]
  | cons m ms ih =>
    rw [List.foldl_cons]
    obtain ⟨h1, h2⟩ := absorb_find (me := me) hs m n
    obtain ⟨h3, h4⟩ := ih h1
    refine ⟨h3, ?_⟩
    rw [h4, h2, Option.map_map]
    congr 1
    funext R
    by_cases hc : m.rank ≠ me ∧ m.name = n
    · simp only [Function.comp, if_pos hc, taken, List.filter_cons, decide_eq_true hc, if_true,
        List.map_cons, Dataset.insertAll, List.foldl_cons]
    · simp only [Function.comp, if_neg hc, taken, List.filter_cons, decide_eq_false hc,
        Bool.false_eq_true, if_false]

theorem absorbAll_get {ms : List Msg} {i j : ℕ} {ranks : List Registry} :
    (absorbAll ms i ranks)[j]? = (ranks[j]?).map fun regs => ms.foldl (absorb (i + j : ℕ)) regs := by
  induction ranks generalizing i j with
  | nil => simp [absorbAll]
  | cons regs rs ih =>
    cases j with
    | zero => simp [absorbAll]
    | succ j =>
      simp only [absorbAll, List.getElem?_cons_succ]
      rw [ih]
      congr 3
      funext regs
      congr 3
      ring

/-- The measurements of a region in a registry. -/
def dataOf (regs : Registry) (n : Str) : List (Features × ℤ × ℚ) :=
  match OMap.find regs n with
  | some R => R.dataset.toVectorOfTuples
  | none => []

theorem taken_append (me : ℤ) (n : Str) (a b : List Msg) :
    taken me n (a ++ b) = taken me n a ++ taken me n b := by
  simp [taken]

theorem taken_region (me : ℤ) (n : Str) (r : ℤ) (name : Str) (R : LReg) :
    taken me n (regionMsgs r name R) =
      if r ≠ me ∧ name = n then R.dataset.toVectorOfTuples else [] := by
  unfold taken regionMsgs
  rw [List.filter_map, List.map_map]
  split
  next h =>
    have : (fun x : Features × ℤ × ℚ => decide (r ≠ me ∧ name = n)) = fun _ => true := by
      funext x; exact decide_eq_true h
    simp only [Function.comp_def, this, List.filter_true]
    exact List.map_id _
  next h =>
    have : (fun x : Features × ℤ × ℚ => decide (r ≠ me ∧ name = n)) = fun _ => false := by
      funext x; exact decide_eq_false h
    simp only [Function.comp_def, this, List.filter_false, List.map_nil]

theorem taken_rank {regs : Registry} (hs : OMap.Sorted regs) (me r : ℤ) (n : Str) :
    taken me n (rankMsgs r regs) = if r ≠ me then dataOf regs n else [] := by
  unfold rankMsgs dataOf
  induction regs with
  | nil => simp [OMap.find, taken]
  | cons x regs ih =>
    obtain ⟨name, R⟩ := x
    have hs0 := hs
    simp only [OMap.Sorted, List.pairwise_cons] at hs
    rw [List.flatMap_cons, taken_append, ih hs.2, taken_region]
    simp only [OMap.find]
    by_cases hr : r = me
    · simp [hr]
    · by_cases hn : n = name
      · subst hn
        have : OMap.find regs n = none := by
          rw [OMap.find_eq_none_iff]
          intro hm
          obtain ⟨y, hy, e⟩ := List.mem_map.1 hm
          have := hs.1 y hy
          rw [e] at this
          exact lt_irrefl _ this
        simp [hr, this]
      · have hn' : ¬ name = n := fun h => hn h.symm
        simp [hr, hn, hn']

theorem taken_all {i : ℕ} {ranks : List Registry} (hs : ∀ regs ∈ ranks, OMap.Sorted regs) (me : ℕ)
    (n : Str) : taken me n (allMsgs i ranks) =
      (ranks.zipIdx i).flatMap fun x => if x.2 ≠ me then dataOf x.1 n else [] := by
  induction ranks generalizing i with
  | nil => rfl
  | cons regs rs ih =>
    simp only [allMsgs]
    rw [taken_append, taken_rank (hs regs List.mem_cons_self),
      ih (fun y hy => hs y (List.mem_cons_of_mem _ hy)), List.zipIdx_cons, List.flatMap_cons]
    simp only [ne_eq, Nat.cast_inj]

end Apollo.Collective

namespace Apollo.Collective

open Apollo

/-! ## Sizes -/

theorem Decodes.length_region {rank : ℤ} {name : Str} {R : LReg} (h : Sendable name R) :
    ∃ buf, regionPart exactMpi rank name R = .ok buf ∧
      buf.length = R.dataset.size * (84 + 4 * R.numFeatures.toNat) := by
  obtain ⟨k, hk⟩ := Int.eq_ofNat_of_zero_le h.nf.1
  have hlen : ∀ m ∈ R.dataset.toVectorOfTuples, m.1.length = k := fun m hm => by
    have := h.len m hm; omega
  refine ⟨_, regionPart_ok (by have := h.short; omega) hk hlen, ?_⟩
  rw [List.length_map, length_flatMap_encMeasure (by have := h.short; omega) hlen, hk]
  simp [Dataset.size, Dataset.toVectorOfTuples]

theorem length_rank {rank : ℤ} {regs : Registry} (h : ∀ x ∈ regs, Sendable x.1 x.2)
    {buf : List Cell} (hb : sendParts exactMpi rank regs = .ok buf) :
    buf.length = (regs.map fun x => x.2.dataset.size * (84 + 4 * x.2.numFeatures.toNat)).sum := by
  induction regs generalizing buf with
  | nil => cases hb; rfl
  | cons x regs ih =>
    obtain ⟨name, R⟩ := x
    obtain ⟨a, ha, la⟩ := Decodes.length_region (rank := rank) (h (name, R) List.mem_cons_self)
    simp only [sendParts] at hb
    rw [ha, Res.bind_ok] at hb
    obtain ⟨b, hb1, hb2⟩ := (Res.bind_eq_ok _ _ _).1 hb
    cases hb2
    rw [List.length_append, la, ih (fun y hy => h y (List.mem_cons_of_mem _ hy)) hb1]
    rfl

theorem length_all {i : ℕ} {ranks : List Registry}
    (h : ∀ regs ∈ ranks, ∀ x ∈ regs, Sendable x.1 x.2) {bufs : List (List Cell)}
    (hb : sendAll exactMpi i ranks = .ok bufs) :
    bufs.flatten.length = (ranks.map fun regs => (regs.map fun x =>
      x.2.dataset.size * (84 + 4 * x.2.numFeatures.toNat)).sum).sum := by
  induction ranks generalizing i bufs with
  | nil => cases hb; rfl
  | cons regs rs ih =>
    simp only [sendAll] at hb
    obtain ⟨a, ha, hb⟩ := (Res.bind_eq_ok _ _ _).1 hb
    obtain ⟨b, hb1, hb2⟩ := (Res.bind_eq_ok _ _ _).1 hb
    cases hb2
    rw [List.flatten_cons, List.length_append, length_rank (h regs List.mem_cons_self) ha,
      ih (fun y hy => h y (List.mem_cons_of_mem _ hy)) hb1]
    rfl

/-! ## Messages and measurements -/

theorem mem_rankMsgs {rank : ℤ} {regs : Registry} (m : Msg) :
    m ∈ rankMsgs rank regs ↔ m.rank = rank ∧ ∃ R, (m.name, R) ∈ regs ∧
      (m.features, m.policy, m.metric) ∈ R.dataset.toVectorOfTuples := by
  unfold rankMsgs regionMsgs
  simp only [List.mem_flatMap, List.mem_map, Prod.exists]
  constructor
  · rintro ⟨n, R, hR, f, p, q, hm, rfl⟩
    exact ⟨rfl, R, hR, hm⟩
  · rintro ⟨rfl, R, hR, hm⟩
    exact ⟨m.name, R, hR, m.features, m.policy, m.metric, hm, rfl⟩

theorem nodup_toVector {ds : Dataset} (hs : OMap.Sorted ds) : ds.toVectorOfTuples.Nodup := by
  unfold Dataset.toVectorOfTuples
  apply List.Nodup.map_on
  · rintro ⟨k, v⟩ - ⟨k', v'⟩ - h
    simp only [Prod.mk.injEq] at h
    obtain ⟨h1, h2, rfl⟩ := h
    have : k = k' := by
      rw [← Dataset.mkKey_ofLex k, ← Dataset.mkKey_ofLex k', h1, h2]
    rw [this]
  · exact List.Pairwise.imp (fun h e => by subst e; exact lt_irrefl _ h) hs

theorem nodup_rankMsgs {rank : ℤ} {regs : Registry} (hs : OMap.Sorted regs)
    (hd : ∀ x ∈ regs, OMap.Sorted x.2.dataset) : (rankMsgs rank regs).Nodup := by
  unfold rankMsgs
  rw [List.nodup_flatMap]
  refine ⟨fun x hx => ?_, ?_⟩
  · unfold regionMsgs
    apply List.Nodup.map_on _ (nodup_toVector (hd x hx))
    rintro ⟨a, b, c⟩ - ⟨a', b', c'⟩ - h
    simp only [Msg.mk.injEq] at h
    obtain ⟨-, rfl, rfl, -, rfl⟩ := h
    rfl
  · refine List.Pairwise.imp ?_ hs
    intro x y hxy
    simp only [Function.onFun]
    intro m hm hm'
    obtain ⟨u, -, rfl⟩ := List.mem_map.1 hm
    obtain ⟨v, -, e⟩ := List.mem_map.1 hm'
    have := congrArg Msg.name e
    simp only at this
    rw [this] at hxy
    exact lt_irrefl _ hxy

theorem mem_allMsgs {i : ℕ} {ranks : List Registry} (m : Msg) :
    m ∈ allMsgs i ranks ↔ ∃ j regs, ranks[j]? = some regs ∧ m ∈ rankMsgs (i + j : ℕ) regs := by
  induction ranks generalizing i with
  | nil => simp [allMsgs]
  | cons regs rs ih =>
    simp only [allMsgs, List.mem_append]
    rw [ih]
    constructor
    · rintro (h | ⟨j, r, hj, h⟩)
      · exact ⟨0, regs, rfl, h⟩
      · refine ⟨j + 1, r, by simpa using hj, ?_⟩
        rwa [show i + (j + 1) = i + 1 + j by ring]
    · rintro ⟨j, r, hj, h⟩
      cases j with
      | zero => cases hj; exact Or.inl h
      | succ j =>
        refine Or.inr ⟨j, r, by simpa using hj, ?_⟩
        rwa [show i + (j + 1) = i + 1 + j by ring] at h

theorem nodup_allMsgs {i : ℕ} {ranks : List Registry} (hs : ∀ regs ∈ ranks, OMap.Sorted regs)
    (hd : ∀ regs ∈ ranks, ∀ x ∈ regs, OMap.Sorted x.2.dataset) : (allMsgs i ranks).Nodup := by
  induction ranks generalizing i with
  | nil => exact List.nodup_nil
  | cons regs rs ih =>
    simp only [allMsgs]
    rw [List.nodup_append]
    refine ⟨nodup_rankMsgs (hs _ List.mem_cons_self) (hd _ List.mem_cons_self),
      ih (fun y hy => hs y (List.mem_cons_of_mem _ hy)) (fun y hy => hd y (List.mem_cons_of_mem _ hy)),
      ?_⟩
    rintro a ha b hb rfl
    have h1 := ((mem_rankMsgs a).1 ha).1
    obtain ⟨j, r, -, h⟩ := (mem_allMsgs a).1 hb
    have h2 := ((mem_rankMsgs a).1 h).1
    rw [h1] at h2
    omega

/-! ## Running averages over ranks -/

/-- The values of the ranks with another number than `i`, in order. -/
def othersOf {α : Type*} (f : Registry → Option α) (i : ℕ) (l : List (Registry × ℕ)) : List α :=
  (l.filter fun x => x.2 ≠ i).filterMap fun x => f x.1

theorem filterMap_zipIdx {α : Type*} (f : Registry → Option α) (l : List Registry) (k : ℕ) :
    (l.zipIdx k).filterMap (fun x => f x.1) = l.filterMap f := by
  induction l generalizing k with
  | nil => rfl
  | cons a l ih => rw [List.zipIdx_cons, List.filterMap_cons, List.filterMap_cons, ih]

theorem filter_zipIdx_gt (l : List Registry) {k i : ℕ} (h : i < k) :
    (l.zipIdx k).filter (fun x => x.2 ≠ i) = l.zipIdx k := by
  rw [List.filter_eq_self]
  rintro ⟨a, j⟩ hx
  have := List.le_snd_of_mem_zipIdx hx
  simp only at this
  simp only [ne_eq, decide_not, Bool.not_eq_eq_eq_not, Bool.not_true, decide_eq_false_iff_not]
  omega

theorem perm_others {α : Type*} (f : Registry → Option α) {l : List Registry} {i k : ℕ}
    {r : Registry} (h : l[i]? = some r) :
    ((f r).toList ++ othersOf f (k + i) (l.zipIdx k)).Perm (l.filterMap f) := by
  induction l generalizing i k with
  | nil => simp at h
  | cons a l ih =>
    unfold othersOf
    rw [List.zipIdx_cons, List.filter_cons]
    cases i with
    | zero =>
      cases h
      rw [if_neg (by simp), Nat.add_zero, filter_zipIdx_gt _ (Nat.lt_succ_self k), filterMap_zipIdx,
        List.filterMap_cons]
      cases f r <;> simp
    | succ i =>
      have := ih (k := k + 1) (by simpa using h)
      unfold othersOf at this
      rw [show k + 1 + i = k + (i + 1) by ring] at this
      rw [if_pos (by simp), List.filterMap_cons, List.filterMap_cons]
      cases f a with
      | none => simpa using this
      | some v =>
        simp only
        exact (List.perm_middle).trans (this.cons v)

theorem metricsFor_flatMap {α : Type*} (l : List α) (g : α → List (Features × ℤ × ℚ)) (k : Key) :
    Dataset.metricsFor (l.flatMap g) k = l.flatMap fun x => Dataset.metricsFor (g x) k := by
  induction l with
  | nil => rfl
  | cons a l ih =>
    rw [List.flatMap_cons, List.flatMap_cons, ← ih]
    simp [Dataset.metricsFor]

/-- The metric a registry holds. -/
def heldAt (regs : Registry) (n : Str) (k : Key) : Option ℚ :=
  (OMap.find regs n).bind fun R => OMap.find R.dataset k

theorem metricsFor_dataOf {regs : Registry} (hd : ∀ x ∈ regs, OMap.Sorted x.2.dataset) (n : Str)
    (k : Key) : Dataset.metricsFor (dataOf regs n) k = (heldAt regs n k).toList := by
  unfold dataOf heldAt
  cases h : OMap.find regs n with
  | none => rfl
  | some R =>
    simp only [Option.bind_some]
    exact Dataset.metricsFor_toVector (hd (n, R) (OMap.mem_of_find_eq_some h)) k

theorem metricsFor_taken {ranks : List Registry} (hs : ∀ regs ∈ ranks, OMap.Sorted regs)
    (hd : ∀ regs ∈ ranks, ∀ x ∈ regs, OMap.Sorted x.2.dataset) (me : ℕ) (n : Str) (k : Key) :
    Dataset.metricsFor (taken me n (allMsgs 0 ranks)) k =
      othersOf (fun r => heldAt r n k) me ranks.zipIdx := by
  rw [taken_all hs, metricsFor_flatMap]
  unfold othersOf
  have : ∀ x ∈ ranks.zipIdx, ∀ y ∈ x.1, OMap.Sorted y.2.dataset := fun x hx =>
    hd x.1 (by
      obtain ⟨a, j⟩ := x
      exact List.fst_mem_of_mem_zipIdx hx)
  generalize ranks.zipIdx = l at this
  induction l with
  | nil => rfl
  | cons x l ih =>
    rw [List.flatMap_cons, ih (fun y hy => this y (List.mem_cons_of_mem _ hy)), List.filter_cons]
    by_cases hx : x.2 = me
    · simp [hx, Dataset.metricsFor]
    · rw [if_pos hx, metricsFor_dataOf (this x List.mem_cons_self), if_pos (by simpa using hx),
        List.filterMap_cons]
      simp only
      cases heldAt x.1 n k <;> simp

open Spec in
theorem runningAverage_append (o : Option ℚ) (ms : List ℚ) :
    ms.foldl (fun o m => some (Dataset.combine m o)) o =
      runningAverage halfHalf (o.toList ++ ms) := by
  rw [← ema_eq_halfHalf]
  cases o with
  | some a => rw [Dataset.foldl_combine_some]; rfl
  | none =>
    cases ms with
    | nil => rfl
    | cons m ms =>
      rw [List.foldl_cons]
      show _ = some _
      exact Dataset.foldl_combine_some _ _

open Spec in
theorem halfHalf_comm (a b : ℚ) : halfHalf a b = halfHalf b a := by
  unfold halfHalf; rw [add_comm]

open Spec in
theorem runningAverage_perm {a b : List ℚ} (h : a.Perm b) (hl : b.length ≤ 2) :
    runningAverage halfHalf a = runningAverage halfHalf b := by
  match b, hl with
  | [], _ => rw [List.perm_nil.1 h]
  | [x], _ => rw [List.perm_singleton.1 h]
  | [x, y], _ =>
    have hl := h.length_eq
    match a, hl with
    | [u, v], _ =>
      have hu : u = x ∨ u = y := by simpa using h.subset List.mem_cons_self
      rcases hu with rfl | rfl
      · have := List.perm_singleton.1 (List.perm_cons _ |>.1 h)
        rw [this]
      · have := List.perm_singleton.1 (List.perm_cons _ |>.1 (h.trans (List.Perm.swap _ _ _)))
        cases this
        simp [runningAverage, halfHalf_comm u x]

end Apollo.Collective
