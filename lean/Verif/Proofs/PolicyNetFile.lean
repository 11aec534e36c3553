import Verif.Model.PolicyNet

/-!
# Lemmas on the files of PolicyNet
-/

namespace Apollo.PolicyNet

open Net

variable {α : Type} [Stored α]

/-- A value which is read back as it was written, with eight bytes. -/
def Storable (v : α) : Prop := (Stored.enc v).length = 8 ∧ Stored.dec (Stored.enc v) = .ok v

/-- The bytes of some values. -/
def encAll (vs : List α) : List Char := vs.flatMap Stored.enc

theorem encAll_append (vs ws : List α) : encAll (vs ++ ws) = encAll vs ++ encAll ws := by
  simp [encAll]

theorem length_encAll {vs : List α} (h : ∀ v ∈ vs, Storable v) :
    (encAll vs).length = 8 * vs.length := by
  induction vs with
  | nil => rfl
  | cons v vs ih =>
    have := ih fun w hw => h w (List.mem_cons_of_mem _ hw)
    unfold encAll at this ⊢
    rw [List.flatMap_cons, List.length_append, (h v List.mem_cons_self).1, this, List.length_cons]
    omega

theorem bytesOf_some (vs : List α) : bytesOf (vs.map some) = .ok (encAll vs) := by
  induction vs with
  | nil => rfl
  | cons v vs ih => rw [List.map_cons, bytesOf, ih, Res.bind_ok]; rfl

theorem decArray_encAll {vs : List α} (h : ∀ v ∈ vs, Storable v) (rest : List Char) :
    decArray vs.length (encAll vs ++ rest) = .ok (vs.map some) := by
  induction vs with
  | nil => rfl
  | cons v vs ih =>
    have hv := h v List.mem_cons_self
    have e : encAll (v :: vs) ++ rest = Stored.enc v ++ (encAll vs ++ rest) := by
      simp [encAll, List.flatMap_cons]
    rw [List.length_cons, decArray, e, List.take_left' hv.1, hv.2, Res.bind_ok,
      List.drop_left' hv.1, ih fun w hw => h w (List.mem_cons_of_mem _ hw), Res.bind_ok]
    rfl

theorem encAll_take {vs : List α} (h : ∀ v ∈ vs, Storable v) (n : ℕ) :
    (encAll vs).take (8 * n) = encAll (vs.take n) := by
  rcases le_total n vs.length with hn | hn
  · conv_lhs => rw [← List.take_append_drop n vs, encAll_append]
    apply List.take_left'
    rw [length_encAll fun v hv => h v (List.mem_of_mem_take hv), List.length_take, min_eq_left hn]
  · rw [List.take_of_length_le (by rw [length_encAll h]; omega), List.take_of_length_le hn]

theorem encAll_drop {vs : List α} (h : ∀ v ∈ vs, Storable v) (n : ℕ) :
    (encAll vs).drop (8 * n) = encAll (vs.drop n) := by
  rcases le_total n vs.length with hn | hn
  · conv_lhs => rw [← List.take_append_drop n vs, encAll_append]
    apply List.drop_left'
    rw [length_encAll fun v hv => h v (List.mem_of_mem_take hv), List.length_take, min_eq_left hn]
  · rw [List.drop_of_length_le (by rw [length_encAll h]; omega), List.drop_of_length_le hn]
    rfl

theorem readArray_full {b vs : List α} (hb : ∀ v ∈ b, Storable v) (hv : ∀ v ∈ vs, Storable v)
    (hl : b.length = vs.length) (tail : List Char) :
    readArray (b.map some) ⟨encAll vs ++ tail, false⟩ = .ok (vs.map some, ⟨tail, false⟩) := by
  have e : (encAll b).length = (encAll vs).length := by
    rw [length_encAll hb, length_encAll hv, hl]
  unfold readArray
  rw [bytesOf_some, Res.bind_ok]
  simp only [Stream.read, Bool.false_eq_true, if_false, e, List.take_left, List.drop_left]
  rw [List.length_map, hl, decArray_encAll hv, Res.bind_ok, decide_eq_false (lt_irrefl _)]

/-! ## Truncated files -/

/-- What an array of values becomes when only the values `vs` are left in the file. -/
def readV (b : List α) (st : List α × Bool) : List α × List α × Bool :=
  if st.2 then (b, st)
  else (st.1.take b.length ++ b.drop st.1.length, st.1.drop b.length, decide (st.1.length < b.length))

theorem readArray_short {b vs : List α} (hb : ∀ v ∈ b, Storable v) (hv : ∀ v ∈ vs, Storable v)
    (fl : Bool) :
    readArray (b.map some) ⟨encAll vs, fl⟩ =
      .ok ((readV b (vs, fl)).1.map some,
        ⟨encAll (readV b (vs, fl)).2.1, (readV b (vs, fl)).2.2⟩) := by
  unfold readArray readV
  rw [bytesOf_some, Res.bind_ok]
  cases fl with
  | true =>
    simp only [Stream.read, if_true]
    have := decArray_encAll hb []
    rw [List.append_nil] at this
    rw [List.length_map, this, Res.bind_ok]
  | false =>
    have hnew : ∀ v ∈ vs.take b.length ++ b.drop vs.length, Storable v := by
      intro v h
      rcases List.mem_append.1 h with h | h
      · exact hv v (List.mem_of_mem_take h)
      · exact hb v (List.mem_of_mem_drop h)
    have hlen : (vs.take b.length ++ b.drop vs.length).length = b.length := by
      rw [List.length_append, List.length_take, List.length_drop]
      omega
    have e1 : (encAll vs).take (encAll b).length = encAll (vs.take b.length) := by
      rw [length_encAll hb, encAll_take hv]
    have e2 : (encAll vs).drop (encAll b).length = encAll (vs.drop b.length) := by
      rw [length_encAll hb, encAll_drop hv]
    have e3 : (encAll (vs.take b.length)).length = 8 * (vs.take b.length).length :=
      length_encAll fun v h => hv v (List.mem_of_mem_take h)
    have e4 : (encAll b).drop (8 * (vs.take b.length).length) = encAll (b.drop vs.length) := by
      rw [encAll_drop hb, List.length_take]
      rcases le_total b.length vs.length with h | h
      · rw [min_eq_left h, List.drop_of_length_le (le_refl _), List.drop_of_length_le h]
      · rw [min_eq_right h]
    simp only [Stream.read, Bool.false_eq_true, if_false, e1, e2, e3, e4]
    have := decArray_encAll hnew []
    rw [List.append_nil, hlen, encAll_append] at this
    rw [List.length_map, this, Res.bind_ok, length_encAll hb, List.length_take]
    congr 3
    apply decide_eq_decide.2
    omega

/-- The values after reading, as if all arrays were one. -/
def mix (b : List α) (st : List α × Bool) : List α :=
  if st.2 then b else st.1.take b.length ++ b.drop st.1.length

omit [Stored α] in
theorem readV_mix (b rest : List α) (st : List α × Bool) :
    (readV b st).1 ++ mix rest (readV b st).2 = mix (b ++ rest) st := by
  obtain ⟨vs, fl⟩ := st
  cases fl with
  | true => simp [readV, mix]
  | false =>
    rcases le_or_gt b.length vs.length with h | h
    · simp only [readV, mix, Bool.false_eq_true, if_false,
        decide_eq_true_eq, if_neg (not_lt.2 h), List.length_append, List.drop_of_length_le h,
        List.append_nil, List.length_drop]
      rw [List.drop_append, List.drop_of_length_le h, List.nil_append, List.take_add,
        List.append_assoc]
    · simp only [readV, mix, Bool.false_eq_true, if_false, h, decide_true, if_true,
        List.length_append]
      rw [List.take_of_length_le h.le, List.take_of_length_le (by omega), List.drop_append,
        show vs.length - b.length = 0 by omega, List.drop_zero, List.append_assoc]

omit [Stored α] in
theorem readV_length (b : List α) (st : List α × Bool) : (readV b st).1.length = b.length := by
  obtain ⟨vs, fl⟩ := st
  cases fl with
  | true => simp [readV]
  | false =>
    simp only [readV, Bool.false_eq_true, if_false, List.length_append, List.length_take,
      List.length_drop]
    omega

omit [Stored α] in
theorem readV_sub (b : List α) (st : List α × Bool) : ∀ v ∈ (readV b st).2.1, v ∈ st.1 := by
  obtain ⟨vs, fl⟩ := st
  intro v hv
  cases fl with
  | true => simpa [readV] using hv
  | false =>
    simp only [readV, Bool.false_eq_true, if_false] at hv
    exact List.mem_of_mem_drop hv

omit [Stored α] in
/-- Once the file is exhausted it stays exhausted. -/
theorem readV_end (b : List α) (st : List α × Bool) (h : st.1 = [] ∨ st.2 = true) :
    (readV b st).2.1 = [] ∨ (readV b st).2.2 = true := by
  obtain ⟨vs, fl⟩ := st
  cases fl with
  | true => right; simp [readV]
  | false =>
    simp only [Bool.false_eq_true, or_false] at h
    subst h
    left
    simp [readV]

/-! ## The object -/

/-- The values of a PolicyNet which are stored. -/
structure Held (α : Type) where
  w1 : List α
  b1 : List α
  w2 : List α
  b2 : List α
  w3 : List α
  b3 : List α
  avg : α
  count : ℤ

/-- All values, in the order of the file. -/
def Held.all (H : Held α) : List α := H.w1 ++ (H.b1 ++ (H.w2 ++ (H.b2 ++ (H.w3 ++ (H.b3 ++ [H.avg])))))

/-- The object holds these values. -/
structure Holds (P : PolicyNet α) (H : Held α) : Prop where
  w1 : P.net.layer1.weights = H.w1.map some
  b1 : P.net.layer1.bias = H.b1.map some
  w2 : P.net.layer2.weights = H.w2.map some
  b2 : P.net.layer2.bias = H.b2.map some
  w3 : P.net.layer3.weights = H.w3.map some
  b3 : P.net.layer3.bias = H.b3.map some
  avg : P.rewardMovingAvg = H.avg
  count : P.trainCount = H.count

/-- The object with these values. -/
def put (P : PolicyNet α) (H : Held α) : PolicyNet α :=
  { P with
    net := { P.net with
      layer1 := { P.net.layer1 with weights := H.w1.map some, bias := H.b1.map some }
      layer2 := { P.net.layer2 with weights := H.w2.map some, bias := H.b2.map some }
      layer3 := { P.net.layer3 with weights := H.w3.map some, bias := H.b3.map some } }
    rewardMovingAvg := H.avg
    trainCount := H.count }

/-- Arrays of the same sizes. -/
structure Held.Same (H G : Held α) : Prop where
  w1 : H.w1.length = G.w1.length
  b1 : H.b1.length = G.b1.length
  w2 : H.w2.length = G.w2.length
  b2 : H.b2.length = G.b2.length
  w3 : H.w3.length = G.w3.length
  b3 : H.b3.length = G.b3.length

omit [Stored α] in
theorem put_holds (P : PolicyNet α) (H : Held α) : (P.put H).Holds H :=
  ⟨rfl, rfl, rfl, rfl, rfl, rfl, rfl, rfl⟩

theorem Holds.store {P : PolicyNet α} {H : Held α} (h : P.Holds H) :
    P.store = .ok (encAll H.all ++ encInt 4 H.count) := by
  unfold PolicyNet.store
  rw [h.w1, h.b1, h.w2, h.b2, h.w3, h.b3, h.avg, h.count]
  simp only [bytesOf_some, Res.bind_ok, Held.all, encAll_append, List.append_assoc]
  simp [encAll]

theorem Held.storable {H : Held α} (h : ∀ v ∈ H.all, Storable v) :
    (∀ v ∈ H.w1, Storable v) ∧ (∀ v ∈ H.b1, Storable v) ∧ (∀ v ∈ H.w2, Storable v) ∧
    (∀ v ∈ H.b2, Storable v) ∧ (∀ v ∈ H.w3, Storable v) ∧ (∀ v ∈ H.b3, Storable v) ∧
    Storable H.avg := by
  unfold Held.all at h
  refine ⟨fun v hv => h v ?_, fun v hv => h v ?_, fun v hv => h v ?_, fun v hv => h v ?_,
    fun v hv => h v ?_, fun v hv => h v ?_, h _ ?_⟩ <;> simp [*]

/-- Reading a whole file. -/
theorem Holds.load {Q : PolicyNet α} {G H : Held α} (h : Q.Holds G) (hs : G.Same H)
    (hG : ∀ v ∈ G.all, Storable v) (hH : ∀ v ∈ H.all, Storable v)
    (hc : -2 ^ 31 ≤ H.count ∧ H.count < 2 ^ 31) :
    Q.load (some (encAll H.all ++ encInt 4 H.count)) = .ok (Q.put H) := by
  obtain ⟨g1, g2, g3, g4, g5, g6, g7⟩ := Held.storable hG
  obtain ⟨h1, h2, h3, h4, h5, h6, h7⟩ := Held.storable hH
  unfold PolicyNet.load
  dsimp only
  rw [h.w1, h.b1, h.w2, h.b2, h.w3, h.b3, h.avg, h.count]
  have e : encAll H.all ++ encInt 4 H.count = encAll H.w1 ++ (encAll H.b1 ++ (encAll H.w2 ++
      (encAll H.b2 ++ (encAll H.w3 ++ (encAll H.b3 ++ (Stored.enc H.avg ++
        encInt 4 H.count)))))) := by
    simp only [Held.all, encAll_append, List.append_assoc]
    simp [encAll]
  rw [e, readArray_full g1 h1 hs.w1, Res.bind_ok]
  dsimp only
  rw [readArray_full g2 h2 hs.b1, Res.bind_ok]
  dsimp only
  rw [readArray_full g3 h3 hs.w2, Res.bind_ok]
  dsimp only
  rw [readArray_full g4 h4 hs.b2, Res.bind_ok]
  dsimp only
  rw [readArray_full g5 h5 hs.w3, Res.bind_ok]
  dsimp only
  rw [readArray_full g6 h6 hs.b3, Res.bind_ok]
  have e1 : (Stored.enc G.avg).length = (Stored.enc H.avg).length := by rw [g7.1, h7.1]
  have e2 : (encInt 4 G.count).length = (encInt 4 H.count).length := by
    rw [length_encInt, length_encInt]
  have e3 : (encInt 4 G.count).length = 4 := length_encInt 4 G.count
  simp only [Stream.read, Bool.false_eq_true, if_false, e1, List.take_left, List.drop_left,
    decide_eq_true_eq, lt_irrefl]
  rw [List.drop_of_length_le (by rw [e1]), List.append_nil, h7.2, Res.bind_ok, e2,
    List.take_length, List.drop_of_length_le (by rw [e2]), List.append_nil,
    decInt_encInt 4 (by norm_num; omega) (by norm_num; omega)]
  rfl

/-- Reading a file which ends after a whole number of values. -/
theorem Holds.load_short {Q : PolicyNet α} {G : Held α} (h : Q.Holds G)
    (hG : ∀ v ∈ G.all, Storable v) {vs : List α} (hv : ∀ v ∈ vs, Storable v)
    (hl : vs.length ≤ G.all.length) (hc : -2 ^ 31 ≤ G.count ∧ G.count < 2 ^ 31) :
    ∃ G', Q.load (some (encAll vs)) = .ok (Q.put G') ∧ G'.Same G ∧ G'.count = G.count ∧
      G'.all = vs ++ G.all.drop vs.length := by
  obtain ⟨g1, g2, g3, g4, g5, g6, g7⟩ := Held.storable hG
  unfold PolicyNet.load
  dsimp only
  rw [h.w1, h.b1, h.w2, h.b2, h.w3, h.b3, h.avg, h.count]
  set s0 : List α × Bool := (vs, false) with hs0
  set r1 := readV G.w1 s0 with hr1
  set r2 := readV G.b1 r1.2 with hr2
  set r3 := readV G.w2 r2.2 with hr3
  set r4 := readV G.b2 r3.2 with hr4
  set r5 := readV G.w3 r4.2 with hr5
  set r6 := readV G.b3 r5.2 with hr6
  set r7 := readV [G.avg] r6.2 with hr7
  have v1 : ∀ v ∈ r1.2.1, Storable v := fun v m => hv v (readV_sub _ _ v m)
  have v2 : ∀ v ∈ r2.2.1, Storable v := fun v m => v1 v (readV_sub _ _ v m)
  have v3 : ∀ v ∈ r3.2.1, Storable v := fun v m => v2 v (readV_sub _ _ v m)
  have v4 : ∀ v ∈ r4.2.1, Storable v := fun v m => v3 v (readV_sub _ _ v m)
  have v5 : ∀ v ∈ r5.2.1, Storable v := fun v m => v4 v (readV_sub _ _ v m)
  have v6 : ∀ v ∈ r6.2.1, Storable v := fun v m => v5 v (readV_sub _ _ v m)
  rw [readArray_short g1 hv false, Res.bind_ok]
  dsimp only
  rw [readArray_short g2 v1, Res.bind_ok]
  dsimp only
  rw [readArray_short g3 v2, Res.bind_ok]
  dsimp only
  rw [readArray_short g4 v3, Res.bind_ok]
  dsimp only
  rw [readArray_short g5 v4, Res.bind_ok]
  dsimp only
  rw [readArray_short g6 v5, Res.bind_ok]
  change ∃ G', (do
    let avg ← Stored.dec (Stream.read ⟨encAll r6.2.1, r6.2.2⟩ (Stored.enc G.avg)).1
    .ok { Q with
      net := { Q.net with
        layer1 := { Q.net.layer1 with weights := r1.1.map some, bias := r2.1.map some }
        layer2 := { Q.net.layer2 with weights := r3.1.map some, bias := r4.1.map some }
        layer3 := { Q.net.layer3 with weights := r5.1.map some, bias := r6.1.map some } }
      rewardMovingAvg := avg
      trainCount := decInt (Stream.read
        (Stream.read ⟨encAll r6.2.1, r6.2.2⟩ (Stored.enc G.avg)).2 (encInt 4 G.count)).1 }) =
      _ ∧ _
  have hmix : r1.1 ++ (r2.1 ++ (r3.1 ++ (r4.1 ++ (r5.1 ++ (r6.1 ++ (r7.1 ++ mix [] r7.2)))))) =
      vs ++ G.all.drop vs.length := by
    rw [hr7, readV_mix, hr6, readV_mix, hr5, readV_mix, hr4, readV_mix, hr3, readV_mix, hr2,
      readV_mix, hr1, readV_mix]
    simp only [mix, hs0, List.append_nil, Bool.false_eq_true, if_false]
    change List.take G.all.length vs ++ _ = _
    rw [List.take_of_length_le hl]
    rfl
  have hend : mix [] r7.2 = [] := by
    unfold mix
    split <;> simp
  rw [hend, List.append_nil] at hmix
  -- the rest of the file is at most one value
  have hrem : r6.2.1.length ≤ 1 ∨ r6.2.2 = true := by
    by_contra hcon
    rw [not_or] at hcon
    have hf : r6.2.2 = false := by simpa using hcon.2
    have key : ∀ (b : List α) (st : List α × Bool), (readV b st).2.2 = false →
        st.2 = false ∧ st.1.length = b.length + (readV b st).2.1.length := by
      intro b st hst
      obtain ⟨ws, fl⟩ := st
      cases fl with
      | true => simp [readV] at hst
      | false =>
        simp only [readV, Bool.false_eq_true, if_false, decide_eq_false_iff_not, not_lt] at hst ⊢
        rw [List.length_drop]
        exact ⟨trivial, by omega⟩
    obtain ⟨f6, l6⟩ := key G.b3 r5.2 hf
    obtain ⟨f5, l5⟩ := key G.w3 r4.2 f6
    obtain ⟨f4, l4⟩ := key G.b2 r3.2 f5
    obtain ⟨f3, l3⟩ := key G.w2 r2.2 f4
    obtain ⟨f2, l2⟩ := key G.b1 r1.2 f3
    obtain ⟨f1, l1⟩ := key G.w1 s0 f2
    have : vs.length ≤ G.all.length := hl
    simp only [Held.all, List.length_append, List.length_cons, List.length_nil] at this
    rw [← hr6] at l6
    rw [← hr5] at l5
    rw [← hr4] at l4
    rw [← hr3] at l3
    rw [← hr2] at l2
    rw [← hr1] at l1
    have l0 : s0.1.length = vs.length := rfl
    omega
  have hcount : ∀ f : Stream, (f.rest = [] ∨ f.failed = true) →
      decInt (f.read (encInt 4 G.count)).1 = G.count := by
    intro f hf
    have : (f.read (encInt 4 G.count)).1 = encInt 4 G.count := by
      unfold Stream.read
      split
      · rfl
      · rcases hf with hf | hf
        · simp [hf]
        · simp_all
    rw [this]
    exact decInt_encInt 4 (by norm_num; omega) (by norm_num; omega)
  have h7 : ∃ a, r7.1 = [a] ∧ Stored.dec (Stream.read ⟨encAll r6.2.1, r6.2.2⟩
      (Stored.enc G.avg)).1 = .ok a ∧ ((Stream.read ⟨encAll r6.2.1, r6.2.2⟩
      (Stored.enc G.avg)).2.rest = [] ∨ (Stream.read ⟨encAll r6.2.1, r6.2.2⟩
      (Stored.enc G.avg)).2.failed = true) := by
    rw [hr7]
    generalize r6.2 = st at hrem v6
    obtain ⟨ws, fl⟩ := st
    cases fl with
    | true =>
      refine ⟨G.avg, by simp [readV], ?_, Or.inr ?_⟩
      · simp [Stream.read, g7.2]
      · simp [Stream.read]
    | false =>
      simp only [Bool.false_eq_true, or_false] at hrem v6
      match ws, hrem with
      | [], _ =>
        refine ⟨G.avg, by simp [readV], ?_, Or.inl ?_⟩
        · simp [Stream.read, encAll, g7.2]
        · simp [Stream.read, encAll]
      | [a], _ =>
        have ha := v6 a (by simp)
        refine ⟨a, by simp [readV], ?_, Or.inl ?_⟩
        · simp [Stream.read, encAll, g7.1, ha.1, ha.2, List.take_of_length_le,
            List.drop_of_length_le]
        · simp [Stream.read, encAll, g7.1, ha.1]
  obtain ⟨a, ha, hdec, hst⟩ := h7
  rw [hdec, Res.bind_ok, hcount _ hst]
  rw [ha] at hmix
  exact ⟨⟨r1.1, r2.1, r3.1, r4.1, r5.1, r6.1, a, G.count⟩, rfl,
    ⟨readV_length _ _, readV_length _ _, readV_length _ _, readV_length _ _, readV_length _ _,
      readV_length _ _⟩, rfl, hmix⟩

end Apollo.PolicyNet
