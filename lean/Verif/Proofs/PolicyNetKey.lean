import Verif.Model.PolicyNet

/-!
# Lemmas on the encoding of features by PolicyNet
-/

namespace Apollo.PolicyNet

theorem length_bits (v : ℕ) : (bits v).length = 64 := by simp [bits]

theorem length_bitString (v : ℕ) : (bitString v).length = 64 := by simp [bitString]

theorem toU64_lt {f : ℚ} {v : ℕ} (h : toU64 f = .ok v) : v < 2 ^ 64 := by
  unfold toU64 at h
  split at h
  · rename_i hf
    injection h with h
    subst h
    have h2 : (⌊f⌋ : ℤ) < 2 ^ 64 := by
      rw [Int.floor_lt]
      push_cast
      exact hf.2
    omega
  · cases h

theorem toU64_ok {f : ℚ} (h0 : 0 ≤ f) (h1 : f < 2 ^ 64) : toU64 f = .ok ⌊f⌋₊ := by
  unfold toU64
  rw [if_pos ⟨by linarith, h1⟩, Int.floor_toNat]

theorem bits_inj {v w : ℕ} (hv : v < 2 ^ 64) (hw : w < 2 ^ 64) (h : bits v = bits w) : v = w := by
  apply Nat.eq_of_testBit_eq
  intro i
  rcases lt_or_ge i 64 with hi | hi
  · have := congrArg (fun l => l[i]?) h
    simpa [bits, List.getElem?_range hi] using this
  · rw [Nat.testBit_lt_two_pow (lt_of_lt_of_le hv (Nat.pow_le_pow_right (by norm_num) hi)),
      Nat.testBit_lt_two_pow (lt_of_lt_of_le hw (Nat.pow_le_pow_right (by norm_num) hi))]

theorem bitString_inj {v w : ℕ} (hv : v < 2 ^ 64) (hw : w < 2 ^ 64)
    (h : bitString v = bitString w) : v = w := by
  apply Nat.eq_of_testBit_eq
  intro i
  rcases lt_or_ge i 64 with hi | hi
  · have h63 : 63 - i < 64 := by omega
    have := congrArg (fun l => l[63 - i]?) h
    simp only [bitString, List.getElem?_map, List.getElem?_range h63, Option.map_some,
      Option.some.injEq, show 63 - (63 - i) = i by omega] at this
    cases hvi : v.testBit i <;> cases hwi : w.testBit i <;> rw [hvi, hwi] at this <;>
      simp at this ⊢
  · rw [Nat.testBit_lt_two_pow (lt_of_lt_of_le hv (Nat.pow_le_pow_right (by norm_num) hi)),
      Nat.testBit_lt_two_pow (lt_of_lt_of_le hw (Nat.pow_le_pow_right (by norm_num) hi))]

/-- All features are encoded by their truncated values. -/
theorem encode_eq {fs : List ℚ} {vs : List ℕ} (h : fs.mapM toU64 = .ok vs) :
    encode fs = .ok (vs.flatMap bits) := by
  induction fs generalizing vs with
  | nil => cases h; rfl
  | cons f fs ih =>
    rw [List.mapM_cons] at h
    obtain ⟨v, hv, h⟩ := (Res.bind_eq_ok _ _ _).1 h
    obtain ⟨ws, hws, h⟩ := (Res.bind_eq_ok _ _ _).1 h
    cases h
    simp only [encode, hv, Res.bind_ok, ih hws, List.flatMap_cons]

theorem key_eq {fs : List ℚ} {vs : List ℕ} (h : fs.mapM toU64 = .ok vs) :
    key fs = .ok (vs.flatMap bitString) := by
  induction fs generalizing vs with
  | nil => cases h; rfl
  | cons f fs ih =>
    rw [List.mapM_cons] at h
    obtain ⟨v, hv, h⟩ := (Res.bind_eq_ok _ _ _).1 h
    obtain ⟨ws, hws, h⟩ := (Res.bind_eq_ok _ _ _).1 h
    cases h
    simp only [key, hv, Res.bind_ok, ih hws, List.flatMap_cons]

theorem mapM_of_key {fs : List ℚ} {k : List Char} (h : key fs = .ok k) :
    ∃ vs, fs.mapM toU64 = .ok vs ∧ k = vs.flatMap bitString := by
  induction fs generalizing k with
  | nil => cases h; exact ⟨[], rfl, rfl⟩
  | cons f fs ih =>
    unfold key at h
    obtain ⟨v, hv, h⟩ := (Res.bind_eq_ok _ _ _).1 h
    obtain ⟨s, hs, h⟩ := (Res.bind_eq_ok _ _ _).1 h
    cases h
    obtain ⟨vs, hvs, rfl⟩ := ih hs
    exact ⟨v :: vs, by rw [List.mapM_cons, hv, Res.bind_ok, hvs]; rfl, rfl⟩

theorem mapM_of_encode {fs : List ℚ} {k : List Bool} (h : encode fs = .ok k) :
    ∃ vs, fs.mapM toU64 = .ok vs ∧ k = vs.flatMap bits := by
  induction fs generalizing k with
  | nil => cases h; exact ⟨[], rfl, rfl⟩
  | cons f fs ih =>
    unfold encode at h
    obtain ⟨v, hv, h⟩ := (Res.bind_eq_ok _ _ _).1 h
    obtain ⟨s, hs, h⟩ := (Res.bind_eq_ok _ _ _).1 h
    cases h
    obtain ⟨vs, hvs, rfl⟩ := ih hs
    exact ⟨v :: vs, by rw [List.mapM_cons, hv, Res.bind_ok, hvs]; rfl, rfl⟩

theorem mapM_lt {fs : List ℚ} {vs : List ℕ} (h : fs.mapM toU64 = .ok vs) :
    ∀ v ∈ vs, v < 2 ^ 64 := by
  induction fs generalizing vs with
  | nil => cases h; simp
  | cons f fs ih =>
    rw [List.mapM_cons] at h
    obtain ⟨v, hv, h⟩ := (Res.bind_eq_ok _ _ _).1 h
    obtain ⟨ws, hws, h⟩ := (Res.bind_eq_ok _ _ _).1 h
    cases h
    intro x hx
    rcases List.mem_cons.1 hx with rfl | hx
    · exact toU64_lt hv
    · exact ih hws x hx

theorem mapM_length {fs : List ℚ} {vs : List ℕ} (h : fs.mapM toU64 = .ok vs) :
    vs.length = fs.length := by
  induction fs generalizing vs with
  | nil => cases h; rfl
  | cons f fs ih =>
    rw [List.mapM_cons] at h
    obtain ⟨v, hv, h⟩ := (Res.bind_eq_ok _ _ _).1 h
    obtain ⟨ws, hws, h⟩ := (Res.bind_eq_ok _ _ _).1 h
    cases h
    simp [ih hws]

/-- Blocks of equal length can be told apart. -/
theorem flatMap_inj {β : Type} {c : ℕ → List β} (hl : ∀ v, (c v).length = 64)
    (hc : ∀ v w, v < 2 ^ 64 → w < 2 ^ 64 → c v = c w → v = w) {vs ws : List ℕ}
    (hv : ∀ v ∈ vs, v < 2 ^ 64) (hw : ∀ w ∈ ws, w < 2 ^ 64)
    (h : vs.flatMap c = ws.flatMap c) : vs = ws := by
  induction vs generalizing ws with
  | nil =>
    cases ws with
    | nil => rfl
    | cons w ws =>
      have := congrArg List.length h
      simp [List.flatMap_cons, hl] at this
      omega
  | cons v vs ih =>
    cases ws with
    | nil =>
      have := congrArg List.length h
      simp [List.flatMap_cons, hl] at this
    | cons w ws =>
      rw [List.flatMap_cons, List.flatMap_cons] at h
      obtain ⟨h1, h2⟩ := List.append_inj h (by rw [hl, hl])
      rw [hc v w (hv _ List.mem_cons_self) (hw _ List.mem_cons_self) h1,
        ih (fun x hx => hv x (List.mem_cons_of_mem _ hx))
          (fun x hx => hw x (List.mem_cons_of_mem _ hx)) h2]

theorem length_encode {fs : List ℚ} {bs : List Bool} (h : encode fs = .ok bs) :
    bs.length = 64 * fs.length := by
  obtain ⟨vs, hvs, rfl⟩ := mapM_of_encode h
  rw [← mapM_length hvs]
  clear h hvs
  induction vs with
  | nil => rfl
  | cons v vs ih => rw [List.flatMap_cons, List.length_append, length_bits, ih,
      List.length_cons]; omega

/-- Features with the same key have the same encoding. -/
theorem encode_of_key {fs gs : List ℚ} {k : List Char} (hf : key fs = .ok k) (hg : key gs = .ok k) :
    encode fs = encode gs := by
  obtain ⟨vs, hvs, rfl⟩ := mapM_of_key hf
  obtain ⟨ws, hws, h⟩ := mapM_of_key hg
  have := flatMap_inj length_bitString (fun _ _ => bitString_inj) (mapM_lt hvs) (mapM_lt hws) h
  subst this
  rw [encode_eq hvs, encode_eq hws]

/-- Features have a key if and only if they have an encoding. -/
theorem encode_ok_of_key {fs : List ℚ} {k : List Char} (hf : key fs = .ok k) :
    ∃ bs, encode fs = .ok bs := by
  obtain ⟨vs, hvs, -⟩ := mapM_of_key hf
  exact ⟨_, encode_eq hvs⟩

theorem key_ok_of_encode {fs : List ℚ} {bs : List Bool} (hf : encode fs = .ok bs) :
    ∃ k, key fs = .ok k := by
  obtain ⟨vs, hvs, -⟩ := mapM_of_encode hf
  exact ⟨_, key_eq hvs⟩

end Apollo.PolicyNet
