import Verif.Props.PolicyNet
import Verif.Proofs.PolicyNetLoad

/-!
# C53, C54, C55: cache, encoding and files of PolicyNet
-/

namespace Apollo.Props

open Apollo Apollo.PolicyNet Apollo.Spec.Net

variable {α : Type} [Arith α]

/-! ## C53 -/

/-- The full claim: whatever calls of getIndex, train and load come before, the probabilities used
are those which the network computes now. -/
def C53_claim (α : Type) [Arith α] [Stored α] : Prop :=
  ∀ (np nf : ℕ) (lr beta beta1 beta2 threshold : α) (init : ℕ → ℕ → α) (gen : ℕ → α)
    (us us' : List NetUse) (file : Option (List Char)) (P P1 P2 : PolicyNet α), 0 < np →
    (∀ u ∈ us, u.Valid np nf) → (∀ u ∈ us', u.Valid np nf) →
    runUses us (.new np nf lr beta beta1 beta2 threshold init gen) = .ok P →
    P.load file = .ok P1 → runUses us' P1 = .ok P2 →
    ∀ f, GoodFeatures nf f → ∀ ps Q, P2.probabilities f = .ok (ps, Q) →
      ∃ Q', P2.evaluate f = .ok (ps, Q')

/-- Proved for objects which load a file, if at all, before anything is asked of them, as regions do
(missing: loading into an object with a filled cache, see `C53_fails`).  Every history of valid calls
succeeds, and then the probabilities used by `getIndex` are those the network computes now. -/
theorem C53_partial [Stored α] {np nf : ℕ} (hnp : 0 < np) (lr beta beta1 beta2 threshold : α)
    (init : ℕ → ℕ → α) (gen : ℕ → α) (file : Option (List Char)) {P : PolicyNet α}
    (hl : (PolicyNet.new np nf lr beta beta1 beta2 threshold init gen).load file = .ok P)
    (us : List NetUse) (hv : ∀ u ∈ us, u.Valid np nf) :
    ∃ P1, runUses us P = .ok P1 ∧ ∀ f, GoodFeatures nf f →
      ∃ ps Q Q', P1.probabilities f = .ok (ps, Q) ∧ P1.evaluate f = .ok (ps, Q') := by
  obtain ⟨⟨S, hg⟩, -, -⟩ := (good_new np nf lr beta beta1 beta2 threshold init gen).load rfl hl
  obtain ⟨P1, S1, m, e, hg1, -⟩ := runUses_good hnp us hv hg
  refine ⟨P1, e, fun f hf => ?_⟩
  obtain ⟨bs, eb, hlen⟩ := hf.encode
  obtain ⟨N, c, e1, -⟩ := hg1.probabilities (by exact hnp) eb (by rw [hlen]; exact le_refl _)
  obtain ⟨N', e2, -⟩ := hg1.evaluate (by exact hnp) eb (by rw [hlen]; exact le_refl _)
  exact ⟨_, _, _, e1, e2⟩

/-- An exponential function for the witnesses: powers of two. -/
def exp2 (x : ℚ) : ℚ := if ⌊x⌋ < 0 then 1 / 2 ^ (-⌊x⌋).toNat else 2 ^ ⌊x⌋.toNat

/-- A file with other weights, for a network of two policies and no features. -/
def otherFile : List Char := ([0, 0, 0, 0, 0, 1, 0, 0].flatMap encDouble) ++ encInt 4 0

/-- Whether the probabilities used after loading differ from those of the network. -/
def staleAfter [Stored α] (r : Res (PolicyNet α)) (file : List Char) [DecidableEq α] : Bool :=
  match r with
  | .error _ => false
  | .ok P =>
    match P.load (some file) with
    | .error _ => false
    | .ok P1 =>
      match P1.probabilities [], P1.evaluate [] with
      | .ok (ps, _), .ok (qs, _) => decide (ps ≠ qs)
      | _, _ => false

theorem staleAfter_spec [Stored α] [DecidableEq α] {r : Res (PolicyNet α)} {file : List Char}
    (h : staleAfter r file = true) :
    ∃ P P1 ps Q, r = .ok P ∧ P.load (some file) = .ok P1 ∧ P1.probabilities [] = .ok (ps, Q) ∧
      ∀ Q', P1.evaluate [] ≠ .ok (ps, Q') := by
  unfold staleAfter at h
  cases r with
  | error e => simp at h
  | ok P =>
    dsimp only at h
    cases h1 : P.load (some file) with
    | error e => rw [h1] at h; simp at h
    | ok P1 =>
      rw [h1] at h
      dsimp only at h
      cases h2 : P1.probabilities [] with
      | error e => rw [h2] at h; simp at h
      | ok p =>
        cases h3 : P1.evaluate [] with
        | error e => rw [h2, h3] at h; simp at h
        | ok q =>
          rw [h2, h3] at h
          refine ⟨P, P1, p.1, p.2, rfl, h1, h2, fun Q' hQ => ?_⟩
          rw [h3] at hQ
          cases hQ
          simp at h

/-- Loading does not clear the cache: afterwards the old probabilities are used.  The witness uses
double arithmetic and a network with two policies and no features. -/
theorem C53_fails : ¬ @C53_claim ℚ (doubleArith exp2 id fun a n => a ^ n) _ := by
  intro h
  let a : Arith ℚ := doubleArith exp2 id fun a n => a ^ n
  obtain ⟨P, P1, ps, Q, h1, h2, h3, h4⟩ := @staleAfter_spec ℚ a _ _
    (@runUses ℚ a [.getIndex []] (@PolicyNet.new ℚ a 2 0 (1 / 64) (1 / 2) (1 / 2) (1 / 2) 0
      (fun _ _ => 0) fun _ => 1 / 2)) otherFile (by decide +kernel)
  obtain ⟨Q', h5⟩ := h 2 0 _ _ _ _ _ _ _ [.getIndex []] [] (some otherFile) P P1 P1 (by norm_num)
    (by
      intro u hu
      rw [List.mem_singleton.1 hu]
      exact ⟨rfl, by simp⟩) (by simp) h1 h2 rfl [] ⟨rfl, by simp⟩ ps Q h3
  exact h4 Q' h5

/-- A history of valid calls, as in C51, C52 and C53. -/
example : ∀ u ∈ [NetUse.getIndex [3, 1 / 2], .train (Dataset.insert [] [3, 1] 1 (1 / 2)),
    .getIndex [7, 0]], u.Valid 2 2 := by
  intro u hu
  simp only [List.mem_cons, List.not_mem_nil, or_false] at hu
  rcases hu with rfl | rfl | rfl
  · exact ⟨rfl, by decide +kernel⟩
  · intro m hm
    rw [show Dataset.toVectorOfTuples (Dataset.insert [] [3, 1] 1 (1 / 2)) = [([3, 1], 1, 1 / 2)]
      from rfl, List.mem_singleton] at hm
    subst hm
    exact ⟨⟨rfl, by decide +kernel⟩, by decide⟩
  · exact ⟨rfl, by decide +kernel⟩

/-! ## C54 -/

/-- Two feature vectors have the same cache key exactly if their elements agree when truncated. -/
theorem C54_key {f g : List ℚ} (hf : ∀ v ∈ f, 0 ≤ v ∧ v < 2 ^ 64)
    (hg : ∀ v ∈ g, 0 ≤ v ∧ v < 2 ^ 64) :
    ∃ k k', PolicyNet.key f = .ok k ∧ PolicyNet.key g = .ok k' ∧
      (k = k' ↔ f.map (fun v => ⌊v⌋₊) = g.map fun v => ⌊v⌋₊) := by
  have ef : f.mapM toU64 = .ok (f.map fun v => ⌊v⌋₊) :=
    mapM_ok fun v hv => toU64_ok (hf v hv).1 (hf v hv).2
  have eg : g.mapM toU64 = .ok (g.map fun v => ⌊v⌋₊) :=
    mapM_ok fun v hv => toU64_ok (hg v hv).1 (hg v hv).2
  refine ⟨_, _, key_eq ef, key_eq eg, fun h => ?_, fun h => by rw [h]⟩
  exact flatMap_inj length_bitString (fun _ _ => bitString_inj) (mapM_lt ef) (mapM_lt eg) h

/-- Likewise for the input of the network. -/
theorem C54_input {f g : List ℚ} (hf : ∀ v ∈ f, 0 ≤ v ∧ v < 2 ^ 64)
    (hg : ∀ v ∈ g, 0 ≤ v ∧ v < 2 ^ 64) :
    ∃ k k', PolicyNet.encode f = .ok k ∧ PolicyNet.encode g = .ok k' ∧
      (k = k' ↔ f.map (fun v => ⌊v⌋₊) = g.map fun v => ⌊v⌋₊) := by
  have ef : f.mapM toU64 = .ok (f.map fun v => ⌊v⌋₊) :=
    mapM_ok fun v hv => toU64_ok (hf v hv).1 (hf v hv).2
  have eg : g.mapM toU64 = .ok (g.map fun v => ⌊v⌋₊) :=
    mapM_ok fun v hv => toU64_ok (hg v hv).1 (hg v hv).2
  refine ⟨_, _, encode_eq ef, encode_eq eg, fun h => ?_, fun h => by rw [h]⟩
  exact flatMap_inj length_bits (fun _ _ => bits_inj) (mapM_lt ef) (mapM_lt eg) h

/-- Values from 2^64 on, and below -1, are undefined behaviour. -/
theorem C54_needs_range {f : ℚ} (h : f ≤ -1 ∨ 2 ^ 64 ≤ f) (g : List ℚ) :
    PolicyNet.key (f :: g) = .error (.ub .overflow) := by
  unfold PolicyNet.key toU64
  rw [if_neg (by rcases h with h | h <;> intro h' <;> linarith [h'.1, h'.2])]
  rfl

example : ∀ v ∈ [(1 : ℚ), 3 / 2], 0 ≤ v ∧ v < 2 ^ 64 := by decide +kernel

/-! ## C55 -/

/-- All arrays are filled with finite doubles. -/
structure FiniteNet (P : PolicyNet ℚ) : Prop where
  w1 : ∀ c ∈ P.net.layer1.weights, ∃ v, c = some v ∧ fmt64.Finite v
  b1 : ∀ c ∈ P.net.layer1.bias, ∃ v, c = some v ∧ fmt64.Finite v
  w2 : ∀ c ∈ P.net.layer2.weights, ∃ v, c = some v ∧ fmt64.Finite v
  b2 : ∀ c ∈ P.net.layer2.bias, ∃ v, c = some v ∧ fmt64.Finite v
  w3 : ∀ c ∈ P.net.layer3.weights, ∃ v, c = some v ∧ fmt64.Finite v
  b3 : ∀ c ∈ P.net.layer3.bias, ∃ v, c = some v ∧ fmt64.Finite v
  avg : fmt64.Finite P.rewardMovingAvg
  count : -2 ^ 31 ≤ P.trainCount ∧ P.trainCount < 2 ^ 31

/-- Networks of the same shape. -/
structure SameSizes (P Q : PolicyNet ℚ) : Prop where
  w1 : P.net.layer1.weights.length = Q.net.layer1.weights.length
  b1 : P.net.layer1.bias.length = Q.net.layer1.bias.length
  w2 : P.net.layer2.weights.length = Q.net.layer2.weights.length
  b2 : P.net.layer2.bias.length = Q.net.layer2.bias.length
  w3 : P.net.layer3.weights.length = Q.net.layer3.weights.length
  b3 : P.net.layer3.bias.length = Q.net.layer3.bias.length

/-- What a file holds apart from the count. -/
def values (P : PolicyNet ℚ) : List (Option ℚ) :=
  P.net.layer1.weights ++ P.net.layer1.bias ++ P.net.layer2.weights ++ P.net.layer2.bias ++
    P.net.layer3.weights ++ P.net.layer3.bias ++ [some P.rewardMovingAvg]

theorem filled {b : Net.Buf ℚ} (h : ∀ c ∈ b, ∃ v, c = some v ∧ fmt64.Finite v) :
    ∃ vs : List ℚ, b = vs.map some ∧ ∀ v ∈ vs, Storable v := by
  induction b with
  | nil => exact ⟨[], rfl, by simp⟩
  | cons c b ih =>
    obtain ⟨v, rfl, hv⟩ := h c List.mem_cons_self
    obtain ⟨vs, rfl, hvs⟩ := ih fun x hx => h x (List.mem_cons_of_mem _ hx)
    refine ⟨v :: vs, rfl, fun w hw => ?_⟩
    rcases List.mem_cons.1 hw with rfl | hw
    · exact ⟨length_encDouble _, decDouble_encDouble hv⟩
    · exact hvs w hw

theorem FiniteNet.holds {P : PolicyNet ℚ} (h : FiniteNet P) :
    ∃ H, P.Holds H ∧ (∀ v ∈ H.all, Storable v) ∧ H.count = P.trainCount := by
  obtain ⟨w1, e1, h1⟩ := filled h.w1
  obtain ⟨b1, e2, h2⟩ := filled h.b1
  obtain ⟨w2, e3, h3⟩ := filled h.w2
  obtain ⟨b2, e4, h4⟩ := filled h.b2
  obtain ⟨w3, e5, h5⟩ := filled h.w3
  obtain ⟨b3, e6, h6⟩ := filled h.b3
  refine ⟨⟨w1, b1, w2, b2, w3, b3, P.rewardMovingAvg, P.trainCount⟩,
    ⟨e1, e2, e3, e4, e5, e6, rfl, rfl⟩, ?_, rfl⟩
  intro v hv
  simp only [Held.all, List.mem_append, List.mem_singleton] at hv
  rcases hv with hv | hv | hv | hv | hv | hv | rfl
  · exact h1 v hv
  · exact h2 v hv
  · exact h3 v hv
  · exact h4 v hv
  · exact h5 v hv
  · exact h6 v hv
  · exact ⟨length_encDouble _, decDouble_encDouble h.avg⟩

theorem _root_.Apollo.PolicyNet.Holds.values {P : PolicyNet ℚ} {H : Held ℚ} (h : P.Holds H) :
    Props.values P = H.all.map some := by
  unfold Props.values Held.all
  rw [h.w1, h.b1, h.w2, h.b2, h.w3, h.b3, h.avg]
  simp

/-- Loading a stored network into one of the same shape restores everything stored, and changes
nothing else. -/
theorem C55_round_trip {P Q : PolicyNet ℚ} (hP : FiniteNet P) (hQ : FiniteNet Q)
    (hs : SameSizes P Q) :
    ∃ file Q', P.store = .ok file ∧ Q.load (some file) = .ok Q' ∧
      Q'.net.layer1.weights = P.net.layer1.weights ∧ Q'.net.layer1.bias = P.net.layer1.bias ∧
      Q'.net.layer2.weights = P.net.layer2.weights ∧ Q'.net.layer2.bias = P.net.layer2.bias ∧
      Q'.net.layer3.weights = P.net.layer3.weights ∧ Q'.net.layer3.bias = P.net.layer3.bias ∧
      Q'.rewardMovingAvg = P.rewardMovingAvg ∧ Q'.trainCount = P.trainCount ∧
      Q'.cache = Q.cache ∧ Q'.numPolicies = Q.numPolicies ∧ Q'.gen = Q.gen ∧ Q'.beta = Q.beta ∧
      Q'.threshold = Q.threshold := by
  obtain ⟨H, h, hH, hc⟩ := hP.holds
  obtain ⟨G, g, hG, -⟩ := hQ.holds
  have hsame : G.Same H := by
    have := hs.w1
    have := hs.b1
    have := hs.w2
    have := hs.b2
    have := hs.w3
    have := hs.b3
    rw [h.w1, g.w1, List.length_map, List.length_map] at *
    rw [h.b1, g.b1, List.length_map, List.length_map] at *
    rw [h.w2, g.w2, List.length_map, List.length_map] at *
    rw [h.b2, g.b2, List.length_map, List.length_map] at *
    rw [h.w3, g.w3, List.length_map, List.length_map] at *
    rw [h.b3, g.b3, List.length_map, List.length_map] at *
    constructor <;> omega
  refine ⟨_, _, h.store, g.load hsame hG hH (by rw [hc]; exact hP.count), h.w1.symm, h.b1.symm,
    h.w2.symm, h.b2.symm, h.w3.symm, h.b3.symm, h.avg.symm, h.count.symm, rfl, rfl, rfl, rfl, rfl⟩

/-- A file that cannot be opened leaves the object as it is. -/
theorem C55_missing (Q : PolicyNet ℚ) : Q.load none = .ok Q := rfl

/-- The full claim on truncated files: they are detected. -/
def C55_claim : Prop :=
  ∀ P Q : PolicyNet ℚ, FiniteNet P → FiniteNet Q → SameSizes P Q → ∀ file, P.store = .ok file →
    ∀ n < file.length, ∃ e, Q.load (some (file.take n)) = .error e

/-- A file cut after `k` values is loaded silently: the object becomes a mixture of what was stored
and what it held before. -/
theorem C55_truncated {P Q : PolicyNet ℚ} (hP : FiniteNet P) (hQ : FiniteNet Q)
    (hs : SameSizes P Q) {k : ℕ} (hk : k ≤ (values P).length) :
    ∃ file Q', P.store = .ok file ∧ Q.load (some (file.take (8 * k))) = .ok Q' ∧
      values Q' = (values P).take k ++ (values Q).drop k ∧ Q'.trainCount = Q.trainCount := by
  obtain ⟨H, h, hH, hc⟩ := hP.holds
  obtain ⟨G, g, hG, gc⟩ := hQ.holds
  have hlen : (values Q).length = (values P).length := by
    simp only [values, List.length_append, hs.w1, hs.b1, hs.w2, hs.b2, hs.w3, hs.b3,
      List.length_cons, List.length_nil]
  have hkH : k ≤ H.all.length := by
    rw [h.values, List.length_map] at hk
    exact hk
  have hkG : (H.all.take k).length = k := by rw [List.length_take]; omega
  obtain ⟨G', e, hsame, hcount, hall⟩ := g.load_short hG (vs := H.all.take k)
    (fun v hv => hH v (List.mem_of_mem_take hv)) (by
      rw [hkG, ← List.length_map (f := some), ← g.values, hlen]; exact hk)
    (by rw [gc]; exact hQ.count)
  refine ⟨_, Q.put G', h.store, ?_, ?_, ?_⟩
  · rw [List.take_append_of_le_length (by rw [length_encAll hH]; omega), encAll_take hH]
    exact e
  · rw [(put_holds Q G').values, hall, hkG, h.values, g.values, List.map_append, List.map_take,
      List.map_drop]
  · rw [(put_holds Q G').count, hcount, gc]

theorem finite64_zero : fmt64.Finite 0 := by
  refine ⟨⟨0, 0, by norm_num, by decide, by norm_num⟩, ?_⟩
  rw [abs_zero]
  positivity

/-- New networks are filled with finite doubles, if the weights drawn are finite. -/
theorem finite_new (a : Arith ℚ) (ha : a.ofRat 0 = 0) (np nf : ℕ) (lr beta beta1 beta2 th : ℚ)
    (init : ℕ → ℕ → ℚ) (hi : ∀ l i, fmt64.Finite (init l i)) (gen : ℕ → ℚ) :
    FiniteNet (@PolicyNet.new ℚ a np nf lr beta beta1 beta2 th init gen) := by
  have hz : ∀ n, ∀ c ∈ (@Net.Buf.zeros ℚ a n), ∃ v, c = some v ∧ fmt64.Finite v := by
    intro n c hc
    refine ⟨0, ?_, finite64_zero⟩
    rw [List.eq_of_mem_replicate hc, ha]
  have hw : ∀ n l, ∀ c ∈ (List.range n).map (fun i => some (init l i)),
      ∃ v, c = some v ∧ fmt64.Finite v := by
    intro n l c hc
    obtain ⟨i, -, rfl⟩ := List.mem_map.1 hc
    exact ⟨_, rfl, hi l i⟩
  refine ⟨hw _ _, hz _, hw _ _, hz _, hw _ _, hz _, ?_, ?_⟩
  · change fmt64.Finite (a.ofRat 0)
    rw [ha]
    exact finite64_zero
  · change -2 ^ 31 ≤ (0 : ℤ) ∧ (0 : ℤ) < 2 ^ 31
    norm_num

/-- Truncated files are not detected. -/
theorem C55_fails : ¬ C55_claim := by
  intro h
  have hP := finite_new (doubleArith id id fun x _ => x) (by decide +kernel) 2 1 0 0 0 0 0
    (fun _ _ => 0) (fun _ _ => finite64_zero) fun _ => 0
  have hs := SameSizes.mk (P := @PolicyNet.new ℚ (doubleArith id id fun x _ => x) 2 1 0 0 0 0 0
    (fun _ _ => 0) fun _ => 0) rfl rfl rfl rfl rfl rfl
  obtain ⟨file, Q', e, e', -⟩ := C55_truncated hP hP hs (k := 0) (by omega)
  obtain ⟨err, he⟩ := h _ _ hP hP hs file e (8 * 0) (by
    obtain ⟨H, hH, -⟩ := hP.holds
    rw [hH.store] at e
    cases e
    rw [List.length_append, length_encInt]
    omega)
  rw [e'] at he
  cases he

/-- Networks with the same numbers of policies and features have the same shape. -/
theorem same_new (a : Arith ℚ) (np nf : ℕ) (lr beta beta1 beta2 th lr' beta' beta1' beta2' th' : ℚ)
    (init init' : ℕ → ℕ → ℚ) (gen gen' : ℕ → ℚ) :
    SameSizes (@PolicyNet.new ℚ a np nf lr beta beta1 beta2 th init gen)
      (@PolicyNet.new ℚ a np nf lr' beta' beta1' beta2' th' init' gen') := by
  constructor <;> simp [PolicyNet.new, Network.new, Net.FC.new, Net.Buf.zeros]

/-- The hypotheses of the round trip are met by networks with different weights. -/
example : ∃ P Q : PolicyNet ℚ, FiniteNet P ∧ FiniteNet Q ∧ SameSizes P Q ∧
    P.net.layer3.weights ≠ Q.net.layer3.weights := by
  let a : Arith ℚ := doubleArith id id fun x _ => x
  refine ⟨@PolicyNet.new ℚ a 2 0 0 0 0 0 0 (fun _ _ => 0) fun _ => 0,
    @PolicyNet.new ℚ a 2 0 0 0 0 0 0 (fun _ _ => 1) fun _ => 0,
    finite_new a (by decide +kernel) _ _ _ _ _ _ _ _ (fun _ _ => finite64_zero) _,
    finite_new a (by decide +kernel) _ _ _ _ _ _ _ _ (fun _ _ => ?_) _,
    same_new a _ _ _ _ _ _ _ _ _ _ _ _ _ _ _ _, by decide +kernel⟩
  refine ⟨⟨1, 0, by norm_num [fmt64], by decide, by norm_num⟩, ?_⟩
  rw [abs_one]
  exact one_lt_zpow₀ (by norm_num) (by decide)

end Apollo.Props
