import Verif.Model.AnyNet
import Verif.Props.PolicyNetCache
import Verif.Spec.AnyNet

/-!
# C123: PolicyNet with features that are any floats
-/

namespace Apollo.Props

open Apollo Apollo.Spec PolicyNet

variable {α : Type} [Arith α]

theorem toU64_natCast {n : ℕ} (h : n < 2 ^ 64) : toU64 (n : ℚ) = .ok n := by
  have h1 : ((n : ℚ)) < 2 ^ 64 := by exact_mod_cast h
  have h0 : (0 : ℚ) ≤ n := Nat.cast_nonneg n
  rw [toU64_ok h0 h1, Nat.floor_natCast]

theorem toU64Any_truncates {v : AnyFloat} {n : ℕ} (h : Truncates v n) :
    toU64Any v = toU64 (n : ℚ) ∧ n < 2 ^ 64 := by
  rcases h with ⟨rfl, rfl⟩ | ⟨q, rfl, ⟨h1, h2, h3⟩ | ⟨rfl, h2, h3⟩⟩
  · exact ⟨(toU64_natCast (by norm_num)).symm, by norm_num⟩
  · refine ⟨?_, h1⟩
    rw [toU64_natCast h1]
    have h0 : 0 ≤ q := le_trans (Nat.cast_nonneg n) h2
    have hlt : q < 2 ^ 64 := by
      have : ((n : ℚ)) + 1 ≤ 2 ^ 64 := by exact_mod_cast h1
      linarith
    show toU64 q = _
    rw [toU64_ok h0 hlt, (Nat.floor_eq_iff h0).2 ⟨h2, h3⟩]
  · refine ⟨?_, by norm_num⟩
    rw [toU64_natCast (by norm_num)]
    show toU64 q = _
    unfold toU64
    have hf : ⌊q⌋ = -1 := by
      rw [Int.floor_eq_iff]
      push_cast
      constructor <;> linarith
    rw [if_pos ⟨h2, by linarith⟩, hf]
    rfl

theorem toU64Any_not {v : AnyFloat} (h : ∀ n, ¬ Truncates v n) : toU64Any v = .error (.ub .overflow) := by
  cases v with
  | fin q =>
    show toU64 q = _
    unfold toU64
    rw [if_neg]
    rintro ⟨h1, h2⟩
    rcases lt_or_ge q 0 with h0 | h0
    · exact h 0 (.inr ⟨q, rfl, .inr ⟨rfl, h1, h0⟩⟩)
    · refine h ⌊q⌋₊ (.inr ⟨q, rfl, .inl ⟨?_, Nat.floor_le h0, Nat.lt_floor_add_one q⟩⟩)
      rw [Nat.floor_lt h0]
      exact_mod_cast h2
  | negZero => exact absurd (.inl ⟨rfl, rfl⟩) (h 0)
  | posInf => rfl
  | negInf => rfl
  | nan => rfl

theorem keyAny_truncates {f : List AnyFloat} {ns : List ℕ} (h : List.Forall₂ Truncates f ns) :
    keyAny f = key (ns.map fun n : ℕ => (n : ℚ)) := by
  induction h with
  | nil => rfl
  | cons h _ ih =>
    simp only [keyAny, List.map_cons, key, (toU64Any_truncates h).1, ih]

theorem encodeAny_truncates {f : List AnyFloat} {ns : List ℕ} (h : List.Forall₂ Truncates f ns) :
    encodeAny f = encode (ns.map fun n : ℕ => (n : ℚ)) := by
  induction h with
  | nil => rfl
  | cons h _ ih =>
    simp only [encodeAny, List.map_cons, encode, (toU64Any_truncates h).1, ih]

theorem toU64Any_err {v : AnyFloat} : (∃ n, toU64Any v = .ok n) ∨ toU64Any v = .error (.ub .overflow) := by
  by_cases h : ∃ n, Truncates v n
  · obtain ⟨n, h⟩ := h
    obtain ⟨e, hn⟩ := toU64Any_truncates h
    exact .inl ⟨n, by rw [e, toU64_natCast hn]⟩
  · exact .inr (toU64Any_not fun n hn => h ⟨n, hn⟩)

theorem keyAny_not {f : List AnyFloat} (h : ∃ v ∈ f, ∀ n, ¬ Truncates v n) :
    keyAny f = .error (.ub .overflow) := by
  induction f with
  | nil => obtain ⟨v, hv, -⟩ := h; cases hv
  | cons a f ih =>
    obtain ⟨v, hv, hn⟩ := h
    unfold keyAny
    rcases List.mem_cons.1 hv with rfl | hv
    · rw [toU64Any_not hn]; rfl
    · rcases @toU64Any_err a with ⟨n, e⟩ | e
      · rw [e, Res.bind_ok, ih ⟨v, hv, hn⟩]; rfl
      · rw [e]; rfl

theorem encodeAny_not {f : List AnyFloat} (h : ∃ v ∈ f, ∀ n, ¬ Truncates v n) :
    encodeAny f = .error (.ub .overflow) := by
  induction f with
  | nil => obtain ⟨v, hv, -⟩ := h; cases hv
  | cons a f ih =>
    obtain ⟨v, hv, hn⟩ := h
    unfold encodeAny
    rcases List.mem_cons.1 hv with rfl | hv
    · rw [toU64Any_not hn]; rfl
    · rcases @toU64Any_err a with ⟨n, e⟩ | e
      · rw [e, Res.bind_ok, ih ⟨v, hv, hn⟩]; rfl
      · rw [e]; rfl

/-- C123 (answers): features are used without their fractions; in any arithmetic.  Those between -1 and 0 are 0, as
negative zero is. -/
theorem C123 (P : PolicyNet α) {f : List AnyFloat} {ns : List ℕ} (h : List.Forall₂ Truncates f ns) :
    P.getIndexAny f = P.getIndex (ns.map fun n : ℕ => (n : ℚ)) := by
  unfold getIndexAny getIndex probabilitiesAny probabilities evaluateAny evaluate
  rw [keyAny_truncates h, encodeAny_truncates h]
  rfl

/-- C123 (undefined behaviour): a feature that is NaN, infinite, -1 or less, or `2^64` or more, unless the network is
not asked. -/
theorem C123_undefined (P : PolicyNet α) {f : List AnyFloat} (h : ∃ v ∈ f, ∀ n, ¬ Truncates v n) :
    (P.suppressed = true → P.getIndexAny f = .ok (0, P)) ∧
    (P.suppressed = false → P.getIndexAny f = .error (.ub .overflow)) := by
  constructor <;> intro hs
  · unfold getIndexAny
    rw [if_pos hs]
  · unfold getIndexAny probabilitiesAny
    rw [if_neg (by rw [hs]; decide), keyAny_not h]
    rfl

/-- Which floats these are. -/
theorem C123_which (v : AnyFloat) : (∀ n, ¬ Truncates v n) ↔
    v = .nan ∨ v = .posInf ∨ v = .negInf ∨ ∃ q, v = .fin q ∧ (q ≤ -1 ∨ 2 ^ 64 ≤ q) := by
  constructor
  · intro h
    have e := toU64Any_not h
    cases v with
    | fin q =>
      refine .inr (.inr (.inr ⟨q, rfl, ?_⟩))
      by_contra hq
      push Not at hq
      change toU64 q = _ at e
      unfold toU64 at e
      rw [if_pos hq] at e
      cases e
    | negZero => cases e
    | posInf => simp
    | negInf => simp
    | nan => simp
  · rintro (rfl | rfl | rfl | ⟨q, rfl, hq⟩) n hn
    · rcases hn with ⟨h, -⟩ | ⟨q, h, -⟩ <;> cases h
    · rcases hn with ⟨h, -⟩ | ⟨q, h, -⟩ <;> cases h
    · rcases hn with ⟨h, -⟩ | ⟨q, h, -⟩ <;> cases h
    · rcases hn with ⟨h, -⟩ | ⟨q', h, h'⟩
      · cases h
      · cases h
        rcases h' with ⟨h1, h2, h3⟩ | ⟨-, h2, h3⟩
        · have h4 : ((n : ℚ)) + 1 ≤ 2 ^ 64 := by exact_mod_cast h1
          have h5 : (0 : ℚ) ≤ n := Nat.cast_nonneg n
          rcases hq with hq | hq <;> linarith
        · rcases hq with hq | hq <;> linarith

/-- C123 (training): in training, too, features are used without their fractions. -/
theorem C123_train (P : PolicyNet α) {ms : List (List AnyFloat × ℤ × ℚ)} {ds : Dataset}
    (h : List.Forall₂ (fun m m' => (∃ ns : List ℕ, List.Forall₂ Truncates m.1 ns ∧
      m'.1 = ns.map fun n : ℕ => (n : ℚ)) ∧ m.2 = m'.2) ms ds.toVectorOfTuples) :
    P.trainAny ms = P.train ds := by
  unfold PolicyNet.trainAny PolicyNet.train
  simp only
  generalize ds.toVectorOfTuples = ls at h
  have h1 : (ms.mapM fun m => encodeAny m.1) = ls.mapM fun m => encode m.1 := by
    induction h with
    | nil => rfl
    | cons h _ ih =>
      obtain ⟨⟨ns, h1, h2⟩, -⟩ := h
      rw [List.mapM_cons, List.mapM_cons, ih, encodeAny_truncates h1, h2]
  have h2 : ms.map (fun m => m.2) = ls.map fun m => m.2 := by
    clear h1
    induction h with
    | nil => rfl
    | cons h _ ih => rw [List.map_cons, List.map_cons, ih, h.2]
  have h3 : ∀ {β : Type} (g : ℤ × ℚ → β), ms.map (fun m => g m.2) =
      ls.map fun m => g m.2 := by
    intro β g
    have := congrArg (List.map g) h2
    rwa [List.map_map, List.map_map] at this
  simp only [h1, h3 (fun x => x.1), h3 (fun x => Arith.exp (Arith.neg (Arith.ofRat x.2 : α)))]

/-- C123 (training, undefined behaviour): here also if the network is not asked. -/
theorem C123_train_undefined (P : PolicyNet α) {ms : List (List AnyFloat × ℤ × ℚ)}
    (h : ∃ m ∈ ms, ∃ v ∈ m.1, ∀ n, ¬ Truncates v n) : P.trainAny ms = .error (.ub .overflow) := by
  unfold PolicyNet.trainAny
  have henc : ∀ f : List AnyFloat, (∃ b, encodeAny f = .ok b) ∨ encodeAny f = .error (.ub .overflow) := by
    intro f
    by_cases hf : ∃ v ∈ f, ∀ n, ¬ Truncates v n
    · exact .inr (encodeAny_not hf)
    · left
      push Not at hf
      induction f with
      | nil => exact ⟨[], rfl⟩
      | cons a f ih =>
        obtain ⟨b, hb⟩ := ih fun v hv => hf v (List.mem_cons_of_mem _ hv)
        obtain ⟨n, hn⟩ := hf a List.mem_cons_self
        obtain ⟨e, hlt⟩ := toU64Any_truncates hn
        unfold encodeAny
        rw [e, toU64_natCast hlt, hb]
        exact ⟨_, rfl⟩
  have h1 : (ms.mapM fun m => encodeAny m.1) = .error (.ub .overflow) := by
    induction ms with
    | nil => obtain ⟨m, hm, -⟩ := h; cases hm
    | cons a ms ih =>
      obtain ⟨m, hm, hv⟩ := h
      rw [List.mapM_cons]
      rcases List.mem_cons.1 hm with rfl | hm
      · rw [encodeAny_not hv]; rfl
      · rcases henc a.1 with ⟨b, hb⟩ | hb
        · rw [hb, ih ⟨m, hm, hv⟩]; rfl
        · rw [hb]; rfl
  rw [h1]
  rfl

/-! ## Examples -/

/-- Features with fractions, below zero and negative zero. -/
example : List.Forall₂ Truncates [.fin (7 / 2), .fin (-1 / 2), .negZero] [3, 0, 0] := by
  refine .cons (.inr ⟨_, rfl, .inl ⟨by norm_num, by norm_num, by norm_num⟩⟩)
    (.cons (.inr ⟨_, rfl, .inr ⟨rfl, by norm_num, by norm_num⟩⟩) (.cons (.inl ⟨rfl, rfl⟩) .nil))

/-- Hypotheses of `C123_undefined` and of `C123_train_undefined`. -/
example : ∃ m ∈ [([AnyFloat.fin 1, .nan], (0 : ℤ), (1 : ℚ))], ∃ v ∈ m.1, ∀ n, ¬ Truncates v n :=
  ⟨_, List.mem_singleton.2 rfl, .nan, by simp, (C123_which _).2 (.inl rfl)⟩

/-- Hypotheses of `C123_train`. -/
example : List.Forall₂ (fun m m' => (∃ ns : List ℕ, List.Forall₂ Truncates m.1 ns ∧
    m'.1 = ns.map fun n : ℕ => (n : ℚ)) ∧ m.2 = m'.2) [([AnyFloat.fin (3 / 2)], (1 : ℤ), (1 / 2 : ℚ))]
    (Dataset.toVectorOfTuples (Dataset.insert [] [1] 1 (1 / 2))) := by
  rw [show Dataset.toVectorOfTuples (Dataset.insert [] [1] 1 (1 / 2)) = [([1], 1, 1 / 2)] from rfl]
  exact .cons ⟨⟨[1], .cons (.inr ⟨_, rfl, .inl ⟨by norm_num, by norm_num, by norm_num⟩⟩) .nil, by simp⟩, rfl⟩ .nil

/-- A small network of doubles (with another function for `exp`). -/
def smallNet : PolicyNet ℚ :=
  @PolicyNet.new ℚ (doubleArith exp2 id fun a n => a ^ n) 2 0 (1 / 64) (1 / 2) (1 / 2) (1 / 2) 0
    (fun _ _ => 0) fun _ => 3 / 4

/-- It answers without features, and a NaN is undefined behaviour. -/
example : (match @PolicyNet.getIndexAny ℚ (doubleArith exp2 id fun a n => a ^ n) smallNet [] with
      | .ok r => decide (r.1 = 1)
      | .error _ => false) = true ∧
    (match @PolicyNet.getIndexAny ℚ (doubleArith exp2 id fun a n => a ^ n) smallNet [.nan] with
      | .ok _ => false
      | .error e => decide (e = .ub .overflow)) = true := by
  constructor <;> decide +kernel

end Apollo.Props
