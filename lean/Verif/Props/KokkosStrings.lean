import Verif.Proofs.KokkosStrings
import Mathlib.Data.Fintype.Pigeonhole
import Mathlib.Data.Fintype.BigOperators

/-!
# C116: strings pass through the Kokkos connector unchanged
-/

namespace Apollo.Props

open Apollo Apollo.Kokkos Apollo.Spec

/-- The arrays declared as candidates hold the strings given. -/
def Declared (values : List Mem) (strs : List Str) : Prop :=
  values.length = strs.length ∧ ∀ (i : ℕ) m s, values[i]? = some m → strs[i]? = some s → Array64 m s

/-- The full statement: whatever strings are declared as candidates, the one handed out for an index reads as
the one declared; whatever the names of variables are, those kept read as the ones declared; and different
strings are different features. -/
def C116 (hash : Str → ℕ) : Prop :=
  (∀ values strs, Declared values strs → ∃ kept, keptValues values = .ok kept ∧
    ∀ (i : ℕ) s, strs[i]? = some s → ∃ m, handOut kept i = .ok m ∧ cString m = .ok s) ∧
  (∀ name s, Terminated name s → ∃ k, keptName name = .ok k ∧ cString k = .ok s) ∧
  ∀ a b s t, Array64 a s → Array64 b t → s ≠ t → stringFeature hash a ≠ stringFeature hash b

/-- The array handed out for an index holds the string that was declared, also one of 64 characters. -/
theorem C116_values {values : List Mem} {strs : List Str} (h : Declared values strs) :
    ∃ kept, keptValues values = .ok kept ∧
      ∀ (i : ℕ) s, strs[i]? = some s → ∃ m, handOut kept i = .ok m ∧ Array64 m s := by
  obtain ⟨kept, hk, hl, ha⟩ := keptFrom_arrays values strs h.1 h.2 values.length 0 (by rw [h.1]; rfl)
  refine ⟨kept, hk, fun i s hs => ?_⟩
  have hi : i < kept.length := by
    rw [hl, h.1]
    exact (List.getElem?_eq_some_iff.1 hs).1
  obtain ⟨m, hm, hm'⟩ := mvvOne_array (ha i kept[i] s (List.getElem?_eq_getElem hi) (by rw [Nat.zero_add]; exact hs))
  exact ⟨m, by simp only [handOut, List.getElem?_eq_getElem hi, hm], hm'⟩

/-- An array holding a string of less than 64 characters reads as that string. -/
theorem array_reads {m : Mem} {s : Str} (h : Array64 m s) (hs : s.length < 64) : cString m = .ok s := by
  obtain ⟨hl, h | ⟨_, rfl⟩⟩ := h
  · exact cString_terminated h
  · simp at hl
    omega

/-- Candidates of less than 64 characters are read as declared. -/
theorem C116_values_partial {values : List Mem} {strs : List Str} (h : Declared values strs) :
    ∃ kept, keptValues values = .ok kept ∧
      ∀ (i : ℕ) s, strs[i]? = some s → s.length < 64 → ∃ m, handOut kept i = .ok m ∧ cString m = .ok s := by
  obtain ⟨kept, hk, hv⟩ := C116_values h
  refine ⟨kept, hk, fun i s hs hl => ?_⟩
  obtain ⟨m, hm, ha⟩ := hv i s hs
  exact ⟨m, hm, array_reads ha hl⟩

/-- Reading an array that holds a string of 64 characters goes beyond the array; this happens when the
string is the value of a feature. -/
theorem C116_beyond (hash : Str → ℕ) {m : Mem} {s : Str} (h : Array64 m s) (hs : s.length = 64) :
    cString m = .error (.ub .outOfBounds) ∧ stringFeature hash m = .error (.ub .outOfBounds) := by
  have hc : cString m = .error (.ub .outOfBounds) := by
    obtain ⟨hl, ⟨_, t, rfl⟩ | ⟨h0, rfl⟩⟩ := h
    · simp at hl
      omega
    · have := cString_stops h0 []
      rw [List.append_nil] at this
      rw [this]
      rfl
  refine ⟨hc, ?_⟩
  unfold stringFeature
  rw [hc]
  rfl

/-- The feature of a shorter string is the one of Verif.Model.Kokkos. -/
theorem C116_feature_partial (hash : Str → ℕ) {m : Mem} {s : Str} (h : Array64 m s) (hs : s.length < 64) :
    stringFeature hash m = .ok (toFloat hash (.str s)) := by
  unfold stringFeature
  rw [array_reads h hs, Res.bind_ok]
  rfl

/-- What reading the name kept of a variable gives: the name, if it has less than 64 characters; otherwise a
byte is read that was never written. -/
theorem C116_name_partial {name : Mem} {s : Str} (h : Terminated name s) :
    ∃ k, keptName name = .ok k ∧
      cString k = if 64 ≤ s.length then .error (.ub .uninit) else .ok s := by
  by_cases hs : 64 ≤ s.length
  · refine ⟨_, keptName_long h hs, ?_⟩
    rw [if_pos hs, cString_stops (fun hm => h.1 (List.mem_of_mem_take hm))]
    rfl
  · refine ⟨_, keptName_short h (by omega), ?_⟩
    rw [if_neg hs]
    exact cString_terminated (terminated_pad h.1 (by omega) _)

/-- The region of a tuning problem is named as in Verif.Model.Kokkos: the names kept of the variables, read
from memory, give what `regionName` gives for the names declared, or fail as it does. -/
theorem C116_region_name {M : Type} (s : State M) : ∀ (ids : List ℕ) (names : List Mem),
    names.length = ids.length →
    (∀ (i : ℕ) m v, names[i]? = some m → ids[i]? = some v → ∃ d, s.decls v = some d ∧ Terminated m d.name) →
    ∃ kept, keptNames names = .ok kept ∧ regionNameOf kept = regionName s ids
  | [], [], _, _ => ⟨[], rfl, rfl⟩
  | [], _ :: _, h, _ => by simp at h
  | _ :: _, [], h, _ => by simp at h
  | v :: ids, m :: names, hl, h => by
    obtain ⟨kept, hk, hr⟩ := C116_region_name s ids names (by simpa using hl) fun i m' v' hm hv =>
      h (i + 1) m' v' (by simpa using hm) (by simpa using hv)
    obtain ⟨d, hd, ht⟩ := h 0 m v rfl rfl
    obtain ⟨k, hkm, hck⟩ := C116_name_partial ht
    refine ⟨k :: kept, by simp only [keptNames, hkm, hk, Res.bind_ok], ?_⟩
    have hnil : kept = [] ↔ ids = [] := by
      have : kept.length = ids.length := by
        have hkl : ∀ (l : List Mem) k, keptNames l = .ok k → k.length = l.length := by
          intro l
          induction l with
          | nil => rintro k h; cases h; rfl
          | cons a l ih =>
            intro k h
            unfold keptNames at h
            obtain ⟨x, _, h⟩ := (Res.bind_eq_ok _ _ _).1 h
            obtain ⟨y, hy, h⟩ := (Res.bind_eq_ok _ _ _).1 h
            cases h
            simp [ih y hy]
        rw [hkl _ _ hk]
        simpa using hl
      rw [← List.length_eq_zero_iff, ← List.length_eq_zero_iff, this]
    simp only [regionNameOf, regionName, State.decl, hd, Res.bind_ok, hck, hr, hnil]
    split <;> rfl

/-- An array of 64 bytes for a string of less than 64 characters. -/
def inArray (s : Str) : Mem := s.map some ++ List.replicate (64 - s.length) (some '\x00')

theorem inArray_array {s : Str} (h0 : '\x00' ∉ s) (hs : s.length < 64) : Array64 (inArray s) s := by
  refine ⟨?_, .inl ?_⟩
  · simp [inArray]
    omega
  · have := terminated_pad h0 (n := 64 - s.length) (by omega) []
    rwa [List.append_nil] at this

/-- The string of 63 characters from a choice for each. -/
def spelled (f : Fin 63 → Fin 4) : Str := List.ofFn fun i => Char.ofNat (97 + f i)

theorem spelled_injective : Function.Injective spelled := by
  intro f g h
  have := List.ofFn_injective h
  funext i
  have hi := congrFun this i
  have key : ∀ a b : Fin 4, Char.ofNat (97 + a) = Char.ofNat (97 + b) → a = b := by decide +kernel
  exact key _ _ hi

theorem spelled_zero (f : Fin 63 → Fin 4) : '\x00' ∉ spelled f := by
  intro h
  obtain ⟨i, hi⟩ := (List.mem_ofFn' _ _).1 h
  have key : ∀ a : Fin 4, Char.ofNat (97 + a) ≠ '\x00' := by decide +kernel
  exact key _ hi

/-- Whatever the hash function, with values of type `size_t`, there are different strings that are the same
feature: kernels called with them cannot be told apart. -/
theorem C116_hash_fails (hash : Str → ℕ) (hh : ∀ s, hash s < 2 ^ 64) :
    ∃ a b s t, Array64 a s ∧ Array64 b t ∧ s ≠ t ∧
      ∃ x, stringFeature hash a = .ok x ∧ stringFeature hash b = .ok x := by
  obtain ⟨f, g, hfg, he⟩ := Fintype.exists_ne_map_eq_of_card_lt
    (fun f : Fin 63 → Fin 4 => (⟨hash (spelled f), hh _⟩ : Fin (2 ^ 64)))
    (by simp only [Fintype.card_fin, Fintype.card_fun]; norm_num)
  have he : hash (spelled f) = hash (spelled g) := congrArg Fin.val he
  have hlen : ∀ f, (spelled f).length < 64 := fun f => by simp [spelled]
  have hf := inArray_array (spelled_zero f) (hlen f)
  have hg := inArray_array (spelled_zero g) (hlen g)
  refine ⟨_, _, _, _, hf, hg, fun e => hfg (spelled_injective e), _, C116_feature_partial hash hf (hlen f), ?_⟩
  rw [C116_feature_partial hash hg (hlen g)]
  simp only [toFloat, he]

/-- The full statement is false: a name of 64 characters is kept without an end. -/
theorem C116_fails (hash : Str → ℕ) : ¬ C116 hash := by
  intro h
  obtain ⟨k, hk, hc⟩ := h.2.1 ((List.replicate 64 'x').map some ++ [some '\x00']) (List.replicate 64 'x')
    ⟨by simp, List.prefix_refl _⟩
  obtain ⟨k', hk', hc'⟩ := C116_name_partial (name := (List.replicate 64 'x').map some ++ [some '\x00'])
    (s := List.replicate 64 'x') ⟨by simp, List.prefix_refl _⟩
  rw [hk] at hk'
  cases hk'
  rw [hc] at hc'
  simp at hc'

/-- A candidate of 64 characters is handed out without an end as well. -/
theorem C116_fails_value : ∃ values strs, Declared values strs ∧ ∃ kept, keptValues values = .ok kept ∧
    ∃ m, handOut kept 0 = .ok m ∧ cString m = .error (.ub .outOfBounds) := by
  have hd : Declared [(List.replicate 64 'x').map some] [List.replicate 64 'x'] := by
    refine ⟨rfl, fun i m s hm hs => ?_⟩
    cases i with
    | zero =>
      cases hm
      cases hs
      exact ⟨by simp, .inr ⟨by simp, rfl⟩⟩
    | succ i => simp at hm
  obtain ⟨kept, hk, hv⟩ := C116_values hd
  obtain ⟨m, hm, ha⟩ := hv 0 _ rfl
  exact ⟨_, _, hd, kept, hk, m, hm, (C116_beyond (fun _ => 0) ha (by simp)).1⟩

/-! ## Cases that meet the hypotheses -/

/-- Two candidates, in arrays that hold more than the strings. -/
example : Declared ["static\x00?".toList.map some ++ unwritten 56, inArray "dynamic".toList]
    ["static".toList, "dynamic".toList] := by
  refine ⟨rfl, fun i m s hm hs => ?_⟩
  match i with
  | 0 =>
    cases hm
    cases hs
    exact ⟨by decide +kernel, .inl ⟨by decide +kernel, '?' |> some |> List.singleton |> (· ++ unwritten 56), by decide +kernel⟩⟩
  | 1 =>
    cases hm
    cases hs
    exact inArray_array (by decide +kernel) (by decide +kernel)
  | i + 2 => simp at hm

/-- The connector hands out both and reads them. -/
example : (match keptValues ["static\x00?".toList.map some ++ unwritten 56, inArray "dynamic".toList] with
    | .ok kept => match handOut kept 0, handOut kept 1, handOut kept 2 with
      | .ok a, .ok b, .error (.ub .outOfBounds) => match cString a, cString b with
        | .ok a, .ok b => decide (a = "static".toList ∧ b = "dynamic".toList)
        | _, _ => false
      | _, _, _ => false
    | _ => false) = true := by decide +kernel

/-- Names of 63 and of 64 characters. -/
example : (match keptName ((List.replicate 63 'x').map some ++ [some '\x00']),
      keptName ((List.replicate 64 'x').map some ++ [some '\x00']) with
    | .ok a, .ok b => match cString a, cString b with
      | .ok a, .error (.ub .uninit) => decide (a = List.replicate 63 'x')
      | _, _ => false
    | _, _ => false) = true := by decide +kernel

/-- The name of a region with two variables. -/
example : (match keptNames ["kernel\x00".toList.map some, "team size\x00 ".toList.map some] with
    | .ok kept => match regionNameOf kept with
      | .ok n => decide (n = "kernel_team size.yaml".toList)
      | _ => false
    | _ => false) = true := by decide +kernel

end Apollo.Props
