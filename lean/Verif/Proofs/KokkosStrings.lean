import Verif.Spec.KokkosStrings

/-!
# Lemmas about the strings of the Kokkos connector
-/

namespace Apollo.Kokkos

open Spec

theorem terminated_cons {c : Char} {s : Str} {m : Mem} (h : Terminated m (c :: s)) :
    ∃ m', m = some c :: m' ∧ c ≠ '\x00' ∧ Terminated m' s := by
  obtain ⟨h0, t, rfl⟩ := h
  simp only [List.mem_cons, not_or] at h0
  exact ⟨s.map some ++ [some '\x00'] ++ t, by simp, fun e => h0.1 e.symm, h0.2, t, rfl⟩

theorem terminated_nil {m : Mem} (h : Terminated m []) : ∃ m', m = some '\x00' :: m' := by
  obtain ⟨_, t, rfl⟩ := h
  exact ⟨t, by simp⟩

theorem cString_terminated {s : Str} : ∀ {m : Mem}, Terminated m s → cString m = .ok s := by
  induction s with
  | nil =>
    intro m h
    obtain ⟨m', rfl⟩ := terminated_nil h
    simp [cString]
  | cons c s ih =>
    intro m h
    obtain ⟨m', rfl, hc, h'⟩ := terminated_cons h
    simp [cString, hc, ih h', Res.bind_ok]

theorem cString_stops {s : Str} (h : '\x00' ∉ s) (m : Mem) :
    cString (s.map some ++ m) = (cString m >>= fun t => .ok (s ++ t)) := by
  induction s with
  | nil => cases hm : cString m <;> simp [hm]
  | cons c s ih =>
    simp only [List.mem_cons, not_or] at h
    simp only [List.map_cons, List.cons_append, cString, if_neg (fun e => h.1 (Eq.symm e)), ih h.2]
    cases cString m <;> rfl

theorem copied_terminated {s : Str} : ∀ {m : Mem} {n : ℕ}, Terminated m s → s.length < n →
    copied n m = .ok (s.map some ++ List.replicate (n - s.length) (some '\x00')) := by
  induction s with
  | nil =>
    intro m n h hn
    obtain ⟨m', rfl⟩ := terminated_nil h
    obtain ⟨n, rfl⟩ := Nat.exists_eq_succ_of_ne_zero (Nat.pos_iff_ne_zero.1 hn)
    simp [copied]
  | cons c s ih =>
    intro m n h hn
    obtain ⟨m', rfl, hc, h'⟩ := terminated_cons h
    obtain ⟨n, rfl⟩ := Nat.exists_eq_succ_of_ne_zero (by omega : n ≠ 0)
    simp only [List.length_cons] at hn
    have hn' : s.length < n := by omega
    simp only [Nat.succ_eq_add_one, copied, hc, if_false, ih h' hn', Res.bind_ok, List.map_cons, List.cons_append,
      List.length_cons, Nat.add_sub_add_right]

theorem copied_long {s : Str} (m : Mem) : ∀ {n : ℕ}, '\x00' ∉ s → n ≤ s.length →
    copied n (s.map some ++ m) = .ok ((s.take n).map some) := by
  induction s with
  | nil =>
    intro n _ hn
    have : n = 0 := by simpa using hn
    subst this
    simp [copied]
  | cons c s ih =>
    intro n h hn
    simp only [List.mem_cons, not_or] at h
    cases n with
    | zero => simp [copied]
    | succ n =>
      simp only [List.length_cons] at hn
      simp only [List.map_cons, List.cons_append, copied, if_neg (fun e => h.1 (Eq.symm e)),
        ih h.2 (by omega : n ≤ s.length), Res.bind_ok, List.take_succ_cons]

theorem keptName_short {m : Mem} {s : Str} (h : Terminated m s) (hs : s.length < 64) :
    keptName m = .ok (s.map some ++ List.replicate (64 - s.length) (some '\x00') ++ [none]) := by
  unfold keptName strncpy
  rw [copied_terminated h hs, Res.bind_ok, if_neg (by simp [unwritten])]
  rfl

theorem keptName_long {m : Mem} {s : Str} (h : Terminated m s) (hs : 64 ≤ s.length) :
    keptName m = .ok ((s.take 64).map some ++ [none]) := by
  obtain ⟨h0, t, rfl⟩ := h
  unfold keptName strncpy
  rw [List.append_assoc, copied_long _ h0 hs, Res.bind_ok, if_neg (by simp [unwritten])]
  rfl

theorem terminated_pad {s : Str} (h : '\x00' ∉ s) {n : ℕ} (hn : 0 < n) (m : Mem) :
    Terminated (s.map some ++ List.replicate n (some '\x00') ++ m) s := by
  refine ⟨h, List.replicate (n - 1) (some '\x00') ++ m, ?_⟩
  obtain ⟨n, rfl⟩ := Nat.exists_eq_succ_of_ne_zero hn.ne'
  simp [List.replicate_succ]

theorem array64_length {m : Mem} {s : Str} (h : Array64 m s) : s.length ≤ 64 := by
  obtain ⟨hl, ⟨_, t, rfl⟩ | ⟨_, rfl⟩⟩ := h
  · simp at hl
    omega
  · simp at hl
    omega

/-- A copy of an array holds the same string. -/
theorem mvvOne_array {m : Mem} {s : Str} (h : Array64 m s) : ∃ m', mvvOne m = .ok m' ∧ Array64 m' s := by
  obtain ⟨hl, h | ⟨h0, rfl⟩⟩ := h
  · have hs : s.length < 64 := by
      obtain ⟨_, t, rfl⟩ := h
      simp at hl
      omega
    refine ⟨s.map some ++ List.replicate (64 - s.length) (some '\x00'), ?_, ?_, ?_⟩
    · unfold mvvOne strncpy
      rw [copied_terminated h hs, Res.bind_ok, if_neg (by simp [unwritten])]
      simp [unwritten]
    · simp
      omega
    · have := terminated_pad h.1 (n := 64 - s.length) (by omega) []
      rw [List.append_nil] at this
      exact .inl this
  · have hs : s.length = 64 := by simpa using hl
    refine ⟨s.map some, ?_, hl, .inr ⟨h0, rfl⟩⟩
    unfold mvvOne strncpy
    have := copied_long (s := s) [] (n := 64) h0 hs.ge
    rw [List.append_nil] at this
    rw [this, Res.bind_ok, if_neg (by simp [unwritten])]
    simp [unwritten, hs]

theorem mvvSet_eq (values : List Mem) (i : ℕ) (m : Mem) (h : values[i]? = some m) :
    mvvSet values i = mvvOne m := by
  unfold mvvSet mvvOne
  rw [h]

theorem keptFrom_arrays (values : List Mem) (strs : List Str) (hl : values.length = strs.length)
    (h : ∀ (i : ℕ) m s, values[i]? = some m → strs[i]? = some s → Array64 m s) : ∀ n x : ℕ, n + x = strs.length →
    ∃ kept, keptFrom values n x = .ok kept ∧ kept.length = n ∧
      ∀ (i : ℕ) m s, kept[i]? = some m → strs[x + i]? = some s → Array64 m s
  | 0, x, _ => ⟨[], rfl, rfl, by simp⟩
  | n + 1, x, hx => by
    obtain ⟨kept, hk, hkl, hka⟩ := keptFrom_arrays values strs hl h n (x + 1) (by omega)
    have hv : x < values.length := by omega
    have hs : x < strs.length := by omega
    obtain ⟨m', hm', ha⟩ := mvvOne_array
      (h x values[x] strs[x] (List.getElem?_eq_getElem hv) (List.getElem?_eq_getElem hs))
    refine ⟨m' :: kept, ?_, by simp [hkl], ?_⟩
    · simp only [keptFrom, mvvSet_eq values x _ (List.getElem?_eq_getElem hv), hm', hk, Res.bind_ok]
    · intro i m s hm hs'
      cases i with
      | zero =>
        simp only [List.getElem?_cons_zero, Option.some.injEq] at hm
        rw [Nat.add_zero, List.getElem?_eq_getElem hs, Option.some.injEq] at hs'
        rw [← hm, ← hs']
        exact ha
      | succ i =>
        rw [List.getElem?_cons_succ] at hm
        exact hka i m s hm (by rw [← hs']; congr 1; omega)

end Apollo.Kokkos
