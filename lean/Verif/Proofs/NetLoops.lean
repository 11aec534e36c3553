import Verif.Spec.Net
import Mathlib.Tactic.Ring
import Mathlib.Tactic.Linarith

/-!
# Helpers: loops and arrays
-/

namespace Apollo.Net

open Apollo Arith Spec.Net

variable {α : Type}

theorem forN_inv {σ : Type} {f : ℕ → σ → Res σ} {n : ℕ} {s : σ} (P : ℕ → σ → Prop) (h0 : P 0 s)
    (hs : ∀ i < n, ∀ s, P i s → ∃ s', f i s = .ok s' ∧ P (i + 1) s') :
    ∃ s', forN n f s = .ok s' ∧ P n s' := by
  induction n with
  | zero => exact ⟨s, rfl, h0⟩
  | succ n ih =>
    obtain ⟨t, ht, hp⟩ := ih fun i hi => hs i (by omega)
    obtain ⟨u, hu, hq⟩ := hs n (by omega) t hp
    exact ⟨u, by simp only [forN]; rw [ht, Res.bind_ok, hu], hq⟩

/-- The array holds `v` at `i`. -/
def Buf.At (b : Buf α) (i : ℕ) (v : α) : Prop := b[i]? = some (some v)

/-- The array holds `f 0, ..., f (n - 1)`. -/
def Buf.Has (b : Buf α) (n : ℕ) (f : ℕ → α) : Prop := ∀ i < n, b.At i (f i)

/-- The array holds the matrix `f` with `m` rows of `n` elements, row by row. -/
def Buf.Has2 (b : Buf α) (m n : ℕ) (f : ℕ → ℕ → α) : Prop :=
  ∀ i < m, ∀ j < n, b.At (i * n + j) (f i j)

theorem Buf.At.read {b : Buf α} {i : ℕ} {v : α} (h : b.At i v) : b.read i = .ok v := by
  unfold Buf.read
  unfold Buf.At at h
  rw [h]

theorem Buf.At.lt {b : Buf α} {i : ℕ} {v : α} (h : b.At i v) : i < b.length := by
  by_contra hc
  unfold Buf.At at h
  rw [List.getElem?_eq_none (by omega)] at h
  cases h

theorem Buf.At.inj {b : Buf α} {i : ℕ} {v w : α} (h : b.At i v) (h' : b.At i w) : v = w := by
  unfold Buf.At at h h'
  rw [h] at h'
  simpa using h'

theorem Buf.write_spec {b : Buf α} {i : ℕ} (v : α) (h : i < b.length) :
    ∃ b', b.write i v = .ok b' ∧ b'.length = b.length ∧ b'.At i v ∧ ∀ j, j ≠ i → b'[j]? = b[j]? := by
  refine ⟨b.set i (some v), if_pos h, List.length_set, ?_, fun j hj => ?_⟩
  · unfold Buf.At
    rw [List.getElem?_set_self h]
  · rw [List.getElem?_set_ne (Ne.symm hj)]

theorem Buf.At.of_eq {b b' : Buf α} {i : ℕ} {v : α} (h : b.At i v) (he : b'[i]? = b[i]?) :
    b'.At i v := he.trans h

theorem flat_lt {m n i j : ℕ} (hi : i < m) (hj : j < n) : i * n + j < m * n := by
  calc i * n + j < i * n + n := by omega
    _ = (i + 1) * n := by ring
    _ ≤ m * n := Nat.mul_le_mul_right n hi

theorem flat_inj {n i j i' j' : ℕ} (hj : j < n) (hj' : j' < n) (h : i * n + j = i' * n + j') :
    i = i' ∧ j = j' := by
  have hn : 0 < n := by omega
  have h1 : (i * n + j) / n = i := by
    rw [Nat.add_comm, Nat.add_mul_div_right _ _ hn, Nat.div_eq_of_lt hj, Nat.zero_add]
  have h2 : (i' * n + j') / n = i' := by
    rw [Nat.add_comm, Nat.add_mul_div_right _ _ hn, Nat.div_eq_of_lt hj', Nat.zero_add]
  have : i = i' := by rw [← h1, h, h2]
  subst this
  exact ⟨rfl, by omega⟩

theorem Buf.Has2.flat {b : Buf α} {m n : ℕ} {f : ℕ → ℕ → α} (h : b.Has2 m n f) :
    ∀ p < m * n, b.At p (f (p / n) (p % n)) := by
  intro p hp
  have hn : 0 < n := by
    by_contra hc
    have : n = 0 := by omega
    subst this
    simp at hp
  have := h (p / n) (Nat.div_lt_of_lt_mul (by rwa [Nat.mul_comm])) (p % n) (Nat.mod_lt _ hn)
  rwa [Nat.mul_comm, Nat.div_add_mod] at this

theorem Buf.Has2.of_flat {b : Buf α} {m n : ℕ} {f : ℕ → ℕ → α}
    (h : ∀ p < m * n, b.At p (f (p / n) (p % n))) : b.Has2 m n f := by
  intro i hi j hj
  have hn : 0 < n := by omega
  have := h (i * n + j) (flat_lt hi hj)
  rwa [Nat.add_comm (i * n) j, Nat.add_mul_div_right _ _ hn, Nat.div_eq_of_lt hj, Nat.zero_add,
    Nat.add_mul_mod_self_right, Nat.mod_eq_of_lt hj, Nat.add_comm] at this

/-- An elementwise loop. -/
theorem fill_spec {n : ℕ} {body : ℕ → Buf α → Res (Buf α)} {b : Buf α} {v : ℕ → α}
    (hn : n ≤ b.length)
    (hb : ∀ i < n, ∀ o : Buf α, i < o.length → o[i]? = b[i]? → body i o = o.write i (v i)) :
    ∃ b', forN n body b = .ok b' ∧ b'.length = b.length ∧ b'.Has n v ∧
      ∀ j, n ≤ j → b'[j]? = b[j]? := by
  obtain ⟨b', h, hp⟩ := forN_inv (f := body) (n := n) (s := b)
    (fun i (o : Buf α) => o.length = b.length ∧ (∀ j < i, o.At j (v j)) ∧
      ∀ j, i ≤ j → o[j]? = b[j]?)
    ⟨rfl, by intro j hj; omega, fun _ _ => rfl⟩ (by
      rintro i hi o ⟨hl, h1, h2⟩
      obtain ⟨o', hw, hl', ha, ho⟩ := o.write_spec (v i) (i := i) (by omega)
      refine ⟨o', by rw [hb i hi o (by omega) (h2 i le_rfl), hw], by omega, ?_, ?_⟩
      · intro j hj
        by_cases he : j = i
        · subst he; exact ha
        · exact (h1 j (by omega)).of_eq (ho j he)
      · intro j hj
        rw [ho j (by omega), h2 j (by omega)])
  exact ⟨b', h, hp.1, hp.2.1, hp.2.2⟩

/-- A loop over the elements of a matrix in which each step sets its own element only. -/
theorem fill2_spec {m n : ℕ} {body : ℕ → ℕ → Buf α → Res (Buf α)} {b : Buf α} {v : ℕ → ℕ → α}
    (hb : ∀ i < m, ∀ j < n, ∀ o : Buf α, o.length = b.length →
      o[i * n + j]? = b[i * n + j]? →
      ∃ o', body i j o = .ok o' ∧ o'.length = o.length ∧ o'.At (i * n + j) (v i j) ∧
        ∀ p, p ≠ i * n + j → o'[p]? = o[p]?) :
    ∃ b', forN m (fun i o => forN n (fun j o => body i j o) o) b = .ok b' ∧
      b'.length = b.length ∧ b'.Has2 m n v ∧ ∀ p, m * n ≤ p → b'[p]? = b[p]? := by
  obtain ⟨b', h, hp⟩ := forN_inv (f := fun i o => forN n (fun j o => body i j o) o) (n := m) (s := b)
    (fun i (o : Buf α) => o.length = b.length ∧ o.Has2 i n v ∧
      ∀ p, i * n ≤ p → o[p]? = b[p]?)
    ⟨rfl, by intro j hj; omega, fun _ _ => rfl⟩ (by
      rintro i hi o ⟨hl, h1, h2⟩
      obtain ⟨o', ho', hl', q1, q2, q3⟩ := forN_inv (f := fun j o => body i j o) (n := n) (s := o)
        (fun j (o : Buf α) => o.length = b.length ∧ o.Has2 i n v ∧
          (∀ k < j, o.At (i * n + k) (v i k)) ∧ ∀ p, i * n + j ≤ p → o[p]? = b[p]?)
        ⟨hl, h1, by intro k hk; omega, h2⟩ (by
          rintro j hj u ⟨hl, g1, g2, g3⟩
          obtain ⟨u', hu, hl', ha, hk⟩ := hb i hi j hj u hl (g3 _ le_rfl)
          refine ⟨u', hu, by omega, ?_, ?_, ?_⟩
          · intro i' hi' j' hj'
            refine (g1 i' hi' j' hj').of_eq (hk _ fun he => ?_)
            have := (flat_inj hj' hj he).1
            omega
          · intro k hk'
            by_cases he : k = j
            · subst he; exact ha
            · exact (g2 k (by omega)).of_eq (hk _ (by omega))
          · intro p hp
            rw [hk p (by omega), g3 p (by omega)])
      refine ⟨o', ho', hl', ?_, ?_⟩
      · intro i' hi' j' hj'
        by_cases he : i' = i
        · subst he; exact q2 j' hj'
        · exact q1 i' (by omega) j' hj'
      · intro p hp
        exact q3 p (by rw [Nat.add_mul, one_mul] at hp; exact hp))
  exact ⟨b', h, hp.1, hp.2.1, hp.2.2⟩

variable [Arith α]

/-- An array set to zero. -/
theorem zero_spec {n : ℕ} {b : Buf α} (hn : n ≤ b.length) :
    ∃ b', forN n (fun i (o : Buf α) => o.write i (ofRat 0)) b = .ok b' ∧ b'.length = b.length ∧
      b'.Has n (fun _ => ofRat 0) ∧ ∀ j, n ≤ j → b'[j]? = b[j]? :=
  fill_spec hn fun _ _ _ _ _ => rfl

theorem zeros_at {n i : ℕ} (h : i < n) : (Buf.zeros n : Buf α).At i (ofRat 0) := by
  unfold Buf.At Buf.zeros
  rw [List.getElem?_replicate, if_pos h]

end Apollo.Net
