import Verif.Spec.KokkosFence
import Verif.Proofs.KokkosOwn

/-!
# The number of regions without a stored model
-/

namespace Apollo.Kokkos

open Spec

variable {M : Type} {e : KEnv M}

theorem newSinceFlush_nil : ¬ NewSinceFlush [] [] := by
  rintro ⟨i, o, k, h, -⟩
  simp at h

theorem newSinceFlush_snoc {ops : List KOp} {xs : List Ret} (hl : xs.length = ops.length) {o : KOp}
    {x : Ret} : NewSinceFlush (ops ++ [o]) (xs ++ [x]) ↔
      (NewSinceFlush ops xs ∧ x ≠ .ended true) ∨
      ∃ k, AsksFor o k ∧ ∀ o' ∈ ops, ¬ AsksFor o' k := by
  constructor
  · rintro ⟨i, o₁, k, h1, h2, h3, h4⟩
    have hi : i < ops.length + 1 := by
      simpa using (List.getElem?_eq_some_iff.1 h1).1
    by_cases heq : i = ops.length
    · subst heq
      simp only [List.getElem?_append_right le_rfl, Nat.sub_self, List.getElem?_cons_zero,
        Option.some.injEq] at h1
      subst h1
      exact .inr ⟨k, h2, by simpa using h3⟩
    · have hlt : i < ops.length := by omega
      refine .inl ⟨⟨i, o₁, k, ?_, h2, ?_, fun j hj hx => ?_⟩, fun hx => ?_⟩
      · rwa [List.getElem?_append_left hlt] at h1
      · rwa [List.take_append_of_le_length hlt.le] at h3
      · have hjl := (List.getElem?_eq_some_iff.1 hx).1
        exact h4 j hj (by rw [List.getElem?_append_left hjl]; exact hx)
      · refine h4 xs.length (by omega) ?_
        simp [hx]
  · rintro (⟨⟨i, o₁, k, h1, h2, h3, h4⟩, hx⟩ | ⟨k, h1, h2⟩)
    · have hlt := (List.getElem?_eq_some_iff.1 h1).1
      refine ⟨i, o₁, k, by rw [List.getElem?_append_left hlt]; exact h1, h2,
        by rwa [List.take_append_of_le_length hlt.le], fun j hj hy => ?_⟩
      have hjl : j < xs.length + 1 := by simpa using (List.getElem?_eq_some_iff.1 hy).1
      by_cases heq : j = xs.length
      · subst heq
        simp only [List.getElem?_append_right le_rfl, Nat.sub_self, List.getElem?_cons_zero,
          Option.some.injEq] at hy
        exact hx hy
      · rw [List.getElem?_append_left (by omega)] at hy
        exact h4 j hj hy
    · refine ⟨ops.length, o, k, by simp, h1, by simpa using h2, fun j hj hy => ?_⟩
      have hjl : j < xs.length + 1 := by simpa using (List.getElem?_eq_some_iff.1 hy).1
      omega

/-- The state after the calls `ops`, which returned `xs`. -/
structure FenceInv (ops : List KOp) (xs : List Ret) (s : State M) : Prop where
  len : xs.length = ops.length
  known : ∀ k, (∃ r, (k, r) ∈ s.regions) ↔ ∃ o ∈ ops, AsksFor o k
  count : 0 < s.unconverged ↔ NewSinceFlush ops xs

theorem FenceInv.init (cfg : Cfg) (files : Str → Option Str) :
    FenceInv [] [] (initState cfg files : State M) where
  len := rfl
  known := fun k => by
    constructor
    · rintro ⟨r, h⟩; cases h
    · rintro ⟨o, h, -⟩; cases h
  count := ⟨fun h => absurd h (Nat.lt_irrefl 0), fun h => absurd h newSinceFlush_nil⟩

theorem FenceInv.other {ops : List KOp} {xs : List Ret} {s s' : State M} (hs : FenceInv ops xs s)
    {o : KOp} {x : Ret} (ho : ∀ k, ¬ AsksFor o k) (hr : s'.regions = s.regions)
    (hu : 0 < s'.unconverged ↔ (0 < s.unconverged ∧ x ≠ .ended true)) :
    FenceInv (ops ++ [o]) (xs ++ [x]) s' where
  len := by simp [hs.len]
  known := fun k => by
    rw [hr, hs.known]
    constructor
    · rintro ⟨o', h, h'⟩; exact ⟨o', by simp [h], h'⟩
    · rintro ⟨o', h, h'⟩
      rcases List.mem_append.1 h with h | h
      · exact ⟨o', h, h'⟩
      · rw [List.mem_singleton.1 h] at h'
        exact absurd h' (ho k)
  count := by
    rw [hu, hs.count, newSinceFlush_snoc hs.len]
    exact ⟨.inl, fun h => h.resolve_right fun ⟨k, h, _⟩ => ho k h⟩

theorem FenceInv.step (he : DotAborts e.env) {ops : List KOp} {xs : List Ret} {s s' : State M}
    (hi : KInv s) (hs : FenceInv ops xs s) {o : KOp} {x : Ret} (h : kstep e s o = .ok (x, s')) :
    FenceInv (ops ++ [o]) (xs ++ [x]) s' := by
  cases o with
  | declareOutput id name c =>
    obtain ⟨s₁, h1, h⟩ := (Res.bind_eq_ok _ _ _).1 h
    cases h
    obtain ⟨-, n, vs, -, rfl⟩ := declareOutput_ok h1
    exact hs.other (by simp [AsksFor]) rfl (by simp)
  | declareInput id name =>
    obtain ⟨s₁, h1, h⟩ := (Res.bind_eq_ok _ _ _).1 h
    cases h
    obtain ⟨-, rfl⟩ := declareInput_ok h1
    exact hs.other (by simp [AsksFor]) rfl (by simp)
  | endContext cid =>
    have h' : endContext e s cid = .ok (x, s') := h
    rcases endContext_ok h' with ⟨-, rfl, rfl⟩ | ⟨r, c, w, -, -, -, -, ⟨-, w', -, rfl, rfl⟩ | ⟨-, rfl, rfl⟩⟩
    · exact hs.other (by simp [AsksFor]) rfl (by simp)
    · exact hs.other (by simp [AsksFor]) rfl (by simp)
    · exact hs.other (by simp [AsksFor]) rfl (by simp)
  | request cid ctx tuning =>
    have h' : request e s cid ctx tuning = .ok (x, s') := h
    rcases request_ok h' with
      ⟨ht, rfl, rfl⟩ | ⟨ht, n, r, s₁, w₁, w₂, p, w₃, vs, h0, -, h2, -, -, -, -, rfl, rfl⟩
    · refine hs.other ?_ rfl (by simp)
      rintro k ⟨_, _, _, h, hne, -⟩
      cases h
      exact hne ht
    · have hself : AsksFor (.request cid ctx tuning) (ctx.map Prod.fst ++ tuning) :=
        ⟨cid, ctx, tuning, rfl, ht, rfl⟩
      have huniq : ∀ k, AsksFor (.request cid ctx tuning) k → k = ctx.map Prod.fst ++ tuning := by
        rintro k ⟨_, _, _, h, -, hk⟩
        cases h
        exact hk
      have hkn : ∀ k, (∃ o ∈ ops ++ [KOp.request cid ctx tuning], AsksFor o k) ↔
          (∃ r, (k, r) ∈ s.regions) ∨ k = ctx.map Prod.fst ++ tuning := by
        intro k
        rw [hs.known]
        constructor
        · rintro ⟨o, ho, ha⟩
          rcases List.mem_append.1 ho with ho | ho
          · exact .inl ⟨o, ho, ha⟩
          · rw [List.mem_singleton.1 ho] at ha
            exact .inr (huniq k ha)
        · rintro (⟨o, ho, ha⟩ | rfl)
          · exact ⟨o, by simp [ho], ha⟩
          · exact ⟨_, by simp, hself⟩
      rcases problemRegion_ok h2 with ⟨hf, rfl⟩ | ⟨hf, name, info, u, w, hn, hinfo, h1, heq⟩
      · have hmem := (find_some_iff hi.sorted).1 hf
        refine ⟨by simp [hs.len], fun k => ?_, ?_⟩
        · rw [hkn]
          constructor
          · exact .inl
          · rintro (h | rfl)
            · exact h
            · exact ⟨r, hmem⟩
        · change 0 < s₁.unconverged ↔ _
          rw [hs.count, newSinceFlush_snoc hs.len]
          constructor
          · exact fun h => .inl ⟨h, by simp⟩
          · rintro (⟨h, -⟩ | ⟨k, hk, hk'⟩)
            · exact h
            · rw [huniq k hk] at hk'
              obtain ⟨o, ho, ha⟩ := (hs.known _).1 ⟨r, hmem⟩
              exact absurd ha (hk' o ho)
      · have hnone : ∀ r, (ctx.map Prod.fst ++ tuning, r) ∉ s.regions := by
          intro r hr
          rw [(find_some_iff hi.sorted).2 hr] at hf
          cases hf
        have hfile : (s.world.files (modelPath (name.take 63))).isSome = false := by
          by_contra hne
          rw [Bool.not_eq_false] at hne
          rw [if_pos hne] at hinfo
          have hp : ∃ t, modelPath (name.take 63) = '.' :: t := ⟨_, rfl⟩
          obtain ⟨t, hp⟩ := hp
          rw [hinfo, hp, create_dot he] at h1
          cases h1
        have hu : s₁.unconverged = s.unconverged + 1 := by
          unfold problemRegion at h2
          rw [hf] at h2
          simp only [newRegion, hn, Res.bind_ok, hfile, Bool.false_eq_true, if_false] at h2
          obtain ⟨⟨r', w'⟩, -, h2⟩ := (Res.bind_eq_ok _ _ _).1 h2
          cases h2
          rfl
        have hreg : s₁.regions = s.regions.insert (ctx.map Prod.fst ++ tuning) r := by rw [heq]
        refine ⟨by simp [hs.len], fun k => ?_, ?_⟩
        · rw [hkn]
          change (∃ r', (k, r') ∈ s₁.regions) ↔ _
          rw [hreg]
          constructor
          · rintro ⟨r', h⟩
            rcases mem_insert.1 h with h | h
            · cases h; exact .inr rfl
            · exact .inl ⟨r', h⟩
          · rintro (⟨r', h⟩ | rfl)
            · exact ⟨r', mem_insert.2 (.inr h)⟩
            · exact ⟨r, mem_insert.2 (.inl rfl)⟩
        · change 0 < s₁.unconverged ↔ _
          rw [hu, newSinceFlush_snoc hs.len]
          refine ⟨fun _ => .inr ⟨_, hself, fun o ho ha => ?_⟩, fun _ => Nat.succ_pos _⟩
          obtain ⟨r', hr'⟩ := (hs.known _).2 ⟨o, ho, ha⟩
          exact hnone r' hr'

theorem FenceInv.exec (he : DotAborts e.env) {pre ops : List KOp} {ps xs : List Ret} {s s' : State M}
    (hi : KInv s) (hs : FenceInv pre ps s) (h : kexec e ops s = .ok (xs, s')) :
    FenceInv (pre ++ ops) (ps ++ xs) s' := by
  induction ops generalizing pre ps s xs with
  | nil => simp only [kexec] at h; cases h; simpa using hs
  | cons o ops ih =>
    obtain ⟨x, s₁, ys, h1, h2, rfl⟩ := kexec_cons h
    simpa using ih (hi.step h1).1 (hs.step he hi h1) h2

end Apollo.Kokkos
