import Verif.Spec.Kokkos
import Verif.Proofs.KokkosInv

/-!
# The contexts of the connector follow the specification
-/

namespace Apollo.Spec

open Kokkos

theorem live_nil (c : ℕ) : ¬ Live [] c := by
  rintro ⟨pre, q, suf, h, -⟩
  simp at h

theorem live_snoc {ops : List KOp} {o : KOp} {c : ℕ} :
    Live (ops ++ [o]) c ↔ Asks o c ∨ (Live ops c ∧ o ≠ .endContext c) := by
  constructor
  · rintro ⟨pre, q, suf, h, hq, hs⟩
    rcases List.eq_nil_or_concat suf with rfl | ⟨suf', o', rfl⟩
    · have := List.append_inj_right' h rfl
      cases this
      exact .inl hq
    · have h' : ops ++ [o] = (pre ++ q :: suf') ++ [o'] := by simpa using h
      obtain ⟨rfl, he⟩ := List.append_inj' h' rfl
      cases he
      exact .inr ⟨⟨pre, q, suf', rfl, hq, fun x hx => hs x (by simp [hx])⟩, hs o (by simp)⟩
  · rintro (h | ⟨⟨pre, q, suf, rfl, hq, hs⟩, ho⟩)
    · exact ⟨ops, o, [], by simp, h, by simp⟩
    · refine ⟨pre, q, suf ++ [o], by simp, hq, fun x hx => ?_⟩
      rcases List.mem_append.1 hx with hx | hx
      · exact hs x hx
      · rw [List.mem_singleton.1 hx]; exact ho

open Classical in
theorem endings_snoc (ops : List KOp) (o : KOp) : endings (ops ++ [o]) =
    endings ops + if ∃ c, o = .endContext c ∧ Live ops c then 1 else 0 := by
  unfold endings
  rw [List.length_append, List.length_singleton, List.range_succ, List.filter_append,
    List.length_append]
  congr 1
  · congr 1
    refine List.filter_congr fun i hi => ?_
    have hi' := List.mem_range.1 hi
    rw [List.getElem?_append_left hi', List.take_append_of_le_length hi'.le]
  · rw [List.filter_singleton]
    have : (ops ++ [o])[ops.length]? = some o := by simp
    simp only [this, Option.some.injEq, List.take_left']
    by_cases h : ∃ c, o = .endContext c ∧ Live ops c
    · simp [h]
    · simp [h]

theorem endings_nil : endings [] = 0 := by simp [endings]

end Apollo.Spec

namespace Apollo.Kokkos

open Spec

variable {M : Type} {e : KEnv M}

/-- The state after the calls `ops`, as far as contexts are concerned. -/
structure CtxInv (ops : List KOp) (s : State M) : Prop where
  live : ∀ c, (s.contexts c).isSome ↔ Live ops c
  count : s.encounter = endings ops

theorem CtxInv.init (cfg : Cfg) (files : Str → Option Str) :
    CtxInv [] (initState cfg files : State M) where
  live := fun c => by simp [initState, live_nil]
  count := by simp [initState, endings_nil]

theorem CtxInv.other {ops : List KOp} {s s' : State M} (hs : CtxInv ops s) {o : KOp}
    (ho : ∀ c, o ≠ .endContext c) (ha : ∀ c, ¬ Asks o c) (h1 : s'.contexts = s.contexts)
    (h2 : s'.encounter = s.encounter) : CtxInv (ops ++ [o]) s' where
  live := fun c => by
    rw [h1, hs.live, live_snoc]
    exact ⟨fun h => .inr ⟨h, ho c⟩, fun h => (h.resolve_left (ha c)).1⟩
  count := by
    rw [h2, hs.count, endings_snoc, if_neg]
    · simp
    · rintro ⟨c, h, -⟩
      exact ho c h

/-- One call: what it returns if it is the end of a context. -/
theorem CtxInv.step {ops : List KOp} {s s' : State M} (hs : CtxInv ops s) {o : KOp} {x : Ret}
    (h : kstep e s o = .ok (x, s')) :
    CtxInv (ops ++ [o]) s' ∧ ∀ c, o = .endContext c →
      (¬ Live ops c → x = .ignored ∧ s' = s) ∧
      (Live ops c → ∃ b, x = .ended b ∧ (b = true ↔ e.flush ∣ (endings (ops ++ [o]) : ℤ))) := by
  cases o with
  | declareOutput id name c =>
    obtain ⟨s₁, h1, h⟩ := (Res.bind_eq_ok _ _ _).1 h
    cases h
    obtain ⟨-, n, vs, -, rfl⟩ := declareOutput_ok h1
    exact ⟨hs.other (by simp) (by simp [Asks]) rfl rfl, by simp⟩
  | declareInput id name =>
    obtain ⟨s₁, h1, h⟩ := (Res.bind_eq_ok _ _ _).1 h
    cases h
    obtain ⟨-, rfl⟩ := declareInput_ok h1
    exact ⟨hs.other (by simp) (by simp [Asks]) rfl rfl, by simp⟩
  | request cid ctx tuning =>
    refine ⟨?_, by simp⟩
    rcases request_ok h with
      ⟨ht, rfl, rfl⟩ | ⟨ht, n, r, s₁, w₁, w₂, p, w₃, vs, h0, -, h2, -, -, -, -, rfl, rfl⟩
    · refine hs.other (by simp) (fun c => ?_) rfl rfl
      rintro ⟨ctx', tuning', h1, h2⟩
      cases h1
      exact h2 ht
    · have hc : s₁.contexts = s.contexts ∧ s₁.encounter = s.encounter := by
        rcases problemRegion_ok h2 with ⟨-, rfl⟩ | ⟨-, _, _, _, _, -, -, -, rfl⟩
        · exact ⟨rfl, rfl⟩
        · exact ⟨rfl, rfl⟩
      refine ⟨fun c => ?_, ?_⟩
      · change (Function.update s₁.contexts cid (some (r, .sync r)) c).isSome ↔ _
        rw [live_snoc, hc.1]
        by_cases hcc : c = cid
        · subst hcc
          rw [Function.update_self]
          simp only [Option.isSome_some, true_iff]
          exact .inl ⟨ctx, tuning, rfl, ht⟩
        · rw [Function.update_of_ne hcc, hs.live]
          refine ⟨fun h => .inr ⟨h, by simp⟩, fun h => (h.resolve_left ?_).1⟩
          rintro ⟨ctx', tuning', h1, -⟩
          cases h1
          exact hcc rfl
      · change s₁.encounter = _
        rw [hc.2, hs.count, endings_snoc, if_neg (by simp)]
        simp
  | endContext cid =>
    change endContext e s cid = .ok (x, s') at h
    rcases endContext_ok h with ⟨hn, rfl, rfl⟩ | ⟨r, c, w, hc, -, -, -, h2⟩
    · have hl : ¬ Live ops cid := by rw [← hs.live, hn]; simp
      refine ⟨⟨fun c => ?_, ?_⟩, fun c hcc => ?_⟩
      · rw [hs.live, live_snoc]
        refine ⟨fun h => .inr ⟨h, ?_⟩, ?_⟩
        · rintro h'
          cases h'
          exact hl h
        · rintro (⟨_, _, h, -⟩ | ⟨h, -⟩)
          · cases h
          · exact h
      · rw [hs.count, endings_snoc, if_neg]
        · simp
        · rintro ⟨c, h, h'⟩
          cases h
          exact hl h'
      · cases hcc
        exact ⟨fun _ => ⟨rfl, rfl⟩, fun h => absurd h hl⟩
    · have hl : Live ops cid := by rw [← hs.live, hc]; rfl
      have hcount : (endings (ops ++ [.endContext cid]) : ℤ) = s.encounter + 1 := by
        rw [endings_snoc, if_pos ⟨cid, rfl, hl⟩, hs.count]
        push_cast
        rfl
      have hlive : ∀ c, ((Function.update s.contexts cid none) c).isSome ↔
          Live (ops ++ [.endContext cid]) c := by
        intro c
        rw [live_snoc]
        by_cases hcc : c = cid
        · subst hcc
          rw [Function.update_self]
          simp [Asks]
        · rw [Function.update_of_ne hcc, hs.live]
          refine ⟨fun h => .inr ⟨h, fun h' => ?_⟩, ?_⟩
          · cases h'; exact hcc rfl
          · rintro (⟨_, _, h, -⟩ | ⟨h, -⟩)
            · cases h
            · exact h
      rcases h2 with ⟨hd, w', -, rfl, rfl⟩ | ⟨hd, rfl, rfl⟩
      · refine ⟨⟨hlive, hcount.symm⟩, fun c hcc => ?_⟩
        cases hcc
        exact ⟨fun h => absurd hl h, fun _ => ⟨true, rfl, by rw [hcount]; simp [hd]⟩⟩
      · refine ⟨⟨hlive, hcount.symm⟩, fun c hcc => ?_⟩
        cases hcc
        exact ⟨fun h => absurd hl h, fun _ => ⟨false, rfl, by rw [hcount]; simp [hd]⟩⟩

/-- An execution, after the calls `pre`. -/
theorem CtxInv.exec {pre ops : List KOp} {s s' : State M} {xs : List Ret} (hs : CtxInv pre s)
    (h : kexec e ops s = .ok (xs, s')) :
    CtxInv (pre ++ ops) s' ∧ ∀ (i c : ℕ), ops[i]? = some (.endContext c) →
      (¬ Live (pre ++ ops.take i) c → xs[i]? = some .ignored) ∧
      (Live (pre ++ ops.take i) c → ∃ b, xs[i]? = some (.ended b) ∧
        (b = true ↔ e.flush ∣ (endings (pre ++ ops.take (i + 1)) : ℤ))) := by
  induction ops generalizing pre s xs with
  | nil =>
    simp only [kexec] at h
    cases h
    exact ⟨by simpa using hs, by simp⟩
  | cons o ops ih =>
    obtain ⟨x, s₁, ys, h1, h2, rfl⟩ := kexec_cons h
    obtain ⟨a1, a2⟩ := hs.step h1
    obtain ⟨b1, b2⟩ := ih a1 h2
    refine ⟨by simpa using b1, fun i c hi => ?_⟩
    cases i with
    | zero =>
      simp only [List.getElem?_cons_zero, Option.some.injEq] at hi
      obtain ⟨c1, c2⟩ := a2 c hi
      simp only [List.take_zero, List.append_nil, List.getElem?_cons_zero, Option.some.injEq,
        List.take_succ_cons]
      exact ⟨fun h => (c1 h).1, c2⟩
    | succ i =>
      simp only [List.getElem?_cons_succ] at hi
      have := b2 i c hi
      simpa only [List.take_succ_cons, List.getElem?_cons_succ, List.append_assoc, List.cons_append,
        List.nil_append] using this

end Apollo.Kokkos
