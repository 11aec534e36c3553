import Verif.Proofs.PolicyNetRun
import Verif.Proofs.PolicyNetFile

/-!
# After loading, the object still holds a network
-/

namespace Apollo.PolicyNet

open Arith Net Spec.Net

variable {α : Type} [Arith α] [Stored α]

omit [Arith α] in
theorem decArray_full {n : ℕ} {s : List Char} {b : Buf α} (h : decArray n s = .ok b) :
    b.Full n := by
  induction n generalizing s b with
  | zero => cases h; exact ⟨rfl, by simp⟩
  | succ n ih =>
    unfold decArray at h
    obtain ⟨v, hv, h⟩ := (Res.bind_eq_ok _ _ _).1 h
    obtain ⟨b', hb, h⟩ := (Res.bind_eq_ok _ _ _).1 h
    cases h
    obtain ⟨h1, h2⟩ := ih hb
    refine ⟨by simp [h1], fun i hi => ?_⟩
    cases i with
    | zero => exact ⟨v, rfl⟩
    | succ i => exact h2 i (by omega)

omit [Arith α] in
theorem readArray_fullBuf {b b' : Buf α} {f f' : Stream} (h : readArray b f = .ok (b', f')) :
    b'.Full b.length := by
  unfold readArray at h
  obtain ⟨old, _, h⟩ := (Res.bind_eq_ok _ _ _).1 h
  obtain ⟨c, hc, h⟩ := (Res.bind_eq_ok _ _ _).1 h
  cases h
  exact decArray_full hc

omit [Arith α] [Stored α] in
theorem Full.has2 {b : Buf α} {m n : ℕ} (h : b.Full (m * n)) (d : α) :
    ∃ f : ℕ → ℕ → α, b.Has2 m n f := by
  obtain ⟨f, hf⟩ := h.has d
  exact ⟨fun i j => f (i * n + j), fun i hi j hj => hf _ (flat_lt hi hj)⟩

omit [Stored α] in
theorem FC.Rep.setParams {L : FC α} {S : LayerState α} (h : L.Rep S) {w b : Buf α}
    (hw : w.Full L.weights.length) (hb : b.Full L.bias.length) :
    ∃ S', FC.Rep { L with weights := w, bias := b } S' := by
  obtain ⟨W, hW⟩ := Full.has2 (m := L.outputSize) (n := L.inputSize)
    (by rw [← h.wf.wlen]; exact hw) (ofRat 0)
  obtain ⟨B, hB⟩ := hb.has (ofRat 0)
  rw [h.wf.blen] at hB
  exact ⟨⟨⟨W, B⟩, S.m, S.v, S.t⟩, ⟨hW, hB, hw.1.trans h.wf.wlen, hb.1.trans h.wf.blen, h.wf.wg,
    h.wf.bg, h.wf.out, h.wf.ig⟩, h.t, h.mlen, h.vlen, h.bmlen, h.bvlen, h.mw, h.vw, h.mb, h.vb⟩

theorem Good.load {P P' : PolicyNet α} {s : Shape} {S : NetState α} (h : P.Good s S)
    (hc : P.cache = []) {file : Option (List Char)} (hl : P.load file = .ok P') :
    (∃ S', P'.Good s S') ∧ P'.cache = [] ∧ P'.gen = P.gen := by
  unfold PolicyNet.load at hl
  cases file with
  | none =>
    cases hl
    exact ⟨⟨S, h⟩, hc, rfl⟩
  | some txt =>
    dsimp only at hl
    obtain ⟨⟨w1, f1⟩, e1, hl⟩ := (Res.bind_eq_ok _ _ _).1 hl
    obtain ⟨⟨b1, f2⟩, e2, hl⟩ := (Res.bind_eq_ok _ _ _).1 hl
    obtain ⟨⟨w2, f3⟩, e3, hl⟩ := (Res.bind_eq_ok _ _ _).1 hl
    obtain ⟨⟨b2, f4⟩, e4, hl⟩ := (Res.bind_eq_ok _ _ _).1 hl
    obtain ⟨⟨w3, f5⟩, e5, hl⟩ := (Res.bind_eq_ok _ _ _).1 hl
    obtain ⟨⟨b3, f6⟩, e6, hl⟩ := (Res.bind_eq_ok _ _ _).1 hl
    dsimp only at hl
    obtain ⟨avg, e7, hl⟩ := (Res.bind_eq_ok _ _ _).1 hl
    cases hl
    obtain ⟨S1, r1⟩ := FC.Rep.setParams h.net.l1 (readArray_fullBuf e1) (readArray_fullBuf e2)
    obtain ⟨S2, r2⟩ := FC.Rep.setParams h.net.l2 (readArray_fullBuf e3) (readArray_fullBuf e4)
    obtain ⟨S3, r3⟩ := FC.Rep.setParams h.net.l3 (readArray_fullBuf e5) (readArray_fullBuf e6)
    have hw := h.net.wf
    refine ⟨⟨⟨S1, S2, S3, S.lr, S.beta1, S.beta2⟩, ⟨⟨hw.shape, hw.s1, hw.s2, hw.s3, r1.wf, r2.wf,
      r3.wf, hw.r1, hw.r2, hw.sm⟩, r1, r2, r3, h.net.lr, h.net.b1, h.net.b2⟩, h.num, ?_⟩, hc, rfl⟩
    rw [hc]
    simp

end Apollo.PolicyNet
