import Verif.Proofs.RanksData
import Verif.Proofs.PolicyLines

/-!
# Several ranks: the trace of what they exchange
-/

namespace Apollo.Ranks

open Apollo Apollo.Collective Apollo.Spec Apollo.Props

variable {M : Type}

/-- A message as a measurement. -/
def heldOf (m : Msg) : Held := ⟨m.rank, m.name, m.features, m.policy, m.metric⟩

theorem heldOf_injective : Function.Injective heldOf := by
  rintro ⟨a, b, c, d, e⟩ ⟨a', b', c', d', e'⟩ h
  simp only [heldOf, Held.mk.injEq] at h
  obtain ⟨rfl, rfl, rfl, rfl, rfl⟩ := h
  rfl

theorem intercalate_cons (sep : Str) (w : Str) {ws : List Str} (h : ws ≠ []) :
    sep.intercalate (w :: ws) = w ++ sep ++ sep.intercalate ws := by
  cases ws with
  | nil => exact absurd rfl h
  | cons a ws => simp [List.intercalate, List.intersperse]

theorem intercalate_words (l : List Str) {ws : List Str} (h : ws ≠ []) :
    [' '].intercalate (l ++ ws) = (l.map fun w => w ++ [' ']).flatten ++ [' '].intercalate ws := by
  induction l with
  | nil => rfl
  | cons a l ih =>
    rw [List.cons_append, intercalate_cons _ _ (by simp [h]), ih]
    simp

theorem gatherLine_words {m : Msg} {s : Str} (h : gatherLine m = .ok s) : IsGatherLine (heldOf m) s := by
  unfold gatherLine at h
  obtain ⟨t, h1, h⟩ := (Res.bind_eq_ok _ _ _).1 h
  cases h
  obtain ⟨ns, h2, rfl⟩ := intColumns_words h1
  refine ⟨ns, h2, ?_⟩
  unfold gatherWords
  rw [intercalate_words _ (by simp)]
  rw [show (", ".toList : Str) = [',', ' '] from by decide, show ("[ ".toList : Str) = ['[', ' '] from by decide,
    show ("], ".toList : Str) = [']', ',', ' '] from by decide, show ("\n".toList : Str) = ['\n'] from by decide]
  simp [heldOf, List.intercalate, List.intersperse]

theorem gatherLines_ok : ∀ {ms : List Msg} {s : Str}, gatherLines ms = .ok s →
    ∃ ls, List.Forall₂ IsGatherLine (ms.map heldOf) ls ∧ s = ls.flatten := by
  intro ms
  induction ms with
  | nil => intro s h; simp only [gatherLines] at h; cases h; exact ⟨[], .nil, rfl⟩
  | cons m ms ih =>
    intro s h
    simp only [gatherLines] at h
    obtain ⟨a, h1, h⟩ := (Res.bind_eq_ok _ _ _).1 h
    obtain ⟨t, h2, h⟩ := (Res.bind_eq_ok _ _ _).1 h
    cases h
    obtain ⟨ls, h3, rfl⟩ := ih h2
    exact ⟨a :: ls, .cons (gatherLine_words h1) h3, rfl⟩

theorem gatherPath_spared (env : Env M) (st rank : ℤ) : Spared env (gatherPath st rank) := by
  have hp : "-allgather.txt".toList <:+ gatherPath st rank := List.suffix_append _ _
  have key : ∀ (q t : Str), t <:+ q → t.length ≤ 14 → ¬ t <:+ "-allgather.txt".toList →
      q ≠ gatherPath st rank := by
    rintro q t ht hl hn rfl
    exact hn (List.suffix_of_suffix_length_le ht hp hl)
  refine .inr ⟨fun cfg name => key _ ".yaml".toList ?_ (by decide) (by decide),
    fun cfg rank k s name => key _ ".yaml".toList ?_ (by decide) (by decide),
    fun cfg rank k name => key _ ".yaml".toList ?_ (by decide) (by decide),
    fun rank s name => key _ "_policies.txt".toList ?_ (by decide) (by decide)⟩
  · exact List.suffix_append _ _
  · exact List.suffix_append _ _
  · exact List.suffix_append _ _
  · refine ⟨"step-".toList ++ fmtInt s ++ "-rank-".toList ++ fmtInt rank ++ "-".toList ++ name ++
      "-best".toList, ?_⟩
    unfold bestPath
    rw [show "-best_policies.txt".toList = "-best".toList ++ "_policies.txt".toList from by decide]
    simp only [List.append_assoc]

/-- What a collective training leaves in the trace. -/
theorem together_trace {env : ℕ → Env M} {s s' : List (Proc M)}
    (hs : ∀ p ∈ s, Sound (fun w => LogInv w ∧ RegInv w) p) (hfit : ∀ p ∈ s, Fit p.world)
    (hlen : s.length ≤ 2 ^ 31)
    (h : together exactMpi env s = .ok s') :
    ∃ ms : List Msg, ms.Nodup ∧ (∀ m, m ∈ ms ↔ ∃ (j : ℕ) (p : Proc M), s[j]? = some p ∧ m.rank = j ∧
        holds p.world m.name m.features m.policy = some m.metric) ∧
      ∀ (j : ℕ) (p p' : Proc M) (st : ℤ) (c : Bool), s[j]? = some p → s'[j]? = some p' →
        p.wait = some (.train st c) →
        (p.world.cfg.traceAllgather = true → (env j).canWrite (gatherPath st (env j).rank) = true →
          ∃ t, gatherLines ms = .ok t ∧
            p'.world.files (gatherPath st (env j).rank) = some (gatherHeader ++ t)) ∧
        (p.world.cfg.traceAllgather = false → ∀ q : Str, Spared (env j) q →
          p'.world.files q = p.world.files q) := by
  obtain ⟨vs, ms, hv, hm, hl, hl', hg⟩ := together_get h
  have hw : ∀ v ∈ vs, WellFormed v := by
    intro v hvm
    obtain ⟨j, hj⟩ := List.mem_iff_getElem?.1 hvm
    have hlt : j < s.length := by rw [← hl]; exact (List.getElem?_eq_some_iff.1 hj).1
    obtain ⟨v', p', a, _, b, _⟩ := hg j s[j] (List.getElem?_eq_getElem hlt)
    rw [hj] at a
    cases a
    exact wellFormed_view (hs _ (List.getElem_mem hlt)).holds.2.sorted (hfit _ (List.getElem_mem hlt)) b
  obtain ⟨bufs, ms', h1, h2, h3, h4⟩ := C48_received hw (by rw [hl]; exact hlen)
  have hms : ms' = ms := by
    unfold received at hm
    rw [h1, Res.bind_ok] at hm
    simp only at hm
    split at hm
    · cases hm
    · rw [h2] at hm; cases hm; rfl
  subst hms
  refine ⟨ms', h3, ?_, ?_⟩
  · intro m
    rw [h4]
    constructor
    · rintro ⟨j, v, a, b, c⟩
      have hlt : j < s.length := by rw [← hl]; exact (List.getElem?_eq_some_iff.1 a).1
      obtain ⟨v', p', a', _, b', _⟩ := hg j s[j] (List.getElem?_eq_getElem hlt)
      rw [a] at a'
      cases a'
      exact ⟨j, s[j], List.getElem?_eq_getElem hlt, b, by rw [← holds_view b']; exact c⟩
    · rintro ⟨j, p, a, b, c⟩
      obtain ⟨v', p', a', _, b', _⟩ := hg j p a
      exact ⟨j, v', a', b, by rw [holds_view b']; exact c⟩
  · intro j p p' st c hp hp' hk
    obtain ⟨v, p'', a, b, e, d⟩ := hg j p hp
    rw [hp'] at b
    cases b
    have hsp := hs p (List.mem_of_getElem? hp)
    unfold proceed at d
    rw [hk] at d
    simp only at d
    obtain ⟨w₁, d1, d⟩ := (Res.bind_eq_ok _ _ _).1 d
    obtain ⟨w₂, d2, d⟩ := (Res.bind_eq_ok _ _ _).1 d
    obtain ⟨w₃, d3, d⟩ := (Res.bind_eq_ok _ _ _).1 d
    cases d
    obtain ⟨f, hw1⟩ := traceGather_ok d1
    have hnd : (w₁.registry.map Prod.snd).Nodup := by rw [hw1]; exact hsp.holds.2.nodup
    have hfiles : w₂.files = w₁.files := by rw [(putBack_ok d2 hnd).1]
    have hkeep : ∀ q : Str, Spared (env j) q → w₃.files q = w₁.files q := by
      intro q hq
      exact trainRest_kept (FileHolds.stable (fun _ => True) (w₁.files q) hq).kept
        (show w₂.files q = _ by rw [hfiles]) d3
    constructor
    · intro ht hc
      show ∃ t, gatherLines ms' = .ok t ∧ w₃.files _ = _
      rw [hkeep _ (gatherPath_spared _ _ _)]
      unfold traceGather at d1
      rw [ht] at d1
      simp only [if_true] at d1
      obtain ⟨t, d4, d1⟩ := (Res.bind_eq_ok _ _ _).1 d1
      cases d1
      refine ⟨t, d4, ?_⟩
      unfold World.write
      simp only [Wait.step, hc, if_true]
      exact Function.update_self ..
    · intro ht q hq
      show w₃.files q = _
      rw [hkeep q hq]
      unfold traceGather at d1
      rw [ht] at d1
      simp only [Bool.false_eq_true, if_false] at d1
      cases d1
      rfl

end Apollo.Ranks
