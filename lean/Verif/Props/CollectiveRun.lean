import Verif.Proofs.CollectiveRun

/-!
# Histories of collective training: C75, C76, C77, C78

`ranks` holds the registries of all ranks at the beginning.  A history is a list of events: rank `i`
records a measurement, or all ranks gather.
-/

namespace Apollo.Props

open Apollo Apollo.Collective Apollo.Spec

/-! ## C75: training collectively again and again -/

/-- After every history which goes through, the ranks have their regions as before, and what they
hold can be sent again. -/
theorem C75_orderly {ranks ranks' : List Registry} (hw : ∀ regs ∈ ranks, WellFormed regs)
    (ha : Agree ranks) (hn : ranks.length ≤ 2 ^ 31) {ops : List COp} (hf : AllFit ranks ops)
    (hx : cexec exactMpi ops ranks = .ok ranks') :
    (∀ regs ∈ ranks', WellFormed regs) ∧ Agree ranks' ∧ SameRegions ranks ranks' :=
  have h := Orderly.exec ⟨hw, .refl _⟩ ha hn hf hx
  ⟨h.wellFormed, h.same.agree ha, h.same⟩

/-- No history aborts, throws or reads what was not written.  What is left is the size of what is
sent, see `C75_succeeds`. -/
theorem C75_safe {ranks : List Registry} (hw : ∀ regs ∈ ranks, WellFormed regs) (ha : Agree ranks)
    (hn : ranks.length ≤ 2 ^ 31) {ops : List COp} (hf : AllFit ranks ops) :
    (∃ ranks', cexec exactMpi ops ranks = .ok ranks') ∨
      cexec exactMpi ops ranks = .error .unmodelled := by
  cases hx : cexec exactMpi ops ranks with
  | ok r => exact .inl ⟨r, rfl⟩
  | error e => exact .inr (by rw [Orderly.fails ⟨hw, .refl _⟩ ha hn hf hx])

/-- However long a history, and however often the ranks gather, it goes through if the pairs ever
known are few: `K` holds them with the names of their regions, and no region has more than `F`
features. -/
theorem C75_succeeds {ranks : List Registry} (hw : ∀ regs ∈ ranks, WellFormed regs) (ha : Agree ranks)
    (hn : ranks.length ≤ 2 ^ 31) {ops : List COp} (hf : AllFit ranks ops)
    (K : Finset (Str × Features × ℤ)) (F : ℕ)
    (hK : ∀ r ∈ ranks, ∀ n f p, (metricOn r n f p).isSome → (n, f, p) ∈ K)
    (hm : ∀ i n f p m, COp.measure i n f p m ∈ ops → (n, f, p) ∈ K)
    (hF : ∀ r ∈ ranks, ∀ n R, OMap.find r n = some R → R.numFeatures ≤ F)
    (hb : ranks.length * (K.card * (84 + 4 * F)) < 2 ^ 31) :
    ∃ ranks', cexec exactMpi ops ranks = .ok ranks' :=
  Orderly.succeeds ⟨hw, .refl _⟩ ha hn hK hF hb hf hm

/-- Two ranks that declare the region with one and with two features. -/
def disagreeing : List Registry :=
  [oneRegion "r" 1 [], oneRegion "r" 2 [([7, 7], 0, 1)]]

/-- The ranks have to agree on the number of features: otherwise a rank takes measurements over from
another which it cannot send itself.  Gathering works once, not twice. -/
theorem C75_needs_agreement :
    (∀ regs ∈ disagreeing, WellFormed regs) ∧
      (∃ ranks', gather exactMpi disagreeing = .ok ranks') ∧
      (match cexec exactMpi [.gather, .gather] disagreeing with
        | .error .abort => true
        | _ => false) = true := by
  have hw : ∀ regs ∈ disagreeing, WellFormed regs := by
    intro regs h
    simp only [disagreeing, List.mem_cons, List.not_mem_nil, or_false] at h
    rcases h with rfl | rfl
    · refine wellFormed_oneRegion (k := 1) (by decide) (by decide) ?_
      intro x hx
      cases hx
    · refine wellFormed_oneRegion (k := 2) (by decide) (by decide) ?_
      intro x hx
      rw [show Dataset.insertAll [] [([7, 7], 0, (1 : ℚ))] = [(mkKey [7, 7] 0, (1 : ℚ))] from rfl]
        at hx
      rw [List.mem_singleton.1 hx]
      refine ⟨rfl, fun w hw => ⟨7, by norm_num, ?_⟩, by constructor <;> norm_num [mkKey], 1,
        by norm_num, by norm_num⟩
      simpa using hw
  exact ⟨hw, (C49_succeeds hw (by decide) (by decide)).imp fun _ h => h.1, by decide +kernel⟩

/-! ## C76: gathering again -/

theorem find_oneRegion {name : String} {k : ℤ} {ms : List (Features × ℤ × ℚ)} {n : Str} {R : LReg}
    (h : OMap.find (oneRegion name k ms) n = some R) : R.numFeatures = k := by
  simp only [oneRegion, OMap.find] at h
  split at h
  · cases h; rfl
  · cases h

theorem agree_threeRanks_one {r : Registry} (hr : r ∈ threeRanks) {n : Str} {R : LReg}
    (h : OMap.find r n = some R) : R.numFeatures = 1 := by
  simp only [threeRanks, List.mem_cons, List.not_mem_nil, or_false] at hr
  rcases hr with rfl | rfl | rfl <;> exact find_oneRegion h

theorem agree_threeRanks : Agree threeRanks := fun _ hr _ hr' _ _ _ h h' =>
  (agree_threeRanks_one hr h).trans (agree_threeRanks_one hr' h').symm

theorem known_threeRanks {r : Registry} (hr : r ∈ threeRanks) {n : Str} {f : Features} {p : ℤ}
    (h : (metricOn r n f p).isSome) : (n, f, p) = ("r".toList, [7], 0) := by
  have key : ∀ v : ℚ, (metricOn (oneRegion "r" 1 [([7], 0, v)]) n f p).isSome →
      (n, f, p) = ("r".toList, [7], 0) := by
    intro v hv
    obtain ⟨m, hm⟩ := Option.isSome_iff_exists.1 hv
    unfold metricOn oneRegion at hm
    simp only [OMap.find] at hm
    split at hm
    next he =>
      have hmem := OMap.mem_of_find_eq_some hm
      rw [show Dataset.insertAll [] [([7], 0, v)] = [(mkKey [7] 0, v)] from rfl,
        List.mem_singleton, Prod.mk.injEq, Dataset.mkKey_inj] at hmem
      rw [he, hmem.1.1, hmem.1.2]
    next => cases hm
  simp only [threeRanks, List.mem_cons, List.not_mem_nil, or_false] at hr
  rcases hr with rfl | rfl | rfl <;> exact key _ h

/-- Gathering twice in a row does the same as gathering once where every pair was known to at most
two ranks before.  Missing for the full claim: pairs known to three ranks or more, for which it is
false (`C76_fails`). -/
theorem C76_partial {ranks : List Registry} (hw : ∀ regs ∈ ranks, WellFormed regs) (ha : Agree ranks)
    (hn : ranks.length ≤ 2 ^ 31)
    (hv : ∀ r ∈ ranks, ∀ n f p m, metricOn r n f p = some m → 2 ^ (-1021 : ℤ) ≤ m)
    (h2 : ∀ n f p, (ranks.filterMap fun r => metricOn r n f p).length ≤ 2) {r₁ r₂ : List Registry}
    (h₁ : cexec exactMpi [.gather] ranks = .ok r₁)
    (h₂ : cexec exactMpi [.gather, .gather] ranks = .ok r₂) : r₂ = r₁ := by
  obtain ⟨a, hg, h₁⟩ := (Res.bind_eq_ok _ _ _).1 h₁
  cases h₁
  obtain ⟨b, hb, h₂⟩ := (Res.bind_eq_ok _ _ _).1 h₂
  rw [hg] at hb
  cases hb
  obtain ⟨c, hg2, h₂⟩ := (Res.bind_eq_ok _ _ _).1 h₂
  cases h₂
  have hw₁ := gather_wellFormed hw ha hn hg
  refine gather_settled hw₁ (by rw [gather_length hw hn hg]; exact hn) hg2 ?_ ?_
  · intro r hr r' hr' n f p hn1 hn2
    obtain ⟨i, hi⟩ := List.getElem?_of_mem hr
    obtain ⟨j, hj⟩ := List.getElem?_of_mem hr'
    obtain ⟨ri, hi0⟩ := gather_before hw hn hg hi
    obtain ⟨rj, hj0⟩ := gather_before hw hn hg hj
    exact C50_metric_partial hw hn hg hi0 hi hj0 hj ((C49_regions hw hn hg hi0 hi n).1.1 hn1)
      ((C49_regions hw hn hg hj0 hj n).1.1 hn2) f p (h2 n f p)
  · intro r hr n f p v hm
    obtain ⟨i, hi⟩ := List.getElem?_of_mem hr
    obtain ⟨ri, hi0⟩ := gather_before hw hn hg hi
    obtain ⟨-, -, l, hl, hmem⟩ := gather_known hw hn hg hi0 hi hm
    refine halfHalf_self (normal_of_runningAverage l (fun x hx => ?_) v hl)
    obtain ⟨q, hq1, hq2⟩ := hmem x hx
    exact ⟨((hw q hq1).metric n f p x hq2).1, hv q hq1 n f p x hq2⟩

/-- With three ranks the metrics change with every gathering, though nothing was measured. -/
theorem C76_fails :
    ∃ ranks : List Registry, (∀ regs ∈ ranks, WellFormed regs) ∧ Agree ranks ∧
      ∃ r₁ r₂, cexec exactMpi [.gather] ranks = .ok r₁ ∧
        cexec exactMpi [.gather, .gather] ranks = .ok r₂ ∧
        r₁.map (metricOn · "r".toList [7] 0) = [some (9 / 4), some (9 / 4), some 2] ∧
        r₂.map (metricOn · "r".toList [7] 0) = [some (17 / 8), some (17 / 8), some (35 / 16)] := by
  have ha := agree_threeRanks
  have hf : AllFit threeRanks [.gather, .gather] := by
    intro i n f p m h
    simp at h
  refine ⟨threeRanks, wellFormed_threeRanks, ha, ?_⟩
  have hK := C75_succeeds wellFormed_threeRanks ha (by decide) hf
    {("r".toList, [7], 0)} 1 (fun r hr n f p h => by rw [known_threeRanks hr h]; simp)
    (fun i n f p m h => by simp at h)
    (fun r hr n R h => (agree_threeRanks_one hr h).le) (by decide)
  obtain ⟨r₂, h₂⟩ := hK
  obtain ⟨r₁, hg, h₂'⟩ := (Res.bind_eq_ok _ _ _).1 h₂
  obtain ⟨r₃, hg2, h₃⟩ := (Res.bind_eq_ok _ _ _).1 h₂'
  cases h₃
  refine ⟨r₁, r₂, ?_, h₂, ?_, ?_⟩
  · show (cstep exactMpi .gather threeRanks >>= _) = _
    rw [hg]; rfl
  · have e1 : r₁ = absorbAll (allMsgs 0 threeRanks) 0 threeRanks :=
      gather_eq wellFormed_threeRanks (by decide) hg
    rw [e1]
    decide +kernel
  · have e1 : r₁ = absorbAll (allMsgs 0 threeRanks) 0 threeRanks :=
      gather_eq wellFormed_threeRanks (by decide) hg
    have e2 : r₂ = absorbAll (allMsgs 0 r₁) 0 r₁ :=
      gather_eq (gather_wellFormed wellFormed_threeRanks ha (by decide) hg)
        (by rw [gather_length wellFormed_threeRanks (by decide) hg]; decide) hg2
    rw [e2, e1]
    decide +kernel

/-! ## C77: a pair measured on one rank -/

/-- The metrics which a history records for a pair of a region. -/
def recorded (n : Str) (f : Features) (p : ℤ) (ops : List COp) : List ℚ :=
  ops.filterMap fun
    | .measure _ n' f' p' m => if n' = n ∧ f' = f ∧ p' = p then some m else none
    | .gather => none

theorem not_recorded {n : Str} {f : Features} {p : ℤ} {ops : List COp}
    (h : recorded n f p ops = []) {i : ℕ} {n' : Str} {f' : Features} {p' : ℤ} {m : ℚ}
    (hm : COp.measure i n' f' p' m ∈ ops) : ¬(n' = n ∧ f' = f ∧ p' = p) := by
  intro hc
  have : m ∈ recorded n f p ops := List.mem_filterMap.2 ⟨_, hm, by simp [hc]⟩
  rw [h] at this
  cases this

/-- A pair not recorded stays what it is on all ranks between gatherings. -/
theorem recordOn_other {n n' : Str} {f f' : Features} {p p' : ℤ} {m : ℚ} {r : Registry}
    (hw : WellFormed r) (h : ¬(n' = n ∧ f' = f ∧ p' = p)) :
    metricOn (recordOn n' f' p' m r) n f p = metricOn r n f p := by
  rw [recordOn_metric hw, if_neg]
  rintro ⟨⟨rfl, rfl, rfl⟩, -⟩
  exact h ⟨rfl, rfl, rfl⟩

/-- Not recorded, not known. -/
theorem unknown_exec {ranks₀ ranks ranks' : List Registry} (h : Orderly ranks₀ ranks)
    (ha : Agree ranks₀) (hn : ranks₀.length ≤ 2 ^ 31) {ops : List COp} (hf : AllFit ranks₀ ops)
    (hx : cexec exactMpi ops ranks = .ok ranks') {n : Str} {f : Features} {p : ℤ}
    (h0 : ∀ r ∈ ranks, metricOn r n f p = none) (hm : recorded n f p ops = []) :
    ∀ r ∈ ranks', metricOn r n f p = none := by
  refine h.run ha hn hf hx (P := fun ranks => ∀ r ∈ ranks, metricOn r n f p = none) ?_ ?_ h0
  · intro i n' f' p' m hmem ranks ho h0 r hr
    obtain ⟨q, hq, rfl | rfl⟩ := mem_modify hr
    · exact h0 _ hq
    · rw [recordOn_other (ho.wellFormed _ hq) (not_recorded hm hmem)]
      exact h0 _ hq
  · intro _ ranks ranks' ho h0 hg r' hr'
    have hn' : ranks.length ≤ 2 ^ 31 := by rw [ho.same.1]; exact hn
    obtain ⟨i, hi'⟩ := List.getElem?_of_mem hr'
    obtain ⟨regs, hi⟩ := gather_before ho.wellFormed hn' hg hi'
    cases hv : metricOn r' n f p with
    | none => rfl
    | some v =>
      obtain ⟨-, ⟨r, hr1, hr2⟩, -⟩ := gather_known ho.wellFormed hn' hg hi hi' hv
      rw [h0 r hr1] at hr2
      cases hr2

/-- Rank `j` holds what it recorded, the others nothing. -/
def OnlyOn (j : ℕ) (n : Str) (f : Features) (p : ℤ) (ranks : List Registry) (l : List ℚ) : Prop :=
  ∀ (i : ℕ) (r : Registry), ranks[i]? = some r →
    metricOn r n f p = if i = j then runningAverage halfHalf l else none

/-- The average of a longer list. -/
theorem runningAverage_snoc (l : List ℚ) (m : ℚ) :
    runningAverage halfHalf ((runningAverage halfHalf l).toList ++ [m]) =
      runningAverage halfHalf (l ++ [m]) := by
  cases l with
  | nil => rfl
  | cons a l => simp [runningAverage, List.foldl_append]

/-- Between gatherings. -/
theorem onlyOn_exec {ranks₀ ranks ranks' : List Registry} (h : Orderly ranks₀ ranks)
    (ha : Agree ranks₀) (hn : ranks₀.length ≤ 2 ^ 31) {ops : List COp} (hf : AllFit ranks₀ ops)
    (hx : cexec exactMpi ops ranks = .ok ranks') (hng : COp.gather ∉ ops) {j : ℕ} {n : Str}
    {f : Features} {p : ℤ} {l : List ℚ} (h0 : OnlyOn j n f p ranks l)
    (hj : ∀ r, ranks₀[j]? = some r → hasRegion r n)
    (hm : ∀ i m, COp.measure i n f p m ∈ ops → i = j) :
    OnlyOn j n f p ranks' (l ++ recorded n f p ops) := by
  induction ops generalizing ranks l with
  | nil => cases hx; simpa [recorded] using h0
  | cons op ops ih =>
    obtain ⟨r₁, h1, h2⟩ := (Res.bind_eq_ok _ _ _).1 hx
    have hstep := h.step ha hn hf.cons.1 h1
    cases op with
    | gather => simp at hng
    | measure i n' f' p' m =>
      cases h1
      have hrest := fun {l'} hl' => ih (l := l') hstep hf.cons.2 h2 (fun hx => hng (by simp [hx])) hl'
        (fun i m hx => hm i m (by simp [hx]))
      by_cases hc : n' = n ∧ f' = f ∧ p' = p
      · obtain ⟨rfl, rfl, rfl⟩ := hc
        have hij : i = j := hm i m (by simp)
        subst hij
        have := hrest (l' := l ++ [m]) ?_
        · simpa [recorded] using this
        · intro k r hk
          rw [List.getElem?_modify] at hk
          cases hq : ranks[k]? with
          | none => rw [hq] at hk; cases hk
          | some q =>
            rw [hq] at hk
            have hk : (if i = k then recordOn n' f' p' m q else q) = r := Option.some.inj hk
            by_cases hki : k = i
            · subst hki
              rw [if_pos rfl] at hk ⊢
              subst hk
              have hwq := h.wellFormed q (List.mem_of_getElem? hq)
              have hlt : k < ranks₀.length := by
                rw [← h.same.1]
                by_contra hlt
                rw [List.getElem?_eq_none (by omega)] at hq
                cases hq
              have hk0 : ranks₀[k]? = some ranks₀[k] := by simp
              have hreg : (OMap.find q n').isSome := by
                have h1 := h.same.2 k _ q hk0 hq n'
                have h2 := hj _ hk0
                unfold hasRegion at h2
                rw [← Option.isSome_map (f := LReg.numFeatures), h1, Option.isSome_map]
                exact h2
              rw [recordOn_metric hwq, if_pos ⟨⟨rfl, rfl, rfl⟩, hreg⟩, h0 k q hq, if_pos rfl,
                runningAverage_snoc]
            · rw [if_neg (Ne.symm hki)] at hk
              subst hk
              rw [h0 k _ hq, if_neg hki, if_neg hki]
      · have := hrest (l' := l) ?_
        · simpa [recorded, hc] using this
        · intro k r hk
          rw [List.getElem?_modify] at hk
          cases hq : ranks[k]? with
          | none => rw [hq] at hk; cases hk
          | some q =>
            rw [hq] at hk
            have hk : (if i = k then recordOn n' f' p' m q else q) = r := Option.some.inj hk
            split at hk
            · subst hk
              rw [recordOn_other (h.wellFormed q (List.mem_of_getElem? hq)) hc]
              exact h0 k q hq
            · subst hk
              exact h0 k _ hq

/-- Everyone knows it, or at least one and nobody anything else. -/
theorem held_exec {ranks₀ ranks ranks' : List Registry} (h : Orderly ranks₀ ranks)
    (ha : Agree ranks₀) (hn : ranks₀.length ≤ 2 ^ 31) {ops : List COp} (hf : AllFit ranks₀ ops)
    (hx : cexec exactMpi ops ranks = .ok ranks') {n : Str} {f : Features} {p : ℤ} {v : ℚ}
    (hv : halfHalf v v = v) (hm : recorded n f p ops = []) (hh : Held ranks n f p v)
    (hs : ∃ r ∈ ranks, metricOn r n f p = some v)
    (hg : COp.gather ∈ ops ∨ ∀ r ∈ ranks, hasRegion r n → metricOn r n f p = some v) :
    ∀ r ∈ ranks', hasRegion r n → metricOn r n f p = some v := by
  induction ops generalizing ranks with
  | nil =>
    cases hx
    rcases hg with hg | hg
    · cases hg
    · exact hg
  | cons op ops ih =>
    obtain ⟨r₁, h1, h2⟩ := (Res.bind_eq_ok _ _ _).1 hx
    have hstep := h.step ha hn hf.cons.1 h1
    have hm' : recorded n f p ops = [] := by
      unfold recorded at hm ⊢
      rw [List.filterMap_cons] at hm
      split at hm
      · exact hm
      · cases hm
    cases op with
    | gather =>
      have hn' : ranks.length ≤ 2 ^ 31 := by rw [h.same.1]; exact hn
      have hall : ∀ r ∈ r₁, hasRegion r n → metricOn r n f p = some v := by
        intro r hr hreg
        obtain ⟨i, hi'⟩ := List.getElem?_of_mem hr
        obtain ⟨q, hi⟩ := gather_before h.wellFormed hn' h1 hi'
        exact gather_held h.wellFormed hn' h1 hv hh hs hi hi'
          ((C49_regions h.wellFormed hn' h1 hi hi' n).1.1 hreg)
      refine ih hstep hf.cons.2 h2 hm' (gather_held' h.wellFormed hn' h1 hv hh) ?_ (.inr hall)
      obtain ⟨r, hr, hrv⟩ := hs
      obtain ⟨i, hi⟩ := List.getElem?_of_mem hr
      have hlt : i < r₁.length := by
        rw [gather_length h.wellFormed hn' h1]
        by_contra hlt
        rw [List.getElem?_eq_none (by omega)] at hi
        cases hi
      have hi' : r₁[i]? = some r₁[i] := by simp
      exact ⟨r₁[i], List.getElem_mem hlt, gather_held h.wellFormed hn' h1 hv hh ⟨r, hr, hrv⟩ hi hi'
        (hasRegion_of_metric (by rw [hrv]; rfl))⟩
    | measure i n' f' p' m =>
      cases h1
      have hc := not_recorded hm (i := i) (n' := n') (f' := f') (p' := p') (m := m) (by simp)
      have hsame : ∀ q ∈ ranks, metricOn (recordOn n' f' p' m q) n f p = metricOn q n f p :=
        fun q hq => recordOn_other (h.wellFormed q hq) hc
      refine ih hstep hf.cons.2 h2 hm' ?_ ?_ ?_
      · intro r hr w hw
        obtain ⟨q, hq, rfl | rfl⟩ := mem_modify hr
        · exact hh _ hq _ hw
        · rw [hsame q hq] at hw
          exact hh _ hq _ hw
      · obtain ⟨r, hr, hrv⟩ := hs
        obtain ⟨k, hk⟩ := List.getElem?_of_mem hr
        by_cases hki : i = k
        · exact ⟨recordOn n' f' p' m r, List.mem_of_getElem? (i := k) (by
            simp [hk, hki]), by rw [hsame r hr]; exact hrv⟩
        · exact ⟨r, List.mem_of_getElem? (i := k) (by
            simp [hk, hki]), hrv⟩
      · rcases hg with hg | hg
        · exact .inl (by simpa using hg)
        · refine .inr fun r hr hreg => ?_
          obtain ⟨q, hq, rfl | rfl⟩ := mem_modify hr
          · exact hg _ hq hreg
          · rw [hsame q hq]
            refine hg _ hq ?_
            unfold hasRegion at hreg ⊢
            rw [(recordOn_find (h.wellFormed q hq).sorted n).2, Option.isSome_map] at hreg
            exact hreg

/-- A pair which only rank `j` measures: after the ranks have gathered, however often, every rank
with the region holds the average over the measurements of `j`, as `j` would have it alone, if the
ranks do not gather between these measurements.  Missing for the full claim: gatherings between the
measurements, for which it is false (`C77_fails`). -/
theorem C77_partial {ranks ranks' : List Registry} (hw : ∀ regs ∈ ranks, WellFormed regs)
    (ha : Agree ranks) (hn : ranks.length ≤ 2 ^ 31) {before during after : List COp}
    (hf : AllFit ranks (before ++ during ++ after))
    (hx : cexec exactMpi (before ++ during ++ after) ranks = .ok ranks') {j : ℕ} {n : Str}
    {f : Features} {p : ℤ} (h0 : ∀ r ∈ ranks, metricOn r n f p = none)
    (hj : ∃ r, ranks[j]? = some r ∧ hasRegion r n)
    (hbefore : recorded n f p before = []) (hafter : recorded n f p after = [])
    (hduring : ∀ i m, COp.measure i n f p m ∈ during → i = j ∧ 2 ^ (-1021 : ℤ) ≤ m)
    (hng : COp.gather ∉ during) (hg : COp.gather ∈ after) :
    ∀ r ∈ ranks', hasRegion r n →
      metricOn r n f p = runningAverage halfHalf (recorded n f p during) := by
  have ho : Orderly ranks ranks := ⟨hw, .refl _⟩
  rw [cexec_append, cexec_append] at hx
  obtain ⟨rb, hb, hx⟩ := (Res.bind_eq_ok _ _ _).1 hx
  obtain ⟨ra, hb, hd⟩ := (Res.bind_eq_ok _ _ _).1 hb
  have hfb := hf.append.1.append.1
  have hfd := hf.append.1.append.2
  have hfa := hf.append.2
  have oa := ho.exec ha hn hfb hb
  have ob := oa.exec ha hn hfd hd
  have h1 := unknown_exec ho ha hn hfb hb h0 hbefore
  obtain ⟨rj, hrj, hreg⟩ := hj
  have h2 := onlyOn_exec (j := j) (l := []) oa ha hn hfd hd hng
    (fun i r hr => by rw [h1 r (List.mem_of_getElem? hr)]; simp [runningAverage])
    (fun r hr => by rw [hrj] at hr; cases hr; exact hreg) (fun i m h => (hduring i m h).1)
  rw [List.nil_append] at h2
  cases hl : runningAverage halfHalf (recorded n f p during) with
  | none =>
    intro r hr _
    refine unknown_exec ob ha hn hfa hx (fun r hr => ?_) hafter r hr
    obtain ⟨i, hi⟩ := List.getElem?_of_mem hr
    rw [h2 i r hi, hl]
    split <;> rfl
  | some v =>
    have hv : halfHalf v v = v := by
      refine halfHalf_self (normal_of_runningAverage _ (fun x hx => ?_) v hl)
      obtain ⟨op, hop, he⟩ := List.mem_filterMap.1 hx
      cases op with
      | gather => cases he
      | measure i n' f' p' m =>
        simp only at he
        split at he
        next hc =>
          obtain ⟨rfl, rfl, rfl⟩ := hc
          cases he
          exact ⟨(hfd i n' f' p' x hop).metric.1, (hduring i x hop).2⟩
        next => cases he
    refine held_exec ob ha hn hfa hx hv hafter ?_ ?_ (.inl hg)
    · intro r hr m hm
      obtain ⟨i, hi⟩ := List.getElem?_of_mem hr
      rw [h2 i r hi, hl] at hm
      split at hm
      · exact (Option.some.inj hm).symm
      · cases hm
    · have hlt : j < rb.length := by
        rw [ob.same.1]
        by_contra hlt
        rw [List.getElem?_eq_none (by omega)] at hrj
        cases hrj
      have hjb : rb[j]? = some rb[j] := by simp
      exact ⟨rb[j], List.getElem_mem hlt, by rw [h2 j _ hjb, if_pos rfl, hl]⟩

/-- Two ranks with a region and no measurements. -/
def twoFresh : List Registry := [oneRegion "r" 1 [], oneRegion "r" 1 []]

theorem wellFormed_twoFresh : ∀ regs ∈ twoFresh, WellFormed regs := by
  intro regs h
  simp only [twoFresh, List.mem_cons, List.not_mem_nil, or_false, or_self] at h
  subst h
  refine wellFormed_oneRegion (k := 1) (by decide) (by decide) ?_
  intro x hx
  cases hx

theorem agree_twoFresh_one {r : Registry} (hr : r ∈ twoFresh) {n : Str} {R : LReg}
    (h : OMap.find r n = some R) : R.numFeatures = 1 := by
  simp only [twoFresh, List.mem_cons, List.not_mem_nil, or_false, or_self] at hr
  subst hr
  exact find_oneRegion h

theorem agree_twoFresh : Agree twoFresh := fun _ hr _ hr' _ _ _ h h' =>
  (agree_twoFresh_one hr h).trans (agree_twoFresh_one hr' h').symm

theorem unknown_twoFresh {r : Registry} (hr : r ∈ twoFresh) (n : Str) (f : Features) (p : ℤ) :
    metricOn r n f p = none := by
  simp only [twoFresh, List.mem_cons, List.not_mem_nil, or_false, or_self] at hr
  subst hr
  unfold metricOn oneRegion
  simp only [OMap.find]
  split <;> rfl

theorem fit_twoFresh {v : ℕ} (hv : v ≤ 2 ^ 53) : Fit twoFresh "r".toList [7] 0 (v : ℚ) :=
  ⟨fun r hr R hR => (agree_twoFresh_one hr hR).symm,
    fun x hx => by
      rw [List.mem_singleton.1 hx]
      exact_mod_cast finite32_nat (n := 7) (by norm_num),
    by constructor <;> norm_num, finite64_nat hv⟩

theorem succeeds_twoFresh {ops : List COp} (hf : AllFit twoFresh ops)
    (hm : ∀ i n f p m, COp.measure i n f p m ∈ ops → (n, f, p) = ("r".toList, [7], 0)) :
    ∃ ranks', cexec exactMpi ops twoFresh = .ok ranks' :=
  C75_succeeds wellFormed_twoFresh agree_twoFresh (by decide) hf {("r".toList, [7], 0)} 1
    (fun r hr n f p h => by rw [unknown_twoFresh hr] at h; cases h)
    (fun i n f p m h => by rw [hm i n f p m h]; simp)
    (fun r hr n R h => (agree_twoFresh_one hr h).le) (by decide)

/-- What something shows of a result. -/
def okMap {α β : Type} (g : α → β) (d : β) : Res α → β
  | .ok a => g a
  | .error _ => d

/-- Rank 0 measures 1, the ranks gather, rank 0 measures 3. -/
def echo : List COp :=
  [.measure 0 "r".toList [7] 0 1, .gather, .measure 0 "r".toList [7] 0 3, .gather]

/-- Otherwise the measurements of a rank come back to it from the other ranks, and old ones count
for more: after 1 and 3 a rank alone would hold 2. -/
theorem C77_fails :
    (∀ regs ∈ twoFresh, WellFormed regs) ∧ Agree twoFresh ∧ AllFit twoFresh echo ∧
      ∃ ranks', cexec exactMpi echo twoFresh = .ok ranks' ∧
        recorded "r".toList [7] 0 echo = [1, 3] ∧
        runningAverage halfHalf [1, 3] = some 2 ∧
        ranks'.map (metricOn · "r".toList [7] 0) = [some (3 / 2), some (3 / 2)] := by
  have hf : AllFit twoFresh echo := by
    intro i n f p m h
    simp only [echo, List.mem_cons, COp.measure.injEq, reduceCtorEq, List.not_mem_nil, or_false,
      false_or] at h
    rcases h with ⟨rfl, rfl, rfl, rfl, rfl⟩ | ⟨rfl, rfl, rfl, rfl, rfl⟩
    · exact_mod_cast fit_twoFresh (v := 1) (by norm_num)
    · exact_mod_cast fit_twoFresh (v := 3) (by norm_num)
  refine ⟨wellFormed_twoFresh, agree_twoFresh, hf, ?_⟩
  obtain ⟨ranks', hx⟩ := succeeds_twoFresh hf (by
    intro i n f p m h
    simp only [echo, List.mem_cons, COp.measure.injEq, reduceCtorEq, List.not_mem_nil, or_false,
      false_or] at h
    rcases h with ⟨rfl, rfl, rfl, rfl, rfl⟩ | ⟨rfl, rfl, rfl, rfl, rfl⟩ <;> rfl)
  refine ⟨ranks', hx, by decide +kernel, by decide +kernel, ?_⟩
  have h : okMap (fun r => r.map (metricOn · "r".toList [7] 0)) [] (cexec exactMpi echo twoFresh) =
      [some (3 / 2), some (3 / 2)] := by decide +kernel
  rw [hx] at h
  exact h

/-! ## C78: bounds -/

/-- Whatever the history, what a rank holds for a pair lies between the least and the greatest of
the metrics recorded for it. -/
theorem C78_within {ranks ranks' : List Registry} (hw : ∀ regs ∈ ranks, WellFormed regs)
    (ha : Agree ranks) (hn : ranks.length ≤ 2 ^ 31) {ops : List COp} (hf : AllFit ranks ops)
    (hx : cexec exactMpi ops ranks = .ok ranks') {n : Str} {f : Features} {p : ℤ} {lo hi : ℚ}
    (hlo : NormalMetric lo) (hhi : NormalMetric hi)
    (h0 : ∀ r ∈ ranks, ∀ m, metricOn r n f p = some m → lo ≤ m ∧ m ≤ hi)
    (hm : ∀ m ∈ recorded n f p ops, lo ≤ m ∧ m ≤ hi) :
    ∀ r ∈ ranks', ∀ m, metricOn r n f p = some m → lo ≤ m ∧ m ≤ hi := by
  refine Orderly.run ⟨hw, .refl _⟩ ha hn hf hx
    (P := fun ranks => ∀ r ∈ ranks, ∀ m, metricOn r n f p = some m → lo ≤ m ∧ m ≤ hi) ?_ ?_ h0
  · intro i n' f' p' m hmem ranks ho h0 r hr w hw
    obtain ⟨q, hq, rfl | rfl⟩ := mem_modify hr
    · exact h0 _ hq _ hw
    · by_cases hc : n' = n ∧ f' = f ∧ p' = p
      · obtain ⟨rfl, rfl, rfl⟩ := hc
        have hb := hm m (List.mem_filterMap.2 ⟨_, hmem, by simp⟩)
        rw [recordOn_metric (ho.wellFormed _ hq)] at hw
        split at hw
        · cases hqm : metricOn q n' f' p' with
          | none => rw [hqm] at hw; cases hw; exact hb
          | some a =>
            rw [hqm] at hw
            cases hw
            exact foldl_ema_between hlo hhi [m] a (h0 _ hq _ hqm) (by simpa using hb)
        · exact h0 _ hq _ hw
      · rw [recordOn_other (ho.wellFormed _ hq) hc] at hw
        exact h0 _ hq _ hw
  · intro _ ranks ranks' ho h0 hg r' hr' v hv
    have hn' : ranks.length ≤ 2 ^ 31 := by rw [ho.same.1]; exact hn
    obtain ⟨i, hi'⟩ := List.getElem?_of_mem hr'
    obtain ⟨regs, hi⟩ := gather_before ho.wellFormed hn' hg hi'
    exact C50_within ho.wellFormed hn' hg hi hi' (gather_known ho.wellFormed hn' hg hi hi' hv).1 hlo
      hhi h0 hv

/-! ## Cases -/

/-- The hypotheses of C75 hold for two ranks and the history above; so do those of C78. -/
example : (∀ regs ∈ twoFresh, WellFormed regs) ∧ Agree twoFresh ∧ AllFit twoFresh echo ∧
    (∀ m ∈ recorded "r".toList [7] 0 echo, 1 ≤ m ∧ m ≤ 3) ∧ NormalMetric 1 ∧ NormalMetric 3 := by
  refine ⟨wellFormed_twoFresh, agree_twoFresh, C77_fails.2.2.1, by decide +kernel, ?_, ?_⟩
  · exact normal_of_ge ⟨by exact_mod_cast (finite64_nat (n := 1) (by norm_num)).1,
      (zpow_le_one_of_nonpos₀ (by norm_num) (by norm_num)).trans (by norm_num)⟩
  · exact normal_of_ge ⟨by exact_mod_cast (finite64_nat (n := 3) (by norm_num)).1,
      (zpow_le_one_of_nonpos₀ (by norm_num) (by norm_num)).trans (by norm_num)⟩

/-- Those of C76 for two of the three ranks. -/
example : (∀ regs ∈ threeRanks.take 2, WellFormed regs) ∧ Agree (threeRanks.take 2) ∧
    (∀ n f p, ((threeRanks.take 2).filterMap fun r => metricOn r n f p).length ≤ 2) ∧
    (∀ r ∈ threeRanks.take 2, ∀ n f p m, metricOn r n f p = some m → 2 ^ (-1021 : ℤ) ≤ m) ∧
    okMap (fun r => r.map (metricOn · "r".toList [7] 0)) []
      (cexec exactMpi [.gather, .gather] (threeRanks.take 2)) = [some (3 / 2), some (3 / 2)] := by
  refine ⟨fun r hr => wellFormed_threeRanks r (List.mem_of_mem_take hr),
    fun r hr r' hr' => agree_threeRanks r (List.mem_of_mem_take hr) r' (List.mem_of_mem_take hr'),
    fun n f p => (List.length_filterMap_le _ _).trans (by decide), ?_, by decide +kernel⟩
  intro r hr n f p m hm
  have hk := known_threeRanks (List.mem_of_mem_take hr) (n := n) (f := f) (p := p) (by rw [hm]; rfl)
  simp only [Prod.mk.injEq] at hk
  obtain ⟨rfl, rfl, rfl⟩ := hk
  have h1 : (1 : ℚ) ≤ m := by
    simp only [threeRanks, List.take_succ_cons, List.take_zero, List.mem_cons, List.not_mem_nil,
      or_false] at hr
    rcases hr with rfl | rfl
    · rw [show metricOn (oneRegion "r" 1 [([7], 0, 1)]) "r".toList [7] 0 = some 1 by
        decide +kernel] at hm
      cases hm; norm_num
    · rw [show metricOn (oneRegion "r" 1 [([7], 0, 2)]) "r".toList [7] 0 = some 2 by
        decide +kernel] at hm
      cases hm; norm_num
  exact (zpow_le_one_of_nonpos₀ (by norm_num) (by norm_num)).trans h1

/-- Those of C77: rank 0 measures 1 and 3, then the ranks gather twice.  Both hold 2. -/
example : recorded "r".toList [7] 0 [.measure 0 "r".toList [7] 0 1, .measure 0 "r".toList [7] 0 3] =
      [1, 3] ∧
    (∀ r ∈ twoFresh, metricOn r "r".toList [7] 0 = none) ∧
    (∃ r, twoFresh[0]? = some r ∧ hasRegion r "r".toList) ∧
    okMap (fun r => r.map (metricOn · "r".toList [7] 0)) []
      (cexec exactMpi ([] ++ [.measure 0 "r".toList [7] 0 1, .measure 0 "r".toList [7] 0 3] ++
        [.gather, .gather]) twoFresh) = [some 2, some 2] :=
  ⟨by decide +kernel, fun r hr => unknown_twoFresh hr _ _ _, ⟨_, rfl, rfl⟩, by decide +kernel⟩

end Apollo.Props
