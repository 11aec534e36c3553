import Verif.Proofs.RanksCall

/-!
# Several ranks: what holds on every rank throughout
-/

namespace Apollo.Ranks

open Apollo Apollo.Collective

variable {M : Type}

/-- The world of a rank before it goes on training: only the datasets of registered regions and the
files are others. -/
structure Filled (w w' : World M) : Prop where
  same : ∃ f, w' = { w with regions := w'.regions, files := f }
  other : ∀ r, r ∉ w.registry.map Prod.snd → w'.regions r = w.regions r
  data : ∀ r, (w'.regions r = none ∧ w.regions r = none) ∨
    ∃ R ds, w.regions r = some R ∧ w'.regions r = some { R with dataset := ds }

theorem traceGather_ok {env : Env M} {s : ℤ} {ms : List Msg} {w w' : World M}
    (h : traceGather env s ms w = .ok w') : ∃ f, w' = { w with files := f } := by
  unfold traceGather at h
  split at h
  · obtain ⟨t, _, h⟩ := (Res.bind_eq_ok _ _ _).1 h
    cases h
    obtain ⟨f, hf⟩ := write_same env w (gatherPath s env.rank)
      (some ("rank, region_name, features, policy, time_avg\n".toList ++ t))
    exact ⟨f, hf⟩
  · cases h
    exact ⟨w.files, rfl⟩

/-- The datasets after the insertions. -/
theorem putBack_ok {regs : Registry} : ∀ {l : List (Str × ℕ)} {w w' : World M},
    putBack regs l w = .ok w' → (l.map Prod.snd).Nodup →
    w' = { w with regions := w'.regions } ∧
    (∀ r, r ∉ l.map Prod.snd → w'.regions r = w.regions r) ∧
    ∀ n r, (n, r) ∈ l → ∃ R, w.regions r = some R ∧
      w'.regions r = some { R with dataset := ((OMap.find regs n).map LReg.dataset).getD R.dataset } := by
  intro l
  induction l with
  | nil =>
    intro w w' h _
    simp only [putBack] at h
    cases h
    exact ⟨rfl, fun _ _ => rfl, by simp⟩
  | cons a l ih =>
    obtain ⟨n, r⟩ := a
    intro w w' h hn
    simp only [List.map_cons, List.nodup_cons] at hn
    simp only [putBack] at h
    obtain ⟨R, hR, h⟩ := (Res.bind_eq_ok _ _ _).1 h
    have hR := World.region_ok.1 hR
    cases hf : OMap.find regs n with
    | none =>
      rw [hf] at h
      obtain ⟨h1, h2, h3⟩ := ih h hn.2
      refine ⟨h1, fun x hx => h2 x fun hm => hx (by simp [hm]), ?_⟩
      intro n' r' hm
      rcases List.mem_cons.1 hm with he | hm
      · cases he
        exact ⟨R, hR, by rw [h2 r hn.1, hR, hf]; rfl⟩
      · exact h3 n' r' hm
    | some L =>
      rw [hf] at h
      obtain ⟨h1, h2, h3⟩ := ih h hn.2
      have hu : (w.setRegion r { R with dataset := L.dataset }).regions =
          Function.update w.regions r (some { R with dataset := L.dataset }) := rfl
      rw [hu] at h2 h3
      refine ⟨by rw [h1]; rfl, ?_, ?_⟩
      · intro x hx
        simp only [List.map_cons, List.mem_cons, not_or] at hx
        rw [h2 x hx.2, Function.update_of_ne hx.1]
      · intro n' r' hm
        rcases List.mem_cons.1 hm with he | hm'
        · cases he
          exact ⟨R, hR, by rw [h2 r hn.1, Function.update_self, hf]; rfl⟩
        · obtain ⟨R', hR', e⟩ := h3 n' r' hm'
          have hne : r' ≠ r := by
            rintro rfl
            exact hn.1 (List.mem_map.2 ⟨(n', r'), hm', rfl⟩)
          rw [Function.update_of_ne hne] at hR'
          exact ⟨R', hR', e⟩

theorem filled {env : Env M} {s : ℤ} {ms : List Msg} {regs : Registry} {w w₁ w₂ : World M}
    (hn : (w.registry.map Prod.snd).Nodup) (h1 : traceGather env s ms w = .ok w₁)
    (h2 : putBack regs w₁.registry w₁ = .ok w₂) : Filled w w₂ := by
  obtain ⟨f, rfl⟩ := traceGather_ok h1
  obtain ⟨e1, e2, e3⟩ := putBack_ok h2 hn
  refine ⟨⟨f, e1⟩, e2, ?_⟩
  intro r
  by_cases hr : r ∈ w.registry.map Prod.snd
  · obtain ⟨⟨n, r'⟩, hm, rfl⟩ := List.mem_map.1 hr
    obtain ⟨R, hR, e⟩ := e3 n r' hm
    exact .inr ⟨R, _, hR, e⟩
  · have := e2 r hr
    cases hx : w.regions r with
    | none => exact .inl ⟨by rw [this]; exact hx, rfl⟩
    | some R => exact .inr ⟨R, R.dataset, rfl, by rw [this]; exact hx⟩

/-- A predicate kept by the calls of one process and by the filling of the datasets. -/
structure Rankwise (env : Env M) (P : World M → Prop) : Prop
    extends Invariant env (fun _ => True) P where
  nodup : ∀ w, P w → (w.registry.map Prod.snd).Nodup
  filled : ∀ w w', P w → Filled w w' → P w'

theorem trainRest_kept {env : Env M} {P : World M → Prop} (hP : Kept env (fun _ => True) P)
    {w w' : World M} {s : ℤ} {c : Bool} (hw : P w)
    (h : trainRest env (fun w r => regionTrain env w r s c false) w = .ok w') : P w' := by
  unfold trainRest at h
  split at h
  · obtain ⟨ds, _, h⟩ := (Res.bind_eq_ok _ _ _).1 h
    exact hP.single _ _ _ _ hw ‹_› h
  · exact forRegions_induct P (fun _ _ _ hw h => hP.regionTrain (by simp) hw h) hw h

theorem proceed_kept {env : Env M} {P : World M → Prop} (hP : Kept env (fun _ => True) P)
    (hf : ∀ w w', P w → Filled w w' → P w') {ms : List Msg} {i : ℕ}
    {v : Registry} {p p' : Proc M} (hn : (p.world.registry.map Prod.snd).Nodup) (hw : P p.world)
    (ht : ∀ k, p.wait = some k → ∃ s c, k = .train s c)
    (h : proceed env ms i v p = .ok p') : P p'.world ∧ p'.wait = none ∧ p'.todo = p.todo := by
  unfold proceed at h
  cases hk : p.wait with
  | none =>
    rw [hk] at h
    cases h
    exact ⟨hw, hk, rfl⟩
  | some k =>
    obtain ⟨s, c, rfl⟩ := ht k hk
    rw [hk] at h
    simp only at h
    obtain ⟨w₁, h1, h⟩ := (Res.bind_eq_ok _ _ _).1 h
    obtain ⟨w₂, h2, h⟩ := (Res.bind_eq_ok _ _ _).1 h
    obtain ⟨w₃, h3, h⟩ := (Res.bind_eq_ok _ _ _).1 h
    cases h
    exact ⟨trainRest_kept hP (hf _ _ hw (filled hn h1 h2)) h3, rfl, rfl⟩

theorem proceedAll_get {env : ℕ → Env M} {ms : List Msg} : ∀ {ps ps' : List (Proc M)}
    {vs : List Registry} {i : ℕ}, vs.length = ps.length → proceedAll env ms i vs ps = .ok ps' →
    ps'.length = ps.length ∧ ∀ j p, ps[j]? = some p → ∃ v p', vs[j]? = some v ∧ ps'[j]? = some p' ∧
      proceed (env (i + j)) ms (i + j) v p = .ok p' := by
  intro ps
  induction ps with
  | nil =>
    intro ps' vs i hl h
    cases vs with
    | nil => simp only [proceedAll] at h; cases h; simp
    | cons v vs => simp at hl
  | cons p ps ih =>
    intro ps' vs i hl h
    cases vs with
    | nil => simp at hl
    | cons v vs =>
      simp only [proceedAll] at h
      obtain ⟨p', h1, h⟩ := (Res.bind_eq_ok _ _ _).1 h
      obtain ⟨ps₁, h2, h⟩ := (Res.bind_eq_ok _ _ _).1 h
      cases h
      obtain ⟨e1, e2⟩ := ih (by simpa using hl) h2
      refine ⟨by simp [e1], ?_⟩
      intro j q hq
      cases j with
      | zero => cases hq; exact ⟨v, p', rfl, rfl, h1⟩
      | succ j =>
        obtain ⟨v', p'', a, b, c⟩ := e2 j q (by simpa using hq)
        exact ⟨v', p'', by simpa using a, by simpa using b, by rw [show i + (j + 1) = i + 1 + j by omega]; exact c⟩

theorem views_get : ∀ {ws : List (World M)} {vs : List Registry}, views ws = .ok vs →
    vs.length = ws.length ∧ ∀ (j : ℕ) w, ws[j]? = some w →
      ∃ v, vs[j]? = some v ∧ viewOf w w.registry = .ok v := by
  intro ws
  induction ws with
  | nil => intro vs h; simp only [views] at h; cases h; simp
  | cons w ws ih =>
    intro vs h
    simp only [views] at h
    obtain ⟨v, h1, h⟩ := (Res.bind_eq_ok _ _ _).1 h
    obtain ⟨vs₁, h2, h⟩ := (Res.bind_eq_ok _ _ _).1 h
    cases h
    obtain ⟨e1, e2⟩ := ih h2
    refine ⟨by simp [e1], ?_⟩
    intro j x hx
    cases j with
    | zero => cases hx; exact ⟨v, rfl, h1⟩
    | succ j => simpa using e2 j x (by simpa using hx)

/-- What a collective training is on every rank. -/
theorem together_get {mpi : Mpi} {env : ℕ → Env M} {s s' : List (Proc M)}
    (h : together mpi env s = .ok s') :
    ∃ vs ms, views (s.map Proc.world) = .ok vs ∧ received mpi vs = .ok ms ∧ vs.length = s.length ∧
      s'.length = s.length ∧ ∀ (j : ℕ) p, s[j]? = some p → ∃ v p', vs[j]? = some v ∧
        s'[j]? = some p' ∧ viewOf p.world p.world.registry = .ok v ∧
        proceed (env j) ms j v p = .ok p' := by
  unfold together at h
  obtain ⟨vs, h1, h⟩ := (Res.bind_eq_ok _ _ _).1 h
  obtain ⟨ms, h2, h⟩ := (Res.bind_eq_ok _ _ _).1 h
  obtain ⟨e1, e2⟩ := views_get h1
  rw [List.length_map] at e1
  obtain ⟨e3, e4⟩ := proceedAll_get e1 h
  refine ⟨vs, ms, h1, h2, e1, e3, fun j p hp => ?_⟩
  obtain ⟨v, p', a, b, c⟩ := e4 j p hp
  obtain ⟨v', a', c'⟩ := e2 j p.world (by rw [List.getElem?_map, hp]; rfl)
  rw [a] at a'
  cases a'
  exact ⟨v, p', a, b, c', by simpa using c⟩

/-- What holds on a rank throughout. -/
structure Sound (P : World M → Prop) (p : Proc M) : Prop where
  explicit : Explicit p.world
  holds : P p.world
  wait : ∀ k, p.wait = some k → ∃ s c, k = .train s c

/-- A call, without a global period. -/
theorem call_cases {env : Env M} {w w' : World M} {op : Op} {k : Option Wait} (h : Explicit w)
    (hc : call env w op = .ok (w', k)) :
    (∃ s c, op = .trainAll s c ∧ k = some (.train s c) ∧ w' = w) ∨
    ((∀ s c, op ≠ .trainAll s c) ∧ k = none ∧ ∃ x, step env w op = .ok (x, w')) := by
  by_cases ht : ∃ s c, op = .trainAll s c
  · obtain ⟨s, c, rfl⟩ := ht
    simp only [call, h.1, if_true] at hc
    cases hc
    exact .inl ⟨s, c, rfl, rfl, rfl⟩
  · have ht' : ∀ s c, op ≠ .trainAll s c := fun s c he => ht ⟨s, c, he⟩
    rw [call_eq_step env w op (.inr ⟨h.2, ht'⟩)] at hc
    obtain ⟨⟨x, w₁⟩, h1, hc⟩ := (Res.bind_eq_ok _ _ _).1 hc
    cases hc
    exact .inr ⟨ht', rfl, x, h1⟩

theorem Sound.step {mpi : Mpi} {env : ℕ → Env M} {P : World M → Prop} (hP : ∀ i, Rankwise (env i) P)
    {s s' : List (Proc M)} (hs : ∀ p ∈ s, Sound P p) (h : Step mpi env s s') :
    ∀ p ∈ s', Sound P p := by
  cases h with
  | @call i p op ops w k hi hw ht hc =>
    intro q hq
    rcases List.mem_or_eq_of_mem_set hq with hq | rfl
    · exact hs q hq
    · have hp := hs p (List.mem_of_getElem? hi)
      rcases call_cases hp.explicit hc with ⟨s, c, rfl, rfl, rfl⟩ | ⟨_, rfl, x, hx⟩
      · exact ⟨hp.explicit, hp.holds, fun k hk => ⟨s, c, by cases hk; rfl⟩⟩
      · exact ⟨(Explicit.invariant (env i) (fun _ => True)).step (by simp) hp.explicit hx,
          (hP i).toInvariant.step (by simp) hp.holds hx, by simp⟩
  | train h0 hall ht =>
    intro q hq
    obtain ⟨vs, ms, _, _, _, hl, hg⟩ := together_get ht
    obtain ⟨j, hj⟩ := List.mem_iff_getElem?.1 hq
    have hlt : j < s.length := by
      rw [← hl]
      exact (List.getElem?_eq_some_iff.1 hj).1
    obtain ⟨v, p', _, b, _, hp'⟩ := hg j s[j] (List.getElem?_eq_getElem hlt)
    rw [hj] at b
    cases b
    have hp := hs s[j] (List.getElem_mem hlt)
    have hn := (hP j).nodup _ hp.holds
    obtain ⟨h1, h2, _⟩ := proceed_kept (hP j).toKept (hP j).filled hn hp.holds hp.wait hp'
    obtain ⟨h3, _⟩ := proceed_kept (Explicit.invariant (env j) _).toKept (fun w w' h hf => by
      obtain ⟨f, hf'⟩ := hf.same
      exact h.of (by rw [hf'])) hn hp.explicit hp.wait hp'
    exact ⟨h3, h1, by rw [h2]; simp⟩

theorem Sound.run {mpi : Mpi} {env : ℕ → Env M} {P : World M → Prop} (hP : ∀ i, Rankwise (env i) P)
    {n : ℕ} {s s' : List (Proc M)} (hs : ∀ p ∈ s, Sound P p) (h : Run mpi env n s s') :
    ∀ p ∈ s', Sound P p := by
  induction h with
  | refl => exact hs
  | step h _ ih => exact ih (Sound.step hP hs h)

/-! ## Names and registered regions -/

theorem regInv_rankwise (env : Env M) :
    Rankwise env (fun w : World M => LogInv w ∧ RegInv w) where
  toInvariant := RegInv.invariant env _
  nodup := fun w h => h.2.nodup
  filled := by
    intro w w' ⟨hl, hr⟩ hf
    obtain ⟨f, e⟩ := hf.same
    have h0 : ∀ r, (w'.regions r).isSome = (w.regions r).isSome := by
      intro r
      rcases hf.data r with ⟨a, b⟩ | ⟨R, ds, a, b⟩ <;> rw [a, b] <;> rfl
    have h1 : ∀ r R, w'.regions r = some R → ∃ R' ds, w.regions r = some R' ∧
        R = { R' with dataset := ds } := by
      intro r R hR
      rcases hf.data r with ⟨a, b⟩ | ⟨R', ds, a, b⟩
      · rw [a] at hR; cases hR
      · rw [b] at hR; cases hR; exact ⟨R', ds, a, rfl⟩
    constructor
    · refine ⟨?_, ?_, ?_, ?_, ?_, ?_, ?_, ?_, ?_, ?_, ?_⟩
      · intro r h
        rw [e] at h
        have h2 := h0 r
        rw [hl.regFresh r h] at h2
        simpa using h2
      · rw [e]; exact hl.ctxFresh
      · rw [e]; exact hl.evCtx
      · rw [e]; exact hl.evReg
      · intro r; rw [h0 r, e]; exact hl.live r
      · intro r; rw [h0 r, e]; exact hl.liveM r
      · rw [e]; exact hl.count
      · intro r R hR
        obtain ⟨R', ds, a, rfl⟩ := h1 r R hR
        rw [e]; exact hl.idx r R' a
      · rw [e]; exact hl.cidx
      · rw [e]; exact hl.feats
      · rw [e]; exact hl.pol
    · refine hr.frame (by rw [e]) (by rw [e]) fun r R hR => ?_
      obtain ⟨R', ds, a, rfl⟩ := h1 r R hR
      exact ⟨R', a, rfl⟩

end Apollo.Ranks
