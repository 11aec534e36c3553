import Verif.Proofs.Kokkos
import Verif.Proofs.RegionInv

/-!
# Executions of the Kokkos connector
-/

namespace Apollo

variable {M : Type}

theorem exec_append {env : Env M} {a b : List Op} {w : World M} :
    exec env (a ++ b) w = (do let w ← exec env a w; exec env b w) := by
  induction a generalizing w with
  | nil => simp [exec]
  | cons op a ih =>
    simp only [List.cons_append, exec]
    cases h : step env w op with
    | error e => rfl
    | ok x => simp only [Res.bind_ok, ih]

theorem exec_one {env : Env M} {op : Op} {x : Ret} {w w' : World M}
    (h : step env w op = .ok (x, w')) : exec env [op] w = .ok w' := by
  simp [exec, h]

theorem exec_trans {env : Env M} {a b : List Op} {w₁ w₂ w₃ : World M}
    (h1 : exec env a w₁ = .ok w₂) (h2 : exec env b w₂ = .ok w₃) :
    exec env (a ++ b) w₁ = .ok w₃ := by
  rw [exec_append, h1, Res.bind_ok, h2]

/-- The parts of a region fixed by its creation. -/
structure Region.Same (R R₀ : Region) : Prop where
  name : R.name = R₀.name
  numFeatures : R.numFeatures = R₀.numFeatures
  numPolicies : R.numPolicies = R₀.numPolicies
  modelName : R.modelName = R₀.modelName
  params : R.params = R₀.params

/-- Regions that exist were created later or were there with the same parameters. -/
def Since (w₀ w : World M) : Prop :=
  w₀.nextRegion ≤ w.nextRegion ∧
    ∀ r R, r < w₀.nextRegion → w.regions r = some R → ∃ R₀, w₀.regions r = some R₀ ∧ R.Same R₀

theorem Since.refl (w : World M) : Since w w :=
  ⟨le_rfl, fun _ R _ h => ⟨R, h, ⟨rfl, rfl, rfl, rfl, rfl⟩⟩⟩

theorem Since.of {w₀ w w' : World M} (h : Since w₀ w) (hn : w.nextRegion ≤ w'.nextRegion)
    (hr : ∀ r R, r < w.nextRegion → w'.regions r = some R → ∃ R₀, w.regions r = some R₀ ∧ R.Same R₀) :
    Since w₀ w' := by
  refine ⟨h.1.trans hn, fun r R hlt hR => ?_⟩
  obtain ⟨R₁, h1, h2⟩ := hr r R (lt_of_lt_of_le hlt h.1) hR
  obtain ⟨R₀, h3, h4⟩ := h.2 r R₁ hlt h1
  exact ⟨R₀, h3, ⟨h2.name.trans h4.name, h2.numFeatures.trans h4.numFeatures,
    h2.numPolicies.trans h4.numPolicies, h2.modelName.trans h4.modelName, h2.params.trans h4.params⟩⟩

theorem regions_same {w w' : World M} {r : ℕ} {R R' : Region} (hR : w.regions r = some R)
    (h : w'.regions = Function.update w.regions r (some R')) (h1 : R'.Same R) :
    ∀ r R, w'.regions r = some R → ∃ R₀, w.regions r = some R₀ ∧ R.Same R₀ := by
  intro r' R₁ hR₁
  rw [h] at hR₁
  by_cases heq : r' = r
  · subst heq
    rw [Function.update_self, Option.some.injEq] at hR₁
    subst hR₁
    exact ⟨R, hR, h1⟩
  · rw [Function.update_of_ne heq] at hR₁; exact ⟨R₁, hR₁, ⟨rfl, rfl, rfl, rfl, rfl⟩⟩

theorem Since.invariant (env : Env M) (F : ℕ → Prop) (w₀ : World M) :
    Invariant env F (Since w₀) := by
  have hst : Stable env F (Since w₀) := by
    refine Stable.of ?_ ?_ ?_ ?_
    · intro w l w' ht hw
      exact hw.of ht.nextRegion.ge fun r R _ h =>
        ⟨R, by rw [← ht.regions]; exact h, ⟨rfl, rfl, rfl, rfl, rfl⟩⟩
    · intro w c hw; exact hw
    · intro w r c m w' hw h
      obtain ⟨R, m, C, l, h1⟩ := collectContext_ok h
      exact Since.of (w := w) hw h1.nextRegion.ge fun r' R' _ hR' =>
        regions_same (w := w) h1.region h1.regions ⟨rfl, rfl, rfl, rfl, rfl⟩ r' R' hR'
    · intro w r R cs hw hR
      exact hw.of le_rfl fun r' R' _ hR' =>
        regions_same (R' := { R with pending := cs }) hR rfl ⟨rfl, rfl, rfl, rfl, rfl⟩ r' R' hR'
  exact {
    toKept := hst.kept
    finish := hst.finish
    began := fun w r c R C w' hw h => hw.of h.nextRegion.ge fun r' R' _ hR' =>
      regions_same h.region h.regions ⟨rfl, rfl, rfl, rfl, rfl⟩ r' R' hR'
    assigned := fun _ _ _ _ hw _ => hw
    feature := fun _ _ _ _ hw _ => hw
    chose := fun _ _ _ _ _ _ _ _ hw _ _ _ _ => hw
    stop := fun _ _ _ _ hw _ => hw
    ended := fun _ _ c R hw hR _ _ => hw.of le_rfl fun r' R' _ hR' =>
      regions_same (R' := { R with pending := R.pending ++ [c] }) hR rfl ⟨rfl, rfl, rfl, rfl, rfl⟩ r' R' hR'
    period := fun _ hw => hw
    destroyed := by
      intro w r R hw _ _
      have e : (afterDestroy env w r R).regions = Function.update w.regions r none := by
        obtain ⟨f, hf⟩ := afterDestroy_eq env w r R; rw [hf]; rfl
      have e' : (afterDestroy env w r R).nextRegion = w.nextRegion := by
        obtain ⟨f, hf⟩ := afterDestroy_eq env w r R; rw [hf]; rfl
      refine hw.of e'.ge fun r' R' _ h => ?_
      rw [e] at h
      by_cases heq : r' = r
      · subst heq; rw [Function.update_self] at h; cases h
      · rw [Function.update_of_ne heq] at h; exact ⟨R', h, ⟨rfl, rfl, rfl, rfl, rfl⟩⟩
    created := by
      intro w nf name n mt info yaml r w' hw h
      obtain ⟨R, m, l, h1⟩ := createRegion_ok h
      have hid := h1.id
      refine hw.of (by rw [h1.nextRegion]; omega) fun r' R' hlt hR' => ?_
      rw [h1.regions, Function.update_of_ne (by omega)] at hR'
      exact ⟨R', hR', ⟨rfl, rfl, rfl, rfl, rfl⟩⟩ }

namespace Kokkos

/-- Programs of the library that the connector runs: regions are created without a model file. -/
def Plain (ops : List Op) : Prop :=
  (∀ nf name n mt info yaml, Op.create nf name n mt info yaml ∈ ops → yaml = []) ∧
  ∀ r s c, Op.train r s c true ∉ ops

theorem Plain.nil : Plain [] := ⟨fun _ _ _ _ _ _ h => absurd h List.not_mem_nil,
  fun _ _ _ h => absurd h List.not_mem_nil⟩

theorem Plain.append {a b : List Op} (ha : Plain a) (hb : Plain b) : Plain (a ++ b) :=
  ⟨fun nf name n mt info yaml h => (List.mem_append.1 h).elim (ha.1 nf name n mt info yaml)
    (hb.1 nf name n mt info yaml),
   fun r s c h => (List.mem_append.1 h).elim (ha.2 r s c) (hb.2 r s c)⟩

/-- The library ran a program from one world to the other. -/
def Runs (env : Env M) (w w' : World M) : Prop := ∃ ops, Plain ops ∧ exec env ops w = .ok w'

theorem Runs.refl (env : Env M) (w : World M) : Runs env w w := ⟨[], Plain.nil, rfl⟩

theorem Runs.trans {env : Env M} {w₁ w₂ w₃ : World M} (h1 : Runs env w₁ w₂) (h2 : Runs env w₂ w₃) :
    Runs env w₁ w₃ := by
  obtain ⟨a, ha, h1⟩ := h1
  obtain ⟨b, hb, h2⟩ := h2
  exact ⟨a ++ b, ha.append hb, exec_trans h1 h2⟩

theorem Runs.one {env : Env M} {op : Op} {x : Apollo.Ret} {w w' : World M}
    (h : step env w op = .ok (x, w')) (hp : Plain [op]) : Runs env w w' := ⟨[op], hp, exec_one h⟩

theorem Runs.since {env : Env M} {w w' : World M} (h : Runs env w w') : Since w w' := by
  obtain ⟨ops, -, h⟩ := h
  exact (Since.invariant env (fun _ => True) w).exec (fun _ _ _ _ => trivial) (Since.refl w) h

theorem setFeatures_runs {env : Env M} {hash : Str → ℕ} {c : CtxPtr} (r : ℕ) :
    ∀ {vs : List (ℕ × Value)} {w w' : World M}, setFeatures hash c vs w = .ok w' → Runs env w w'
  | [], w, w', h => by simp only [setFeatures] at h; cases h; exact Runs.refl env w
  | v :: vs, w, w', h => by
    unfold setFeatures at h
    obtain ⟨w₁, h1, h⟩ := (Res.bind_eq_ok _ _ _).1 h
    refine (Runs.one (op := .setFeature r c (toFloat hash v.2)) (x := .unit) (w' := w₁) ?_ ?_).trans
      (setFeatures_runs r h)
    · simp [step, h1]
    · exact ⟨by simp, by simp⟩

variable {e : KEnv M}

/-- What `problemRegion` does. -/
theorem problemRegion_ok {s s' : State M} {ids : List ℕ} {nctx : ℕ} {n : ℤ} {r : ℕ}
    (h : problemRegion e s ids nctx n = .ok (r, s')) :
    (s.regions.find ids = some r ∧ s' = s) ∨
    (s.regions.find ids = none ∧ ∃ name info u w, regionName s ids = .ok name ∧
      info = (if (s.world.files (modelPath (name.take 63))).isSome then modelPath (name.take 63)
        else []) ∧
      createRegion e.env s.world nctx (name.take 63) (wrap32 n) 0 info [] = .ok (r, w) ∧
      s' = { s with world := w, regions := s.regions.insert ids r, unconverged := u }) := by
  unfold problemRegion at h
  split at h
  · cases h; exact .inl ⟨‹_›, rfl⟩
  · rename_i hf
    unfold newRegion at h
    obtain ⟨name, h1, h⟩ := (Res.bind_eq_ok _ _ _).1 h
    obtain ⟨⟨r', w⟩, h2, h⟩ := (Res.bind_eq_ok _ _ _).1 h
    cases h
    exact .inr ⟨hf, name, _, _, w, h1, rfl, h2, rfl⟩

theorem problemRegion_runs {s s' : State M} {ids : List ℕ} {nctx : ℕ} {n : ℤ} {r : ℕ}
    (h : problemRegion e s ids nctx n = .ok (r, s')) : Runs e.env s.world s'.world := by
  rcases problemRegion_ok h with ⟨-, rfl⟩ | ⟨-, name, info, u, w, -, -, h', rfl⟩
  · exact Runs.refl _ _
  · refine Runs.one (op := .create nctx (name.take 63) (wrap32 n) 0 info []) (x := .region r) ?_ ?_
    · simp [step, h']
    · exact ⟨by simp, by simp⟩

/-- What a request does. -/
theorem request_ok {s s' : State M} {cid : ℕ} {ctx : List (ℕ × Value)} {tuning : List ℕ} {x : Ret}
    (h : request e s cid ctx tuning = .ok (x, s')) :
    (tuning = [] ∧ x = .ignored ∧ s' = s) ∨
    (tuning ≠ [] ∧ ∃ n r s₁ w₁ w₂ p w₃ vs, spaceSize s tuning 1 = .ok n ∧
      (ctx.map Prod.fst ++ tuning).length ≤ 50 ∧
      problemRegion e s (ctx.map Prod.fst ++ tuning) ctx.length n = .ok (r, s₁) ∧
      begin e.env s₁.world r .sync = .ok (.sync r, w₁) ∧
      setFeatures e.hash (.sync r) ctx w₁ = .ok w₂ ∧
      getPolicyIndex e.env w₂ r (.sync r) = .ok (p, w₃) ∧
      decode s₁ tuning p = .ok vs ∧ x = .values r vs ∧
      s' = { s₁ with world := w₃,
                     contexts := Function.update s₁.contexts cid (some (r, .sync r)) }) := by
  unfold request at h
  split at h
  · cases h; exact .inl ⟨‹_›, rfl, rfl⟩
  · rename_i ht
    refine .inr ⟨ht, ?_⟩
    obtain ⟨n, h1, h⟩ := (Res.bind_eq_ok _ _ _).1 h
    dsimp only at h
    split at h
    · cases h
    · rename_i hlen
      obtain ⟨⟨r, s₁⟩, h2, h⟩ := (Res.bind_eq_ok _ _ _).1 h
      obtain ⟨⟨c, w₁⟩, h3, h⟩ := (Res.bind_eq_ok _ _ _).1 h
      obtain ⟨w₂, h4, h⟩ := (Res.bind_eq_ok _ _ _).1 h
      obtain ⟨⟨p, w₃⟩, h5, h⟩ := (Res.bind_eq_ok _ _ _).1 h
      obtain ⟨vs, h6, h⟩ := (Res.bind_eq_ok _ _ _).1 h
      cases h
      have hc : c = .sync r := by
        unfold begin at h3
        obtain ⟨_, _, h3⟩ := (Res.bind_eq_ok _ _ _).1 h3
        obtain ⟨⟨c', w'⟩, h7, h3⟩ := (Res.bind_eq_ok _ _ _).1 h3
        obtain ⟨R, _, h3⟩ := (Res.bind_eq_ok _ _ _).1 h3
        obtain ⟨C, _, h3⟩ := (Res.bind_eq_ok _ _ _).1 h3
        dsimp only at h3
        split at h3
        · cases h3
          simp only [createContext] at h7
          obtain ⟨_, _, h7⟩ := (Res.bind_eq_ok _ _ _).1 h7
          cases h7
          rfl
        · cases h3
      subst hc
      exact ⟨n, r, s₁, w₁, w₂, p, w₃, vs, h1, by omega, h2, h3, h4, h5, h6, rfl, rfl⟩

theorem request_runs {s s' : State M} {cid : ℕ} {ctx : List (ℕ × Value)} {tuning : List ℕ} {x : Ret}
    (h : request e s cid ctx tuning = .ok (x, s')) : Runs e.env s.world s'.world := by
  rcases request_ok h with ⟨-, -, rfl⟩ | ⟨-, n, r, s₁, w₁, w₂, p, w₃, vs, -, -, h2, h3, h4, h5, -, -, rfl⟩
  · exact Runs.refl _ _
  · refine (problemRegion_runs h2).trans ?_
    refine Runs.trans (Runs.one (op := .begin r .sync) (x := .ctx (.sync r)) (w' := w₁) ?_ ?_) ?_
    · simp [step, h3]
    · exact ⟨by simp, by simp⟩
    refine (setFeatures_runs r h4).trans ?_
    refine Runs.one (op := .getPolicyIndex r (.sync r)) (x := .policy p) ?_ ?_
    · simp [step, h5]
    · exact ⟨by simp, by simp⟩

/-- What the end of a context does. -/
theorem endContext_ok {s s' : State M} {cid : ℕ} {x : Ret}
    (h : endContext e s cid = .ok (x, s')) :
    (s.contexts cid = none ∧ x = .ignored ∧ s' = s) ∨
    ∃ r c w, s.contexts cid = some (r, c) ∧ endCtx e.env s.world r c = .ok w ∧ e.flush ≠ 0 ∧
      s.encounter + 1 < 2 ^ 31 ∧
      ((e.flush ∣ s.encounter + 1 ∧ ∃ w', apolloTrain e.env w 0 true = .ok w' ∧ x = .ended true ∧
          s' = { s with world := w', contexts := Function.update s.contexts cid none,
                        encounter := s.encounter + 1, unconverged := 0 }) ∨
       (¬ e.flush ∣ s.encounter + 1 ∧ x = .ended false ∧
          s' = { s with world := w, contexts := Function.update s.contexts cid none,
                        encounter := s.encounter + 1 })) := by
  unfold endContext at h
  split at h
  · cases h; exact .inl ⟨‹_›, rfl, rfl⟩
  · rename_i r c hc
    obtain ⟨w, h1, h⟩ := (Res.bind_eq_ok _ _ _).1 h
    dsimp only at h
    split at h
    · rename_i hlt
      split at h
      · cases h
      · rename_i hf
        refine .inr ⟨r, c, w, hc, h1, hf, hlt, ?_⟩
        split at h
        · rename_i hm
          obtain ⟨w', h2, h⟩ := (Res.bind_eq_ok _ _ _).1 h
          cases h
          exact .inl ⟨Int.dvd_of_tmod_eq_zero hm, w', h2, rfl, rfl⟩
        · rename_i hm
          cases h
          exact .inr ⟨fun hd => hm (Int.tmod_eq_zero_of_dvd hd), rfl, rfl⟩
    · cases h

theorem endContext_runs {s s' : State M} {cid : ℕ} {x : Ret}
    (h : endContext e s cid = .ok (x, s')) : Runs e.env s.world s'.world := by
  rcases endContext_ok h with ⟨-, -, rfl⟩ | ⟨r, c, w, -, h1, -, -, h2⟩
  · exact Runs.refl _ _
  · have h3 : Runs e.env s.world w := by
      refine Runs.one (op := .endCtx r c) (x := .unit) ?_ ⟨by simp, by simp⟩
      simp [step, h1]
    rcases h2 with ⟨-, w', h2, -, rfl⟩ | ⟨-, -, rfl⟩
    · refine h3.trans (Runs.one (op := .trainAll 0 true) (x := .unit) ?_ ⟨by simp, by simp⟩)
      simp [step, h2]
    · exact h3

theorem declareOutput_ok {s s' : State M} {id : ℕ} {name : Str} {c : Candidates}
    (h : declareOutput s id name c = .ok s') : s.decls id = none ∧ ∃ n vs, associate c = .ok (n, vs) ∧
      s' = { s with decls := Function.update s.decls id (some ⟨name, n, vs⟩) } := by
  unfold declareOutput at h
  split at h
  · cases h
  · rename_i hn
    obtain ⟨⟨n, vs⟩, h1, h⟩ := (Res.bind_eq_ok _ _ _).1 h
    cases h
    exact ⟨by simpa using hn, n, vs, h1, rfl⟩

theorem declareInput_ok {s s' : State M} {id : ℕ} {name : Str}
    (h : declareInput s id name = .ok s') : s.decls id = none ∧
      s' = { s with decls := Function.update s.decls id (some ⟨name, 0, []⟩) } := by
  unfold declareInput at h
  split at h
  · cases h
  · rename_i hn
    cases h
    exact ⟨by simpa using hn, rfl⟩

theorem kstep_runs {s s' : State M} {op : KOp} {x : Ret} (h : kstep e s op = .ok (x, s')) :
    Runs e.env s.world s'.world := by
  cases op with
  | declareOutput id name c =>
    obtain ⟨s₁, h1, h⟩ := (Res.bind_eq_ok _ _ _).1 h
    cases h
    obtain ⟨-, n, vs, -, rfl⟩ := declareOutput_ok h1
    exact Runs.refl _ _
  | declareInput id name =>
    obtain ⟨s₁, h1, h⟩ := (Res.bind_eq_ok _ _ _).1 h
    cases h
    obtain ⟨-, rfl⟩ := declareInput_ok h1
    exact Runs.refl _ _
  | request cid ctx tuning => exact request_runs h
  | endContext cid => exact endContext_runs h

theorem kexec_cons {s s' : State M} {op : KOp} {ops : List KOp} {xs : List Ret}
    (h : kexec e (op :: ops) s = .ok (xs, s')) :
    ∃ x s₁ ys, kstep e s op = .ok (x, s₁) ∧ kexec e ops s₁ = .ok (ys, s') ∧ xs = x :: ys := by
  simp only [kexec] at h
  obtain ⟨⟨x, s₁⟩, h1, h⟩ := (Res.bind_eq_ok _ _ _).1 h
  obtain ⟨⟨ys, s₂⟩, h2, h⟩ := (Res.bind_eq_ok _ _ _).1 h
  cases h
  exact ⟨x, s₁, ys, h1, h2, rfl⟩

/-- Everything the connector does to the library is a program of the library. -/
theorem kexec_runs {ops : List KOp} {s s' : State M} {xs : List Ret}
    (h : kexec e ops s = .ok (xs, s')) : Runs e.env s.world s'.world := by
  induction ops generalizing s xs with
  | nil => simp only [kexec] at h; cases h; exact Runs.refl _ _
  | cons op ops ih =>
    obtain ⟨x, s₁, ys, h1, h2, -⟩ := kexec_cons h
    exact (kstep_runs h1).trans (ih h2)

end Kokkos

end Apollo
