import Verif.Model.NetExplorer
import Verif.Spec.NetExplorer
import Verif.Proofs.InterfaceNet
import Verif.Proofs.PolicyNetReal

/-!
# Trees and forests which explore with a network: lemmas
-/

namespace Apollo

open Spec Props Arith Net

variable {α : Type} [Arith α]

/-- `ModelOps.getIndex` for one list of features after the other. -/
def ModelOps.answers {M : Type} (ops : ModelOps M) : M → List Features → Res (List ℤ × M)
  | m, [] => .ok ([], m)
  | m, f :: fs => do
    let (p, m) ← ops.getIndex m f
    let (ps, m) ← ops.answers m fs
    .ok (p :: ps, m)

/-- Trees and forests which differ in their explorers only, and whether they still explore. -/
inductive AlikeAt : Bool → AllModel α → AllModel α → Prop
  | tree (n : ℤ) (b : Bool) (t : TreeImpl) (P : PolicyNet α) (e : PolicyModel) :
      AlikeAt b (.guided (.tree n b .null t) P) (.any (.plain (.tree n b e t)))
  | forest (n : ℤ) (b : Bool) (t : ForestImpl) (P : PolicyNet α) (e : PolicyModel) :
      AlikeAt b (.guided (.forest n b .null t) P) (.any (.plain (.forest n b e t)))

section

variable [Stored α] {gen : ℕ → ℕ → ℕ} {tenv : ℕ → TrainEnv} {d : NetDraws α}

theorem AlikeAt.index_trained {g m : AllModel α} (h : AlikeAt false g m) (f : Features) :
    (∃ p, (allOps gen tenv d).getIndex g f = .ok (p, g) ∧ (allOps gen tenv d).getIndex m f = .ok (p, m)) ∨
      ∃ e, (allOps gen tenv d).getIndex g f = .error e ∧ (allOps gen tenv d).getIndex m f = .error e := by
  cases h with
  | tree n _ t P e =>
    simp only [allOps, netOps, PolicyModel.isTrainable, PolicyModel.getIndex, Bool.not_false, if_true,
      Bool.false_eq_true, if_false]
    cases t.predict f with
    | error e => exact .inr ⟨e, rfl, rfl⟩
    | ok c => exact .inl ⟨c, rfl, rfl⟩
  | forest n _ t P e =>
    simp only [allOps, netOps, PolicyModel.isTrainable, PolicyModel.getIndex, Bool.not_false, if_true,
      Bool.false_eq_true, if_false]
    cases t.predict f with
    | error e => exact .inr ⟨e, rfl, rfl⟩
    | ok c => exact .inl ⟨c, rfl, rfl⟩

theorem AlikeAt.index_left {g g' m : AllModel α} {b : Bool} (h : AlikeAt b g m) {f : Features} {p : ℤ}
    (hi : (allOps gen tenv d).getIndex g f = .ok (p, g')) : AlikeAt b g' m := by
  cases b with
  | false =>
    rcases h.index_trained (gen := gen) (tenv := tenv) (d := d) f with ⟨q, h1, -⟩ | ⟨e, h1, -⟩ <;>
      rw [hi] at h1 <;> cases h1
    exact h
  | true =>
    cases h with
    | tree n _ t P e =>
      simp only [allOps, PolicyModel.isTrainable, if_true] at hi
      obtain ⟨⟨i, P'⟩, -, hi⟩ := (Res.bind_eq_ok _ _ _).1 hi
      cases hi
      exact .tree ..
    | forest n _ t P e =>
      simp only [allOps, PolicyModel.isTrainable, if_true] at hi
      obtain ⟨⟨i, P'⟩, -, hi⟩ := (Res.bind_eq_ok _ _ _).1 hi
      cases hi
      exact .forest ..

theorem AlikeAt.index_right {g m m' : AllModel α} {b : Bool} (h : AlikeAt b g m) {f : Features} {p : ℤ}
    (hi : (allOps gen tenv d).getIndex m f = .ok (p, m')) : AlikeAt b g m' := by
  cases b with
  | false =>
    rcases h.index_trained (gen := gen) (tenv := tenv) (d := d) f with ⟨q, -, h1⟩ | ⟨e, -, h1⟩ <;>
      rw [hi] at h1 <;> cases h1
    exact h
  | true =>
    cases h with
    | tree n _ t P e =>
      simp only [allOps, netOps, PolicyModel.getIndex, Bool.not_true, Bool.false_eq_true, if_false] at hi
      obtain ⟨⟨i, m₁⟩, h1, hi⟩ := (Res.bind_eq_ok _ _ _).1 hi
      obtain ⟨⟨j, m₂⟩, h2, h1⟩ := (Res.bind_eq_ok _ _ _).1 h1
      obtain ⟨⟨k, m₃⟩, h3, h2⟩ := (Res.bind_eq_ok _ _ _).1 h2
      cases h2
      cases h1
      cases hi
      exact .tree ..
    | forest n _ t P e =>
      simp only [allOps, netOps, PolicyModel.getIndex, Bool.not_true, Bool.false_eq_true, if_false] at hi
      obtain ⟨⟨i, m₁⟩, h1, hi⟩ := (Res.bind_eq_ok _ _ _).1 hi
      obtain ⟨⟨j, m₂⟩, h2, h1⟩ := (Res.bind_eq_ok _ _ _).1 h1
      obtain ⟨⟨k, m₃⟩, h3, h2⟩ := (Res.bind_eq_ok _ _ _).1 h2
      cases h2
      cases h1
      cases hi
      exact .forest ..

theorem AlikeAt.answers_left {g g' m : AllModel α} {b : Bool} (h : AlikeAt b g m) {fs : List Features}
    {ps : List ℤ} (hi : (allOps gen tenv d).answers g fs = .ok (ps, g')) : AlikeAt b g' m := by
  induction fs generalizing g ps with
  | nil => cases hi; exact h
  | cons f fs ih =>
    unfold ModelOps.answers at hi
    obtain ⟨⟨p, g₁⟩, h1, hi⟩ := (Res.bind_eq_ok _ _ _).1 hi
    obtain ⟨⟨qs, g₂⟩, h2, hi⟩ := (Res.bind_eq_ok _ _ _).1 hi
    cases hi
    exact ih (h.index_left h1) h2

theorem AlikeAt.answers_right {g m m' : AllModel α} {b : Bool} (h : AlikeAt b g m) {fs : List Features}
    {ps : List ℤ} (hi : (allOps gen tenv d).answers m fs = .ok (ps, m')) : AlikeAt b g m' := by
  induction fs generalizing m ps with
  | nil => cases hi; exact h
  | cons f fs ih =>
    unfold ModelOps.answers at hi
    obtain ⟨⟨p, g₁⟩, h1, hi⟩ := (Res.bind_eq_ok _ _ _).1 hi
    obtain ⟨⟨qs, g₂⟩, h2, hi⟩ := (Res.bind_eq_ok _ _ _).1 hi
    cases hi
    exact ih (h.index_right h1) h2

/-- Trained, they answer alike. -/
theorem AlikeAt.answers {g m : AllModel α} (h : AlikeAt false g m) (fs : List Features) :
    ((allOps gen tenv d).answers g fs).map Prod.fst = ((allOps gen tenv d).answers m fs).map Prod.fst := by
  induction fs with
  | nil => rfl
  | cons f fs ih =>
    unfold ModelOps.answers
    rcases h.index_trained (gen := gen) (tenv := tenv) (d := d) f with ⟨p, h1, h2⟩ | ⟨e, h1, h2⟩
    · rw [h1, h2, Res.bind_ok, Res.bind_ok]
      dsimp only
      cases h3 : (allOps gen tenv d).answers g fs with
      | error e =>
        cases h4 : (allOps gen tenv d).answers m fs with
        | error e' =>
          rw [h3, h4] at ih
          cases ih
          rfl
        | ok x => rw [h3, h4] at ih; cases ih
      | ok x =>
        cases h4 : (allOps gen tenv d).answers m fs with
        | error e' => rw [h3, h4] at ih; cases ih
        | ok y =>
          rw [h3, h4] at ih
          have : x.1 = y.1 := Except.ok.inj ih
          obtain ⟨x1, x2⟩ := x
          obtain ⟨y1, y2⟩ := y
          simp only at this
          subst this
          rfl
    · rw [h1, h2]

theorem AlikeAt.trained {g m : AllModel α} {b : Bool} (h : AlikeAt b g m) (t : ℕ) (ds : Dataset) :
    (∃ g' m', (allOps gen tenv d).train t ds g = .ok g' ∧ (allOps gen tenv d).train t ds m = .ok m' ∧
      AlikeAt false g' m') ∨
    ∃ e, (allOps gen tenv d).train t ds g = .error e ∧ (allOps gen tenv d).train t ds m = .error e := by
  cases h with
  | tree n _ T P e =>
    simp only [allOps, netOps, PolicyModel.train]
    cases T.train (tenv t).sort (PolicyModel.trainingSamples ds) with
    | error e => exact .inr ⟨e, rfl, rfl⟩
    | ok T' => exact .inl ⟨_, _, rfl, rfl, .tree ..⟩
  | forest n _ T P e =>
    simp only [allOps, netOps, PolicyModel.train]
    cases T.train (tenv t).sort (tenv t).draws (PolicyModel.trainingSamples ds) with
    | error e => exact .inr ⟨e, rfl, rfl⟩
    | ok T' => exact .inl ⟨_, _, rfl, rfl, .forest ..⟩

theorem AlikeAt.loaded {g m : AllModel α} {b : Bool} (h : AlikeAt b g m) (file : Option Str) :
    (∃ g' m', (allOps gen tenv d).load file g = .ok g' ∧ (allOps gen tenv d).load file m = .ok m' ∧
      AlikeAt false g' m') ∨
    ∃ e, (allOps gen tenv d).load file g = .error e ∧ (allOps gen tenv d).load file m = .error e := by
  cases h with
  | tree n _ T P e =>
    simp only [allOps, netOps, PolicyModel.load]
    cases file with
    | none => exact .inr ⟨.throw, rfl, rfl⟩
    | some s =>
      dsimp only
      cases T.load s with
      | error e => exact .inr ⟨e, rfl, rfl⟩
      | ok T' => exact .inl ⟨_, _, rfl, rfl, .tree ..⟩
  | forest n _ T P e =>
    simp only [allOps, netOps, PolicyModel.load]
    cases file with
    | none => exact .inr ⟨.throw, rfl, rfl⟩
    | some s =>
      dsimp only
      cases T.load s with
      | error e => exact .inr ⟨e, rfl, rfl⟩
      | ok T' => exact .inl ⟨_, _, rfl, rfl, .forest ..⟩

theorem AlikeAt.stored {g m : AllModel α} {b : Bool} (h : AlikeAt b g m) :
    (allOps gen tenv d).store g = (allOps gen tenv d).store m ∧
    (allOps gen tenv d).name g = (allOps gen tenv d).name m ∧
    (allOps gen tenv d).isTrainable g = b ∧ (allOps gen tenv d).isTrainable m = b := by
  cases h <;> exact ⟨rfl, rfl, rfl, rfl⟩

theorem allOps_ends : Ends (allOps gen tenv d) where
  train := fun t ds m => by
    cases m with
    | any m => exact Res.bind_ne_diverge ((netOps_ends gen tenv d).train t ds m) fun _ => by simp
    | guided m P => exact Res.bind_ne_diverge ((policyOps_ends gen tenv).train t ds m) fun _ => by simp
  store := fun m => by
    cases m with
    | any m => exact (netOps_ends gen tenv d).store m
    | guided m P => exact (policyOps_ends gen tenv).store m

end

/-! ## What the network reads -/

theorem flatMap_bits_getD (vs : List ℕ) (k : ℕ) :
    (vs.flatMap PolicyNet.bits).getD k false = (vs.getD (k / 64) 0).testBit (k % 64) := by
  induction vs generalizing k with
  | nil => simp
  | cons v vs ih =>
    have hl : (PolicyNet.bits v).length = 64 := PolicyNet.length_bits v
    rw [List.flatMap_cons]
    simp only [List.getD_eq_getElem?_getD] at ih ⊢
    by_cases hk : k < 64
    · rw [List.getElem?_append_left (by omega), Nat.div_eq_of_lt hk, Nat.mod_eq_of_lt hk]
      unfold PolicyNet.bits
      simp [List.getElem?_map, List.getElem?_range hk]
    · rw [List.getElem?_append_right (by omega), hl, ih,
        show k / 64 = (k - 64) / 64 + 1 by omega, show k % 64 = (k - 64) % 64 by omega,
        List.getElem?_cons_succ]

theorem input_encode {f : List ℚ} {bs : List Bool} (h : PolicyNet.encode f = .ok bs) :
    PolicyNet.input (α := α) bs = fun k => ofRat (if bitOfFeatures f k then 1 else 0) := by
  obtain ⟨vs, hvs, rfl⟩ := PolicyNet.mapM_of_encode h
  funext k
  unfold PolicyNet.input PolicyNet.bitVal bitOfFeatures
  rw [flatMap_bits_getD]
  have : vs = f.map fun v => ⌊v⌋₊ := by
    clear h
    induction f generalizing vs with
    | nil => cases hvs; rfl
    | cons x f ih =>
      rw [List.mapM_cons] at hvs
      obtain ⟨v, hv, h⟩ := (Res.bind_eq_ok _ _ _).1 hvs
      obtain ⟨ws, hws, h⟩ := (Res.bind_eq_ok _ _ _).1 h
      cases h
      unfold PolicyNet.toU64 at hv
      split at hv <;> cases hv
      rw [List.map_cons, ih ws hws]
      rfl
  subst this
  congr 3
  rw [List.getD_eq_getElem?_getD, List.getD_eq_getElem?_getD, List.getElem?_map]
  cases f[k / 64]? <;> simp

/-! ## Safety -/

/-- The models of all kinds, for `k` features and `n` policies, whose region has the data `ds`. -/
def GoodAll (fits : ℚ → Prop) (k : ℕ) (n : ℤ) (ds : Dataset) : AllModel α → Prop
  | .any m => GoodAny fits k n ds m
  | .guided m P => GoodNet fits k n P ∧
      ∃ m', AlikeAt m.isTrainable (.guided m P) (.any (.plain m')) ∧ GoodModel fits k n ds m'

omit [Arith α] in
theorem AlikeAt.net {g : PolicyModel} {P : PolicyNet α} {m : AllModel α} {b : Bool}
    (h : AlikeAt b (.guided g P) m) (P' : PolicyNet α) : AlikeAt b (.guided g P') m := by
  cases h
  · exact .tree ..
  · exact .forest ..

omit [Arith α] in
theorem AlikeAt.guided {g : AllModel α} {m : PolicyModel} {b : Bool} (h : AlikeAt b g (.any (.plain m))) :
    ∃ g' P, g = .guided g' P ∧ g'.isTrainable = b := by
  cases h <;> exact ⟨_, _, rfl, rfl⟩

/-- What a string for a tree or forest with a network as explorer creates. -/
theorem guided_made {info : Str} (h : GuidedModel info) [Stored α] (gen : ℕ → ℕ → ℕ) (tenv : ℕ → TrainEnv)
    (d : NetDraws α) (t : ℕ) {nf n : ℤ} (hnf : 0 ≤ nf) (hn : 1 ≤ n) :
    ∃ mn ps m, parsePolicyModel info = .ok (mn, ps) ∧ mn ≠ "StaticRegion".toList ∧
      (allOps gen tenv d).create t mn nf n ps = .ok (.guided m (.new n.toNat nf.toNat
        (ofRat (rnd64 (1 / 100))) (ofRat (1 / 2)) (ofRat (1 / 2)) (ofRat (rnd64 (9 / 10))) (ofRat 0)
        (d.weights t) (d.gen t))) ∧
      ((mn = "DecisionTree".toList ∧ ∃ depth, paramOr ps "max_depth".toList readUnsigned 2 = .ok depth ∧
          m = .tree n true .null (.new n depth)) ∨
        (mn = "RandomForest".toList ∧ ∃ trees depth,
          paramOr ps "num_trees".toList readUnsigned 10 = .ok trees ∧
          paramOr ps "max_depth".toList readUnsigned 2 = .ok depth ∧
          m = .forest n true .null (.new n trees depth))) ∧
      ps.find "load".toList = none ∧ ps.find "load-dataset".toList = none := by
  cases h with
  | tree items hwf hkeys hd he =>
    obtain ⟨depth, hd⟩ := UnsignedItem.is hd 2
    have hdoc : ∀ x ∈ items, documented "DecisionTree".toList x.key := by
      intro x hx
      have := hkeys x hx
      simp only [List.mem_cons, List.not_mem_nil, or_false] at this
      exact .inr (.inl ⟨rfl, this.elim .inl fun h => .inr (.inl h)⟩)
    obtain ⟨ps, h1, h2⟩ := parse_documented "DecisionTree".toList items (by decide) hwf hdoc
    have hno : ∀ key : Str, key ∉ ["max_depth".toList, "explore".toList] → ps.find key = none := by
      intro key hk
      rw [h2]
      exact firstValue_none fun x hx hxk => hk (hxk ▸ hkeys x hx)
    refine ⟨_, ps, .tree n true .null (.new n depth), h1, by decide, ?_, .inl ⟨rfl, depth, hd.read h2, rfl⟩,
      hno _ (by decide), hno _ (by decide)⟩
    dsimp only [allOps]
    rw [if_pos ⟨by rw [h2, he], rfl⟩, hd.read h2, Res.bind_ok]
    unfold netExplorer
    rw [if_neg (by omega), Res.bind_ok]
    rfl
  | forest items hwf hkeys ht hd he =>
    obtain ⟨trees, ht⟩ := UnsignedItem.is ht 10
    obtain ⟨depth, hd⟩ := UnsignedItem.is hd 2
    have hdoc : ∀ x ∈ items, documented "RandomForest".toList x.key := by
      intro x hx
      have := hkeys x hx
      simp only [List.mem_cons, List.not_mem_nil, or_false] at this
      exact .inr (.inr (.inl ⟨rfl, this.elim .inl fun h => .inr (h.elim .inl fun h => .inr (.inl h))⟩))
    obtain ⟨ps, h1, h2⟩ := parse_documented "RandomForest".toList items (by decide) hwf hdoc
    have hno : ∀ key : Str, key ∉ ["num_trees".toList, "max_depth".toList, "explore".toList] →
        ps.find key = none := by
      intro key hk
      rw [h2]
      exact firstValue_none fun x hx hxk => hk (hxk ▸ hkeys x hx)
    refine ⟨_, ps, .forest n true .null (.new n trees depth), h1, by decide, ?_,
      .inr ⟨rfl, trees, depth, ht.read h2, hd.read h2, rfl⟩, hno _ (by decide), hno _ (by decide)⟩
    dsimp only [allOps]
    rw [if_neg (fun h => absurd h.2 (by decide)), if_pos ⟨by rw [h2, he], rfl⟩, ht.read h2, Res.bind_ok,
      hd.read h2, Res.bind_ok]
    unfold netExplorer
    rw [if_neg (by omega), Res.bind_ok]
    rfl

/-- The explorer of other strings is not a network. -/
theorem other_explorer {region info : Str} (h : KnownModel region info ∨ NetModel info) {mn : Str}
    {ps : Params} (hp : parsePolicyModel info = .ok (mn, ps)) (hns : mn ≠ "StaticRegion".toList) :
    ps.find "explore".toList ≠ some "PolicyNet".toList := by
  have hsimple : ∀ {name : Str}, ',' ∉ name → parsePolicyModel name = .ok (mn, ps) →
      ps.find "explore".toList ≠ some "PolicyNet".toList := by
    intro name hc h
    have h' := C30_name_only name hc
    simp only [modelString] at h'
    have : parsePolicyModel name = .ok (name, []) := by simpa [modelString] using C30_name_only name hc
    rw [this] at h
    cases h
    exact fun h => by cases h
  have hitems : ∀ {name : Str} {items : List Item}, ',' ∉ name → (∀ x ∈ items, x.WF) →
      (∀ x ∈ items, documented name x.key) → firstValue items "explore".toList ≠ some "PolicyNet".toList →
      parsePolicyModel (modelString name items) = .ok (mn, ps) →
      ps.find "explore".toList ≠ some "PolicyNet".toList := by
    intro name items h1 h2 h3 h4 h5
    obtain ⟨ps', h6, h7⟩ := parse_documented name items h1 h2 h3
    rw [h6] at h5
    cases h5
    rw [h7]
    exact h4
  rcases h with h | h
  · cases h with
    | static => exact hsimple (by decide) hp
    | roundRobin => exact hsimple (by decide) hp
    | random => exact hsimple (by decide) hp
    | staticRegion items hwf k hk h =>
      obtain ⟨ps', h1, -⟩ := parse_documented "StaticRegion".toList items (by decide) hwf
        (fun x hx => by unfold documented; simp)
      rw [h1] at hp
      cases hp
      exact absurd rfl hns
    | staticPolicy k hk =>
      rw [staticPolicy_string] at hp
      refine hitems (by decide) ?_ ?_ ?_ hp
      · intro x hx
        rw [List.mem_singleton.1 hx]
        refine ⟨show ',' ∉ "policy".toList by decide, show '=' ∉ "policy".toList by decide, fun v hv => ?_⟩
        cases hv
        exact PolicyModel.comma_not_mem_fmtInt _
      · intro x hx
        rw [List.mem_singleton.1 hx]
        exact .inl ⟨rfl, rfl⟩
      · rw [firstValue_none fun x hx => by
          rw [List.mem_singleton.1 hx]; exact (by decide : "policy".toList ≠ "explore".toList)]
        simp
    | tree items hwf hkeys hd he =>
      refine hitems (by decide) hwf (fun x hx => ?_) ?_ hp
      · have := hkeys x hx
        simp only [List.mem_cons, List.not_mem_nil, or_false] at this
        exact .inr (.inl ⟨rfl, this.elim .inl fun h => .inr (.inl h)⟩)
      · intro h
        unfold ExplorerItem at he
        rw [h] at he
        revert he
        decide
    | forest items hwf hkeys ht hd he =>
      refine hitems (by decide) hwf (fun x hx => ?_) ?_ hp
      · have := hkeys x hx
        simp only [List.mem_cons, List.not_mem_nil, or_false] at this
        exact .inr (.inr (.inl ⟨rfl, this.elim .inl fun h => .inr (h.elim .inl fun h => .inr (.inl h))⟩))
      · intro h
        unfold ExplorerItem at he
        rw [h] at he
        revert he
        decide
  · cases h with
    | net items hwf hkeys hreal =>
      refine hitems (by decide) hwf (fun x hx => ?_) ?_ hp
      · have := hkeys x hx
        simp only [List.mem_cons, List.not_mem_nil, or_false] at this
        rcases this with h | h | h | h | h <;> rw [h] <;> unfold documented <;> decide
      · rw [firstValue_none fun x hx hxk => by
          have := hkeys x hx
          rw [hxk] at this
          revert this
          decide]
        simp

/-- Trees and forests with a network as explorer keep to what the regions need of them, as all others. -/
theorem allOps_safe [Stored α] {env : Env (AllModel α)} {gen : ℕ → ℕ → ℕ} {tenv : ℕ → TrainEnv}
    {d : NetDraws α} {ρ : UseRules} {pm : Str} (hops : env.ops = allOps gen tenv d)
    (hσ : ∀ t, SortSpec (tenv t).sort) (hd : ∀ t k, lt (ofRat 1) (d.gen t k) = false)
    (hmost : ρ.most ≤ 2 ^ 19)
    (hknown : ∀ name info n, ρ.known name info n → KnownModel name (if info = [] then pm else info) ∨
      (NetModel (if info = [] then pm else info) ∨ GuidedModel (if info = [] then pm else info)) ∧
        ∀ v, ρ.fits info v → FitsUnsigned v)
    (hpoll : ∀ t l i, env.poll t l i ≠ .failed) (hasync : ρ.async → env.async) :
    Safe env (fun s => GoodAll (ρ.fits s)) ρ pm := by
  -- the models without such explorers, in surroundings of their own
  let env' : Env (AnyModel α) :=
    { ops := netOps gen tenv d, clock := env.clock, poll := env.poll, async := env.async }
  let ρ' : UseRules := { ρ with known := fun name info n => ρ.known name info n ∧
    (KnownModel name (if info = [] then pm else info) ∨ NetModel (if info = [] then pm else info)) }
  have hS : Safe env' (fun s => GoodAny (ρ.fits s)) ρ' pm :=
    netOps_safe (env := env') (ρ := ρ') rfl hσ hd hmost (fun name info n hk => by
      rcases hknown name info n hk.1 with h | ⟨-, h⟩
      · exact .inl h
      · exact hk.2.imp id fun hn => ⟨hn, h⟩) hpoll hasync
  exact {
    grow := fun {s k n ds m} h f p x => by
      cases m with
      | any m => exact hS.grow h f p x
      | guided m P =>
        obtain ⟨h1, m', h2, h3⟩ := h
        exact ⟨h1, m', h2, h3.grow f p x⟩
    index := fun {s k n ds m f} hn h hl hf => by
      rw [hops]
      cases m with
      | any m =>
        obtain ⟨p, m', h1, h2, h3⟩ := hS.index hn h hl hf
        have h1 : (netOps gen tenv d).getIndex m f = .ok (p, m') := h1
        exact ⟨p, .any m', by simp only [allOps, h1, Res.bind_ok], h2, h3⟩
      | guided m P =>
        obtain ⟨h1, m', h2, h3⟩ := h
        cases hb : m.isTrainable with
        | true =>
          obtain ⟨p, P', h4, h5, h6⟩ := h1.index hn hl hf
          exact ⟨p, .guided m P', by simp only [allOps, hb, if_true, h4, Res.bind_ok], h5, h6, m', h2.net P', h3⟩
        | false =>
          obtain ⟨p, m'', h4, h5, h6⟩ := h3.index hn hl
          have h7 : (allOps gen tenv d).getIndex (.any (.plain m')) f = .ok (p, .any (.plain m'')) := by
            simp only [allOps, netOps, h4, Res.bind_ok]
          have h2' := h2
          rw [hb] at h2'
          rcases h2'.index_trained (gen := gen) (tenv := tenv) (d := d) f with ⟨q, h8, h9⟩ | ⟨e, -, h9⟩
          · rw [h7] at h9
            cases h9
            exact ⟨p, _, h8, h5, h1, m', h2, h3⟩
          · rw [h7] at h9
            cases h9
    train := fun {s k n ds m} hn h hd h0 hl t => by
      rw [hops]
      cases m with
      | any m =>
        obtain ⟨m', h1, h2, h3⟩ := hS.train hn h hd h0 hl t
        have h1 : (netOps gen tenv d).train t ds m = .ok m' := h1
        exact ⟨.any m', by simp only [allOps, h1, Res.bind_ok], h2, h3⟩
      | guided m P =>
        obtain ⟨h1, m', h2, h3⟩ := h
        obtain ⟨m₁, h4, h5, h6⟩ := h3.train (hσ t) hd h0 (le_trans hl hmost)
        have h7 : (allOps gen tenv d).train t ds (.any (.plain m')) = .ok (.any (.plain m₁)) := by
          simp only [allOps, netOps, h4, Res.bind_ok]
        rcases h2.trained (gen := gen) (tenv := tenv) (d := d) t ds with ⟨g, m₂, h8, h9, ha⟩ | ⟨e, -, h9⟩
        · rw [h7] at h9
          cases h9
          obtain ⟨g', P', rfl, hb⟩ := ha.guided
          have hP : P' = P := by
            simp only [allOps] at h8
            obtain ⟨x, -, h8⟩ := (Res.bind_eq_ok _ _ _).1 h8
            cases h8
            rfl
          subst hP
          refine ⟨_, h8, ⟨h1, m₁, ?_, h5⟩, fun hw => ?_⟩
          · rw [hb]; exact ha
          · obtain ⟨s, hs⟩ := h6 (hw _)
            exact ⟨s, by rw [(ha.stored (gen := gen) (tenv := tenv) (d := d)).1]; exact hs⟩
        · rw [h7] at h9
          cases h9
    makes := fun {name info n nf} hk hn hnf t => by
      have hcase : (KnownModel name (if info = [] then pm else info) ∨ NetModel (if info = [] then pm else info)) ∨
          GuidedModel (if info = [] then pm else info) ∧ ∀ v, ρ.fits info v → FitsUnsigned v := by
        rcases hknown name info n hk with h | ⟨h | h, hf⟩
        · exact .inl (.inl h)
        · exact .inl (.inr h)
        · exact .inr ⟨h, hf⟩
      rcases hcase with hk' | ⟨hk', hf⟩
      · obtain ⟨mn, ps, mn', ps', info', m, h1, h2, h3, h4, h5, h6, h7, h8⟩ := hS.makes ⟨hk, hk'⟩ hn hnf t
        refine ⟨mn, ps, mn', ps', info', .any m, h1, h2, ?_, h4, h5, h6, h7, h8⟩
        have hne : ps'.find "explore".toList ≠ some "PolicyNet".toList := by
          unfold resolveStaticRegion at h2
          split at h2
          · split at h2
            · cases h2
            · cases h2
              exact fun h => by
                revert h
                simp [Params.find]
          · rename_i hns
            cases h2
            exact other_explorer hk' h1 hns
        have h3 : (netOps gen tenv d).create t mn' nf n ps' = .ok m := h3
        rw [hops]
        simp only [allOps]
        rw [if_neg fun h => hne h.1, if_neg fun h => hne h.1, h3, Res.bind_ok]
      · obtain ⟨mn, ps, m, h1, h2, h3, h4, h5, h6⟩ := guided_made hk' gen tenv d t hnf hn
        have hg : GoodAll (ρ.fits info) nf.toNat n [] (.guided m (.new n.toNat nf.toNat
            (ofRat (rnd64 (1 / 100))) (ofRat (1 / 2)) (ofRat (1 / 2)) (ofRat (rnd64 (9 / 10))) (ofRat 0)
            (d.weights t) (d.gen t))) := by
          refine ⟨⟨hf, ⟨_, PolicyNet.good_new ..⟩, fun i => hd t i⟩, ?_⟩
          rcases h4 with ⟨-, depth, -, rfl⟩ | ⟨-, trees, depth, -, -, rfl⟩
          · exact ⟨.tree n true (.newRoundRobin n) (.new n depth), .tree .., ⟨rfl, le_rfl, by omega⟩,
              List.Pairwise.nil, fun c hc => by simp [TreeImpl.new] at hc, fun h => by cases h⟩
          · exact ⟨.forest n true (.newRoundRobin n) (.new n trees depth), .forest .., ⟨rfl, le_rfl, by omega⟩,
              rfl, fun t ht => by simp [ForestImpl.new] at ht⟩
        refine ⟨mn, ps, mn, ps, (if info = [] then pm else info), _, h1, ?_, by rw [hops]; exact h3, h5, h6, ?_, ?_, hg⟩
        · unfold resolveStaticRegion
          rw [if_neg h2]
        · rcases h4 with ⟨rfl, -⟩ | ⟨rfl, -⟩ <;> decide
        · rcases h4 with ⟨rfl, -⟩ | ⟨rfl, -⟩ <;> decide
    poll := hpoll
    async := hasync }

end Apollo
