import Verif.Proofs.NetExplorer
import Verif.Props.InterfaceNet

/-!
# Property C119: a network may explore for a tree or a forest

The parameter `explore` of a tree or forest may be `PolicyNet`.  Then a network with the default parameters
explores, which is never trained: until the tree is trained, each policy is drawn according to the
probabilities which the weights drawn at first give to the policies.  Afterwards nothing is left of the
explorer.
-/

namespace Apollo.Props

open Apollo Apollo.Spec Apollo.Spec.Net Arith Finset

variable {α : Type} [Arith α] [Stored α] {gen : ℕ → ℕ → ℕ} {tenv : ℕ → TrainEnv} {d : NetDraws α}

/-! ## Creation -/

/-- C119: such a string creates an untrained tree or forest as the string says, with a network of the default
parameters. -/
theorem C119_created {info : Str} (h : GuidedModel info) (t : ℕ) {nf n : ℤ} (hnf : 0 ≤ nf) (hn : 1 ≤ n) :
    ∃ mn ps m, parsePolicyModel info = .ok (mn, ps) ∧
      (allOps gen tenv d).create t mn nf n ps = .ok (.guided m (.new n.toNat nf.toNat
        (ofRat (rnd64 (1 / 100))) (ofRat (1 / 2)) (ofRat (1 / 2)) (ofRat (rnd64 (9 / 10))) (ofRat 0)
        (d.weights t) (d.gen t))) ∧
      ((mn = "DecisionTree".toList ∧ ∃ depth, paramOr ps "max_depth".toList readUnsigned 2 = .ok depth ∧
          m = .tree n true .null (.new n depth)) ∨
        (mn = "RandomForest".toList ∧ ∃ trees depth,
          paramOr ps "num_trees".toList readUnsigned 10 = .ok trees ∧
          paramOr ps "max_depth".toList readUnsigned 2 = .ok depth ∧
          m = .forest n true .null (.new n trees depth))) := by
  obtain ⟨mn, ps, m, h1, -, h2, h3, -⟩ := guided_made h gen tenv d t hnf hn
  exact ⟨mn, ps, m, h1, h2, h3⟩

/-- C119: nothing changes for other explorers. -/
theorem C119_others (t : ℕ) (mn : Str) (nf n : ℤ) {ps : Params}
    (h : ps.find "explore".toList ≠ some "PolicyNet".toList) :
    (allOps gen tenv d).create t mn nf n ps = ((netOps gen tenv d).create t mn nf n ps).map .any := by
  simp only [allOps]
  rw [if_neg fun h' => h h'.1, if_neg fun h' => h h'.1]
  cases (netOps gen tenv d).create t mn nf n ps <;> rfl

/-! ## Exploration -/

omit [Stored α] in
/-- A network that is asked and not suppressed draws one number. -/
theorem net_asked {P : PolicyNet α} {s : Shape} {S : NetState α} (h : P.Good s S)
    (hsup : P.suppressed = false) (hs : 2 ≤ s.output) {f : List ℚ} {bs : List Bool}
    (hf : PolicyNet.encode f = .ok bs) (hl : s.input ≤ bs.length) :
    ∃ (i : ℕ) (P' : PolicyNet α), P.getIndex f = .ok ((i : ℤ), P') ∧ P'.Good s S ∧ P'.suppressed = false ∧
      P'.gen = (fun k => P.gen (k + 1)) ∧
      PolicyNet.sample (PolicyNet.probsList s S bs) P.gen = .ok (i, P'.gen) := by
  obtain ⟨N, c, e, hg⟩ := h.probabilities (by omega) hf hl
  obtain ⟨i, gen', hi, -⟩ := PolicyNet.sample_ok (PolicyNet.probsList s S bs) P.gen
  have hgen : gen' = fun k => P.gen (k + 1) := by
    have hi' := hi
    unfold PolicyNet.sample at hi'
    rw [if_neg (by rw [PolicyNet.length_probsList]; omega)] at hi'
    obtain ⟨x, -, hi'⟩ := (Res.bind_eq_ok _ _ _).1 hi'
    cases hi'
    rfl
  refine ⟨i, { P with net := N, cache := c, gen := gen' }, ?_, ⟨hg.net, hg.num, hg.cache⟩, hsup, hgen, hi⟩
  unfold PolicyNet.getIndex
  rw [if_neg (by rw [hsup]; simp), e, Res.bind_ok]
  dsimp only
  rw [hi, Res.bind_ok]

/-- Before training, a tree or forest that explores with a network only draws numbers. -/
theorem guided_asked {m : PolicyModel} (hm : m.isTrainable = true) {np nf : ℕ} {S : NetState α}
    (hnp : 2 ≤ np) (fs : List Features) (hfs : ∀ f ∈ fs, GoodFeatures nf f) {P : PolicyNet α}
    (h : P.Good (PolicyNet.shape np nf) S) (hsup : P.suppressed = false) :
    ∃ qs P', (allOps gen tenv d).answers (.guided m P) fs = .ok (qs, .guided m P') ∧
      P'.Good (PolicyNet.shape np nf) S ∧ P'.suppressed = false ∧
      P'.gen = fun k => P.gen (k + fs.length) := by
  induction fs generalizing P with
  | nil => exact ⟨[], P, rfl, h, hsup, rfl⟩
  | cons f fs ih =>
    obtain ⟨bs, eb, hl⟩ := (hfs f List.mem_cons_self).encode
    obtain ⟨i, P₁, h1, h2, h3, h4, -⟩ := net_asked h hsup hnp eb (by rw [hl]; exact le_rfl)
    obtain ⟨qs, P₂, h5, h6, h7, h8⟩ := ih (fun g hg => hfs g (List.mem_cons_of_mem _ hg)) h2 h3
    refine ⟨(i : ℤ) :: qs, P₂, ?_, h6, h7, ?_⟩
    · unfold ModelOps.answers
      have : (allOps gen tenv d).getIndex (.guided m P) f = .ok ((i : ℤ), .guided m P₁) := by
        simp only [allOps, hm, if_true, h1, Res.bind_ok]
      rw [this, Res.bind_ok]
      dsimp only
      rw [h5, Res.bind_ok]
    · rw [h8, h4]
      rfl

/-- C119: until the first training, whatever was asked before, the policy for the features `f` is the one
which the next number drawn selects among the policies, with the probabilities that a network with the
weights drawn at the creation computes for the bits of `f`: the network does not learn, and its cache does
not show.  In exact arithmetic. -/
theorem C119_explores {info : Str} (h : GuidedModel info) {gen : ℕ → ℕ → ℕ} {tenv : ℕ → TrainEnv}
    [Stored ℝ] {d : NetDraws ℝ} {t nf n : ℕ} (hn : 2 ≤ n)
    (hd : ∀ k, 0 < d.gen t k ∧ d.gen t k ≤ 1) (fs : List Features) (hfs : ∀ f ∈ fs, GoodFeatures nf f)
    (f : Features) (hf : GoodFeatures nf f) (lr beta1 beta2 : ℝ) :
    ∃ mn ps g qs g' p g'', parsePolicyModel info = .ok (mn, ps) ∧
      (allOps gen tenv d).create t mn nf n ps = .ok g ∧ (allOps gen tenv d).answers g fs = .ok (qs, g') ∧
      (allOps gen tenv d).getIndex g' f = .ok (p, g'') ∧ (0 ≤ p ∧ p < n) ∧
      ∀ j : ℕ, j < n → (p = j ↔ Selects (probs (PolicyNet.shape n nf)
        (NetState.fresh (PolicyNet.shape n nf) lr beta1 beta2 (d.weights t)).weights
        fun k => if bitOfFeatures f k then 1 else 0) (d.gen t fs.length) j) := by
  obtain ⟨mn, ps, m, h1, h2, h3⟩ := C119_created (gen := gen) (tenv := tenv) (d := d) h t
    (nf := nf) (n := n) (by omega) (by omega)
  have hm : m.isTrainable = true := by
    rcases h3 with ⟨-, depth, -, rfl⟩ | ⟨-, trees, depth, -, -, rfl⟩ <;> rfl
  rw [Int.toNat_natCast, Int.toNat_natCast] at h2
  obtain ⟨qs, P', h4, h5, h6, h7⟩ := guided_asked (gen := gen) (tenv := tenv) (d := d) hm hn fs hfs
    (PolicyNet.good_new n nf (ofRat (rnd64 (1 / 100))) (ofRat (1 / 2)) (ofRat (1 / 2))
      (ofRat (rnd64 (9 / 10))) (ofRat 0) (d.weights t) (d.gen t))
    (by
      unfold PolicyNet.suppressed
      rw [real_lt_false]
      simp [PolicyNet.new])
  obtain ⟨bs, eb, hl⟩ := hf.encode
  obtain ⟨i, P'', h8, -, -, -, h9⟩ := net_asked h5 h6 hn eb (by rw [hl]; exact le_rfl)
  refine ⟨mn, ps, _, qs, _, i, .guided m P'', h1, h2, h4, ?_, ?_⟩
  · simp only [allOps, hm, if_true, h8, Res.bind_ok]
  have hu : P'.gen 0 = d.gen t fs.length := by rw [h7]; simp [PolicyNet.new]
  set q := probs (PolicyNet.shape n nf)
    (NetState.fresh (PolicyNet.shape n nf) lr beta1 beta2 (d.weights t)).weights
    (fun k => if bitOfFeatures f k then (1 : ℝ) else 0) with hq
  have hq' : PolicyNet.probsList (PolicyNet.shape n nf) (NetState.fresh (PolicyNet.shape n nf)
      (ofRat (rnd64 (1 / 100))) (ofRat (1 / 2)) (ofRat (rnd64 (9 / 10))) (d.weights t)) bs =
      (List.range n).map q := by
    unfold PolicyNet.probsList
    rw [input_encode eb]
    have : (fun k => ofRat (if bitOfFeatures f k then 1 else 0) : ℕ → ℝ) =
        fun k => if bitOfFeatures f k then (1 : ℝ) else 0 := by
      funext k
      split <;> simp
    rw [this]
    rfl
  have hqpos : ∀ k, 0 < q k := fun k => softmax_pos (show 0 < n by omega) _ _
  have hqsum : ∑ k ∈ range n, q k = 1 := softmax_sum (show 0 < n by omega) _
  rw [hq'] at h9
  obtain ⟨hin, hlow, hup⟩ := PolicyNet.sample_real (f := q) hn hqsum (by rw [hu]; exact (hd _).2) h9
  rw [hu] at hlow hup
  have hlow' : ∑ k ∈ range i, q k < d.gen t fs.length := by
    rcases hlow with rfl | h
    · simpa using (hd _).1
    · exact h
  have hmono : ∀ a b : ℕ, a ≤ b → ∑ k ∈ range a, q k ≤ ∑ k ∈ range b, q k := fun a b hab =>
    sum_le_sum_of_subset_of_nonneg (range_mono hab) fun k _ _ => (hqpos k).le
  refine ⟨⟨by omega, by omega⟩, fun j hj => ?_⟩
  constructor
  · intro h
    have : i = j := by exact_mod_cast h
    subst this
    exact ⟨hlow', hup⟩
  · rintro ⟨h1, h2⟩
    by_contra hne
    have hne' : i ≠ j := fun h => hne (by rw [h])
    rcases lt_or_gt_of_ne hne' with h | h
    · linarith [hmono (i + 1) j h]
    · linarith [hmono (j + 1) i h]

/-! ## After training -/

/-- Models of the same kind and parameters differ in their explorers only. -/
theorem alike_created {mn : Str} {ps ps' : Params} {t t' : ℕ} {nf n : ℤ} (hmn : mn = "DecisionTree".toList ∨
      mn = "RandomForest".toList) (hps : ps.find "explore".toList = some "PolicyNet".toList)
    (hps' : ps'.find "explore".toList ≠ some "PolicyNet".toList)
    (hd : ps'.find "max_depth".toList = ps.find "max_depth".toList)
    (ht : ps'.find "num_trees".toList = ps.find "num_trees".toList)
    {g m : AllModel α} (hg : (allOps gen tenv d).create t mn nf n ps = .ok g)
    (hm : (allOps gen tenv d).create t' mn nf n ps' = .ok m) : AlikeAt true g m := by
  rw [C119_others t' mn nf n hps'] at hm
  dsimp only [allOps] at hg
  rcases hmn with rfl | rfl
  · rw [if_pos ⟨hps, rfl⟩] at hg
    obtain ⟨depth, h1, hg⟩ := (Res.bind_eq_ok _ _ _).1 hg
    obtain ⟨P, -, hg⟩ := (Res.bind_eq_ok _ _ _).1 hg
    cases hg
    have h1' : paramOr ps' "max_depth".toList readUnsigned 2 = .ok depth := by
      rw [← h1]
      unfold paramOr
      rw [hd]
    simp only [netOps, createModel] at hm
    unfold createPolicyModel at hm
    rw [if_neg (by decide), if_neg (by decide), if_neg (by decide), if_neg (by decide), if_pos rfl,
      h1', Res.bind_ok] at hm
    dsimp only at hm
    split at hm
    · rename_i m' hx
      cases hm
      obtain ⟨e, -, hx⟩ := (Res.bind_eq_ok _ _ _).1 hx
      cases hx
      exact .tree ..
    · rename_i hx
      obtain ⟨e, -, hx⟩ := (Res.bind_eq_ok _ _ _).1 hx
      cases hx
    · cases hm
  · rw [if_neg (fun h => absurd h.2 (by decide)), if_pos ⟨hps, rfl⟩] at hg
    obtain ⟨trees, h0, hg⟩ := (Res.bind_eq_ok _ _ _).1 hg
    obtain ⟨depth, h1, hg⟩ := (Res.bind_eq_ok _ _ _).1 hg
    obtain ⟨P, -, hg⟩ := (Res.bind_eq_ok _ _ _).1 hg
    cases hg
    have h0' : paramOr ps' "num_trees".toList readUnsigned 10 = .ok trees := by
      rw [← h0]
      unfold paramOr
      rw [ht]
    have h1' : paramOr ps' "max_depth".toList readUnsigned 2 = .ok depth := by
      rw [← h1]
      unfold paramOr
      rw [hd]
    simp only [netOps, createModel] at hm
    unfold createPolicyModel at hm
    rw [if_neg (by decide), if_neg (by decide), if_neg (by decide), if_neg (by decide),
      if_neg (by decide), if_pos rfl, h0', Res.bind_ok, h1', Res.bind_ok] at hm
    dsimp only at hm
    split at hm
    · rename_i m' hx
      cases hm
      obtain ⟨e, -, hx⟩ := (Res.bind_eq_ok _ _ _).1 hx
      cases hx
      exact .forest ..
    · rename_i hx
      obtain ⟨e, -, hx⟩ := (Res.bind_eq_ok _ _ _).1 hx
      cases hx
    · cases hm

/-- C119: once trained, nothing is left of the explorer.  Of two models of the same kind and parameters, one
of which explores with a network, both asked anything, training with the same data succeeds for both or
fails for both alike, and then they give the same answers to whatever is asked, have the same name, are
trainable no more and are stored in the same way. -/
theorem C119_trained {mn : Str} {ps ps' : Params} {t t' : ℕ} {nf n : ℤ} (hmn : mn = "DecisionTree".toList ∨
      mn = "RandomForest".toList) (hps : ps.find "explore".toList = some "PolicyNet".toList)
    (hps' : ps'.find "explore".toList ≠ some "PolicyNet".toList)
    (hd : ps'.find "max_depth".toList = ps.find "max_depth".toList)
    (ht : ps'.find "num_trees".toList = ps.find "num_trees".toList)
    {g m g₁ m₁ : AllModel α} (hg : (allOps gen tenv d).create t mn nf n ps = .ok g)
    (hm : (allOps gen tenv d).create t' mn nf n ps' = .ok m) {fs fs' : List Features} {qs qs' : List ℤ}
    (hfs : (allOps gen tenv d).answers g fs = .ok (qs, g₁))
    (hfs' : (allOps gen tenv d).answers m fs' = .ok (qs', m₁)) (T : ℕ) (ds : Dataset) :
    (∃ g₂ m₂, (allOps gen tenv d).train T ds g₁ = .ok g₂ ∧ (allOps gen tenv d).train T ds m₁ = .ok m₂ ∧
      (∀ fs, ((allOps gen tenv d).answers g₂ fs).map Prod.fst =
        ((allOps gen tenv d).answers m₂ fs).map Prod.fst) ∧
      (allOps gen tenv d).name g₂ = (allOps gen tenv d).name m₂ ∧
      (allOps gen tenv d).isTrainable g₂ = false ∧ (allOps gen tenv d).isTrainable m₂ = false ∧
      (allOps gen tenv d).store g₂ = (allOps gen tenv d).store m₂) ∨
    ∃ e, (allOps gen tenv d).train T ds g₁ = .error e ∧ (allOps gen tenv d).train T ds m₁ = .error e := by
  have ha := alike_created hmn hps hps' hd ht hg hm
  have ha := (ha.answers_left hfs).answers_right hfs'
  rcases ha.trained (gen := gen) (tenv := tenv) (d := d) T ds with ⟨g₂, m₂, h1, h2, h3⟩ | he
  · have hs := h3.stored (gen := gen) (tenv := tenv) (d := d)
    exact .inl ⟨g₂, m₂, h1, h2, fun fs => h3.answers fs, hs.2.1, hs.2.2.1, hs.2.2.2, hs.1⟩
  · exact .inr he

/-- C119: likewise for a file that is loaded into both. -/
theorem C119_loaded {mn : Str} {ps ps' : Params} {t t' : ℕ} {nf n : ℤ} (hmn : mn = "DecisionTree".toList ∨
      mn = "RandomForest".toList) (hps : ps.find "explore".toList = some "PolicyNet".toList)
    (hps' : ps'.find "explore".toList ≠ some "PolicyNet".toList)
    (hd : ps'.find "max_depth".toList = ps.find "max_depth".toList)
    (ht : ps'.find "num_trees".toList = ps.find "num_trees".toList)
    {g m g₁ m₁ : AllModel α} (hg : (allOps gen tenv d).create t mn nf n ps = .ok g)
    (hm : (allOps gen tenv d).create t' mn nf n ps' = .ok m) {fs fs' : List Features} {qs qs' : List ℤ}
    (hfs : (allOps gen tenv d).answers g fs = .ok (qs, g₁))
    (hfs' : (allOps gen tenv d).answers m fs' = .ok (qs', m₁)) (file : Option Str) :
    (∃ g₂ m₂, (allOps gen tenv d).load file g₁ = .ok g₂ ∧ (allOps gen tenv d).load file m₁ = .ok m₂ ∧
      (∀ fs, ((allOps gen tenv d).answers g₂ fs).map Prod.fst =
        ((allOps gen tenv d).answers m₂ fs).map Prod.fst) ∧
      (allOps gen tenv d).isTrainable g₂ = false ∧ (allOps gen tenv d).isTrainable m₂ = false ∧
      (allOps gen tenv d).store g₂ = (allOps gen tenv d).store m₂) ∨
    ∃ e, (allOps gen tenv d).load file g₁ = .error e ∧ (allOps gen tenv d).load file m₁ = .error e := by
  have ha := ((alike_created hmn hps hps' hd ht hg hm).answers_left hfs).answers_right hfs'
  rcases ha.loaded (gen := gen) (tenv := tenv) (d := d) file with ⟨g₂, m₂, h1, h2, h3⟩ | he
  · have hs := h3.stored (gen := gen) (tenv := tenv) (d := d)
    exact .inl ⟨g₂, m₂, h1, h2, fun fs => h3.answers fs, hs.2.2.1, hs.2.2.2, hs.1⟩
  · exact .inr he

/-! ## Programs -/

/-- As `OrdinaryAny`, with trees and forests which explore with networks. -/
structure OrdinaryAll (env : Env (AllModel α)) (cfg : Cfg) : Prop where
  ops : ∃ gen tenv d, env.ops = allOps gen tenv d ∧ (∀ t, SortSpec (tenv t).sort) ∧
    ∀ t k, lt (ofRat 1) (d.gen t k) = false
  poll : ∀ t l i, env.poll t l i ≠ .failed
  collective : cfg.collective = false
  single : cfg.single = false
  regionModel : cfg.regionModel = true
  retrain : cfg.retrain = false
  persistent : cfg.persistent = false
  csv : cfg.traceCsv → ∀ p, env.canWrite p

/-- The rules: as before, and also the features of a region that explores with a network are greater than
-1. -/
def rulesOfAll (env : Env (AllModel α)) (cfg : Cfg) : UseRules where
  fits := fun s v => ((cfg.tracePolicy || cfg.traceBest || cfg.storeModels) → FitsInt v) ∧
    (NetModel (if s = [] then cfg.policyModel else s) ∨ GuidedModel (if s = [] then cfg.policyModel else s) →
      FitsUnsigned v)
  async := env.async
  most := 2 ^ 19
  known := fun name info _ => KnownModel name (if info = [] then cfg.policyModel else info) ∨
    NetModel (if info = [] then cfg.policyModel else info) ∨
    GuidedModel (if info = [] then cfg.policyModel else info)

section

variable {env : Env (AllModel α)} {cfg : Cfg} {files : Str → Option Str} {ops : List Apollo.Op}

theorem OrdinaryAll.cfgOk (h : OrdinaryAll env cfg) : CfgOk env (rulesOfAll env cfg) cfg.policyModel cfg where
  model := rfl
  collective := h.collective
  single := h.single
  regionModel := h.regionModel
  retrain := h.retrain
  persistent := h.persistent
  best := fun hb _ v hv => hv.1 (by simp [hb])
  policy := fun hb _ v hv => hv.1 (by simp [hb])
  store := fun hb _ v hv => hv.1 (by simp [hb])
  csv := h.csv

theorem OrdinaryAll.safe (h : OrdinaryAll env cfg) :
    Safe env (fun s => GoodAll ((rulesOfAll env cfg).fits s)) (rulesOfAll env cfg) cfg.policyModel := by
  obtain ⟨gen, tenv, d, ho, hσ, hd⟩ := h.ops
  exact allOps_safe ho hσ hd le_rfl
    (fun _ _ _ hk => hk.imp id fun hn => ⟨hn, fun _ hv => hv.2 hn⟩) h.poll id

theorem OrdinaryAll.ends (h : OrdinaryAll env cfg) : Ends env.ops := by
  obtain ⟨gen, tenv, d, ho, -⟩ := h.ops
  exact ho ▸ allOps_ends

/-- C119 (C87 for these models): a program all of whose calls may be made runs to its end, or a destructor
waits for a measurement that does not arrive. -/
theorem C119_never_fails (h : OrdinaryAll env cfg) (hf : ({} : Use).Follows (rulesOfAll env cfg) ops) :
    (∃ w, exec env ops (initWorld cfg files) = .ok w) ∨
      ((∃ r fuel, .destroy r fuel ∈ ops) ∧ exec env ops (initWorld cfg files) = .error .diverge) := by
  rcases exec_safe h.safe ops {} _ _ (sane_init h.cfgOk files) hf with ⟨w, P, hw, -⟩ | hw
  · exact .inl ⟨w, hw⟩
  · exact .inr hw

/-- C119: if all timers are done from some time on, and the destructors may wait that long, the program and
the end of the process succeed. -/
theorem C119_timers_done (h : OrdinaryAll env cfg) (hf : ({} : Use).Follows (rulesOfAll env cfg) ops)
    (T : ℕ) (hT : ∀ n t l, T ≤ t → ∃ m, env.poll t l n = .done m)
    (hw : ∀ r fuel, .destroy r fuel ∈ ops → T < fuel) :
    ∃ w, exec env ops (initWorld cfg files) = .ok w ∧
      ((∀ r fuel, .destroy r fuel ∉ ops) → ∀ fuel, T < fuel → ∃ w', shutdown env w fuel = .ok w') := by
  obtain ⟨w, P, hx, hS, -⟩ := exec_ends h.safe (fun _ => True) ops {} _ _ (sane_init h.cfgOk files)
    trivial (fun _ _ _ _ => trivial)
    (fun hm _ _ _ => C36_destructor_ends env h.ends _ _ T _ (fun n _ t l ht => hT n t l ht) (hw _ _ hm)) hf
  refine ⟨w, hx, fun hd fuel hfu => shutdown_ends h.safe (fun _ => True) (fun _ _ _ _ => trivial)
    (fun _ _ _ => C36_destructor_ends env h.ends _ _ T _ (fun n _ t l ht => hT n t l ht) hfu) hS ?_ trivial⟩
  exact not_destroyed hd

/-- C119: what the calls answer: regions and contexts are numbered, policies are in range. -/
theorem C119_answers (h : OrdinaryAll env cfg) {op : Apollo.Op} {w : World (AllModel α)}
    (hf : ({} : Use).Follows (rulesOfAll env cfg) (ops ++ [op]))
    (hw : exec env ops (initWorld cfg files) = .ok w) :
    (∃ ret w', step env w op = .ok (ret, w') ∧ (Use.afterAll {} ops).Answer op ret) ∨
      ((∃ r fuel, op = .destroy r fuel) ∧ step env w op = .error .diverge) := by
  have ⟨hf1, hf2⟩ := follows_append hf
  rcases exec_safe h.safe ops {} _ _ (sane_init h.cfgOk files) hf1 with ⟨w₁, P, hw1, hS⟩ | ⟨-, hd⟩
  · rw [hw] at hw1
    cases hw1
    rcases step_safe h.safe hS hf2.1 with ⟨ret, w', P', h1, -, h2⟩ | h1
    · exact .inl ⟨ret, w', h1, h2⟩
    · exact .inr h1
  · rw [hw] at hd
    cases hd

end

/-! ## Examples -/

theorem guided_string : GuidedModel "DecisionTree,explore=PolicyNet,max_depth=3".toList := by
  refine .tree [⟨"explore".toList, some "PolicyNet".toList⟩, ⟨"max_depth".toList, some "3".toList⟩] ?_ ?_
    (.inr ⟨3, by decide, by decide⟩) rfl
  · simp [Item.WF]
  · simp

theorem guided_forest : GuidedModel "RandomForest,num_trees=3,explore=PolicyNet".toList := by
  refine .forest [⟨"num_trees".toList, some "3".toList⟩, ⟨"explore".toList, some "PolicyNet".toList⟩] ?_ ?_
    (.inr ⟨3, by decide, by decide⟩) (.inl rfl) rfl
  · simp [Item.WF]
  · simp

/-- The hypotheses of C119_explores. -/
example : ∃ d : NetDraws ℝ, (∀ k, 0 < d.gen 0 k ∧ d.gen 0 k ≤ 1) ∧ (∀ f ∈ [[3], [(7 : ℚ) / 2]], GoodFeatures 1 f) ∧
    bitOfFeatures [7 / 2] 1 = true ∧ bitOfFeatures [7 / 2] 2 = false := by
  refine ⟨⟨fun _ _ _ => 0, fun _ _ => 1 / 2⟩, fun k => by norm_num, fun f hf => ?_, by decide +kernel, by decide +kernel⟩
  simp only [List.mem_cons, List.not_mem_nil, or_false] at hf
  rcases hf with rfl | rfl <;> exact ⟨rfl, by decide +kernel⟩

attribute [local instance] demoArith

/-- As `netEnv`, with explorers. -/
def guidedEnv : Env (AllModel ℚ) where
  ops := allOps (fun _ _ => 0) (fun _ => ⟨isort, id⟩) demoDraws
  clock := fun t => (t, 0)

theorem guided_ordinary : OrdinaryAll guidedEnv {} where
  ops := by
    refine ⟨_, _, _, rfl, fun _ => isort_spec, fun t k => ?_⟩
    have h : ∀ q : ℚ, q = 1 / 4 ∨ q = 3 / 4 → lt (ofRat 1) q = false := by
      rintro q (rfl | rfl) <;> decide +kernel
    exact h _ (by simp only [demoDraws]; split <;> simp)
  poll := fun t l i => by simp [guidedEnv]
  collective := rfl
  single := rfl
  regionModel := rfl
  retrain := rfl
  persistent := rfl
  csv := fun _ _ => rfl

/-- A region whose tree explores with a network, executed, trained and executed again. -/
def guidedOps : List Apollo.Op :=
  [.create 0 "a".toList 2 0 "DecisionTree,explore=PolicyNet,max_depth=3".toList [],
    .begin 0 .sync, .getPolicyIndexCur 0, .endMetricCur 0 (1 / 2),
    .begin 0 .sync, .getPolicyIndexCur 0, .endMetricCur 0 (1 / 4),
    .trainAll 0 true, .begin 0 .sync, .getPolicyIndexCur 0]

theorem guided_follows : ({} : Use).Follows (rulesOfAll guidedEnv {}) guidedOps := by
  have hs : ∀ {u : Use} {op op'} {ops : List Apollo.Op}, u.explicit op = some op' →
      u.MayCall (rulesOfAll guidedEnv {}) op' → (u.afterCall op').Follows (rulesOfAll guidedEnv {}) ops →
      u.Follows (rulesOfAll guidedEnv {}) (op :: ops) := by
    intro u op op' ops h1 h2 h3
    refine ⟨⟨op', h1, h2⟩, ?_⟩
    unfold Use.after
    rw [h1]
    exact h3
  refine hs rfl ⟨by decide, by decide, .inr (.inr guided_string), rfl⟩ ?_
  refine hs rfl ⟨⟨_, rfl, by decide⟩, fun _ => rfl⟩ ?_
  refine hs rfl ⟨_, rfl, rfl⟩ ?_
  refine hs rfl ⟨_, ⟨rfl, rfl⟩, by decide⟩ ?_
  refine hs rfl ⟨⟨_, rfl, by decide⟩, fun _ => rfl⟩ ?_
  refine hs rfl ⟨_, rfl, rfl⟩ ?_
  refine hs rfl ⟨_, ⟨rfl, rfl⟩, by decide⟩ ?_
  refine hs rfl rfl ?_
  refine hs rfl ⟨⟨_, rfl, by decide⟩, fun _ => rfl⟩ ?_
  exact hs (op' := .getPolicyIndex 0 (.sync 0)) rfl ⟨_, rfl, rfl⟩ trivial

/-- The program runs to its end. -/
example : ∃ w, exec guidedEnv guidedOps (initWorld {} fun _ => none) = .ok w := by
  rcases C119_never_fails (files := fun _ => none) guided_ordinary guided_follows with h | ⟨⟨r, fuel, h⟩, -⟩
  · exact h
  · simp [guidedOps] at h

/-- The policies it gets: two drawn by the network (the numbers drawn are 1/4 and 3/4, the probabilities
1/2 and 1/2), then the faster one. -/
def policiesOf (r : Res (World (AllModel ℚ))) : List ℤ :=
  match r with
  | .ok w => w.log.filterMap fun e => match e with
    | .chose _ _ p => some p
    | _ => none
  | .error _ => []

example : policiesOf (exec guidedEnv guidedOps (initWorld {} fun _ => none)) = [0, 1, 1] := by decide +kernel

/-- Features must be greater than -1 as long as the network explores. -/
theorem C119_needs_unsigned : exec guidedEnv
    [.create 1 "a".toList 2 0 "DecisionTree,explore=PolicyNet".toList [], .beginWith 0 [-4],
      .getPolicyIndexCur 0] (initWorld {} fun _ => none) = .error (.ub .overflow) := fails (by decide +kernel)

/-- The trees of C119_trained: created, asked and trained. -/
example : ∃ g m g₁ m₁ g₂ m₂ qs qs', (guidedEnv.ops).create 0 "DecisionTree".toList 0 2
      [("explore".toList, "PolicyNet".toList)] = .ok g ∧
    (guidedEnv.ops).create 0 "DecisionTree".toList 0 2 [] = .ok m ∧
    guidedEnv.ops.answers g [[], []] = .ok (qs, g₁) ∧ guidedEnv.ops.answers m [[]] = .ok (qs', m₁) ∧
    guidedEnv.ops.train 1 (Dataset.insert [] [] 1 (1 / 2)) g₁ = .ok g₂ ∧
    guidedEnv.ops.train 1 (Dataset.insert [] [] 1 (1 / 2)) m₁ = .ok m₂ := by
  have key : ∀ {β γ : Type} (x : Res β) (f : β → Res γ), (x >>= f).toOption.isSome = true →
      ∃ y, x = .ok y ∧ (f y).toOption.isSome = true := by
    intro β γ x f h
    cases x with
    | error e => cases h
    | ok y => exact ⟨y, rfl, h⟩
  have one : ∀ {β : Type} (x : Res β), x.toOption.isSome = true → ∃ y, x = .ok y := by
    intro β x h
    cases x with
    | error e => cases h
    | ok y => exact ⟨y, rfl⟩
  obtain ⟨g, h1, h⟩ := key ((guidedEnv.ops).create 0 "DecisionTree".toList 0 2
      [("explore".toList, "PolicyNet".toList)]) (fun g => guidedEnv.ops.answers g [[], []] >>= fun x =>
      guidedEnv.ops.train 1 (Dataset.insert [] [] 1 (1 / 2)) x.2) (by decide +kernel)
  obtain ⟨⟨qs, g₁⟩, h2, h⟩ := key _ _ h
  obtain ⟨g₂, h3⟩ := one _ h
  obtain ⟨m, h4, h⟩ := key ((guidedEnv.ops).create 0 "DecisionTree".toList 0 2 [])
    (fun g => guidedEnv.ops.answers g [[]] >>= fun x =>
      guidedEnv.ops.train 1 (Dataset.insert [] [] 1 (1 / 2)) x.2) (by decide +kernel)
  obtain ⟨⟨qs', m₁⟩, h5, h⟩ := key _ _ h
  obtain ⟨m₂, h6⟩ := one _ h
  exact ⟨g, m, g₁, m₁, g₂, m₂, qs, qs', h1, h4, h2, h5, h3, h6⟩

/-- A tree is created, asked, trained and stored; the file is loaded into another (C119_loaded), which then
answers with the policy measured, as the one which explores with `Random` does. -/
def reloaded (p : ℕ) (explorer : Str) : Option (List ℤ) := do
  let ops := guidedEnv.ops
  let g ← (ops.create 0 "DecisionTree".toList 0 2 [("explore".toList, "PolicyNet".toList)]).toOption
  let (_, g) ← (ops.answers g [[], []]).toOption
  let g ← (ops.train 1 (Dataset.insert [] [] p (1 / 2)) g).toOption
  let text ← (ops.store g).toOption
  let m ← (ops.create 0 "DecisionTree".toList 0 2 [("explore".toList, explorer)]).toOption
  let (_, m) ← (ops.answers m [[]]).toOption
  let m ← (ops.load text m).toOption
  let (qs, _) ← (ops.answers m [[], []]).toOption
  some qs

example : ∀ p < 2, reloaded p "PolicyNet".toList = some [(p : ℤ), p] ∧
    reloaded p "Random".toList = some [(p : ℤ), p] := by
  decide +kernel

end Apollo.Props
