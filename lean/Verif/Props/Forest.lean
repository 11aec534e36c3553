import Verif.Proofs.Forest
import Verif.Props.TreeIO

/-!
# Properties C27–C29, C64, C65: forests

`f.predict x` is the answer of the forest `f` for the feature vector `x`, `f.train σ draws xs` trains it
on the samples `xs` with the random numbers `draws`, `f.save` is the text of the file, `f0.load s` reads
the text `s` into the forest object `f0`.
-/

namespace Apollo.Props

open Apollo Apollo.Spec

/-! ## C27 -/

/-- C27: whenever prediction returns, every tree has answered, and the result wins the vote of the
answers: no class has more votes, smaller classes have fewer, and it is in range. -/
theorem C27_majority (f : ForestImpl) (x : Features) (w : ℤ) (h : f.predict x = .ok w) :
    ∃ ballots, List.Forall₂ (fun t c => TreeImpl.predict t x = .ok c) f.trees ballots ∧
      Wins f.numClasses ballots w := by
  have h' := h
  unfold ForestImpl.predict at h
  split at h
  · cases h
  · next hn =>
    obtain ⟨counts, hv, -⟩ := (Res.bind_eq_ok _ _ _).1 h
    obtain ⟨preds, h1, h2, -, -⟩ := votes_ok (by simp) hv
    obtain ⟨w', h3, h4⟩ := predict_wins (by omega) h1 h2
    rw [h'] at h3
    cases h3
    exact ⟨preds, h1, h4⟩

/-- C27: with at least one policy prediction returns if all trees answer in range. -/
theorem C27_total (f : ForestImpl) (x : Features) (ballots : List ℤ) (hn : 1 ≤ f.numClasses)
    (hp : List.Forall₂ (fun t c => TreeImpl.predict t x = .ok c) f.trees ballots)
    (hr : ∀ b ∈ ballots, 0 ≤ b ∧ b < f.numClasses) :
    ∃ w, f.predict x = .ok w ∧ Wins f.numClasses ballots w :=
  predict_wins (by omega) hp hr

/-- A vote outside the range is caught by the assertion. -/
theorem C27_out_of_range_aborts (f : ForestImpl) (x : Features) (ballots : List ℤ)
    (hn : 1 ≤ f.numClasses)
    (hp : List.Forall₂ (fun t c => TreeImpl.predict t x = .ok c) f.trees ballots)
    (hr : ∃ b ∈ ballots, ¬ (0 ≤ b ∧ b < f.numClasses)) : f.predict x = .error .abort := by
  unfold ForestImpl.predict
  rw [if_neg (by omega), votes_abort _ hp hr]
  rfl

/-- The winner is unique, so that the vote determines the prediction. -/
theorem Wins.unique {n : ℤ} {bs : List ℤ} {v w : ℤ} (hv : Wins n bs v) (hw : Wins n bs w) : v = w := by
  rcases lt_trichotomy v w with h | h | h
  · have := hw.first v hv.nonneg h
    have := hv.most w hw.nonneg hw.lt
    omega
  · exact h
  · have := hv.first w hw.nonneg h
    have := hw.most v hv.nonneg hv.lt
    omega

/-- Three trees, of which two answer 1 for large features. -/
def threeTrees : ForestImpl :=
  ⟨[twoLeaves (3 / 2), twoLeaves (5 / 2), twoLeaves (3 / 2)], 3, 3, 1⟩

example : threeTrees.predict [2] = .ok 1 ∧ threeTrees.predict [1] = .ok 0 ∧
    List.Forall₂ (fun t c => TreeImpl.predict t [2] = .ok c) threeTrees.trees [1, 0, 1] ∧
    ∀ b ∈ ([1, 0, 1] : List ℤ), 0 ≤ b ∧ b < threeTrees.numClasses := by
  refine ⟨by decide +kernel, by decide +kernel, ?_, by decide⟩
  exact .cons (by decide +kernel) (.cons (by decide +kernel) (.cons (by decide +kernel) .nil))

example : List.Forall₂ (fun t c => TreeImpl.predict t [2] = .ok c) [twoLeaves (3 / 2)] [1] ∧
    (⟨[twoLeaves (3 / 2)], 1, 1, 1⟩ : ForestImpl).predict [2] = .error .abort :=
  ⟨.cons (by decide +kernel) .nil, by decide +kernel⟩

/-! ## C28 -/

theorem train_data {σ : SortFn} (hσ : ∀ i xs, (σ i xs).Perm xs) {n : ℤ} {d : ℕ} {xs : List Sample}
    {t : TreeImpl} (h : TreeImpl.newTrained σ n d xs = .ok t) : t.data.Perm xs :=
  (C18_shape σ hσ (TreeImpl.new n d) t (.new n d) xs h).2.2.2

/-- What training does to a forest: it appends `num_trees` trees, each trained on a bootstrap sample. -/
theorem forest_train_spec {σ : SortFn} {draws : ℕ → ℕ} {f f' : ForestImpl} {xs : List Sample}
    (h : f.train σ draws xs = .ok f') :
    f'.numTrees = f.numTrees ∧ f'.maxDepth = f.maxDepth ∧ f'.numClasses = f.numClasses ∧
    ∃ new, f'.trees = f.trees ++ new ∧ new.length = f.numTrees ∧
      ∀ t ∈ new, ∃ ys, IsBootstrap xs ys ∧
        TreeImpl.newTrained σ f.numClasses f.maxDepth ys = .ok t := by
  unfold ForestImpl.train at h
  obtain ⟨ts, h1, h2⟩ := (Res.bind_eq_ok _ _ _).1 h
  cases h2
  obtain ⟨new, rfl, h3, h4⟩ := trainLoop_ok h1
  refine ⟨rfl, rfl, rfl, new, rfl, h3, ?_⟩
  intro t ht
  obtain ⟨i, hi, rfl⟩ := List.getElem_of_mem ht
  exact ⟨_, bootstrap_isBootstrap xs draws _, h4 i hi⟩

theorem trainingSamples_card (h : List Meas) :
    (PolicyModel.trainingSamples (run h)).length = (h.map Meas.features).toFinset.card := by
  obtain ⟨-, h2, h3⟩ := trainingSamples_spec h
  rw [← List.length_map (f := Prod.fst), ← List.toFinset_card_of_nodup (h2.imp fun h => ne_of_lt h)]
  congr 1
  ext f
  rw [List.mem_toFinset, List.mem_toFinset, h3, List.mem_map]

/-- C28 for the first training: exactly `num_trees` trees, each trained on as many samples as there are
distinct feature vectors in the dataset, every one of them a feature vector with its best policy, for
all datasets and all random numbers.

Full statement: also after every retraining.  Missing: that is false (`C28_fails_retrained`). -/
theorem C28_first_training_partial (env : TrainEnv) (hσ : SortSpec env.sort) (n : ℤ) (k d : ℕ)
    (e m : PolicyModel) (h : List Meas)
    (hm : (PolicyModel.newForest n k d e).train env (run h) = .ok m) :
    ∃ f, m = .forest n false e f ∧ f.trees.length = k ∧ f.numTrees = k ∧
      ∀ t ∈ f.trees, t.data.length = (h.map Meas.features).toFinset.card ∧
        (∀ x ∈ t.data, IsBest (entries h) x.1 x.2) ∧
        ∃ ys, t.data.Perm ys ∧ TreeImpl.newTrained env.sort n d ys = .ok t := by
  simp only [PolicyModel.newForest, PolicyModel.train] at hm
  obtain ⟨f, hf, he⟩ := (Res.bind_eq_ok _ _ _).1 hm
  simp only [Except.ok.injEq] at he
  obtain ⟨h1, h2, h3, new, h4, h5, h6⟩ := forest_train_spec hf
  simp only [ForestImpl.new, List.nil_append] at h4
  refine ⟨f, he.symm, by rw [h4]; exact h5, h1, ?_⟩
  intro t ht
  rw [h4] at ht
  obtain ⟨ys, ⟨hl, hmem⟩, htr⟩ := h6 t ht
  have hp := train_data (fun i xs => (hσ i xs).1) htr
  refine ⟨by rw [hp.length_eq, hl, trainingSamples_card], ?_, ys, hp, htr⟩
  intro x hx
  exact ((trainingSamples_spec h).1 x.1 x.2).1 (hmem x (hp.mem_iff.1 hx))

/-- C28, any number of trainings: every training appends `num_trees` trees trained on bootstrap samples
of its own dataset and keeps those of earlier trainings. -/
theorem C28_training_appends (env : TrainEnv) (n : ℤ) (e m : PolicyModel) (b : Bool) (f : ForestImpl)
    (h : List Meas) (hm : (PolicyModel.forest n b e f).train env (run h) = .ok m) :
    ∃ new, m = .forest n false e { f with trees := f.trees ++ new } ∧ new.length = f.numTrees ∧
      ∀ t ∈ new, ∃ ys, ys.length = (h.map Meas.features).toFinset.card ∧
        (∀ x ∈ ys, IsBest (entries h) x.1 x.2) ∧
        TreeImpl.newTrained env.sort f.numClasses f.maxDepth ys = .ok t := by
  simp only [PolicyModel.train] at hm
  obtain ⟨f', hf, he⟩ := (Res.bind_eq_ok _ _ _).1 hm
  simp only [Except.ok.injEq] at he
  obtain ⟨h1, h2, h3, new, h4, h5, h6⟩ := forest_train_spec hf
  refine ⟨new, ?_, h5, ?_⟩
  · rw [← he]
    cases f'
    simp only at h1 h2 h3 h4
    simp only [h1, h2, h3, h4]
  · intro t ht
    obtain ⟨ys, ⟨hl, hmem⟩, htr⟩ := h6 t ht
    refine ⟨ys, by rw [hl, trainingSamples_card], ?_, htr⟩
    intro x hx
    exact ((trainingSamples_spec h).1 x.1 x.2).1 (hmem x hx)

theorem bootstrap_surjective (xs : List Sample) (ys : ℕ → List Sample)
    (hy : ∀ i, IsBootstrap xs (ys i)) :
    ∃ draws : ℕ → ℕ, ∀ i, ForestImpl.bootstrap xs draws (i * xs.length) = ys i := by
  refine ⟨fun m => xs.idxOf ((ys (m / xs.length)).getD (m % xs.length) ([], 0)), fun i => ?_⟩
  obtain ⟨hl, hm⟩ := hy i
  refine List.ext_getElem (by simp [ForestImpl.bootstrap, hl]) ?_
  intro j h1 h2
  have hj : j < xs.length := by omega
  have hpos : 0 < xs.length := by omega
  have e1 : (i * xs.length + j) / xs.length = i := by
    rw [Nat.mul_comm, Nat.mul_add_div hpos, Nat.div_eq_of_lt hj, Nat.add_zero]
  have e2 : (i * xs.length + j) % xs.length = j := by
    rw [Nat.mul_comm, Nat.mul_add_mod, Nat.mod_eq_of_lt hj]
  have e3 : (ys i).getD j ([], 0) = (ys i)[j] := by
    rw [List.getD_eq_getElem?_getD, List.getElem?_eq_getElem h2]; rfl
  have hi : xs.idxOf (ys i)[j] < xs.length := List.idxOf_lt_length_of_mem (hm _ (List.getElem_mem h2))
  simp only [ForestImpl.bootstrap, List.getElem_map, List.getElem_range, e1, e2, e3]
  rw [Nat.mod_eq_of_lt hi, List.getD_eq_getElem?_getD, List.getElem?_eq_getElem hi]
  simp

/-- Every choice of bootstrap samples, one for each tree, is used with some random numbers: nothing is
excluded by the way the samples are drawn, and those of one tree do not limit those of another. -/
theorem C28_all_bootstraps_possible (σ : SortFn) (n : ℤ) (e : PolicyModel) (b : Bool) (f : ForestImpl)
    (h : List Meas) (ys : List (List Sample)) (new : List TreeImpl) (hk : new.length = f.numTrees)
    (hys : ∀ y ∈ ys, y.length = (h.map Meas.features).toFinset.card ∧
      ∀ x ∈ y, IsBest (entries h) x.1 x.2)
    (hnew : List.Forall₂ (fun y t => TreeImpl.newTrained σ f.numClasses f.maxDepth y = .ok t) ys new) :
    ∃ draws, (PolicyModel.forest n b e f).train ⟨σ, draws⟩ (run h) =
      .ok (.forest n false e { f with trees := f.trees ++ new }) := by
  set xs := PolicyModel.trainingSamples (run h) with hxs
  have hboot : ∀ y ∈ ys, IsBootstrap xs y := by
    intro y hy
    refine ⟨by rw [(hys y hy).1, hxs, trainingSamples_card], fun x hx => ?_⟩
    exact ((trainingSamples_spec h).1 x.1 x.2).2 ((hys y hy).2 x hx)
  obtain ⟨draws, hd⟩ := bootstrap_surjective xs (fun i => ys.getD i xs) (by
    intro i
    rw [List.getD_eq_getElem?_getD]
    cases hi : ys[i]? with
    | none => exact ⟨rfl, fun _ h => h⟩
    | some y => exact hboot y (List.mem_of_getElem? hi))
  refine ⟨draws, ?_⟩
  have hl := trainLoop_of (σ := σ) (xs := xs) (draws := draws) (n := f.numClasses) (d := f.maxDepth)
    (new := new) (start := 0) (acc := f.trees) (by
      intro i hi
      have hi' : i < ys.length := by rw [hnew.length_eq]; exact hi
      rw [Nat.zero_add, hd i, List.getD_eq_getElem?_getD, List.getElem?_eq_getElem hi']
      exact (List.forall₂_iff_get.1 hnew).2 i hi' hi)
  rw [hk] at hl
  simp only [PolicyModel.train, ForestImpl.train, ← hxs, hl, Res.bind_ok]

/-- Two trees with different samples, from the history of two features. -/
example : (match (PolicyModel.newForest 2 2 1 .null).train
      ⟨isort, fun i => if i < 2 then 0 else 1⟩ (run [⟨[1], 0, 1⟩, ⟨[2], 1, 1⟩]) with
    | .ok (.forest _ _ _ f) => f.trees.map TreeImpl.data
    | _ => []) = [[([1], 0), ([1], 0)], [([2], 1), ([2], 1)]] := by
  decide +kernel

example : IsBootstrap [([1], 0), ([2], 1)] [(([2], 1) : Sample), ([2], 1)] := by
  constructor <;> simp

/-- Training succeeds on every dataset whose feature vectors have one length, as for trees (C21). -/
theorem C28_training_succeeds (env : TrainEnv) (hσ : SortSpec env.sort) (n : ℤ) (b : Bool)
    (e : PolicyModel) (f : ForestImpl) (k : ℕ) (h : List Meas) (hne : h ≠ [])
    (hk : ∀ x ∈ h, x.features.length = k) (hlen : (h.map Meas.features).toFinset.card ≤ 2 ^ 20) :
    ∃ f', (PolicyModel.forest n b e f).train env (run h) = .ok (.forest n false e f') := by
  obtain ⟨h1, h2, h3⟩ := trainingSamples_spec h
  have hpos : 0 < (PolicyModel.trainingSamples (run h)).length := by
    obtain ⟨x, hx⟩ := List.exists_mem_of_ne_nil h hne
    have := (h3 x.features).2 ⟨x, hx, rfl⟩
    rw [← List.length_map (f := Prod.fst)]
    exact List.length_pos_of_mem this
  obtain ⟨ts, hts⟩ := trainLoop_total (σ := env.sort) (xs := PolicyModel.trainingSamples (run h))
    (draws := env.draws) (n := f.numClasses) (d := f.maxDepth) (by
      intro start
      obtain ⟨hl, hm⟩ := bootstrap_isBootstrap (PolicyModel.trainingSamples (run h)) env.draws start
      refine C21_train_succeeds env.sort hσ _ _ k _ ?_ ?_ ?_ ?_
      · rw [← List.length_pos_iff, hl]; exact hpos
      · rw [hl, trainingSamples_card]; exact hlen
      · intro x hx; exact trainingSamples_length hk x (hm x hx)
      · intro x hx y hy he
        have a := (h1 x.1 x.2).1 (hm x hx)
        have b := (h1 y.1 y.2).1 (hm y hy)
        rw [he] at a
        exact isBest_unique a b) f.numTrees 0 f.trees
  refine ⟨{ f with trees := ts }, ?_⟩
  simp only [PolicyModel.train, ForestImpl.train, hts, Res.bind_ok]

example : twoBest ≠ [] ∧ (∀ x ∈ twoBest, x.features.length = 1) ∧
    (twoBest.map Meas.features).toFinset.card ≤ 2 ^ 20 := by
  refine ⟨by simp [twoBest], by simp [twoBest], ?_⟩
  refine le_trans (List.toFinset_card_le _) ?_
  simp [twoBest]

/-- C28 is false after retraining: a forest of one tree has two after the second training, the first one
still voting as the first dataset demands. -/
theorem C28_fails_retrained :
    ∃ f1 f2, (ForestImpl.new 2 1 1).train isort id [([1], 0)] = .ok f1 ∧ f1.trees.length = 1 ∧
      f1.train isort id [([1], 1)] = .ok f2 ∧ f2.trees.length = 2 ∧ f2.numTrees = 1 ∧
      f2.predict [1] = .ok 0 := by
  refine ⟨⟨[⟨[([1], 0)], [0], .node ⟨0, 1, 0, -1, 0, [1]⟩ .nil .nil, 1, 1, 2⟩], 2, 1, 1⟩,
    ⟨[⟨[([1], 0)], [0], .node ⟨0, 1, 0, -1, 0, [1]⟩ .nil .nil, 1, 1, 2⟩,
      ⟨[([1], 1)], [1], .node ⟨0, 1, 1, -1, 0, [1]⟩ .nil .nil, 1, 1, 2⟩], 2, 1, 1⟩,
    by decide +kernel, rfl, by decide +kernel, rfl, rfl, by decide +kernel⟩

/-- A trained forest answers with one of the best policies of its dataset when these are in range. -/
theorem C27_trained_in_range (env : TrainEnv) (hσ : SortSpec env.sort) (n : ℤ) (k d l : ℕ)
    (e m : PolicyModel) (h : List Meas) (hl : ∀ x ∈ h, x.features.length = l)
    (hr : ∀ x ∈ h, 0 ≤ x.policy ∧ x.policy < n) (hn : 1 ≤ n)
    (hm : (PolicyModel.newForest n k d e).train env (run h) = .ok m) (f : Features)
    (hf : f.length = l) : ∃ c, m.getIndex f = .ok (c, m) ∧ 0 ≤ c ∧ c < n := by
  simp only [PolicyModel.newForest, PolicyModel.train] at hm
  obtain ⟨g, hg, he⟩ := (Res.bind_eq_ok _ _ _).1 hm
  simp only [Except.ok.injEq] at he
  subst he
  obtain ⟨-, -, h3, new, h4, -, h6⟩ := forest_train_spec hg
  simp only [ForestImpl.new, List.nil_append] at h4 h3
  have key : ∀ ts : List TreeImpl, (∀ t ∈ ts, ∃ ys, IsBootstrap (PolicyModel.trainingSamples (run h)) ys ∧
      TreeImpl.newTrained env.sort n d ys = .ok t) →
      ∃ bs, List.Forall₂ (fun t c => TreeImpl.predict t f = .ok c) ts bs ∧ ∀ b ∈ bs, 0 ≤ b ∧ b < n := by
    intro ts
    induction ts with
    | nil => intro _; exact ⟨[], .nil, by simp⟩
    | cons t ts ih =>
      intro hts
      obtain ⟨bs, hb1, hb2⟩ := ih fun t ht => hts t (List.mem_cons_of_mem _ ht)
      obtain ⟨ys, ⟨-, hmem⟩, htr⟩ := hts t (by simp)
      have hys : ∀ x ∈ ys, x.1.length = l := fun x hx => trainingSamples_length hl x (hmem x hx)
      obtain ⟨c, hc1, hc2⟩ := trained_predict hσ htr hys
      refine ⟨c :: bs, .cons (hc2 f hf) hb1, ?_⟩
      intro b hb
      rcases List.mem_cons.1 hb with rfl | hb
      · obtain ⟨x, hx, rfl⟩ := hc1
        obtain ⟨mm, hbest, -⟩ := ((trainingSamples_spec h).1 x.1 x.2).1 (hmem x hx)
        obtain ⟨y, hy, -, hyp⟩ := (C01_key_iff h x.1 x.2).1 ⟨mm, hbest⟩
        rw [← hyp]; exact hr y hy
      · exact hb2 b hb
  obtain ⟨bs, hb1, hb2⟩ := key new (by simpa [ForestImpl.new] using h6)
  rw [← h4] at hb1
  obtain ⟨w, hw, hwin⟩ := C27_total g f bs (by rw [h3]; exact hn) hb1 (by rw [h3]; exact hb2)
  rw [h3] at hwin
  refine ⟨w, ?_, hwin.nonneg, hwin.lt⟩
  simp only [PolicyModel.getIndex, Bool.not_false, if_true, hw, Res.bind_ok]

/-! ## C29 -/

theorem predict_congr {f g : ForestImpl} {x : Features} (hn : f.numClasses = g.numClasses)
    (h : List.Forall₂ (fun t u => TreeImpl.predict t x = TreeImpl.predict u x) f.trees g.trees) :
    f.predict x = g.predict x := by
  unfold ForestImpl.predict
  have e : ForestImpl.votes g.numClasses x f.trees (List.replicate g.numClasses.toNat 0) =
      ForestImpl.votes g.numClasses x g.trees (List.replicate g.numClasses.toNat 0) := by
    generalize List.replicate g.numClasses.toNat 0 = c0
    generalize f.trees = ts at h
    generalize g.trees = us at h
    induction h generalizing c0 with
    | nil => rfl
    | cons hc _ ih =>
      simp only [ForestImpl.votes, hc]
      cases TreeImpl.predict _ x with
      | error e => rfl
      | ok c => simp only [Res.bind_ok, ih]
  rw [hn, e]

theorem treesText_ok {level : ℕ} : ∀ {ts : List TreeImpl}, (∀ t ∈ ts, ∃ s, t.save = .ok s) →
    ∃ s, ForestImpl.treesText level ts = .ok s
  | [], _ => ⟨[], rfl⟩
  | t :: ts, h => by
    obtain ⟨s, hs⟩ := h t (by simp)
    obtain ⟨r, hr⟩ := treesText_ok (level := level) fun t ht => h t (List.mem_cons_of_mem _ ht)
    obtain ⟨u, hu⟩ : ∃ u, outputTree (level + 1) t = .ok u := by
      obtain ⟨h1, h2, h3, -⟩ := save_ok_iff.1 hs
      unfold outputTree
      rw [if_neg h1, if_neg (by simpa using h2), if_pos h3]
      exact ⟨_, rfl⟩
    refine ⟨u ++ indent (level + 1) ++ ",\n".toList ++ r, ?_⟩
    simp only [ForestImpl.treesText, hu, hr, Res.bind_ok]

/-- C29 for the forests that training builds: for every dataset of moderate numbers with feature vectors
of one length, storing the trained forest succeeds, loading into a fresh model with the same number of
policies succeeds, and the answers are the same for every feature vector of that length.

Full statement: for all trained forests.  Missing: numbers outside the stated range, and forests trained
more than once, whose files do not load (`C29_fails_retrained`).  All answers of a tree that was trained
are the same (`C17_always_smallest`); for trees that predict several classes see `C29_exact_partial`. -/
theorem C29_trained_partial (env : TrainEnv) (hσ : SortSpec env.sort) (n : ℤ) (k d l : ℕ)
    (e m : PolicyModel) (h : List Meas) (hl : ∀ x ∈ h, x.features.length = l) (hl31 : l < 2 ^ 31)
    (hlen : (h.map Meas.features).toFinset.card ≤ 2 ^ 20)
    (hs : ∀ x ∈ h, StorableSample (x.features, x.policy)) (hd : d < 2 ^ 32) (hk : k < 2 ^ 32)
    (hn : 0 ≤ n) (hn31 : n < 2 ^ 31)
    (hm : (PolicyModel.newForest n k d e).train env (run h) = .ok m) (k' d' : ℕ) (e' : PolicyModel) :
    ∃ s m', m.store = .ok (some s) ∧ (PolicyModel.newForest n k' d' e').load (some s) = .ok m' ∧
      ∀ f, f.length = l → (m'.getIndex f).map Prod.fst = (m.getIndex f).map Prod.fst := by
  simp only [PolicyModel.newForest, PolicyModel.train] at hm
  obtain ⟨g, hg, he⟩ := (Res.bind_eq_ok _ _ _).1 hm
  simp only [Except.ok.injEq] at he
  subst he
  obtain ⟨h1, h2, h3, new, h4, h5, h6⟩ := forest_train_spec hg
  simp only [ForestImpl.new, List.nil_append] at h1 h2 h3 h4 h5 h6
  have hall : ∀ t ∈ g.trees, (TreeOk t ∧ t.data.length ≤ 2 ^ 64) ∧ (∃ s, t.save = .ok s) ∧
      ∀ n' f, f.length = l → (rereadInto (TreeImpl.new n' 0) t).predict f = t.predict f := by
    intro t ht
    rw [h4] at ht
    obtain ⟨ys, ⟨hyl, hmem⟩, htr⟩ := h6 t ht
    have hys : ∀ x ∈ ys, x.1.length = l := fun x hx => trainingSamples_length hl x (hmem x hx)
    have hylen : ys.length ≤ 2 ^ 20 := by rw [hyl, trainingSamples_card]; exact hlen
    have hcl : t.classes.length ≤ 2 ^ 20 := by
      obtain ⟨x, rest, root, data, hx, hb, rfl⟩ := TreeImpl.train_ok_iff.1 htr
      have := setInsertAll_length_le (ys.map Prod.snd) (TreeImpl.new n d).classes
      simp only [List.length_map, TreeImpl.new, List.length_nil] at this
      simp only [TreeImpl.new]
      omega
    obtain ⟨hok, hdl⟩ := trained_treeOk hσ (t0 := TreeImpl.new n d) List.Pairwise.nil htr hys hl31
      hylen hcl (by
        intro x hx
        obtain ⟨mm, hbest, -⟩ := ((trainingSamples_spec h).1 x.1 x.2).1 (hmem x hx)
        obtain ⟨y, hy, e1, e2⟩ := (C01_key_iff h x.1 x.2).1 ⟨mm, hbest⟩
        have := hs y hy
        rw [e1, e2] at this
        exact this) (by simp [TreeImpl.new]) hd
    refine ⟨⟨hok, hdl⟩, trained_saves hσ htr hys hok, ?_⟩
    obtain ⟨hp, c, hc⟩ := trained_const hσ htr hys
    intro n' f hf
    subst hf
    rw [TreeImpl.predict, TreeImpl.predict, eval_const hp.ne_nil hc]
    exact eval_const (fun h => hp.ne_nil (rereadTree_eq_nil.1 h)) (rereadTree_forall.2 hc)
  have hfok : ForestOk g := ⟨fun t ht => (hall t ht).1, by rw [h4, h1]; exact h5, by rw [h1]; exact hk,
    by rw [h2]; exact hd, by rw [h3]; exact hn, by rw [h3]; exact hn31⟩
  obtain ⟨ts, hts⟩ := treesText_ok (level := 1) fun t ht => (hall t ht).2.1
  have hsave : g.save = .ok _ := forest_save_ok_iff.2 ⟨ts, hts, rfl⟩
  have hload := ForestImpl.load_save hsave hfok (ForestImpl.new n k' d') h3.symm
  refine ⟨"# RandomForestImpl\n".toList ++ forestText g ts, .forest n false e' (rereadForest (ForestImpl.new n k' d') g), ?_, ?_, ?_⟩
  · simp only [PolicyModel.store, hsave, Res.bind_ok]
  · simp only [PolicyModel.newForest, PolicyModel.load, hload, Res.bind_ok]
  · intro f hf
    have : (rereadForest (ForestImpl.new n k' d') g).predict f = g.predict f := by
      refine predict_congr h3.symm ?_
      simp only [rereadForest, ForestImpl.new, List.nil_append]
      rw [List.forall₂_map_left_iff, List.forall₂_same]
      intro t ht
      exact (hall t ht).2.2 n f hf
    simp only [PolicyModel.getIndex, Bool.not_false, if_true, this]
    cases g.predict f <;> rfl

/-- C29, part, for every forest object whatever its answers: if it holds `num_trees` trees, the numbers
are in the range of the parser and the thresholds have at most six significant digits, the reloaded
forest has the same outcome for every feature vector, also where prediction is undefined.  (Missing:
other thresholds, for which C24 fails.) -/
theorem C29_exact_partial (f : ForestImpl) (s : List Char) (hs : f.save = .ok s) (hok : ForestOk f)
    (h6 : ∀ t ∈ f.trees, ∀ p n l r, subtreeAt t.root p = .node n l r →
      Float32 n.threshold ∧ SixDigits n.threshold) (k' d' : ℕ) :
    ∃ f', (ForestImpl.new f.numClasses k' d').load s = .ok f' ∧ ∀ x, f'.predict x = f.predict x := by
  refine ⟨_, ForestImpl.load_save hs hok _ rfl, fun x => predict_congr rfl ?_⟩
  simp only [rereadForest, ForestImpl.new, List.nil_append]
  rw [List.forall₂_map_left_iff, List.forall₂_same]
  intro t ht
  refine eval_reread ?_
  rw [Tree.forall_iff]
  intro p n l r hp _ v _
  obtain ⟨h1, h2⟩ := h6 t ht p n l r hp
  rw [round6_of_sixDigits h2, show rnd32 n.threshold = n.threshold from
    rnd_of_representable (by norm_num) h1]

/-- A forest with another number of policies refuses the file. -/
theorem C29_wrong_number_throws (f : ForestImpl) (s : List Char) (hs : f.save = .ok s)
    (hok : ForestOk f) (f0 : ForestImpl) (hn : f0.numClasses ≠ f.numClasses) :
    f0.load s = .error .throw := by
  obtain ⟨ts, hts, rfl⟩ := forest_save_ok_iff.1 hs
  unfold ForestImpl.load
  have hw := (wtoks_forest hts).toToks (fits_forest hok)
  rw [parseForest_comment, parseForest_classes hok hw ?_ hn]
  · rfl
  · have := (wtoks_forest hts).length_le
    simp only [List.length_append]
    have : (forestToks f).length = 13 + f.numClasses.toNat +
        ((f.trees.map fun t => treeToks t ++ [",".toList]).flatten).length := by
      simp only [forestToks, List.length_append, List.length_cons, List.length_nil,
        List.length_map, List.length_range]
      omega
    omega

/-- C29 is false of forests trained twice: the file announces `num_trees` trees and holds twice as many;
loading it aborts. -/
theorem C29_fails_retrained :
    ∃ f1 f2 s, (ForestImpl.new 1 1 1).train isort id [([1], 0)] = .ok f1 ∧
      f1.train isort id [([1], 0)] = .ok f2 ∧ f2.save = .ok s ∧
      (ForestImpl.new 1 1 1).load s = .error .abort := by
  let t : TreeImpl := ⟨[([1], 0)], [0], .node ⟨0, 1, 0, -1, 0, [1]⟩ .nil .nil, 1, 1, 1⟩
  have key : (match (⟨[t, t], 1, 1, 1⟩ : ForestImpl).save with
      | .ok s => decide ((ForestImpl.new 1 1 1).load s = .error .abort)
      | .error _ => false) = true := by decide +kernel
  cases hs : (⟨[t, t], 1, 1, 1⟩ : ForestImpl).save with
  | error e => rw [hs] at key; cases key
  | ok s =>
    rw [hs] at key
    exact ⟨⟨[t], 1, 1, 1⟩, ⟨[t, t], 1, 1, 1⟩, s, by decide +kernel, by decide +kernel, hs,
      of_decide_eq_true key⟩

/-- Loading into a forest that holds trees keeps these. -/
theorem C29_load_appends (f : ForestImpl) (s : List Char) (hs : f.save = .ok s) (hok : ForestOk f)
    (f0 : ForestImpl) (hn : f0.numClasses = f.numClasses) :
    ∃ f', f0.load s = .ok f' ∧ f'.trees.length = f0.trees.length + f.trees.length ∧
      ∀ t ∈ f0.trees, t ∈ f'.trees := by
  refine ⟨_, ForestImpl.load_save hs hok f0 hn, by simp [rereadForest], ?_⟩
  intro t ht
  simp only [rereadForest, List.mem_append]
  exact Or.inl ht

theorem forestOk_threeTrees : ForestOk threeTrees := by
  refine ⟨?_, rfl, by norm_num [threeTrees], by norm_num [threeTrees], by norm_num [threeTrees],
    by norm_num [threeTrees]⟩
  intro t ht
  simp only [threeTrees, List.mem_cons, List.not_mem_nil, or_false] at ht
  rcases ht with rfl | rfl | rfl <;>
    exact ⟨treeOk_twoLeaves (Or.inr ⟨by norm_num, by norm_num⟩), by simp [twoLeaves]⟩

theorem threeTrees_saves : ∃ s, threeTrees.save = .ok s := by
  obtain ⟨ts, hts⟩ := treesText_ok (level := 1) (ts := threeTrees.trees) (by
    intro t ht
    simp only [threeTrees, List.mem_cons, List.not_mem_nil, or_false] at ht
    rcases ht with rfl | rfl | rfl <;>
      exact ⟨_, save_ok_iff.2 ⟨by simp [twoLeaves], by decide +kernel, by decide, rfl⟩⟩)
  exact ⟨_, forest_save_ok_iff.2 ⟨ts, hts, rfl⟩⟩

/-- The hypotheses of `C29_exact_partial`, `C29_wrong_number_throws` and `C29_load_appends` are met by a
forest whose trees predict two classes. -/
example : (∃ s, threeTrees.save = .ok s) ∧ ForestOk threeTrees ∧
    ∀ v : ℚ, v = 3 / 2 ∨ v = 5 / 2 → Float32 v ∧ SixDigits v := by
  refine ⟨threeTrees_saves, forestOk_threeTrees, ?_⟩
  rintro v (rfl | rfl)
  · exact ⟨⟨3, -1, by norm_num, by norm_num, by norm_num⟩, ⟨15, -1, by norm_num, by norm_num⟩⟩
  · exact ⟨⟨5, -1, by norm_num, by norm_num, by norm_num⟩, ⟨25, -1, by norm_num, by norm_num⟩⟩

/-- The hypotheses of `C29_trained_partial` on the data. -/
example : ∀ x ∈ twoBest, StorableSample (x.features, x.policy) := by
  have k1 : StorableFloat (1 : ℚ) := by exact_mod_cast storableFloat_int (n := 1) (by norm_num)
  have k2 : StorableFloat (2 : ℚ) := by exact_mod_cast storableFloat_int (n := 2) (by norm_num)
  intro x hx
  simp only [twoBest, List.mem_cons, List.not_mem_nil, or_false] at hx
  rcases hx with rfl | rfl | rfl | rfl <;>
    exact ⟨fun v hv => by simp at hv; subst hv; assumption, by norm_num⟩

/-! ## C64, C65 -/

/-- C64 (forests): loading ends for every input text. -/
theorem C64_forest_load_terminates (f : ForestImpl) (s : List Char) : f.load s ≠ .error .diverge :=
  ForestImpl.load_terminates f s

example : (ForestImpl.new 2 1 1).load "rfc: { num_trees: 1, max_depth: 1, classes: [ 0, 1, 2".toList =
    .error (.ub .endOfStream) := by decide +kernel

/-- C65: no proper prefix of a stored forest is loaded without error, into whatever forest object. -/
theorem C65_truncated_never_loads (f f0 : ForestImpl) (full s d : List Char)
    (hs : f.save = .ok full) (hsd : s ++ d = full) (hd : d ≠ []) : ∃ e, f0.load s = .error e := by
  obtain ⟨ts, hts, rfl⟩ := forest_save_ok_iff.1 hs
  cases h : f0.load s with
  | error e => exact ⟨e, rfl⟩
  | ok x =>
    exfalso
    unfold ForestImpl.load at h
    cases hx : ForestImpl.parseForest (s.length + 1) f0 ⟨s, [], 0⟩ with
    | error e => rw [hx] at h; cases h
    | ok y => exact parseForest_no_prefix _ f0 f hts s d hsd hd y hx

end Apollo.Props
