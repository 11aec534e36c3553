import Verif.Proofs.TreeReach
import Verif.Proofs.Forest
import Verif.Proofs.Factory
import Verif.Model.RegionPolicy

/-!
# Policy models answer in range
-/

namespace Apollo

open Spec

/-- All entries have a policy in `[0, n)`. -/
def DataIn (n : ℤ) (ds : Dataset) : Prop := ∀ e ∈ ds, 0 ≤ (ofLex e.1).2 ∧ (ofLex e.1).2 < n

/-- All nodes predict a class in `[0, n)`. -/
def TreeIn (n : ℤ) : Tree → Prop
  | .nil => True
  | .node i l r => (0 ≤ i.predicted ∧ i.predicted < n) ∧ TreeIn n l ∧ TreeIn n r

theorem OMap.mem_upsert_val {κ α : Type} [LinearOrder κ] {f : Option α → α} {k : κ} :
    ∀ {m : OMap κ α} {e : κ × α}, e ∈ OMap.upsert f k m →
      e ∈ m ∨ (e.1 = k ∧ ∃ o, e.2 = f o ∧ ∀ v, o = some v → (k, v) ∈ m)
  | [], e, h => by
    simp only [OMap.upsert, List.mem_singleton] at h
    subst h
    exact .inr ⟨rfl, none, rfl, by simp⟩
  | (k', v) :: m, e, h => by
    unfold OMap.upsert at h
    split at h
    · rcases List.mem_cons.1 h with h | h
      · subst h; exact .inr ⟨rfl, none, rfl, by simp⟩
      · exact .inl h
    · split at h
      next heq =>
        subst heq
        rcases List.mem_cons.1 h with h | h
        · subst h; exact .inr ⟨rfl, some v, rfl, by simp⟩
        · exact .inl (List.mem_cons_of_mem _ h)
      · rcases List.mem_cons.1 h with h | h
        · subst h; exact .inl List.mem_cons_self
        · refine (OMap.mem_upsert_val h).imp (List.mem_cons_of_mem _) ?_
          rintro ⟨h1, o, h2, h3⟩
          exact ⟨h1, o, h2, fun v hv => List.mem_cons_of_mem _ (h3 v hv)⟩

theorem DataIn.insert {n : ℤ} {ds : Dataset} (h : DataIn n ds) (f : Features) {p : ℤ} (m : ℚ)
    (hp : 0 ≤ p ∧ p < n) : DataIn n (ds.insert f p m) := by
  intro e he
  rcases OMap.mem_upsert_val he with he | ⟨he, -⟩
  · exact h e he
  · rw [he]; exact hp

theorem bestPolicies_in {n : ℤ} {ds : Dataset} (h : DataIn n ds) :
    ∀ e ∈ Dataset.bestPolicies ds, 0 ≤ e.2.1 ∧ e.2.1 < n := by
  unfold Dataset.bestPolicies
  induction ds using List.reverseRecOn with
  | nil => simp
  | append_singleton pre d ih =>
    have ih := ih fun e he => h e (by simp [he])
    have hd := h d (by simp)
    rw [List.foldl_append]
    simp only [List.foldl_cons, List.foldl_nil]
    generalize pre.foldl Dataset.bestStep [] = best at ih
    intro e he
    unfold Dataset.bestStep at he
    dsimp only at he
    split at he
    · rcases OMap.mem_upsert_val he with he | ⟨-, o, he, ho⟩
      · exact ih e he
      · cases o with
        | none => rw [he]; exact hd
        | some v => rw [he]; exact ih _ (ho v rfl)
    · split at he
      · rcases OMap.mem_upsert_val he with he | ⟨-, o, he, ho⟩
        · exact ih e he
        · rw [he]; exact hd
      · exact ih e he

theorem trainingSamples_in {n : ℤ} {ds : Dataset} (h : DataIn n ds) :
    ∀ x ∈ PolicyModel.trainingSamples ds, 0 ≤ x.2 ∧ x.2 < n := by
  intro x hx
  have h2 := (List.of_mem_zip hx).2
  simp only [List.mem_map] at h2
  obtain ⟨e, he, hx⟩ := h2
  rw [← hx]
  exact bestPolicies_in h e he

theorem treeIn_of_at {n : ℤ} {t : Tree}
    (h : ∀ p i l r, subtreeAt t p = .node i l r → 0 ≤ i.predicted ∧ i.predicted < n) :
    TreeIn n t := by
  induction t with
  | nil => trivial
  | node i l r hl hr =>
    refine ⟨h [] i l r rfl, hl fun p i' l' r' hp => h (false :: p) i' l' r' ?_,
      hr fun p i' l' r' hp => h (true :: p) i' l' r' ?_⟩
    · simpa [subtreeAt] using hp
    · simpa [subtreeAt] using hp

theorem evaluateTree_in {n : ℤ} {t : Tree} {f : Features} {c : ℤ} (ht : TreeIn n t)
    (h : evaluateTree t f = .ok c) : 0 ≤ c ∧ c < n := by
  induction t with
  | nil => cases h
  | node i l r hl hr =>
    unfold evaluateTree at h
    obtain ⟨h0, h1, h2⟩ := ht
    split at h
    · cases h; exact h0
    · split at h
      · cases h
      · split at h
        · cases h
        · split at h
          · split at h
            · cases h; exact h0
            · exact hl h1 h
          · split at h
            · cases h; exact h0
            · exact hr h2 h

/-- Whatever features it is asked about, the model answers with a policy in `[0, n)` as long as it is
trained with such policies. -/
def Answers (n : ℤ) : PolicyModel → Prop
  | .null => True
  | .static _ c => 0 ≤ c ∧ c < n
  | .roundRobin k last => k = n ∧ -1 ≤ last ∧ last < n
  | .random k _ => k = n
  | .optimal q => ∀ p ∈ q, 0 ≤ p ∧ p < n
  | .datasetMap _ best => ∀ e ∈ best, 0 ≤ e.2.1 ∧ e.2.1 < n
  | .tree _ _ e t => Answers n e ∧ (∀ c ∈ t.classes, 0 ≤ c ∧ c < n) ∧ TreeIn n t.root
  | .forest _ _ e f => Answers n e ∧ f.numClasses = n

theorem forest_predict_in {f : ForestImpl} {x : Features} {c : ℤ} (h : f.predict x = .ok c) :
    0 ≤ c ∧ c < f.numClasses := by
  have h' := h
  unfold ForestImpl.predict at h
  split at h
  · cases h
  next hn =>
    obtain ⟨counts, hv, -⟩ := (Res.bind_eq_ok _ _ _).1 h
    obtain ⟨preds, h1, h2, -, -⟩ := votes_ok (by simp) hv
    obtain ⟨w', h3, h4⟩ := predict_wins (by omega) h1 h2
    rw [h'] at h3
    cases h3
    exact ⟨h4.nonneg, h4.lt⟩

theorem Answers.getIndex {n : ℤ} (hn : 1 ≤ n) {m : PolicyModel} (hm : Answers n m) {f : Features}
    {c : ℤ} {m' : PolicyModel} (h : m.getIndex f = .ok (c, m')) :
    (0 ≤ c ∧ c < n) ∧ Answers n m' := by
  induction m generalizing c m' with
  | null => cases h
  | static k c' => cases h; exact ⟨hm, hm⟩
  | roundRobin k last =>
    obtain ⟨rfl, h1, h2⟩ := hm
    unfold PolicyModel.getIndex at h
    rw [if_neg (by omega)] at h
    simp only [Except.ok.injEq, Prod.mk.injEq] at h
    obtain ⟨rfl, rfl⟩ := h
    have a := Int.tmod_nonneg k (show 0 ≤ last + 1 by omega)
    have b := Int.tmod_lt_of_pos (last + 1) (show 0 < k by omega)
    exact ⟨⟨a, b⟩, rfl, by omega, b⟩
  | random k gen =>
    obtain rfl : k = n := hm
    unfold PolicyModel.getIndex at h
    split at h
    · simp only [Except.ok.injEq, Prod.mk.injEq] at h
      obtain ⟨rfl, rfl⟩ := h
      have := Nat.mod_lt (gen 0) (show 0 < k.toNat by omega)
      exact ⟨⟨by omega, by omega⟩, rfl⟩
    · simp only [Except.ok.injEq, Prod.mk.injEq] at h
      obtain ⟨rfl, rfl⟩ := h
      exact ⟨⟨by omega, by omega⟩, rfl⟩
  | optimal q =>
    cases q with
    | nil => cases h
    | cons p q =>
      cases h
      exact ⟨hm _ (List.mem_cons_self), fun x hx => hm x (List.mem_cons_of_mem _ hx)⟩
  | datasetMap k best =>
    unfold PolicyModel.getIndex at h
    split at h
    · cases h
    next b hb =>
      simp only [Except.ok.injEq, Prod.mk.injEq] at h
      obtain ⟨rfl, rfl⟩ := h
      exact ⟨hm _ (OMap.mem_of_find_eq_some hb), hm⟩
  | tree k b e t ih =>
    unfold PolicyModel.getIndex at h
    split at h
    · obtain ⟨c', h1, h⟩ := (Res.bind_eq_ok _ _ _).1 h
      cases h
      exact ⟨evaluateTree_in hm.2.2 h1, hm⟩
    · obtain ⟨⟨c', e'⟩, h1, h⟩ := (Res.bind_eq_ok _ _ _).1 h
      cases h
      obtain ⟨a1, a2⟩ := ih hm.1 h1
      exact ⟨a1, a2, hm.2⟩
  | forest k b e t ih =>
    unfold PolicyModel.getIndex at h
    split at h
    · obtain ⟨c', h1, h⟩ := (Res.bind_eq_ok _ _ _).1 h
      cases h
      have := forest_predict_in h1
      rw [hm.2] at this
      exact ⟨this, hm⟩
    · obtain ⟨⟨c', e'⟩, h1, h⟩ := (Res.bind_eq_ok _ _ _).1 h
      cases h
      obtain ⟨a1, a2⟩ := ih hm.1 h1
      exact ⟨a1, a2, hm.2⟩

theorem ForestImpl.train_numClasses {σ : SortFn} {draws : ℕ → ℕ} {f f' : ForestImpl}
    {xs : List Sample} (h : f.train σ draws xs = .ok f') : f'.numClasses = f.numClasses := by
  obtain ⟨ts, -, h⟩ := (Res.bind_eq_ok _ _ _).1 h
  cases h
  rfl

theorem ForestImpl.load_numClasses {f f' : ForestImpl} {s : List Char} (h : f.load s = .ok f') :
    f'.numClasses = f.numClasses := by
  obtain ⟨⟨f₁, s₁⟩, h1, h⟩ := (Res.bind_eq_ok _ _ _).1 h
  cases h
  have : Post (ForestImpl.parseForest (s.length + 1) f) fun g => g.numClasses = f.numClasses := by
    unfold ForestImpl.parseForest
    refine .bindT fun _ => .bindT fun _ => .bindT fun _ => .bindT fun _ => .bindT fun _ =>
      .bindT fun _ => .bindT fun _ => .ite .fail ?_
    exact .bindT fun _ => .bindT fun _ => .bindT fun _ => .bindT fun _ => .bindT fun _ => .pure rfl
  exact this _ _ _ h1

theorem TreeImpl.train_in {n : ℤ} {σ : SortFn} {t t' : TreeImpl} {xs : List Sample}
    (hc : ∀ c ∈ t.classes, 0 ≤ c ∧ c < n) (hx : ∀ x ∈ xs, 0 ≤ x.2 ∧ x.2 < n)
    (h : t.train σ xs = .ok t') :
    (∀ c ∈ t'.classes, 0 ≤ c ∧ c < n) ∧ TreeIn n t'.root := by
  obtain ⟨x, rest, root, data, -, hb, rfl⟩ := TreeImpl.train_ok_iff.1 h
  have h1 : ∀ c ∈ setInsertAll (xs.map Prod.snd) t.classes, 0 ≤ c ∧ c < n := by
    intro c h
    rcases mem_setInsertAll.1 h with h | h
    · obtain ⟨x, hx', rfl⟩ := List.mem_map.1 h
      exact hx x hx'
    · exact hc c h
  refine ⟨h1, treeIn_of_at fun p i l r hp => ?_⟩
  revert hb h1
  dsimp only at hp
  cases hcs : setInsertAll (xs.map Prod.snd) t.classes with
  | nil =>
    intro hb
    exfalso
    cases hd : t.maxDepth with
    | zero =>
      rw [hd] at hb
      unfold buildTree at hb
      obtain ⟨g, -, hb⟩ := (Res.bind_eq_ok _ _ _).1 hb
      obtain ⟨i, hi, -⟩ := (Res.bind_eq_ok _ _ _).1 hb
      rw [newNode_nil] at hi
      cases hi
    | succ d =>
      rw [hd] at hb
      unfold buildTree at hb
      obtain ⟨g, -, hb⟩ := (Res.bind_eq_ok _ _ _).1 hb
      obtain ⟨i, hi, -⟩ := (Res.bind_eq_ok _ _ _).1 hb
      rw [newNode_nil] at hi
      cases hi
  | cons c cs =>
    intro hb h1
    rw [buildTree_predicted c cs _ hb p i l r hp]
    exact h1 c (by simp)

theorem Answers.train {n : ℤ} {m : PolicyModel} (hm : Answers n m) {env : TrainEnv} {ds : Dataset}
    (hd : DataIn n ds) {m' : PolicyModel} (h : m.train env ds = .ok m') : Answers n m' := by
  cases m with
  | null => cases h
  | static => cases h; exact hm
  | roundRobin => cases h; exact hm
  | random => cases h; exact hm
  | optimal => cases h; exact hm
  | datasetMap => cases h; exact bestPolicies_in hd
  | tree k b e t =>
    obtain ⟨t', h1, h⟩ := (Res.bind_eq_ok _ _ _).1 h
    cases h
    exact ⟨hm.1, TreeImpl.train_in hm.2.1 (trainingSamples_in hd) h1⟩
  | forest k b e f =>
    obtain ⟨f', h1, h⟩ := (Res.bind_eq_ok _ _ _).1 h
    cases h
    exact ⟨hm.1, by rw [ForestImpl.train_numClasses h1]; exact hm.2⟩

/-- Models whose answers do not depend on what they are trained with or loaded from. -/
def Robust (n : ℤ) : PolicyModel → Prop
  | .static k c => Answers n (.static k c)
  | .roundRobin k last => Answers n (.roundRobin k last)
  | .random k gen => Answers n (.random k gen)
  | .forest k b e f => Answers n (.forest k b e f)
  | _ => False

theorem Robust.answers {n : ℤ} {m : PolicyModel} (h : Robust n m) : Answers n m := by
  cases m <;> first | exact h | exact h.elim

theorem Robust.train {n : ℤ} {m : PolicyModel} (hm : Robust n m) {env : TrainEnv} {ds : Dataset}
    {m' : PolicyModel} (h : m.train env ds = .ok m') : Robust n m' := by
  cases m with
  | static => cases h; exact hm
  | roundRobin => cases h; exact hm
  | random => cases h; exact hm
  | forest k b e f =>
    obtain ⟨f', h1, h⟩ := (Res.bind_eq_ok _ _ _).1 h
    cases h
    exact ⟨hm.1, by rw [ForestImpl.train_numClasses h1]; exact hm.2⟩
  | _ => exact hm.elim

theorem Robust.load {n : ℤ} {m : PolicyModel} (hm : Robust n m) {s : Option Str}
    {m' : PolicyModel} (h : m.load s = .ok m') : Robust n m' := by
  cases m with
  | static => cases h; exact hm
  | roundRobin => cases h; exact hm
  | random => cases h; exact hm
  | forest k b e f =>
    unfold PolicyModel.load at h
    dsimp only at h
    split at h
    · cases h
    · obtain ⟨f', h1, h⟩ := (Res.bind_eq_ok _ _ _).1 h
      cases h
      exact ⟨hm.1, by rw [ForestImpl.load_numClasses h1]; exact hm.2⟩
  | _ => exact hm.elim

theorem Robust.getIndex {n : ℤ} (hn : 1 ≤ n) {m : PolicyModel} (hm : Robust n m) {f : Features}
    {c : ℤ} {m' : PolicyModel} (h : m.getIndex f = .ok (c, m')) : Robust n m' := by
  have ha := (hm.answers.getIndex hn h).2
  cases m with
  | static => cases h; exact hm
  | roundRobin k last =>
    unfold PolicyModel.getIndex at h
    split at h
    · cases h
    · cases h; exact ha
  | random k gen =>
    unfold PolicyModel.getIndex at h
    split at h <;> cases h <;> exact ha
  | forest k b e t =>
    unfold PolicyModel.getIndex at h
    split at h
    · obtain ⟨c', h1, h⟩ := (Res.bind_eq_ok _ _ _).1 h
      cases h
      exact ha
    · obtain ⟨⟨c', e'⟩, h1, h⟩ := (Res.bind_eq_ok _ _ _).1 h
      cases h
      exact ha
  | _ => exact hm.elim

theorem createPolicyModel_answers {gen : ℕ → ℕ} {n : ℤ} (hn : 1 ≤ n) : ∀ {fuel : ℕ} {name : Str}
    {nf : ℤ} {params : Params} {m : PolicyModel},
    createPolicyModel gen fuel name nf n params = .ok (.model m) → Answers n m
  | 0, _, _, _, _, h => by cases h
  | fuel + 1, name, nf, params, m, h => by
    unfold createPolicyModel at h
    dsimp only at h
    have expl : ∀ {e : PolicyModel}, (do
        match ← createPolicyModel gen fuel ((params.find "explore".toList).getD
          "RoundRobin".toList) nf n [] with
        | .model m => .ok m
        | .policyNet .. => .error .unmodelled : Res PolicyModel) = .ok e → Answers n e := by
      intro e he
      obtain ⟨c, h1, he⟩ := (Res.bind_eq_ok _ _ _).1 he
      cases c with
      | model m' => cases he; exact createPolicyModel_answers hn h1
      | policyNet => cases he
    split at h
    · obtain ⟨m', h1, h⟩ := (Res.bind_eq_ok _ _ _).1 h
      cases h
      obtain ⟨p, hp, h1⟩ := (Res.bind_eq_ok _ _ _).1 h1
      split at h1
      · cases h1
      · split at h1
        · cases h1; exact ⟨le_refl _, by omega⟩
        · cases h1; exact ⟨by omega, by omega⟩
    split at h
    · cases h; simp [Answers]
    split at h
    · obtain ⟨m', h1, h⟩ := (Res.bind_eq_ok _ _ _).1 h
      cases h
      unfold PolicyModel.newRandom at h1
      split at h1
      · cases h1
      · cases h1; rfl
    split at h
    · cases h; exact ⟨rfl, by omega, by omega⟩
    split at h
    · obtain ⟨d, -, h⟩ := (Res.bind_eq_ok _ _ _).1 h
      obtain ⟨e, he, h⟩ := (Res.bind_eq_ok _ _ _).1 h
      cases h
      exact ⟨expl he, by simp [TreeImpl.new], trivial⟩
    split at h
    · obtain ⟨k, -, h⟩ := (Res.bind_eq_ok _ _ _).1 h
      obtain ⟨d, -, h⟩ := (Res.bind_eq_ok _ _ _).1 h
      obtain ⟨e, he, h⟩ := (Res.bind_eq_ok _ _ _).1 h
      cases h
      exact ⟨expl he, rfl⟩
    split at h
    · obtain ⟨_, -, h⟩ := (Res.bind_eq_ok _ _ _).1 h
      obtain ⟨_, -, h⟩ := (Res.bind_eq_ok _ _ _).1 h
      obtain ⟨_, -, h⟩ := (Res.bind_eq_ok _ _ _).1 h
      obtain ⟨_, -, h⟩ := (Res.bind_eq_ok _ _ _).1 h
      obtain ⟨_, -, h⟩ := (Res.bind_eq_ok _ _ _).1 h
      cases h
    split at h
    · cases h; simp [Answers]
    · cases h

/-- The kinds whose answers are always in range. -/
def robustKinds : List Str :=
  ["Static".toList, "RoundRobin".toList, "Random".toList, "RandomForest".toList]

theorem createPolicyModel_robust {gen : ℕ → ℕ} {n : ℤ} (hn : 1 ≤ n) {fuel : ℕ} {name : Str}
    {nf : ℤ} {params : Params} {m : PolicyModel} (hk : name ∈ robustKinds)
    (h : createPolicyModel gen fuel name nf n params = .ok (.model m)) : Robust n m := by
  have ha := createPolicyModel_answers hn h
  cases fuel with
  | zero => cases h
  | succ fuel =>
    unfold createPolicyModel at h
    dsimp only at h
    simp only [robustKinds, List.mem_cons, List.not_mem_nil, or_false] at hk
    rcases hk with rfl | rfl | rfl | rfl
    · rw [if_pos rfl] at h
      obtain ⟨m', h1, h⟩ := (Res.bind_eq_ok _ _ _).1 h
      cases h
      obtain ⟨p, hp, h1⟩ := (Res.bind_eq_ok _ _ _).1 h1
      split at h1
      · cases h1
      · split at h1 <;> cases h1 <;> exact ha
    · rw [if_neg (by decide), if_neg (by decide), if_neg (by decide), if_pos rfl] at h
      cases h; exact ha
    · rw [if_neg (by decide), if_neg (by decide), if_pos rfl] at h
      obtain ⟨m', h1, h⟩ := (Res.bind_eq_ok _ _ _).1 h
      cases h
      unfold PolicyModel.newRandom at h1
      split at h1
      · cases h1
      · cases h1; exact ha
    · rw [if_neg (by decide), if_neg (by decide), if_neg (by decide), if_neg (by decide),
        if_neg (by decide), if_pos rfl] at h
      obtain ⟨k, -, h⟩ := (Res.bind_eq_ok _ _ _).1 h
      obtain ⟨d, -, h⟩ := (Res.bind_eq_ok _ _ _).1 h
      obtain ⟨e, he, h⟩ := (Res.bind_eq_ok _ _ _).1 h
      cases h
      exact ha

end Apollo
