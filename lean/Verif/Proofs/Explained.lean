import Verif.Proofs.Replay
import Verif.Proofs.RegionRange
import Verif.Props.KokkosTuning

/-!
# Trees and forests between their trainings

Helpers for C114.
-/

namespace Apollo

open Spec

/-- Some features have this best policy. -/
def BestOf (h : List Meas) (c : ℤ) : Prop := ∃ g, IsBest (entries h) g c

/-- A tree whose classes are best policies, trained with all best policies as samples, gives one answer. -/
theorem tree_retrained {env : TrainEnv} (hσ : SortSpec env.sort) {n : ℤ} {b : Bool} {e m : PolicyModel} {t : TreeImpl}
    {h : List Meas} {nf : ℕ} (hf : ∀ x ∈ h, x.features.length = nf) (hcl : t.classes.Pairwise (· < ·))
    (hbest : ∀ c ∈ t.classes, BestOf h c) (hm : (PolicyModel.tree n b e t).train env (run h) = .ok m) :
    ∃ t', m = .tree n false e t' ∧ t'.classes.Pairwise (· < ·) ∧ (∀ c ∈ t'.classes, BestOf h c) ∧
      ∃ c, BestOf h c ∧ (∀ c', BestOf h c' → c ≤ c') ∧ ∀ f : Features, f.length = nf → t'.predict f = .ok c := by
  obtain ⟨h1, h2, h3⟩ := Props.trainingSamples_spec h
  simp only [PolicyModel.train] at hm
  obtain ⟨t', ht, he⟩ := (Res.bind_eq_ok _ _ _).1 hm
  simp only [Except.ok.injEq] at he
  subst he
  obtain ⟨x, rest, root, data, hx, hb, rfl⟩ := TreeImpl.train_ok_iff.1 ht
  have hs : (setInsertAll ((PolicyModel.trainingSamples (run h)).map Prod.snd) t.classes).Pairwise (· < ·) :=
    setInsertAll_sorted hcl
  have hmem : ∀ c, c ∈ setInsertAll ((PolicyModel.trainingSamples (run h)).map Prod.snd) t.classes ↔ BestOf h c := by
    intro c
    rw [mem_setInsertAll, List.mem_map]
    constructor
    · rintro (⟨⟨g, c'⟩, hg, rfl⟩ | hc)
      · exact ⟨g, (h1 _ _).1 hg⟩
      · exact hbest c hc
    · rintro ⟨g, hg⟩
      exact Or.inl ⟨(g, c), (h1 _ _).2 hg, rfl⟩
  obtain ⟨hgrown, -⟩ := buildTree_grown hσ _ _ (Props.trainingSamples_length hf) hb
  have hx' : x.2 ∈ setInsertAll ((PolicyModel.trainingSamples (run h)).map Prod.snd) t.classes :=
    mem_classes_of_train x (by rw [hx]; simp)
  refine ⟨_, rfl, hs, fun c hc => (hmem c).1 hc, ?_⟩
  clear ht
  revert hb hs hmem hgrown hx'
  generalize setInsertAll ((PolicyModel.trainingSamples (run h)).map Prod.snd) t.classes = cl
  intro hb hs hmem hgrown hx'
  cases cl with
  | nil => simp at hx'
  | cons c cl =>
    refine ⟨c, (hmem c).1 (by simp), ?_, ?_⟩
    · intro c' hb'
      have := (hmem c').2 hb'
      rcases List.mem_cons.1 this with rfl | h
      · exact le_refl _
      · exact le_of_lt ((List.pairwise_cons.1 hs).1 c' h)
    · intro f hf
      obtain ⟨p, nd, e1, -, e3⟩ := grown_eval hgrown hf
      have e4 := buildTree_predicted c cl _ hb p nd _ _ e1
      simp only [TreeImpl.predict]
      rw [e3, e4]

/-- A tree (`none`) or a forest of so many trees trained on the measurements `h`. -/
def BestTrained (h : List Meas) (nf : ℕ) (n : ℤ) (k : Option ℕ) (m : PolicyModel) : Prop :=
  match k with
  | none => ∃ e t, m = .tree n false e t ∧ t.classes.Pairwise (· < ·) ∧ (∀ c ∈ t.classes, BestOf h c) ∧
      ∃ c, BestOf h c ∧ (∀ c', BestOf h c' → c ≤ c') ∧ ∀ f : Features, f.length = nf → t.predict f = .ok c
  | some k => ∃ e f, m = .forest n false e f ∧ f.numTrees = k ∧ f.numClasses = n ∧ f.trees ≠ [] ∧
      ∀ t ∈ f.trees, ∃ c, BestOf h c ∧ ∀ g : Features, g.length = nf → t.predict g = .ok c

theorem forest_retrained {env : TrainEnv} (hσ : SortSpec env.sort) {n : ℤ} {b : Bool} {e m : PolicyModel} {f : ForestImpl}
    {h : List Meas} {nf : ℕ} (hf : ∀ x ∈ h, x.features.length = nf)
    (hk : f.numTrees ≠ 0) (hold : ∀ t ∈ f.trees, ∃ c, BestOf h c ∧ ∀ g : Features, g.length = nf → t.predict g = .ok c)
    (hm : (PolicyModel.forest n b e f).train env (run h) = .ok m) (hn : f.numClasses = n) :
    BestTrained h nf n (some f.numTrees) m := by
  obtain ⟨new, rfl, hl, htr⟩ := Props.C28_training_appends env n _ m b _ h hm
  refine ⟨e, _, rfl, rfl, hn, ?_, ?_⟩
  · rintro h0
    simp only [List.append_eq_nil_iff] at h0
    rw [h0.2] at hl
    exact hk hl.symm
  · intro t ht
    rcases List.mem_append.1 ht with ht | ht
    · exact hold t ht
    · obtain ⟨ys, -, hb, hy⟩ := htr t ht
      obtain ⟨c, ⟨y, hy', rfl⟩, hc⟩ := trained_predict hσ hy (k := nf) fun x hx => by
        obtain ⟨p, hm, -⟩ := hb x hx
        obtain ⟨z, hz, e, -⟩ := (Props.C01_key_iff h x.1 x.2).1 ⟨_, hm⟩
        rw [← e]
        exact hf z hz
      exact ⟨y.2, ⟨y.1, hb y hy'⟩, hc⟩

theorem bestTrained_first {k : Option ℕ} (hk : k ≠ some 0) {n : ℤ} {d j : ℕ} {env : TrainEnv} (hσ : SortSpec env.sort)
    {h : List Meas} {nf : ℕ} (hf : ∀ x ∈ h, x.features.length = nf) {m : PolicyModel}
    (hm : (Kokkos.exploring k n d j).train env (run h) = .ok m) : BestTrained h nf n k m := by
  cases k with
  | none =>
    obtain ⟨t, h1⟩ := tree_retrained hσ hf (t := TreeImpl.new n d) List.Pairwise.nil (by simp [TreeImpl.new]) hm
    exact ⟨_, t, h1⟩
  | some k =>
    exact forest_retrained hσ hf (f := ForestImpl.new n k d) (fun h0 => hk (by rw [← h0]; rfl)) (by simp [ForestImpl.new]) hm rfl

theorem bestTrained_again {k : Option ℕ} (hk : k ≠ some 0) {n : ℤ} {env : TrainEnv} (hσ : SortSpec env.sort)
    {h : List Meas} {nf : ℕ} (hf : ∀ x ∈ h, x.features.length = nf) {m m' : PolicyModel} (hs : BestTrained h nf n k m)
    (hm : m.train env (run h) = .ok m') : BestTrained h nf n k m' := by
  cases k with
  | none =>
    obtain ⟨e, t, rfl, h1, h2, -⟩ := hs
    obtain ⟨t, h1⟩ := tree_retrained hσ hf h1 h2 hm
    exact ⟨_, t, h1⟩
  | some k =>
    obtain ⟨e, f, rfl, h1, h2, -, h4⟩ := hs
    subst h1
    exact forest_retrained hσ hf (fun h0 => hk (by rw [h0])) h4 hm h2

theorem bestTrained_answer {k : Option ℕ} {n : ℤ} (hn : 0 < n) {h : List Meas} {nf : ℕ} {m : PolicyModel}
    (hp : ∀ c, BestOf h c → 0 ≤ c ∧ c < n) (hs : BestTrained h nf n k m) :
    m.isTrainable = false ∧ ∃ c, BestOf h c ∧ (k = none → ∀ c', BestOf h c' → c ≤ c') ∧
      ∀ f : Features, f.length = nf → m.getIndex f = .ok (c, m) := by
  cases k with
  | none =>
    obtain ⟨e, t, rfl, -, -, c, h1, h2, h3⟩ := hs
    refine ⟨rfl, c, h1, fun _ => h2, fun f hf => ?_⟩
    simp only [PolicyModel.getIndex, Bool.not_false, if_true, h3 f hf, Res.bind_ok]
  | some k =>
    obtain ⟨e, f, rfl, -, h2, h3, h4⟩ := hs
    refine ⟨rfl, ?_⟩
    have hone : ∀ t, ∃ c, t ∈ f.trees → BestOf h c ∧ ∀ g : Features, g.length = nf → t.predict g = .ok c := by
      intro t
      by_cases ht : t ∈ f.trees
      · obtain ⟨c, hc⟩ := h4 t ht
        exact ⟨c, fun _ => hc⟩
      · exact ⟨0, fun h => absurd h ht⟩
    choose c hc using hone
    have hfa : ∀ g : Features, g.length = nf → List.Forall₂ (fun t c => TreeImpl.predict t g = .ok c) f.trees (f.trees.map c) := by
      intro g hg
      rw [List.forall₂_map_right_iff, List.forall₂_same]
      exact fun t ht => (hc t ht).2 g hg
    have hr : ∀ b ∈ f.trees.map c, 0 ≤ b ∧ b < n := by
      intro b hb
      obtain ⟨t, ht, rfl⟩ := List.mem_map.1 hb
      exact hp _ (hc t ht).1
    have hpred : ∀ g : Features, g.length = nf → ∃ w, ForestImpl.predict f g = .ok w ∧ Wins n (f.trees.map c) w := by
      intro g hg
      have := Props.C27_total f g _ (by rw [h2]; omega) (hfa g hg) (by rw [h2]; exact hr)
      rwa [h2] at this
    obtain ⟨w, -, hw⟩ := hpred (List.replicate nf 0) (by simp)
    have hwm : w ∈ f.trees.map c := by
      obtain ⟨t, ts, hts⟩ := List.exists_cons_of_ne_nil h3
      obtain ⟨a1, a2⟩ := hr (c t) (List.mem_map_of_mem (by simp [hts]))
      have := hw.most (c t) a1 a2
      have h1 : 0 < (f.trees.map c).count (c t) := List.count_pos_iff.2 (List.mem_map_of_mem (by simp [hts]))
      exact List.count_pos_iff.1 (by omega)
    obtain ⟨t, ht, rfl⟩ := List.mem_map.1 hwm
    refine ⟨c t, (hc t ht).1, nofun, fun g hg => ?_⟩
    obtain ⟨w', h5, h6⟩ := hpred g hg
    rw [Props.Wins.unique h6 hw] at h5
    simp only [PolicyModel.getIndex, Bool.not_false, if_true, h5, Res.bind_ok]

theorem bestTrained_frozen (gen : ℕ → ℕ → ℕ) (tenv : ℕ → TrainEnv) {k : Option ℕ} {n : ℤ} {h : List Meas} {nf : ℕ}
    {m : PolicyModel} (hs : BestTrained h nf n k m) : Frozen (policyOps gen tenv) m := by
  cases k with
  | none =>
    obtain ⟨e, t, rfl, -⟩ := hs
    exact frozen_tree gen tenv n e t
  | some k =>
    obtain ⟨e, f, rfl, -⟩ := hs
    exact frozen_forest gen tenv n e f

/-- Events add rows, and take none away. -/
theorem rows_next (o : Observer) (e : Ev) (r : ℕ) : ∀ x ∈ o.rows r, x ∈ (o.next e).rows r := by
  intro x hx
  cases e <;> simp only [Observer.next] <;> try exact hx
  case finished r' c m =>
    by_cases heq : r = r'
    · subst heq; rw [Function.update_self]; exact List.mem_append_left _ hx
    · rw [Function.update_of_ne heq]; exact hx

theorem rows_mono (h l : List Ev) (r : ℕ) : ∀ x ∈ (observe h).rows r, x ∈ (observe (h ++ l)).rows r := by
  induction l using List.reverseRecOn with
  | nil => simp
  | append_singleton l e ih =>
    intro x hx
    rw [← List.append_assoc, observe_snoc]
    exact rows_next _ _ _ _ (ih x hx)

/-- The measurements of a region after events. -/
def measAt (h : List Ev) (r : ℕ) : List Meas := ((observe h).rows r).map Row.meas

theorem replay_explained {gen : ℕ → ℕ → ℕ} {tenv : ℕ → TrainEnv} (hσ : ∀ t, SortSpec (tenv t).sort)
    {env : Env PolicyModel} (he : env.ops = policyOps gen tenv) {cfg : Cfg} (hpe : cfg.persistent = false) {mt : ℤ}
    {r : ℕ} {k : Option ℕ} (hk : k ≠ some 0) {n : ℤ} (hn : 0 < n) {d nf : ℕ} {h l : List Ev} {s : HeldState PolicyModel}
    (h0 : (observe h).rows r = [])
    (hr : Replay (rules env cfg mt) false r h ⟨Kokkos.exploring k n d 0, []⟩ l s)
    (hpr : (observe (h ++ l)).proper r = true) (hf : ∀ x ∈ (observe (h ++ l)).rows r, x.features.length = nf) :
    ((∀ ds, Ev.trained r ds ∉ l) ∧ s.model = Kokkos.exploring k n d (answers r l).length ∧
      s.data = run (measAt (h ++ l) r)) ∨
    ∃ pre post, l = pre ++ .trained r s.data :: post ∧ (∀ ds, Ev.trained r ds ∉ pre) ∧
      s.data = run (measAt (h ++ pre) r) ∧ BestTrained (measAt (h ++ pre) r) nf n k s.model := by
  induction hr with
  | start => exact .inl ⟨by simp, by simp [answers], by simp [measAt, h0, run]⟩
  | @event l s s' e h1 h2 ih =>
    rw [← List.append_assoc, observe_snoc] at hpr hf
    have hpr' : (observe (h ++ l)).proper r = true :=
      proper_mono (h ++ l) [e] r (by rw [observe_snoc]; exact hpr)
    have ih := ih hpr' fun x hx => hf x (rows_next _ _ _ _ hx)
    have hx : ∀ pre post x, l = pre ++ x :: post → l ++ [e] = pre ++ x :: (post ++ [e]) := by
      rintro pre post x rfl; simp
    have hrow : (∀ c x, e ≠ .finished r c x) → measAt (h ++ (l ++ [e])) r = measAt (h ++ l) r := by
      intro hne
      unfold measAt
      rw [← List.append_assoc, observe_snoc]
      cases e <;> simp only [Observer.next]
      case finished r' c m =>
        rw [Function.update_of_ne]
        rintro rfl
        exact hne c m rfl
    have hans : ∀ e, answers r (l ++ [e]) = answers r l ++ (answer r e).toList := by
      intro e
      simp only [answers, List.filterMap_append, List.filterMap_cons, List.filterMap_nil]
      cases answer r e <;> rfl
    have hfr : ∀ pre, (∃ post, l = pre ++ post) → ∀ x ∈ measAt (h ++ pre) r, x.features.length = nf := by
      rintro pre ⟨post, rfl⟩ x hx
      obtain ⟨y, hy, rfl⟩ := List.mem_map.1 hx
      refine hf y (rows_next _ _ _ _ ?_)
      rw [← List.append_assoc]
      exact rows_mono (h ++ pre) post r y hy
    have hsort : ∀ t, SortSpec (tenv t).sort := hσ
    cases h2 with
    | chose c p f m h3 h4 =>
      rcases ih with ⟨a1, a2, a3⟩ | ⟨pre, post, a1, a2, a3, a4⟩
      · refine .inl ⟨?_, ?_, ?_⟩
        · intro ds hd
          simp only [List.mem_append, List.mem_singleton] at hd
          exact hd.elim (a1 ds) nofun
        · have h4 : env.ops.getIndex s.model f = .ok (p, m) := h4
          rw [he, a2] at h4
          have := (Kokkos.exploring_step hn k d (answers r l).length f).1
          have h5 : (Kokkos.exploring k n d (answers r l).length).getIndex f = .ok (p, m) := h4
          rw [this] at h5
          simp only [Except.ok.injEq, Prod.mk.injEq] at h5
          rw [hans]
          simp only [answer, if_true, Option.toList_some, List.length_append, List.length_singleton]
          exact h5.2.symm
        · rw [hrow (by simp)]; exact a3
      · refine .inr ⟨pre, post ++ [.chose r c p], hx _ _ _ a1, a2, a3, ?_⟩
        have h4 : env.ops.getIndex s.model f = .ok (p, m) := h4
        rw [he] at h4
        rw [(bestTrained_frozen gen tenv a4).index _ _ _ h4]
        exact a4
    | trained ds t m h3 h4 =>
      have h4 : env.ops.train t ds s.model = .ok m := h4
      have hd := h3 rfl
      subst hd
      rw [he] at h4
      rcases ih with ⟨a1, a2, a3⟩ | ⟨pre, post, a1, a2, a3, a4⟩
      · refine .inr ⟨l, [], rfl, a1, a3, ?_⟩
        have h5 : (Kokkos.exploring k n d (answers r l).length).train (tenv t) (run (measAt (h ++ l) r)) = .ok m := by
          rw [← a2, ← a3]; exact h4
        exact bestTrained_first hk (hσ t) (hfr l ⟨[], by simp⟩) h5
      · refine .inr ⟨pre, post ++ [.trained r s.data], hx _ _ _ a1, a2, a3, ?_⟩
        have h5 : s.model.train (tenv t) (run (measAt (h ++ pre) r)) = .ok m := by rw [← a3]; exact h4
        exact bestTrained_again hk (hσ t) (hfr pre ⟨_, a1⟩) a4 h5
    | finished c x f p h3 h4 ds h5 =>
      have h5 : ds = if cfg.persistent = true ∨ env.ops.isTrainable s.model = true then s.data.insert f p x else s.data := h5
      rw [hpe, he] at h5
      rcases ih with ⟨a1, a2, a3⟩ | ⟨pre, post, a1, a2, a3, a4⟩
      · refine .inl ⟨?_, ?_, ?_⟩
        · intro ds hd
          simp only [List.mem_append, List.mem_singleton] at hd
          exact hd.elim (a1 ds) nofun
        · rw [hans]; simpa [answer] using a2
        · have hT : (policyOps gen tenv).isTrainable s.model = true := by
            rw [a2]; exact (Kokkos.exploring_step hn k d _ []).2
          rw [if_pos (.inr hT)] at h5
          simp only [Observer.next, Function.update_self, Bool.and_eq_true] at hpr
          have b2 := hpr.1.1.2
          have b3 := hpr.1.2
          obtain ⟨q, hq⟩ := Option.isSome_iff_exists.1 b3
          have b5 := h3 b2
          have b6 := h4 b2 q hq
          subst b5 b6
          show ds = _
          rw [h5, a3]
          unfold measAt
          rw [← List.append_assoc, observe_snoc]
          simp only [Observer.next, Function.update_self, List.map_append, List.map_cons, List.map_nil, hq,
            Option.getD_some, run, List.foldl_append, List.foldl_cons, List.foldl_nil, Row.meas]
      · refine .inr ⟨pre, post ++ [.finished r c x], ?_⟩
        have hT : (policyOps gen tenv).isTrainable s.model = false := (bestTrained_frozen gen tenv a4).trainable
        rw [hT, if_neg (by simp)] at h5
        subst h5
        exact ⟨hx _ _ _ a1, a2, a3, a4⟩
    | other _ h3 h4 h5 =>
      rcases ih with ⟨a1, a2, a3⟩ | ⟨pre, post, a1, a2, a3, a4⟩
      · refine .inl ⟨?_, ?_, ?_⟩
        · intro ds hd
          simp only [List.mem_append, List.mem_singleton] at hd
          exact hd.elim (a1 ds) fun h => h4 ds h.symm
        · rw [hans]
          have : answer r e = none := by
            unfold answer
            split
            · split
              next heq => subst heq; exact absurd rfl (h3 _ _)
              next => rfl
            · rfl
          rw [this]
          simpa using a2
        · rw [hrow h5]; exact a3
      · exact .inr ⟨pre, post ++ [e], hx _ _ _ a1, a2, a3, a4⟩

/-- Before the first training the explorer takes turns. -/
theorem replay_turns {gen : ℕ → ℕ → ℕ} {tenv : ℕ → TrainEnv} {env : Env PolicyModel} (he : env.ops = policyOps gen tenv)
    {cfg : Cfg} {mt : ℤ} {r : ℕ} {k : Option ℕ} {n : ℤ} (hn : 0 < n) {d : ℕ} {b : Bool} {ds₀ : Dataset} {h l : List Ev}
    {s : HeldState PolicyModel} (hr : Replay (rules env cfg mt) b r h ⟨Kokkos.exploring k n d 0, ds₀⟩ l s)
    (ht : ∀ ds, Ev.trained r ds ∉ l) : s.model = Kokkos.exploring k n d (answers r l).length := by
  induction hr with
  | start => simp [answers]
  | @event l s s' e h1 h2 ih =>
    have ih := ih fun ds hd => ht ds (List.mem_append_left _ hd)
    have hans : ∀ e, answers r (l ++ [e]) = answers r l ++ (answer r e).toList := by
      intro e
      simp only [answers, List.filterMap_append, List.filterMap_cons, List.filterMap_nil]
      cases answer r e <;> rfl
    rw [hans]
    cases h2 with
    | chose c p f m h3 h4 =>
      have h4 : env.ops.getIndex s.model f = .ok (p, m) := h4
      rw [he, ih] at h4
      have h5 : (Kokkos.exploring k n d (answers r l).length).getIndex f = .ok (p, m) := h4
      rw [(Kokkos.exploring_step hn k d (answers r l).length f).1] at h5
      simp only [Except.ok.injEq, Prod.mk.injEq] at h5
      simp only [answer, if_true, Option.toList_some, List.length_append, List.length_singleton]
      exact h5.2.symm
    | trained ds => exact absurd (by simp) (ht ds)
    | finished => simpa [answer] using ih
    | other _ h3 h4 h5 =>
      have : answer r e = none := by
        unfold answer
        split
        · split
          next heq => subst heq; exact absurd rfl (h3 _ _)
          next => rfl
        · rfl
      rw [this]
      simpa using ih

/-- There is one first training. -/
theorem first_training {r : ℕ} : ∀ {a a' b b' : List Ev} {ds ds' : Dataset}, (∀ ds, Ev.trained r ds ∉ a) →
    (∀ ds, Ev.trained r ds ∉ a') → a ++ .trained r ds :: b = a' ++ .trained r ds' :: b' → a' = a ∧ ds' = ds := by
  intro a
  induction a with
  | nil =>
    intro a' b b' ds ds' _ h2 h
    cases a' with
    | nil =>
      simp only [List.nil_append, List.cons.injEq, Ev.trained.injEq] at h
      exact ⟨rfl, h.1.2.symm⟩
    | cons e a' =>
      simp only [List.nil_append, List.cons_append, List.cons.injEq] at h
      exact absurd (by rw [h.1]; simp) (h2 ds)
  | cons e a ih =>
    intro a' b b' ds ds' h1 h2 h
    cases a' with
    | nil =>
      simp only [List.nil_append, List.cons_append, List.cons.injEq] at h
      exact absurd (by rw [h.1]; simp) (h1 ds')
    | cons e' a' =>
      simp only [List.cons_append, List.cons.injEq] at h
      obtain ⟨rfl, h3⟩ := ih (fun ds hd => h1 ds (List.mem_cons_of_mem _ hd))
        (fun ds hd => h2 ds (List.mem_cons_of_mem _ hd)) h.2
      exact ⟨by rw [h.1], h3⟩

end Apollo
