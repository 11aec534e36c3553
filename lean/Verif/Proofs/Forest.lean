import Verif.Model.Forest
import Verif.Spec.Forest
import Verif.Proofs.TreeStore

/-! Helper lemmas about random forests. -/

namespace Apollo

open Spec

/-! ## Voting -/

theorem argmax_fold (g : ℕ → ℕ) (k : ℕ) : ∀ (s b : ℕ), b < s → (∀ i < s, g i ≤ g b) →
    (∀ i < b, g i < g b) →
    let r := (List.range' s k).foldl (fun best i => if g best < g i then i else best) b
    r < s + k ∧ (∀ i < s + k, g i ≤ g r) ∧ (∀ i < r, g i < g r) := by
  induction k with
  | zero => intro s b h1 h2 h3; simpa using ⟨h1, h2, h3⟩
  | succ k ih =>
    intro s b h1 h2 h3
    simp only [List.range'_succ, List.foldl_cons]
    have e : s + (k + 1) = s + 1 + k := by omega
    rw [e]
    by_cases hlt : g b < g s
    · rw [if_pos hlt]
      refine ih (s + 1) s (by omega) ?_ ?_
      · intro i hi
        rcases Nat.lt_or_ge i s with h | h
        · exact (h2 i h).trans hlt.le
        · have : i = s := by omega
          rw [this]
      · intro i hi
        exact (h2 i hi).trans_lt hlt
    · rw [if_neg hlt]
      refine ih (s + 1) b (by omega) ?_ h3
      intro i hi
      rcases Nat.lt_or_ge i s with h | h
      · exact h2 i h
      · have : i = s := by omega
        rw [this]; omega

theorem argmaxVotes_spec {counts : List ℕ} (h : counts ≠ []) :
    ForestImpl.argmaxVotes counts < counts.length ∧
    (∀ i < counts.length, counts.getD i 0 ≤ counts.getD (ForestImpl.argmaxVotes counts) 0) ∧
    (∀ i < ForestImpl.argmaxVotes counts,
      counts.getD i 0 < counts.getD (ForestImpl.argmaxVotes counts) 0) := by
  have hl := List.length_pos_iff.2 h
  have := argmax_fold (fun i => counts.getD i 0) (counts.length - 1) 1 0 (by omega)
    (by intro i hi; have : i = 0 := by omega
        rw [this]) (by intro i hi; omega)
  have e : 1 + (counts.length - 1) = counts.length := by omega
  rw [e] at this
  exact this

theorem getD_modify (l : List ℕ) (i j : ℕ) (hi : i < l.length) :
    (l.modify i (· + 1)).getD j 0 = l.getD j 0 + if i = j then 1 else 0 := by
  simp only [List.getD_eq_getElem?_getD, List.getElem?_modify]
  by_cases h : i = j
  · subst h
    simp [List.getElem?_eq_getElem hi]
  · simp [h]

/-- A successful vote has predictions in range and counts them. -/
theorem votes_ok {n : ℤ} {f : Features} : ∀ {ts : List TreeImpl} {c0 c1 : List ℕ},
    c0.length = n.toNat → ForestImpl.votes n f ts c0 = .ok c1 →
    ∃ preds, List.Forall₂ (fun t c => TreeImpl.predict t f = .ok c) ts preds ∧
      (∀ p ∈ preds, 0 ≤ p ∧ p < n) ∧ c1.length = n.toNat ∧
      ∀ i : ℕ, (i : ℤ) < n → c1.getD i 0 = c0.getD i 0 + preds.count (i : ℤ) := by
  intro ts
  induction ts with
  | nil =>
    intro c0 c1 h0 h
    cases h
    exact ⟨[], .nil, by simp, h0, by simp⟩
  | cons t ts ih =>
    intro c0 c1 h0 h
    simp only [ForestImpl.votes] at h
    obtain ⟨c, hc, h⟩ := (Res.bind_eq_ok _ _ _).1 h
    split at h
    · next hr =>
      obtain ⟨preds, h1, h2, h3, h4⟩ := ih (by simpa using h0) h
      refine ⟨c :: preds, .cons hc h1, ?_, h3, ?_⟩
      · intro p hp
        rcases List.mem_cons.1 hp with rfl | hp
        · exact hr
        · exact h2 p hp
      · intro i hi
        rw [h4 i hi, getD_modify _ _ _ (by omega), List.count_cons]
        by_cases hci : c = i
        · subst hci; simp; omega
        · have : c.toNat ≠ i := by omega
          simp [hci, this]
    · cases h

/-- Predictions in range make a successful vote. -/
theorem votes_total {n : ℤ} {f : Features} : ∀ {ts : List TreeImpl} {preds : List ℤ} (c0 : List ℕ),
    List.Forall₂ (fun t c => TreeImpl.predict t f = .ok c) ts preds →
    (∀ p ∈ preds, 0 ≤ p ∧ p < n) → ∃ c1, ForestImpl.votes n f ts c0 = .ok c1 := by
  intro ts preds c0 h
  induction h generalizing c0 with
  | nil => intro _; exact ⟨c0, rfl⟩
  | cons hc _ ih =>
    intro hr
    simp only [ForestImpl.votes, hc, Res.bind_ok]
    rw [if_pos (hr _ (by simp))]
    exact ih _ fun p hp => hr p (List.mem_cons_of_mem _ hp)

/-- A prediction out of range aborts. -/
theorem votes_abort {n : ℤ} {f : Features} : ∀ {ts : List TreeImpl} {preds : List ℤ} (c0 : List ℕ),
    List.Forall₂ (fun t c => TreeImpl.predict t f = .ok c) ts preds →
    (∃ p ∈ preds, ¬ (0 ≤ p ∧ p < n)) → ForestImpl.votes n f ts c0 = .error .abort := by
  intro ts preds c0 h
  induction h generalizing c0 with
  | nil => rintro ⟨p, hp, -⟩; cases hp
  | @cons t c ts preds hc _ ih =>
    rintro ⟨p, hp, hr⟩
    simp only [ForestImpl.votes, hc, Res.bind_ok]
    by_cases h0 : 0 ≤ c ∧ c < n
    · rw [if_pos h0]
      refine ih _ ⟨p, ?_, hr⟩
      rcases List.mem_cons.1 hp with rfl | hp
      · exact absurd h0 hr
      · exact hp
    · rw [if_neg h0]

theorem predict_wins {f : ForestImpl} {x : Features} {preds : List ℤ} (hn : 0 < f.numClasses)
    (hp : List.Forall₂ (fun t c => TreeImpl.predict t x = .ok c) f.trees preds)
    (hr : ∀ p ∈ preds, 0 ≤ p ∧ p < f.numClasses) :
    ∃ w, f.predict x = .ok w ∧ Wins f.numClasses preds w := by
  obtain ⟨c1, h1⟩ := votes_total (List.replicate f.numClasses.toNat 0) hp hr
  obtain ⟨preds', h2, h3, h4, h5⟩ := votes_ok (by simp) h1
  have : preds' = preds := by
    clear h1 h5 h3 hr
    generalize f.trees = ts at hp h2
    induction hp generalizing preds' with
    | nil => cases h2; rfl
    | cons hc _ ih =>
      cases h2 with
      | cons hc' h2 =>
        rw [hc] at hc'
        cases hc'
        rw [ih _ h2]
  subst this
  have hne : c1 ≠ [] := by
    intro h; rw [h] at h4; simp at h4; omega
  obtain ⟨a1, a2, a3⟩ := argmaxVotes_spec hne
  have cnt : ∀ c : ℤ, 0 ≤ c → c < f.numClasses → c1.getD c.toNat 0 = preds'.count c := by
    intro c hc0 hc
    have := h5 c.toNat (by omega)
    rw [this]
    have e : ((c.toNat : ℕ) : ℤ) = c := Int.toNat_of_nonneg hc0
    rw [e]
    have : (List.replicate f.numClasses.toNat 0).getD c.toNat 0 = 0 := by
      rw [List.getD_eq_getElem?_getD, List.getElem?_replicate]
      split <;> rfl
    rw [this, zero_add]
  have hw := cnt (ForestImpl.argmaxVotes c1) (by omega) (by omega)
  simp only [Int.toNat_natCast] at hw
  refine ⟨ForestImpl.argmaxVotes c1, ?_, ⟨by omega, by omega, ?_, ?_⟩⟩
  · unfold ForestImpl.predict
    rw [if_neg (by omega), h1]
    rfl
  · intro c hc0 hc
    rw [← cnt c hc0 hc, ← hw]
    exact a2 _ (by omega)
  · intro c hc0 hc
    rw [← cnt c hc0 (by omega), ← hw]
    exact a3 _ (by omega)

/-! ## Training -/

theorem bootstrap_isBootstrap (xs : List Sample) (draws : ℕ → ℕ) (start : ℕ) :
    IsBootstrap xs (ForestImpl.bootstrap xs draws start) := by
  refine ⟨by simp [ForestImpl.bootstrap], ?_⟩
  intro y hy
  simp only [ForestImpl.bootstrap, List.mem_map, List.mem_range] at hy
  obtain ⟨i, hi, rfl⟩ := hy
  have : draws (start + i) % xs.length < xs.length := Nat.mod_lt _ (by omega)
  rw [List.getD_eq_getElem?_getD, List.getElem?_eq_getElem this]
  exact List.getElem_mem _

/-- The bootstrap samples are those of consecutive parts of the stream of draws. -/
theorem trainLoop_ok {σ : SortFn} {xs : List Sample} {draws : ℕ → ℕ} {n : ℤ} {d : ℕ} :
    ∀ {k start : ℕ} {acc ts : List TreeImpl},
    ForestImpl.trainLoop σ xs draws n d k start acc = .ok ts →
    ∃ new, ts = acc ++ new ∧ new.length = k ∧
      ∀ i (h : i < new.length), TreeImpl.newTrained σ n d
        (ForestImpl.bootstrap xs draws (start + i * xs.length)) = .ok new[i] := by
  intro k
  induction k with
  | zero => intro start acc ts h; cases h; exact ⟨[], by simp, rfl, by simp⟩
  | succ k ih =>
    intro start acc ts h
    simp only [ForestImpl.trainLoop] at h
    obtain ⟨t, ht, h⟩ := (Res.bind_eq_ok _ _ _).1 h
    obtain ⟨new, h1, h2, h3⟩ := ih h
    refine ⟨t :: new, by simp [h1], by simp [h2], ?_⟩
    intro i hi
    cases i with
    | zero => simpa using ht
    | succ i =>
      have := h3 i (by simpa using hi)
      rw [show start + (i + 1) * xs.length = start + xs.length + i * xs.length by ring]
      simpa using this

/-- Conversely, trees trained on these samples are what the loop appends. -/
theorem trainLoop_of {σ : SortFn} {xs : List Sample} {draws : ℕ → ℕ} {n : ℤ} {d : ℕ} :
    ∀ {new : List TreeImpl} {start : ℕ} {acc : List TreeImpl},
    (∀ i (h : i < new.length), TreeImpl.newTrained σ n d
      (ForestImpl.bootstrap xs draws (start + i * xs.length)) = .ok new[i]) →
    ForestImpl.trainLoop σ xs draws n d new.length start acc = .ok (acc ++ new) := by
  intro new
  induction new with
  | nil => intro start acc _; simp [ForestImpl.trainLoop]
  | cons t ts ih =>
    intro start acc h
    have h0 := h 0 (by simp)
    simp only [Nat.zero_mul, Nat.add_zero, List.getElem_cons_zero] at h0
    simp only [List.length_cons, ForestImpl.trainLoop, h0, Res.bind_ok]
    rw [ih, List.append_assoc, List.singleton_append]
    intro i hi
    have := h (i + 1) (by simpa using hi)
    rw [show start + (i + 1) * xs.length = start + xs.length + i * xs.length by ring] at this
    simpa using this

theorem trainLoop_total {σ : SortFn} {xs : List Sample} {draws : ℕ → ℕ} {n : ℤ} {d : ℕ}
    (h : ∀ start, ∃ t, TreeImpl.newTrained σ n d (ForestImpl.bootstrap xs draws start) = .ok t) :
    ∀ (k start : ℕ) (acc : List TreeImpl),
    ∃ ts, ForestImpl.trainLoop σ xs draws n d k start acc = .ok ts := by
  intro k
  induction k with
  | zero => intro start acc; exact ⟨acc, rfl⟩
  | succ k ih =>
    intro start acc
    obtain ⟨t, ht⟩ := h start
    simp only [ForestImpl.trainLoop, ht, Res.bind_ok]
    exact ih _ _

/-! ## Files -/

/-- Tokens of a forest. -/
def forestToks (f : ForestImpl) : List (List Char) :=
  "rfc:".toList :: "{".toList :: "num_trees:".toList :: (fmtInt f.numTrees ++ [',']) ::
  "max_depth:".toList :: (fmtInt f.maxDepth ++ [',']) :: "classes:".toList :: "[".toList ::
  ((((List.range f.numClasses.toNat).map fun i : ℕ => fmtInt i ++ [',']) ++ ["],".toList]) ++
  ("trees:".toList :: "[".toList :: ((f.trees.map fun t => treeToks t ++ [",".toList]).flatten ++
  ["]".toList, "}".toList])))

theorem outputTree_ok {level : ℕ} {t : TreeImpl} {s : List Char} (h : outputTree level t = .ok s) :
    t.root ≠ .nil ∧ s = treeText level t := by
  unfold outputTree at h
  split at h
  · cases h
  · next hr =>
    split at h
    · cases h
    · split at h
      · cases h; exact ⟨hr, rfl⟩
      · cases h

theorem wtoks_trees {level : ℕ} : ∀ {ts : List TreeImpl} {s : List Char},
    ForestImpl.treesText level ts = .ok s → (∀ t ∈ ts, t.root ≠ .nil) ∧
    ∀ rest, WToks ('\n' :: rest) ('\n' :: (s ++ rest))
      (ts.map fun t => treeToks t ++ [",".toList]).flatten := by
  intro ts
  induction ts with
  | nil => intro s h; cases h; exact ⟨by simp, fun rest => WToks.nil⟩
  | cons t ts ih =>
    intro s h
    simp only [ForestImpl.treesText] at h
    obtain ⟨s1, h1, h⟩ := (Res.bind_eq_ok _ _ _).1 h
    obtain ⟨s2, h2, h⟩ := (Res.bind_eq_ok _ _ _).1 h
    cases h
    obtain ⟨hr, rfl⟩ := outputTree_ok h1
    obtain ⟨i1, i2⟩ := ih h2
    refine ⟨?_, fun rest => ?_⟩
    · intro t' ht'
      rcases List.mem_cons.1 ht' with rfl | ht'
      · exact hr
      · exact i1 t' ht'
    · have e : '\n' :: ((treeText (level + 1) t ++ indent (level + 1) ++ ",\n".toList ++ s2) ++ rest) =
          ['\n'] ++ (treeText (level + 1) t ++ (indent (level + 1) ++ spaced [",".toList] ('\n' ::
            (s2 ++ rest)))) := by
        simp [spaced]
      rw [e, List.map_cons, List.flatten_cons, List.append_assoc]
      refine (wtoks_tree (level + 1) t (blank_of_all (by decide)) _).append ?_
      exact (wtoks_line _ (by simp) (by
        intro u hu
        simp only [List.mem_singleton] at hu
        subst hu; exact wTok_of_b (by decide)) _).append (i2 rest)

/-- The text of a forest without the comment line. -/
def forestText (f : ForestImpl) (ts : List Char) : List Char :=
  "rfc: {\n".toList ++
    (indent 1 ++ "num_trees: ".toList ++ fmtInt f.numTrees ++ ",\n".toList) ++
    (indent 1 ++ "max_depth: ".toList ++ fmtInt f.maxDepth ++ ",\n".toList) ++
    (indent 1 ++ "classes: [ ".toList ++
      ((List.range f.numClasses.toNat).map fun i : ℕ => fmtInt i ++ ", ".toList).flatten ++
      "],\n".toList) ++
    (indent 1 ++ "trees:".toList ++ " [\n".toList) ++ ts ++
    (indent 1 ++ "]\n".toList) ++ "}\n".toList

theorem forest_save_ok_iff {f : ForestImpl} {s : List Char} : f.save = .ok s ↔
    ∃ ts, ForestImpl.treesText 1 f.trees = .ok ts ∧
      s = "# RandomForestImpl\n".toList ++ forestText f ts := by
  unfold ForestImpl.save forestText
  constructor
  · intro h
    obtain ⟨ts, h1, h2⟩ := (Res.bind_eq_ok _ _ _).1 h
    cases h2
    exact ⟨ts, h1, by simp only [List.append_assoc]⟩
  · rintro ⟨ts, h1, rfl⟩
    rw [h1]
    simp only [Res.bind_ok, List.append_assoc]

theorem forestText_eq (f : ForestImpl) (ts : List Char) : forestText f ts = [] ++ spaced ["rfc:".toList, "{".toList] ('\n' ::
      (indent 1 ++ spaced ["num_trees:".toList, fmtInt f.numTrees ++ [',']] ('\n' ::
      (indent 1 ++ spaced ["max_depth:".toList, fmtInt f.maxDepth ++ [',']] ('\n' ::
      (indent 1 ++ spaced (["classes:".toList, "[".toList] ++
        (((List.range f.numClasses.toNat).map fun i : ℕ => fmtInt i ++ [',']) ++ ["],".toList])) ('\n' ::
      (indent 1 ++ spaced ["trees:".toList, "[".toList] ('\n' ::
      (ts ++
      (indent 1 ++ spaced ["]".toList] ('\n' ::
      (indent 0 ++ spaced ["}".toList] ('\n' :: [])))))))))))))) := by
    unfold forestText
    rw [show indent 0 = [] from rfl]
    generalize indent 1 = w
    rw [spaced_append _ (by simp), spaced_append _ (by simp)]
    have : (((List.range f.numClasses.toNat).map fun i : ℕ => fmtInt i ++ [',']).map
        fun t => t ++ " ".toList) =
        (List.range f.numClasses.toNat).map fun i : ℕ => fmtInt i ++ ", ".toList := by
      rw [List.map_map]
      refine List.map_congr_left fun a _ => ?_
      simp
    rw [this]
    generalize ((List.range f.numClasses.toNat).map fun i : ℕ => fmtInt i ++ ", ".toList).flatten = x
    simp [spaced]

theorem wtoks_forest {f : ForestImpl} {ts : List Char} (h : ForestImpl.treesText 1 f.trees = .ok ts) :
    WToks ['\n'] (forestText f ts) (forestToks f) := by
  rw [forestText_eq]
  have e2 : forestToks f = ["rfc:".toList, "{".toList] ++ (
      ["num_trees:".toList, fmtInt f.numTrees ++ [',']] ++ (
      ["max_depth:".toList, fmtInt f.maxDepth ++ [',']] ++ ((["classes:".toList, "[".toList] ++
        (((List.range f.numClasses.toNat).map fun i : ℕ => fmtInt i ++ [',']) ++ ["],".toList])) ++
      (["trees:".toList, "[".toList] ++
      ((f.trees.map fun t => treeToks t ++ [",".toList]).flatten ++
        (["]".toList] ++ ["}".toList])))))) := by
    simp [forestToks]
  rw [e2]
  have lit2 : ∀ {a b : List Char}, WTok a → WTok b → ∀ t ∈ [a, b], WTok t := by
    intro a b ha hb t ht
    simp only [List.mem_cons, List.not_mem_nil, or_false] at ht
    rcases ht with rfl | rfl <;> assumption
  have lit1 : ∀ {a : List Char}, WTok a → ∀ t ∈ [a], WTok t := by
    intro a ha t ht
    simp only [List.mem_singleton] at ht
    subst ht; exact ha
  refine (wtoks_spaced (by simp) (lit2 (wTok_of_b (by decide)) (wTok_of_b (by decide)))
    (by intro c hc; cases hc) (startsBlank_cons (by decide))).append ?_
  refine (wtoks_line _ (by simp) (lit2 (wTok_of_b (by decide)) (wTok_int _ _ (by decide))) _).append ?_
  refine (wtoks_line _ (by simp) (lit2 (wTok_of_b (by decide)) (wTok_int _ _ (by decide))) _).append ?_
  refine (wtoks_line _ (by simp) ?_ _).append ?_
  · intro u hu
    rw [List.mem_append, List.mem_append] at hu
    rcases hu with hu | hu | hu
    · exact lit2 (wTok_of_b (by decide)) (wTok_of_b (by decide)) u hu
    · obtain ⟨c, -, rfl⟩ := List.mem_map.1 hu
      exact wTok_int _ _ (by decide)
    · exact lit1 (wTok_of_b (by decide)) u hu
  refine (wtoks_line _ (by simp) (lit2 (wTok_of_b (by decide)) (wTok_of_b (by decide))) _).append ?_
  refine ((wtoks_trees h).2 _).append ?_
  refine (wtoks_line _ (by simp) (lit1 (wTok_of_b (by decide))) _).append ?_
  exact wtoks_line _ (by simp) (lit1 (wTok_of_b (by decide))) _

theorem reads_subTree {t : TreeImpl} (h : TreeOk t) (hroot : t.root ≠ .nil) (n : ℤ) {fuel : ℕ}
    (hfuel : (treeToks t).length ≤ fuel) (c : Cur) :
    Reads (ForestImpl.parseSubTree fuel n) c (treeToks t) (rereadInto (TreeImpl.new n 0) t) c := by
  intro s k r hs
  obtain ⟨s', h1, h2⟩ := reads_tree h hroot (TreeImpl.new n 0) hfuel ([], 0) s k r hs
  refine ⟨s', h1, ?_⟩
  unfold ForestImpl.parseSubTree
  simp only
  rw [h2]
  rfl

theorem reads_trees {n : ℤ} {fuel : ℕ} : ∀ {ts : List TreeImpl} (_ : ∀ t ∈ ts, TreeOk t)
    (_ : ∀ t ∈ ts, t.root ≠ .nil)
    (_ : ((ts.map fun t => treeToks t ++ [",".toList]).flatten).length ≤ fuel)
    (acc : List TreeImpl) (c : Cur), ∃ c',
    Reads (ForestImpl.parseTrees fuel n ts.length acc) c
      (ts.map fun t => treeToks t ++ [",".toList]).flatten
      (acc ++ ts.map (rereadInto (TreeImpl.new n 0))) c' := by
  intro ts
  induction ts with
  | nil =>
    intro _ _ _ acc c
    exact ⟨c, by simpa [ForestImpl.parseTrees] using Reads.pure acc c⟩
  | cons t ts ih =>
    intro h1 h2 h3 acc c
    simp only [List.map_cons, List.flatten_cons, List.length_append] at h3
    obtain ⟨c', hc'⟩ := ih (fun u hu => h1 u (List.mem_cons_of_mem _ hu))
      (fun u hu => h2 u (List.mem_cons_of_mem _ hu)) (by omega)
      (acc ++ [rereadInto (TreeImpl.new n 0) t]) (",".toList, 0)
    refine ⟨c', ?_⟩
    rw [List.map_cons, List.flatten_cons, List.append_assoc]
    refine Reads.bind (reads_subTree (h1 t (by simp)) (h2 t (by simp)) n (by omega) c) ?_
    refine Reads.bind (ts1 := [_]) (Reads.expectNext _ _) ?_
    simpa using hc'

theorem reads_classIdx {fuel : ℕ} : ∀ {cs : List ℕ} (_ : ∀ c ∈ cs, c < 2 ^ 31 - 1)
    (_ : cs.length < fuel) (i : ℤ) (c : Cur),
    Reads (ForestImpl.parseClassIdx fuel i) c ((cs.map fun x : ℕ => fmtInt x ++ [',']) ++ ["],".toList])
      ((cs.getLast?.map fun x : ℕ => (x : ℤ) + 1).getD i) ("],".toList, 0) := by
  intro cs
  induction cs generalizing fuel with
  | nil =>
    intro _ hf i c
    obtain ⟨n, rfl⟩ : ∃ n, fuel = n + 1 := ⟨fuel - 1, by simp at hf; omega⟩
    refine Reads.bind1 (Reads.getNextTokenEquals c _ _) ?_
    simp only [decide_true, if_true]
    exact Reads.pure _ _
  | cons x cs ih =>
    intro h hf i c
    simp only [List.length_cons] at hf
    obtain ⟨n, rfl⟩ : ∃ n, fuel = n + 1 := ⟨fuel - 1, by omega⟩
    refine Reads.bind1 (Reads.getNextTokenEquals c _ _) ?_
    rw [decide_eq_false (intTok_ne _ _ _ ']' [','] (by decide) (by decide)), if_neg (by simp)]
    have hx := h x (by simp)
    refine Reads.bind0 (reads_int ⟨by omega, by omega⟩ _ (by decide)) ?_
    refine Reads.bind0 (Reads.parseExpected (by simp)) ?_
    have := ih (fun y hy => h y (List.mem_cons_of_mem _ hy)) (fuel := n) (by omega) ((x : ℤ) + 1)
      (fmtInt x ++ [','], (fmtInt x).length)
    have e : ((x :: cs).getLast?.map fun x : ℕ => (x : ℤ) + 1).getD i =
        (cs.getLast?.map fun x : ℕ => (x : ℤ) + 1).getD ((x : ℤ) + 1) := by
      rw [List.getLast?_cons]
      cases cs.getLast? <;> simp
    rw [e]
    exact this

/-- The numbers of the forest are in the range of the parser, and the number of trees is the declared
one. -/
structure ForestOk (f : ForestImpl) : Prop where
  trees : ∀ t ∈ f.trees, TreeOk t ∧ t.data.length ≤ 2 ^ 64
  count : f.trees.length = f.numTrees
  ntrees : f.numTrees < 2 ^ 32
  depth : f.maxDepth < 2 ^ 32
  pos : 0 ≤ f.numClasses
  classes : f.numClasses < 2 ^ 31

/-- What a forest reads back as, into `f0`. -/
def rereadForest (f0 f : ForestImpl) : ForestImpl :=
  { f0 with
    trees := f0.trees ++ f.trees.map (rereadInto (TreeImpl.new f0.numClasses 0))
    numTrees := f.numTrees
    maxDepth := f.maxDepth }

theorem reads_forest {f : ForestImpl} (h : ForestOk f) (hroot : ∀ t ∈ f.trees, t.root ≠ .nil)
    (f0 : ForestImpl) (hn : f0.numClasses = f.numClasses) {fuel : ℕ}
    (hfuel : (forestToks f).length ≤ fuel) (c : Cur) :
    Reads (ForestImpl.parseForest fuel f0) c (forestToks f) (rereadForest f0 f) ("}".toList, 0) := by
  have hlen : (forestToks f).length = 13 + f.numClasses.toNat +
      ((f.trees.map fun t => treeToks t ++ [",".toList]).flatten).length := by
    simp only [forestToks, List.length_append, List.length_cons, List.length_nil, List.length_map,
      List.length_range]
    omega
  rw [hlen] at hfuel
  unfold forestToks ForestImpl.parseForest
  refine Reads.bind1 (Reads.expectNext _ _) ?_
  refine Reads.bind1 (Reads.expectNext _ _) ?_
  refine Reads.bind (ts1 := [_, _]) (reads_keyVal (reads_uint h.ntrees _ (by decide)) rfl _) ?_
  refine Reads.bind (ts1 := [_, _]) (reads_keyVal (reads_uint h.depth _ (by decide)) rfl _) ?_
  refine Reads.bind1 (Reads.expectNext _ _) ?_
  refine Reads.bind1 (Reads.expectNext _ _) ?_
  refine Reads.bind (reads_classIdx (cs := List.range f.numClasses.toNat) ?_ ?_ _ _) ?_
  · intro c hc
    have := h.classes
    rw [List.mem_range] at hc
    omega
  · simp only [List.length_range]; omega
  have e : ((List.range f.numClasses.toNat).getLast?.map fun x : ℕ => (x : ℤ) + 1).getD 0 =
      f0.numClasses := by
    rw [hn]
    have := h.pos
    obtain ⟨k, hk⟩ : ∃ k : ℕ, f.numClasses = k := ⟨f.numClasses.toNat, by omega⟩
    rw [hk]
    cases k with
    | zero => simp
    | succ k => simp [List.range_succ]
  rw [e, if_neg (by simp)]
  refine Reads.bind1 (Reads.expectNext _ _) ?_
  refine Reads.bind1 (Reads.expectNext _ _) ?_
  have hcount := h.count
  obtain ⟨c', hc'⟩ := reads_trees (n := f0.numClasses) (fuel := fuel)
    (fun t ht => (h.trees t ht).1) hroot (by omega) f0.trees ("[".toList, 0)
  rw [hcount] at hc'
  refine Reads.bind hc' ?_
  refine Reads.bind1 (Reads.expectNext _ _) ?_
  exact Reads.bind1 (Reads.expectNext _ _) (Reads.pure _ _)

theorem fits_forest {f : ForestImpl} (h : ForestOk f) : ∀ u ∈ forestToks f, Fits u := by
  unfold forestToks
  refine forall_cons (fits_lit _ (by decide)) (forall_cons (fits_lit _ (by decide))
    (forall_cons (fits_lit _ (by decide)) (forall_cons ?_ (forall_cons (fits_lit _ (by decide))
      (forall_cons ?_ (forall_cons (fits_lit _ (by decide)) (forall_cons (fits_lit _ (by decide))
        (forall_append (forall_append ?_ (forall_cons (fits_lit _ (by decide)) forall_nil))
          (forall_cons (fits_lit _ (by decide)) (forall_cons (fits_lit _ (by decide))
            (forall_append ?_ (forall_cons (fits_lit _ (by decide))
              (forall_cons (fits_lit _ (by decide)) forall_nil)))))))))))))
  · exact fits_int (natAbs_lt_nat (h.ntrees.trans (by norm_num))) _ (by decide)
  · exact fits_int (natAbs_lt_nat (h.depth.trans (by norm_num))) _ (by decide)
  · intro u hu
    obtain ⟨i, hi, rfl⟩ := List.mem_map.1 hu
    have := h.classes
    rw [List.mem_range] at hi
    exact fits_int (natAbs_lt_nat (by omega)) _ (by decide)
  · intro u hu
    rw [List.mem_flatten] at hu
    obtain ⟨l, hl, hu⟩ := hu
    obtain ⟨t, ht, rfl⟩ := List.mem_map.1 hl
    rcases List.mem_append.1 hu with hu | hu
    · exact fits_tree (h.trees t ht).1 (h.trees t ht).2 u hu
    · simp only [List.mem_singleton] at hu
      subst hu
      exact fits_lit _ (by decide)

theorem forestText_ne_nil (f : ForestImpl) (ts : List Char) : forestText f ts ≠ [] := by
  unfold forestText
  simp

theorem parseForest_comment (fuel : ℕ) (f0 f : ForestImpl) (ts b : List Char) (o : ℕ) :
    ForestImpl.parseForest fuel f0 ⟨"# RandomForestImpl\n".toList ++ forestText f ts, b, o⟩ =
      ForestImpl.parseForest fuel f0 ⟨forestText f ts, b, o⟩ := by
  have e : "# RandomForestImpl\n".toList ++ forestText f ts =
      '#' :: (" RandomForestImpl".toList ++ '\n' :: forestText f ts) := by
    generalize forestText f ts = x
    simp
  rw [e]
  exact bind_comment _ (by decide) (forestText_ne_nil f ts) _ _ _ _

/-- Loading a stored forest. -/
theorem ForestImpl.load_save {f : ForestImpl} {s : List Char} (hs : f.save = .ok s) (h : ForestOk f)
    (f0 : ForestImpl) (hn : f0.numClasses = f.numClasses) :
    f0.load s = .ok (rereadForest f0 f) := by
  obtain ⟨ts, hts, rfl⟩ := forest_save_ok_iff.1 hs
  have hroot := (wtoks_trees hts).1
  have hw := wtoks_forest hts
  have ht := hw.toToks (fits_forest h)
  unfold ForestImpl.load
  have hr := reads_forest h hroot f0 hn
    (fuel := ("# RandomForestImpl\n".toList ++ forestText f ts).length + 1)
    (by
      have := hw.length_le
      simp only [List.length_append]
      omega) ([], 0)
  rw [parseForest_comment, hr.run ht]
  rfl

/-! ## Truncation and termination -/

theorem ext_subTree (fuel : ℕ) (n : ℤ) : Ext (ForestImpl.parseSubTree fuel n) := by
  intro s a s' d hs h
  unfold ForestImpl.parseSubTree at h ⊢
  obtain ⟨x, hx, h⟩ := (Res.bind_eq_ok _ _ _).1 h
  cases h
  obtain ⟨h1, h2⟩ := ext_tree fuel (TreeImpl.new n 0) ⟨s.is, [], 0⟩ x.1 x.2 d hs hx
  refine ⟨h1, ?_⟩
  simp only at h2 ⊢
  rw [h2]
  rfl

theorem ext_trees (fuel : ℕ) (n : ℤ) (k : ℕ) (acc : List TreeImpl) :
    Ext (ForestImpl.parseTrees fuel n k acc) := by
  induction k generalizing acc with
  | zero => exact Ext.pure _
  | succ k ih =>
    refine Ext.bind (ext_subTree _ _) fun _ => ?_
    exact Ext.bind (Ext.expectNext _) fun _ => ih _

theorem ext_classIdx (fuel : ℕ) (i : ℤ) : Ext (ForestImpl.parseClassIdx fuel i) := by
  induction fuel generalizing i with
  | zero => exact Ext.fail _
  | succ fuel ih =>
    refine Ext.bind (Ext.getNextTokenEquals _) fun b => ?_
    refine Ext.ite _ (Ext.pure _) ?_
    refine Ext.bind (Ext.parseWith _) fun _ => ?_
    exact Ext.bind (Ext.parseExpected _) fun _ => ih _

theorem ext_forest (fuel : ℕ) (f : ForestImpl) : Ext (ForestImpl.parseForest fuel f) := by
  unfold ForestImpl.parseForest
  refine Ext.bind (Ext.expectNext _) fun _ => ?_
  refine Ext.bind (Ext.expectNext _) fun _ => ?_
  refine Ext.bind (ext_keyVal _ Ext.parseUnsigned) fun _ => ?_
  refine Ext.bind (ext_keyVal _ Ext.parseUnsigned) fun _ => ?_
  refine Ext.bind (Ext.expectNext _) fun _ => ?_
  refine Ext.bind (Ext.expectNext _) fun _ => ?_
  refine Ext.bind (ext_classIdx _ _) fun _ => ?_
  refine Ext.ite _ (Ext.fail _) ?_
  refine Ext.bind (Ext.expectNext _) fun _ => ?_
  refine Ext.bind (Ext.expectNext _) fun _ => ?_
  refine Ext.bind (ext_trees _ _ _ _) fun _ => ?_
  refine Ext.bind (Ext.expectNext _) fun _ => ?_
  exact Ext.bind (Ext.expectNext _) fun _ => Ext.pure _

theorem parseForest_classes {fuel : ℕ} {f0 f : ForestImpl} (h : ForestOk f) {s r : List Char}
    (ht : Toks r s (forestToks f)) (hfuel : f.numClasses.toNat < fuel)
    (hn : f0.numClasses ≠ f.numClasses) {b : List Char} {o : ℕ} :
    ForestImpl.parseForest fuel f0 ⟨s, b, o⟩ = .error .throw := by
  have key : Fails (ForestImpl.parseForest fuel f0) (b, o) (forestToks f) .throw := by
    unfold forestToks ForestImpl.parseForest
    refine Reads.fails1 (Reads.expectNext _ _) ?_
    refine Reads.fails1 (Reads.expectNext _ _) ?_
    refine Reads.fails (ts1 := [_, _]) (reads_keyVal (reads_uint h.ntrees _ (by decide)) rfl _) ?_
    refine Reads.fails (ts1 := [_, _]) (reads_keyVal (reads_uint h.depth _ (by decide)) rfl _) ?_
    refine Reads.fails1 (Reads.expectNext _ _) ?_
    refine Reads.fails1 (Reads.expectNext _ _) ?_
    refine Reads.fails (reads_classIdx (cs := List.range f.numClasses.toNat) ?_ ?_ _ _) ?_
    · intro c hc
      have := h.classes
      rw [List.mem_range] at hc
      omega
    · simpa using hfuel
    have e : ((List.range f.numClasses.toNat).getLast?.map fun x : ℕ => (x : ℤ) + 1).getD 0 =
        f.numClasses := by
      have := h.pos
      obtain ⟨k, hk⟩ : ∃ k : ℕ, f.numClasses = k := ⟨f.numClasses.toNat, by omega⟩
      rw [hk]
      cases k with
      | zero => simp
      | succ k => simp [List.range_succ]
    rw [e, if_pos (Ne.symm hn)]
    intro s k r _
    rfl
  have := key s [] r (by simpa using ht)
  exact this

theorem consumes_subTree (fuel : ℕ) (n : ℤ) (t : TreeImpl) (h : t.root ≠ .nil) :
    Consumes (ForestImpl.parseSubTree fuel n) (treeToks t) := by
  intro s k r b o hs
  unfold ForestImpl.parseSubTree
  rcases consumes_tree fuel (TreeImpl.new n 0) t h s k r [] 0 hs with ⟨a, s', h1, h2⟩ | ⟨e, h2⟩
  · left
    refine ⟨a, ⟨s'.is, b, o⟩, h1, ?_⟩
    simp only [h2, Res.bind_ok]
  · right
    exact ⟨e, by simp only [h2, Res.bind_error]⟩

theorem Never.consumes {α : Type} {f : P α} {ts : List (List Char)} (h : Never f ts) : Consumes f ts :=
  fun s k r b o hs => Or.inr (h s k r b o hs)

/-- Another token than the expected one. -/
theorem Never.expectNext {e t : List Char} (hne : cstr t ≠ e) :
    Never (Apollo.expectNext e) [t] := by
  intro s k r b o hs
  cases hs with
  | cons w _ s' _ hw ht hs h' =>
    unfold Apollo.expectNext
    rw [P.bind_apply]
    rcases getNextToken_wpiece hw ht hs b o with h | h
    · rw [h, Res.bind_ok, parseExpected_apply]
      rw [if_neg (by simpa [PS.tok] using hne)]
      exact ⟨_, rfl⟩
    · rw [h]; exact ⟨_, rfl⟩

theorem never_subTree (fuel : ℕ) (n : ℤ) : Never (ForestImpl.parseSubTree fuel n) ["]".toList] := by
  intro s k r b o hs
  have : Never (parseTree fuel (TreeImpl.new n 0)) ["]".toList] := by
    unfold parseTree
    exact Never.first (Never.expectNext (by decide))
  obtain ⟨e, he⟩ := this s k r [] 0 hs
  unfold ForestImpl.parseSubTree
  exact ⟨e, by simp only [he, Res.bind_error]⟩

/-- The trees and the two brackets, whatever the number of trees expected. -/
theorem consumes_trees {α : Type} (fuel : ℕ) (n : ℤ) (g : List TreeImpl → α) :
    ∀ (ts : List TreeImpl) (_ : ∀ t ∈ ts, t.root ≠ .nil) (k : ℕ) (acc : List TreeImpl),
    Consumes (do
      let x ← ForestImpl.parseTrees fuel n k acc
      expectNext "]".toList
      expectNext "}".toList
      pure (g x)) ((ts.map fun t => treeToks t ++ [",".toList]).flatten ++ ["]".toList, "}".toList]) := by
  intro ts
  induction ts with
  | nil =>
    intro _ k acc
    cases k with
    | zero =>
      refine Consumes.bind0 (Consumes.pure _) fun _ => ?_
      refine Consumes.bind1 (Consumes.expectNext _ _) fun _ => ?_
      exact Consumes.bind1 (Consumes.expectNext _ _) fun _ => Consumes.pure _
    | succ k =>
      refine Never.consumes (Never.mono (ts := ["]".toList]) (k := ["}".toList]) ?_)
      exact Never.first (Never.first (never_subTree _ _))
  | cons t ts ih =>
    intro hr k acc
    have e : ((t :: ts).map fun t => treeToks t ++ [",".toList]).flatten ++ ["]".toList, "}".toList] =
        treeToks t ++ (",".toList :: ((ts.map fun t => treeToks t ++ [",".toList]).flatten ++
          ["]".toList, "}".toList])) := by simp
    rw [e]
    cases k with
    | zero =>
      rw [treeToks_eq (hr t (by simp))]
      refine Never.consumes ?_
      refine Never.bind0 (Consumes.pure _) fun _ => ?_
      refine Never.mono (ts := ["tree:".toList]) ?_
      exact Never.first (Never.expectNext (by decide))
    | succ k =>
      unfold ForestImpl.parseTrees
      rw [bind_assoc]
      refine Consumes.bind (consumes_subTree _ _ _ (hr t (by simp))) fun _ => ?_
      rw [bind_assoc]
      exact Consumes.bind1 (Consumes.expectNext _ _) fun _ =>
        ih (fun t ht => hr t (List.mem_cons_of_mem _ ht)) _ _

theorem consumes_classIdx (fuel : ℕ) (i : ℤ) (cs : List ℕ) :
    Consumes (ForestImpl.parseClassIdx fuel i) ((cs.map fun x : ℕ => fmtInt x ++ [',']) ++ ["],".toList]) := by
  induction cs generalizing fuel i with
  | nil =>
    cases fuel with
    | zero => exact Consumes.fail _ _
    | succ fuel => exact Consumes.getNextTokenEquals (by decide) (Consumes.pure _)
  | cons x f ih =>
    cases fuel with
    | zero => exact Consumes.fail _ _
    | succ fuel =>
      refine Consumes.getNextTokenEquals (Dataset.fmtInt_no_nul _ _ (by decide)) ?_
      rw [decide_eq_false (intTok_ne _ _ _ ']' [','] (by decide) (by decide))]
      refine Consumes.bind0 (Consumes.parseWith _) fun _ => ?_
      exact Consumes.bind0 (Consumes.parseExpected _) fun _ => ih _ _

theorem consumes_forest (fuel : ℕ) (f0 f : ForestImpl) (h : ∀ t ∈ f.trees, t.root ≠ .nil) :
    Consumes (ForestImpl.parseForest fuel f0) (forestToks f) := by
  unfold ForestImpl.parseForest forestToks
  refine Consumes.bind1 (Consumes.expectNext _ _) fun _ => ?_
  refine Consumes.bind1 (Consumes.expectNext _ _) fun _ => ?_
  refine Consumes.bind (ts1 := [_, _]) (consumes_keyVal _ Consumes.parseUnsigned _ _) fun _ => ?_
  refine Consumes.bind (ts1 := [_, _]) (consumes_keyVal _ Consumes.parseUnsigned _ _) fun _ => ?_
  refine Consumes.bind1 (Consumes.expectNext _ _) fun _ => ?_
  refine Consumes.bind1 (Consumes.expectNext _ _) fun _ => ?_
  refine Consumes.bind (consumes_classIdx _ _ _) fun _ => ?_
  split
  · exact Consumes.fail _ _
  · refine Consumes.bind1 (Consumes.expectNext _ _) fun _ => ?_
    refine Consumes.bind1 (Consumes.expectNext _ _) fun _ => ?_
    exact consumes_trees _ _ _ _ h _ _

theorem parseForest_no_prefix (fuel : ℕ) (f0 f : ForestImpl)
    {ts : List Char} (hts : ForestImpl.treesText 1 f.trees = .ok ts) (s d : List Char)
    (he : s ++ d = "# RandomForestImpl\n".toList ++ forestText f ts) (hd : d ≠ [])
    (x : ForestImpl × PS) : ForestImpl.parseForest fuel f0 ⟨s, [], 0⟩ ≠ .ok x := by
  cases s with
  | nil =>
    intro h
    simp [ForestImpl.parseForest, expectNext, P.bind_apply, getNextToken, nextToken, parseExpected,
      PS.tok] at h
  | cons c s =>
    refine (ext_forest fuel f0).no_prefix (d := d) hd (by simp) ?_ x
    intro a s' hrun
    rw [he, parseForest_comment] at hrun
    rw [(consumes_forest fuel f0 f (wtoks_trees hts).1).run (wtoks_forest hts) hrun]
    simp

theorem term_subTree (n : ℕ) (k : ℤ) : Term (ForestImpl.parseSubTree n k) n := by
  constructor
  · intro s hs h
    unfold ForestImpl.parseSubTree at h
    cases hx : parseTree n (TreeImpl.new k 0) ⟨s.is, [], 0⟩ with
    | error e =>
      refine (term_tree n (TreeImpl.new k 0)).nd ⟨s.is, [], 0⟩ hs ?_
      rw [hx] at h ⊢
      cases h
      rfl
    | ok x => rw [hx] at h; cases h
  · intro s x h
    unfold ForestImpl.parseSubTree at h
    obtain ⟨y, hy, h⟩ := (Res.bind_eq_ok _ _ _).1 h
    cases h
    exact (term_tree n (TreeImpl.new k 0)).le ⟨s.is, [], 0⟩ y hy

theorem term_trees (n : ℕ) (c : ℤ) (k : ℕ) (acc : List TreeImpl) :
    Term (ForestImpl.parseTrees n c k acc) n := by
  induction k generalizing acc with
  | zero => exact Term.pure _
  | succ k ih =>
    refine Term.bind (term_subTree _ _) fun _ => ?_
    exact Term.bind (Term.expectNext _) fun _ => ih _

theorem term_classIdx (n : ℕ) (i : ℤ) : Term (ForestImpl.parseClassIdx n i) n := by
  induction n generalizing i with
  | zero => exact ⟨fun s h => absurd h (by omega), fun s x h => by cases h⟩
  | succ n ih =>
    unfold ForestImpl.parseClassIdx getNextTokenEquals
    rw [bind_assoc]
    refine Term.loop ?_ ?_
    · intro o h
      simp [P.bind_apply, getTokenEquals, PS.tok, parseInt, parseWith_apply, Term.stoi_nil] at h
    · refine Term.bind (Term.getTokenEquals _) fun b => ?_
      refine Term.ite (Term.pure _) ?_
      refine Term.bind Term.parseInt fun _ => ?_
      exact Term.bind (Term.parseExpected _) fun _ => ih _

theorem term_forest (n : ℕ) (f : ForestImpl) : Term (ForestImpl.parseForest n f) n := by
  unfold ForestImpl.parseForest
  refine Term.bind (Term.expectNext _) fun _ => ?_
  refine Term.bind (Term.expectNext _) fun _ => ?_
  refine Term.bind (term_keyVal _ Term.parseUnsigned) fun _ => ?_
  refine Term.bind (term_keyVal _ Term.parseUnsigned) fun _ => ?_
  refine Term.bind (Term.expectNext _) fun _ => ?_
  refine Term.bind (Term.expectNext _) fun _ => ?_
  refine Term.bind (term_classIdx _ _) fun _ => ?_
  refine Term.ite (Term.fail (by simp)) ?_
  refine Term.bind (Term.expectNext _) fun _ => ?_
  refine Term.bind (Term.expectNext _) fun _ => ?_
  refine Term.bind (term_trees _ _ _ _) fun _ => ?_
  refine Term.bind (Term.expectNext _) fun _ => ?_
  exact Term.bind (Term.expectNext _) fun _ => Term.pure _

theorem ForestImpl.load_terminates (f : ForestImpl) (s : List Char) :
    f.load s ≠ .error .diverge := by
  intro h
  unfold ForestImpl.load at h
  cases hx : ForestImpl.parseForest (s.length + 1) f ⟨s, [], 0⟩ with
  | error e =>
    rw [hx] at h
    simp only [Res.bind_error] at h
    exact (term_forest (s.length + 1) f).nd ⟨s, [], 0⟩ (by simp) (by rw [hx]; cases h; rfl)
  | ok x => rw [hx] at h; cases h

end Apollo
