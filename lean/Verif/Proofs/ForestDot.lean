import Verif.Proofs.TreeDot

/-!
# The drawings of forests
-/

namespace Apollo.DotText

open Apollo Spec YamlText

/-- What is drawn for the trees from number `i` on. -/
def treesGraph (py : PyText) : ℕ → List TreeImpl → List DotStmt
  | _, [] => []
  | i, t :: ts => treeGraph py (treeName i) t ++ (.edge "rfc".toList (treeName i) :: treesGraph py (i + 1) ts)

/-- The text of the trees from number `i` on. -/
def treesDot (py : PyText) : ℕ → List TreeImpl → List Char
  | _, [] => []
  | i, t :: ts => treeDot py (treeName i) t ++ (edgeText "rfc".toList (treeName i) ++ treesDot py (i + 1) ts)

theorem parseTrees_yaml (py : PyText) (fuel : ℕ) (ts : List TreeImpl)
    (h : ∀ t ∈ ts, t.root ≠ .nil ∧ height t.root ≤ fuel) : ∀ (k i : ℕ), i + k ≤ ts.length →
    Dot.parseTrees py fuel (ts.map fun t => .map [("tree".toList, treeYaml t)]) k i =
      some (treesDot py i ((ts.drop i).take k))
  | 0, i, _ => by simp [Dot.parseTrees, treesDot]
  | k + 1, i, hk => by
    have hi : i < ts.length := by omega
    have ih := parseTrees_yaml py fuel ts h k (i + 1) (by omega)
    have e1 : (ts.map fun t => Yaml.map [("tree".toList, treeYaml t)])[i]? =
        some (.map [("tree".toList, treeYaml ts[i])]) := by
      rw [List.getElem?_map, List.getElem?_eq_getElem hi]; rfl
    have hm := h ts[i] (List.getElem_mem hi)
    have e2 := parseTree_yaml py ts[i] fuel ("tree_".toList ++ fmtInt i) hm.1 hm.2
    unfold Dot.parseTrees
    rw [List.drop_eq_getElem_cons hi, List.take_succ_cons]
    simp only [e1, e2, ih, Option.bind_eq_bind, Option.bind_some, treesDot]
    simp [edgeText, treeName]

theorem ident_treeName (i : ℕ) : Ident (treeName i) := by
  refine Ident.append (ident_lit (by decide) ⟨_, _, rfl, by decide⟩) ?_
  intro c hc
  exact CSrc.isIdent_of_isDigit (isDigit_of_mem_natDigits (n := i) (by
    unfold fmtInt at hc
    rw [if_neg (by omega)] at hc
    simpa using hc))

theorem ident_rfc : Ident "rfc".toList := ident_lit (by decide) ⟨_, _, rfl, by decide⟩

theorem dots_trees {py : PyText} (h : Quiet py) : ∀ (ts : List TreeImpl) (i : ℕ),
    Dots (treesDot py i ts) (treesGraph py i ts)
  | [], _ => .nil
  | t :: ts, i => (dots_tree h t (ident_treeName i)).append
      ((dots_edge ident_rfc (ident_treeName i)).append (dots_trees h ts (i + 1)))

/-! ## Nodes and edges -/

/-- The name belongs to the tree with number `i`. -/
def Owner (a : List Char) (i : ℕ) : Prop := a = treeName i ∨ ∃ p, a = pathName (treeName i) p

theorem fmtInt_digits (i : ℕ) : ∀ c ∈ fmtInt i, isDigit c = true := by
  intro c hc
  unfold fmtInt at hc
  rw [if_neg (by omega)] at hc
  exact isDigit_of_mem_natDigits hc

theorem takeWhile_digits {u r : List Char} (h : ∀ c ∈ u, isDigit c = true) (hr : r = [] ∨ ∃ c r', r = c :: r' ∧ isDigit c = false) :
    (u ++ r).takeWhile isDigit = u := by
  induction u with
  | nil =>
    rcases hr with rfl | ⟨c, r', rfl, hc⟩
    · rfl
    · simp [hc]
  | cons c u ih =>
    rw [List.cons_append, List.takeWhile_cons_of_pos (h c (by simp)), ih fun d hd => h d (by simp [hd])]

theorem Owner.code {a : List Char} {i : ℕ} (h : Owner a i) : (a.drop 5).takeWhile isDigit = fmtInt i := by
  rcases h with rfl | ⟨p, rfl⟩
  · have e : (treeName i).drop 5 = fmtInt i ++ [] := by simp [treeName]
    rw [e]
    exact takeWhile_digits (fmtInt_digits i) (.inl rfl)
  · have e : (pathName (treeName i) p).drop 5 = fmtInt i ++ ("_root".toList ++ pathText p) := by
      simp [treeName, pathName, pathText]
    rw [e]
    exact takeWhile_digits (fmtInt_digits i) (.inr ⟨_, _, rfl, by decide⟩)

theorem Owner.unique {a : List Char} {i j : ℕ} (h : Owner a i) (h' : Owner a j) : i = j := by
  have e : fmtInt i = fmtInt j := h.code.symm.trans h'.code
  have h1 := readInt_fmtInt i [] (by simp)
  have h2 := readInt_fmtInt j [] (by simp)
  rw [e, h2] at h1
  simp only [Option.some.injEq, Prod.mk.injEq, and_true] at h1
  omega

theorem Owner.ne_rfc {a : List Char} {i : ℕ} (h : Owner a i) : a ≠ "rfc".toList := by
  have : a.head? = some 't' := by
    rcases h with rfl | ⟨p, rfl⟩ <;> rfl
  rintro rfl
  exact absurd this (by decide)

theorem owner_node {py : PyText} {i : ℕ} {t : TreeImpl} {a : List Char}
    (h : a ∈ nodesOf (treeGraph py (treeName i) t)) : Owner a i := by
  rw [nodesOf_eq, List.mem_map] at h
  obtain ⟨⟨b, l⟩, h, rfl⟩ := h
  rcases ((draws_tree py (treeName i) t).nodes b l).1 (mem_declsOf.2 h) with ⟨e, -⟩ | ⟨p, n, -, e, -⟩
  · exact .inl e
  · exact .inr ⟨p, e⟩

theorem owner_edge {py : PyText} {i : ℕ} {t : TreeImpl} {x : List Char × List Char}
    (h : x ∈ edgesOf (treeGraph py (treeName i) t)) : Owner x.1 i ∧ Owner x.2 i := by
  rcases ((draws_tree py (treeName i) t).arrows x.1 x.2).1 (mem_edgesOf.2 h) with ⟨e, e'⟩ | ⟨p, d, n, -, e, e'⟩
  · exact ⟨.inl e, .inr ⟨_, e'⟩⟩
  · exact ⟨.inr ⟨_, e⟩, .inr ⟨_, e'⟩⟩

theorem nodesOf_append (g h : List DotStmt) : nodesOf (g ++ h) = nodesOf g ++ nodesOf h := List.filterMap_append

theorem mem_treesGraph (py : PyText) (x : DotStmt) : ∀ (ts : List TreeImpl) (i : ℕ), x ∈ treesGraph py i ts ↔
    ∃ j t, ts[j]? = some t ∧ (x ∈ treeGraph py (treeName (i + j)) t ∨ x = .edge "rfc".toList (treeName (i + j)))
  | [], i => by simp [treesGraph]
  | t :: ts, i => by
    have ih := mem_treesGraph py x ts (i + 1)
    unfold treesGraph
    rw [List.mem_append, List.mem_cons, ih]
    constructor
    · rintro (h | h | ⟨j, t', ht, h⟩)
      · exact ⟨0, t, rfl, .inl h⟩
      · exact ⟨0, t, rfl, .inr h⟩
      · refine ⟨j + 1, t', ht, ?_⟩
        rwa [show i + (j + 1) = i + 1 + j by omega]
    · rintro ⟨j, t', ht, h⟩
      cases j with
      | zero =>
        cases ht
        exact h.imp_right .inl
      | succ j =>
        refine .inr (.inr ⟨j, t', ht, ?_⟩)
        rwa [show i + (j + 1) = i + 1 + j by omega] at h

theorem owner_nodes_trees {py : PyText} {a : List Char} {ts : List TreeImpl} {i : ℕ}
    (h : a ∈ nodesOf (treesGraph py i ts)) : ∃ j, i ≤ j ∧ Owner a j := by
  rw [nodesOf_eq, List.mem_map] at h
  obtain ⟨⟨b, l⟩, h, rfl⟩ := h
  obtain ⟨j, t, -, h | h⟩ := (mem_treesGraph py _ ts i).1 (mem_declsOf.2 h)
  · refine ⟨i + j, by omega, owner_node (py := py) (t := t) ?_⟩
    rw [nodesOf_eq]
    exact List.mem_map.2 ⟨_, mem_declsOf.1 h, rfl⟩
  · cases h

theorem owner_edges_trees {py : PyText} {x : List Char × List Char} {ts : List TreeImpl} {i : ℕ}
    (h : x ∈ edgesOf (treesGraph py i ts)) : ∃ j, i ≤ j ∧ Owner x.2 j := by
  obtain ⟨j, t, -, h | h⟩ := (mem_treesGraph py _ ts i).1 (mem_edgesOf.2 h)
  · exact ⟨i + j, by omega, (owner_edge (mem_edgesOf.1 h)).2⟩
  · injection h with h1 h2
    exact ⟨i + j, by omega, .inl h2⟩

theorem nodup_nodes_trees (py : PyText) : ∀ (ts : List TreeImpl) (i : ℕ), (nodesOf (treesGraph py i ts)).Nodup
  | [], _ => by simp [treesGraph, nodesOf]
  | t :: ts, i => by
    have ih := nodup_nodes_trees py ts (i + 1)
    unfold treesGraph
    rw [nodesOf_append]
    have e : nodesOf (.edge "rfc".toList (treeName i) :: treesGraph py (i + 1) ts) =
      nodesOf (treesGraph py (i + 1) ts) := rfl
    rw [e, List.nodup_append]
    refine ⟨(draws_tree py (treeName i) t).once, ih, ?_⟩
    rintro a ha b hb rfl
    obtain ⟨j, hj, ho⟩ := owner_nodes_trees hb
    have := (owner_node ha).unique ho
    omega

theorem nodup_edges_trees (py : PyText) : ∀ (ts : List TreeImpl) (i : ℕ), (edgesOf (treesGraph py i ts)).Nodup
  | [], _ => by simp [treesGraph, edgesOf]
  | t :: ts, i => by
    have ih := nodup_edges_trees py ts (i + 1)
    unfold treesGraph
    rw [edgesOf_append]
    have e : edgesOf (.edge "rfc".toList (treeName i) :: treesGraph py (i + 1) ts) =
      ("rfc".toList, treeName i) :: edgesOf (treesGraph py (i + 1) ts) := rfl
    rw [e, List.nodup_append, List.nodup_cons]
    refine ⟨(draws_tree py (treeName i) t).arrows_once, ⟨?_, ih⟩, ?_⟩
    · intro h
      obtain ⟨j, hj, ho⟩ := owner_edges_trees h
      have := Owner.unique (a := treeName i) (.inl rfl) ho
      omega
    · rintro a ha b hb rfl
      rcases List.mem_cons.1 hb with rfl | hb
      · exact (owner_edge ha).1.ne_rfc rfl
      · obtain ⟨j, hj, ho⟩ := owner_edges_trees hb
        have := (owner_edge ha).2.unique ho
        omega

/-- What is drawn for the first `k` trees of a forest. -/
def forestGraph (py : PyText) (f : ForestImpl) (k : ℕ) : List DotStmt :=
  .node "rfc".toList (attrs "oval" (forestLabel py f)) :: treesGraph py 0 (f.trees.take k)

theorem draws_forest (py : PyText) (f : ForestImpl) (k : ℕ) : DrawsForest py f k (forestGraph py f k) := by
  have hget : ∀ j t, (f.trees.take k)[j]? = some t ↔ j < k ∧ f.trees[j]? = some t := by
    intro j t
    rw [List.getElem?_take]
    split
    · next h => simp [h]
    · next h => simp [h]
  have hmem : ∀ x, x ∈ forestGraph py f k ↔ x = .node "rfc".toList (attrs "oval" (forestLabel py f)) ∨
      ∃ i t, i < k ∧ f.trees[i]? = some t ∧ (x ∈ treeGraph py (treeName i) t ∨ x = .edge "rfc".toList (treeName i)) := by
    intro x
    unfold forestGraph
    rw [List.mem_cons, mem_treesGraph]
    simp only [hget, zero_add, and_assoc]
  constructor
  · have e : nodesOf (forestGraph py f k) = "rfc".toList :: nodesOf (treesGraph py 0 (f.trees.take k)) := rfl
    rw [e, List.nodup_cons]
    refine ⟨fun h => ?_, nodup_nodes_trees py _ _⟩
    obtain ⟨j, -, ho⟩ := owner_nodes_trees h
    exact ho.ne_rfc rfl
  · intro a l
    rw [hmem]
    refine or_congr (by simp) ?_
    refine exists_congr fun i => exists_congr fun t => and_congr_right fun _ => and_congr_right fun _ => ?_
    have := (draws_tree py (treeName i) t).nodes a l
    rw [this]
    constructor
    · rintro ((⟨rfl, rfl⟩ | h) | h)
      · exact .inl ⟨rfl, rfl⟩
      · exact .inr h
      · cases h
    · rintro (⟨rfl, rfl⟩ | h)
      · exact .inl (.inl ⟨rfl, rfl⟩)
      · exact .inl (.inr h)
  · have e : edgesOf (forestGraph py f k) = edgesOf (treesGraph py 0 (f.trees.take k)) := rfl
    rw [e]
    exact nodup_edges_trees py _ _
  · intro a b
    rw [hmem]
    constructor
    · rintro (h | ⟨i, t, hi, ht, h | h⟩)
      · cases h
      · refine ⟨i, t, hi, ht, .inr ?_⟩
        exact ((draws_tree py (treeName i) t).arrows a b).1 h
      · cases h
        exact ⟨i, t, hi, ht, .inl ⟨rfl, rfl⟩⟩
    · rintro ⟨i, t, hi, ht, ⟨rfl, rfl⟩ | h⟩
      · exact .inr ⟨i, t, hi, ht, .inr rfl⟩
      · exact .inr ⟨i, t, hi, ht, .inl (((draws_tree py (treeName i) t).arrows a b).2 h)⟩

/-! ## The scripts -/

theorem outputTree_ok {level : ℕ} {t : TreeImpl} {u : List Char} (h : outputTree level t = .ok u) :
    u = treeText level t ∧ t.root ≠ .nil := by
  unfold outputTree at h
  split at h
  · cases h
  · next hn =>
    split at h
    · cases h
    · split at h
      · cases h; exact ⟨rfl, hn⟩
      · cases h

theorem height_le_treeText (level : ℕ) (t : TreeImpl) : height t.root ≤ (treeText level t).length := by
  have := height_le_text t.classes t.root (level + 1) "root".toList
  simp only [treeText, List.length_append]
  omega

theorem treesText_ok {level : ℕ} : ∀ {ts : List TreeImpl} {u : List Char}, ForestImpl.treesText level ts = .ok u →
    ∀ t ∈ ts, t.root ≠ .nil ∧ height t.root ≤ u.length
  | [], _, _, _, ht => by simp at ht
  | x :: ts, u, h, t, ht => by
    unfold ForestImpl.treesText at h
    obtain ⟨s, hs, h⟩ := (Res.bind_eq_ok _ _ _).1 h
    obtain ⟨r, hr, h⟩ := (Res.bind_eq_ok _ _ _).1 h
    cases h
    obtain ⟨rfl, hn⟩ := outputTree_ok hs
    rcases List.mem_cons.1 ht with rfl | ht
    · refine ⟨hn, ?_⟩
      have := height_le_treeText (level + 1) t
      simp only [List.length_append]
      omega
    · have := treesText_ok hr t ht
      refine ⟨this.1, ?_⟩
      simp only [List.length_append]
      omega

theorem save_tree {t : TreeImpl} {s : List Char} (h : t.save = .ok s) : t.root ≠ .nil ∧ height t.root ≤ s.length := by
  unfold TreeImpl.save at h
  obtain ⟨x, hx, h⟩ := (Res.bind_eq_ok _ _ _).1 h
  cases h
  obtain ⟨rfl, hn⟩ := outputTree_ok hx
  have := height_le_treeText 0 t
  refine ⟨hn, ?_⟩
  rw [List.length_append]
  omega

theorem save_forest {f : ForestImpl} {s : List Char} (h : f.save = .ok s) :
    ∀ t ∈ f.trees, t.root ≠ .nil ∧ height t.root ≤ s.length := by
  unfold ForestImpl.save at h
  obtain ⟨x, hx, h⟩ := (Res.bind_eq_ok _ _ _).1 h
  cases h
  intro t ht
  have := treesText_ok hx t ht
  refine ⟨this.1, ?_⟩
  simp only [List.length_append]
  omega

theorem parseRfc_yaml (py : PyText) (fuel : ℕ) (f : ForestImpl) :
    Dot.parseRfc py fuel (.map [("rfc".toList, forestYaml f)]) =
      (Dot.parseTrees py fuel (f.trees.map fun t => .map [("tree".toList, treeYaml t)]) f.numTrees 0).map
        (declText "oval" "rfc".toList (forestLabel py f) ++ ·) := by
  unfold Dot.parseRfc
  have h1 : Dot.dict (.map [("rfc".toList, forestYaml f)]) = some [("rfc".toList, forestYaml f)] :=
    dict_nodup (by simp)
  have h3 : ([("rfc".toList, forestYaml f)] : List (List Char × Yaml)).lookup "rfc".toList = some (forestYaml f) := by
    simp [List.lookup]
  rw [h1]
  simp only [Option.bind_eq_bind, Option.bind_some, h3]
  have h2 : Dot.dict (forestYaml f) = some [num "num_trees" (fmtInt f.numTrees), num "max_depth" (fmtInt f.maxDepth),
      ("classes".toList, .seq ((List.range f.numClasses.toNat).map fun i : ℕ => .scalar (fmtInt i))),
      ("trees".toList, .seq (f.trees.map fun t => .map [("tree".toList, treeYaml t)]))] := by
    unfold forestYaml
    apply dict_nodup
    simp only [num, List.map_cons, List.map_nil]
    decide
  rw [h2]
  have l1 : ([num "num_trees" (fmtInt f.numTrees), num "max_depth" (fmtInt f.maxDepth),
      ("classes".toList, .seq ((List.range f.numClasses.toNat).map fun i : ℕ => .scalar (fmtInt i))),
      ("trees".toList, .seq (f.trees.map fun t => .map [("tree".toList, treeYaml t)]))] : List (List Char × Yaml)).lookup "num_trees".toList =
      some (.scalar (fmtInt f.numTrees)) := by simp [num, List.lookup]
  have l2 : ([num "num_trees" (fmtInt f.numTrees), num "max_depth" (fmtInt f.maxDepth),
      ("classes".toList, .seq ((List.range f.numClasses.toNat).map fun i : ℕ => .scalar (fmtInt i))),
      ("trees".toList, .seq (f.trees.map fun t => .map [("tree".toList, treeYaml t)]))] : List (List Char × Yaml)).lookup "trees".toList =
      some (.seq (f.trees.map fun t => .map [("tree".toList, treeYaml t)])) := by simp [num, List.lookup]
  have hi : Dot.intOf (.scalar (fmtInt f.numTrees)) = some (f.numTrees : ℤ) := by
    have := readInt_fmtInt f.numTrees [] (by simp)
    rw [List.append_nil] at this
    simp only [Dot.intOf, this]
  have hl : ∀ v w x y : Yaml, Dot.labelLines py (fun k => ¬ Dot.hasTree k && ¬ (k = "data".toList))
      [("num_trees".toList, v), ("max_depth".toList, w), ("classes".toList, x), ("trees".toList, y)] =
      "max_depth".toList ++ ": ".toList ++ py.strYaml w ++ ",\n".toList ++
        ("classes".toList ++ ": ".toList ++ py.strYaml x ++ ",\n".toList) := by
    intro v w x y
    have k1 : Dot.hasTree "num_trees".toList = true := by decide
    have k2 : Dot.hasTree "max_depth".toList = false := by decide
    have k3 : Dot.hasTree "classes".toList = false := by decide
    have k4 : Dot.hasTree "trees".toList = true := by decide
    have k5 : "max_depth".toList ≠ "data".toList := by decide
    have k6 : "classes".toList ≠ "data".toList := by decide
    simp only [Dot.labelLines, List.filter_cons, List.filter_nil, k1, k2, k3, k4, k5, k6]
    simp
  have e : "rfc [ shape=oval, label=\"rfc\n".toList ++ Dot.labelLines py
      (fun k => ¬ Dot.hasTree k && ¬ (k = "data".toList))
      [num "num_trees" (fmtInt f.numTrees), num "max_depth" (fmtInt f.maxDepth),
      ("classes".toList, .seq ((List.range f.numClasses.toNat).map fun i : ℕ => .scalar (fmtInt i))),
      ("trees".toList, .seq (f.trees.map fun t => .map [("tree".toList, treeYaml t)]))] ++ "\"];\n".toList =
      declText "oval" "rfc".toList (forestLabel py f) := by
    unfold num
    rw [hl]
    have := reprItems_ints py ((List.range f.numClasses.toNat).map fun i : ℕ => (i : ℤ))
    rw [List.map_map] at this
    simp only [Function.comp_def] at this
    simp [PyText.strYaml, PyText.reprYaml, this, declText, forestLabel, labelOf, Function.comp_def]
  simp only [Option.bind_some]
  rw [e]
  rw [l1]
  simp only [hi, Option.bind_some]
  rw [l2]
  by_cases h0 : f.numTrees = 0
  · rw [if_pos (by omega), h0]
    simp [Dot.parseTrees]
  · rw [if_neg (by omega), Int.toNat_natCast]

end Apollo.DotText
