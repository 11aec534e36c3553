import Verif.Proofs.PrintTree
import Verif.Spec.TreeDot
import Verif.Props.Forest

/-!
# Drawings of saved models, and models printed to the terminal (C94, C95, C96)
-/

namespace Apollo.Props

open Spec YamlText DotText

/-- What Python prints for the scalars of the examples: what is written in the file. -/
def plainPy : PyText := ⟨id, id⟩

theorem quiet_plainPy : Quiet plainPy := by
  intro s h
  have h1 : '"' ∉ s := fun e => absurd (h _ e) (by decide)
  have h2 : '\\' ∉ s := fun e => absurd (h _ e) (by decide)
  exact ⟨⟨h1, h2⟩, h1, h2⟩

theorem okay {α : Type} {r : Res α} (h : r.toBool = true) : ∃ x, r = .ok x := by
  cases r with
  | ok x => exact ⟨x, rfl⟩
  | error e => cases h

/-! ## C94 -/

/-- C94: for every tree that is saved, `dtree2dot.py` reads the file and writes a graph in the language of
`dot` that draws the tree: one oval, one box for each node of the tree with the numbers of this node, and
one arrow from each node to each of its children. -/
theorem C94_tree {py : PyText} (hq : Quiet py) {t : TreeImpl} {s : List Char} (h : t.save = .ok s) :
    ∃ dot g, Dot.dtree2dot py s = some dot ∧ Spec.Dot.read dot = some g ∧
      DrawsTree py "tree".toList t g := by
  obtain ⟨hn, hh⟩ := save_tree h
  have hb : Ident "tree".toList := ident_lit (by decide) ⟨_, _, rfl, by decide⟩
  refine ⟨_, _, ?_, read_digraph (dots_tree hq t hb), draws_tree py _ t⟩
  unfold Dot.dtree2dot
  rw [(read_tree h).1]
  simp only [Option.bind_eq_bind, Option.bind_some, parseTree_yaml py t (s.length + 1) _ hn (by omega)]

/-- C94: the drawing determines the tree: two trees with the same drawing have nodes at the same places,
and the nodes have the same labels. -/
theorem C94_injective {py : PyText} {t t' : TreeImpl} {g : List DotStmt} {base : List Char}
    (h : DrawsTree py base t g) (h' : DrawsTree py base t' g) (p : List Bool) :
    (nodeAt t.root p).map (nodeLabel py t.classes (pathName base p)) =
      (nodeAt t'.root p).map (nodeLabel py t'.classes (pathName base p)) := by
  have key : ∀ {u u' : TreeImpl}, DrawsTree py base u g → DrawsTree py base u' g → ∀ n,
      nodeAt u.root p = some n → ∃ n', nodeAt u'.root p = some n' ∧
        nodeLabel py u.classes (pathName base p) n = nodeLabel py u'.classes (pathName base p) n' := by
    intro u u' hu hu' n hn
    have hm := (hu.nodes _ _).2 (.inr ⟨p, n, hn, rfl, rfl⟩)
    rcases (hu'.nodes _ _).1 hm with ⟨e, -⟩ | ⟨q, n', hq, e, e'⟩
    · have := congrArg List.length e
      simp [pathName] at this
    · obtain rfl := pathName_inj e
      refine ⟨n', hq, ?_⟩
      simpa [attrs] using e'
  cases hn : nodeAt t.root p with
  | some n =>
    obtain ⟨n', hn', e⟩ := key h h' n hn
    rw [hn', Option.map_some, Option.map_some, e]
  | none =>
    cases hn' : nodeAt t'.root p with
    | none => rfl
    | some n' =>
      obtain ⟨n, hn2, -⟩ := key h' h n' hn'
      rw [hn] at hn2; cases hn2

/-- The tree with two leaves is saved and drawn: four nodes, three arrows. -/
example : ∃ s dot g, (twoLeaves (3 / 2)).save = .ok s ∧ Dot.dtree2dot plainPy s = some dot ∧
    Spec.Dot.read dot = some g ∧ nodesOf g = ["tree".toList, "tree_root".toList, "tree_root_left".toList,
      "tree_root_right".toList] ∧
    edgesOf g = [("tree_root".toList, "tree_root_left".toList),
      ("tree_root".toList, "tree_root_right".toList), ("tree".toList, "tree_root".toList)] ∧
    DrawsTree plainPy "tree".toList (twoLeaves (3 / 2)) g := by
  obtain ⟨s, hs⟩ := okay (r := (twoLeaves (3 / 2)).save) (by decide +kernel)
  have hb : Ident "tree".toList := ident_lit (by decide) ⟨_, _, rfl, by decide⟩
  obtain ⟨hn, hh⟩ := save_tree hs
  refine ⟨s, _, treeGraph plainPy "tree".toList (twoLeaves (3 / 2)), hs, ?_,
    read_digraph (dots_tree quiet_plainPy _ hb), by decide +kernel, by decide +kernel, draws_tree _ _ _⟩
  unfold Dot.dtree2dot
  rw [(read_tree hs).1]
  simp only [Option.bind_eq_bind, Option.bind_some, parseTree_yaml plainPy _ (s.length + 1) _ hn (by omega)]

/-- Both hypotheses of `C94_injective` are met. -/
example : DrawsTree plainPy "tree".toList (twoLeaves (3 / 2))
    (treeGraph plainPy "tree".toList (twoLeaves (3 / 2))) := draws_tree _ _ _

/-! ## C95 -/

theorem rfc2dot_some {py : PyText} (hq : Quiet py) {f : ForestImpl} {s u : List Char} (h : f.save = .ok s)
    (hu : Yaml.read u = some (.map [("rfc".toList, forestYaml f)])) (hl : ∀ t ∈ f.trees, DotText.height t.root ≤ u.length)
    (hk : f.numTrees ≤ f.trees.length) : ∃ dot g, Dot.rfc2dot py u = some dot ∧
      Spec.Dot.read dot = some g ∧ DrawsForest py f f.numTrees g := by
  have hq' := noQ_forestLabel hq f
  have hd := (dots_decl (shape := "oval") ident_rfc (ident_lit (by decide) ⟨_, _, rfl, by decide⟩) hq'.1
    hq'.2).append (dots_trees hq (f.trees.take f.numTrees) 0)
  refine ⟨_, _, ?_, read_digraph hd, draws_forest py f f.numTrees⟩
  unfold Dot.rfc2dot
  rw [hu]
  have hp := parseTrees_yaml py (u.length + 1) f.trees
    (fun t ht => ⟨(save_forest h t ht).1, by have := hl t ht; omega⟩) f.numTrees 0 (by omega)
  simp only [Option.bind_eq_bind, Option.bind_some, parseRfc_yaml, hp, Option.map_some, List.drop_zero]

/-- C95, part: for every saved forest that has at least `num_trees` trees, `rfc2dot.py` writes a graph that
draws the first `num_trees` trees.

Full statement: all trees of every saved forest are drawn.  Missing: that is false for forests that were
trained again (`C95_fails_retrained`) or not yet (`C95_fails_untrained`). -/
theorem C95_partial {py : PyText} (hq : Quiet py) {f : ForestImpl} {s : List Char} (h : f.save = .ok s)
    (hk : f.numTrees ≤ f.trees.length) : ∃ dot g, Dot.rfc2dot py s = some dot ∧
      Spec.Dot.read dot = some g ∧ DrawsForest py f f.numTrees g :=
  rfc2dot_some hq h (read_forest h) (fun t ht => (save_forest h t ht).2) hk

/-- C95, part: all trees of a forest that was trained once are drawn. -/
theorem C95_first_training_partial {py : PyText} (hq : Quiet py) {σ : SortFn} {draws : ℕ → ℕ} {n : ℤ} {k d : ℕ}
    {xs : List Sample} {f : ForestImpl} (ht : (ForestImpl.new n k d).train σ draws xs = .ok f)
    {s : List Char} (h : f.save = .ok s) : ∃ dot g, Dot.rfc2dot py s = some dot ∧
      Spec.Dot.read dot = some g ∧ DrawsForest py f f.trees.length g := by
  obtain ⟨h1, -, -, new, h4, h5, -⟩ := forest_train_spec ht
  have hl : f.trees.length = f.numTrees := by
    rw [h4, h1]; simpa [ForestImpl.new] using h5
  rw [hl]
  exact C95_partial hq h hl.ge

/-- C95 is false: of a forest with more than `num_trees` trees, not all are drawn. -/
theorem C95_fails_more {py : PyText} (hq : Quiet py) {f : ForestImpl} {s : List Char} (h : f.save = .ok s)
    (hk : f.numTrees < f.trees.length) : ∃ dot g, Dot.rfc2dot py s = some dot ∧
      Spec.Dot.read dot = some g ∧ treeName f.numTrees ∉ nodesOf g ∧ ¬ DrawsForest py f f.trees.length g := by
  obtain ⟨dot, g, h1, h2, h3⟩ := C95_partial hq h hk.le
  have hno : ∀ l, DotStmt.node (treeName f.numTrees) l ∉ g := by
    intro l hl
    rcases (h3.nodes _ _).1 hl with ⟨e, -⟩ | ⟨i, t, hi, -, h⟩
    · exact Owner.ne_rfc (i := f.numTrees) (.inl rfl) e
    · have ho : Owner (treeName f.numTrees) i := by
        rcases h with ⟨e, -⟩ | ⟨p, n, -, e, -⟩
        · exact .inl e
        · exact .inr ⟨p, e⟩
      have := Owner.unique (i := f.numTrees) (.inl rfl) ho
      omega
  refine ⟨dot, g, h1, h2, ?_, ?_⟩
  · intro hm
    rw [nodesOf_eq, List.mem_map] at hm
    obtain ⟨⟨b, l⟩, hm, rfl⟩ := hm
    exact hno l (mem_declsOf.2 hm)
  · intro hd
    exact hno _ ((hd.nodes _ _).2 (.inr ⟨f.numTrees, _, hk, List.getElem?_eq_getElem hk, .inl ⟨rfl, rfl⟩⟩))

/-- C95 is false: a forest that has fewer than `num_trees` trees is not drawn at all; the script ends with
an exception. -/
theorem C95_fails_fewer (py : PyText) {f : ForestImpl} {s : List Char} (h : f.save = .ok s)
    (hk : f.trees.length < f.numTrees) : Dot.rfc2dot py s = none := by
  unfold Dot.rfc2dot
  rw [read_forest h]
  have hp := parseTrees_missing py (s.length + 1) (f.trees.map fun t => .map [("tree".toList, treeYaml t)])
    f.numTrees 0 (by simpa using hk) (Nat.zero_le _)
  simp only [Option.bind_eq_bind, Option.bind_some, parseRfc_yaml, hp, Option.map_none, Option.bind_none]

/-- C95 is false: a forest that is saved before it is trained is not drawn. -/
theorem C95_fails_untrained (py : PyText) (n : ℤ) (k d : ℕ) : ∃ s, (ForestImpl.new n (k + 1) d).save = .ok s ∧
    Dot.rfc2dot py s = none := by
  have h : ∃ s, (ForestImpl.new n (k + 1) d).save = .ok s := ⟨_, rfl⟩
  obtain ⟨s, h⟩ := h
  exact ⟨s, h, C95_fails_fewer py h (by simp [ForestImpl.new])⟩

/-- C95 is false: a forest of one tree is trained twice, saved and drawn, and the tree of the second
training is missing. -/
theorem C95_fails_retrained : ∃ f f' s dot g, (ForestImpl.new 2 1 1).train isort id [([1], 0), ([2], 1)] = .ok f ∧
    f.train isort id [([1], 1), ([2], 0)] = .ok f' ∧ f'.save = .ok s ∧ f'.trees.length = 2 ∧
    Dot.rfc2dot plainPy s = some dot ∧ Spec.Dot.read dot = some g ∧ treeName 1 ∉ nodesOf g := by
  have h : ∃ f f' s, (ForestImpl.new 2 1 1).train isort id [([1], 0), ([2], 1)] = .ok f ∧
      f.train isort id [([1], 1), ([2], 0)] = .ok f' ∧ f'.save = .ok s ∧ f'.trees.length = 2 ∧ f'.numTrees = 1 :=
    by
    have h : ((ForestImpl.new 2 1 1).train isort id [([1], 0), ([2], 1)] >>= fun f =>
        f.train isort id [([1], 1), ([2], 0)] >>= fun f' => f'.save >>= fun _ =>
        (.ok (f'.trees.length, f'.numTrees) : Res (ℕ × ℕ))) = .ok (2, 1) := by decide +kernel
    obtain ⟨f, h1, h⟩ := (Res.bind_eq_ok _ _ _).1 h
    obtain ⟨f', h2, h⟩ := (Res.bind_eq_ok _ _ _).1 h
    obtain ⟨s, h3, h⟩ := (Res.bind_eq_ok _ _ _).1 h
    injection h with h
    injection h with h4 h5
    exact ⟨f, f', s, h1, h2, h3, h4, h5⟩
  obtain ⟨f, f', s, h1, h2, h3, h4, h5⟩ := h
  obtain ⟨dot, g, h6, h7, h8, -⟩ := C95_fails_more quiet_plainPy h3 (by omega)
  exact ⟨f, f', s, dot, g, h1, h2, h3, h4, h6, h7, h5 ▸ h8⟩

/-- A trained forest that is saved, and forests with more and with fewer trees than `num_trees`. -/
example : ∃ f s, (ForestImpl.new 2 2 1).train isort id [([1], 0), ([2], 1)] = .ok f ∧ f.save = .ok s ∧
    f.trees.length = 2 ∧ f.numTrees = 2 := by
  have h : ((ForestImpl.new 2 2 1).train isort id [([1], 0), ([2], 1)] >>= fun f => f.save >>= fun _ =>
      (.ok (f.trees.length, f.numTrees) : Res (ℕ × ℕ))) = .ok (2, 2) := by decide +kernel
  obtain ⟨f, h1, h⟩ := (Res.bind_eq_ok _ _ _).1 h
  obtain ⟨s, h3, h⟩ := (Res.bind_eq_ok _ _ _).1 h
  injection h with h
  injection h with h4 h5
  exact ⟨f, s, h1, h3, h4, h5⟩

example : ∃ s, (⟨[twoLeaves (3 / 2), twoLeaves (5 / 2)], 2, 1, 1⟩ : ForestImpl).save = .ok s :=
  okay (by decide +kernel)

example : ∃ s, (⟨[twoLeaves (3 / 2)], 2, 2, 1⟩ : ForestImpl).save = .ok s :=
  okay (by decide +kernel)

/-! ## C96 -/

/-- C96 is false: the text that `print_tree` writes is not a document for any tree. -/
theorem C96_fails {t : TreeImpl} {u : List Char} (h : t.printTree = .ok u) : Yaml.read u = none := by
  rw [(printTree_ok h).1]; exact read_print t

/-- C96 is false: the text that `print_tree` writes is not loaded by any tree. -/
theorem C96_fails_load (t0 : TreeImpl) {t : TreeImpl} {u : List Char} (h : t.printTree = .ok u) :
    ∃ e, t0.load u = .error e := by
  obtain ⟨rfl, hn⟩ := printTree_ok h
  exact load_print t0 t hn

/-- C96, part: one line of the text is wrong, the same for all trees.  Without it, the text is a document,
and it is drawn like the saved tree.

Full statement: what is printed is a document with the tree.  Missing: that is false (`C96_fails`). -/
theorem C96_partial {py : PyText} (hq : Quiet py) {t : TreeImpl} {u : List Char} (h : t.printTree = .ok u) :
    ∃ a b dot g, u = a ++ "  },\n".toList ++ b ∧ Dot.dtree2dot py (a ++ b) = some dot ∧
      Spec.Dot.read dot = some g ∧ DrawsTree py "tree".toList t g := by
  obtain ⟨rfl, hn⟩ := printTree_ok h
  have hb : Ident "tree".toList := ident_lit (by decide) ⟨_, _, rfl, by decide⟩
  refine ⟨printHead t, "}\n".toList, _, _, printText_eq t, ?_, read_digraph (dots_tree hq t hb), draws_tree py _ t⟩
  unfold Dot.dtree2dot
  rw [read_mended]
  have hh := height_le_print t
  simp only [Option.bind_eq_bind, Option.bind_some, parseTree_print py t _ "tree".toList hn
    (show DotText.height t.root ≤ (printHead t ++ "}\n".toList).length + 1 by rw [List.length_append]; omega)]

/-- C96, part: what `print_tree` and `print_forest` write exists whenever the model can be saved. -/
theorem C96_prints_partial (t : TreeImpl) (f : ForestImpl) :
    ((∃ s, t.save = .ok s) ↔ ∃ u, t.printTree = .ok u) ∧ ((∃ s, f.save = .ok s) ↔ ∃ u, f.printForest = .ok u) := by
  constructor
  · unfold TreeImpl.save outputTree TreeImpl.printTree
    by_cases h1 : t.root = .nil
    · simp [h1, Res.bind_error]
    · by_cases h2 : t.root.all (fun n => |n.threshold| ≤ maxFloat) = true
      · by_cases h3 : t.root.all (fun n => t.classes.length ≤ n.counts.length) = true
        · rw [if_neg h1, if_neg (by simpa using h2), if_pos h3, if_neg h1, if_neg (by simpa using h2), if_pos h3]
          exact ⟨fun _ => ⟨_, rfl⟩, fun _ => ⟨_, rfl⟩⟩
        · rw [if_neg h1, if_neg (by simpa using h2), if_neg h3, if_neg h1, if_neg (by simpa using h2), if_neg h3]
          constructor <;> rintro ⟨_, h⟩ <;> cases h
      · rw [if_neg h1, if_pos (by simpa using h2), if_neg h1, if_pos (by simpa using h2)]
        constructor <;> rintro ⟨_, h⟩ <;> cases h
  · constructor
    · rintro ⟨s, h⟩
      unfold ForestImpl.save at h
      obtain ⟨ts, hts, h⟩ := (Res.bind_eq_ok _ _ _).1 h
      unfold ForestImpl.printForest
      rw [hts]
      exact ⟨_, rfl⟩
    · rintro ⟨u, h⟩
      exact ⟨_, (read_printForest h).1⟩

/-- C96, part: what `print_forest` writes is the saved file without its line of comment; it is a document
with the same forest. -/
theorem C96_forest_partial {f : ForestImpl} {u : List Char} (h : f.printForest = .ok u) :
    ∃ s, f.save = .ok s ∧ s = "# RandomForestImpl\n".toList ++ u ∧ Yaml.read u = Yaml.read s ∧
      (Yaml.read u).isSome = true := by
  obtain ⟨h1, h2⟩ := read_printForest h
  exact ⟨_, h1, rfl, h2.trans (read_forest h1).symm, by rw [h2]; rfl⟩

/-- C96, part: the printed forest is drawn as the saved one. -/
theorem C96_forest_drawn_partial {py : PyText} (hq : Quiet py) {f : ForestImpl} {u : List Char}
    (h : f.printForest = .ok u) (hk : f.numTrees ≤ f.trees.length) : ∃ dot g, Dot.rfc2dot py u = some dot ∧
      Spec.Dot.read dot = some g ∧ DrawsForest py f f.numTrees g := by
  obtain ⟨h1, h2⟩ := read_printForest h
  exact rfc2dot_some hq h1 h2 (printForest_height h) hk

example : ∃ u, (twoLeaves (3 / 2)).printTree = .ok u := okay (by decide +kernel)

example : (∃ u, threeTrees.printForest = .ok u) ∧ threeTrees.numTrees ≤ threeTrees.trees.length :=
  ⟨okay (by decide +kernel), by decide⟩

end Apollo.Props
