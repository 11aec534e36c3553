import Verif.Proofs.Yaml

/-!
# The saved trees and forests as YAML
-/

namespace Apollo.YamlText

open Apollo Spec Yaml

/-- An entry whose value is a number. -/
def num (k : String) (w : List Char) : List Char × Yaml := (k.toList, .scalar w)

/-- The counters of a node. -/
def countsYaml (classes : List ℤ) (counts : List ℕ) : Yaml :=
  .map ((classes.zip counts).map fun c => (fmtInt c.1, .scalar (fmtInt c.2)))

/-- The entries of a node without its children. -/
def ownFields (classes : List ℤ) (n : NodeInfo) : List (List Char × Yaml) :=
  [num "gini" (fmtG6 n.gini), num "num_samples" (fmtInt n.numSamples),
    num "predicted_class" (fmtInt n.predicted), num "feature_idx" (fmtInt n.featureIdx),
    num "threshold" (fmtG6 n.threshold), ("count_per_class".toList, countsYaml classes n.counts)]

/-- The mapping of a node. -/
def nodeYaml (classes : List ℤ) : Tree → Yaml
  | .nil => .map []
  | .node n l r => .map (ownFields classes n ++
      (if l = .nil then [] else [("left".toList, nodeYaml classes l)]) ++
      (if r = .nil then [] else [("right".toList, nodeYaml classes r)]))

/-- The entry of a child, if there is one. -/
def childFields (classes : List ℤ) (key : List Char) (t : Tree) : List (List Char × Yaml) :=
  if t = .nil then [] else [(key, nodeYaml classes t)]

theorem nodeYaml_node (classes : List ℤ) (n : NodeInfo) (l r : Tree) :
    nodeYaml classes (.node n l r) = .map (ownFields classes n ++
      childFields classes "left".toList l ++ childFields classes "right".toList r) := rfl

/-- An entry `key: number,` on a line of its own. -/
theorem Flds.line {level : ℕ} {k w rest : List Char} {l} (hk : Scal k) (hw : Scal w) (hl : Flds rest l) :
    Flds (indent level ++ (k ++ (": ".toList ++ (w ++ (",\n".toList ++ rest))))) ((k, .scalar w) :: l) :=
  Flds.of_eq (.blank (blank_ind level) (.cons (c := ' ') hk rfl (.scalar hw) blank_nil (.blank blank_nl hl)))
    (by simp)

theorem countsText_flds (level : ℕ) (l : List (ℤ × ℕ)) {rest : List Char} {m} (hl : Flds rest m) :
    Flds ((l.map fun cc => indent level ++ fmtInt cc.1 ++ ": ".toList ++ fmtInt cc.2 ++ ",\n".toList).flatten ++
      rest) ((l.map fun c => (fmtInt c.1, .scalar (fmtInt c.2))) ++ m) := by
  induction l with
  | nil => exact hl
  | cons c l ih =>
    exact Flds.of_eq (.line (level := level) (scal_fmtInt c.1) (scal_fmtInt c.2) ih) (by simp)

/-- The text of a node is an entry of the mapping that it is part of. -/
theorem nodeText_flds (classes : List ℤ) : ∀ (t : Tree) (level : ℕ) {key rest : List Char} {m},
    Scal key → Flds rest m → Flds (nodeText classes level key t ++ rest) (childFields classes key t ++ m)
  | .nil, level, key, rest, m, hk, hm => by simpa [childFields, nodeText] using hm
  | .node n l r, level, key, rest, m, hk, hm => by
    have h0 : Flds (indent level ++ ['}']) [] := .blank (blank_ind level) .nil
    have h1 := nodeText_flds classes r (level + 1) (key := "right".toList) (scal_word (by decide) (by decide)) h0
    have h2 := nodeText_flds classes l (level + 1) (key := "left".toList) (scal_word (by decide) (by decide)) h1
    have h3 : Flds (countsText (level + 1) classes n.counts ++ (indent (level + 1) ++ ['}']))
        ((classes.zip n.counts).map fun c => (fmtInt c.1, .scalar (fmtInt c.2))) := by
      have := countsText_flds (level + 1) (classes.zip n.counts) (.blank (blank_ind (level + 1)) .nil)
      rwa [List.append_nil] at this
    have h4 := Flds.blank (blank_ind (level + 1)) (Flds.cons (c := ' ') (k := "count_per_class".toList)
      (scal_word (by decide) (by decide)) rfl
      (Val.map blank_nil (Flds.blank blank_nl h3)) blank_nil (Flds.blank blank_nl h2))
    have h5 := Flds.line (level := level + 1) (k := "threshold".toList) (scal_word (by decide) (by decide))
      (scal_fmtG6 n.threshold) h4
    have h6 := Flds.line (level := level + 1) (k := "feature_idx".toList) (scal_word (by decide) (by decide))
      (scal_fmtInt n.featureIdx) h5
    have h7 := Flds.line (level := level + 1) (k := "predicted_class".toList) (scal_word (by decide) (by decide))
      (scal_fmtInt n.predicted) h6
    have h8 := Flds.line (level := level + 1) (k := "num_samples".toList) (scal_word (by decide) (by decide))
      (scal_fmtInt n.numSamples) h7
    have h9 := Flds.line (level := level + 1) (k := "gini".toList) (scal_word (by decide) (by decide))
      (scal_fmtG6 n.gini) h8
    have h10 := Flds.blank (blank_ind level) (Flds.cons (c := ' ') hk rfl
      (Val.map blank_nil (Flds.blank blank_nl h9)) blank_nil (Flds.blank blank_nl hm))
    have e : childFields classes key (.node n l r) = [(key, .map (ownFields classes n ++
      (childFields classes "left".toList l ++ (childFields classes "right".toList r ++ []))))] := by
      simp [childFields, nodeYaml]
    rw [e]
    refine (h10.of_eq ?_)
    simp [nodeText]

/-- The features of a sample. -/
theorem features_itms (f : Features) : Itms ((f.map fun x => fmtG6 x ++ ", ".toList).flatten ++ [']'])
    (f.map fun x => .scalar (fmtG6 x)) := by
  induction f with
  | nil => exact Itms.nil
  | cons x f ih =>
    exact Itms.of_eq (.cons (scal_fmtG6 x) blank_nil (.blank blank_sp ih)) (by simp)

/-- The classes. -/
theorem classes_itms (l : List ℤ) : Itms ((l.map fun c => fmtInt c ++ ", ".toList).flatten ++ [']'])
    (l.map fun c => .scalar (fmtInt c)) := by
  induction l with
  | nil => exact Itms.nil
  | cons x f ih =>
    exact Itms.of_eq (.cons (scal_fmtInt x) blank_nil (.blank blank_sp ih)) (by simp)

/-- The mapping of a sample. -/
def sampleYaml (x : Sample) : Yaml :=
  .map [("features".toList, .seq (x.1.map fun f => .scalar (fmtG6 f))), num "class" (fmtInt x.2)]

/-- The entries of the samples. -/
def samplesFields : ℕ → List Sample → List (List Char × Yaml)
  | _, [] => []
  | idx, x :: xs => (fmtInt idx, sampleYaml x) :: samplesFields (idx + 1) xs

theorem samplesText_flds (level : ℕ) : ∀ (xs : List Sample) (idx : ℕ) {rest : List Char} {m},
    Flds rest m → Flds (samplesText level idx xs ++ rest) (samplesFields idx xs ++ m)
  | [], _, _, _, hm => hm
  | x :: xs, idx, rest, m, hm => by
    have h1 := samplesText_flds level xs (idx + 1) hm
    have h2 : Flds _ _ := Flds.last (k := "class".toList) (c := ' ') (scal_word (by decide) (by decide)) rfl
      (Val.scalar (scal_fmtInt x.2)) blank_sp
    have h3 := Flds.cons (k := "features".toList) (c := ' ') (scal_word (by decide) (by decide)) rfl
      (Val.seq blank_nil (Itms.blank blank_sp (features_itms x.1))) blank_nil (Flds.blank blank_sp h2)
    have h4 := Flds.blank (blank_ind level) (Flds.cons (c := ' ') (scal_fmtInt idx) rfl
      (Val.map blank_nil (Flds.blank blank_sp h3)) blank_nil (Flds.blank blank_nl h1))
    refine h4.of_eq ?_
    simp [samplesText]

/-- The entries of a tree before its root. -/
def headFields (t : TreeImpl) : List (List Char × Yaml) :=
  [num "max_depth" (fmtInt t.maxDepth),
    ("classes".toList, .seq (t.classes.map fun c => .scalar (fmtInt c))),
    num "num_features" (fmtInt t.numFeatures)]

/-- The text of the entries of a tree before its root. -/
def headText (level : ℕ) (t : TreeImpl) : List Char :=
  (indent (level + 1) ++ "max_depth: ".toList ++ fmtInt t.maxDepth ++ ",\n".toList) ++
  (indent (level + 1) ++ "classes: [ ".toList ++
    (t.classes.map fun c => fmtInt c ++ ", ".toList).flatten ++ "],\n".toList) ++
  (indent (level + 1) ++ "num_features: ".toList ++ fmtInt t.numFeatures ++ ",\n".toList)

theorem headText_flds (level : ℕ) (t : TreeImpl) {rest : List Char} {m} (hm : Flds rest m) :
    Flds (headText level t ++ rest) (headFields t ++ m) := by
  have h1 := Flds.line (level := level + 1) (k := "num_features".toList) (scal_word (by decide) (by decide))
    (scal_fmtInt t.numFeatures) hm
  have h2 := Flds.blank (blank_ind (level + 1)) (Flds.cons (k := "classes".toList) (c := ' ')
    (scal_word (by decide) (by decide)) rfl
    (Val.seq blank_nil (Itms.blank blank_sp (classes_itms t.classes))) blank_nil (Flds.blank blank_nl h1))
  have h3 := Flds.line (level := level + 1) (k := "max_depth".toList) (scal_word (by decide) (by decide))
    (scal_fmtInt t.maxDepth) h2
  refine h3.of_eq ?_
  simp [headText]

/-- The mapping of a tree. -/
def treeYaml (t : TreeImpl) : Yaml :=
  .map (headFields t ++ childFields t.classes "root".toList t.root ++
    [("data".toList, .map (samplesFields 0 t.data))])

/-- The text of a tree after its key. -/
def treeBody (level : ℕ) (t : TreeImpl) : List Char :=
  "{\n".toList ++ headText level t ++ nodeText t.classes (level + 1) "root".toList t.root ++
  (indent (level + 1) ++ "data: {\n".toList) ++ samplesText (level + 2) 0 t.data ++
  (indent (level + 1) ++ "},\n".toList) ++ (indent level ++ "}".toList)

theorem treeText_eq (level : ℕ) (t : TreeImpl) :
    treeText level t = indent level ++ "tree: ".toList ++ treeBody level t ++ "\n".toList := by
  simp [treeText, treeBody, headText]

theorem treeBody_val (level : ℕ) (t : TreeImpl) : Val (treeBody level t) (treeYaml t) := by
  have h0 : Flds (indent level ++ ['}']) [] := .blank (blank_ind level) .nil
  have h1 : Flds _ _ := samplesText_flds (level + 2) t.data 0 (.blank (blank_ind (level + 1)) .nil)
  rw [List.append_nil] at h1
  have h2 := Flds.blank (blank_ind (level + 1)) (Flds.cons (k := "data".toList) (c := ' ')
    (scal_word (by decide) (by decide)) rfl (Val.map blank_nil (Flds.blank blank_nl h1)) blank_nil
    (Flds.blank blank_nl h0))
  have h3 := headText_flds level t (nodeText_flds t.classes t.root (level + 1) (key := "root".toList)
    (scal_word (by decide) (by decide)) h2)
  refine (Val.map blank_nil (Flds.blank blank_nl h3)).of_eq ?_ |> fun h => by
    simpa [treeYaml] using h
  simp [treeBody]

theorem stop_nl (s : List Char) : Stop ('\n' :: s) := ⟨'\n', s, rfl, by decide⟩

/-- A document with a comment. -/
theorem read_doc {k u com : List Char} {v : Yaml} (hk : Scal k) (hu : Val u v) (hcom : '\n' ∉ com) :
    Yaml.read ('#' :: (com ++ '\n' :: (k ++ (": ".toList ++ (u ++ ['\n']))))) = some (.map [(k, v)]) := by
  unfold Yaml.read
  have hd : (com ++ '\n' :: (k ++ (": ".toList ++ (u ++ ['\n'])))).dropWhile (· ≠ '\n') =
      '\n' :: (k ++ (": ".toList ++ (u ++ ['\n']))) := by
    induction com with
    | nil => rfl
    | cons c com ih =>
      have h : c ≠ '\n' := fun e => hcom (by simp [e])
      rw [List.cons_append, List.dropWhile_cons_of_pos (by simpa using h), ih fun e => hcom (by simp [e])]
  have h1 := readScalar_scal blank_nl hk (stop_colon (' ' :: (u ++ ['\n'])))
  have h2 := hu ((u ++ ['\n']).length + 1) ['\n'] (by simp; omega) (stop_nl [])
  simp only [hd]
  have e : '\n' :: (k ++ (": ".toList ++ (u ++ ['\n']))) = ['\n'] ++ (k ++ ':' :: ' ' :: (u ++ ['\n'])) := by simp
  rw [e, h1]
  simp only [Option.bind_eq_bind, Option.bind_some]
  have h3 : readColon (':' :: ' ' :: (u ++ ['\n'])) = some (u ++ ['\n']) := rfl
  rw [h3]
  simp only [Option.bind_some, h2]
  rfl

theorem read_tree {t : TreeImpl} {s : List Char} (h : t.save = .ok s) :
    Yaml.read s = some (.map [("tree".toList, treeYaml t)]) ∧ s = "# DecisionTreeImpl\n".toList ++ treeText 0 t := by
  have hs : s = "# DecisionTreeImpl\n".toList ++ treeText 0 t := by
    unfold TreeImpl.save at h
    obtain ⟨x, hx, h⟩ := (Res.bind_eq_ok _ _ _).1 h
    unfold outputTree at hx
    split at hx
    · cases hx
    · split at hx
      · cases hx
      · split at hx
        · cases hx; cases h; rfl
        · cases hx
  refine ⟨?_, hs⟩
  have := read_doc (k := "tree".toList) (com := " DecisionTreeImpl".toList) (scal_word (by decide) (by decide))
    (treeBody_val 0 t) (by decide)
  rw [← this, hs, treeText_eq]
  simp [indent]

/-! ## Forests -/

/-- The mapping of a forest. -/
def forestYaml (f : ForestImpl) : Yaml :=
  .map [num "num_trees" (fmtInt f.numTrees), num "max_depth" (fmtInt f.maxDepth),
    ("classes".toList, .seq ((List.range f.numClasses.toNat).map fun i : ℕ => .scalar (fmtInt i))),
    ("trees".toList, .seq (f.trees.map fun t => .map [("tree".toList, treeYaml t)]))]

theorem treesText_itms (level : ℕ) : ∀ (ts : List TreeImpl) {u : List Char}, ForestImpl.treesText level ts = .ok u →
    ∀ {rest : List Char} {m}, Itms rest m → Itms (u ++ rest) ((ts.map fun t => .map [("tree".toList, treeYaml t)]) ++ m)
  | [], u, h, rest, m, hm => by cases h; exact hm
  | t :: ts, u, h, rest, m, hm => by
    unfold ForestImpl.treesText at h
    obtain ⟨x, hx, h⟩ := (Res.bind_eq_ok _ _ _).1 h
    obtain ⟨y, hy, h⟩ := (Res.bind_eq_ok _ _ _).1 h
    cases h
    have hx' : x = treeText (level + 1) t := by
      unfold outputTree at hx
      split at hx
      · cases hx
      · split at hx
        · cases hx
        · split at hx
          · cases hx; rfl
          · cases hx
    subst hx'
    have ih := treesText_itms level ts hy hm
    have hb : AllBlank ('\n' :: indent (level + 1)) := CSrc.blank_indent (level + 1)
    have := Itms.blank (blank_ind (level + 1)) (Itms.pair (k := "tree".toList) (c := ' ')
      (scal_word (by decide) (by decide)) rfl (treeBody_val (level + 1) t) hb (Itms.blank blank_nl ih))
    refine this.of_eq ?_
    rw [treeText_eq]
    simp

theorem read_forest {f : ForestImpl} {s : List Char} (h : f.save = .ok s) :
    Yaml.read s = some (.map [("rfc".toList, forestYaml f)]) := by
  unfold ForestImpl.save at h
  obtain ⟨ts, hts, h⟩ := (Res.bind_eq_ok _ _ _).1 h
  cases h
  have h0 : Itms (indent 1 ++ [']']) [] := .blank (blank_ind 1) .nil
  have h1 := treesText_itms 1 f.trees hts h0
  rw [List.append_nil] at h1
  have h2 := Flds.blank (blank_ind 1) (Flds.last (k := "trees".toList) (c := ' ')
    (scal_word (by decide) (by decide)) rfl (Val.seq blank_nil (Itms.blank blank_nl h1)) blank_nl)
  have hc := classes_itms ((List.range f.numClasses.toNat).map fun i : ℕ => (i : ℤ))
  have h3 := Flds.blank (blank_ind 1) (Flds.cons (k := "classes".toList) (c := ' ')
    (scal_word (by decide) (by decide)) rfl (Val.seq blank_nil (Itms.blank blank_sp hc)) blank_nil
    (Flds.blank blank_nl h2))
  have h4 := Flds.line (level := 1) (k := "max_depth".toList) (scal_word (by decide) (by decide))
    (scal_fmtInt f.maxDepth) h3
  have h5 := Flds.line (level := 1) (k := "num_trees".toList) (scal_word (by decide) (by decide))
    (scal_fmtInt f.numTrees) h4
  have h6 := read_doc (k := "rfc".toList) (com := " RandomForestImpl".toList) (scal_word (by decide) (by decide))
    (Val.map blank_nil (Flds.blank blank_nl h5)) (by decide)
  have e : forestYaml f = .map [("num_trees".toList, .scalar (fmtInt f.numTrees)),
      ("max_depth".toList, .scalar (fmtInt f.maxDepth)),
      ("classes".toList, .seq (((List.range f.numClasses.toNat).map fun i : ℕ => (i : ℤ)).map fun c => .scalar (fmtInt c))),
      ("trees".toList, .seq (f.trees.map fun t => .map [("tree".toList, treeYaml t)]))] := by
    simp [forestYaml, num, Function.comp_def]
  rw [e, ← h6]
  congr 1
  simp [Function.comp_def]

end Apollo.YamlText
