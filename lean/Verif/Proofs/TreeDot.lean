import Verif.Proofs.TreeYaml

/-!
# The drawings of trees and forests
-/

namespace Apollo.DotText

open Apollo Spec YamlText

/-! ## What the scripts write -/

theorem put_new {d : List (List Char × Yaml)} {k : List Char} (h : k ∉ d.map Prod.fst) (v : Yaml) :
    Dot.put d k v = d ++ [(k, v)] := by
  unfold Dot.put; rw [if_neg h]

theorem foldl_put (l d : List (List Char × Yaml)) (h : ((d ++ l).map Prod.fst).Nodup) :
    l.foldl (fun d x => Dot.put d x.1 x.2) d = d ++ l := by
  induction l generalizing d with
  | nil => simp
  | cons x l ih =>
    have hx : x.1 ∉ d.map Prod.fst := by
      intro hm
      rw [List.map_append, List.nodup_append] at h
      exact h.2.2 _ hm _ (by simp) rfl
    rw [List.foldl_cons, put_new hx, ih _ (by simpa using h)]
    simp

theorem dict_nodup {l : List (List Char × Yaml)} (h : (l.map Prod.fst).Nodup) : Dot.dict (.map l) = some l := by
  have := foldl_put l [] (by simpa using h)
  simp only [Dot.dict, this, List.nil_append]

/-- The line that declares a node. -/
def declText (shape : String) (name label : List Char) : List Char :=
  name ++ (" [ shape=".toList ++ (shape.toList ++ (", label=\"".toList ++ (label ++ "\"];\n".toList))))

/-- The line of an edge. -/
def edgeText (a b : List Char) : List Char := a ++ (" -> ".toList ++ (b ++ ['\n']))

/-- What is drawn for a node. -/
def nodeGraph (py : PyText) (classes : List ℤ) : List Char → Tree → List DotStmt
  | _, .nil => []
  | name, .node n l r => .node name (attrs "box" (nodeLabel py classes name n)) ::
      ((if l = .nil then [] else nodeGraph py classes (name ++ "_left".toList) l ++
        [.edge name (name ++ "_left".toList)]) ++
      (if r = .nil then [] else nodeGraph py classes (name ++ "_right".toList) r ++
        [.edge name (name ++ "_right".toList)]))

/-- The text of a node. -/
def nodeDot (py : PyText) (classes : List ℤ) : List Char → Tree → List Char
  | _, .nil => []
  | name, .node n l r => declText "box" name (nodeLabel py classes name n) ++
      ((if l = .nil then [] else nodeDot py classes (name ++ "_left".toList) l ++
        edgeText name (name ++ "_left".toList)) ++
      (if r = .nil then [] else nodeDot py classes (name ++ "_right".toList) r ++
        edgeText name (name ++ "_right".toList)))

/-- The height of a tree. -/
def height : Tree → ℕ
  | .nil => 0
  | .node _ l r => 1 + max (height l) (height r)

theorem reprFields_counts (py : PyText) (l : List (ℤ × ℕ)) :
    py.reprFields (l.map fun c => (fmtInt c.1, .scalar (fmtInt c.2))) =
      l.map fun c => py.repr (fmtInt c.1) ++ ": ".toList ++ py.repr (fmtInt c.2) := by
  induction l with
  | nil => simp [PyText.reprFields]
  | cons c l ih => simp [PyText.reprFields, PyText.reprYaml, ih]

theorem reprItems_ints (py : PyText) (l : List ℤ) :
    py.reprItems (l.map fun c => .scalar (fmtInt c)) = l.map fun c => py.repr (fmtInt c) := by
  induction l with
  | nil => simp [PyText.reprItems]
  | cons c l ih => simp [PyText.reprItems, PyText.reprYaml, ih]

theorem childFields_cases (classes : List ℤ) (key : List Char) (t : Tree) :
    (t = .nil ∧ childFields classes key t = []) ∨
      (t ≠ .nil ∧ childFields classes key t = [(key, nodeYaml classes t)]) := by
  unfold childFields
  by_cases h : t = .nil
  · exact .inl ⟨h, if_pos h⟩
  · exact .inr ⟨h, if_neg h⟩

theorem labelLines_own (py : PyText) (classes : List ℤ) (name : List Char) (n : NodeInfo) (l r : Tree) :
    name ++ ('\n' :: Dot.labelLines py (fun k => ¬ (k = "left".toList ∨ k = "right".toList)) (ownFields classes n ++
      childFields classes "left".toList l ++ childFields classes "right".toList r)) =
      nodeLabel py classes name n := by
  have e : (ownFields classes n ++ childFields classes "left".toList l ++
      childFields classes "right".toList r).filter (fun x => decide (¬ (x.1 = "left".toList ∨ x.1 = "right".toList))) =
      ownFields classes n := by
    rw [List.filter_append, List.filter_append]
    have e1 : (ownFields classes n).filter (fun x => decide (¬ (x.1 = "left".toList ∨ x.1 = "right".toList))) =
      ownFields classes n := by
      rw [List.filter_eq_self]
      intro x hx
      simp only [ownFields, num, List.mem_cons, List.not_mem_nil, or_false] at hx
      rcases hx with rfl | rfl | rfl | rfl | rfl | rfl <;> simp
    rw [e1]
    rcases childFields_cases classes "left".toList l with ⟨-, h⟩ | ⟨-, h⟩ <;>
      rcases childFields_cases classes "right".toList r with ⟨-, h'⟩ | ⟨-, h'⟩ <;> rw [h, h'] <;> simp
  unfold Dot.labelLines
  rw [e]
  simp [ownFields, num, PyText.strYaml, countsYaml, PyText.reprYaml, reprFields_counts, nodeLabel, labelOf]

theorem keys_own (classes : List ℤ) (n : NodeInfo) (l r : Tree) :
    ((ownFields classes n ++ childFields classes "left".toList l ++
      childFields classes "right".toList r).map Prod.fst).Nodup := by
  rcases childFields_cases classes "left".toList l with ⟨-, h⟩ | ⟨-, h⟩ <;>
    rcases childFields_cases classes "right".toList r with ⟨-, h'⟩ | ⟨-, h'⟩ <;> rw [h, h'] <;>
    simp only [ownFields, num, List.map_append, List.map_cons, List.map_nil] <;> decide

theorem lookup_left (classes : List ℤ) (n : NodeInfo) (l r : Tree) :
    (ownFields classes n ++ childFields classes "left".toList l ++
      childFields classes "right".toList r).lookup "left".toList =
      if l = .nil then none else some (nodeYaml classes l) := by
  rcases childFields_cases classes "left".toList l with ⟨e, h⟩ | ⟨e, h⟩ <;>
    rcases childFields_cases classes "right".toList r with ⟨-, h'⟩ | ⟨-, h'⟩ <;> rw [h, h'] <;>
    simp [ownFields, num, e, List.lookup]

theorem lookup_right (classes : List ℤ) (n : NodeInfo) (l r : Tree) :
    (ownFields classes n ++ childFields classes "left".toList l ++
      childFields classes "right".toList r).lookup "right".toList =
      if r = .nil then none else some (nodeYaml classes r) := by
  rcases childFields_cases classes "left".toList l with ⟨-, h⟩ | ⟨-, h⟩ <;>
    rcases childFields_cases classes "right".toList r with ⟨e, h'⟩ | ⟨e, h'⟩ <;> rw [h, h'] <;>
    simp [ownFields, num, e, List.lookup]

theorem parseNode_yaml (py : PyText) (classes : List ℤ) : ∀ (t : Tree) (fuel : ℕ) (name : List Char), t ≠ .nil →
    height t ≤ fuel → Dot.parseNode py fuel (nodeYaml classes t) name = some (nodeDot py classes name t)
  | .nil, _, _, h, _ => absurd rfl h
  | .node n l r, fuel, name, _, hf => by
    simp only [height] at hf
    obtain ⟨k, rfl⟩ : ∃ k, fuel = k + 1 := ⟨fuel - 1, by omega⟩
    have hl := fun h => parseNode_yaml py classes l k (name ++ "_left".toList) h (by omega)
    have hr := fun h => parseNode_yaml py classes r k (name ++ "_right".toList) h (by omega)
    unfold Dot.parseNode
    rw [nodeYaml_node, dict_nodup (keys_own classes n l r)]
    have e := labelLines_own py classes name n l r
    simp only [Option.bind_eq_bind, Option.bind_some, lookup_left, lookup_right, nodeDot, ← e]
    by_cases h1 : l = .nil <;> by_cases h2 : r = .nil
    · simp [h1, h2, declText]
    · simp only [if_pos h1, if_neg h2, hr h2, Option.map_some, Option.bind_some]
      simp [declText, edgeText]
    · simp only [if_neg h1, if_pos h2, hl h1, Option.map_some, Option.bind_some]
      simp [declText, edgeText]
    · simp only [if_neg h1, if_neg h2, hl h1, hr h2, Option.map_some, Option.bind_some]
      simp [declText, edgeText]

/-- What is drawn for a tree. -/
def treeGraph (py : PyText) (base : List Char) (t : TreeImpl) : List DotStmt :=
  .node base (attrs "oval" (treeLabel py base t)) ::
    (nodeGraph py t.classes (base ++ "_root".toList) t.root ++ [.edge base (base ++ "_root".toList)])

/-- The text of a tree. -/
def treeDot (py : PyText) (base : List Char) (t : TreeImpl) : List Char :=
  declText "oval" base (treeLabel py base t) ++
    (nodeDot py t.classes (base ++ "_root".toList) t.root ++ edgeText base (base ++ "_root".toList))

theorem parseTree_yaml (py : PyText) (t : TreeImpl) (fuel : ℕ) (base : List Char) (h : t.root ≠ .nil)
    (hf : height t.root ≤ fuel) :
    Dot.parseTree py fuel (.map [("tree".toList, treeYaml t)]) base = some (treeDot py base t) := by
  unfold Dot.parseTree
  have h1 : Dot.dict (.map [("tree".toList, treeYaml t)]) = some [("tree".toList, treeYaml t)] :=
    dict_nodup (by simp)
  have hc : childFields t.classes "root".toList t.root = [("root".toList, nodeYaml t.classes t.root)] :=
    if_neg h
  have h2 : Dot.dict (treeYaml t) = some (headFields t ++ [("root".toList, nodeYaml t.classes t.root)] ++
      [("data".toList, Yaml.map (samplesFields 0 t.data))]) := by
    unfold treeYaml; rw [hc]; apply dict_nodup
    simp only [headFields, num, List.map_append, List.map_cons, List.map_nil]; decide
  have h3 : ([("tree".toList, treeYaml t)] : List (List Char × Yaml)).lookup "tree".toList = some (treeYaml t) := by
    simp [List.lookup]
  have h4 : (headFields t ++ [("root".toList, nodeYaml t.classes t.root)] ++
      [("data".toList, Yaml.map (samplesFields 0 t.data))]).lookup "root".toList = some (nodeYaml t.classes t.root) := by
    simp [headFields, num, List.lookup]
  rw [h1]
  simp only [Option.bind_eq_bind, Option.bind_some, h3, h2, h4, parseNode_yaml py t.classes t.root fuel _ h hf]
  simp [Dot.labelLines, headFields, num, PyText.strYaml, PyText.reprYaml, reprItems_ints, treeDot, declText,
    edgeText, treeLabel, labelOf]

theorem height_le_text (classes : List ℤ) : ∀ (t : Tree) (level : ℕ) (key : List Char),
    height t ≤ (nodeText classes level key t).length
  | .nil, _, _ => by simp [height]
  | .node n l r, level, key => by
    have hl := height_le_text classes l (level + 1) "left".toList
    have hr := height_le_text classes r (level + 1) "right".toList
    simp only [height, nodeText, List.length_append]
    have : 1 ≤ (": {\n".toList).length := by decide
    omega

/-! ## Reading the drawing -/

/-- An identifier. -/
structure Ident (a : List Char) : Prop where
  chars : ∀ c ∈ a, isIdent c = true
  head : ∃ c r, a = c :: r ∧ isDigit c = false

theorem Ident.append {a b : List Char} (h : Ident a) (hb : ∀ c ∈ b, isIdent c = true) : Ident (a ++ b) := by
  refine ⟨fun c hc => (List.mem_append.1 hc).elim (h.chars c) (hb c), ?_⟩
  obtain ⟨c, r, rfl, hc⟩ := h.head
  exact ⟨c, r ++ b, rfl, hc⟩

theorem ident_not_space {c : Char} (h : isIdent c = true) : isSpace c = false := by
  by_contra hc
  simp only [isSpace, Bool.not_eq_false, Bool.or_eq_true, decide_eq_true_eq] at hc
  rcases hc with ((((rfl | rfl) | rfl) | rfl) | rfl) | rfl <;> revert h <;> decide

theorem takeWhile_ident {a r : List Char} (h : ∀ c ∈ a, isIdent c = true) {d : Char} (hd : isIdent d = false) :
    (a ++ d :: r).takeWhile isIdent = a ∧ (a ++ d :: r).dropWhile isIdent = d :: r := by
  induction a with
  | nil => simp [hd]
  | cons c a ih =>
    have hc := h c (by simp)
    have ih := ih fun c hc => h c (by simp [hc])
    simp [hc, ih.1, ih.2]

theorem readId_ident {ws a r : List Char} (hws : YamlText.AllBlank ws) (h : Ident a) {d : Char}
    (hd : isIdent d = false) : Dot.readId (ws ++ (a ++ d :: r)) = some (a, d :: r) := by
  unfold Dot.readId
  rw [dropWhile_blanks hws]
  obtain ⟨c, w, rfl, hc⟩ := h.head
  have hs : isSpace c = false := ident_not_space (h.chars c (by simp))
  have e : (c :: w ++ d :: r).dropWhile isSpace = c :: w ++ d :: r := by
    rw [List.cons_append, List.dropWhile_cons_of_neg (by simp [hs])]
  simp only [e, (takeWhile_ident h.chars hd).1, (takeWhile_ident h.chars hd).2, hc]
  rfl

theorem sym_ident {w a r : List Char} {x : Char} (h : Ident a) (hx : isIdent x = false) :
    sym (x :: w) (a ++ r) = none := by
  obtain ⟨c, a, rfl, -⟩ := h.head
  have hc := h.chars c (by simp)
  unfold sym
  rw [List.cons_append, List.dropWhile_cons_of_neg (by simp [ident_not_space hc])]
  have : (x == c) = false := by
    rw [beq_eq_false_iff_ne]; rintro rfl; rw [hx] at hc; cases hc
  simp [List.isPrefixOf, this]

/-- The text `u` has the statements `g`. -/
def Dots (u : List Char) (g : List DotStmt) : Prop :=
  ∀ fuel r l, (u ++ r).length < fuel → (∀ fuel', r.length < fuel' → Dot.readStmts fuel' r = some l) →
    Dot.readStmts fuel (u ++ r) = some (g ++ l)

theorem Dots.nil : Dots [] [] := fun fuel r l hf hr => hr fuel (by simpa using hf)

theorem Dots.append {u v : List Char} {g g'} (hu : Dots u g) (hv : Dots v g') : Dots (u ++ v) (g ++ g') := by
  intro fuel r l hf hr
  rw [List.append_assoc, List.append_assoc]
  rw [List.append_assoc] at hf
  exact hu fuel (v ++ r) (g' ++ l) hf fun fuel' h => hv fuel' r l h hr

theorem readStmts_nl (fuel : ℕ) (r : List Char) : Dot.readStmts fuel ('\n' :: r) = Dot.readStmts fuel r := by
  cases fuel with
  | zero => rfl
  | succ n =>
    have h1 : ∀ w, sym w ('\n' :: r) = sym w r := fun w => CSrc.sym_space rfl w r
    have h2 : Dot.readId ('\n' :: r) = Dot.readId r := by unfold Dot.readId; rfl
    unfold Dot.readStmts
    rw [h1, h2]

theorem dots_edge {a b : List Char} (ha : Ident a) (hb : Ident b) : Dots (edgeText a b) [.edge a b] := by
  intro fuel r l hf hr
  obtain ⟨n, rfl⟩ : ∃ n, fuel = n + 1 := ⟨fuel - 1, by omega⟩
  have e : edgeText a b ++ r = a ++ ' ' :: '-' :: '>' :: ' ' :: (b ++ '\n' :: r) := by
    simp [edgeText]
  rw [e] at hf ⊢
  unfold Dot.readStmts
  have h1 : sym ['}'] (a ++ ' ' :: '-' :: '>' :: ' ' :: (b ++ '\n' :: r)) = none := sym_ident ha (by decide)
  have h2 : Dot.readId (a ++ ' ' :: '-' :: '>' :: ' ' :: (b ++ '\n' :: r)) =
      some (a, ' ' :: '-' :: '>' :: ' ' :: (b ++ '\n' :: r)) := readId_ident (ws := []) blank_nil ha (by decide)
  have h3 : sym ['-', '>'] (' ' :: '-' :: '>' :: ' ' :: (b ++ '\n' :: r)) = some (' ' :: (b ++ '\n' :: r)) := rfl
  have h4 : Dot.readId (' ' :: (b ++ '\n' :: r)) = some (b, '\n' :: r) := readId_ident blank_sp hb (by decide)
  rw [h1]
  simp only [h2, h3, h4, Option.bind_eq_bind, Option.bind_some, Option.map_some]
  simp only [List.length_append, List.length_cons] at hf
  have h6 : Dot.readStmts n ((sym [';'] ('\n' :: r)).getD ('\n' :: r)) = some l := by
    cases hs : sym [';'] ('\n' :: r) with
    | none => rw [Option.getD_none, readStmts_nl]; exact hr n (by omega)
    | some s =>
      exfalso
      have hc := hr (r.length + 1) (by omega)
      rw [CSrc.sym_space rfl] at hs
      unfold Dot.readStmts at hc
      have h7 : ∃ s', r.dropWhile isSpace = ';' :: s' := by
        unfold sym at hs
        cases hd : r.dropWhile isSpace with
        | nil => simp [hd] at hs
        | cons c s' =>
          simp only [hd, List.isPrefixOf, Bool.and_true] at hs
          split at hs
          · next he => exact ⟨s', by rw [beq_iff_eq] at he; rw [he]⟩
          · cases hs
      obtain ⟨s', h7⟩ := h7
      have h8 : sym ['}'] r = none := by unfold sym; rw [h7]; rfl
      have h9 : Dot.readId r = none := by unfold Dot.readId; rw [h7]; rfl
      rw [h8] at hc
      simp [h9] at hc
  rw [h6]
  rfl

theorem takeWhile_label {u r : List Char} (h : '"' ∉ u) :
    (u ++ '"' :: r).takeWhile (· ≠ '"') = u ∧ (u ++ '"' :: r).dropWhile (· ≠ '"') = '"' :: r := by
  induction u with
  | nil => simp
  | cons c u ih =>
    have hc : c ≠ '"' := fun e => h (by simp [e])
    have ih := ih fun e => h (by simp [e])
    simp only [List.cons_append, List.takeWhile_cons, List.dropWhile_cons, hc, ne_eq, not_false_eq_true,
      decide_true, if_true]
    exact ⟨by rw [ih.1], ih.2⟩

theorem dots_decl {a label : List Char} {shape : String} (ha : Ident a) (hs : Ident shape.toList)
    (h1 : '"' ∉ label) (h2 : '\\' ∉ label) : Dots (declText shape a label) [.node a (attrs shape label)] := by
  intro fuel r l hf hr
  obtain ⟨n, rfl⟩ : ∃ n, fuel = n + 1 := ⟨fuel - 1, by omega⟩
  have e : declText shape a label ++ r = a ++ ' ' :: '[' :: ' ' :: 's' :: 'h' :: 'a' :: 'p' :: 'e' :: '=' ::
      (shape.toList ++ ',' :: (" label=\"".toList ++ (label ++ '"' :: ']' :: ';' :: '\n' :: r))) := by
    simp [declText]
  rw [e] at hf ⊢
  unfold Dot.readStmts
  rw [sym_ident ha (by decide)]
  have k1 := readId_ident (ws := []) blank_nil ha (d := ' ') (by decide) (r := '[' :: ' ' :: 's' :: 'h' :: 'a' ::
    'p' :: 'e' :: '=' :: (shape.toList ++ ',' :: (" label=\"".toList ++ (label ++ '"' :: ']' :: ';' :: '\n' :: r))))
  rw [List.nil_append] at k1
  have k2 : ∀ u : List Char, sym ['-', '>'] (' ' :: '[' :: u) = none := fun _ => rfl
  have k3 : ∀ u : List Char, sym ['['] (' ' :: '[' :: u) = some u := fun _ => rfl
  have k4 : ∀ u : List Char, Dot.readId (' ' :: 's' :: 'h' :: 'a' :: 'p' :: 'e' :: '=' :: u) =
    some ("shape".toList, '=' :: u) := fun _ => rfl
  have k5 : ∀ u : List Char, sym ['='] ('=' :: u) = some u := fun _ => rfl
  have k6 : ∀ u : List Char, Dot.readWord (shape.toList ++ ',' :: u) = some (shape.toList, ',' :: u) := by
    intro u
    unfold Dot.readWord
    rw [sym_ident hs (by decide)]
    exact readId_ident (ws := []) blank_nil hs (by decide)
  have k7 : ∀ u : List Char, sym [','] (',' :: u) = some u := fun _ => rfl
  have k8 : ∀ u : List Char, Dot.readId (" label=\"".toList ++ u) = some ("label".toList, '=' :: '"' :: u) :=
    fun _ => rfl
  have k9 : ∀ u : List Char, Dot.readWord ('"' :: (label ++ '"' :: u)) = some (label, u) := by
    intro u
    have e : sym ['"'] ('"' :: (label ++ '"' :: u)) = some (label ++ '"' :: u) := rfl
    unfold Dot.readWord
    rw [e]
    simp only [(takeWhile_label h1).1, (takeWhile_label h1).2, h2, if_false]
  have k10 : ∀ u : List Char, sym [','] (']' :: u) = none := fun _ => rfl
  have k11 : ∀ u : List Char, sym [']'] (']' :: u) = some u := fun _ => rfl
  have k12 : ∀ u : List Char, sym [';'] (';' :: u) = some u := fun _ => rfl
  have k : ∀ n u, Dot.readAttrs (n + 2) (' ' :: 's' :: 'h' :: 'a' :: 'p' :: 'e' :: '=' ::
      (shape.toList ++ ',' :: (" label=\"".toList ++ (label ++ '"' :: ']' :: u)))) = some (attrs shape label, u) := by
    intro n u
    unfold Dot.readAttrs
    simp only [k4, k5, k6, k7, Option.bind_eq_bind, Option.bind_some]
    unfold Dot.readAttrs
    simp only [k8, k5, k9, k10, k11, Option.bind_eq_bind, Option.bind_some, Option.map_some]
    rfl
  simp only [k1, k2, k3, Option.bind_eq_bind, Option.bind_some]
  have e2 : ∃ n, (' ' :: 's' :: 'h' :: 'a' :: 'p' :: 'e' :: '=' ::
      (shape.toList ++ ',' :: (" label=\"".toList ++ (label ++ '"' :: ']' :: ';' :: '\n' :: r)))).length + 1 =
      n + 2 := ⟨_, rfl⟩
  obtain ⟨m, hm⟩ := e2
  rw [hm, k]
  simp only [Option.bind_some, k12, Option.getD_some, readStmts_nl]
  simp only [List.length_append, List.length_cons] at hf
  rw [hr n (by omega)]
  rfl

/-! ## Labels -/

/-- Without quotes and backslashes. -/
def NoQ (u : List Char) : Prop := '"' ∉ u ∧ '\\' ∉ u

theorem NoQ.append {u v : List Char} (h : NoQ u) (h' : NoQ v) : NoQ (u ++ v) :=
  ⟨fun e => (List.mem_append.1 e).elim h.1 h'.1, fun e => (List.mem_append.1 e).elim h.2 h'.2⟩

theorem NoQ.flatten {l : List (List Char)} (h : ∀ u ∈ l, NoQ u) : NoQ l.flatten := by
  constructor <;> intro e <;> obtain ⟨u, hu, he⟩ := List.mem_flatten.1 e
  · exact (h u hu).1 he
  · exact (h u hu).2 he

theorem mem_intersperse {w u : List Char} : ∀ {l : List (List Char)}, u ∈ l.intersperse w → u = w ∨ u ∈ l
  | [], h => by simp at h
  | [x], h => .inr (by simpa using h)
  | x :: y :: l, h => by
    rw [List.intersperse_cons_cons, List.mem_cons, List.mem_cons] at h
    rcases h with h | h | h
    · exact .inr (by simp [h])
    · exact .inl h
    · exact (mem_intersperse h).imp_right fun h => List.mem_cons_of_mem _ h

theorem NoQ.intercalate {l : List (List Char)} {w : List Char} (hw : NoQ w) (h : ∀ u ∈ l, NoQ u) :
    NoQ (w.intercalate l) := by
  unfold List.intercalate
  refine .flatten fun u hu => ?_
  rcases mem_intersperse hu with rfl | h'
  · exact hw
  · exact h u h'

theorem noQ_lit {u : List Char} (h : '"' ∉ u ∧ '\\' ∉ u) : NoQ u := h

theorem noQ_str (s : String) (h : '"' ∉ s.toList ∧ '\\' ∉ s.toList) : NoQ s.toList := h

theorem noQ_ident {u : List Char} (h : ∀ c ∈ u, isIdent c = true) : NoQ u :=
  ⟨fun e => absurd (h _ e) (by decide), fun e => absurd (h _ e) (by decide)⟩

theorem noQ_labelOf {name : List Char} {l : List (String × List Char)} (hn : NoQ name)
    (h : ∀ x ∈ l, NoQ x.1.toList ∧ NoQ x.2) : NoQ (labelOf name l) := by
  refine (hn.append (noQ_lit (by decide))).append (.flatten fun u hu => ?_)
  obtain ⟨x, hx, rfl⟩ := List.mem_map.1 hu
  exact (((h x hx).1.append (noQ_lit (by decide))).append (h x hx).2).append (noQ_lit (by decide))

theorem quiet_str {py : PyText} (h : Quiet py) {w : List Char} (hw : Scal w) : NoQ (py.str w) :=
  (h w hw.plain).1

theorem quiet_repr {py : PyText} (h : Quiet py) {w : List Char} (hw : Scal w) : NoQ (py.repr w) :=
  (h w hw.plain).2

theorem noQ_nodeLabel {py : PyText} (h : Quiet py) (classes : List ℤ) {name : List Char} (hn : NoQ name)
    (n : NodeInfo) : NoQ (nodeLabel py classes name n) := by
  refine noQ_labelOf hn ?_
  intro x hx
  simp only [List.mem_cons, List.not_mem_nil, or_false] at hx
  rcases hx with rfl | rfl | rfl | rfl | rfl | rfl
  · exact ⟨noQ_str "gini" (by decide), quiet_str h (scal_fmtG6 _)⟩
  · exact ⟨noQ_str "num_samples" (by decide), quiet_str h (scal_fmtInt _)⟩
  · exact ⟨noQ_str "predicted_class" (by decide), quiet_str h (scal_fmtInt _)⟩
  · exact ⟨noQ_str "feature_idx" (by decide), quiet_str h (scal_fmtInt _)⟩
  · exact ⟨noQ_str "threshold" (by decide), quiet_str h (scal_fmtG6 _)⟩
  · refine ⟨noQ_str "count_per_class" (by decide), ((noQ_lit (by decide)).append (.intercalate (noQ_lit (by decide)) ?_)).append
      (noQ_lit (by decide))⟩
    intro u hu
    obtain ⟨c, -, rfl⟩ := List.mem_map.1 hu
    exact ((quiet_repr h (scal_fmtInt _)).append (noQ_lit (by decide))).append (quiet_repr h (scal_fmtInt _))

theorem noQ_ints {py : PyText} (h : Quiet py) (l : List ℤ) :
    NoQ ("[".toList ++ ", ".toList.intercalate (l.map fun c => py.repr (fmtInt c)) ++ "]".toList) := by
  refine ((noQ_lit (by decide)).append (.intercalate (noQ_lit (by decide)) ?_)).append (noQ_lit (by decide))
  intro u hu
  obtain ⟨c, -, rfl⟩ := List.mem_map.1 hu
  exact quiet_repr h (scal_fmtInt _)

theorem noQ_treeLabel {py : PyText} (h : Quiet py) {name : List Char} (hn : NoQ name) (t : TreeImpl) :
    NoQ (treeLabel py name t) := by
  refine noQ_labelOf hn ?_
  intro x hx
  simp only [List.mem_cons, List.not_mem_nil, or_false] at hx
  rcases hx with rfl | rfl | rfl
  · exact ⟨noQ_str "max_depth" (by decide), quiet_str h (scal_fmtInt _)⟩
  · exact ⟨noQ_str "classes" (by decide), noQ_ints h t.classes⟩
  · exact ⟨noQ_str "num_features" (by decide), quiet_str h (scal_fmtInt _)⟩

theorem noQ_forestLabel {py : PyText} (h : Quiet py) (f : ForestImpl) : NoQ (forestLabel py f) := by
  refine noQ_labelOf (noQ_lit (by decide)) ?_
  intro x hx
  simp only [List.mem_cons, List.not_mem_nil, or_false] at hx
  rcases hx with rfl | rfl
  · exact ⟨noQ_str "max_depth" (by decide), quiet_str h (scal_fmtInt _)⟩
  · refine ⟨noQ_str "classes" (by decide), ?_⟩
    have := noQ_ints h ((List.range f.numClasses.toNat).map fun i : ℕ => (i : ℤ))
    rwa [List.map_map] at this

theorem ident_lit {u : List Char} (h : u.all isIdent = true) (h' : ∃ c r, u = c :: r ∧ isDigit c = false) : Ident u :=
  ⟨fun c hc => List.all_eq_true.1 h c hc, h'⟩

theorem Ident.lit {a : List Char} (h : Ident a) {u : List Char} (hu : u.all isIdent = true) : Ident (a ++ u) :=
  h.append fun c hc => List.all_eq_true.1 hu c hc

theorem dots_node {py : PyText} (h : Quiet py) (classes : List ℤ) : ∀ (t : Tree) {name : List Char}, Ident name →
    Dots (nodeDot py classes name t) (nodeGraph py classes name t)
  | .nil, _, _ => .nil
  | .node n l r, name, hn => by
    have hl : Ident (name ++ "_left".toList) := hn.lit (by decide)
    have hr : Ident (name ++ "_right".toList) := hn.lit (by decide)
    have il := (dots_node h classes l hl).append (dots_edge hn hl)
    have ir := (dots_node h classes r hr).append (dots_edge hn hr)
    have hq := noQ_nodeLabel h classes (noQ_ident hn.chars) n
    have h0 := dots_decl (shape := "box") hn (ident_lit (by decide) ⟨_, _, rfl, by decide⟩) hq.1 hq.2
    unfold nodeDot nodeGraph
    refine h0.append (.append ?_ ?_)
    · split
      · exact .nil
      · exact il
    · split
      · exact .nil
      · exact ir

theorem dots_tree {py : PyText} (h : Quiet py) (t : TreeImpl) {base : List Char} (hb : Ident base) :
    Dots (treeDot py base t) (treeGraph py base t) := by
  have hr : Ident (base ++ "_root".toList) := hb.lit (by decide)
  have hq := noQ_treeLabel h (noQ_ident hb.chars) t
  exact (dots_decl (shape := "oval") hb (ident_lit (by decide) ⟨_, _, rfl, by decide⟩) hq.1 hq.2).append
    ((dots_node h t.classes t.root hr).append (dots_edge hb hr))

/-- The whole graph. -/
theorem read_digraph {u : List Char} {g : List DotStmt} (h : Dots u g) :
    Dot.read ("digraph G {\n".toList ++ u ++ "\n}".toList) = some g := by
  have k1 : ∀ v : List Char, word "digraph".toList ("digraph G {\n".toList ++ v) = some (" G {\n".toList ++ v) :=
    fun _ => rfl
  have k2 : ∀ v : List Char, Dot.readId (" G {\n".toList ++ v) = some ("G".toList, " {\n".toList ++ v) := fun _ => rfl
  have k3 : ∀ v : List Char, sym ['{'] (" {\n".toList ++ v) = some ('\n' :: v) := fun _ => rfl
  unfold Dot.read
  rw [List.append_assoc]
  simp only [k1, k2, k3, Option.bind_eq_bind, Option.bind_some]
  rw [readStmts_nl]
  have := h (('\n' :: (u ++ "\n}".toList)).length + 1) "\n}".toList [] (by simp) (by
    intro fuel hf
    obtain ⟨n, rfl⟩ : ∃ n, fuel = n + 1 := ⟨fuel - 1, by omega⟩
    rfl)
  rw [this, List.append_nil]

/-! ## The nodes and edges of the drawing -/

/-- The end of the name of a node. -/
def pathText (p : List Bool) : List Char := (p.map fun d => if d then "_right".toList else "_left".toList).flatten

theorem pathText_cons (d : Bool) (p : List Bool) :
    pathText (d :: p) = (if d then "_right".toList else "_left".toList) ++ pathText p := rfl

theorem pathText_nil : pathText [] = [] := rfl

theorem pathText_ne_nil (d : Bool) (p : List Bool) : pathText (d :: p) ≠ [] := by
  rw [pathText_cons]
  cases d
  · exact List.cons_ne_nil _ _
  · exact List.cons_ne_nil _ _

theorem pathText_ft (p q : List Bool) : "_left".toList ++ pathText p ≠ "_right".toList ++ pathText q := by
  intro h
  have h1 : ("_left".toList ++ pathText p)[1]? = some 'l' := rfl
  have h2 : ("_right".toList ++ pathText q)[1]? = some 'r' := rfl
  rw [h, h2] at h1
  exact absurd h1 (by decide)

theorem pathText_inj {p q : List Bool} (h : pathText p = pathText q) : p = q := by
  induction p generalizing q with
  | nil =>
    cases q with
    | nil => rfl
    | cons d q => exact absurd h.symm (pathText_ne_nil d q)
  | cons d p ih =>
    cases q with
    | nil => exact absurd h (pathText_ne_nil d p)
    | cons e q =>
      rw [pathText_cons, pathText_cons] at h
      cases d <;> cases e
      · rw [ih (List.append_cancel_left h)]
      · exact absurd h (pathText_ft p q)
      · exact absurd h.symm (pathText_ft q p)
      · rw [ih (List.append_cancel_left h)]

/-- The nodes of a tree and the ways to them. -/
def entries : Tree → List (List Bool × NodeInfo)
  | .nil => []
  | .node n l r => ([], n) :: ((entries l).map (fun x => (false :: x.1, x.2)) ++
      (entries r).map (fun x => (true :: x.1, x.2)))

theorem mem_entries : ∀ {t : Tree} {p : List Bool} {n : NodeInfo}, (p, n) ∈ entries t ↔ nodeAt t p = some n
  | .nil, p, n => by simp [entries, nodeAt]
  | .node m l r, [], n => by simp [entries, nodeAt, eq_comm]
  | .node m l r, d :: p, n => by
    cases d <;> simp [entries, nodeAt, mem_entries]

theorem nodup_entries : ∀ t : Tree, ((entries t).map Prod.fst).Nodup
  | .nil => by simp [entries]
  | .node m l r => by
    have hl := (nodup_entries l).map (f := fun p => false :: p) (fun _ _ h => (List.cons.inj h).2)
    have hr := (nodup_entries r).map (f := fun p => true :: p) (fun _ _ h => (List.cons.inj h).2)
    simp only [entries, List.map_cons, List.map_append, List.map_map, Function.comp_def, List.nodup_cons,
      List.nodup_append] at *
    refine ⟨by simp, hl, hr, ?_⟩
    intro a ha b hb e
    obtain ⟨x, -, rfl⟩ := List.mem_map.1 ha
    obtain ⟨y, -, rfl⟩ := List.mem_map.1 hb
    simp at e

/-- The declarations of a graph. -/
def declsOf (g : List DotStmt) : List (List Char × List (List Char × List Char)) :=
  g.filterMap fun x => match x with
    | .node a l => some (a, l)
    | .edge _ _ => none

theorem nodesOf_eq (g : List DotStmt) : nodesOf g = (declsOf g).map Prod.fst := by
  unfold nodesOf declsOf
  rw [List.map_filterMap]
  congr 1
  funext x
  cases x <;> rfl

theorem mem_declsOf {g : List DotStmt} {a : List Char} {l} : .node a l ∈ g ↔ (a, l) ∈ declsOf g := by
  unfold declsOf
  rw [List.mem_filterMap]
  constructor
  · intro h; exact ⟨_, h, rfl⟩
  · rintro ⟨x, hx, e⟩
    cases x with
    | node b m => cases e; exact hx
    | edge b c => cases e

theorem mem_edgesOf {g : List DotStmt} {a b : List Char} : .edge a b ∈ g ↔ (a, b) ∈ edgesOf g := by
  unfold edgesOf
  rw [List.mem_filterMap]
  constructor
  · intro h; exact ⟨_, h, rfl⟩
  · rintro ⟨x, hx, e⟩
    cases x with
    | node b m => cases e
    | edge b c => cases e; exact hx

theorem declsOf_append (g h : List DotStmt) : declsOf (g ++ h) = declsOf g ++ declsOf h := List.filterMap_append

theorem edgesOf_append (g h : List DotStmt) : edgesOf (g ++ h) = edgesOf g ++ edgesOf h := List.filterMap_append

theorem declsOf_nodeGraph (py : PyText) (classes : List ℤ) : ∀ (t : Tree) (name : List Char),
    declsOf (nodeGraph py classes name t) = (entries t).map fun x =>
      (name ++ pathText x.1, attrs "box" (nodeLabel py classes (name ++ pathText x.1) x.2))
  | .nil, _ => rfl
  | .node n l r, name => by
    have il := declsOf_nodeGraph py classes l (name ++ "_left".toList)
    have ir := declsOf_nodeGraph py classes r (name ++ "_right".toList)
    have h1 : declsOf (if l = .nil then [] else nodeGraph py classes (name ++ "_left".toList) l ++
        [.edge name (name ++ "_left".toList)]) = (entries l).map fun x =>
          (name ++ pathText (false :: x.1), attrs "box" (nodeLabel py classes (name ++ pathText (false :: x.1)) x.2)) := by
      split
      · next h => subst h; rfl
      · rw [declsOf_append, il]
        simp [declsOf, pathText_cons]
    have h2 : declsOf (if r = .nil then [] else nodeGraph py classes (name ++ "_right".toList) r ++
        [.edge name (name ++ "_right".toList)]) = (entries r).map fun x =>
          (name ++ pathText (true :: x.1), attrs "box" (nodeLabel py classes (name ++ pathText (true :: x.1)) x.2)) := by
      split
      · next h => subst h; rfl
      · rw [declsOf_append, ir]
        simp [declsOf, pathText_cons]
    unfold nodeGraph
    have h3 : ∀ (a m) (g : List DotStmt), declsOf (.node a m :: g) = (a, m) :: declsOf g := fun _ _ _ => rfl
    rw [h3, declsOf_append, h1, h2]
    simp [entries, pathText_nil, Function.comp_def]

/-- The ways to the nodes that have a parent: the way to the parent and the last step. -/
def kids : Tree → List (List Bool × Bool)
  | .nil => []
  | .node _ l r => (if l = .nil then [] else (kids l).map (fun x => (false :: x.1, x.2)) ++ [([], false)]) ++
      (if r = .nil then [] else (kids r).map (fun x => (true :: x.1, x.2)) ++ [([], true)])

theorem nodeAt_nil {t : Tree} : (∃ n, nodeAt t [] = some n) ↔ t ≠ .nil := by
  cases t <;> simp [nodeAt]

theorem mem_kids : ∀ {t : Tree} {p : List Bool} {d : Bool}, (p, d) ∈ kids t ↔ ∃ n, nodeAt t (p ++ [d]) = some n
  | .nil, p, d => by simp [kids, nodeAt]
  | .node m l r, [], d => by
    simp only [kids, List.nil_append, List.mem_append, nodeAt]
    cases d
    · simp only [Bool.false_eq_true, if_false, nodeAt_nil]
      by_cases h : l = .nil <;> by_cases h' : r = .nil <;> simp [h, h']
    · simp only [if_true, nodeAt_nil]
      by_cases h : l = .nil <;> by_cases h' : r = .nil <;> simp [h, h']
  | .node m l r, e :: p, d => by
    have il := mem_kids (t := l) (p := p) (d := d)
    have ir := mem_kids (t := r) (p := p) (d := d)
    simp only [kids, List.cons_append, List.mem_append, nodeAt]
    cases e
    · simp only [Bool.false_eq_true, if_false, ← il]
      by_cases h : l = .nil <;> by_cases h' : r = .nil <;> simp [h, h', kids]
    · simp only [if_true, ← ir]
      by_cases h : l = .nil <;> by_cases h' : r = .nil <;> simp [h, h', kids]

theorem nodup_kids : ∀ t : Tree, (kids t).Nodup
  | .nil => by simp [kids]
  | .node m l r => by
    have hl := (nodup_kids l).map (f := fun x => (false :: x.1, x.2)) (fun x y h => by
      simp only [Prod.mk.injEq, List.cons.injEq, true_and] at h; exact Prod.ext h.1 h.2)
    have hr := (nodup_kids r).map (f := fun x => (true :: x.1, x.2)) (fun x y h => by
      simp only [Prod.mk.injEq, List.cons.injEq, true_and] at h; exact Prod.ext h.1 h.2)
    unfold kids
    rw [List.nodup_append]
    refine ⟨?_, ?_, ?_⟩
    · split
      · simp
      · rw [List.nodup_append]
        exact ⟨hl, by simp, by simp⟩
    · split
      · simp
      · rw [List.nodup_append]
        exact ⟨hr, by simp, by simp⟩
    · intro a ha b hb e
      subst e
      split at ha
      · simp at ha
      · split at hb
        · simp at hb
        · simp only [List.mem_append, List.mem_map, List.mem_singleton] at ha hb
          rcases ha with ⟨x, -, rfl⟩ | rfl <;> rcases hb with ⟨y, -, hb⟩ | hb <;> simp at hb

theorem edgesOf_nodeGraph (py : PyText) (classes : List ℤ) : ∀ (t : Tree) (name : List Char),
    edgesOf (nodeGraph py classes name t) = (kids t).map fun x =>
      (name ++ pathText x.1, name ++ pathText (x.1 ++ [x.2]))
  | .nil, _ => rfl
  | .node n l r, name => by
    have il := edgesOf_nodeGraph py classes l (name ++ "_left".toList)
    have ir := edgesOf_nodeGraph py classes r (name ++ "_right".toList)
    have h3 : ∀ (a m) (g : List DotStmt), edgesOf (.node a m :: g) = edgesOf g := fun _ _ _ => rfl
    unfold nodeGraph
    rw [h3, edgesOf_append]
    unfold kids
    rw [List.map_append]
    congr 1
    · split
      · rfl
      · rw [edgesOf_append, il]
        simp [edgesOf, pathText]
    · split
      · rfl
      · rw [edgesOf_append, ir]
        simp [edgesOf, pathText]

theorem pathName_eq (base : List Char) (p : List Bool) : pathName base p = base ++ "_root".toList ++ pathText p := rfl

theorem pathName_inj {base : List Char} {p q : List Bool} (h : pathName base p = pathName base q) : p = q :=
  pathText_inj (List.append_cancel_left h)

theorem base_ne_pathName (base : List Char) (p : List Bool) : base ≠ pathName base p := by
  intro h
  have := congrArg List.length h
  simp [pathName] at this

theorem draws_tree (py : PyText) (base : List Char) (t : TreeImpl) : DrawsTree py base t (treeGraph py base t) := by
  have hd : declsOf (treeGraph py base t) = (base, attrs "oval" (treeLabel py base t)) ::
      (entries t.root).map fun x => (pathName base x.1, attrs "box" (nodeLabel py t.classes (pathName base x.1) x.2)) := by
    have h3 : ∀ (a m) (g : List DotStmt), declsOf (.node a m :: g) = (a, m) :: declsOf g := fun _ _ _ => rfl
    unfold treeGraph
    rw [h3, declsOf_append, declsOf_nodeGraph]
    simp only [pathName_eq]
    simp [declsOf]
  have he : edgesOf (treeGraph py base t) = ((kids t.root).map fun x =>
      (pathName base x.1, pathName base (x.1 ++ [x.2]))) ++ [(base, pathName base [])] := by
    have h3 : ∀ (a m) (g : List DotStmt), edgesOf (.node a m :: g) = edgesOf g := fun _ _ _ => rfl
    unfold treeGraph
    rw [h3, edgesOf_append, edgesOf_nodeGraph]
    simp only [pathName_eq]
    simp [edgesOf, pathText]
  constructor
  · rw [nodesOf_eq, hd, List.map_cons, List.nodup_cons, List.map_map]
    refine ⟨?_, ?_⟩
    · intro h
      obtain ⟨x, -, hx⟩ := List.mem_map.1 h
      exact base_ne_pathName base x.1 hx.symm
    · have := (nodup_entries t.root).map (f := pathName base) (fun _ _ h => pathName_inj h)
      rwa [List.map_map] at this
  · intro a l
    rw [mem_declsOf, hd, List.mem_cons, Prod.mk.injEq]
    refine or_congr_right ?_
    rw [List.mem_map]
    constructor
    · rintro ⟨⟨p, n⟩, hx, e⟩
      cases e
      exact ⟨p, n, mem_entries.1 hx, rfl, rfl⟩
    · rintro ⟨p, n, hx, rfl, rfl⟩
      exact ⟨(p, n), mem_entries.2 hx, rfl⟩
  · rw [he, List.nodup_append]
    refine ⟨?_, by simp, ?_⟩
    · refine (nodup_kids t.root).map ?_
      rintro ⟨p, d⟩ ⟨q, e⟩ h
      simp only [Prod.mk.injEq] at h
      have := pathName_inj h.2
      rw [List.append_inj_left' this rfl]
      simpa using List.append_inj_right' this rfl
    · intro a ha b hb e
      obtain ⟨x, -, rfl⟩ := List.mem_map.1 ha
      rw [List.mem_singleton] at hb
      rw [hb, Prod.mk.injEq] at e
      exact base_ne_pathName base _ e.1.symm
  · intro a b
    rw [mem_edgesOf, he, List.mem_append, List.mem_singleton, Prod.mk.injEq, or_comm]
    refine or_congr_right ?_
    rw [List.mem_map]
    constructor
    · rintro ⟨⟨p, d⟩, hx, e⟩
      cases e
      obtain ⟨n, hn⟩ := mem_kids.1 hx
      exact ⟨p, d, n, hn, rfl, rfl⟩
    · rintro ⟨p, d, n, hn, rfl, rfl⟩
      exact ⟨(p, d), mem_kids.2 ⟨n, hn⟩, rfl⟩

end Apollo.DotText
