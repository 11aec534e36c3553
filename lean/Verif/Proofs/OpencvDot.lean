import Verif.Spec.OpencvDot
import Verif.Proofs.ForestDot

/-!
# The drawings of forests saved by OpenCV
-/

namespace Apollo.CvDot

open Apollo Spec DotText

/-! ## The stack -/

theorem popTo_mono {k k' : ℤ} (h : k' ≤ k) : ∀ {st : List (ℕ × ℤ)} {x}, Cv.popTo k st = some x →
    Cv.popTo k' st = Cv.popTo k' (x.1 :: x.2)
  | [], x, hx => by simp [Cv.popTo] at hx
  | (j, d) :: st, x, hx => by
    unfold Cv.popTo at hx
    split at hx
    · next hd =>
      have e := popTo_mono h hx
      conv_lhs => unfold Cv.popTo
      rw [if_pos (by omega), e]
    · cases hx; rfl

theorem popTo_self {k : ℤ} : ∀ {st : List (ℕ × ℤ)} {x}, Cv.popTo k st = some x →
    Cv.popTo k (x.1 :: x.2) = some x := by
  intro st x hx
  rw [← popTo_mono le_rfl hx, hx]

/-- The edges of a part of a tree whose root has the number `i` and the depth `k`: depth and number of both
ends. -/
def codes : CvTree → ℕ → ℕ → ℕ × ℕ → List ((ℕ × ℕ) × (ℕ × ℕ))
  | .leaf _, k, i, pa => [(pa, (k, i))]
  | .split _ l r, k, i, pa =>
    (pa, (k, i)) :: (codes l (k + 1) (i + 1) (k, i) ++ codes r (k + 1) (i + 1 + l.size) (k, i))

/-- The edges below the root. -/
def rootCodes : CvTree → List ((ℕ × ℕ) × (ℕ × ℕ))
  | .leaf _ => []
  | .split _ l r => codes l 1 1 (0, 0) ++ codes r 1 (1 + l.size) (0, 0)

/-- The text of an edge. -/
def edgeLine (a b : List Char) : List Char := a ++ (" -> ".toList ++ (b ++ ";\n".toList))

/-- The text of edges. -/
def linesOf (tid : ℕ) (l : List ((ℕ × ℕ) × (ℕ × ℕ))) : List Char :=
  (l.map fun x => edgeLine (cvName tid x.1.1 x.1.2) (cvName tid x.2.1 x.2.2)).flatten

theorem linesOf_append (tid : ℕ) (l l') : linesOf tid (l ++ l') = linesOf tid l ++ linesOf tid l' := by
  simp [linesOf]

theorem nameOf_eq (tid k i : ℕ) : Cv.nameOf tid (k : ℤ) i = cvName tid k i := rfl

/-- The nodes of a part of a tree at depth `k` are saved with their depths. -/
def Depths (t : CvTree) (k : ℕ) : Prop := ∀ p n, t.nodeAt p = some n → Cv.depthOf n = some ((k + p.length : ℕ) : ℤ)

theorem Depths.left {n l r k} (h : Depths (.split n l r) k) : Depths l (k + 1) := by
  intro p m hm
  have := h (false :: p) m (by simpa [CvTree.nodeAt] using hm)
  rw [this]; congr 2; simp; omega

theorem Depths.right {n l r k} (h : Depths (.split n l r) k) : Depths r (k + 1) := by
  intro p m hm
  have := h (true :: p) m (by simpa [CvTree.nodeAt] using hm)
  rw [this]; congr 2; simp; omega

theorem depths_zero {t : CvTree} (h : t.HasDepths) : Depths t 0 := by
  intro p n hn
  obtain ⟨l, rfl, hl⟩ := h p n hn
  simp only [Cv.depthOf, Cv.getNode, hl, Nat.zero_add]

theorem saved_length : ∀ t : CvTree, t.saved.length = t.size
  | .leaf _ => rfl
  | .split _ l r => by simp [CvTree.saved, CvTree.size, saved_length l, saved_length r]

theorem size_pos (t : CvTree) : 0 < t.size := by cases t <;> simp [CvTree.size]

theorem edgesText_cons (tid size i : ℕ) (n : CvNode) (l : List CvNode) (st : List (ℕ × ℤ)) :
    Cv.edgesText tid size i (n :: l) st = (Cv.depthOf n).bind fun depth => (Cv.popTo depth st).bind fun x =>
      (Cv.edgesText tid size (i + 1) l (if i + 1 < size then (i, depth) :: x.1 :: x.2 else x.1 :: x.2)).bind
        fun y => some (Cv.nameOf tid x.1.2 x.1.1 ++ " -> ".toList ++ Cv.nameOf tid depth i ++ ";\n".toList ++ y.1,
          y.2) := rfl

theorem edgesText_append (tid size : ℕ) : ∀ (l l' : List CvNode) (i : ℕ) (st : List (ℕ × ℤ)),
    Cv.edgesText tid size i (l ++ l') st =
      (Cv.edgesText tid size i l st).bind fun x =>
        (Cv.edgesText tid size (i + l.length) l' x.2).map fun y => (x.1 ++ y.1, y.2)
  | [], l', i, st => by
    simp only [List.nil_append, Cv.edgesText, Option.bind_some, List.length_nil, Nat.add_zero]
    cases Cv.edgesText tid size i l' st <;> rfl
  | n :: l, l', i, st => by
    have ih := edgesText_append tid size l l' (i + 1)
    rw [List.cons_append, edgesText_cons, edgesText_cons]
    cases Cv.depthOf n with
    | none => rfl
    | some d =>
      simp only [Option.bind_some]
      cases Cv.popTo d st with
      | none => rfl
      | some x =>
        simp only [Option.bind_some, ih]
        have e : i + 1 + l.length = i + (n :: l).length := by simp; omega
        rw [e]
        cases Cv.edgesText tid size (i + 1) l _ with
        | none => rfl
        | some y =>
          simp only [Option.bind_some]
          cases Cv.edgesText tid size (i + (n :: l).length) l' y.2 with
          | none => rfl
          | some z => simp

theorem edgesText_one (tid size i : ℕ) (n : CvNode) (k : ℕ) (hn : Cv.depthOf n = some (k : ℤ)) (j d : ℕ)
    (st s0 : List (ℕ × ℤ)) (hp : Cv.popTo k st = some ((j, (d : ℤ)), s0)) :
    Cv.edgesText tid size i [n] st = some (linesOf tid [((d, j), (k, i))],
      if i + 1 < size then (i, (k : ℤ)) :: (j, (d : ℤ)) :: s0 else (j, (d : ℤ)) :: s0) := by
  rw [edgesText_cons]
  simp only [hn, hp, Option.bind_some, Cv.edgesText, nameOf_eq]
  simp [linesOf, edgeLine]

theorem popTo_push {k : ℕ} {i : ℕ} {st : List (ℕ × ℤ)} (k' : ℤ) (h : k' ≤ k) (b : Prop) [Decidable b] :
    Cv.popTo k' (if b then (i, (k : ℤ)) :: st else st) = Cv.popTo k' st := by
  split
  · conv_lhs => unfold Cv.popTo
    rw [if_pos h]
  · rfl

/-- What the loop does for a part of a tree. -/
theorem edgesText_tree (tid size : ℕ) : ∀ (t : CvTree) (k i j d : ℕ) (st s0 : List (ℕ × ℤ)), Depths t k →
    i + t.size ≤ size → Cv.popTo k st = some ((j, (d : ℤ)), s0) →
    ∃ st', Cv.edgesText tid size i t.saved st = some (linesOf tid (codes t k i (d, j)), st') ∧
      (∀ k' : ℤ, k' ≤ k → Cv.popTo k' st' = Cv.popTo k' ((j, (d : ℤ)) :: s0)) ∧
      (i + t.size = size → match t with
        | .leaf _ => st' = (j, (d : ℤ)) :: s0
        | .split _ _ _ => ∃ x s, st' = x :: s ∧ i ≤ x.1)
  | .leaf n, k, i, j, d, st, s0, hd, hs, hp => by
    have hn : Cv.depthOf n = some (k : ℤ) := by simpa using hd [] n rfl
    refine ⟨_, edgesText_one tid size i n k hn j d st s0 hp, ?_, ?_⟩
    · intro k' hk'
      exact popTo_push k' hk' _
    · intro h
      simp only [CvTree.size] at h
      simp only
      rw [if_neg (by omega)]
  | .split n l r, k, i, j, d, st, s0, hd, hs, hp => by
    have hn : Cv.depthOf n = some (k : ℤ) := by simpa using hd [] n rfl
    simp only [CvTree.size] at hs
    have hlp := size_pos l
    have h1 := edgesText_one tid size i n k hn j d st s0 hp
    rw [if_pos (by omega)] at h1
    have hp1 : Cv.popTo ((k + 1 : ℕ) : ℤ) ((i, (k : ℤ)) :: (j, (d : ℤ)) :: s0) =
        some ((i, (k : ℤ)), (j, (d : ℤ)) :: s0) := by
      unfold Cv.popTo
      rw [if_neg (by push_cast; omega)]
    obtain ⟨s2, h2, h2', -⟩ := edgesText_tree tid size l (k + 1) (i + 1) i k _ _ hd.left (by omega) hp1
    have hp2 : Cv.popTo ((k + 1 : ℕ) : ℤ) s2 = some ((i, (k : ℤ)), (j, (d : ℤ)) :: s0) := by
      rw [h2' _ le_rfl, hp1]
    obtain ⟨s3, h3, h3', h3''⟩ :=
      edgesText_tree tid size r (k + 1) (i + 1 + l.size) i k _ _ hd.right (by omega) hp2
    refine ⟨s3, ?_, ?_, ?_⟩
    · have e : CvTree.saved (.split n l r) = [n] ++ (l.saved ++ r.saved) := rfl
      rw [e, edgesText_append, h1, Option.bind_some, edgesText_append]
      simp only [List.length_singleton]
      rw [h2, Option.bind_some]
      simp only [saved_length]
      rw [h3, Option.map_some, Option.map_some]
      simp only [codes]
      rw [← linesOf_append, ← linesOf_append]
      rfl
    · intro k' hk'
      rw [h3' k' (by push_cast; omega)]
      conv_lhs => unfold Cv.popTo
      rw [if_pos (by omega)]
    · intro he
      simp only [CvTree.size] at he
      have := h3'' (by omega)
      cases r with
      | leaf m => exact ⟨_, _, this, le_rfl⟩
      | split m rl rr =>
        obtain ⟨x, s, e, hx⟩ := this
        exact ⟨x, s, e, by omega⟩

/-- What the loop does for a whole tree. -/
theorem edgesText_root (tid : ℕ) (t : CvTree) (h : Depths t 0) :
    ∃ st', Cv.edgesText tid t.saved.length 1 (t.saved.drop 1) [(0, 0)] = some (linesOf tid (rootCodes t), st') ∧
      ∃ top s, st' = top :: s ∧ (top = (0, 0) ↔ t.RightIsLeaf) := by
  cases t with
  | leaf n => exact ⟨_, rfl, (0, 0), [], rfl, by simp [CvTree.RightIsLeaf]⟩
  | split n l r =>
    rw [saved_length]
    have hp1 : Cv.popTo ((1 : ℕ) : ℤ) [(0, 0)] = some ((0, ((0 : ℕ) : ℤ)), []) := rfl
    obtain ⟨s2, h2, h2', -⟩ := edgesText_tree tid (CvTree.size (.split n l r)) l 1 1 0 0 _ _ h.left
      (by simp [CvTree.size]; omega) hp1
    have hp2 : Cv.popTo ((1 : ℕ) : ℤ) s2 = some ((0, ((0 : ℕ) : ℤ)), []) := by
      rw [h2' _ le_rfl]; rfl
    obtain ⟨s3, h3, -, h3'⟩ := edgesText_tree tid (CvTree.size (.split n l r)) r 1 (1 + l.size) 0 0 _ _ h.right
      (by simp [CvTree.size]; omega) hp2
    have h3' := h3' (by simp [CvTree.size]; omega)
    have e : (CvTree.saved (.split n l r)).drop 1 = l.saved ++ r.saved := rfl
    refine ⟨s3, ?_, ?_⟩
    · rw [e, edgesText_append, h2, Option.bind_some]
      simp only [saved_length]
      rw [h3, Option.map_some]
      simp only [rootCodes]
      rw [linesOf_append]
    · cases r with
      | leaf m => exact ⟨_, _, h3', by simp [CvTree.RightIsLeaf]⟩
      | split m rl rr =>
        obtain ⟨x, s, e, hx⟩ := h3'
        refine ⟨x, s, e, ?_⟩
        simp only [CvTree.RightIsLeaf, iff_false]
        rintro rfl
        simp at hx

/-! ## Labels -/

mutual

theorem parseNode_plain (py : CvText) : ∀ n : CvNode, Plain n → Cv.parseNode py n = some (shown py n)
  | .map l, h => by
    unfold Cv.parseNode shown
    rw [parseFields_plain py l (by simpa [Plain] using h)]; rfl
  | .seq l, h => by
    unfold Cv.parseNode shown
    rw [parseItems_plain py l (by simpa [Plain] using h)]; rfl
  | .int _, _ => by unfold Cv.parseNode shown; rfl
  | .real _, _ => by unfold Cv.parseNode shown; rfl
  | .str _, h => by simp [Plain] at h
  | .empty, h => by simp [Plain] at h

theorem parseFields_plain (py : CvText) : ∀ l : List (List Char × CvNode), PlainFields l →
    Cv.parseFields py l = some (shownFields py l).flatten
  | [], _ => by unfold Cv.parseFields shownFields; rfl
  | (k, n) :: l, h => by
    simp only [PlainFields] at h
    unfold Cv.parseFields shownFields
    rw [parseNode_plain py n h.2.1, parseFields_plain py l h.2.2]
    simp

theorem parseItems_plain (py : CvText) : ∀ l : List CvNode, PlainItems l →
    Cv.parseItems py l = some (shownItems py l)
  | [], _ => by unfold Cv.parseItems shownItems; rfl
  | n :: l, h => by
    simp only [PlainItems] at h
    unfold Cv.parseItems shownItems
    rw [parseNode_plain py n h.1, parseItems_plain py l h.2]
    simp

end

theorem noQ_int (n : ℤ) : NoQ (fmtInt n) := by
  have hd : ∀ c, isDigit c = true → c ≠ '"' ∧ c ≠ '\\' := by
    intro c hc; constructor <;> rintro rfl <;> revert hc <;> decide
  unfold fmtInt
  split
  · refine ⟨fun h => ?_, fun h => ?_⟩
    · rcases List.mem_cons.1 h with h | h
      · revert h; decide
      · exact (hd _ (isDigit_of_mem_natDigits h)).1 rfl
    · rcases List.mem_cons.1 h with h | h
      · revert h; decide
      · exact (hd _ (isDigit_of_mem_natDigits h)).2 rfl
  · exact ⟨fun h => (hd _ (isDigit_of_mem_natDigits h)).1 rfl, fun h => (hd _ (isDigit_of_mem_natDigits h)).2 rfl⟩

mutual

theorem noQ_shown {py : CvText} (hq : QuietCv py) : ∀ n : CvNode, Plain n → NoQ (shown py n)
  | .map l, h => by
    unfold shown
    exact ((noQ_str "{\n" (by decide)).append (.flatten (noQ_shownFields hq l (by simpa [Plain] using h)))).append
      (noQ_str " }\n" (by decide))
  | .seq l, h => by
    unfold shown
    exact ((noQ_str "[ " (by decide)).append (.intercalate (noQ_str ", " (by decide))
      (noQ_shownItems hq l (by simpa [Plain] using h)))).append (noQ_str " ]\n" (by decide))
  | .int n, _ => by unfold shown; exact noQ_int n
  | .real v, _ => by unfold shown; exact hq v
  | .str _, h => by simp [Plain] at h
  | .empty, h => by simp [Plain] at h

theorem noQ_shownFields {py : CvText} (hq : QuietCv py) : ∀ l : List (List Char × CvNode), PlainFields l →
    ∀ u ∈ shownFields py l, NoQ u
  | [], _, u, hu => by unfold shownFields at hu; simp at hu
  | (k, n) :: l, h, u, hu => by
    simp only [PlainFields] at h
    unfold shownFields at hu
    rcases List.mem_cons.1 hu with rfl | hu
    · exact (((show NoQ k from h.1).append (noQ_str ": " (by decide))).append (noQ_shown hq n h.2.1)).append
        (noQ_str ",\n" (by decide))
    · exact noQ_shownFields hq l h.2.2 u hu

theorem noQ_shownItems {py : CvText} (hq : QuietCv py) : ∀ l : List CvNode, PlainItems l →
    ∀ u ∈ shownItems py l, NoQ u
  | [], _, u, hu => by unfold shownItems at hu; simp at hu
  | n :: l, h, u, hu => by
    simp only [PlainItems] at h
    unfold shownItems at hu
    rcases List.mem_cons.1 hu with rfl | hu
    · exact noQ_shown hq n h.1
    · exact noQ_shownItems hq l h.2 u hu

end

/-! ## The nodes -/

/-- The nodes of a part of a tree with depth and number. -/
def places : CvTree → ℕ → ℕ → List ((ℕ × ℕ) × CvNode)
  | .leaf n, k, i => [((k, i), n)]
  | .split n l r, k, i => ((k, i), n) :: (places l (k + 1) (i + 1) ++ places r (k + 1) (i + 1 + l.size))

/-- The text of a node. -/
def nodeLine (a label : List Char) : List Char := a ++ (" [ label=\"".toList ++ (label ++ "\" ];\n".toList))

/-- The text of nodes. -/
def nodeLines (py : CvText) (tid : ℕ) (l : List ((ℕ × ℕ) × CvNode)) : List Char :=
  (l.map fun x => nodeLine (cvName tid x.1.1 x.1.2) (shown py x.2)).flatten

theorem nodeLines_append (py : CvText) (tid : ℕ) (l l') :
    nodeLines py tid (l ++ l') = nodeLines py tid l ++ nodeLines py tid l' := by simp [nodeLines]

theorem nodesText_cons (py : CvText) (tid i : ℕ) (n : CvNode) (l : List CvNode) :
    Cv.nodesText py tid i (n :: l) = (Cv.depthOf n).bind fun depth => (Cv.parseNode py n).bind fun u =>
      (Cv.nodesText py tid (i + 1) l).bind fun r =>
        some (Cv.nameOf tid depth i ++ " [ label=\"".toList ++ u ++ "\" ];\n".toList ++ r) := rfl

theorem nodesText_append (py : CvText) (tid : ℕ) : ∀ (l l' : List CvNode) (i : ℕ),
    Cv.nodesText py tid i (l ++ l') = (Cv.nodesText py tid i l).bind fun x =>
      (Cv.nodesText py tid (i + l.length) l').map fun y => x ++ y
  | [], l', i => by
    simp only [List.nil_append, Cv.nodesText, Option.bind_some, List.length_nil, Nat.add_zero]
    cases Cv.nodesText py tid i l' <;> rfl
  | n :: l, l', i => by
    have ih := nodesText_append py tid l l' (i + 1)
    have e : i + 1 + l.length = i + (n :: l).length := by simp; omega
    rw [e] at ih
    rw [List.cons_append, nodesText_cons, nodesText_cons, ih]
    cases Cv.depthOf n with
    | none => rfl
    | some d =>
      cases Cv.parseNode py n with
      | none => rfl
      | some u =>
        cases Cv.nodesText py tid (i + 1) l with
        | none => rfl
        | some v =>
          cases Cv.nodesText py tid (i + (n :: l).length) l' with
          | none => rfl
          | some w => simp

theorem nodesText_one (py : CvText) (tid i : ℕ) (n : CvNode) (k : ℕ) (hn : Cv.depthOf n = some (k : ℤ))
    (hp : Plain n) : Cv.nodesText py tid i [n] = some (nodeLines py tid [((k, i), n)]) := by
  rw [nodesText_cons]
  simp only [hn, parseNode_plain py n hp, Option.bind_some, Cv.nodesText, nameOf_eq]
  simp [nodeLines, nodeLine]

/-- Nothing in the tree is a string or missing. -/
def AllPlain (t : CvTree) : Prop := ∀ p n, t.nodeAt p = some n → Plain n

theorem AllPlain.left {n l r} (h : AllPlain (.split n l r)) : AllPlain l :=
  fun p m hm => h (false :: p) m (by simpa [CvTree.nodeAt] using hm)

theorem AllPlain.right {n l r} (h : AllPlain (.split n l r)) : AllPlain r :=
  fun p m hm => h (true :: p) m (by simpa [CvTree.nodeAt] using hm)

theorem nodesText_tree (py : CvText) (tid : ℕ) : ∀ (t : CvTree) (k i : ℕ), Depths t k → AllPlain t →
    Cv.nodesText py tid i t.saved = some (nodeLines py tid (places t k i))
  | .leaf n, k, i, hd, hp => nodesText_one py tid i n k (by simpa using hd [] n rfl) (hp [] n rfl)
  | .split n l r, k, i, hd, hp => by
    have e : CvTree.saved (.split n l r) = [n] ++ (l.saved ++ r.saved) := rfl
    rw [e, nodesText_append, nodesText_one py tid i n k (by simpa using hd [] n rfl) (hp [] n rfl),
      Option.bind_some, nodesText_append]
    simp only [List.length_singleton, saved_length]
    rw [nodesText_tree py tid l (k + 1) (i + 1) hd.left hp.left, Option.bind_some,
      nodesText_tree py tid r (k + 1) (i + 1 + l.size) hd.right hp.right, Option.map_some, Option.map_some]
    simp only [places]
    rw [← nodeLines_append, ← nodeLines_append]
    rfl

/-! ## Reading the drawing -/

theorem ident_cvName (tid k i : ℕ) : Ident (cvName tid k i) := by
  have hd : ∀ n : ℕ, ∀ c ∈ fmtInt n, isIdent c = true := fun n c hc => CSrc.isIdent_of_isDigit (fmtInt_digits n c hc)
  exact Ident.append (.lit (.append (.lit (.append (ident_lit (by decide) ⟨_, _, rfl, by decide⟩) (hd tid))
    (by decide)) (hd k)) (by decide)) (hd i)

theorem ident_root : Ident "root".toList := ident_lit (by decide) ⟨_, _, rfl, by decide⟩

theorem dots_line {a b : List Char} (ha : Ident a) (hb : Ident b) : Dots (edgeLine a b) [.edge a b] := by
  intro fuel r l hf hr
  obtain ⟨n, rfl⟩ : ∃ n, fuel = n + 1 := ⟨fuel - 1, by omega⟩
  have e : edgeLine a b ++ r = a ++ ' ' :: '-' :: '>' :: ' ' :: (b ++ ';' :: '\n' :: r) := by
    simp [edgeLine]
  rw [e] at hf ⊢
  unfold Spec.Dot.readStmts
  have h1 : sym ['}'] (a ++ ' ' :: '-' :: '>' :: ' ' :: (b ++ ';' :: '\n' :: r)) = none := sym_ident ha (by decide)
  have h2 : Spec.Dot.readId (a ++ ' ' :: '-' :: '>' :: ' ' :: (b ++ ';' :: '\n' :: r)) =
      some (a, ' ' :: '-' :: '>' :: ' ' :: (b ++ ';' :: '\n' :: r)) :=
    readId_ident (ws := []) YamlText.blank_nil ha (by decide)
  have h3 : sym ['-', '>'] (' ' :: '-' :: '>' :: ' ' :: (b ++ ';' :: '\n' :: r)) =
      some (' ' :: (b ++ ';' :: '\n' :: r)) := rfl
  have h4 : Spec.Dot.readId (' ' :: (b ++ ';' :: '\n' :: r)) = some (b, ';' :: '\n' :: r) :=
    readId_ident YamlText.blank_sp hb (by decide)
  have h5 : sym [';'] (';' :: '\n' :: r) = some ('\n' :: r) := rfl
  rw [h1]
  simp only [h2, h3, h4, h5, Option.bind_eq_bind, Option.bind_some, Option.map_some, Option.getD_some, readStmts_nl]
  simp only [List.length_append, List.length_cons] at hf
  rw [hr n (by omega)]
  rfl

theorem dots_nodeLine {a label : List Char} (ha : Ident a) (h : NoQ label) :
    Dots (nodeLine a label) [.node a [("label".toList, label)]] := by
  intro fuel r l hf hr
  obtain ⟨n, rfl⟩ : ∃ n, fuel = n + 1 := ⟨fuel - 1, by omega⟩
  have e : nodeLine a label ++ r = a ++ ' ' :: '[' :: (" label=\"".toList ++
      (label ++ '"' :: ' ' :: ']' :: ';' :: '\n' :: r)) := by
    simp [nodeLine]
  rw [e] at hf ⊢
  unfold Spec.Dot.readStmts
  rw [sym_ident ha (by decide)]
  have k1 := readId_ident (ws := []) YamlText.blank_nil ha (d := ' ') (by decide) (r := '[' :: (" label=\"".toList ++
      (label ++ '"' :: ' ' :: ']' :: ';' :: '\n' :: r)))
  rw [List.nil_append] at k1
  have k2 : ∀ u : List Char, sym ['-', '>'] (' ' :: '[' :: u) = none := fun _ => rfl
  have k3 : ∀ u : List Char, sym ['['] (' ' :: '[' :: u) = some u := fun _ => rfl
  have k5 : ∀ u : List Char, sym ['='] ('=' :: u) = some u := fun _ => rfl
  have k8 : ∀ u : List Char, Spec.Dot.readId (" label=\"".toList ++ u) = some ("label".toList, '=' :: '"' :: u) :=
    fun _ => rfl
  have k9 : ∀ u : List Char, Spec.Dot.readWord ('"' :: (label ++ '"' :: u)) = some (label, u) := by
    intro u
    have e : sym ['"'] ('"' :: (label ++ '"' :: u)) = some (label ++ '"' :: u) := rfl
    unfold Spec.Dot.readWord
    rw [e]
    simp only [(takeWhile_label h.1).1, (takeWhile_label h.1).2, h.2, if_false]
  have k10 : ∀ u : List Char, sym [','] (' ' :: ']' :: u) = none := fun _ => rfl
  have k11 : ∀ u : List Char, sym [']'] (' ' :: ']' :: u) = some u := fun _ => rfl
  have k12 : ∀ u : List Char, sym [';'] (';' :: u) = some u := fun _ => rfl
  have k : ∀ n u, Spec.Dot.readAttrs (n + 1) (" label=\"".toList ++ (label ++ '"' :: ' ' :: ']' :: u)) =
      some ([("label".toList, label)], u) := by
    intro n u
    unfold Spec.Dot.readAttrs
    simp only [k8, k5, k9, k10, k11, Option.bind_eq_bind, Option.bind_some, Option.map_some]
  simp only [k1, k2, k3, Option.bind_eq_bind, Option.bind_some, k, k12, Option.getD_some, readStmts_nl]
  simp only [List.length_append, List.length_cons] at hf
  rw [hr n (by omega)]
  rfl

theorem read_digraph' {u : List Char} {g : List DotStmt} (h : Dots u g) :
    Spec.Dot.read ("digraph G {".toList ++ u ++ "\n}".toList) = some g := by
  have k1 : ∀ v : List Char, word "digraph".toList ("digraph G {".toList ++ v) = some (" G {".toList ++ v) :=
    fun _ => rfl
  have k2 : ∀ v : List Char, Spec.Dot.readId (" G {".toList ++ v) = some ("G".toList, " {".toList ++ v) := fun _ => rfl
  have k3 : ∀ v : List Char, sym ['{'] (" {".toList ++ v) = some v := fun _ => rfl
  unfold Spec.Dot.read
  rw [List.append_assoc]
  simp only [k1, k2, k3, Option.bind_eq_bind, Option.bind_some]
  have := h ((u ++ "\n}".toList).length + 1) "\n}".toList [] (by simp) (by
    intro fuel hf
    obtain ⟨n, rfl⟩ : ∃ n, fuel = n + 1 := ⟨fuel - 1, by omega⟩
    rfl)
  rw [this, List.append_nil]

/-- The statements for edges. -/
def edgeStmts (tid : ℕ) (l : List ((ℕ × ℕ) × (ℕ × ℕ))) : List DotStmt :=
  l.map fun x => .edge (cvName tid x.1.1 x.1.2) (cvName tid x.2.1 x.2.2)

/-- The statements for nodes. -/
def nodeStmts (py : CvText) (tid : ℕ) (l : List ((ℕ × ℕ) × CvNode)) : List DotStmt :=
  l.map fun x => .node (cvName tid x.1.1 x.1.2) [("label".toList, shown py x.2)]

theorem dots_edges (tid : ℕ) : ∀ l, Dots (linesOf tid l) (edgeStmts tid l)
  | [] => .nil
  | x :: l => by
    have := (dots_line (ident_cvName tid x.1.1 x.1.2) (ident_cvName tid x.2.1 x.2.2)).append (dots_edges tid l)
    simpa [linesOf, edgeStmts] using this

theorem dots_nodes {py : CvText} (hq : QuietCv py) (tid : ℕ) : ∀ l : List ((ℕ × ℕ) × CvNode),
    (∀ x ∈ l, Plain x.2) → Dots (nodeLines py tid l) (nodeStmts py tid l)
  | [], _ => .nil
  | x :: l, h => by
    have := (dots_nodeLine (ident_cvName tid x.1.1 x.1.2) (noQ_shown hq x.2 (h x (by simp)))).append
      (dots_nodes hq tid l fun y hy => h y (by simp [hy]))
    simpa [nodeLines, nodeStmts] using this

/-! ## Places and numbers -/

theorem mem_places {m : CvNode} {c : ℕ × ℕ} : ∀ {t : CvTree} {k i : ℕ}, (c, m) ∈ places t k i ↔
    ∃ p, t.nodeAt p = some m ∧ c = (k + p.length, i + t.number p)
  | .leaf n, k, i => by
    simp only [places, List.mem_singleton, Prod.mk.injEq]
    constructor
    · rintro ⟨rfl, rfl⟩; exact ⟨[], rfl, rfl⟩
    · rintro ⟨p, hp, rfl⟩
      cases p with
      | nil => simp only [CvTree.nodeAt, Option.some.injEq] at hp; subst hp; simp [CvTree.number]
      | cons d p => simp [CvTree.nodeAt] at hp
  | .split n l r, k, i => by
    simp only [places, List.mem_cons, List.mem_append, mem_places (t := l), mem_places (t := r), Prod.mk.injEq]
    constructor
    · rintro (⟨rfl, rfl⟩ | ⟨p, hp, rfl⟩ | ⟨p, hp, rfl⟩)
      · exact ⟨[], rfl, by simp [CvTree.number]⟩
      · exact ⟨false :: p, by simpa [CvTree.nodeAt] using hp, by simp [CvTree.number]; omega⟩
      · exact ⟨true :: p, by simpa [CvTree.nodeAt] using hp, by simp [CvTree.number]; omega⟩
    · rintro ⟨p, hp, rfl⟩
      cases p with
      | nil =>
        simp only [CvTree.nodeAt, Option.some.injEq] at hp
        subst hp; left; simp [CvTree.number]
      | cons d p =>
        right
        cases d with
        | false => left; exact ⟨p, by simpa [CvTree.nodeAt] using hp, by simp [CvTree.number]; omega⟩
        | true => right; exact ⟨p, by simpa [CvTree.nodeAt] using hp, by simp [CvTree.number]; omega⟩

theorem range'_split (i a b : ℕ) : List.range' i (a + b + 1) =
    i :: (List.range' (i + 1) a ++ List.range' (i + 1 + a) b) := by
  rw [show a + b + 1 = (a + b) + 1 from rfl, List.range'_succ, List.range'_append_1]

theorem places_numbers : ∀ (t : CvTree) (k i : ℕ), (places t k i).map (fun x => x.1.2) = List.range' i t.size
  | .leaf n, k, i => rfl
  | .split n l r, k, i => by
    simp only [places, List.map_cons, List.map_append, places_numbers l, places_numbers r, CvTree.size,
      range'_split]

theorem codes_numbers : ∀ (t : CvTree) (k i : ℕ) (pa : ℕ × ℕ),
    (codes t k i pa).map (fun x => x.2.2) = List.range' i t.size
  | .leaf n, k, i, pa => rfl
  | .split n l r, k, i, pa => by
    simp only [codes, List.map_cons, List.map_append, codes_numbers l, codes_numbers r, CvTree.size,
      range'_split]

theorem rootCodes_numbers (t : CvTree) : ((rootCodes t).map fun x => x.2.2).Nodup := by
  cases t with
  | leaf n => simp [rootCodes]
  | split n l r =>
    simp only [rootCodes, List.map_append, codes_numbers, List.range'_append_1]
    exact List.nodup_range'

theorem mem_codes {x : (ℕ × ℕ) × (ℕ × ℕ)} : ∀ {t : CvTree} {k i : ℕ} {pa : ℕ × ℕ}, x ∈ codes t k i pa ↔
    x = (pa, (k, i)) ∨ ∃ p d n, t.nodeAt (p ++ [d]) = some n ∧ x.1 = (k + p.length, i + t.number p) ∧
      x.2 = (k + p.length + 1, i + t.number (p ++ [d]))
  | .leaf n, k, i, pa => by
    simp only [codes, List.mem_singleton]
    constructor
    · exact .inl
    · rintro (h | ⟨p, d, m, hm, -⟩)
      · exact h
      · cases p <;> simp [CvTree.nodeAt] at hm
  | .split n l r, k, i, pa => by
    simp only [codes, List.mem_cons, List.mem_append, mem_codes (t := l), mem_codes (t := r)]
    refine or_congr_right ?_
    constructor
    · rintro ((rfl | ⟨p, d, m, hm, h1, h2⟩) | rfl | ⟨p, d, m, hm, h1, h2⟩)
      · have : ∃ m, l.nodeAt [] = some m := by cases l <;> exact ⟨_, rfl⟩
        obtain ⟨m, hm⟩ := this
        exact ⟨[], false, m, by simpa [CvTree.nodeAt] using hm, by simp [CvTree.number],
          by cases l <;> simp [CvTree.number]⟩
      · exact ⟨false :: p, d, m, by simpa [CvTree.nodeAt] using hm, by rw [h1]; simp [CvTree.number]; omega,
          by rw [h2]; simp [CvTree.number]; omega⟩
      · have : ∃ m, r.nodeAt [] = some m := by cases r <;> exact ⟨_, rfl⟩
        obtain ⟨m, hm⟩ := this
        exact ⟨[], true, m, by simpa [CvTree.nodeAt] using hm, by simp [CvTree.number],
          by cases r <;> simp [CvTree.number] <;> omega⟩
      · exact ⟨true :: p, d, m, by simpa [CvTree.nodeAt] using hm, by rw [h1]; simp [CvTree.number]; omega,
          by rw [h2]; simp [CvTree.number]; omega⟩
    · rintro ⟨p, d, m, hm, h1, h2⟩
      cases p with
      | nil =>
        cases d with
        | false =>
          left; left
          refine Prod.ext ?_ ?_
          · rw [h1]; simp [CvTree.number]
          · rw [h2]; cases l <;> simp [CvTree.number]
        | true =>
          right; left
          refine Prod.ext ?_ ?_
          · rw [h1]; simp [CvTree.number]
          · rw [h2]; cases r <;> simp [CvTree.number] <;> omega
      | cons e p =>
        cases e with
        | false =>
          left; right
          exact ⟨p, d, m, by simpa [CvTree.nodeAt] using hm, by rw [h1]; simp [CvTree.number]; omega,
            by rw [h2]; simp [CvTree.number]; omega⟩
        | true =>
          right; right
          exact ⟨p, d, m, by simpa [CvTree.nodeAt] using hm, by rw [h1]; simp [CvTree.number]; omega,
            by rw [h2]; simp [CvTree.number]; omega⟩

theorem mem_rootCodes {x : (ℕ × ℕ) × (ℕ × ℕ)} {t : CvTree} : x ∈ rootCodes t ↔
    ∃ p d n, t.nodeAt (p ++ [d]) = some n ∧ x.1 = (p.length, t.number p) ∧
      x.2 = (p.length + 1, t.number (p ++ [d])) := by
  -- the codes of the whole tree are those of the root with an edge to it that has the number 0
  have hne : ∀ p d n, t.nodeAt (p ++ [d]) = some n → t.number (p ++ [d]) ≠ 0 := by
    intro p d n hn
    cases t with
    | leaf m => cases p <;> simp [CvTree.nodeAt] at hn
    | split m l r =>
      cases p with
      | nil => cases d <;> simp [CvTree.number]
      | cons e p => cases e <;> simp [CvTree.number]
  have h := mem_codes (x := x) (t := t) (k := 0) (i := 0) (pa := (0, 0))
  have h' : x ∈ codes t 0 0 (0, 0) ↔ x = ((0, 0), (0, 0)) ∨ x ∈ rootCodes t := by
    cases t with
    | leaf n => simp [codes, rootCodes]
    | split n l r => simp [codes, rootCodes]
  have h0 : ∀ y ∈ rootCodes t, y.2.2 ≠ 0 := by
    intro y hy
    have hm : y.2.2 ∈ (rootCodes t).map fun x => x.2.2 := List.mem_map_of_mem hy
    cases t with
    | leaf n => simp [rootCodes] at hy
    | split n l r =>
      simp only [rootCodes, List.map_append, codes_numbers, List.range'_append_1, List.mem_range'_1] at hm
      omega
  constructor
  · intro hx
    rcases h.1 (h'.2 (.inr hx)) with rfl | ⟨p, d, n, hn, h1, h2⟩
    · exact absurd rfl (h0 _ hx)
    · exact ⟨p, d, n, hn, by simpa using h1, by simpa using h2⟩
  · rintro ⟨p, d, n, hn, h1, h2⟩
    rcases h'.1 (h.2 (.inr ⟨p, d, n, hn, by simpa using h1, by simpa using h2⟩)) with rfl | hx
    · exact absurd (congrArg Prod.snd h2).symm (hne p d n hn)
    · exact hx

/-! ## Names -/

theorem digits_split {u u' r r' : List Char} (h : ∀ c ∈ u, isDigit c = true) (h' : ∀ c ∈ u', isDigit c = true)
    (hr : r = [] ∨ ∃ c s, r = c :: s ∧ isDigit c = false) (hr' : r' = [] ∨ ∃ c s, r' = c :: s ∧ isDigit c = false)
    (e : u ++ r = u' ++ r') : u = u' ∧ r = r' := by
  have h1 := DotText.takeWhile_digits h hr
  have h2 := DotText.takeWhile_digits h' hr'
  rw [e, h2] at h1
  subst h1
  exact ⟨rfl, List.append_cancel_left e⟩

theorem fmtInt_inj {i j : ℕ} (e : fmtInt i = fmtInt j) : i = j := by
  have h1 := readInt_fmtInt i [] (by simp)
  have h2 := readInt_fmtInt j [] (by simp)
  rw [e, h2] at h1
  simp only [Option.some.injEq, Prod.mk.injEq, and_true] at h1
  omega

theorem cvName_inj {a b c a' b' c' : ℕ} (h : cvName a b c = cvName a' b' c') : a = a' ∧ b = b' ∧ c = c' := by
  unfold cvName at h
  have hd : "_d_".toList = [] ∨ ∃ c s, "_d_".toList = c :: s ∧ isDigit c = false := .inr ⟨_, _, rfl, by decide⟩
  have hn : "_n_".toList = [] ∨ ∃ c s, "_n_".toList = c :: s ∧ isDigit c = false := .inr ⟨_, _, rfl, by decide⟩
  have hd0 : "_d_".toList ≠ [] := by decide
  have hn0 : "_n_".toList ≠ [] := by decide
  generalize "_d_".toList = x at *
  generalize "_n_".toList = y at *
  have app : ∀ {x : List Char}, x ≠ [] → (x = [] ∨ ∃ c s, x = c :: s ∧ isDigit c = false) → ∀ r,
      x ++ r = [] ∨ ∃ c s, x ++ r = c :: s ∧ isDigit c = false := by
    rintro x h0 (h | ⟨c, s, rfl, hc⟩) r
    · exact absurd h h0
    · exact .inr ⟨c, s ++ r, rfl, hc⟩
  simp only [List.append_assoc] at h
  have h := List.append_cancel_left h
  obtain ⟨e1, h⟩ := digits_split (fmtInt_digits a) (fmtInt_digits a') (app hd0 hd _) (app hd0 hd _) h
  have h := List.append_cancel_left h
  obtain ⟨e2, h⟩ := digits_split (fmtInt_digits b) (fmtInt_digits b') (app hn0 hn _) (app hn0 hn _) h
  have h := List.append_cancel_left h
  exact ⟨fmtInt_inj e1, fmtInt_inj e2, fmtInt_inj h⟩

theorem cvName_ne_root (a b c : ℕ) : cvName a b c ≠ "root".toList := by
  intro h
  have := congrArg List.head? h
  revert this
  have : (cvName a b c).head? = some 't' := rfl
  rw [this]
  decide

/-! ## Whole drawings -/

/-- The statements for one tree. -/
def treeStmts (py : CvText) (i : ℕ) (t : CvTree) : List DotStmt :=
  nodeStmts py i (places t 0 0) ++ (edgeStmts i (rootCodes t) ++ [.edge "root".toList (cvName i 0 0)])

/-- The statements for the trees from number `i` on. -/
def treesStmts (py : CvText) : ℕ → List CvTree → List DotStmt
  | _, [] => []
  | i, t :: ts => treeStmts py i t ++ treesStmts py (i + 1) ts

open Classical in
theorem parseTree_eq (py : CvText) (i : ℕ) {t : CvTree} (hd : t.HasDepths) (hp : AllPlain t) :
    Cv.parseTree py i (.map [("nodes".toList, .seq t.saved)]) =
      if t.RightIsLeaf then some (nodeLines py i (places t 0 0) ++ linesOf i (rootCodes t)) else none := by
  obtain ⟨st, h1, top, s, rfl, h2⟩ := edgesText_root i t (depths_zero hd)
  have e : Cv.getNode (.map [("nodes".toList, .seq t.saved)]) "nodes".toList = some (.seq t.saved) := rfl
  unfold Cv.parseTree
  rw [e]
  simp only [nodesText_tree py i t 0 0 (depths_zero hd) hp, h1, Option.bind_eq_bind, Option.bind_some, h2]

theorem parseTrees_ok (py : CvText) : ∀ (ts : List CvTree) (i : ℕ), (∀ t ∈ ts, t.HasDepths) →
    (∀ t ∈ ts, AllPlain t) → (∀ t ∈ ts, t.RightIsLeaf) → QuietCv py →
    ∃ u, Cv.parseTrees py i (ts.map fun t => .map [("nodes".toList, .seq t.saved)]) = some u ∧
      Dots u (treesStmts py i ts)
  | [], i, _, _, _, _ => ⟨[], rfl, .nil⟩
  | t :: ts, i, hd, hp, hr, hq => by
    obtain ⟨u, hu, hu'⟩ := parseTrees_ok py ts (i + 1) (fun t h => hd t (by simp [h]))
      (fun t h => hp t (by simp [h])) (fun t h => hr t (by simp [h])) hq
    have h1 := parseTree_eq py i (hd t (by simp)) (hp t (by simp))
    rw [if_pos (hr t (by simp))] at h1
    have hpl : ∀ x ∈ places t 0 0, Plain x.2 := by
      intro x hx
      obtain ⟨p, h, -⟩ := mem_places.1 (show (x.1, x.2) ∈ places t 0 0 from hx)
      exact hp t (by simp) p x.2 h
    refine ⟨_, ?_, (Dots.append (dots_nodes hq i _ hpl) (.append (dots_edges i _)
      (dots_line ident_root (ident_cvName i 0 0)))).append hu'⟩
    rw [List.map_cons]
    unfold Cv.parseTrees
    simp only [h1, hu, Option.bind_eq_bind, Option.bind_some]
    have e : Cv.nameOf i 0 0 = cvName i 0 0 := rfl
    rw [e]
    simp [edgeLine]

theorem parseTrees_none (py : CvText) : ∀ (ts : List CvTree) (i : ℕ), (∀ t ∈ ts, t.HasDepths) →
    (∀ t ∈ ts, AllPlain t) → (∃ t ∈ ts, ¬ t.RightIsLeaf) →
    Cv.parseTrees py i (ts.map fun t => .map [("nodes".toList, .seq t.saved)]) = none
  | [], i, _, _, h => by simp at h
  | t :: ts, i, hd, hp, h => by
    have h1 := parseTree_eq py i (hd t (by simp)) (hp t (by simp))
    rw [List.map_cons]
    unfold Cv.parseTrees
    rw [h1]
    by_cases ht : t.RightIsLeaf
    · have h' : ∃ t ∈ ts, ¬ t.RightIsLeaf := by
        obtain ⟨s, hs, hs'⟩ := h
        rcases List.mem_cons.1 hs with rfl | hs
        · exact absurd ht hs'
        · exact ⟨s, hs, hs'⟩
      rw [if_pos ht, parseTrees_none py ts (i + 1) (fun t h => hd t (by simp [h]))
        (fun t h => hp t (by simp [h])) h']
      rfl
    · rw [if_neg ht]; rfl

theorem lookup_trees (before after : List (List Char × CvNode)) (v : CvNode)
    (h : ∀ x ∈ before ++ after, x.1 ≠ "trees".toList) :
    (before ++ ("trees".toList, v) :: after).lookup "trees".toList = some v ∧
    ((before ++ ("trees".toList, v) :: after).filter fun x => x.1 ≠ "trees".toList) = before ++ after := by
  constructor
  · induction before with
    | nil => simp
    | cons x l ih =>
      have hx := h x (by simp)
      rw [List.cons_append]
      obtain ⟨a, b⟩ := x
      rw [List.lookup_cons]
      have : ("trees".toList == a) = false := by
        rw [beq_eq_false_iff_ne]; exact fun e => hx e.symm
      rw [this]
      exact ih fun y hy => h y (by
        rw [List.cons_append]; exact List.mem_cons_of_mem _ hy)
  · rw [List.filter_append, List.filter_cons_of_neg (by simp)]
    rw [← List.filter_append, List.filter_eq_self]
    intro x hx
    simpa using h x hx

theorem draw_ok {py : CvText} (hq : QuietCv py) {before after : List (List Char × CvNode)} {ts : List CvTree}
    (h : Saveable before after ts) (hr : ∀ t ∈ ts, t.RightIsLeaf) :
    ∃ dot, Cv.rfc2dotOpencv py (cvFile before after ts) = some dot ∧ Spec.Dot.read dot =
      some (.node "root".toList (attrs "box" (shown py (.map (before ++ after)))) :: treesStmts py 0 ts) := by
  obtain ⟨u, hu, hu'⟩ := parseTrees_ok py ts 0 h.depths h.plain hr hq
  obtain ⟨h1, h2⟩ := lookup_trees before after (.seq (ts.map fun t => .map [("nodes".toList, .seq t.saved)])) h.other
  have hlab : NoQ (shown py (.map (before ++ after))) := noQ_shown hq _ (by simpa [Plain] using h.settings)
  have hd := (dots_decl (shape := "box") ident_root (ident_lit (by decide) ⟨_, _, rfl, by decide⟩) hlab.1 hlab.2).append hu'
  refine ⟨_, ?_, read_digraph' hd⟩
  unfold Cv.rfc2dotOpencv Cv.parse cvFile
  simp only [h1, h2, parseFields_plain py _ h.settings, hu, Option.bind_eq_bind, Option.bind_some]
  simp [declText, shown]

theorem draw_none (py : CvText) {before after : List (List Char × CvNode)} {ts : List CvTree}
    (h : Saveable before after ts) (hr : ∃ t ∈ ts, ¬ t.RightIsLeaf) :
    Cv.rfc2dotOpencv py (cvFile before after ts) = none := by
  have hu := parseTrees_none py ts 0 h.depths h.plain hr
  obtain ⟨h1, h2⟩ := lookup_trees before after (.seq (ts.map fun t => .map [("nodes".toList, .seq t.saved)])) h.other
  unfold Cv.rfc2dotOpencv Cv.parse cvFile
  simp only [h1, h2, parseFields_plain py _ h.settings, hu, Option.bind_eq_bind, Option.bind_some, Option.bind_none]

theorem mem_treesStmts (py : CvText) (x : DotStmt) : ∀ (ts : List CvTree) (i : ℕ), x ∈ treesStmts py i ts ↔
    ∃ j t, ts[j]? = some t ∧ x ∈ treeStmts py (i + j) t
  | [], i => by simp [treesStmts]
  | t :: ts, i => by
    rw [treesStmts, List.mem_append, mem_treesStmts py x ts (i + 1)]
    constructor
    · rintro (h | ⟨j, s, hs, h⟩)
      · exact ⟨0, t, rfl, h⟩
      · exact ⟨j + 1, s, by simpa using hs, by rwa [show i + (j + 1) = i + 1 + j by omega]⟩
    · rintro ⟨j, s, hs, h⟩
      cases j with
      | zero => simp only [List.getElem?_cons_zero, Option.some.injEq] at hs; subst hs; exact .inl h
      | succ j => exact .inr ⟨j, s, by simpa using hs, by rwa [show i + (j + 1) = i + 1 + j by omega] at h⟩

theorem nodesOf_treeStmts (py : CvText) (i : ℕ) (t : CvTree) : nodesOf (treeStmts py i t) =
    (places t 0 0).map fun x => cvName i x.1.1 x.1.2 := by
  unfold treeStmts
  rw [nodesOf_append, nodesOf_append]
  have h1 : ∀ l, nodesOf (nodeStmts py i l) = l.map fun x => cvName i x.1.1 x.1.2 := by
    intro l; induction l with
    | nil => rfl
    | cons x l ih => simp only [nodeStmts, nodesOf, List.map_cons, List.filterMap_cons] at ih ⊢; rw [ih]
  have h2 : ∀ l, nodesOf (edgeStmts i l) = [] := by
    intro l; induction l with
    | nil => rfl
    | cons x l ih => simp only [edgeStmts, nodesOf, List.map_cons, List.filterMap_cons] at ih ⊢; rw [ih]
  rw [h1, h2]
  simp [nodesOf]

theorem edgesOf_treeStmts (py : CvText) (i : ℕ) (t : CvTree) : edgesOf (treeStmts py i t) =
    ((rootCodes t).map fun x => (cvName i x.1.1 x.1.2, cvName i x.2.1 x.2.2)) ++
      [("root".toList, cvName i 0 0)] := by
  unfold treeStmts
  rw [edgesOf_append, edgesOf_append]
  have h1 : ∀ l, edgesOf (nodeStmts py i l) = [] := by
    intro l; induction l with
    | nil => rfl
    | cons x l ih => simp only [nodeStmts, edgesOf, List.map_cons, List.filterMap_cons] at ih ⊢; rw [ih]
  have h2 : ∀ l, edgesOf (edgeStmts i l) = l.map fun x => (cvName i x.1.1 x.1.2, cvName i x.2.1 x.2.2) := by
    intro l; induction l with
    | nil => rfl
    | cons x l ih => simp only [edgeStmts, edgesOf, List.map_cons, List.filterMap_cons] at ih ⊢; rw [ih]
  rw [h1, h2]
  simp [edgesOf]

theorem nodup_nodes (py : CvText) : ∀ (ts : List CvTree) (i : ℕ), (nodesOf (treesStmts py i ts)).Nodup ∧
    ∀ a ∈ nodesOf (treesStmts py i ts), ∃ j k n, i ≤ j ∧ a = cvName j k n
  | [], i => by simp [treesStmts, nodesOf]
  | t :: ts, i => by
    obtain ⟨h1, h2⟩ := nodup_nodes py ts (i + 1)
    rw [treesStmts, nodesOf_append, nodesOf_treeStmts]
    refine ⟨List.nodup_append.2 ⟨?_, h1, ?_⟩, ?_⟩
    · have hn : ((places t 0 0).map fun x => x.1.2).Nodup := by
        rw [places_numbers]; exact List.nodup_range'
      rw [List.nodup_map_iff_inj_on hn.of_map]
      intro x hx y hy e
      exact List.inj_on_of_nodup_map hn hx hy (cvName_inj e).2.2
    · intro a ha b hb
      obtain ⟨x, -, rfl⟩ := List.mem_map.1 ha
      obtain ⟨j, k, n, hj, rfl⟩ := h2 b hb
      intro e
      have := (cvName_inj e).1
      omega
    · intro a ha
      rcases List.mem_append.1 ha with ha | ha
      · obtain ⟨x, -, rfl⟩ := List.mem_map.1 ha
        exact ⟨i, _, _, le_rfl, rfl⟩
      · obtain ⟨j, k, n, hj, e⟩ := h2 a ha
        exact ⟨j, k, n, by omega, e⟩

theorem nodup_edges (py : CvText) : ∀ (ts : List CvTree) (i : ℕ), (edgesOf (treesStmts py i ts)).Nodup ∧
    ∀ a ∈ edgesOf (treesStmts py i ts), ∃ j k n, i ≤ j ∧ a.2 = cvName j k n
  | [], i => by simp [treesStmts, edgesOf]
  | t :: ts, i => by
    obtain ⟨h1, h2⟩ := nodup_edges py ts (i + 1)
    rw [treesStmts, edgesOf_append, edgesOf_treeStmts]
    refine ⟨List.nodup_append.2 ⟨List.nodup_append.2 ⟨?_, by simp, ?_⟩, h1, ?_⟩, ?_⟩
    · have hn := rootCodes_numbers t
      rw [List.nodup_map_iff_inj_on hn.of_map]
      intro x hx y hy e
      exact List.inj_on_of_nodup_map hn hx hy (cvName_inj (congrArg Prod.snd e)).2.2
    · intro a ha b hb
      obtain ⟨x, -, rfl⟩ := List.mem_map.1 ha
      rw [List.mem_singleton] at hb
      subst hb
      intro e
      exact cvName_ne_root _ _ _ (congrArg Prod.fst e)
    · intro a ha b hb
      obtain ⟨j, k, n, hj, e'⟩ := h2 b hb
      intro e
      rw [← e] at e'
      rcases List.mem_append.1 ha with ha | ha
      · obtain ⟨x, -, rfl⟩ := List.mem_map.1 ha
        have := (cvName_inj e').1
        omega
      · rw [List.mem_singleton] at ha
        subst ha
        have := (cvName_inj e').1
        omega
    · intro a ha
      rcases List.mem_append.1 ha with ha | ha
      · rcases List.mem_append.1 ha with ha | ha
        · obtain ⟨x, -, rfl⟩ := List.mem_map.1 ha
          exact ⟨i, _, _, le_rfl, rfl⟩
        · rw [List.mem_singleton] at ha
          subst ha
          exact ⟨i, _, _, le_rfl, rfl⟩
      · obtain ⟨j, k, n, hj, e⟩ := h2 a ha
        exact ⟨j, k, n, by omega, e⟩

theorem draws (py : CvText) (settings : List (List Char × CvNode)) (ts : List CvTree) :
    DrawsCv py settings ts (.node "root".toList (attrs "box" (shown py (.map settings))) :: treesStmts py 0 ts) := by
  refine ⟨?_, ?_, ?_, ?_⟩
  · have e : nodesOf (.node "root".toList (attrs "box" (shown py (.map settings))) :: treesStmts py 0 ts) =
        "root".toList :: nodesOf (treesStmts py 0 ts) := rfl
    rw [e]
    refine List.nodup_cons.2 ⟨fun h => ?_, (nodup_nodes py ts 0).1⟩
    obtain ⟨j, k, n, -, e⟩ := (nodup_nodes py ts 0).2 _ h
    exact cvName_ne_root _ _ _ e.symm
  · intro a l
    rw [List.mem_cons, mem_treesStmts]
    simp only [DotStmt.node.injEq, Nat.zero_add]
    refine or_congr Iff.rfl ?_
    constructor
    · rintro ⟨j, t, ht, h⟩
      simp only [treeStmts, nodeStmts, edgeStmts, List.mem_append, List.mem_map, List.mem_singleton, reduceCtorEq,
        and_false, exists_false, or_false, DotStmt.node.injEq] at h
      obtain ⟨⟨c, m⟩, hx, rfl, rfl⟩ := h
      obtain ⟨p, hp, rfl⟩ := mem_places.1 hx
      exact ⟨j, t, p, m, ht, hp, by simp, rfl⟩
    · rintro ⟨j, t, p, m, ht, hp, rfl, rfl⟩
      refine ⟨j, t, ht, ?_⟩
      refine List.mem_append_left _ (List.mem_map.2 ⟨((p.length, t.number p), m), ?_, rfl⟩)
      exact mem_places.2 ⟨p, hp, by simp⟩
  · have e : edgesOf (.node "root".toList (attrs "box" (shown py (.map settings))) :: treesStmts py 0 ts) =
        edgesOf (treesStmts py 0 ts) := rfl
    rw [e]
    exact (nodup_edges py ts 0).1
  · intro a b
    rw [List.mem_cons, mem_treesStmts]
    simp only [reduceCtorEq, false_or, Nat.zero_add]
    refine exists_congr fun j => exists_congr fun t => and_congr_right fun _ => ?_
    simp only [treeStmts, nodeStmts, edgeStmts, List.mem_append, List.mem_map, List.mem_singleton, reduceCtorEq,
        and_false, exists_false, false_or, DotStmt.edge.injEq]
    rw [or_comm]
    refine or_congr Iff.rfl ?_
    constructor
    · rintro ⟨x, hx, rfl, rfl⟩
      obtain ⟨p, d, n, hn, h1, h2⟩ := mem_rootCodes.1 hx
      exact ⟨p, d, n, hn, by rw [h1], by rw [h2]⟩
    · rintro ⟨p, d, n, hn, rfl, rfl⟩
      exact ⟨((p.length, t.number p), (p.length + 1, t.number (p ++ [d]))),
        mem_rootCodes.2 ⟨p, d, n, hn, rfl, rfl⟩, rfl, rfl⟩

end Apollo.CvDot
