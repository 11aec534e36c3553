import Verif.Proofs.OpencvDot

/-!
# Drawings of forests saved by OpenCV (C103)
-/

namespace Apollo.Props

open Spec CvDot

/-- C103, part: for every saved forest in which the right child of each root is a leaf (or the root is
one), `rfc2dot_opencv.py` writes a graph in the language of `dot` that draws the forest: one node for each
node of each tree, with what was saved of it, and one arrow from each node to each of its children.

Full statement: this holds for every saved forest.  Missing: it is false if the right child of some root
has children (`C103_fails`). -/
theorem C103_partial {py : CvText} (hq : QuietCv py) {before after : List (List Char × CvNode)}
    {ts : List CvTree} (h : Saveable before after ts) (hr : ∀ t ∈ ts, t.RightIsLeaf) :
    ∃ dot g, Cv.rfc2dotOpencv py (cvFile before after ts) = some dot ∧ Spec.Dot.read dot = some g ∧
      DrawsCv py (before ++ after) ts g := by
  obtain ⟨dot, h1, h2⟩ := draw_ok hq h hr
  exact ⟨dot, _, h1, h2, draws py _ ts⟩

/-- C103 is false: if the right child of the root of some tree has children, the last assertion of
`parse_tree` fails and nothing is written. -/
theorem C103_fails (py : CvText) {before after : List (List Char × CvNode)} {ts : List CvTree}
    (h : Saveable before after ts) (hr : ∃ t ∈ ts, ¬ t.RightIsLeaf) :
    Cv.rfc2dotOpencv py (cvFile before after ts) = none :=
  draw_none py h hr

/-- C103: which forests are drawn. -/
theorem C103_iff {py : CvText} (hq : QuietCv py) {before after : List (List Char × CvNode)}
    {ts : List CvTree} (h : Saveable before after ts) :
    (∃ dot, Cv.rfc2dotOpencv py (cvFile before after ts) = some dot) ↔ ∀ t ∈ ts, t.RightIsLeaf := by
  constructor
  · rintro ⟨dot, hd⟩ t ht
    by_contra hn
    rw [draw_none py h ⟨t, ht, hn⟩] at hd
    cases hd
  · intro hr
    obtain ⟨dot, h1, -⟩ := draw_ok hq h hr
    exact ⟨dot, h1⟩

/-- What Python prints in the examples. -/
def cvPy : CvText := ⟨fun v => fmtInt v.floor, fun _ => "1.8e+308".toList⟩

theorem quiet_cvPy : QuietCv cvPy := fun v => noQ_int v.floor

/-- A node with its depth and a value. -/
def cvAt (d : ℤ) (v : ℚ) : CvNode := .map [("depth".toList, .int d), ("value".toList, .real v)]

/-- A tree of depth two whose right child of the root is a leaf. -/
def leftTree : CvTree := .split (cvAt 0 1) (.split (cvAt 1 2) (.leaf (cvAt 2 3)) (.leaf (cvAt 2 4))) (.leaf (cvAt 1 5))

/-- Its mirror image. -/
def rightTree : CvTree := .split (cvAt 0 1) (.leaf (cvAt 1 2)) (.split (cvAt 1 3) (.leaf (cvAt 2 4)) (.leaf (cvAt 2 5)))

theorem hasDepths_at {t : CvTree} (k : ℕ) (h : ∀ x ∈ places t k 0, ∃ v, x.2 = cvAt x.1.1 v) :
    ∀ p n, t.nodeAt p = some n → ∃ v, n = cvAt ((k + p.length : ℕ) : ℤ) v := by
  intro p n hn
  exact h ((k + p.length, 0 + t.number p), n) (mem_places.2 ⟨p, hn, rfl⟩)

theorem saveable_left : Saveable [("format".toList, .int 3)] [] [leftTree, .leaf (cvAt 0 7)] := by
  have h : ∀ t ∈ [leftTree, .leaf (cvAt 0 7)], ∀ p n, t.nodeAt p = some n → ∃ v, n = cvAt (p.length : ℤ) v := by
    intro t ht p n hn
    have := hasDepths_at (t := t) 0 (by
      simp only [List.mem_cons, List.not_mem_nil, or_false] at ht
      rcases ht with rfl | rfl <;> simp [leftTree, places, CvTree.size, cvAt]) p n hn
    simpa using this
  refine ⟨fun t ht p n hn => ?_, fun t ht p n hn => ?_, ?_, ?_⟩
  · obtain ⟨v, rfl⟩ := h t ht p n hn
    exact ⟨_, rfl, rfl⟩
  · obtain ⟨v, rfl⟩ := h t ht p n hn
    simp [cvAt, Plain, PlainFields]
  · simp [PlainFields, Plain]
  · simp

theorem saveable_right : Saveable [] [] [rightTree] := by
  have h : ∀ t ∈ [rightTree], ∀ p n, t.nodeAt p = some n → ∃ v, n = cvAt (p.length : ℤ) v := by
    intro t ht p n hn
    have := hasDepths_at (t := t) 0 (by
      simp only [List.mem_singleton] at ht
      subst ht; simp [rightTree, places, CvTree.size, cvAt]) p n hn
    simpa using this
  refine ⟨fun t ht p n hn => ?_, fun t ht p n hn => ?_, ?_, ?_⟩
  · obtain ⟨v, rfl⟩ := h t ht p n hn
    exact ⟨_, rfl, rfl⟩
  · obtain ⟨v, rfl⟩ := h t ht p n hn
    simp [cvAt, Plain, PlainFields]
  · simp [PlainFields]
  · simp

/-- A forest of two trees is drawn. -/
example : ∃ dot g, Cv.rfc2dotOpencv cvPy (cvFile [("format".toList, .int 3)] [] [leftTree, .leaf (cvAt 0 7)]) =
    some dot ∧ Spec.Dot.read dot = some g ∧
      DrawsCv cvPy [("format".toList, .int 3)] [leftTree, .leaf (cvAt 0 7)] g ∧
      edgesOf g = [("tree_0_d_0_n_0".toList, "tree_0_d_1_n_1".toList),
        ("tree_0_d_1_n_1".toList, "tree_0_d_2_n_2".toList), ("tree_0_d_1_n_1".toList, "tree_0_d_2_n_3".toList),
        ("tree_0_d_0_n_0".toList, "tree_0_d_1_n_4".toList), ("root".toList, "tree_0_d_0_n_0".toList),
        ("root".toList, "tree_1_d_0_n_0".toList)] := by
  obtain ⟨dot, h1, h2⟩ := draw_ok quiet_cvPy saveable_left (by
    intro t ht
    simp only [List.mem_cons, List.not_mem_nil, or_false] at ht
    rcases ht with rfl | rfl <;> simp [leftTree, CvTree.RightIsLeaf])
  exact ⟨dot, _, h1, h2, draws _ _ _, by decide +kernel⟩

/-- The drawing of the forest above, by evaluation. -/
def leftDrawn : List DotStmt :=
  ((Cv.rfc2dotOpencv cvPy (cvFile [("format".toList, .int 3)] [] [leftTree, .leaf (cvAt 0 7)])).bind
    Spec.Dot.read).getD []

example : edgesOf leftDrawn = [("tree_0_d_0_n_0".toList, "tree_0_d_1_n_1".toList),
    ("tree_0_d_1_n_1".toList, "tree_0_d_2_n_2".toList), ("tree_0_d_1_n_1".toList, "tree_0_d_2_n_3".toList),
    ("tree_0_d_0_n_0".toList, "tree_0_d_1_n_4".toList), ("root".toList, "tree_0_d_0_n_0".toList),
    ("root".toList, "tree_1_d_0_n_0".toList)] := by
  decide +kernel

example : (leftDrawn.filterMap fun s => match s with
      | .node a l => some (a, l.map Prod.snd)
      | .edge _ _ => none) = [("root".toList, ["box".toList, "{\nformat: 3,\n }\n".toList]),
    ("tree_0_d_0_n_0".toList, ["{\ndepth: 0,\nvalue: 1,\n }\n".toList]),
    ("tree_0_d_1_n_1".toList, ["{\ndepth: 1,\nvalue: 2,\n }\n".toList]),
    ("tree_0_d_2_n_2".toList, ["{\ndepth: 2,\nvalue: 3,\n }\n".toList]),
    ("tree_0_d_2_n_3".toList, ["{\ndepth: 2,\nvalue: 4,\n }\n".toList]),
    ("tree_0_d_1_n_4".toList, ["{\ndepth: 1,\nvalue: 5,\n }\n".toList]),
    ("tree_1_d_0_n_0".toList, ["{\ndepth: 0,\nvalue: 7,\n }\n".toList])] := by
  decide +kernel

/-- C103 is false: the mirror image is not drawn. -/
theorem C103_fails_right : Saveable [] [] [rightTree] ∧
    Cv.rfc2dotOpencv cvPy (cvFile [] [] [rightTree]) = none :=
  ⟨saveable_right, C103_fails cvPy saveable_right ⟨_, List.mem_singleton.2 rfl, fun h => h⟩⟩

/-- C103 is false: a string in the file is written with quotes of its own, which end the label; the text is
then no graph. -/
theorem C103_fails_string : ∃ dot, Cv.rfc2dotOpencv cvPy (cvFile [("name".toList, .str "rtrees".toList)] [] []) =
    some dot ∧ Spec.Dot.read dot = none :=
  ⟨_, rfl, by decide +kernel⟩

end Apollo.Props
