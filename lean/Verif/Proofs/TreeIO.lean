import Verif.Model.TreeIO
import Verif.Proofs.DatasetIO
import Verif.Proofs.TreeReach

/-! Helper lemmas about storing and loading trees: tokens, truncated files, termination. -/

namespace Apollo

/-! ## Lines of tokens -/

/-- Tokens separated by single blanks, followed by `rest`. -/
def spaced : List (List Char) → List Char → List Char
  | [], rest => rest
  | [t], rest => t ++ rest
  | t :: ts, rest => t ++ ' ' :: spaced ts rest

theorem spaced_append (a : List (List Char)) {us : List (List Char)} (hu : us ≠ [])
    (rest : List Char) :
    spaced (a ++ us) rest = (a.map fun t => t ++ " ".toList).flatten ++ spaced us rest := by
  induction a with
  | nil => simp
  | cons t a ih =>
    have h : ∃ x xs, a ++ us = x :: xs := by
      cases a with
      | nil =>
        cases us with
        | nil => exact absurd rfl hu
        | cons u us => exact ⟨u, us, rfl⟩
      | cons b a => exact ⟨b, a ++ us, rfl⟩
    obtain ⟨x, xs, hx⟩ := h
    rw [List.cons_append, hx]
    simp only [spaced]
    rw [← hx, ih]
    simp

theorem blank_indent (level : ℕ) : Blank (indent level) := by
  intro c hc
  unfold indent at hc
  simp only [List.mem_flatten, List.mem_replicate] at hc
  obtain ⟨l, ⟨-, rfl⟩, hc⟩ := hc
  have : ∀ c ∈ "  ".toList, isSpace c = true := by decide
  exact this c hc

theorem wtoks_spaced {ts : List (List Char)} (hne : ts ≠ []) (h : ∀ t ∈ ts, WTok t)
    {w rest : List Char} (hw : Blank w) (hr : StartsBlank rest) :
    WToks rest (w ++ spaced ts rest) ts := by
  induction ts generalizing w with
  | nil => exact absurd rfl hne
  | cons t ts ih =>
    cases ts with
    | nil => exact WToks.cons' hw (h t (by simp)) hr WToks.nil
    | cons u us =>
      simp only [spaced]
      refine WToks.cons' hw (h t (by simp)) (startsBlank_cons (by decide)) ?_
      exact ih (by simp) (fun t' ht' => h t' (List.mem_cons_of_mem _ ht')) (w := [' '])
        (blank_of_all (by decide))

/-- A line of tokens, with the line end before it. -/
theorem wtoks_line (level : ℕ) {ts : List (List Char)} (hne : ts ≠ []) (h : ∀ t ∈ ts, WTok t)
    (rest : List Char) :
    WToks ('\n' :: rest) ('\n' :: (indent level ++ spaced ts ('\n' :: rest))) ts := by
  have hw : Blank ('\n' :: indent level) := by
    intro c hc
    rcases List.mem_cons.1 hc with rfl | h
    · decide
    · exact blank_indent level c h
  exact wtoks_spaced hne h hw (startsBlank_cons (by decide))

theorem wTok_int (n : ℤ) (p : List Char) (hp : p.all (fun c => !isSpace c) = true) :
    WTok (fmtInt n ++ p) := wTok_num (fmtInt_spec _).1 (fmtInt_spec _).2 _ hp

theorem wTok_g6 (q : ℚ) (p : List Char) (hp : p.all (fun c => !isSpace c) = true) :
    WTok (fmtG6 q ++ p) := wTok_num (numChar_fmtG6 q) (Dataset.fmtG6_ne_nil q) _ hp


/-! ## Tokens of a tree -/

/-- Tokens of the counters. -/
def countToks (cc : List (ℤ × ℕ)) : List (List Char) :=
  (cc.map fun x => [fmtInt x.1 ++ [':'], fmtInt x.2 ++ [',']]).flatten

/-- Tokens of a node after its key, up to the counters. -/
def headToks (n : NodeInfo) : List (List Char) :=
  ["{".toList,
   "gini:".toList, fmtG6 n.gini ++ [','],
   "num_samples:".toList, fmtInt n.numSamples ++ [','],
   "predicted_class:".toList, fmtInt n.predicted ++ [','],
   "feature_idx:".toList, fmtInt n.featureIdx ++ [','],
   "threshold:".toList, fmtG6 n.threshold ++ [','],
   "count_per_class:".toList, "{".toList]

/-- Tokens of a node with its key. -/
def nodeToks (classes : List ℤ) : List Char → Tree → List (List Char)
  | _, .nil => []
  | key, .node n l r =>
    key :: (headToks n ++ (countToks (classes.zip n.counts) ++ ("},".toList ::
      (nodeToks classes "left:".toList l ++ (nodeToks classes "right:".toList r ++
        ["},".toList])))))

/-- Tokens of a sample. -/
def sampleToks (idx : ℕ) (x : Sample) : List (List Char) :=
  [fmtInt idx ++ [':'], "{".toList, "features:".toList, "[".toList] ++
    ((x.1.map fun f => fmtG6 f ++ [',']) ++
      ["],".toList, "class:".toList, fmtInt x.2, "},".toList])

/-- Tokens of the samples. -/
def samplesToks : ℕ → List Sample → List (List Char)
  | _, [] => []
  | idx, x :: xs => sampleToks idx x ++ samplesToks (idx + 1) xs

/-- Tokens of a tree. -/
def treeToks (t : TreeImpl) : List (List Char) :=
  ["tree:".toList, "{".toList, "max_depth:".toList, fmtInt t.maxDepth ++ [','], "classes:".toList,
    "[".toList] ++ ((t.classes.map fun c => fmtInt c ++ [',']) ++ (["],".toList,
    "num_features:".toList, fmtInt t.numFeatures ++ [',']] ++
    (nodeToks t.classes "root:".toList t.root ++ (["data:".toList, "{".toList] ++
      (samplesToks 0 t.data ++ ["},".toList, "}".toList])))))

theorem wtoks_counts (level : ℕ) (cc : List (ℤ × ℕ)) (rest : List Char) :
    WToks ('\n' :: rest) ('\n' :: ((cc.map fun cc =>
      indent level ++ fmtInt cc.1 ++ ": ".toList ++ fmtInt cc.2 ++ ",\n".toList).flatten ++ rest))
      (countToks cc) := by
  induction cc with
  | nil => exact WToks.nil
  | cons x cc ih =>
    have e : '\n' :: (((x :: cc).map fun cc =>
        indent level ++ fmtInt cc.1 ++ ": ".toList ++ fmtInt cc.2 ++ ",\n".toList).flatten ++ rest) =
      '\n' :: (indent level ++ spaced [fmtInt x.1 ++ [':'], fmtInt x.2 ++ [',']] ('\n' ::
        ((cc.map fun cc =>
          indent level ++ fmtInt cc.1 ++ ": ".toList ++ fmtInt cc.2 ++ ",\n".toList).flatten ++
          rest))) := by
      simp [spaced]
    rw [e]
    have e2 : countToks (x :: cc) = [fmtInt x.1 ++ [':'], fmtInt x.2 ++ [',']] ++ countToks cc := by
      simp [countToks]
    rw [e2]
    refine (wtoks_line level (by simp) ?_ _).append ih
    intro t ht
    simp only [List.mem_cons, List.not_mem_nil, or_false] at ht
    rcases ht with rfl | rfl
    · exact wTok_int _ _ (by decide)
    · exact wTok_int _ _ (by decide)

theorem wtoks_node (classes : List ℤ) (t : Tree) : ∀ (level : ℕ) (key rest : List Char),
    WTok (key ++ [':']) → 
    WToks ('\n' :: rest) ('\n' :: (nodeText classes level key t ++ rest))
      (nodeToks classes (key ++ [':']) t) := by
  induction t with
  | nil => intro _ _ _ _; exact WToks.nil
  | node n l r ihl ihr =>
    intro level key rest hkey
    have e : '\n' :: (nodeText classes level key (.node n l r) ++ rest) =
      '\n' :: (indent level ++ spaced [key ++ [':'], "{".toList] ('\n' ::
       (indent (level + 1) ++ spaced ["gini:".toList, fmtG6 n.gini ++ [',']] ('\n' ::
       (indent (level + 1) ++ spaced ["num_samples:".toList, fmtInt n.numSamples ++ [',']] ('\n' ::
       (indent (level + 1) ++ spaced ["predicted_class:".toList, fmtInt n.predicted ++ [',']] ('\n' ::
       (indent (level + 1) ++ spaced ["feature_idx:".toList, fmtInt n.featureIdx ++ [',']] ('\n' ::
       (indent (level + 1) ++ spaced ["threshold:".toList, fmtG6 n.threshold ++ [',']] ('\n' ::
       (indent (level + 1) ++ spaced ["count_per_class:".toList, "{".toList] ('\n' ::
       (countsText (level + 1) classes n.counts ++
       (indent (level + 1) ++ spaced ["},".toList] ('\n' ::
       (nodeText classes (level + 1) "left".toList l ++
       (nodeText classes (level + 1) "right".toList r ++
       (indent level ++ spaced ["},".toList] ('\n' :: rest))))))))))))))))))))) := by
      simp [nodeText, spaced]
    rw [e]
    have e2 : nodeToks classes (key ++ [':']) (.node n l r) =
      [key ++ [':'], "{".toList] ++ (["gini:".toList, fmtG6 n.gini ++ [',']] ++
      (["num_samples:".toList, fmtInt n.numSamples ++ [',']] ++
      (["predicted_class:".toList, fmtInt n.predicted ++ [',']] ++
      (["feature_idx:".toList, fmtInt n.featureIdx ++ [',']] ++
      (["threshold:".toList, fmtG6 n.threshold ++ [',']] ++
      (["count_per_class:".toList, "{".toList] ++
      (countToks (classes.zip n.counts) ++ (["},".toList] ++
      (nodeToks classes ("left".toList ++ [':']) l ++ (nodeToks classes ("right".toList ++ [':']) r ++
        ["},".toList])))))))))) := by
      simp [nodeToks, headToks]
    rw [e2]
    have lit2 : ∀ {a b : List Char}, WTok a → WTok b → ∀ t ∈ [a, b], WTok t := by
      intro a b ha hb t ht
      simp only [List.mem_cons, List.not_mem_nil, or_false] at ht
      rcases ht with rfl | rfl <;> assumption
    have lit1 : ∀ t ∈ ["},".toList], WTok t := by
      intro t ht
      simp only [List.mem_singleton] at ht
      subst ht; exact wTok_of_b (by decide)
    refine (wtoks_line _ (by simp) (lit2 hkey (wTok_of_b (by decide))) _).append ?_
    refine (wtoks_line _ (by simp) (lit2 (wTok_of_b (by decide)) (wTok_g6 _ _ (by decide))) _).append ?_
    refine (wtoks_line _ (by simp) (lit2 (wTok_of_b (by decide)) (wTok_int _ _ (by decide))) _).append ?_
    refine (wtoks_line _ (by simp) (lit2 (wTok_of_b (by decide)) (wTok_int _ _ (by decide))) _).append ?_
    refine (wtoks_line _ (by simp) (lit2 (wTok_of_b (by decide)) (wTok_int _ _ (by decide))) _).append ?_
    refine (wtoks_line _ (by simp) (lit2 (wTok_of_b (by decide)) (wTok_g6 _ _ (by decide))) _).append ?_
    refine (wtoks_line _ (by simp) (lit2 (wTok_of_b (by decide)) (wTok_of_b (by decide))) _).append ?_
    refine (wtoks_counts _ _ _).append ?_
    refine (wtoks_line _ (by simp) lit1 _).append ?_
    refine (ihl _ _ _ (wTok_of_b (by decide))).append ?_
    refine (ihr _ _ _ (wTok_of_b (by decide))).append ?_
    exact wtoks_line _ (by simp) lit1 _

theorem wtoks_samples (level idx : ℕ) (xs : List Sample) (rest : List Char) :
    WToks ('\n' :: rest) ('\n' :: (samplesText level idx xs ++ rest)) (samplesToks idx xs) := by
  induction xs generalizing idx with
  | nil => exact WToks.nil
  | cons x xs ih =>
    have e : '\n' :: (samplesText level idx (x :: xs) ++ rest) =
        '\n' :: (indent level ++ spaced (sampleToks idx x) ('\n' ::
          (samplesText level (idx + 1) xs ++ rest))) := by
      unfold sampleToks
      rw [spaced_append _ (by simp), spaced_append _ (by simp)]
      have : ∀ f : Features, ((f.map fun f => fmtG6 f ++ [',']).map fun t => t ++ " ".toList) =
          f.map fun f => fmtG6 f ++ ", ".toList := by
        intro f
        rw [List.map_map]
        refine List.map_congr_left fun a _ => ?_
        simp
      rw [this]
      simp [samplesText, spaced]
    rw [e]
    refine (wtoks_line level (by simp [sampleToks]) ?_ _).append (ih _)
    intro t ht
    unfold sampleToks at ht
    rw [List.mem_append, List.mem_append] at ht
    rcases ht with ht | ht | ht
    · simp only [List.mem_cons, List.not_mem_nil, or_false] at ht
      rcases ht with rfl | rfl | rfl | rfl
      · exact wTok_int _ _ (by decide)
      all_goals exact wTok_of_b (by decide)
    · obtain ⟨f, -, rfl⟩ := List.mem_map.1 ht
      exact wTok_g6 _ _ (by decide)
    · simp only [List.mem_cons, List.not_mem_nil, or_false] at ht
      rcases ht with rfl | rfl | rfl | rfl
      · exact wTok_of_b (by decide)
      · exact wTok_of_b (by decide)
      · simpa using wTok_int x.2 [] (by decide)
      · exact wTok_of_b (by decide)

/-- The tokens of the text of a tree. -/
theorem wtoks_tree (level : ℕ) (t : TreeImpl) {w : List Char} (hw : Blank w) (rest : List Char) :
    WToks ('\n' :: rest) (w ++ (treeText level t ++ rest)) (treeToks t) := by
  have e : w ++ (treeText level t ++ rest) =
      (w ++ indent level) ++ spaced ["tree:".toList, "{".toList] ('\n' ::
      (indent (level + 1) ++ spaced ["max_depth:".toList, fmtInt t.maxDepth ++ [',']] ('\n' ::
      (indent (level + 1) ++ spaced (["classes:".toList, "[".toList] ++
        ((t.classes.map fun c => fmtInt c ++ [',']) ++ ["],".toList])) ('\n' ::
      (indent (level + 1) ++ spaced ["num_features:".toList, fmtInt t.numFeatures ++ [',']] ('\n' ::
      (nodeText t.classes (level + 1) "root".toList t.root ++
      (indent (level + 1) ++ spaced ["data:".toList, "{".toList] ('\n' ::
      (samplesText (level + 2) 0 t.data ++
      (indent (level + 1) ++ spaced ["},".toList] ('\n' ::
      (indent level ++ spaced ["}".toList] ('\n' :: rest))))))))))))))) := by
    rw [spaced_append _ (by simp), spaced_append _ (by simp)]
    have : ((t.classes.map fun c => fmtInt c ++ [',']).map fun t => t ++ " ".toList) =
        t.classes.map fun c => fmtInt c ++ ", ".toList := by
      rw [List.map_map]
      refine List.map_congr_left fun a _ => ?_
      simp
    rw [this]
    simp [treeText, spaced]
  rw [e]
  have e2 : treeToks t = ["tree:".toList, "{".toList] ++ (
      ["max_depth:".toList, fmtInt t.maxDepth ++ [',']] ++ ((["classes:".toList, "[".toList] ++
        ((t.classes.map fun c => fmtInt c ++ [',']) ++ ["],".toList])) ++
      (["num_features:".toList, fmtInt t.numFeatures ++ [',']] ++
      (nodeToks t.classes ("root".toList ++ [':']) t.root ++ (["data:".toList, "{".toList] ++
      (samplesToks 0 t.data ++ (["},".toList] ++ ["}".toList]))))))) := by
    simp [treeToks]
  rw [e2]
  have lit2 : ∀ {a b : List Char}, WTok a → WTok b → ∀ t ∈ [a, b], WTok t := by
    intro a b ha hb t ht
    simp only [List.mem_cons, List.not_mem_nil, or_false] at ht
    rcases ht with rfl | rfl <;> assumption
  have lit1 : ∀ {a : List Char}, WTok a → ∀ t ∈ [a], WTok t := by
    intro a ha t ht
    simp only [List.mem_singleton] at ht
    subst ht; exact ha
  have hw' : Blank (w ++ indent level) := by
    intro c hc
    rcases List.mem_append.1 hc with h | h
    · exact hw c h
    · exact blank_indent level c h
  refine (wtoks_spaced (by simp) (lit2 (wTok_of_b (by decide)) (wTok_of_b (by decide))) hw'
    (startsBlank_cons (by decide))).append ?_
  refine (wtoks_line _ (by simp) (lit2 (wTok_of_b (by decide)) (wTok_int _ _ (by decide))) _).append ?_
  refine (wtoks_line _ (by simp) ?_ _).append ?_
  · intro u hu
    rw [List.mem_append, List.mem_append] at hu
    rcases hu with hu | hu | hu
    · exact lit2 (wTok_of_b (by decide)) (wTok_of_b (by decide)) u hu
    · obtain ⟨c, -, rfl⟩ := List.mem_map.1 hu
      exact wTok_int _ _ (by decide)
    · exact lit1 (wTok_of_b (by decide)) u hu
  refine (wtoks_line _ (by simp) (lit2 (wTok_of_b (by decide)) (wTok_int _ _ (by decide))) _).append ?_
  refine (wtoks_node _ _ _ _ _ (wTok_of_b (by decide))).append ?_
  refine (wtoks_line _ (by simp) (lit2 (wTok_of_b (by decide)) (wTok_of_b (by decide))) _).append ?_
  refine (wtoks_samples _ _ _ _).append ?_
  refine (wtoks_line _ (by simp) (lit1 (wTok_of_b (by decide))) _).append ?_
  exact wtoks_line _ (by simp) (lit1 (wTok_of_b (by decide))) _

/-! ## Truncated files -/

/-- `Consumes` with conditions on the current token before and after. -/
def Cons {α : Type} (C : Cur → Prop) (f : P α) (ts : List (List Char)) (C' : Cur → Prop) : Prop :=
  ∀ s k r b o, C (b, o) → WToks r s (ts ++ k) →
    (∃ a s', WToks r s'.is k ∧ C' (s'.buf, s'.off) ∧ f ⟨s, b, o⟩ = .ok (a, s')) ∨
    ∃ e, f ⟨s, b, o⟩ = .error e

namespace Cons

variable {α β : Type} {C C1 C2 : Cur → Prop}

theorem of_consumes {f : P α} {ts : List (List Char)} (h : Consumes f ts) :
    Cons C f ts fun _ => True := by
  intro s k r b o _ hs
  rcases h s k r b o hs with ⟨a, s', h1, h2⟩ | h1
  · exact Or.inl ⟨a, s', h1, trivial, h2⟩
  · exact Or.inr h1

theorem consumes {f : P α} {ts : List (List Char)} (h : Cons (fun _ => True) f ts C) :
    Consumes f ts := by
  intro s k r b o hs
  rcases h s k r b o trivial hs with ⟨a, s', h1, -, h2⟩ | h1
  · exact Or.inl ⟨a, s', h1, h2⟩
  · exact Or.inr h1

theorem bind {f : P α} {g : α → P β} {ts1 ts2 : List (List Char)} (hf : Cons C f ts1 C1)
    (hg : ∀ a, Cons C1 (g a) ts2 C2) : Cons C (f >>= g) (ts1 ++ ts2) C2 := by
  intro s k r b o hc h
  rw [List.append_assoc] at h
  rw [P.bind_apply]
  rcases hf s _ r b o hc h with ⟨a, s', h1, hc1, e1⟩ | ⟨e, he⟩
  · rw [e1, Res.bind_ok]
    exact hg a s'.is k r s'.buf s'.off hc1 h1
  · rw [he]; exact Or.inr ⟨e, rfl⟩

theorem bindC {f : P α} {g : α → P β} {ts1 ts2 : List (List Char)} (hf : Consumes f ts1)
    (hg : ∀ a, Cons (fun _ => True) (g a) ts2 C2) : Cons C (f >>= g) (ts1 ++ ts2) C2 :=
  bind (of_consumes hf) hg

theorem bindC0 {f : P α} {g : α → P β} {ts2 : List (List Char)} (hf : Consumes f [])
    (hg : ∀ a, Cons (fun _ => True) (g a) ts2 C2) : Cons C (f >>= g) ts2 C2 :=
  bindC hf hg

theorem bindC1 {f : P α} {g : α → P β} {t : List Char} {ts2 : List (List Char)} (hf : Consumes f [t])
    (hg : ∀ a, Cons (fun _ => True) (g a) ts2 C2) : Cons C (f >>= g) (t :: ts2) C2 :=
  bindC hf hg

theorem pure (a : α) : Cons C (pure a : P α) [] C :=
  fun _ _ _ _ _ hc h => Or.inl ⟨_, _, h, hc, rfl⟩

theorem fail (e : Err) (ts : List (List Char)) : Cons C (P.fail e : P α) ts C2 :=
  fun _ _ _ _ _ _ _ => Or.inr ⟨e, rfl⟩

theorem getNextToken {t : List Char} (hn : ∀ c ∈ t, c ≠ nul) :
    Cons C Apollo.getNextToken [t] fun c => c = (t, 0) := by
  intro s k r b o _ h
  cases h with
  | cons w _ s' _ hw ht hs h' =>
    rcases getNextToken_wpiece hw ht hs b o with h | h
    · refine Or.inl ⟨_, _, h', ?_, h⟩
      have hc : cstr t = t := takeWhile_eq_self (fun c hc => by simpa using hn c hc)
      simp [hc]
    · exact Or.inr ⟨_, h⟩

theorem parseExpected (e : List Char) : Cons C (Apollo.parseExpected e) [] C := by
  intro s k r b o hc h
  rw [parseExpected_apply]
  split
  · exact Or.inl ⟨_, _, h, hc, rfl⟩
  · exact Or.inr ⟨_, rfl⟩

theorem getTokenEquals {g : Bool → P β} {e t : List Char} {ts : List (List Char)}
    (hg : Cons (fun c => c = (t, 0)) (g (decide (t = e))) ts C2) :
    Cons (fun c => c = (t, 0)) (Apollo.getTokenEquals e >>= g) ts C2 := by
  intro s k r b o hc h
  rw [P.bind_apply]
  obtain ⟨rfl, rfl⟩ := Prod.mk.inj hc
  have e2 : Apollo.getTokenEquals e ⟨s, b, 0⟩ = .ok (decide (b = e), ⟨s, b, 0⟩) := by
    simp [Apollo.getTokenEquals, PS.tok]
  rw [e2, Res.bind_ok]
  exact hg s k r _ _ rfl h

end Cons

theorem consumes_keyVal {α : Type} (key : List Char) {parse : P α} (hp : Consumes parse [])
    (t1 t2 : List Char) : Consumes (parseKeyVal key parse) [t1, t2] := by
  unfold parseKeyVal
  refine Consumes.bind1 (Consumes.expectNext _ _) fun _ => ?_
  refine Consumes.bind1 (Consumes.getNextToken _) fun _ => ?_
  refine Consumes.bind0 hp fun _ => ?_
  exact Consumes.bind0 (Consumes.parseExpected _) fun _ => Consumes.pure _

theorem intTok_ne (n : ℤ) (c : Char) (e : List Char) (d : Char) (r : List Char)
    (he : e = d :: r) (hd : isDigit d = false ∧ d ≠ '-' ∧ d ≠ '+' ∧ d ≠ '.' ∧ d ≠ 'e') :
    fmtInt n ++ [c] ≠ e := by
  obtain ⟨h1, h2⟩ := fmtInt_spec n
  cases hf : fmtInt n with
  | nil => exact absurd hf h2
  | cons x r' =>
    have : x ≠ d := (h1 x (by rw [hf]; simp)).ne hd
    subst he
    simp [this]

theorem g6Tok_ne (q : ℚ) (c : Char) (e : List Char) (d : Char) (r : List Char)
    (he : e = d :: r) (hd : isDigit d = false ∧ d ≠ '-' ∧ d ≠ '+' ∧ d ≠ '.' ∧ d ≠ 'e') :
    fmtG6 q ++ [c] ≠ e := by
  obtain ⟨x, r', hf, hx⟩ := Dataset.fmtG6_headChar q
  have : x ≠ d := hx.ne hd
  subst he
  rw [hf]
  simp [this]

theorem g6_no_nul (q : ℚ) (p : List Char) (hp : ∀ c ∈ p, c ≠ nul) : ∀ c ∈ fmtG6 q ++ p, c ≠ nul := by
  intro c hc
  rcases List.mem_append.1 hc with h | h
  · exact (numChar_fmtG6 q c h).ne (by decide)
  · exact hp c h

theorem consumes_counts (fuel : ℕ) (acc : List ℕ) (cc : List (ℤ × ℕ)) :
    Consumes (parseCounts fuel acc) (countToks cc ++ ["},".toList]) := by
  induction cc generalizing fuel acc with
  | nil =>
    cases fuel with
    | zero => exact Consumes.fail _ _
    | succ fuel => exact Consumes.getNextTokenEquals (by decide) (Consumes.pure _)
  | cons x cc ih =>
    cases fuel with
    | zero => exact Consumes.fail _ _
    | succ fuel =>
      have e : countToks (x :: cc) ++ ["},".toList] = (fmtInt x.1 ++ [':']) ::
          (fmtInt x.2 ++ [',']) :: (countToks cc ++ ["},".toList]) := by simp [countToks]
      rw [e]
      refine Consumes.getNextTokenEquals (Dataset.fmtInt_no_nul _ _ (by decide)) ?_
      rw [decide_eq_false (intTok_ne _ _ _ '}' [','] (by decide) (by decide))]
      refine Consumes.bind0 (Consumes.parseWith _) fun _ => ?_
      refine Consumes.bind0 (Consumes.parseExpected _) fun _ => ?_
      refine Consumes.bind1 (Consumes.getNextToken _) fun _ => ?_
      refine Consumes.bind0 (Consumes.parseWith _) fun _ => ?_
      exact Consumes.bind0 (Consumes.parseExpected _) fun _ => ih _ _

theorem consumes_feats (fuel : ℕ) (acc f : Features) :
    Consumes (parseFeatures fuel acc) ((f.map fun x => fmtG6 x ++ [',']) ++ ["],".toList]) := by
  induction f generalizing fuel acc with
  | nil =>
    cases fuel with
    | zero => exact Consumes.fail _ _
    | succ fuel => exact Consumes.getNextTokenEquals (by decide) (Consumes.pure _)
  | cons x f ih =>
    cases fuel with
    | zero => exact Consumes.fail _ _
    | succ fuel =>
      refine Consumes.getNextTokenEquals (g6_no_nul _ _ (by decide)) ?_
      rw [decide_eq_false (g6Tok_ne _ _ _ ']' [','] (by decide) (by decide))]
      refine Consumes.bind0 (Consumes.parseWith _) fun _ => ?_
      exact Consumes.bind0 (Consumes.parseExpected _) fun _ => ih _ _

theorem consumes_classes (fuel : ℕ) (acc cs : List ℤ) :
    Consumes (parseClasses fuel acc) ((cs.map fun x => fmtInt x ++ [',']) ++ ["],".toList]) := by
  induction cs generalizing fuel acc with
  | nil =>
    cases fuel with
    | zero => exact Consumes.fail _ _
    | succ fuel => exact Consumes.getNextTokenEquals (by decide) (Consumes.pure _)
  | cons x f ih =>
    cases fuel with
    | zero => exact Consumes.fail _ _
    | succ fuel =>
      refine Consumes.getNextTokenEquals (Dataset.fmtInt_no_nul _ _ (by decide)) ?_
      rw [decide_eq_false (intTok_ne _ _ _ ']' [','] (by decide) (by decide))]
      refine Consumes.bind0 (Consumes.parseWith _) fun _ => ?_
      exact Consumes.bind0 (Consumes.parseExpected _) fun _ => ih _ _

theorem sampleToks_tail (idx : ℕ) (x : Sample) : sampleToks idx x = (fmtInt idx ++ [':']) ::
    "{".toList :: "features:".toList :: "[".toList :: (((x.1.map fun f => fmtG6 f ++ [',']) ++
      ["],".toList]) ++ ["class:".toList, fmtInt x.2, "},".toList]) := by
  simp [sampleToks]

theorem consumes_sample (fuel idx : ℕ) (x : Sample) :
    Consumes (parseSample fuel) (sampleToks idx x).tail := by
  rw [sampleToks_tail, List.tail_cons]
  unfold parseSample
  refine Consumes.bind1 (Consumes.expectNext _ _) fun _ => ?_
  refine Consumes.bind1 (Consumes.expectNext _ _) fun _ => ?_
  refine Consumes.bind1 (Consumes.expectNext _ _) fun _ => ?_
  refine Consumes.bind (consumes_feats _ _ _) fun _ => ?_
  refine Consumes.bind1 (Consumes.expectNext _ _) fun _ => ?_
  refine Consumes.bind1 (Consumes.getNextToken _) fun _ => ?_
  refine Consumes.bind0 (Consumes.parseWith _) fun _ => ?_
  exact Consumes.bind1 (Consumes.expectNext _ _) fun _ => Consumes.pure _

theorem samplesToks_cons (idx : ℕ) (x : Sample) (xs : List Sample) (r : List (List Char)) :
    samplesToks idx (x :: xs) ++ r = (fmtInt idx ++ [':']) :: ((sampleToks idx x).tail ++
      (samplesToks (idx + 1) xs ++ r)) := by
  simp [samplesToks, sampleToks]

theorem consumes_samples (fuel : ℕ) (acc : List Sample) (idx : ℕ) (xs : List Sample) :
    Consumes (parseSamples fuel acc) (samplesToks idx xs ++ ["},".toList]) := by
  induction xs generalizing fuel acc idx with
  | nil =>
    cases fuel with
    | zero => exact Consumes.fail _ _
    | succ fuel => exact Consumes.getNextTokenEquals (by decide) (Consumes.pure _)
  | cons x xs ih =>
    cases fuel with
    | zero => exact Consumes.fail _ _
    | succ fuel =>
      rw [samplesToks_cons]
      refine Consumes.getNextTokenEquals (Dataset.fmtInt_no_nul _ _ (by decide)) ?_
      rw [decide_eq_false (intTok_ne _ _ _ '}' [','] (by decide) (by decide))]
      exact Consumes.bind (consumes_sample _ _ _) fun _ => ih _ _ _

/-- An optional child of a node, the current token being its key. -/
def parseChild (key : List Char) (sub : P Tree) : P Tree := do
  let b ← getTokenEquals key
  if b then (do
      let t ← sub
      getNextToken
      pure t) else pure .nil

theorem P.ite_bind {α β : Type} (c : Prop) [Decidable c] (f g : P α) (k : α → P β) :
    (if c then f else g) >>= k = if c then f >>= k else g >>= k := by
  split <;> rfl

theorem parseNode_succ (fuel : ℕ) : parseNode (fuel + 1) = (do
    expectNext "{".toList
    let gini ← parseKeyVal "gini:".toList parseFloat
    let numSamples ← parseKeyVal "num_samples:".toList parseUnsignedLong
    let predicted ← parseKeyVal "predicted_class:".toList parseInt
    let featureIdx ← parseKeyVal "feature_idx:".toList parseInt
    let threshold ← parseKeyVal "threshold:".toList parseFloat
    expectNext "count_per_class:".toList
    expectNext "{".toList
    let counts ← parseCounts fuel []
    getNextToken
    let left ← parseChild "left:".toList (parseNode fuel)
    let right ← parseChild "right:".toList (parseNode fuel)
    parseExpected "},".toList
    pure (.node ⟨gini, numSamples, predicted, featureIdx, threshold, counts⟩ left right)) := by
  rw [parseNode]
  simp only [parseChild, bind_assoc, P.ite_bind, pure_bind]

/-- The first of the tokens of a child and the token after it. -/
def childHead (key : List Char) (t : Tree) (x : List Char) : List Char :=
  if t = .nil then x else key

/-- The tokens of a child without the first, and the token after it. -/
def childTail (classes : List ℤ) (key : List Char) (t : Tree) (x : List Char) : List (List Char) :=
  if t = .nil then [] else (nodeToks classes key t).tail ++ [x]

theorem nodeToks_split (classes : List ℤ) (n : NodeInfo) (l r : Tree) :
    headToks n ++ (countToks (classes.zip n.counts) ++ ("},".toList ::
      (nodeToks classes "left:".toList l ++ (nodeToks classes "right:".toList r ++
        ["},".toList])))) =
    headToks n ++ ((countToks (classes.zip n.counts) ++ ["},".toList]) ++
      (childHead "left:".toList l (childHead "right:".toList r "},".toList) ::
        (childTail classes "left:".toList l (childHead "right:".toList r "},".toList) ++
          childTail classes "right:".toList r "},".toList))) := by
  unfold childHead childTail
  cases l <;> cases r <;> simp [nodeToks]

theorem cons_node (classes : List ℤ) (t : Tree) : ∀ (fuel : ℕ) (key : List Char), t ≠ .nil →
    Cons (fun _ => True) (parseNode fuel) (nodeToks classes key t).tail
      (fun c => c = ("},".toList, 0)) := by
  induction t with
  | nil => intro _ _ h; exact absurd rfl h
  | node n l r ihl ihr =>
    intro fuel key _
    cases fuel with
    | zero => exact Cons.fail _ _
    | succ fuel =>
      have child : ∀ (t : Tree) (key x : List Char), (∀ c ∈ x, c ≠ nul) → x ≠ key →
          (t ≠ .nil → Cons (fun _ => True) (parseNode fuel) (nodeToks classes key t).tail
            (fun c => c = ("},".toList, 0))) →
          Cons (fun c => c = (childHead key t x, 0)) (parseChild key (parseNode fuel))
            (childTail classes key t x) (fun c => c = (x, 0)) := by
        intro t key x hx hne ih
        unfold parseChild
        refine Cons.getTokenEquals ?_
        unfold childHead childTail
        by_cases ht : t = .nil
        · rw [if_pos ht, if_pos ht, decide_eq_false hne]
          exact Cons.pure _
        · rw [if_neg ht, if_neg ht, decide_eq_true rfl]
          simp only [if_true]
          have := ih ht
          refine Cons.bind (C1 := fun c => c = ("},".toList, 0)) (fun s k r b o _ h =>
            this s k r b o trivial h) fun t' => ?_
          exact Cons.bind (ts1 := [x]) (ts2 := []) (Cons.getNextToken hx) fun _ => Cons.pure _
      have e : (nodeToks classes key (.node n l r)).tail = headToks n ++
          ((countToks (classes.zip n.counts) ++ ["},".toList]) ++
      (childHead "left:".toList l (childHead "right:".toList r "},".toList) ::
        (childTail classes "left:".toList l (childHead "right:".toList r "},".toList) ++
          childTail classes "right:".toList r "},".toList))) := by
        rw [← nodeToks_split]; rfl
      rw [e, parseNode_succ]
      unfold headToks
      simp only [List.cons_append, List.nil_append]
      refine Cons.bindC1 (Consumes.expectNext _ _) fun _ => ?_
      refine Cons.bindC (ts1 := [_, _]) (consumes_keyVal _ (Consumes.parseWith _) _ _) fun _ => ?_
      refine Cons.bindC (ts1 := [_, _]) (consumes_keyVal _ (Consumes.parseWith _) _ _) fun _ => ?_
      refine Cons.bindC (ts1 := [_, _]) (consumes_keyVal _ (Consumes.parseWith _) _ _) fun _ => ?_
      refine Cons.bindC (ts1 := [_, _]) (consumes_keyVal _ (Consumes.parseWith _) _ _) fun _ => ?_
      refine Cons.bindC (ts1 := [_, _]) (consumes_keyVal _ (Consumes.parseWith _) _ _) fun _ => ?_
      refine Cons.bindC1 (Consumes.expectNext _ _) fun _ => ?_
      refine Cons.bindC1 (Consumes.expectNext _ _) fun _ => ?_
      refine Cons.bindC (consumes_counts _ _ _) fun _ => ?_
      have h1 : ∀ c ∈ childHead "right:".toList r "},".toList, c ≠ nul := by
        unfold childHead; split <;> decide
      have h2 : childHead "right:".toList r "},".toList ≠ "left:".toList := by
        unfold childHead; split <;> decide
      have h3 : ∀ c ∈ childHead "left:".toList l (childHead "right:".toList r "},".toList),
          c ≠ nul := by
        unfold childHead; split
        · exact h1
        · decide
      refine Cons.bind (ts1 := [_]) (Cons.getNextToken h3) fun _ => ?_
      refine Cons.bind (child l _ _ h1 h2 (fun h => ihl _ _ h)) fun _ => ?_
      rw [← List.append_nil (childTail classes "right:".toList r "},".toList)]
      refine Cons.bind (child r "right:".toList "},".toList (by decide) (by decide)
        (fun h => ihr _ _ h)) fun _ => ?_
      exact Cons.bind (ts1 := []) (Cons.parseExpected _) fun _ => Cons.pure _

theorem nodeToks_root {classes : List ℤ} {key : List Char} {t : Tree} (h : t ≠ .nil) :
    nodeToks classes key t = key :: (nodeToks classes key t).tail := by
  cases t with
  | nil => exact absurd rfl h
  | node n l r => rfl

theorem treeToks_eq {t : TreeImpl} (h : t.root ≠ .nil) : treeToks t =
    "tree:".toList :: "{".toList :: "max_depth:".toList :: (fmtInt t.maxDepth ++ [',']) ::
    "classes:".toList :: "[".toList :: (((t.classes.map fun c => fmtInt c ++ [',']) ++ ["],".toList]) ++
    ("num_features:".toList :: (fmtInt t.numFeatures ++ [',']) :: "root:".toList ::
    ((nodeToks t.classes "root:".toList t.root).tail ++ ("data:".toList :: "{".toList ::
      ((samplesToks 0 t.data ++ ["},".toList]) ++ ["}".toList]))))) := by
  unfold treeToks
  rw [nodeToks_root h]
  simp

theorem consumes_tree (fuel : ℕ) (t0 t : TreeImpl) (h : t.root ≠ .nil) :
    Consumes (parseTree fuel t0) (treeToks t) := by
  rw [treeToks_eq h]
  unfold parseTree parseData
  refine Consumes.bind1 (Consumes.expectNext _ _) fun _ => ?_
  refine Consumes.bind1 (Consumes.expectNext _ _) fun _ => ?_
  refine Consumes.bind (ts1 := [_, _]) (consumes_keyVal _ Consumes.parseUnsigned _ _) fun _ => ?_
  refine Consumes.bind1 (Consumes.expectNext _ _) fun _ => ?_
  refine Consumes.bind1 (Consumes.expectNext _ _) fun _ => ?_
  refine Consumes.bind (consumes_classes _ _ _) fun _ => ?_
  refine Consumes.bind (ts1 := [_, _]) (consumes_keyVal _ Consumes.parseUnsigned _ _) fun _ => ?_
  refine Consumes.bind1 (Consumes.expectNext _ _) fun _ => ?_
  refine Consumes.bind (cons_node _ _ _ _ h).consumes fun _ => ?_
  rw [bind_assoc]
  refine Consumes.bind1 (Consumes.expectNext _ _) fun _ => ?_
  rw [bind_assoc]
  refine Consumes.bind1 (Consumes.expectNext _ _) fun _ => ?_
  refine Consumes.bind (consumes_samples _ _ _ _) fun _ => ?_
  exact Consumes.bind1 (Consumes.expectNext _ _) fun _ => Consumes.pure _

theorem ext_keyVal {α : Type} (key : List Char) {parse : P α} (hp : Ext parse) :
    Ext (parseKeyVal key parse) := by
  unfold parseKeyVal
  refine Ext.bind (Ext.expectNext _) fun _ => ?_
  refine Ext.bind Ext.getNextToken fun _ => ?_
  refine Ext.bind hp fun _ => ?_
  exact Ext.bind (Ext.parseExpected _) fun _ => Ext.pure _

theorem ext_counts (fuel : ℕ) (acc : List ℕ) : Ext (parseCounts fuel acc) := by
  induction fuel generalizing acc with
  | zero => exact Ext.fail _
  | succ fuel ih =>
    refine Ext.bind (Ext.getNextTokenEquals _) fun b => ?_
    refine Ext.ite _ (Ext.pure _) ?_
    refine Ext.bind (Ext.parseWith _) fun _ => ?_
    refine Ext.bind (Ext.parseExpected _) fun _ => ?_
    refine Ext.bind Ext.getNextToken fun _ => ?_
    refine Ext.bind (Ext.parseWith _) fun _ => ?_
    exact Ext.bind (Ext.parseExpected _) fun _ => ih _

theorem ext_feats (fuel : ℕ) (acc : Features) : Ext (parseFeatures fuel acc) := by
  induction fuel generalizing acc with
  | zero => exact Ext.fail _
  | succ fuel ih =>
    refine Ext.bind (Ext.getNextTokenEquals _) fun b => ?_
    refine Ext.ite _ (Ext.pure _) ?_
    refine Ext.bind (Ext.parseWith _) fun _ => ?_
    exact Ext.bind (Ext.parseExpected _) fun _ => ih _

theorem ext_classes (fuel : ℕ) (acc : List ℤ) : Ext (parseClasses fuel acc) := by
  induction fuel generalizing acc with
  | zero => exact Ext.fail _
  | succ fuel ih =>
    refine Ext.bind (Ext.getNextTokenEquals _) fun b => ?_
    refine Ext.ite _ (Ext.pure _) ?_
    refine Ext.bind (Ext.parseWith _) fun _ => ?_
    exact Ext.bind (Ext.parseExpected _) fun _ => ih _

theorem ext_sample (fuel : ℕ) : Ext (parseSample fuel) := by
  unfold parseSample
  refine Ext.bind (Ext.expectNext _) fun _ => ?_
  refine Ext.bind (Ext.expectNext _) fun _ => ?_
  refine Ext.bind (Ext.expectNext _) fun _ => ?_
  refine Ext.bind (ext_feats _ _) fun _ => ?_
  refine Ext.bind (Ext.expectNext _) fun _ => ?_
  refine Ext.bind Ext.getNextToken fun _ => ?_
  refine Ext.bind (Ext.parseWith _) fun _ => ?_
  exact Ext.bind (Ext.expectNext _) fun _ => Ext.pure _

theorem ext_samples (fuel : ℕ) (acc : List Sample) : Ext (parseSamples fuel acc) := by
  induction fuel generalizing acc with
  | zero => exact Ext.fail _
  | succ fuel ih =>
    refine Ext.bind (Ext.getNextTokenEquals _) fun b => ?_
    refine Ext.ite _ (Ext.pure _) ?_
    exact Ext.bind (ext_sample _) fun _ => ih _

theorem ext_child (key : List Char) {sub : P Tree} (h : Ext sub) : Ext (parseChild key sub) := by
  unfold parseChild
  refine Ext.bind (Ext.getTokenEquals _) fun b => ?_
  refine Ext.ite _ ?_ (Ext.pure _)
  exact Ext.bind h fun _ => Ext.bind Ext.getNextToken fun _ => Ext.pure _

theorem ext_node (fuel : ℕ) : Ext (parseNode fuel) := by
  induction fuel with
  | zero => exact Ext.fail _
  | succ fuel ih =>
    rw [parseNode_succ]
    refine Ext.bind (Ext.expectNext _) fun _ => ?_
    refine Ext.bind (ext_keyVal _ (Ext.parseWith _)) fun _ => ?_
    refine Ext.bind (ext_keyVal _ (Ext.parseWith _)) fun _ => ?_
    refine Ext.bind (ext_keyVal _ (Ext.parseWith _)) fun _ => ?_
    refine Ext.bind (ext_keyVal _ (Ext.parseWith _)) fun _ => ?_
    refine Ext.bind (ext_keyVal _ (Ext.parseWith _)) fun _ => ?_
    refine Ext.bind (Ext.expectNext _) fun _ => ?_
    refine Ext.bind (Ext.expectNext _) fun _ => ?_
    refine Ext.bind (ext_counts _ _) fun _ => ?_
    refine Ext.bind Ext.getNextToken fun _ => ?_
    refine Ext.bind (ext_child _ ih) fun _ => ?_
    refine Ext.bind (ext_child _ ih) fun _ => ?_
    exact Ext.bind (Ext.parseExpected _) fun _ => Ext.pure _

theorem ext_tree (fuel : ℕ) (t : TreeImpl) : Ext (parseTree fuel t) := by
  unfold parseTree parseData
  refine Ext.bind (Ext.expectNext _) fun _ => ?_
  refine Ext.bind (Ext.expectNext _) fun _ => ?_
  refine Ext.bind (ext_keyVal _ Ext.parseUnsigned) fun _ => ?_
  refine Ext.bind (Ext.expectNext _) fun _ => ?_
  refine Ext.bind (Ext.expectNext _) fun _ => ?_
  refine Ext.bind (ext_classes _ _) fun _ => ?_
  refine Ext.bind (ext_keyVal _ Ext.parseUnsigned) fun _ => ?_
  refine Ext.bind (Ext.expectNext _) fun _ => ?_
  refine Ext.bind (ext_node _) fun _ => ?_
  refine Ext.bind (Ext.bind (Ext.expectNext _) fun _ => Ext.bind (Ext.expectNext _) fun _ =>
    ext_samples _ _) fun _ => ?_
  exact Ext.bind (Ext.expectNext _) fun _ => Ext.pure _

/-! ## Comments -/

theorem skipBlanks_comment (c : List Char) (hc : '\n' ∉ c) (s : List Char) :
    skipBlanks true (c ++ '\n' :: s) = skipBlanks false s := by
  induction c with
  | nil => simp [skipBlanks]
  | cons x c ih =>
    simp only [List.mem_cons, not_or] at hc
    simp only [List.cons_append, skipBlanks]
    rw [if_neg (Ne.symm hc.1)]
    exact ih hc.2

/-- A comment line before a text is skipped. -/
theorem getNextToken_comment (c : List Char) (hc : '\n' ∉ c) {s : List Char} (hs : s ≠ [])
    (b : List Char) (o : ℕ) :
    getNextToken ⟨'#' :: (c ++ '\n' :: s), b, o⟩ = getNextToken ⟨s, b, o⟩ := by
  have : nextToken ('#' :: (c ++ '\n' :: s)) = nextToken s := by
    obtain ⟨x, r, rfl⟩ : ∃ x r, s = x :: r := by
      cases s with
      | nil => exact absurd rfl hs
      | cons x r => exact ⟨x, r, rfl⟩
    rw [nextToken_cons, nextToken_cons]
    have : skipBlanks false ('#' :: (c ++ '\n' :: (x :: r))) = skipBlanks false (x :: r) := by
      rw [skipBlanks, if_neg (by decide), if_pos rfl]
      exact skipBlanks_comment c hc _
    rw [this]
  simp only [getNextToken, this]

theorem bind_comment {α : Type} (c : List Char) (hc : '\n' ∉ c) {s : List Char} (hs : s ≠ [])
    (e : List Char) (g : Unit → P α) (b : List Char) (o : ℕ) :
    (expectNext e >>= g) ⟨'#' :: (c ++ '\n' :: s), b, o⟩ = (expectNext e >>= g) ⟨s, b, o⟩ := by
  unfold expectNext
  simp only [P.bind_apply, getNextToken_comment c hc hs]

theorem treeText_ne_nil (level : ℕ) (t : TreeImpl) : treeText level t ≠ [] := by
  intro h
  have := congrArg List.length h
  unfold treeText at this
  simp only [List.length_append] at this
  have h2 : ("tree".toList).length = 4 := by decide
  rw [h2] at this
  simp only [List.length_nil] at this
  omega

theorem save_ok_iff {t : TreeImpl} {s : List Char} : t.save = .ok s ↔
    t.root ≠ .nil ∧ t.root.all (fun n => |n.threshold| ≤ maxFloat) = true ∧
    t.root.all (fun n => t.classes.length ≤ n.counts.length) = true ∧
    s = "# DecisionTreeImpl\n".toList ++ treeText 0 t := by
  unfold TreeImpl.save outputTree
  constructor
  · intro h
    obtain ⟨x, h1, h2⟩ := (Res.bind_eq_ok _ _ _).1 h
    split at h1
    · cases h1
    · split at h1
      · cases h1
      · split at h1
        · next ha hb hc =>
          cases h1
          cases h2
          exact ⟨ha, by simpa using hb, hc, rfl⟩
        · cases h1
  · rintro ⟨ha, hb, hc, rfl⟩
    rw [if_neg ha, if_neg (by simpa using hb), if_pos hc]
    rfl

theorem parseTree_comment (fuel : ℕ) (t0 t : TreeImpl) (rest b : List Char) (o : ℕ) :
    parseTree fuel t0 ⟨"# DecisionTreeImpl\n".toList ++ (treeText 0 t ++ rest), b, o⟩ =
      parseTree fuel t0 ⟨treeText 0 t ++ rest, b, o⟩ := by
  have e : "# DecisionTreeImpl\n".toList ++ (treeText 0 t ++ rest) =
      '#' :: (" DecisionTreeImpl".toList ++ '\n' :: (treeText 0 t ++ rest)) := by
    generalize treeText 0 t ++ rest = x
    simp
  rw [e]
  exact bind_comment _ (by decide) (by simp [treeText_ne_nil]) _ _ _ _

theorem parseTree_no_prefix (fuel : ℕ) (t0 t : TreeImpl) (hroot : t.root ≠ .nil) (s d : List Char)
    (he : s ++ d = "# DecisionTreeImpl\n".toList ++ treeText 0 t) (hd : d ≠ []) (x : TreeImpl × PS) :
    parseTree fuel t0 ⟨s, [], 0⟩ ≠ .ok x := by
  cases s with
  | nil =>
    intro h
    simp [parseTree, expectNext, P.bind_apply, getNextToken, nextToken, parseExpected, PS.tok] at h
  | cons c s =>
    refine (ext_tree fuel t0).no_prefix (d := d) hd (by simp) ?_ x
    intro a s' h
    rw [he] at h
    have := parseTree_comment fuel t0 t [] [] 0
    rw [List.append_nil] at this
    rw [this] at h
    have hw := wtoks_tree 0 t (w := []) (by intro c hc; cases hc) []
    simp only [List.nil_append, List.append_nil] at hw
    rw [(consumes_tree fuel t0 t hroot).run hw h]
    simp

/-! ## Termination -/

theorem term_keyVal {α : Type} {n : ℕ} (key : List Char) {parse : P α} (hp : Term parse n) :
    Term (parseKeyVal key parse) n := by
  unfold parseKeyVal
  refine Term.bind (Term.expectNext _) fun _ => ?_
  refine Term.bind Term.getNextToken fun _ => ?_
  refine Term.bind hp fun _ => ?_
  exact Term.bind (Term.parseExpected _) fun _ => Term.pure _

theorem term_counts (n : ℕ) (acc : List ℕ) : Term (parseCounts n acc) n := by
  induction n generalizing acc with
  | zero => exact ⟨fun s h => absurd h (by omega), fun s x h => by cases h⟩
  | succ n ih =>
    unfold parseCounts getNextTokenEquals
    rw [bind_assoc]
    refine Term.loop ?_ ?_
    · intro o h
      simp [P.bind_apply, getTokenEquals, PS.tok, parseInt, parseWith_apply, Term.stoi_nil] at h
    · refine Term.bind (Term.getTokenEquals _) fun b => ?_
      refine Term.ite (Term.pure _) ?_
      refine Term.bind Term.parseInt fun _ => ?_
      refine Term.bind (Term.parseExpected _) fun _ => ?_
      refine Term.bind Term.getNextToken fun _ => ?_
      refine Term.bind Term.parseUnsignedLong fun _ => ?_
      exact Term.bind (Term.parseExpected _) fun _ => ih _

theorem term_feats (n : ℕ) (acc : Features) : Term (parseFeatures n acc) n := by
  induction n generalizing acc with
  | zero => exact ⟨fun s h => absurd h (by omega), fun s x h => by cases h⟩
  | succ n ih =>
    unfold parseFeatures getNextTokenEquals
    rw [bind_assoc]
    refine Term.loop ?_ ?_
    · intro o h
      simp [P.bind_apply, getTokenEquals, PS.tok, parseFloat, parseWith_apply, Term.stof_nil] at h
    · refine Term.bind (Term.getTokenEquals _) fun b => ?_
      refine Term.ite (Term.pure _) ?_
      refine Term.bind Term.parseFloat fun _ => ?_
      exact Term.bind (Term.parseExpected _) fun _ => ih _

theorem term_classes (n : ℕ) (acc : List ℤ) : Term (parseClasses n acc) n := by
  induction n generalizing acc with
  | zero => exact ⟨fun s h => absurd h (by omega), fun s x h => by cases h⟩
  | succ n ih =>
    unfold parseClasses getNextTokenEquals
    rw [bind_assoc]
    refine Term.loop ?_ ?_
    · intro o h
      simp [P.bind_apply, getTokenEquals, PS.tok, parseInt, parseWith_apply, Term.stoi_nil] at h
    · refine Term.bind (Term.getTokenEquals _) fun b => ?_
      refine Term.ite (Term.pure _) ?_
      refine Term.bind Term.parseInt fun _ => ?_
      exact Term.bind (Term.parseExpected _) fun _ => ih _

theorem term_sample (n : ℕ) : Term (parseSample n) n := by
  unfold parseSample
  refine Term.bind (Term.expectNext _) fun _ => ?_
  refine Term.bind (Term.expectNext _) fun _ => ?_
  refine Term.bind (Term.expectNext _) fun _ => ?_
  refine Term.bind (term_feats _ _) fun _ => ?_
  refine Term.bind (Term.expectNext _) fun _ => ?_
  refine Term.bind Term.getNextToken fun _ => ?_
  refine Term.bind Term.parseInt fun _ => ?_
  exact Term.bind (Term.expectNext _) fun _ => Term.pure _

theorem expectNext_nil (e : List Char) (he : e ≠ []) (b : List Char) (o : ℕ) :
    expectNext e ⟨[], b, o⟩ = .error .abort := by
  unfold expectNext
  rw [P.bind_apply]
  simp only [getNextToken, nextToken, Res.bind_ok]
  rw [parseExpected_apply, if_neg]
  simpa [PS.tok] using Ne.symm he

theorem term_samples (n : ℕ) (acc : List Sample) : Term (parseSamples n acc) n := by
  induction n generalizing acc with
  | zero => exact ⟨fun s h => absurd h (by omega), fun s x h => by cases h⟩
  | succ n ih =>
    unfold parseSamples getNextTokenEquals
    rw [bind_assoc]
    refine Term.loop ?_ ?_
    · intro o h
      simp only [P.bind_apply, getTokenEquals, PS.tok, Res.bind_ok, List.drop_nil] at h
      rw [if_neg (by decide)] at h
      unfold parseSample at h
      simp only [P.bind_apply, expectNext_nil "{".toList (by decide), Res.bind_error] at h
      cases h
    · refine Term.bind (Term.getTokenEquals _) fun b => ?_
      refine Term.ite (Term.pure _) ?_
      exact Term.bind (term_sample _) fun _ => ih _

theorem term_child {n : ℕ} (key : List Char) {sub : P Tree} (h : Term sub n) :
    Term (parseChild key sub) n := by
  unfold parseChild
  refine Term.bind (Term.getTokenEquals _) fun b => ?_
  refine Term.ite ?_ (Term.pure _)
  exact Term.bind h fun _ => Term.bind Term.getNextToken fun _ => Term.pure _

theorem term_node (n : ℕ) : Term (parseNode n) n := by
  induction n with
  | zero => exact ⟨fun s h => absurd h (by omega), fun s x h => by cases h⟩
  | succ n ih =>
    rw [parseNode_succ]
    unfold expectNext
    rw [bind_assoc]
    refine Term.loop ?_ ?_
    · intro o h
      rw [P.bind_apply, parseExpected_apply, if_neg (by simp [PS.tok])] at h
      cases h
    refine Term.bind (Term.parseExpected _) fun _ => ?_
    refine Term.bind (term_keyVal _ Term.parseFloat) fun _ => ?_
    refine Term.bind (term_keyVal _ Term.parseUnsignedLong) fun _ => ?_
    refine Term.bind (term_keyVal _ Term.parseInt) fun _ => ?_
    refine Term.bind (term_keyVal _ Term.parseInt) fun _ => ?_
    refine Term.bind (term_keyVal _ Term.parseFloat) fun _ => ?_
    refine Term.bind (Term.expectNext _) fun _ => ?_
    refine Term.bind (Term.expectNext _) fun _ => ?_
    refine Term.bind (term_counts _ _) fun _ => ?_
    refine Term.bind Term.getNextToken fun _ => ?_
    refine Term.bind (term_child _ ih) fun _ => ?_
    refine Term.bind (term_child _ ih) fun _ => ?_
    exact Term.bind (Term.parseExpected _) fun _ => Term.pure _

theorem term_tree (n : ℕ) (t : TreeImpl) : Term (parseTree n t) n := by
  unfold parseTree parseData
  refine Term.bind (Term.expectNext _) fun _ => ?_
  refine Term.bind (Term.expectNext _) fun _ => ?_
  refine Term.bind (term_keyVal _ Term.parseUnsigned) fun _ => ?_
  refine Term.bind (Term.expectNext _) fun _ => ?_
  refine Term.bind (Term.expectNext _) fun _ => ?_
  refine Term.bind (term_classes _ _) fun _ => ?_
  refine Term.bind (term_keyVal _ Term.parseUnsigned) fun _ => ?_
  refine Term.bind (Term.expectNext _) fun _ => ?_
  refine Term.bind (term_node _) fun _ => ?_
  refine Term.bind (Term.bind (Term.expectNext _) fun _ => Term.bind (Term.expectNext _) fun _ =>
    term_samples _ _) fun _ => ?_
  exact Term.bind (Term.expectNext _) fun _ => Term.pure _

theorem TreeImpl.load_terminates (t : TreeImpl) (s : List Char) : t.load s ≠ .error .diverge := by
  intro h
  unfold TreeImpl.load at h
  cases hx : parseTree (s.length + 1) t ⟨s, [], 0⟩ with
  | error e =>
    rw [hx] at h
    simp only [Res.bind_error] at h
    exact (term_tree (s.length + 1) t).nd ⟨s, [], 0⟩ (by simp) (by rw [hx]; cases h; rfl)
  | ok x => rw [hx] at h; cases h

end Apollo
