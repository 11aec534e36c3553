import Verif.Proofs.ForestDot
import Verif.Proofs.TreeIO

/-!
# The text that `print_tree` and `print_forest` write
-/

namespace Apollo.YamlText

open Spec Yaml

/-- The text of a tree without data up to the end of the root. -/
def printHead (t : TreeImpl) : List Char :=
  "tree: {\n".toList ++ headText 0 t ++ nodeText t.classes 1 "root".toList t.root

theorem printText_eq (t : TreeImpl) : printText t = printHead t ++ "  },\n".toList ++ "}\n".toList := by
  unfold printText printHead headText
  generalize nodeText t.classes 1 "root".toList t.root = x
  generalize (t.classes.map fun c => fmtInt c ++ ", ".toList).flatten = y
  simp [indent]

theorem printTree_ok {t : TreeImpl} {u : List Char} (h : t.printTree = .ok u) :
    u = printText t ∧ t.root ≠ .nil := by
  unfold TreeImpl.printTree at h
  split at h
  · cases h
  · next hn =>
    split at h
    · cases h
    · split at h
      · cases h; exact ⟨rfl, hn⟩
      · cases h

/-- A document without a comment, with anything after its value. -/
theorem read_plain {k u r : List Char} {v : Yaml} (hk : Scal k) (hh : k.head? ≠ some '#') (hu : Val u v)
    (hr : Stop r) : Yaml.read (k ++ (": ".toList ++ (u ++ r))) =
      if r.all isSpace then some (.map [(k, v)]) else none := by
  have h0 : (match k ++ (": ".toList ++ (u ++ r)) with
    | '#' :: s => s.dropWhile (· ≠ '\n')
    | s => s) = k ++ (": ".toList ++ (u ++ r)) := by
    cases k with
    | nil => rfl
    | cons c k =>
      have hc : c ≠ '#' := fun e => hh (by simp [e])
      rw [List.cons_append]
      split
      · next he =>
        injection he with h1 h2
        exact absurd h1 hc
      · rfl
  have h1 := readScalar_scal blank_nil hk (stop_colon (' ' :: (u ++ r)))
  rw [List.nil_append] at h1
  have h2 := hu ((u ++ r).length + 1) r (by simp; omega) hr
  have e : k ++ (": ".toList ++ (u ++ r)) = k ++ ':' :: ' ' :: (u ++ r) := by simp
  unfold Yaml.read
  refine (congrArg (fun x => (do
    let (k, s) ← readScalar x
    let s ← readColon s
    let (v, s) ← readValue (s.length + 1) s
    if s.all isSpace then some (Yaml.map [(k, v)]) else none)) h0).trans ?_
  simp only
  rw [e, h1]
  simp only [Option.bind_eq_bind, Option.bind_some]
  have h3 : readColon (':' :: ' ' :: (u ++ r)) = some (u ++ r) := rfl
  rw [h3]
  simp only [Option.bind_some, h2]

/-- The mapping of a tree without its data. -/
def printYaml (t : TreeImpl) : Yaml :=
  .map (headFields t ++ childFields t.classes "root".toList t.root)

theorem print_val (t : TreeImpl) {ws : List Char} (hw : AllBlank ws) :
    Val ('{' :: ('\n' :: (headText 0 t ++ (nodeText t.classes 1 "root".toList t.root ++ (ws ++ ['}'])))))
      (printYaml t) := by
  have h0 : Flds (ws ++ ['}']) [] := .blank hw .nil
  have h3 := headText_flds 0 t (nodeText_flds t.classes t.root 1 (key := "root".toList)
    (scal_word (by decide) (by decide)) h0)
  rw [List.append_nil] at h3
  exact (Val.map blank_nil (Flds.blank blank_nl h3)).of_eq (by simp)

theorem read_print (t : TreeImpl) : Yaml.read (printText t) = none := by
  have h := read_plain (k := "tree".toList) (r := ",\n}\n".toList) (scal_word (by decide) (by decide)) (by decide)
    (print_val t (ws := indent 1) (blank_ind 1)) ⟨_, _, rfl, by decide⟩
  rw [if_neg (by decide)] at h
  rw [← h, printText_eq]
  unfold printHead
  generalize nodeText t.classes 1 "root".toList t.root = x
  generalize headText 0 t = y
  simp [indent]

/-- Without the stray line. -/
theorem read_mended (t : TreeImpl) :
    Yaml.read (printHead t ++ "}\n".toList) = some (.map [("tree".toList, printYaml t)]) := by
  have h := read_plain (k := "tree".toList) (r := "\n".toList) (scal_word (by decide) (by decide)) (by decide)
    (print_val t (ws := []) blank_nil) ⟨_, _, rfl, by decide⟩
  rw [if_pos (by decide)] at h
  rw [← h]
  unfold printHead
  generalize nodeText t.classes 1 "root".toList t.root = x
  generalize headText 0 t = y
  simp

theorem read_printForest {f : ForestImpl} {u : List Char} (h : f.printForest = .ok u) :
    f.save = .ok ("# RandomForestImpl\n".toList ++ u) ∧ Yaml.read u = some (.map [("rfc".toList, forestYaml f)]) := by
  have hs : f.save = .ok ("# RandomForestImpl\n".toList ++ u) := by
    unfold ForestImpl.printForest at h
    obtain ⟨ts, hts, h⟩ := (Res.bind_eq_ok _ _ _).1 h
    cases h
    unfold ForestImpl.save
    rw [hts, Res.bind_ok]
    simp
  refine ⟨hs, ?_⟩
  have hr := read_forest hs
  rw [← hr]
  have e : ∃ v, u = 'r' :: v := by
    unfold ForestImpl.printForest at h
    obtain ⟨ts, hts, h⟩ := (Res.bind_eq_ok _ _ _).1 h
    cases h
    exact ⟨_, rfl⟩
  obtain ⟨v, rfl⟩ := e
  rfl

end Apollo.YamlText

namespace Apollo.DotText

open Spec YamlText

theorem parseTree_print (py : PyText) (t : TreeImpl) (fuel : ℕ) (base : List Char) (h : t.root ≠ .nil)
    (hf : height t.root ≤ fuel) :
    Dot.parseTree py fuel (.map [("tree".toList, printYaml t)]) base = some (treeDot py base t) := by
  unfold Dot.parseTree
  have h1 : Dot.dict (.map [("tree".toList, printYaml t)]) = some [("tree".toList, printYaml t)] :=
    dict_nodup (by simp)
  have hc : childFields t.classes "root".toList t.root = [("root".toList, nodeYaml t.classes t.root)] :=
    if_neg h
  have h2 : Dot.dict (printYaml t) = some (headFields t ++ [("root".toList, nodeYaml t.classes t.root)]) := by
    unfold printYaml; rw [hc]; apply dict_nodup
    simp only [headFields, num, List.map_append, List.map_cons, List.map_nil]; decide
  have h3 : ([("tree".toList, printYaml t)] : List (List Char × Yaml)).lookup "tree".toList = some (printYaml t) := by
    simp [List.lookup]
  have h4 : (headFields t ++ [("root".toList, nodeYaml t.classes t.root)]).lookup "root".toList =
      some (nodeYaml t.classes t.root) := by
    simp [headFields, num, List.lookup]
  rw [h1]
  simp only [Option.bind_eq_bind, Option.bind_some, h3, h2, h4, parseNode_yaml py t.classes t.root fuel _ h hf]
  simp [Dot.labelLines, headFields, num, PyText.strYaml, PyText.reprYaml, reprItems_ints, treeDot, declText,
    edgeText, treeLabel, labelOf]

theorem height_le_print (t : TreeImpl) : height t.root ≤ (printHead t).length := by
  have := height_le_text t.classes t.root 1 "root".toList
  unfold printHead
  rw [List.length_append]
  omega

theorem printForest_height {f : ForestImpl} {u : List Char} (h : f.printForest = .ok u) :
    ∀ t ∈ f.trees, height t.root ≤ u.length := by
  unfold ForestImpl.printForest at h
  obtain ⟨x, hx, h⟩ := (Res.bind_eq_ok _ _ _).1 h
  cases h
  intro t ht
  have := (treesText_ok hx t ht).2
  simp only [List.length_append]
  omega

theorem parseTrees_missing (py : PyText) (fuel : ℕ) (ts : List Yaml) : ∀ (k i : ℕ), ts.length < i + k →
    i ≤ ts.length → Dot.parseTrees py fuel ts k i = none
  | 0, i, h, h' => by omega
  | k + 1, i, h, h' => by
    unfold Dot.parseTrees
    by_cases hi : i < ts.length
    · rw [parseTrees_missing py fuel ts k (i + 1) (by omega) hi, List.getElem?_eq_getElem hi]
      simp
    · rw [List.getElem?_eq_none (by omega)]
      rfl

end Apollo.DotText

namespace Apollo

/-- On a stream starting with the tokens `ts` the action fails. -/
def Stuck {α : Type} (f : P α) (ts : List (List Char)) : Prop :=
  ∀ s k r b o, WToks r s (ts ++ k) → ∃ e, f ⟨s, b, o⟩ = .error e

namespace Stuck

variable {α β : Type}

theorem bind {f : P α} {g : α → P β} {ts1 ts2 : List (List Char)} (hf : Consumes f ts1)
    (hg : ∀ a, Stuck (g a) ts2) : Stuck (f >>= g) (ts1 ++ ts2) := by
  intro s k r b o h
  rw [List.append_assoc] at h
  rw [P.bind_apply]
  rcases hf s _ r b o h with ⟨a, s', h1, e1⟩ | ⟨e, he⟩
  · rw [e1, Res.bind_ok]
    exact hg a s'.is k r s'.buf s'.off h1
  · rw [he]; exact ⟨e, rfl⟩

theorem bind1 {f : P α} {g : α → P β} {t : List Char} {ts : List (List Char)} (hf : Consumes f [t])
    (hg : ∀ a, Stuck (g a) ts) : Stuck (f >>= g) (t :: ts) := bind hf hg

theorem left {f : P α} {g : α → P β} {ts : List (List Char)} (hf : Stuck f ts) : Stuck (f >>= g) ts := by
  intro s k r b o h
  obtain ⟨e, he⟩ := hf s k r b o h
  exact ⟨e, by rw [P.bind_apply, he]; rfl⟩

theorem expectNext {e t : List Char} {ts : List (List Char)} (hn : ∀ c ∈ t, c ≠ nul) (hne : t ≠ e) :
    Stuck (Apollo.expectNext e) (t :: ts) := by
  intro s k r b o h
  cases h with
  | cons w _ s' _ hw ht hs h' =>
    unfold Apollo.expectNext
    rw [P.bind_apply]
    rcases getNextToken_wpiece hw ht hs b o with h | h
    · rw [h, Res.bind_ok, parseExpected_apply]
      have hc : cstr t = t := takeWhile_eq_self (fun c hc => by simpa using hn c hc)
      refine ⟨.abort, if_neg ?_⟩
      simpa [PS.tok, hc] using hne
    · exact ⟨_, by rw [h]; rfl⟩

end Stuck

/-- The tokens of the text that `print_tree` writes. -/
def printToks (t : TreeImpl) : List (List Char) :=
  "tree:".toList :: "{".toList :: "max_depth:".toList :: (fmtInt t.maxDepth ++ [',']) ::
    "classes:".toList :: "[".toList :: (((t.classes.map fun c => fmtInt c ++ [',']) ++ ["],".toList]) ++
    ("num_features:".toList :: (fmtInt t.numFeatures ++ [',']) :: "root:".toList ::
    ((nodeToks t.classes "root:".toList t.root).tail ++ ("},".toList :: "}".toList :: []))))

theorem fails_print (fuel : ℕ) (t0 t : TreeImpl) (h : t.root ≠ .nil) :
    Stuck (parseTree fuel t0) (printToks t) := by
  unfold parseTree parseData printToks
  refine Stuck.bind1 (Consumes.expectNext _ _) fun _ => ?_
  refine Stuck.bind1 (Consumes.expectNext _ _) fun _ => ?_
  refine Stuck.bind (ts1 := [_, _]) (consumes_keyVal _ Consumes.parseUnsigned _ _) fun _ => ?_
  refine Stuck.bind1 (Consumes.expectNext _ _) fun _ => ?_
  refine Stuck.bind1 (Consumes.expectNext _ _) fun _ => ?_
  refine Stuck.bind (consumes_classes _ _ _) fun _ => ?_
  refine Stuck.bind (ts1 := [_, _]) (consumes_keyVal _ Consumes.parseUnsigned _ _) fun _ => ?_
  refine Stuck.bind1 (Consumes.expectNext _ _) fun _ => ?_
  refine Stuck.bind (cons_node _ _ _ _ h).consumes fun _ => ?_
  rw [bind_assoc]
  exact Stuck.left (Stuck.expectNext (by decide) (by decide))

theorem wtoks_print (t : TreeImpl) (h : t.root ≠ .nil) :
    WToks ['\n'] (printText t) (printToks t) := by
  have e : printText t = spaced ["tree:".toList, "{".toList] ('\n' ::
      (indent 1 ++ spaced ["max_depth:".toList, fmtInt t.maxDepth ++ [',']] ('\n' ::
      (indent 1 ++ spaced (["classes:".toList, "[".toList] ++
        ((t.classes.map fun c => fmtInt c ++ [',']) ++ ["],".toList])) ('\n' ::
      (indent 1 ++ spaced ["num_features:".toList, fmtInt t.numFeatures ++ [',']] ('\n' ::
      (nodeText t.classes 1 "root".toList t.root ++
      (indent 1 ++ spaced ["},".toList] ('\n' ::
      (indent 0 ++ spaced ["}".toList] ['\n']))))))))))) := by
    rw [spaced_append _ (by simp), spaced_append _ (by simp)]
    have : ((t.classes.map fun c => fmtInt c ++ [',']).map fun t => t ++ " ".toList) =
        t.classes.map fun c => fmtInt c ++ ", ".toList := by
      rw [List.map_map]
      refine List.map_congr_left fun a _ => ?_
      simp
    rw [this]
    unfold printText
    generalize nodeText t.classes 1 "root".toList t.root = x
    generalize (t.classes.map fun c => fmtInt c ++ ", ".toList) = y
    simp [spaced, indent]
  rw [e]
  have e2 : printToks t = ["tree:".toList, "{".toList] ++ (
      ["max_depth:".toList, fmtInt t.maxDepth ++ [',']] ++ ((["classes:".toList, "[".toList] ++
        ((t.classes.map fun c => fmtInt c ++ [',']) ++ ["],".toList])) ++
      (["num_features:".toList, fmtInt t.numFeatures ++ [',']] ++
      (nodeToks t.classes ("root".toList ++ [':']) t.root ++ (["},".toList] ++ ["}".toList]))))) := by
    have hr : nodeToks t.classes ("root".toList ++ [':']) t.root =
        "root:".toList :: (nodeToks t.classes "root:".toList t.root).tail := nodeToks_root h
    rw [hr]
    unfold printToks
    generalize (nodeToks t.classes "root:".toList t.root).tail = x
    simp
  rw [e2]
  have lit2 : ∀ {a b : List Char}, WTok a → WTok b → ∀ t ∈ [a, b], WTok t := by
    intro a b ha hb t ht
    simp only [List.mem_cons, List.not_mem_nil, or_false] at ht
    rcases ht with rfl | rfl <;> assumption
  have lit1 : ∀ {a : List Char}, WTok a → ∀ t ∈ [a], WTok t := by
    intro a ha t ht
    simp only [List.mem_singleton] at ht
    subst ht; exact ha
  have hw : Blank [] := by intro c hc; cases hc
  rw [← List.nil_append (spaced ["tree:".toList, "{".toList] _)]
  refine (wtoks_spaced (by simp) (lit2 (wTok_of_b (by decide)) (wTok_of_b (by decide)))
    hw (startsBlank_cons (by decide))).append ?_
  refine (wtoks_line _ (by simp) (lit2 (wTok_of_b (by decide)) (wTok_int _ _ (by decide))) _).append ?_
  refine (wtoks_line _ (by simp) ?_ _).append ?_
  · intro u hu
    rw [List.mem_append, List.mem_append] at hu
    rcases hu with hu | hu | hu
    · exact lit2 (wTok_of_b (by decide)) (wTok_of_b (by decide)) u hu
    · obtain ⟨c, -, rfl⟩ := List.mem_map.1 hu
      exact wTok_int _ _ (by decide)
    · exact lit1 (wTok_of_b (by decide)) u hu
  refine (wtoks_line _ (by simp) (lit2 (wTok_of_b (by decide)) (wTok_int _ _ (by decide))) _).append ?_
  refine (wtoks_node _ _ _ _ _ (wTok_of_b (by decide))).append ?_
  refine (wtoks_line _ (by simp) (lit1 (wTok_of_b (by decide))) _).append ?_
  exact wtoks_line _ (by simp) (lit1 (wTok_of_b (by decide))) _

theorem load_print (t0 t : TreeImpl) (h : t.root ≠ .nil) : ∃ e, t0.load (printText t) = .error e := by
  obtain ⟨e, he⟩ := fails_print ((printText t).length + 1) t0 t h _ [] _ [] 0
    (by rw [List.append_nil]; exact wtoks_print t h)
  refine ⟨e, ?_⟩
  unfold TreeImpl.load
  rw [he]; rfl

end Apollo
