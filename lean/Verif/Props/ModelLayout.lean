import Verif.Proofs.ModelLayout
import Verif.Props.Forest

/-!
# C129: the layout of the files of trees and forests

`textWords` are the words of a text, that is, what is between white space.  Behind the comment in the first
line, only the words of a file count.
-/

namespace Apollo.Props

open Apollo Apollo.Spec

/-- C129 for trees: a text with the same words as the file of a tree behind its first line, in whatever
layout, is loaded without error, and gives the same tree object as the file. -/
theorem C129_tree (t : TreeImpl) (body : List Char) (hs : t.save = .ok ("# DecisionTreeImpl\n".toList ++ body))
    (hok : TreeOk t) (hl : t.data.length ≤ 2 ^ 64) (text : List Char) (hw : textWords text = textWords body)
    (he : EndsWhite text) (t0 : TreeImpl) :
    ∃ t', t0.load text = .ok t' ∧ t0.load ("# DecisionTreeImpl\n".toList ++ body) = .ok t' := by
  obtain ⟨hroot, -, -, e⟩ := save_ok_iff.1 hs
  rw [List.append_cancel_left e] at hw
  exact ⟨_, TreeImpl.load_words hroot hok hl t0 he hw, TreeImpl.load_save hs hok hl t0⟩

/-- C129 for forests. -/
theorem C129_forest (f : ForestImpl) (body : List Char)
    (hs : f.save = .ok ("# RandomForestImpl\n".toList ++ body)) (hok : ForestOk f) (text : List Char)
    (hw : textWords text = textWords body) (he : EndsWhite text) (f0 : ForestImpl)
    (hn : f0.numClasses = f.numClasses) :
    ∃ f', f0.load text = .ok f' ∧ f0.load ("# RandomForestImpl\n".toList ++ body) = .ok f' := by
  obtain ⟨ts, hts, e⟩ := forest_save_ok_iff.1 hs
  rw [List.append_cancel_left e] at hw
  exact ⟨_, ForestImpl.load_words hts hok f0 hn he hw, ForestImpl.load_save hs hok f0 hn⟩

/-- The words of a text. -/
example : textWords " tree: {\n\tmax_depth: 2,\n\n}  ".toList =
    ["tree:".toList, "{".toList, "max_depth:".toList, "2,".toList, "}".toList] := by decide +kernel

/-- A tree that predicts two classes, in one line, with every kind of white space. -/
def oneLine : List Char :=
  ("tree:\x0b{\x0cmax_depth:\r1, classes:\t[ 0, 1, ], num_features: 1, " ++
    "root: { gini: 0.5, num_samples: 2, predicted_class: 0, feature_idx: 0, threshold: 1.5, " ++
    "count_per_class: { 0: 1, 1: 1, }, " ++
    "left: { gini: 0, num_samples: 1, predicted_class: 0, feature_idx: -1, threshold: 0, " ++
    "count_per_class: { 0: 1, 1: 0, }, }, " ++
    "right: { gini: 0, num_samples: 1, predicted_class: 1, feature_idx: -1, threshold: 0, " ++
    "count_per_class: { 0: 0, 1: 1, }, }, }, " ++
    "data: { 0: { features: [ 1, ], class: 0 }, 1: { features: [ 2, ], class: 1 }, }, }").toList ++ ['\t']

theorem oneLine_words : textWords oneLine = textWords (treeText 0 (twoLeaves (3 / 2))) := by decide +kernel

theorem oneLine_white : EndsWhite oneLine := by
  unfold oneLine
  exact ⟨_, '\t', rfl, by decide⟩

/-- It meets the hypotheses, and the loaded tree predicts the two classes. -/
example : (∃ body, (twoLeaves (3 / 2)).save = .ok ("# DecisionTreeImpl\n".toList ++ body) ∧
      textWords oneLine = textWords body) ∧ EndsWhite oneLine ∧ TreeOk (twoLeaves (3 / 2)) :=
  ⟨⟨treeText 0 (twoLeaves (3 / 2)), save_ok_iff.2 ⟨by simp [twoLeaves], by decide +kernel, by decide, rfl⟩,
    oneLine_words⟩, oneLine_white, treeOk_twoLeaves (Or.inr ⟨by norm_num, by norm_num⟩)⟩

example : (match (TreeImpl.new 2 7).load oneLine with
    | .ok t => decide (t = twoLeaves (3 / 2) ∧ t.predict [1] = .ok 0 ∧ t.predict [2] = .ok 1)
    | .error _ => false) = true := by decide +kernel

/-- A forest of three trees meets the hypotheses. -/
example : ForestOk threeTrees ∧ ∃ body text, threeTrees.save = .ok ("# RandomForestImpl\n".toList ++ body) ∧
    textWords text = textWords body ∧ EndsWhite text ∧ '\n' ∉ text := by
  refine ⟨forestOk_threeTrees, ?_⟩
  have key : (match threeTrees.save with
      | .ok s =>
        let text := s.map fun c => if c = '\n' then ' ' else c
        decide (s = "# RandomForestImpl\n".toList ++ s.drop 19 ∧
          textWords (text.drop 19) = textWords (s.drop 19) ∧
          text.drop 19 = (text.drop 19).dropLast ++ [' '] ∧ '\n' ∉ text.drop 19)
      | .error _ => false) = true := by decide +kernel
  cases hs : threeTrees.save with
  | error e => rw [hs] at key; cases key
  | ok s =>
    rw [hs] at key
    obtain ⟨h1, h2, h3, h4⟩ := of_decide_eq_true key
    exact ⟨_, _, congrArg Except.ok h1, h2, ⟨_, _, h3, by decide⟩, h4⟩

end Apollo.Props
