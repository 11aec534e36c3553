import Verif.Proofs.FileLayout
import Verif.Proofs.Forest
import Verif.Proofs.TreeStore
import Verif.Spec.TextWords

/-! Helper lemmas: loading the files of trees and forests in any layout. -/

namespace Apollo

theorem mem_whiteSpace {c : Char} : c ∈ Spec.whiteSpace ↔ isSpace c = true := by
  simp only [Spec.whiteSpace, List.mem_cons, List.not_mem_nil, or_false, isSpace, Bool.or_eq_true,
    decide_eq_true_eq]
  tauto

theorem wordsFrom_blank {w : List Char} (hw : Blank w) (s : List Char) :
    Spec.wordsFrom [] (w ++ s) = Spec.wordsFrom [] s := by
  induction w with
  | nil => rfl
  | cons c w ih =>
    rw [List.cons_append, Spec.wordsFrom, if_pos (mem_whiteSpace.2 (hw c (by simp))), if_pos rfl]
    exact ih fun x hx => hw x (List.mem_cons_of_mem _ hx)

theorem wordsFrom_word {t : List Char} (ht : ∀ c ∈ t, isSpace c = false) (w s : List Char) :
    Spec.wordsFrom w (t ++ s) = Spec.wordsFrom (w ++ t) s := by
  induction t generalizing w with
  | nil => simp
  | cons c t ih =>
    have : ¬ c ∈ Spec.whiteSpace := by rw [mem_whiteSpace, ht c (by simp)]; simp
    rw [List.cons_append, Spec.wordsFrom, if_neg this, ih fun x hx => ht x (List.mem_cons_of_mem _ hx)]
    simp

/-- The tokens of a text are its words. -/
theorem textWords_of_wtoks {r s : List Char} {ts : List (List Char)} (hr : Blank r) (h : WToks r s ts) :
    Spec.textWords s = ts := by
  unfold Spec.textWords
  induction h with
  | nil =>
    have := wordsFrom_blank hr []
    rw [List.append_nil] at this
    rw [this]; rfl
  | cons w t s ts hw ht hs _ ih =>
    obtain ⟨c, s', rfl, hc⟩ := hs
    rw [List.append_assoc, wordsFrom_blank hw, wordsFrom_word ht.no_space, List.nil_append,
      Spec.wordsFrom, if_pos (mem_whiteSpace.2 hc), if_neg ht.ne_nil]
    rw [Spec.wordsFrom, if_pos (mem_whiteSpace.2 hc), if_pos rfl] at ih
    rw [ih]

theorem WToks.blank_cons {r s : List Char} {ts : List (List Char)} (h : WToks r s ts) {c : Char}
    (hc : isSpace c = true) : ∃ r', WToks r' (c :: s) ts := by
  cases h with
  | nil => exact ⟨c :: r, WToks.nil⟩
  | cons w t s ts hw ht hs h =>
    refine ⟨r, ?_⟩
    rw [show c :: (w ++ t ++ s) = (c :: w) ++ t ++ s from rfl]
    refine WToks.cons _ t s ts ?_ ht hs h
    intro x hx
    rcases List.mem_cons.1 hx with rfl | hx
    · exact hc
    · exact hw x hx

/-- The words of a text are its tokens. -/
theorem wtoks_of_wordsFrom (s w : List Char) (hw : ∀ c ∈ w, isSpace c = false)
    (he : ∀ c, s.getLast? = some c → isSpace c = true) (hn : s = [] → w = [])
    (ht : ∀ t ∈ Spec.wordsFrom w s, WTok t) : ∃ r, WToks r (w ++ s) (Spec.wordsFrom w s) := by
  induction s generalizing w with
  | nil =>
    rw [hn rfl]
    exact ⟨[], WToks.nil⟩
  | cons c s ih =>
    have he' : ∀ x, s.getLast? = some x → isSpace x = true := by
      intro x hx
      refine he x ?_
      rw [List.getLast?_cons, hx]; rfl
    by_cases hc : isSpace c = true
    · rw [Spec.wordsFrom, if_pos (mem_whiteSpace.2 hc)] at ht ⊢
      by_cases h0 : w = []
      · subst h0
        rw [if_pos rfl] at ht ⊢
        obtain ⟨r, h⟩ := ih [] (by simp) he' (fun _ => rfl) ht
        exact h.blank_cons hc
      · rw [if_neg h0] at ht ⊢
        obtain ⟨r, h⟩ := ih [] (by simp) he' (fun _ => rfl) fun t h => ht t (List.mem_cons_of_mem _ h)
        obtain ⟨r', h'⟩ := h.blank_cons hc
        exact ⟨r', WToks.cons [] w (c :: s) _ (by intro x hx; cases hx) (ht w (by simp))
          ⟨c, s, rfl, hc⟩ h'⟩
    · rw [Spec.wordsFrom, if_neg fun h => hc (mem_whiteSpace.1 h)] at ht ⊢
      have := ih (w ++ [c]) (by
        intro x hx
        rcases List.mem_append.1 hx with hx | hx
        · exact hw x hx
        · rw [List.mem_singleton.1 hx]; simpa using hc) he' (by
        rintro rfl
        exact absurd (he c rfl) hc) ht
      simpa using this

theorem WToks.wTok {r s : List Char} {ts : List (List Char)} (h : WToks r s ts) : ∀ t ∈ ts, WTok t := by
  induction h with
  | nil => intro t ht; cases ht
  | cons w t s ts hw ht hs _ ih =>
    intro u hu
    rcases List.mem_cons.1 hu with rfl | hu
    · exact ht
    · exact ih u hu

/-- A text with the same words. -/
theorem wtoks_of_textWords {r s text : List Char} {ts : List (List Char)} (hr : Blank r)
    (h : WToks r s ts) (he : Spec.EndsWhite text) (e : Spec.textWords text = Spec.textWords s) :
    ∃ r', WToks r' text ts := by
  rw [textWords_of_wtoks hr h] at e
  obtain ⟨a, c, rfl, hc⟩ := he
  have := wtoks_of_wordsFrom (a ++ [c]) [] (by simp) (by
    intro x hx
    rw [List.getLast?_append] at hx
    simp only [List.getLast?_singleton, Option.some_or, Option.some.injEq] at hx
    rw [← hx]; exact mem_whiteSpace.1 hc) (by simp) (by
    show ∀ t ∈ Spec.textWords (a ++ [c]), WTok t
    rw [e]; exact h.wTok)
  rw [show Spec.wordsFrom [] (a ++ [c]) = Spec.textWords (a ++ [c]) from rfl, e] at this
  exact this

theorem blank_newline : Blank ['\n'] := blank_of_all (by decide)

/-- Loading a tree from a text with the words of its file. -/
theorem TreeImpl.load_words {t : TreeImpl} (hroot : t.root ≠ .nil) (h : TreeOk t)
    (hl : t.data.length ≤ 2 ^ 64) (t0 : TreeImpl) {text : List Char} (he : Spec.EndsWhite text)
    (e : Spec.textWords text = Spec.textWords (treeText 0 t)) :
    t0.load text = .ok (rereadInto t0 t) := by
  have hw := wtoks_tree 0 t (w := []) (by intro c hc; cases hc) []
  simp only [List.nil_append, List.append_nil] at hw
  obtain ⟨r, hw'⟩ := wtoks_of_textWords blank_newline hw he e
  have ht := hw'.toToks (fits_tree h hl)
  have hr := reads_tree h hroot t0 (fuel := text.length + 1) (by
    have := hw'.length_le
    omega) ([], 0)
  unfold TreeImpl.load
  rw [hr.run ht]
  rfl

/-- Loading a forest from a text with the words of its file. -/
theorem ForestImpl.load_words {f : ForestImpl} {ts : List Char}
    (hts : ForestImpl.treesText 1 f.trees = .ok ts) (h : ForestOk f) (f0 : ForestImpl)
    (hn : f0.numClasses = f.numClasses) {text : List Char} (he : Spec.EndsWhite text)
    (e : Spec.textWords text = Spec.textWords (forestText f ts)) :
    f0.load text = .ok (rereadForest f0 f) := by
  have hroot := (wtoks_trees hts).1
  obtain ⟨r, hw'⟩ := wtoks_of_textWords blank_newline (wtoks_forest hts) he e
  have ht := hw'.toToks (fits_forest h)
  have hr := reads_forest h hroot f0 hn (fuel := text.length + 1) (by
    have := hw'.length_le
    omega) ([], 0)
  unfold ForestImpl.load
  rw [hr.run ht]
  rfl

end Apollo
