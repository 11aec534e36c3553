import Verif.Spec.CSource
import Verif.Model.Jit
import Verif.Proofs.DecimalRange

/-!
# The source of a tree, as the compiler reads it
-/

namespace Apollo.CSrc

open Apollo Spec

theorem sym_space {c : Char} (hc : isSpace c = true) (w s : List Char) : sym w (c :: s) = sym w s := by
  simp [sym, hc]

theorem sym_spaces (ws : List Char) (h : ∀ c ∈ ws, isSpace c = true) (w s : List Char) :
    sym w (ws ++ s) = sym w s := by
  induction ws with
  | nil => rfl
  | cons c ws ih =>
    rw [List.cons_append, sym_space (h c (by simp)), ih fun d hd => h d (by simp [hd])]

theorem isSpace_indent (n : ℕ) : ∀ c ∈ indent n, isSpace c = true := by
  intro c hc
  simp only [indent, List.mem_flatten, List.mem_replicate] at hc
  obtain ⟨l, ⟨-, rfl⟩, h⟩ := hc
  have : c = ' ' := by simpa using h
  subst this; rfl

theorem sym_indent (n : ℕ) (w s : List Char) : sym w (indent n ++ s) = sym w s :=
  sym_spaces _ (isSpace_indent n) w s

theorem word_indent (n : ℕ) (w s : List Char) : word w (indent n ++ s) = word w s := by
  unfold word; rw [sym_indent]

/-- The statements of a tree. -/
def stmtsOf : Tree → CStmts
  | .nil => .done
  | .node n l r =>
    if l = .nil ∧ r = .nil then .ret n.predicted .done
    else .ite n.featureIdx (rnd64 (round6 n.threshold)) (stmtsOf l) (stmtsOf r) .done

/-- A right child comes with a left child. -/
def LeftFirst : Tree → Prop
  | .nil => True
  | .node _ l r => (l = .nil → r = .nil) ∧ LeftFirst l ∧ LeftFirst r

/-- Blanks. -/
def AllBlank (ws : List Char) : Prop := ∀ c ∈ ws, isSpace c = true

theorem blank_indent (n : ℕ) : AllBlank ('\n' :: indent n) := by
  intro c hc
  rcases List.mem_cons.1 hc with rfl | h
  · rfl
  · exact isSpace_indent n c h

theorem word_blank {ws : List Char} (h : AllBlank ws) (w s : List Char) : word w (ws ++ s) = word w s := by
  unfold word; rw [sym_spaces ws h]

theorem dropWhile_blank {ws : List Char} (h : AllBlank ws) (s : List Char) :
    (ws ++ '}' :: s).dropWhile isSpace = '}' :: s := by
  induction ws with
  | nil => rfl
  | cons c ws ih =>
    rw [List.cons_append, List.dropWhile_cons_of_pos (h c (by simp)), ih fun d hd => h d (by simp [hd])]

theorem readStmts_close (fuel : ℕ) {ws : List Char} (h : AllBlank ws) (s : List Char) :
    readStmts (fuel + 1) (ws ++ '}' :: s) = some (.done, '}' :: s) := by
  have h1 : word "return".toList (ws ++ '}' :: s) = none := by rw [word_blank h]; rfl
  have h2 : word "if".toList (ws ++ '}' :: s) = none := by rw [word_blank h]; rfl
  rw [readStmts, h1, h2, dropWhile_blank h]

theorem dropWhile_fmtG6 (q : ℚ) (s : List Char) : (fmtG6 q ++ s).dropWhile isSpace = fmtG6 q ++ s := by
  obtain ⟨c, r, h, hc⟩ := fmtG6_head q
  have : isSpace c = false := (numChar_fmtG6 q c (by rw [h]; simp)).not_space
  rw [h, List.cons_append, List.dropWhile_cons_of_neg (by simp [this])]

theorem readInt_space (n : ℤ) (s : List Char) (hs : ∀ c ∈ s.head?, isDigit c = false) :
    readInt (' ' :: (fmtInt n ++ s)) = some (n, s) := by
  rw [← readInt_fmtInt n s hs]; rfl

theorem readStmts_blank {ws : List Char} (h : AllBlank ws) (fuel : ℕ) (s : List Char) :
    readStmts fuel (ws ++ s) = readStmts fuel s := by
  cases fuel with
  | zero => rfl
  | succ fuel =>
    rw [readStmts, readStmts, word_blank h, word_blank h]
    have : (ws ++ s).dropWhile isSpace = s.dropWhile isSpace := by
      induction ws with
      | nil => rfl
      | cons c ws ih =>
        rw [List.cons_append, List.dropWhile_cons_of_pos (h c (by simp)), ih fun d hd => h d (by simp [hd])]
    rw [this]

theorem blank_newline : AllBlank ['\n'] := by
  intro c hc; rw [List.mem_singleton.1 hc]; rfl

/-- The part `else { … }`, if there is one. -/
def readElse (fuel : ℕ) (s : List Char) : Option (CStmts × List Char) :=
  match word "else".toList s with
  | none => some (.done, s)
  | some s => do
    let s ← sym "{".toList s
    let (els, s) ← readStmts fuel s
    let s ← sym "}".toList s
    some (els, s)

theorem readStmts_if (fuel level : ℕ) (i : ℤ) (q : ℚ) (u u1 u2 u3 : List Char) (thn els next : CStmts)
    (h1 : readStmts fuel u = some (thn, '}' :: u1)) (h2 : readElse fuel u1 = some (els, u2))
    (h3 : readStmts fuel u2 = some (next, u3)) :
    readStmts (fuel + 1) (indent level ++ ("if (features[".toList ++ (fmtInt i ++ ("] < ".toList ++
        (fmtG6 q ++ (") {\n".toList ++ u)))))) =
      some (.ite i (rnd64 (round6 q)) thn els next, u3) := by
  rw [readStmts, word_indent, word_indent]
  set v := fmtInt i ++ ("] < ".toList ++ (fmtG6 q ++ (") {\n".toList ++ u))) with hv
  have e1 : word "return".toList ("if (features[".toList ++ v) = none := rfl
  have e2 : word "if".toList ("if (features[".toList ++ v) = some (" (features[".toList ++ v) := rfl
  have e3 : sym "(".toList (" (features[".toList ++ v) = some ("features[".toList ++ v) := rfl
  have e4 : word "features".toList ("features[".toList ++ v) = some ("[".toList ++ v) := rfl
  have e5 : sym "[".toList ("[".toList ++ v) = some v := rfl
  have e6 : readInt v = some (i, "] < ".toList ++ (fmtG6 q ++ (") {\n".toList ++ u))) := by
    rw [hv]; exact readInt_fmtInt i _ (by intro c hc; simp at hc; subst hc; rfl)
  set w := fmtG6 q ++ (") {\n".toList ++ u) with hw
  have e7 : sym "]".toList ("] < ".toList ++ w) = some (" < ".toList ++ w) := rfl
  have e8 : sym "<".toList (" < ".toList ++ w) = some (' ' :: w) := rfl
  have e9 : readDecimal ((' ' :: w).dropWhile isSpace) = some (round6 q, ") {\n".toList ++ u) := by
    rw [List.dropWhile_cons_of_pos rfl, hw, dropWhile_fmtG6]
    exact readDecimal_fmtG6 q _ (by refine ⟨rfl, ?_⟩; decide)
  have e10 : sym ")".toList (") {\n".toList ++ u) = some (" {\n".toList ++ u) := rfl
  have e11 : sym "{".toList (" {\n".toList ++ u) = some (['\n'] ++ u) := rfl
  have e12 : readStmts fuel (['\n'] ++ u) = some (thn, '}' :: u1) := by
    rw [readStmts_blank blank_newline, h1]
  have e13 : sym "}".toList ('}' :: u1) = some u1 := rfl
  unfold readElse at h2
  rw [e1, e2]
  simp only [e3, e4, e5, e6, e7, e8, e9, e10, e11, e12, e13, Option.bind_eq_bind, Option.bind_some]
  cases hE : word "else".toList u1 with
  | none =>
    simp only [hE, Option.some.injEq, Prod.mk.injEq] at h2
    obtain ⟨rfl, rfl⟩ := h2
    simp only [h3, Option.bind_some]
  | some z =>
    simp only [hE, Option.bind_eq_bind, Option.bind_eq_some_iff, Option.some.injEq, Prod.mk.injEq] at h2
    obtain ⟨a, ha, ⟨b, c⟩, hb, d, hd, rfl, rfl⟩ := h2
    simp only [ha, hb, hd, h3, Option.bind_some]

theorem readStmts_text (t : Tree) (h : LeftFirst t) (level fuel : ℕ) {ws : List Char} (hw : AllBlank ws)
    (s : List Char) (hf : (sourceText level t).length < fuel) :
    readStmts fuel (sourceText level t ++ (ws ++ '}' :: s)) = some (stmtsOf t, '}' :: s) := by
  induction t generalizing level fuel ws s with
  | nil =>
    obtain ⟨fuel, rfl⟩ : ∃ m, fuel = m + 1 := ⟨fuel - 1, by omega⟩
    exact readStmts_close fuel hw s
  | node n l r ihl ihr =>
    obtain ⟨h0, hl, hr⟩ := h
    unfold sourceText at hf
    unfold sourceText stmtsOf
    obtain ⟨fuel, rfl⟩ : ∃ m, fuel = m + 1 := ⟨fuel - 1, by omega⟩
    split_ifs at hf ⊢ with hleaf h1 h2 h3
    · simp only [List.length_append] at hf
      obtain ⟨fuel, rfl⟩ : ∃ m, fuel = m + 1 := ⟨fuel - 1, by
        have : ";\n".toList.length = 2 := rfl
        omega⟩
      rw [readStmts]
      have e1 : word "return".toList (indent level ++ ("return ".toList ++ (fmtInt n.predicted ++ ";\n".toList)) ++
          (ws ++ '}' :: s)) = some (' ' :: (fmtInt n.predicted ++ (';' :: '\n' :: (ws ++ '}' :: s)))) := by
        rw [List.append_assoc, word_indent, List.append_assoc, List.append_assoc]; rfl
      rw [e1]
      have e2 : sym ";".toList (';' :: '\n' :: (ws ++ '}' :: s)) = some ('\n' :: (ws ++ '}' :: s)) := rfl
      have e3 : readStmts (fuel + 1) ('\n' :: (ws ++ '}' :: s)) = some (.done, '}' :: s) :=
        readStmts_close fuel (ws := '\n' :: ws) (by
          intro c hc
          rcases List.mem_cons.1 hc with rfl | h
          · rfl
          · exact hw c h) s
      simp only [readInt_space _ (';' :: '\n' :: (ws ++ '}' :: s)) (by simp [isDigit]), e2, e3,
        Option.bind_eq_bind, Option.bind_some]
    · exact absurd ⟨h1, h2⟩ hleaf
    · exact absurd (h0 h1) h2
    · -- only a left child
      have hc : AllBlank ('\n' :: ws) := by
        intro c hc
        rcases List.mem_cons.1 hc with rfl | h
        · rfl
        · exact hw c h
      simp only [List.length_append] at hf
      have hb : "}\n".toList.length = 2 := rfl
      obtain ⟨fuel, rfl⟩ : ∃ m, fuel = m + 1 := ⟨fuel - 1, by omega⟩
      have := readStmts_if (fuel + 1) level n.featureIdx n.threshold
        (sourceText (level + 1) l ++ (indent level ++ '}' :: ('\n' :: (ws ++ '}' :: s))))
        ('\n' :: (ws ++ '}' :: s)) ('\n' :: (ws ++ '}' :: s)) ('}' :: s) (stmtsOf l) .done .done
        (ihl hl (level + 1) (fuel + 1) (isSpace_indent level) _ (by omega))
        (by
          have e : word "else".toList (('\n' :: ws) ++ '}' :: s) = none := by rw [word_blank hc]; rfl
          rw [List.cons_append] at e
          unfold readElse; rw [e])
        (readStmts_close fuel hc s)
      subst h3
      simpa [List.append_assoc, stmtsOf] using this
    · -- two children
      have hc : AllBlank ('\n' :: ws) := by
        intro c hc
        rcases List.mem_cons.1 hc with rfl | h
        · rfl
        · exact hw c h
      simp only [List.length_append] at hf
      have hb : "}\n".toList.length = 2 := rfl
      obtain ⟨fuel, rfl⟩ : ∃ m, fuel = m + 1 := ⟨fuel - 1, by omega⟩
      set v := '\n' :: (ws ++ '}' :: s) with hv
      have := readStmts_if (fuel + 1) level n.featureIdx n.threshold
        (sourceText (level + 1) l ++ (indent level ++ '}' :: ('\n' :: (indent level ++ ("else {\n".toList ++
          (sourceText (level + 1) r ++ (indent level ++ '}' :: v)))))))
        ('\n' :: (indent level ++ ("else {\n".toList ++
          (sourceText (level + 1) r ++ (indent level ++ '}' :: v))))) v ('}' :: s) (stmtsOf l) (stmtsOf r) .done
        (ihl hl (level + 1) (fuel + 1) (isSpace_indent level) _ (by omega))
        (by
          have e : word "else".toList (('\n' :: indent level) ++ ("else {\n".toList ++
              (sourceText (level + 1) r ++ (indent level ++ '}' :: v)))) =
              some (" {\n".toList ++ (sourceText (level + 1) r ++ (indent level ++ '}' :: v))) := by
            rw [word_blank (blank_indent level)]; rfl
          rw [List.cons_append] at e
          have e2 : sym "{".toList (" {\n".toList ++ (sourceText (level + 1) r ++ (indent level ++ '}' :: v))) =
            some (['\n'] ++ (sourceText (level + 1) r ++ (indent level ++ '}' :: v))) := rfl
          have e3 := ihr hr (level + 1) (fuel + 1) (isSpace_indent level) v (by omega)
          have e4 : sym "}".toList ('}' :: v) = some v := rfl
          unfold readElse
          rw [e]
          simp only [e2, readStmts_blank blank_newline, e3, e4, Option.bind_eq_bind, Option.bind_some])
        (readStmts_close fuel hc s)
      simpa [List.append_assoc, hv] using this

theorem literalValue_fmtG6 (q : ℚ) : literalValue (fmtG6 q) = some (rnd64 (round6 q)) := by
  have := readDecimal_fmtG6 q [] trivial
  rw [List.append_nil] at this
  rw [literalValue, this]

theorem call_stmtsOf (t : Tree) (f : Features) : (stmtsOf t).call f = (generateSource t).run f := by
  induction t with
  | nil => rfl
  | node n l r ihl ihr =>
    unfold stmtsOf generateSource
    split_ifs with h
    · rfl
    · rw [Code.run, literalValue_fmtG6, CStmts.call, CStmts.exec]
      split_ifs with hi
      · rfl
      · cases hx : f[n.featureIdx.toNat]? with
        | none => rfl
        | some x =>
          simp only
          split_ifs with hlt
          · rw [← ihl, CStmts.call]
            cases (stmtsOf l).exec f <;> rfl
          · rw [← ihr, CStmts.call]
            cases (stmtsOf r).exec f <;> rfl

theorem isIdent_of_isDigit {c : Char} (h : isDigit c = true) : isIdent c = true := by
  unfold isDigit at h
  have : c.isDigit = true := by
    simp only [Bool.and_eq_true, decide_eq_true_eq] at h
    simp only [Char.isDigit, Bool.and_eq_true, decide_eq_true_eq]
    exact h
  simp [isIdent, Char.isAlphanum, this]

theorem mem_jitSymbol {n : ℕ} {c : Char} (h : c ∈ jitSymbol n) : c ∈ "_jit_eval_".toList ∨ isDigit c = true := by
  unfold jitSymbol at h
  rcases List.mem_append.1 h with h | h
  · exact Or.inl h
  · unfold fmtInt at h
    rw [if_neg (by omega)] at h
    exact Or.inr (isDigit_of_mem_natDigits h)

theorem isIdent_jitSymbol (n : ℕ) : ∀ c ∈ jitSymbol n, isIdent c = true := by
  intro c hc
  rcases mem_jitSymbol hc with h | h
  · have : ∀ c ∈ "_jit_eval_".toList, isIdent c = true := by decide
    exact this c h
  · exact isIdent_of_isDigit h

theorem readSource_jitSource (n : ℕ) (root : Tree) (h : LeftFirst root) :
    readSource (jitSource n root) = some (jitSymbol n, stmtsOf root) := by
  unfold jitSource readSource
  set t1 := sourceText 2 root ++ (indent 1 ++ ("}\n".toList ++ "}\n".toList)) with ht1
  set t2 := "(const std::vector<float> &features) {\n".toList ++ t1 with ht2
  set t3 := jitSymbol n ++ t2 with ht3
  have e1 : sym "#include <vector>\n".toList ("#include <vector>\n".toList ++ ("extern \"C\" {\n".toList ++
      (indent 1 ++ ("int ".toList ++ t3)))) = some ("extern \"C\" {\n".toList ++
      (indent 1 ++ ("int ".toList ++ t3))) := rfl
  have e2 : word "extern".toList ("extern \"C\" {\n".toList ++ (indent 1 ++ ("int ".toList ++ t3))) =
      some (" \"C\" {\n".toList ++ (indent 1 ++ ("int ".toList ++ t3))) := rfl
  have e3 : sym "\"C\"".toList (" \"C\" {\n".toList ++ (indent 1 ++ ("int ".toList ++ t3))) =
      some (" {\n".toList ++ (indent 1 ++ ("int ".toList ++ t3))) := rfl
  have e4 : sym "{".toList (" {\n".toList ++ (indent 1 ++ ("int ".toList ++ t3))) =
      some ('\n' :: (indent 1 ++ ("int ".toList ++ t3))) := rfl
  have e5 : word "int".toList ('\n' :: (indent 1 ++ ("int ".toList ++ t3))) = some (' ' :: t3) := rfl
  have hd : (' ' :: t3).dropWhile isSpace = t3 := rfl
  have e6 : t3.takeWhile isIdent = jitSymbol n := by
    rw [ht3, List.takeWhile_append_of_pos (isIdent_jitSymbol n)]
    have : t2.takeWhile isIdent = [] := rfl
    rw [this, List.append_nil]
  have e7 : t3.dropWhile isIdent = t2 := by
    rw [ht3, List.dropWhile_append_of_pos (isIdent_jitSymbol n)]
    rfl
  have e8 : sym "(".toList t2 = some ("const std::vector<float> &features) {\n".toList ++ t1) := rfl
  have e9 : sym "const std::vector<float> &features".toList ("const std::vector<float> &features) {\n".toList ++ t1) =
    some (") {\n".toList ++ t1) := rfl
  have e10 : sym ")".toList (") {\n".toList ++ t1) = some (" {\n".toList ++ t1) := rfl
  have e11 : sym "{".toList (" {\n".toList ++ t1) = some (['\n'] ++ t1) := rfl
  have e12 : readStmts ((['\n'] ++ t1).length + 1) (['\n'] ++ t1) =
      some (stmtsOf root, '}' :: "\n}\n".toList) := by
    rw [readStmts_blank blank_newline, ht1]
    exact readStmts_text root h 2 _ (isSpace_indent 1) "\n}\n".toList (by simp; omega)
  have e13 : sym "}".toList ('}' :: "\n}\n".toList) = some "\n}\n".toList := rfl
  have e14 : sym "}".toList "\n}\n".toList = some "\n".toList := rfl
  simp only [e1, e2, e3, e4, e5, hd, e6, e7, e8, e9, e10, e11, e12, e13, e14, Option.bind_eq_bind,
    Option.bind_some]
  rfl

/-- Text without characters that matter to the shell, and without an `E`. -/
def Plain (s : List Char) : Prop := ∀ c ∈ s, c ∉ "$`\\E".toList

theorem Plain.append {s t : List Char} (hs : Plain s) (ht : Plain t) : Plain (s ++ t) := by
  intro c hc
  rcases List.mem_append.1 hc with h | h
  · exact hs c h
  · exact ht c h

theorem plain_of_numChar {s : List Char} (h : ∀ c ∈ s, numChar c) : Plain s := by
  intro c hc hm
  have hd : ∀ d ∈ "$`\\E".toList, isDigit d = false ∧ d ≠ '-' ∧ d ≠ '+' ∧ d ≠ '.' ∧ d ≠ 'e' := by decide
  exact (h c hc).ne (hd c hm) rfl

theorem plain_indent (n : ℕ) : Plain (indent n) := by
  intro c hc hm
  have hd : ∀ d ∈ "$`\\E".toList, isSpace d = false := by decide
  have := isSpace_indent n c hc
  rw [hd c hm] at this
  exact absurd this (by decide)

theorem plain_sourceText (level : ℕ) (t : Tree) : Plain (sourceText level t) := by
  induction t generalizing level with
  | nil => intro c hc; simp [sourceText] at hc
  | node n l r ihl ihr =>
    unfold sourceText
    have hn := fun m => plain_of_numChar (fmtInt_spec m).1
    have hi := plain_indent level
    have k1 : Plain "return ".toList := by unfold Plain; decide
    have k2 : Plain ";\n".toList := by unfold Plain; decide
    have k3 : Plain "if (features[".toList := by unfold Plain; decide
    have k4 : Plain "] < ".toList := by unfold Plain; decide
    have k5 : Plain ") {\n".toList := by unfold Plain; decide
    have k6 : Plain "}\n".toList := by unfold Plain; decide
    have k7 : Plain "else {\n".toList := by unfold Plain; decide
    have k8 : Plain [] := by unfold Plain; decide
    split
    · exact hi.append (k1.append ((hn _).append k2))
    · refine Plain.append (Plain.append (hi.append (k3.append ((hn _).append (k4.append
        ((plain_of_numChar (numChar_fmtG6 _)).append k5))))) ?_) ?_
      · split
        · exact k8
        · exact (ihl _).append (hi.append k6)
      · split
        · exact k8
        · exact hi.append (k7.append ((ihr _).append (hi.append k6)))

theorem plain_jitSymbol (n : ℕ) : Plain (jitSymbol n) := by
  have k : Plain "_jit_eval_".toList := by unfold Plain; decide
  exact k.append (plain_of_numChar (fmtInt_spec _).1)

theorem plain_jitSource (n : ℕ) (t : Tree) : Plain (jitSource n t) := by
  have k1 : Plain "#include <vector>\n".toList := by unfold Plain; decide
  have k2 : Plain "extern \"C\" {\n".toList := by unfold Plain; decide
  have k3 : Plain "int ".toList := by unfold Plain; decide
  have k4 : Plain "(const std::vector<float> &features) {\n".toList := by unfold Plain; decide
  have k5 : Plain "}\n".toList := by unfold Plain; decide
  exact k1.append (k2.append ((plain_indent 1).append (k3.append ((plain_jitSymbol n).append
    (k4.append ((plain_sourceText 2 t).append ((plain_indent 1).append (k5.append k5))))))))

theorem untilEOF_plain (s : List Char) (h : Plain s) (b : Bool) :
    untilEOF b (s ++ '\n' :: "EOF\n".toList) = some (s ++ ['\n']) := by
  induction s generalizing b with
  | nil => cases b <;> rfl
  | cons c s ih =>
    have hE : c ≠ 'E' := by
      rintro rfl; exact h 'E' (by simp) (by decide)
    rw [List.cons_append, untilEOF]
    have : "EOF\n".toList.isPrefixOf (c :: (s ++ '\n' :: "EOF\n".toList)) = false := by
      show (('E' == c) && _) = false
      rw [beq_eq_false_iff_ne.2 (Ne.symm hE)]; rfl
    rw [this, Bool.and_false, if_neg (by simp), ih (fun d hd => h d (by simp [hd]))]
    rfl

theorem any_plain {s : List Char} (h : Plain s) : s.any (· ∈ "$`\\".toList) = false := by
  rw [List.any_eq_false]
  intro c hc hm
  have hd : ∀ d ∈ "$`\\".toList, d ∈ "$`\\E".toList := by decide
  exact h c hc (hd c (of_decide_eq_true hm))

theorem plain_jitPath (n : ℕ) : Plain (jitPath n) := by
  have k1 : Plain "/tmp/".toList := by unfold Plain; decide
  have k2 : Plain ".so".toList := by unfold Plain; decide
  exact (k1.append (plain_jitSymbol n)).append k2

theorem space_jitPath (n : ℕ) : ∀ c ∈ jitPath n, (decide (c ≠ ' ')) = true := by
  intro c hc
  unfold jitPath at hc
  rcases List.mem_append.1 hc with h | h
  · rcases List.mem_append.1 h with h | h
    · have : ∀ c ∈ "/tmp/".toList, decide (c ≠ ' ') = true := by decide
      exact this c h
    · have := isIdent_jitSymbol n c h
      refine decide_eq_true ?_
      rintro rfl
      exact absurd this (by decide)
  · have : ∀ c ∈ ".so".toList, decide (c ≠ ' ') = true := by decide
    exact this c h

theorem jitSource_snoc (n : ℕ) (t : Tree) : ∃ u, jitSource n t = u ++ ['\n'] := by
  refine ⟨"#include <vector>\n".toList ++ ("extern \"C\" {\n".toList ++ (indent 1 ++ ("int ".toList ++ (jitSymbol n ++
    ("(const std::vector<float> &features) {\n".toList ++ (sourceText 2 t ++ (indent 1 ++ "}\n}".toList))))))), ?_⟩
  unfold jitSource
  simp only [List.append_assoc]
  rfl

theorem readCommand_jitCommand (n : ℕ) (t : Tree) :
    readCommand (jitCommand n t) = some (jitPath n, jitSource n t) := by
  obtain ⟨u, hu⟩ := jitSource_snoc n t
  have hp := plain_jitSource n t
  unfold jitCommand readCommand
  set w := jitSource n t ++ "EOF\n".toList with hw
  have e1 : sym "c++ -x c++ -O0 -shared -fPIC -o ".toList ("c++ -x c++ -O0 -shared -fPIC -o ".toList ++
      (jitPath n ++ (" - << EOF\n".toList ++ w))) = some (jitPath n ++ (" - << EOF\n".toList ++ w)) := rfl
  have e2 : (jitPath n ++ (" - << EOF\n".toList ++ w)).takeWhile (fun c => decide (c ≠ ' ')) = jitPath n := by
    rw [List.takeWhile_append_of_pos (space_jitPath n)]
    have : (" - << EOF\n".toList ++ w).takeWhile (fun c => decide (c ≠ ' ')) = [] := rfl
    rw [this, List.append_nil]
  have e3 : (jitPath n ++ (" - << EOF\n".toList ++ w)).dropWhile (fun c => decide (c ≠ ' ')) =
      " - << EOF\n".toList ++ w := by
    rw [List.dropWhile_append_of_pos (space_jitPath n)]; rfl
  have e4 : sym "- << EOF\n".toList (" - << EOF\n".toList ++ w) = some w := rfl
  have e5 : w.any (· ∈ "$`\\".toList) = false := by
    rw [hw, List.any_append, any_plain hp]; rfl
  have e6 : untilEOF true w = some (jitSource n t) := by
    rw [hw, hu, List.append_assoc]
    exact untilEOF_plain u (fun c hc => hp c (by rw [hu]; simp [hc])) true
  simp only [e1, e2, e3, e4, e5, e6, any_plain (plain_jitPath n), Option.bind_eq_bind, Option.bind_some,
    Bool.or_self, Bool.false_eq_true, if_false]

end Apollo.CSrc
