import Verif.Proofs.TreeIO
import Verif.Proofs.DatasetRT

/-! Helper lemmas: loading back a stored tree. -/

namespace Apollo

theorem WToks.length_le {r s : List Char} {ts : List (List Char)} (h : WToks r s ts) :
    ts.length ≤ s.length := by
  induction h with
  | nil => simp
  | cons w t s ts hw ht hs _ ih =>
    have := List.length_pos_iff.2 ht.ne_nil
    simp only [List.length_cons, List.length_append]
    omega

/-- A property of all nodes. -/
def Tree.Forall (p : NodeInfo → Prop) : Tree → Prop
  | .nil => True
  | .node n l r => p n ∧ l.Forall p ∧ r.Forall p

theorem Tree.Forall.imp {p q : NodeInfo → Prop} (h : ∀ n, p n → q n) : ∀ {t : Tree}, t.Forall p →
    t.Forall q
  | .nil, _ => trivial
  | .node n _ _, ⟨h1, h2, h3⟩ => ⟨h n h1, h2.imp h, h3.imp h⟩

theorem Tree.all_iff (p : NodeInfo → Bool) (t : Tree) :
    t.all p = true ↔ t.Forall (fun n => p n = true) := by
  induction t with
  | nil => simp [Tree.all, Tree.Forall]
  | node n l r ihl ihr => simp [Tree.all, Tree.Forall, ihl, ihr, and_assoc]

/-- The numbers of the node are in the range of the parser. -/
structure NodeOk (n : NodeInfo) : Prop where
  gini : RangeFloat n.gini
  samples : n.numSamples < 2 ^ 64
  pred : -2 ^ 31 ≤ n.predicted ∧ n.predicted < 2 ^ 31
  idx : -2 ^ 31 ≤ n.featureIdx ∧ n.featureIdx < 2 ^ 31
  thr : RangeFloat n.threshold
  counts : ∀ c ∈ n.counts, c < 2 ^ 64

/-- The numbers of the sample are in the range of the parser. -/
structure SampleOk (x : Sample) : Prop where
  feat : ∀ v ∈ x.1, RangeFloat v
  cls : -2 ^ 31 ≤ x.2 ∧ x.2 < 2 ^ 31

/-- The numbers of the tree are in the range of the parser. -/
structure TreeOk (t : TreeImpl) : Prop where
  root : t.root.Forall NodeOk
  data : ∀ x ∈ t.data, SampleOk x
  classes : ∀ c ∈ t.classes, -2 ^ 31 ≤ c ∧ c < 2 ^ 31
  depth : t.maxDepth < 2 ^ 32
  features : t.numFeatures < 2 ^ 32

/-- What a node reads back as. -/
def rereadNode (k : ℕ) (n : NodeInfo) : NodeInfo :=
  { n with gini := rnd32 (round6 n.gini), threshold := rnd32 (round6 n.threshold),
           counts := n.counts.take k }

/-- What a tree of nodes reads back as. -/
def rereadTree (k : ℕ) : Tree → Tree
  | .nil => .nil
  | .node n l r => .node (rereadNode k n) (rereadTree k l) (rereadTree k r)

/-- What a sample reads back as. -/
def rereadSample (x : Sample) : Sample := (x.1.map fun v => rnd32 (round6 v), x.2)

theorem rereadTree_eq_nil {k : ℕ} {t : Tree} : rereadTree k t = .nil ↔ t = .nil := by
  cases t <;> simp [rereadTree]

/-! ## Reading numbers -/

theorem reads_int {n : ℤ} (h : -2 ^ 31 ≤ n ∧ n < 2 ^ 31) (p : List Char)
    (hp : ∀ c ∈ p.head?, isDigit c = false) :
    Reads parseInt (fmtInt n ++ p, 0) [] n (fmtInt n ++ p, (fmtInt n).length) :=
  Reads.parseWith (by simpa using stoi_fmtInt h p hp)

theorem reads_float {q : ℚ} (h : RangeFloat q) (p : List Char) (hp : Stops p) :
    Reads parseFloat (fmtG6 q ++ p, 0) [] (rnd32 (round6 q)) (fmtG6 q ++ p, (fmtG6 q).length) :=
  Reads.parseWith (by simpa using stof_fmtG6 h p hp)

theorem reads_ulong {n : ℕ} (h : n < 2 ^ 64) (p : List Char)
    (hp : ∀ c ∈ p.head?, isDigit c = false) :
    Reads parseUnsignedLong (fmtInt n ++ p, 0) [] n (fmtInt n ++ p, (fmtInt n).length) :=
  Reads.parseWith (by simpa using stoul_fmtInt h p hp)

theorem reads_uint {n : ℕ} (h : n < 2 ^ 32) (p : List Char)
    (hp : ∀ c ∈ p.head?, isDigit c = false) :
    Reads parseUnsigned (fmtInt n ++ p, 0) [] n (fmtInt n ++ p, (fmtInt n).length) := by
  unfold parseUnsigned
  refine Reads.bind0 (reads_ulong (h.trans (by norm_num)) p hp) ?_
  rw [Nat.mod_eq_of_lt h]
  exact Reads.pure _ _

theorem reads_keyVal {α : Type} {key t : List Char} {parse : P α} {a : α} {k : ℕ}
    (hp : Reads parse (t ++ [','], 0) [] a (t ++ [','], k)) (hk : k = t.length) (c : Cur) :
    Reads (parseKeyVal key parse) c [key, t ++ [',']] a (t ++ [','], k) := by
  unfold parseKeyVal
  refine Reads.bind1 (Reads.expectNext _ _) ?_
  refine Reads.bind1 (Reads.getNextToken _ _) ?_
  refine Reads.bind0 hp ?_
  exact Reads.bind0 (Reads.parseExpected (by subst hk; simp)) (Reads.pure _ _)

theorem stops_comma : Stops [','] := by simp [Stops]; decide

theorem reads_counts {cc : List (ℤ × ℕ)} (h1 : ∀ x ∈ cc, -2 ^ 31 ≤ x.1 ∧ x.1 < 2 ^ 31)
    (h2 : ∀ x ∈ cc, x.2 < 2 ^ 64) {fuel : ℕ} (hf : cc.length < fuel) (acc : List ℕ) (c : Cur) :
    Reads (parseCounts fuel acc) c (countToks cc ++ ["},".toList]) (acc ++ cc.map Prod.snd)
      ("},".toList, 0) := by
  induction cc generalizing fuel acc c with
  | nil =>
    obtain ⟨n, rfl⟩ : ∃ n, fuel = n + 1 := ⟨fuel - 1, by simp at hf; omega⟩
    refine Reads.bind1 (Reads.getNextTokenEquals c _ _) ?_
    simp only [decide_true, if_true, List.map_nil, List.append_nil]
    exact Reads.pure _ _
  | cons x cc ih =>
    simp only [List.length_cons] at hf
    obtain ⟨n, rfl⟩ : ∃ n, fuel = n + 1 := ⟨fuel - 1, by omega⟩
    have e : countToks (x :: cc) ++ ["},".toList] = (fmtInt x.1 ++ [':']) ::
        (fmtInt x.2 ++ [',']) :: (countToks cc ++ ["},".toList]) := by simp [countToks]
    rw [e]
    refine Reads.bind1 (Reads.getNextTokenEquals c _ _) ?_
    rw [decide_eq_false (intTok_ne _ _ _ '}' [','] (by decide) (by decide)), if_neg (by simp)]
    refine Reads.bind0 (reads_int (h1 x (by simp)) _ (by decide)) ?_
    refine Reads.bind0 (Reads.parseExpected (by simp)) ?_
    refine Reads.bind1 (Reads.getNextToken _ _) ?_
    refine Reads.bind0 (reads_ulong (h2 x (by simp)) _ (by decide)) ?_
    refine Reads.bind0 (Reads.parseExpected (by simp)) ?_
    have := ih (fun y hy => h1 y (List.mem_cons_of_mem _ hy))
      (fun y hy => h2 y (List.mem_cons_of_mem _ hy)) (fuel := n) (by omega) (acc ++ [x.2])
      (fmtInt x.2 ++ [','], (fmtInt x.2).length)
    simpa using this

theorem reads_feats {f : Features} (h : ∀ v ∈ f, RangeFloat v) {fuel : ℕ} (hf : f.length < fuel)
    (acc : Features) (c : Cur) :
    Reads (parseFeatures fuel acc) c ((f.map fun x => fmtG6 x ++ [',']) ++ ["],".toList])
      (acc ++ f.map fun v => rnd32 (round6 v)) ("],".toList, 0) := by
  induction f generalizing fuel acc c with
  | nil =>
    obtain ⟨n, rfl⟩ : ∃ n, fuel = n + 1 := ⟨fuel - 1, by simp at hf; omega⟩
    refine Reads.bind1 (Reads.getNextTokenEquals c _ _) ?_
    simp only [decide_true, if_true, List.map_nil, List.append_nil]
    exact Reads.pure _ _
  | cons x f ih =>
    simp only [List.length_cons] at hf
    obtain ⟨n, rfl⟩ : ∃ n, fuel = n + 1 := ⟨fuel - 1, by omega⟩
    refine Reads.bind1 (Reads.getNextTokenEquals c _ _) ?_
    rw [decide_eq_false (g6Tok_ne _ _ _ ']' [','] (by decide) (by decide)), if_neg (by simp)]
    refine Reads.bind0 (reads_float (h x (by simp)) _ stops_comma) ?_
    refine Reads.bind0 (Reads.parseExpected (by simp)) ?_
    have := ih (fun y hy => h y (List.mem_cons_of_mem _ hy)) (fuel := n) (by omega)
      (acc ++ [rnd32 (round6 x)]) (fmtG6 x ++ [','], (fmtG6 x).length)
    simpa using this

theorem reads_classes {cs : List ℤ} (h : ∀ c ∈ cs, -2 ^ 31 ≤ c ∧ c < 2 ^ 31) {fuel : ℕ}
    (hf : cs.length < fuel) (acc : List ℤ) (c : Cur) :
    Reads (parseClasses fuel acc) c ((cs.map fun x => fmtInt x ++ [',']) ++ ["],".toList])
      (setInsertAll cs acc) ("],".toList, 0) := by
  induction cs generalizing fuel acc c with
  | nil =>
    obtain ⟨n, rfl⟩ : ∃ n, fuel = n + 1 := ⟨fuel - 1, by simp at hf; omega⟩
    refine Reads.bind1 (Reads.getNextTokenEquals c _ _) ?_
    simp only [decide_true, if_true]
    exact Reads.pure _ _
  | cons x cs ih =>
    simp only [List.length_cons] at hf
    obtain ⟨n, rfl⟩ : ∃ n, fuel = n + 1 := ⟨fuel - 1, by omega⟩
    refine Reads.bind1 (Reads.getNextTokenEquals c _ _) ?_
    rw [decide_eq_false (intTok_ne _ _ _ ']' [','] (by decide) (by decide)), if_neg (by simp)]
    refine Reads.bind0 (reads_int (h x (by simp)) _ (by decide)) ?_
    refine Reads.bind0 (Reads.parseExpected (by simp)) ?_
    exact ih (fun y hy => h y (List.mem_cons_of_mem _ hy)) (fuel := n) (by omega) _ _

theorem reads_sample {x : Sample} (h : SampleOk x) {fuel : ℕ} (hf : x.1.length < fuel) (idx : ℕ)
    (c : Cur) :
    Reads (parseSample fuel) c (sampleToks idx x).tail (rereadSample x) ("},".toList, 0) := by
  rw [sampleToks_tail, List.tail_cons]
  unfold parseSample
  refine Reads.bind1 (Reads.expectNext _ _) ?_
  refine Reads.bind1 (Reads.expectNext _ _) ?_
  refine Reads.bind1 (Reads.expectNext _ _) ?_
  refine Reads.bind (reads_feats h.feat hf [] _) ?_
  refine Reads.bind1 (Reads.expectNext _ _) ?_
  refine Reads.bind1 (Reads.getNextToken _ _) ?_
  have := reads_int h.cls [] (by simp)
  rw [List.append_nil] at this
  refine Reads.bind0 this ?_
  exact Reads.bind1 (Reads.expectNext _ _) (Reads.pure _ _)

theorem sampleToks_length (idx : ℕ) (x : Sample) : (sampleToks idx x).length = x.1.length + 8 := by
  simp [sampleToks]

theorem reads_samples {xs : List Sample} (h : ∀ x ∈ xs, SampleOk x) {idx : ℕ} {fuel : ℕ}
    (hf : (samplesToks idx xs).length < fuel) (acc : List Sample) (c : Cur) :
    Reads (parseSamples fuel acc) c (samplesToks idx xs ++ ["},".toList])
      (acc ++ xs.map rereadSample) ("},".toList, 0) := by
  induction xs generalizing fuel acc c idx with
  | nil =>
    obtain ⟨n, rfl⟩ : ∃ n, fuel = n + 1 := ⟨fuel - 1, by omega⟩
    refine Reads.bind1 (Reads.getNextTokenEquals c _ _) ?_
    simp only [decide_true, if_true, List.map_nil, List.append_nil]
    exact Reads.pure _ _
  | cons x xs ih =>
    have hl : (samplesToks idx (x :: xs)).length =
        (x.1.length + 8) + (samplesToks (idx + 1) xs).length := by
      simp only [samplesToks, List.length_append, sampleToks_length]
    rw [hl] at hf
    obtain ⟨n, rfl⟩ : ∃ n, fuel = n + 1 := ⟨fuel - 1, by omega⟩
    rw [samplesToks_cons]
    refine Reads.bind1 (Reads.getNextTokenEquals c _ _) ?_
    rw [decide_eq_false (intTok_ne _ _ _ '}' [','] (by decide) (by decide)), if_neg (by simp)]
    refine Reads.bind (reads_sample (h x (by simp)) (by omega) idx _) ?_
    have := ih (fun y hy => h y (List.mem_cons_of_mem _ hy)) (idx := idx + 1) (fuel := n) (by omega)
      (acc ++ [rereadSample x]) ("},".toList, 0)
    simpa using this

theorem zip_map_snd {α β : Type} (a : List α) (b : List β) :
    (a.zip b).map Prod.snd = b.take a.length := by
  induction a generalizing b with
  | nil => simp
  | cons x a ih =>
    cases b with
    | nil => simp
    | cons y b => simp [ih]

theorem countToks_length (cc : List (ℤ × ℕ)) : (countToks cc).length = 2 * cc.length := by
  induction cc with
  | nil => rfl
  | cons x cc ih =>
    have e : countToks (x :: cc) = [fmtInt x.1 ++ [':'], fmtInt x.2 ++ [',']] ++ countToks cc := by
      simp [countToks]
    rw [e, List.length_append, ih]
    simp; omega

theorem reads_node {classes : List ℤ} (hc : ∀ c ∈ classes, -2 ^ 31 ≤ c ∧ c < 2 ^ 31) (t : Tree) :
    ∀ (fuel : ℕ) (key : List Char) (c : Cur), t ≠ .nil → t.Forall NodeOk →
    (nodeToks classes key t).length ≤ fuel →
    Reads (parseNode fuel) c (nodeToks classes key t).tail (rereadTree classes.length t)
      ("},".toList, 0) := by
  induction t with
  | nil => intro _ _ _ h; exact absurd rfl h
  | node n l r ihl ihr =>
    intro fuel key c _ hok hfuel
    obtain ⟨hn, hokl, hokr⟩ := hok
    have hlen : (nodeToks classes key (.node n l r)).length =
        16 + 2 * (classes.zip n.counts).length + (nodeToks classes "left:".toList l).length +
          (nodeToks classes "right:".toList r).length := by
      simp only [nodeToks, List.length_cons, List.length_append, countToks_length, headToks,
        List.length_nil]
      omega
    rw [hlen] at hfuel
    obtain ⟨fuel, rfl⟩ : ∃ m, fuel = m + 1 := ⟨fuel - 1, by omega⟩
    have child : ∀ (t : Tree) (key x : List Char), x ≠ key → t.Forall NodeOk →
        (t ≠ .nil → Reads (parseNode fuel) (key, 0) (nodeToks classes key t).tail
          (rereadTree classes.length t) ("},".toList, 0)) →
        Reads (parseChild key (parseNode fuel)) (childHead key t x, 0)
          (childTail classes key t x) (rereadTree classes.length t) (x, 0) := by
      intro t key x hne hok ih
      unfold parseChild
      refine Reads.bind0 (Reads.getTokenEquals _ _) ?_
      unfold childHead childTail
      by_cases ht : t = .nil
      · rw [if_pos ht, if_pos ht]
        simp only [List.drop_zero, decide_eq_false hne]
        subst ht
        exact Reads.pure _ _
      · rw [if_neg ht, if_neg ht]
        simp only [List.drop_zero, decide_true, if_true]
        refine Reads.bind (ih ht) ?_
        exact Reads.bind1 (Reads.getNextToken _ _) (Reads.pure _ _)
    have e : (nodeToks classes key (.node n l r)).tail = headToks n ++
        ((countToks (classes.zip n.counts) ++ ["},".toList]) ++
    (childHead "left:".toList l (childHead "right:".toList r "},".toList) ::
      (childTail classes "left:".toList l (childHead "right:".toList r "},".toList) ++
        childTail classes "right:".toList r "},".toList))) := by
      rw [← nodeToks_split]; rfl
    rw [e, parseNode_succ]
    unfold headToks
    simp only [List.cons_append, List.nil_append]
    refine Reads.bind1 (Reads.expectNext _ _) ?_
    refine Reads.bind (ts1 := [_, _]) (reads_keyVal (reads_float hn.gini _ stops_comma) rfl _) ?_
    refine Reads.bind (ts1 := [_, _])
      (reads_keyVal (reads_ulong hn.samples _ (by decide)) rfl _) ?_
    refine Reads.bind (ts1 := [_, _]) (reads_keyVal (reads_int hn.pred _ (by decide)) rfl _) ?_
    refine Reads.bind (ts1 := [_, _]) (reads_keyVal (reads_int hn.idx _ (by decide)) rfl _) ?_
    refine Reads.bind (ts1 := [_, _]) (reads_keyVal (reads_float hn.thr _ stops_comma) rfl _) ?_
    refine Reads.bind1 (Reads.expectNext _ _) ?_
    refine Reads.bind1 (Reads.expectNext _ _) ?_
    refine Reads.bind (reads_counts ?_ ?_ (by omega) _ _) ?_
    · intro x hx
      exact hc _ (List.of_mem_zip (a := x.1) (b := x.2) hx).1
    · intro x hx
      exact hn.counts _ (List.of_mem_zip (a := x.1) (b := x.2) hx).2
    have h2 : childHead "right:".toList r "},".toList ≠ "left:".toList := by
      unfold childHead; split <;> decide
    refine Reads.bind1 (Reads.getNextToken _ _) ?_
    refine Reads.bind (child l _ _ h2 hokl (fun h => ihl _ _ _ h hokl (by omega))) ?_
    rw [← List.append_nil (childTail classes "right:".toList r "},".toList)]
    refine Reads.bind (child r "right:".toList "},".toList (by decide) hokr
      (fun h => ihr _ _ _ h hokr (by omega))) ?_
    refine Reads.bind0 (Reads.parseExpected (by rfl)) ?_
    have e3 : rereadTree classes.length (.node n l r) = .node
        ⟨rnd32 (round6 n.gini), n.numSamples, n.predicted, n.featureIdx, rnd32 (round6 n.threshold),
          [] ++ (classes.zip n.counts).map Prod.snd⟩ (rereadTree classes.length l)
        (rereadTree classes.length r) := by
      simp [rereadTree, rereadNode, zip_map_snd]
    rw [e3]
    exact Reads.pure _ _

/-- What a tree reads back as, into `t0`. -/
def rereadInto (t0 t : TreeImpl) : TreeImpl :=
  { t0 with
    data := t0.data ++ t.data.map rereadSample
    classes := setInsertAll t.classes t0.classes
    root := rereadTree t.classes.length t.root
    numFeatures := t.numFeatures
    maxDepth := t.maxDepth }

theorem reads_tree {t : TreeImpl} (h : TreeOk t) (hroot : t.root ≠ .nil) (t0 : TreeImpl) {fuel : ℕ}
    (hfuel : (treeToks t).length ≤ fuel) (c : Cur) :
    Reads (parseTree fuel t0) c (treeToks t) (rereadInto t0 t) ("}".toList, 0) := by
  have hlen : (treeToks t).length = 13 + t.classes.length +
      (nodeToks t.classes "root:".toList t.root).length + (samplesToks 0 t.data).length := by
    simp only [treeToks, List.length_append, List.length_cons, List.length_nil, List.length_map]
    omega
  rw [hlen] at hfuel
  rw [treeToks_eq hroot]
  unfold parseTree parseData
  refine Reads.bind1 (Reads.expectNext _ _) ?_
  refine Reads.bind1 (Reads.expectNext _ _) ?_
  refine Reads.bind (ts1 := [_, _]) (reads_keyVal (reads_uint h.depth _ (by decide)) rfl _) ?_
  refine Reads.bind1 (Reads.expectNext _ _) ?_
  refine Reads.bind1 (Reads.expectNext _ _) ?_
  refine Reads.bind (reads_classes h.classes (by omega) _ _) ?_
  refine Reads.bind (ts1 := [_, _]) (reads_keyVal (reads_uint h.features _ (by decide)) rfl _) ?_
  refine Reads.bind1 (Reads.expectNext _ _) ?_
  refine Reads.bind (reads_node h.classes t.root fuel "root:".toList _ hroot h.root (by omega)) ?_
  rw [bind_assoc]
  refine Reads.bind1 (Reads.expectNext _ _) ?_
  rw [bind_assoc]
  refine Reads.bind1 (Reads.expectNext _ _) ?_
  refine Reads.bind (reads_samples h.data (by omega) _ _) ?_
  exact Reads.bind1 (Reads.expectNext _ _) (Reads.pure _ _)

/-! ## Tokens fit into the buffer -/

/-- A token as the parser wants it. -/
def Fits (t : List Char) : Prop := (∀ c ∈ t, c ≠ nul) ∧ t.length < BUFSIZE

theorem fits_lit (t : List Char) (h : (t.all (· ≠ nul) && decide (t.length < BUFSIZE)) = true) :
    Fits t := by
  unfold Fits
  simpa using h

theorem fits_int {n : ℤ} (h : n.natAbs < 10 ^ 20) (p : List Char)
    (hp : (p.all (· ≠ nul) && decide (p.length < 20)) = true) : Fits (fmtInt n ++ p) := by
  simp only [Bool.and_eq_true, List.all_eq_true, decide_eq_true_eq] at hp
  have := length_fmtInt_le (k := 20) (by norm_num) h
  exact ⟨Dataset.fmtInt_no_nul _ _ hp.1, by simp [BUFSIZE]; omega⟩

theorem fits_g6 {q : ℚ} (h : RangeFloat q) (p : List Char)
    (hp : (p.all (· ≠ nul) && decide (p.length < 20)) = true) : Fits (fmtG6 q ++ p) := by
  simp only [Bool.and_eq_true, List.all_eq_true, decide_eq_true_eq] at hp
  have := Dataset.length_fmtG6_float h
  exact ⟨g6_no_nul _ _ hp.1, by simp [BUFSIZE]; omega⟩

theorem natAbs_lt_int {n : ℤ} (h : -2 ^ 31 ≤ n ∧ n < 2 ^ 31) : n.natAbs < 10 ^ 20 := by
  have : n.natAbs ≤ 2 ^ 31 := by norm_num at h ⊢; omega
  exact this.trans_lt (by norm_num)

theorem natAbs_lt_nat {n : ℕ} (h : n < 2 ^ 64) : (n : ℤ).natAbs < 10 ^ 20 := by
  rw [Int.natAbs_natCast]; exact h.trans (by norm_num)

theorem forall_append {p : List Char → Prop} {a b : List (List Char)} (ha : ∀ t ∈ a, p t)
    (hb : ∀ t ∈ b, p t) : ∀ t ∈ a ++ b, p t := by
  intro t ht
  rcases List.mem_append.1 ht with h | h
  · exact ha t h
  · exact hb t h

theorem forall_cons {p : List Char → Prop} {a : List Char} {b : List (List Char)} (ha : p a)
    (hb : ∀ t ∈ b, p t) : ∀ t ∈ a :: b, p t := by
  intro t ht
  rcases List.mem_cons.1 ht with rfl | h
  · exact ha
  · exact hb t h

theorem forall_nil {p : List Char → Prop} : ∀ t ∈ ([] : List (List Char)), p t := by
  intro t ht; cases ht

theorem fits_node {classes : List ℤ} (hc : ∀ c ∈ classes, -2 ^ 31 ≤ c ∧ c < 2 ^ 31) (t : Tree) :
    ∀ key, Fits key → t.Forall NodeOk → ∀ u ∈ nodeToks classes key t, Fits u := by
  induction t with
  | nil => intro _ _ _ u hu; cases hu
  | node n l r ihl ihr =>
    intro key hkey hok
    obtain ⟨hn, hokl, hokr⟩ := hok
    unfold nodeToks headToks
    refine forall_cons hkey (forall_append ?_ (forall_append ?_ (forall_cons (fits_lit _ (by decide))
      (forall_append (ihl _ (fits_lit _ (by decide)) hokl) (forall_append
        (ihr _ (fits_lit _ (by decide)) hokr) (forall_cons (fits_lit _ (by decide)) forall_nil))))))
    · refine forall_cons (fits_lit _ (by decide)) ?_
      refine forall_cons (fits_lit _ (by decide)) (forall_cons (fits_g6 hn.gini _ (by decide)) ?_)
      refine forall_cons (fits_lit _ (by decide))
        (forall_cons (fits_int (natAbs_lt_nat hn.samples) _ (by decide)) ?_)
      refine forall_cons (fits_lit _ (by decide))
        (forall_cons (fits_int (natAbs_lt_int hn.pred) _ (by decide)) ?_)
      refine forall_cons (fits_lit _ (by decide))
        (forall_cons (fits_int (natAbs_lt_int hn.idx) _ (by decide)) ?_)
      refine forall_cons (fits_lit _ (by decide)) (forall_cons (fits_g6 hn.thr _ (by decide)) ?_)
      exact forall_cons (fits_lit _ (by decide)) (forall_cons (fits_lit _ (by decide)) forall_nil)
    · intro u hu
      unfold countToks at hu
      simp only [List.mem_flatten, List.mem_map] at hu
      obtain ⟨l, ⟨x, hx, rfl⟩, hu⟩ := hu
      have h1 := hc _ (List.of_mem_zip (a := x.1) (b := x.2) hx).1
      have h2 := hn.counts _ (List.of_mem_zip (a := x.1) (b := x.2) hx).2
      simp only [List.mem_cons, List.not_mem_nil, or_false] at hu
      rcases hu with rfl | rfl
      · exact fits_int (natAbs_lt_int h1) _ (by decide)
      · exact fits_int (natAbs_lt_nat h2) _ (by decide)

theorem fits_samples {xs : List Sample} (h : ∀ x ∈ xs, SampleOk x) {idx : ℕ}
    (hidx : idx + xs.length ≤ 2 ^ 64) : ∀ u ∈ samplesToks idx xs, Fits u := by
  induction xs generalizing idx with
  | nil => intro u hu; cases hu
  | cons x xs ih =>
    simp only [List.length_cons] at hidx
    have hx := h x (by simp)
    unfold samplesToks sampleToks
    refine forall_append (forall_append ?_ (forall_append ?_ ?_))
      (ih (fun y hy => h y (List.mem_cons_of_mem _ hy)) (by omega))
    · refine forall_cons (fits_int (natAbs_lt_nat (by omega)) _ (by decide)) ?_
      exact forall_cons (fits_lit _ (by decide)) (forall_cons (fits_lit _ (by decide))
        (forall_cons (fits_lit _ (by decide)) forall_nil))
    · intro u hu
      obtain ⟨v, hv, rfl⟩ := List.mem_map.1 hu
      exact fits_g6 (hx.feat v hv) _ (by decide)
    · refine forall_cons (fits_lit _ (by decide)) (forall_cons (fits_lit _ (by decide))
        (forall_cons ?_ (forall_cons (fits_lit _ (by decide)) forall_nil)))
      have := fits_int (natAbs_lt_int hx.cls) [] (by decide)
      rwa [List.append_nil] at this

theorem fits_tree {t : TreeImpl} (h : TreeOk t) (hl : t.data.length ≤ 2 ^ 64) :
    ∀ u ∈ treeToks t, Fits u := by
  unfold treeToks
  refine forall_append ?_ (forall_append ?_ (forall_append ?_ (forall_append ?_ (forall_append ?_
    (forall_append ?_ ?_)))))
  · refine forall_cons (fits_lit _ (by decide)) (forall_cons (fits_lit _ (by decide))
      (forall_cons (fits_lit _ (by decide)) (forall_cons ?_ (forall_cons (fits_lit _ (by decide))
        (forall_cons (fits_lit _ (by decide)) forall_nil)))))
    exact fits_int (natAbs_lt_nat (h.depth.trans (by norm_num))) _ (by decide)
  · intro u hu
    obtain ⟨c, hc, rfl⟩ := List.mem_map.1 hu
    exact fits_int (natAbs_lt_int (h.classes c hc)) _ (by decide)
  · refine forall_cons (fits_lit _ (by decide)) (forall_cons (fits_lit _ (by decide))
      (forall_cons ?_ forall_nil))
    exact fits_int (natAbs_lt_nat (h.features.trans (by norm_num))) _ (by decide)
  · exact fits_node h.classes _ _ (fits_lit _ (by decide)) h.root
  · exact forall_cons (fits_lit _ (by decide)) (forall_cons (fits_lit _ (by decide)) forall_nil)
  · exact fits_samples h.data (by omega)
  · exact forall_cons (fits_lit _ (by decide)) (forall_cons (fits_lit _ (by decide)) forall_nil)

/-- Loading a stored tree. -/
theorem TreeImpl.load_save {t : TreeImpl} {s : List Char} (hs : t.save = .ok s) (h : TreeOk t)
    (hl : t.data.length ≤ 2 ^ 64) (t0 : TreeImpl) : t0.load s = .ok (rereadInto t0 t) := by
  obtain ⟨hroot, -, -, rfl⟩ := save_ok_iff.1 hs
  have hw := wtoks_tree 0 t (w := []) (by intro c hc; cases hc) []
  simp only [List.nil_append, List.append_nil] at hw
  have ht := hw.toToks (fits_tree h hl)
  unfold TreeImpl.load
  have hc := parseTree_comment (("# DecisionTreeImpl\n".toList ++ treeText 0 t).length + 1) t0 t []
    [] 0
  rw [List.append_nil] at hc
  have hr := reads_tree h hroot t0 (fuel := ("# DecisionTreeImpl\n".toList ++ treeText 0 t).length + 1)
    (by
      have := hw.length_le
      simp only [List.length_append]
      omega) ([], 0)
  rw [hc, hr.run ht]
  rfl

end Apollo
