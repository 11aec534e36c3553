import Verif.Proofs.SharedFiles
import Verif.Proofs.RegionFiles
import Verif.Model.RegionPolicy

/-!
# The names of the files of different ranks
-/

namespace Apollo.Ranks

open Apollo Spec

variable {M : Type}

theorem fmtInt_cut {a b : ℤ} {x y : Str} (h : fmtInt a ++ '-' :: x = fmtInt b ++ '-' :: y) :
    a = b ∧ x = y := by
  have h1 := readInt_fmtInt a ('-' :: x) (by simp; decide)
  have h2 := readInt_fmtInt b ('-' :: y) (by simp; decide)
  rw [h, h2] at h1
  simp only [Option.some.injEq, Prod.mk.injEq, List.cons.injEq, true_and] at h1
  exact ⟨h1.1.symm, h1.2.symm⟩

/-- What follows a step. -/
def stepTail (s r : ℤ) (x : Str) : Str := "step-".toList ++ (fmtInt s ++ '-' :: ("rank-".toList ++
  (fmtInt r ++ '-' :: x)))

theorem stepTail_inj {s s' r r' : ℤ} {x y : Str} (h : stepTail s r x = stepTail s' r' y) :
    s = s' ∧ r = r' ∧ x = y := by
  obtain ⟨h1, h2⟩ := fmtInt_cut (List.append_cancel_left h)
  obtain ⟨h3, h4⟩ := fmtInt_cut (List.append_cancel_left h2)
  exact ⟨h1, h3, h4⟩

/-- What follows "latest". -/
def latestTail (r : ℤ) (x : Str) : Str := "latest-rank-".toList ++ (fmtInt r ++ '-' :: x)

theorem latestTail_inj {r r' : ℤ} {x y : Str} (h : latestTail r x = latestTail r' y) :
    r = r' ∧ x = y := fmtInt_cut (List.append_cancel_left h)

theorem stepPath_eq (cfg : Cfg) (r : ℤ) (k : Str) (s : ℤ) (n : Str) : stepPath cfg r k s n =
    cfg.outputDir ++ '/' :: (cfg.modelsDir ++ '/' :: (k ++ '-' :: stepTail s r (n ++ ".yaml".toList))) := by
  unfold stepPath stepTail
  rw [show "/".toList = ['/'] from rfl, show "-step-".toList = '-' :: "step-".toList from rfl,
    show "-rank-".toList = '-' :: "rank-".toList from rfl, show "-".toList = ['-'] from rfl]
  simp only [List.append_assoc, List.cons_append, List.nil_append]

theorem storePath_eq (cfg : Cfg) (r : ℤ) (k : Str) (n : Str) : storePath cfg r k n =
    cfg.outputDir ++ '/' :: (cfg.modelsDir ++ '/' :: (k ++ '-' :: latestTail r (n ++ ".yaml".toList))) := by
  unfold storePath latestTail
  rw [show "/".toList = ['/'] from rfl, show "-latest".toList ++ "-rank-".toList =
    '-' :: "latest-rank-".toList from rfl, show "-".toList = ['-'] from rfl]
  simp only [List.append_assoc, List.cons_append, List.nil_append]

theorem loadPath_eq (cfg : Cfg) (r : ℤ) (k : Str) (n : Str) : loadPath cfg r k n = storePath cfg r k n := by
  rw [storePath_eq]
  unfold loadPath latestTail
  rw [show "/".toList = ['/'] from rfl, show "-latest-rank-".toList =
    '-' :: "latest-rank-".toList from rfl, show "-".toList = ['-'] from rfl]
  simp only [List.append_assoc, List.cons_append, List.nil_append]

theorem datasetPath_eq (cfg : Cfg) (n : Str) : datasetPath cfg n =
    cfg.outputDir ++ '/' :: (cfg.datasetsDir ++ '/' :: ("Dataset".toList ++ '-' :: (n ++ ".yaml".toList))) := by
  unfold datasetPath
  rw [show "/".toList = ['/'] from rfl, show "/Dataset-".toList = '/' :: ("Dataset".toList ++ ['-']) from rfl]
  simp only [List.append_assoc, List.cons_append, List.nil_append]

theorem bestPath_tail (r s : ℤ) (n : Str) : bestPath r s n =
    stepTail s r (n ++ "-best_policies.txt".toList) := by
  unfold bestPath stepTail
  rw [show "-rank-".toList = '-' :: "rank-".toList from rfl, show "-".toList = ['-'] from rfl]
  simp only [List.append_assoc, List.cons_append, List.nil_append]

theorem gatherPath_tail (s r : ℤ) : gatherPath s r = stepTail s r "allgather.txt".toList := by
  unfold gatherPath stepTail
  rw [show "-rank-".toList = '-' :: "rank-".toList from rfl,
    show "-allgather.txt".toList = '-' :: "allgather.txt".toList from rfl]
  simp only [List.append_assoc, List.cons_append]

theorem policiesPath_tail (r : ℤ) : policiesPath r =
    "rank-".toList ++ (fmtInt r ++ '-' :: "policies.txt".toList) := by
  unfold policiesPath
  rw [show "-policies.txt".toList = '-' :: "policies.txt".toList from rfl, List.append_assoc]

/-- The models a rank stores. -/
inductive ModelFile (out dir : Str) (r : ℤ) : Str → Prop
  | step {k : Str} (s : ℤ) (n : Str) : '-' ∉ k → k ≠ "Dataset".toList →
      ModelFile out dir r (out ++ '/' :: (dir ++ '/' :: (k ++ '-' :: stepTail s r (n ++ ".yaml".toList))))
  | latest {k : Str} (n : Str) : '-' ∉ k → k ≠ "Dataset".toList →
      ModelFile out dir r (out ++ '/' :: (dir ++ '/' :: (k ++ '-' :: latestTail r (n ++ ".yaml".toList))))

/-- The traces a rank writes. -/
inductive TextFile (r : ℤ) : Str → Prop
  | step (s : ℤ) (n : Str) : TextFile r (stepTail s r (n ++ ".txt".toList))
  | policies : TextFile r ("rank-".toList ++ (fmtInt r ++ '-' :: "policies.txt".toList))

theorem model_cut {out dir k k' x y : Str} (hk : '-' ∉ k) (hk' : '-' ∉ k')
    (h : out ++ '/' :: (dir ++ '/' :: (k ++ '-' :: x)) = out ++ '/' :: (dir ++ '/' :: (k' ++ '-' :: y))) :
    k = k' ∧ x = y :=
  append_sep_inj hk hk' (List.cons.inj (List.append_cancel_left (List.cons.inj
    (List.append_cancel_left h)).2)).2

theorem head_ne {c d : Char} {a b x y : Str} (h : c ≠ d) : (c :: a) ++ x ≠ (d :: b) ++ y := by
  intro hh
  exact h (List.cons.inj hh).1

theorem stepTail_ne_latestTail {s r r' : ℤ} {x y : Str} : stepTail s r x ≠ latestTail r' y := by
  unfold stepTail latestTail
  exact head_ne (c := 's') (d := 'l') (by decide)

theorem sfx_app {a t x : Str} (h : t <:+ x) : t <:+ a ++ x := h.trans (List.suffix_append _ _)

theorem sfx_cons {c : Char} {t x : Str} (h : t <:+ x) : t <:+ c :: x := h.trans (List.suffix_cons _ _)

theorem sfx_last {t x : Str} {c : Char} (h : t <:+ x) (hc : t.getLast? = some c) :
    x.getLast? = some c := by
  obtain ⟨a, rfl⟩ := h
  rw [List.getLast?_append, hc]
  rfl

theorem sfx_step {s r : ℤ} {t x : Str} (h : t <:+ x) : t <:+ stepTail s r x :=
  sfx_app (sfx_app (sfx_cons (sfx_app (sfx_app (sfx_cons h)))))

theorem sfx_latest {r : ℤ} {t x : Str} (h : t <:+ x) : t <:+ latestTail r x :=
  sfx_app (sfx_app (sfx_cons h))

theorem yaml_last {x : Str} (h : ".yaml".toList <:+ x) : x.getLast? = some 'l' := sfx_last h (by decide)
theorem txt_last {x : Str} (h : ".txt".toList <:+ x) : x.getLast? = some 't' := sfx_last h (by decide)

theorem ModelFile.rank {out dir : Str} {r r' : ℤ} {x : Str} (h : ModelFile out dir r x)
    (h' : ModelFile out dir r' x) : r = r' := by
  cases h with
  | @step k s n hk _ =>
    generalize hx : out ++ '/' :: (dir ++ '/' :: (k ++ '-' :: stepTail s r (n ++ ".yaml".toList))) = x at h'
    cases h' with
    | step s' n' hk' _ => exact (stepTail_inj (model_cut hk hk' hx).2).2.1
    | latest n' hk' _ => exact absurd (model_cut hk hk' hx).2 stepTail_ne_latestTail
  | @latest k n hk _ =>
    generalize hx : out ++ '/' :: (dir ++ '/' :: (k ++ '-' :: latestTail r (n ++ ".yaml".toList))) = x at h'
    cases h' with
    | step s' n' hk' _ => exact absurd (model_cut hk hk' hx).2.symm stepTail_ne_latestTail
    | latest n' hk' _ => exact (latestTail_inj (model_cut hk hk' hx).2).1

theorem TextFile.rank {r r' : ℤ} {x : Str} (h : TextFile r x) (h' : TextFile r' x) : r = r' := by
  cases h with
  | step s n =>
    generalize hx : stepTail s r (n ++ ".txt".toList) = x at h'
    cases h' with
    | step s' n' => exact (stepTail_inj hx).2.1
    | policies =>
      unfold stepTail at hx
      exact absurd hx (head_ne (c := 's') (d := 'r') (by decide))
  | policies =>
    generalize hx : "rank-".toList ++ (fmtInt r ++ '-' :: "policies.txt".toList) = x at h'
    cases h' with
    | step s' n' =>
      unfold stepTail at hx
      exact absurd hx (head_ne (c := 'r') (d := 's') (by decide))
    | policies => exact (fmtInt_cut (List.append_cancel_left hx)).1

theorem ModelFile.last {out dir : Str} {r : ℤ} {x : Str} (h : ModelFile out dir r x) :
    x.getLast? = some 'l' := by
  cases h with
  | step s n _ _ =>
    exact yaml_last (sfx_app (sfx_cons (sfx_app (sfx_cons (sfx_app (sfx_cons (sfx_step
      (List.suffix_append _ _))))))))
  | latest n _ _ =>
    exact yaml_last (sfx_app (sfx_cons (sfx_app (sfx_cons (sfx_app (sfx_cons (sfx_latest
      (List.suffix_append _ _))))))))

theorem TextFile.last {r : ℤ} {x : Str} (h : TextFile r x) : x.getLast? = some 't' := by
  cases h with
  | step s n => exact txt_last (sfx_step (List.suffix_append _ _))
  | policies =>
    exact txt_last (sfx_app (sfx_app (sfx_cons (List.suffix_append "policies".toList _))))

theorem written_file {env : Env M} {cfg : Cfg} (hn : PlainNames env.ops) (hp : cfg.persistent = false)
    {x : Str} (h : Written env cfg x) :
    ModelFile cfg.outputDir cfg.modelsDir env.rank x ∨ TextFile env.rank x := by
  cases h with
  | step s n hm =>
    obtain ⟨h1, h2⟩ := hn.stored _ _ hm
    rw [stepPath_eq]
    exact .inl (.step s n h1 h2)
  | latest n hm =>
    obtain ⟨h1, h2⟩ := hn.stored _ _ hm
    rw [storePath_eq]
    exact .inl (.latest n h1 h2)
  | best s n =>
    rw [bestPath_tail, show n ++ "-best_policies.txt".toList =
      (n ++ "-best_policies".toList) ++ ".txt".toList from by rw [List.append_assoc]; rfl]
    exact .inr (.step _ _)
  | policies =>
    rw [policiesPath_tail]
    exact .inr .policies
  | gathered s =>
    rw [gatherPath_tail, show "allgather.txt".toList = "allgather".toList ++ ".txt".toList from rfl]
    exact .inr (.step _ _)
  | dataset n hd =>
    rw [hp] at hd
    cases hd

theorem apart {env : ℕ → Env M} {cfg : ℕ → Cfg} {n : ℕ} (hc : SamePlaces cfg n)
    (hn : ∀ i, i < n → PlainNames (env i).ops)
    (hr : ∀ i j, i < n → j < n → i ≠ j → (env i).rank ≠ (env j).rank) : Apart env cfg n := by
  intro i j x hi hj hij h h'
  have h1 := written_file (hn i hi) (hc.fresh i hi) h
  have h2 := written_file (hn j hj) (hc.fresh j hj) h'
  rw [hc.output i j hi hj, hc.models i j hi hj] at h1
  refine hr i j hi hj hij ?_
  rcases h1 with h1 | h1 <;> rcases h2 with h2 | h2
  · exact h1.rank h2
  · have := h1.last
    rw [h2.last] at this
    cases this
  · have := h1.last
    rw [h2.last] at this
    cases this
  · exact h1.rank h2

theorem reads_apart {env : ℕ → Env M} {cfg : ℕ → Cfg} {n : ℕ} (hc : SamePlaces cfg n)
    (hn : ∀ i, i < n → PlainNames (env i).ops)
    (hr : ∀ i j, i < n → j < n → i ≠ j → (env i).rank ≠ (env j).rank) {i : ℕ} (hi : i < n) {op : Op}
    {x : Str} (h : Read (env i) (cfg i) op x) : Mentioned (cfg i) op x ∨ NoOther env cfg n i x := by
  have key : ∀ j, j < n → j ≠ i → Written (env j) (cfg j) x →
      ModelFile (cfg i).outputDir (cfg i).modelsDir (env j).rank x ∨ TextFile (env j).rank x := by
    intro j hj _ hw
    have := written_file (hn j hj) (hc.fresh j hj) hw
    rwa [hc.output j i hj hi, hc.models j i hj hi] at this
  cases h with
  | yaml h => exact .inl (.yaml h)
  | given h1 h2 h3 => exact .inl (.given h1 h2 h3)
  | @latest nf m mt name info yaml mn region ps t _ hm =>
    refine .inr fun j hj hji hw => ?_
    have hmn := (hn i hi).created _ _ _ _ _ _ hm
    have hk := key j hj hji hw
    rw [loadPath_eq, storePath_eq] at hk
    generalize hx : (cfg i).outputDir ++ '/' :: ((cfg i).modelsDir ++ '/' :: (mn ++ '-' ::
      latestTail (env i).rank (region ++ ".yaml".toList))) = x at hk
    rcases hk with hk | hk
    · cases hk with
      | step s' n' hk' _ => exact stepTail_ne_latestTail (model_cut hmn hk' hx).2.symm
      | latest n' hk' _ =>
        exact hr i j hi hj (Ne.symm hji) (latestTail_inj (model_cut hmn hk' hx).2).1
    · have := hk.last
      rw [← hx, yaml_last (sfx_app (sfx_cons (sfx_app (sfx_cons (sfx_app (sfx_cons (sfx_latest
        (List.suffix_append _ _))))))))] at this
      cases this
  | @dataset nf m mt name info yaml region =>
    refine .inr fun j hj hji hw => ?_
    have hk := key j hj hji hw
    rw [datasetPath_eq] at hk
    generalize hx : (cfg i).outputDir ++ '/' :: ((cfg i).datasetsDir ++ '/' :: ("Dataset".toList ++ '-' ::
      (region ++ ".yaml".toList))) = x at hk
    obtain ⟨p1, p2⟩ := hc.plain i hi
    rcases hk with hk | hk
    · cases hk with
      | step s' n' hk' hd =>
        have := append_sep_inj p2 p1 (List.cons.inj (List.append_cancel_left hx)).2
        exact hd (append_sep_inj (by decide) hk' this.2).1.symm
      | latest n' hk' hd =>
        have := append_sep_inj p2 p1 (List.cons.inj (List.append_cancel_left hx)).2
        exact hd (append_sep_inj (by decide) hk' this.2).1.symm
    · have := hk.last
      rw [← hx, yaml_last (sfx_app (sfx_cons (sfx_app (sfx_cons (sfx_app (sfx_cons
        (List.suffix_append _ _)))))))] at this
      cases this
  | @optimal nf m mt name info yaml region =>
    refine .inr fun j hj hji hw => ?_
    have hk := key j hj hji hw
    unfold optimalPath at hk
    rw [List.append_assoc, List.append_assoc, List.append_assoc] at hk
    generalize hx : "opt-".toList ++ (region ++ ("-rank-".toList ++ (fmtInt (env i).rank ++
      ".txt".toList))) = x at hk
    rcases hk with hk | hk
    · have := hk.last
      rw [← hx, txt_last (sfx_app (sfx_app (sfx_app (List.suffix_append _ _))))] at this
      cases this
    · cases hk with
      | step s' n' =>
        unfold stepTail at hx
        exact head_ne (c := 'o') (d := 's') (by decide) hx
      | policies => exact head_ne (c := 'o') (d := 'r') (by decide) hx

theorem plainNames_policyOps (gen : ℕ → ℕ → ℕ) (tenv : ℕ → TrainEnv) : PlainNames (policyOps gen tenv) where
  stored := by
    intro m t h
    cases m with
    | tree => exact ⟨by show '-' ∉ "DecisionTree".toList; decide, by show "DecisionTree".toList ≠ _; decide⟩
    | forest => exact ⟨by show '-' ∉ "RandomForest".toList; decide, by show "RandomForest".toList ≠ _; decide⟩
    | _ => cases h
  created := by
    intro t mn nf n ps m h
    have h : (match createModel (gen t) mn nf n ps with
      | .ok (.model m) => (.ok m : Res PolicyModel)
      | .ok (.policyNet ..) => .error .unmodelled
      | .error e => .error e) = .ok m := h
    unfold createModel createPolicyModel at h
    by_cases h1 : mn = "Static".toList
    · rw [h1]; decide
    by_cases h2 : mn = "DatasetMap".toList
    · rw [h2]; decide
    by_cases h3 : mn = "Random".toList
    · rw [h3]; decide
    by_cases h4 : mn = "RoundRobin".toList
    · rw [h4]; decide
    by_cases h5 : mn = "DecisionTree".toList
    · rw [h5]; decide
    by_cases h6 : mn = "RandomForest".toList
    · rw [h6]; decide
    by_cases h7 : mn = "PolicyNet".toList
    · rw [h7]; decide
    by_cases h8 : mn = "Optimal".toList
    · rw [h8]; decide
    rw [if_neg h1, if_neg h2, if_neg h3, if_neg h4, if_neg h5, if_neg h6, if_neg h7, if_neg h8] at h
    cases h

end Apollo.Ranks
