import Verif.Proofs.PolicyLines
import Verif.Proofs.DatasetRT
import Verif.Proofs.DatasetBest
import Verif.Spec.BestLines

/-!
# The files of the best policies
-/

namespace Apollo

open Spec

variable {M : Type} {env : Env M}

/-! ## Text -/

theorem bestLines_words {bs : List (Features × ℤ × ℚ)} {s : Str} (h : bestLines bs = .ok s) :
    ∃ ls, List.Forall₂ IsBestLine bs ls ∧ s = ls.flatten := by
  induction bs generalizing s with
  | nil => cases h; exact ⟨[], .nil, rfl⟩
  | cons b bs ih =>
    obtain ⟨f, p, x⟩ := b
    simp only [bestLines] at h
    obtain ⟨t, h1, h⟩ := (Res.bind_eq_ok _ _ _).1 h
    obtain ⟨u, h2, h⟩ := (Res.bind_eq_ok _ _ _).1 h
    cases h
    obtain ⟨ls, h3, rfl⟩ := ih h2
    obtain ⟨ns, h4, rfl⟩ := intColumns_words h1
    refine ⟨_ :: ls, .cons ⟨ns, h4, rfl⟩ h3, ?_⟩
    unfold bestWords
    rw [intercalate_append (by simp)]
    simp [List.intercalate]

theorem bestList {ds : Dataset} (hs : OMap.Sorted ds) :
    IsBestList ds.toVectorOfTuples ds.findMinMetricPolicyByFeatures.2.2 := by
  have inv := Dataset.bestInv_bestPolicies hs
  have key : ∀ f p m, (f, (p, m)) ∈ Dataset.bestPolicies ds →
      IsBest ds.toVectorOfTuples f p ∧ (f, p, m) ∈ ds.toVectorOfTuples := by
    intro f p m hm
    rw [← inv.sorted.find_eq_some_iff, Dataset.best_iff hs, hs.find_eq_some_iff] at hm
    exact ⟨hm.1, Dataset.mem_toVector.2 hm.2⟩
  refine ⟨(OMap.sorted_iff _).1 inv.sorted, fun f => ?_, ?_, ?_⟩
  · simp only [Dataset.mem_toVector]
    exact Dataset.mem_bestPolicies_keys hs f
  · rintro ⟨f, p, m⟩ hb
    exact (key f p m hb).2
  · rintro ⟨f, p, m⟩ hb
    exact (key f p m hb).1

theorem bestText_is {rank : ℤ} {region : Str} {ds : Dataset} {s : Str} (hs : OMap.Sorted ds)
    (h : bestText rank region ds = .ok s) : IsBestText rank region ds.toVectorOfTuples s := by
  unfold bestText at h
  obtain ⟨t, h1, h⟩ := (Res.bind_eq_ok _ _ _).1 h
  cases h
  obtain ⟨ls, h2, rfl⟩ := bestLines_words h1
  refine ⟨_, ls, bestList hs, h2, ?_⟩
  simp [List.intercalate]

theorem sorted_load {ds ds' : Dataset} {s : Str} (hs : OMap.Sorted ds) (h : ds.load s = .ok ds') :
    OMap.Sorted ds' := by
  obtain ⟨r, hr⟩ := Dataset.load_eq s
  rw [hr] at h
  cases r with
  | error e => cases h
  | ok es => cases h; exact Dataset.sorted_insertAll hs _

/-! ## Training -/

/-- The file is one for best policies. -/
def BestName (p : Str) : Prop := "t_policies.txt".toList <:+ p

theorem bestName_best (rank s : ℤ) (name : Str) : BestName (bestPath rank s name) := by
  refine ⟨"step-".toList ++ fmtInt s ++ "-rank-".toList ++ fmtInt rank ++ "-".toList ++ name ++
      "-bes".toList, ?_⟩
  unfold bestPath
  rw [show "-best_policies.txt".toList = "-bes".toList ++ "t_policies.txt".toList from by decide]
  simp only [List.append_assoc]

theorem BestName.ne {p q t : Str} (hp : BestName p) (ht : t <:+ q) (hl : t.length ≤ 14)
    (hn : ¬ t <:+ "t_policies.txt".toList) : q ≠ p := by
  rintro rfl
  exact hn (List.suffix_of_suffix_length_le ht hp hl)

theorem BestName.yaml {p q : Str} (hp : BestName p) (hq : ".yaml".toList <:+ q) : q ≠ p :=
  hp.ne hq (by decide) (by decide)

theorem write_ne {w : World M} {p q : Str} (t : Option Str) (h : q ≠ p) :
    (w.write env q t).files p = w.files p :=
  FileHolds.write (x := w.files p) (.inr h) rfl t

/-- What training of a region writes. -/
theorem trainBody_best {w w' : World M} {r : ℕ} {s : ℤ} (h : trainBody env w r s = .ok w') {p : Str}
    (hp : BestName p) :
    ∃ R, w.regions r = some R ∧ ((R.dataset = [] ∧ w' = w) ∨ (R.dataset ≠ [] ∧
      w'.log = w.log ++ [.trained r R.dataset] ∧
      ((w.cfg.traceBest = false ∧ w'.files p = w.files p) ∨
      (w.cfg.traceBest = true ∧ ∃ t, bestText env.rank R.name R.dataset = .ok t ∧
        ((p = bestPath env.rank s R.name ∧ env.canWrite p = true ∧ w'.files p = some t) ∨
        ((p ≠ bestPath env.rank s R.name ∨ env.canWrite p = false) ∧ w'.files p = w.files p)))))) := by
  obtain ⟨R, hR, ⟨h0, rfl⟩ | ⟨h0, w₀, hb, hR₀, m, m', hm, htr, hst⟩⟩ := trainBody_files h
  · exact ⟨R, hR, .inl ⟨List.length_eq_zero_iff.1 h0, rfl⟩⟩
  · refine ⟨R, hR, .inr ⟨fun e => h0 (by rw [e]; rfl), ?_, ?_⟩⟩
    · have hlog : w₀.log = w.log := by
        obtain ⟨f, rfl⟩ := traceBest_same hb; rfl
      have hwl : ∀ (v : World M) q t, (v.write env q t).log = v.log := by
        intro v q t
        obtain ⟨f, e⟩ := write_same env v q t
        rw [e]
      rcases hst with ⟨-, rfl⟩ | ⟨-, t, -, rfl⟩
      · change w₀.log ++ _ = _
        rw [hlog]
      · rw [hwl, hwl]
        change w₀.log ++ _ = _
        rw [hlog]
    · have hf : w'.files p = w₀.files p := by
        rcases hst with ⟨-, rfl⟩ | ⟨-, t, -, rfl⟩
        · rfl
        · rw [write_ne (q := storePath _ _ _ _) _ (hp.yaml (List.suffix_append _ _)),
            write_ne (q := stepPath _ _ _ _ _) _ (hp.yaml (List.suffix_append _ _))]
          rfl
      rw [hf]
      unfold traceBest at hb
      split at hb
      next ht =>
        obtain ⟨t, h1, hb⟩ := (Res.bind_eq_ok _ _ _).1 hb
        cases hb
        refine .inr ⟨ht, t, h1, ?_⟩
        by_cases he : p = bestPath env.rank s R.name
        · cases hc : env.canWrite p with
          | true =>
            refine .inl ⟨he, rfl, ?_⟩
            unfold World.write
            rw [← he]
            simp [hc]
          | false => exact .inr ⟨.inr rfl, FileHolds.write (x := w.files p) (.inl hc) rfl _⟩
        · exact .inr ⟨.inl he, write_ne _ (Ne.symm he)⟩
      next ht =>
        cases hb
        exact .inl ⟨by simpa using ht, rfl⟩

/-! ## The invariant -/

/-- Regions are named as listed, their datasets are in order, and files of best policies are those that
were there and those written by training. -/
structure BestTraced (env : Env M) (cfg : Cfg) (ns : List Str) (files : Str → Option Str) (w : World M) :
    Prop where
  conf : CfgIs cfg w
  next : w.nextRegion = ns.length
  name : ∀ r R, w.regions r = some R → ns[r]? = some R.name
  sorted : ∀ r R, w.regions r = some R → OMap.Sorted R.dataset
  file : ∀ p, BestName p → w.files p = files p ∨ (cfg.traceBest = true ∧ env.canWrite p = true ∧
    ∃ r ds s name t, Ev.trained r ds ∈ w.log ∧ ns[r]? = some name ∧ p = bestPath env.rank s name ∧
      w.files p = some t ∧ IsBestText env.rank name ds.toVectorOfTuples t)

theorem BestTraced.frame {cfg : Cfg} {ns : List Str} {files : Str → Option Str} {w w' : World M}
    (hw : BestTraced env cfg ns files w) (hc : CfgIs cfg w') (hn : w'.nextRegion = w.nextRegion)
    (hr : ∀ r R, w'.regions r = some R → ∃ R', w.regions r = some R' ∧ R.name = R'.name ∧
      (OMap.Sorted R'.dataset → OMap.Sorted R.dataset))
    (hl : ∀ e ∈ w.log, e ∈ w'.log) (hf : ∀ p, BestName p → w'.files p = w.files p) :
    BestTraced env cfg ns files w' where
  conf := hc
  next := hn.trans hw.next
  name := fun r R h => by
    obtain ⟨R', h1, h2, -⟩ := hr r R h
    rw [h2]; exact hw.name r R' h1
  sorted := fun r R h => by
    obtain ⟨R', h1, -, h2⟩ := hr r R h
    exact h2 (hw.sorted r R' h1)
  file := fun p hp => by
    rw [hf p hp]
    refine (hw.file p hp).imp id ?_
    rintro ⟨h1, h2, r, ds, s, name, t, h3, h4⟩
    exact ⟨h1, h2, r, ds, s, name, t, hl _ h3, h4⟩

theorem BestTraced.same {cfg : Cfg} {ns : List Str} {files : Str → Option Str} {w w' : World M}
    (hw : BestTraced env cfg ns files w) (hc : w'.cfg = w.cfg) (hn : w'.nextRegion = w.nextRegion)
    (hr : w'.regions = w.regions) (hl : ∃ l, w'.log = w.log ++ l) (hf : w'.files = w.files) :
    BestTraced env cfg ns files w' :=
  hw.frame (hw.conf.of hc) hn (fun r R h => ⟨R, hr ▸ h, rfl, id⟩)
    (fun e he => by obtain ⟨l, hl⟩ := hl; rw [hl]; exact List.mem_append_left _ he)
    (fun p _ => by rw [hf])

theorem BestTraced.set {cfg : Cfg} {ns : List Str} {files : Str → Option Str} {w w' : World M} {r : ℕ}
    {R R₀ : Region} (hw : BestTraced env cfg ns files w) (hR : w.regions r = some R₀)
    (hname : R.name = R₀.name) (hs : OMap.Sorted R₀.dataset → OMap.Sorted R.dataset)
    (hc : w'.cfg = w.cfg) (hn : w'.nextRegion = w.nextRegion)
    (hr : w'.regions = Function.update w.regions r (some R)) (hl : ∃ l, w'.log = w.log ++ l)
    (hf : w'.files = w.files) : BestTraced env cfg ns files w' := by
  refine hw.frame (hw.conf.of hc) hn ?_
    (fun e he => by obtain ⟨l, hl⟩ := hl; rw [hl]; exact List.mem_append_left _ he)
    (fun p _ => by rw [hf])
  intro r' R' h'
  rw [hr] at h'
  by_cases heq : r' = r
  · subst heq; rw [Function.update_self] at h'; cases h'; exact ⟨R₀, hR, hname, hs⟩
  · rw [Function.update_of_ne heq] at h'; exact ⟨R', h', rfl, id⟩

theorem BestTraced.body {cfg : Cfg} {ns : List Str} {files : Str → Option Str} {w w' : World M} {r : ℕ}
    {s : ℤ} (hw : BestTraced env cfg ns files w) (h : trainBody env w r s = .ok w') :
    BestTraced env cfg ns files w' := by
  obtain ⟨l, hl, _⟩ := trainBody_trained h
  have hmem : ∀ e ∈ w.log, e ∈ w'.log := fun e he => by
    rw [hl.log]; exact List.mem_append_left _ he
  refine ⟨hw.conf.of hl.cfg, hl.nextRegion.trans hw.next, ?_, ?_, fun p hp => ?_⟩
  · intro r' R' h'; rw [hl.regions] at h'; exact hw.name r' R' h'
  · intro r' R' h'; rw [hl.regions] at h'; exact hw.sorted r' R' h'
  · have hold : w'.files p = w.files p → w'.files p = files p ∨ (cfg.traceBest = true ∧
        env.canWrite p = true ∧ ∃ r ds s name t, Ev.trained r ds ∈ w'.log ∧ ns[r]? = some name ∧
        p = bestPath env.rank s name ∧ w'.files p = some t ∧
        IsBestText env.rank name ds.toVectorOfTuples t) := by
      intro e
      rw [e]
      refine (hw.file p hp).imp id ?_
      rintro ⟨h1, h2, r, ds, s, name, t, h3, h4⟩
      exact ⟨h1, h2, r, ds, s, name, t, hmem _ h3, h4⟩
    obtain ⟨R, hR, ⟨-, rfl⟩ | ⟨-, hlog, ⟨-, e⟩ | ⟨ht, t, h1, ⟨h2, hcw, h3⟩ | ⟨-, e⟩⟩⟩⟩ := trainBody_best h hp
    · exact hold rfl
    · exact hold e
    · refine .inr ⟨by obtain ⟨G, e⟩ := hw.conf; rw [e] at ht; exact ht, hcw, r, R.dataset, s, R.name, t, ?_,
        hw.name _ _ hR, h2, h3, bestText_is (hw.sorted _ _ hR) h1⟩
      rw [hlog]; simp
    · exact hold e

theorem BestTraced.single {cfg : Cfg} {ns : List Str} {files : Str → Option Str} {w w' : World M}
    {ds : Dataset} {rs : List ℕ} (hw : BestTraced env cfg ns files w) (hs : w.cfg.single = true)
    (h : trainAllWith env ds rs w = .ok w') : BestTraced env cfg ns files w' := by
  obtain ⟨l, hl⟩ := trainAllWith_trained hs h
  exact hw.same hl.cfg hl.nextRegion hl.regions ⟨l, hl.log⟩ (trainAllWith_files h).1

theorem BestTraced.auto {cfg : Cfg} {ns : List Str} {files : Str → Option Str} {w w' : World M} {r : ℕ}
    (hw : BestTraced env cfg ns files w) (h : autoTrain env w r = .ok w') :
    BestTraced env cfg ns files w' :=
  autoTrain_induct _ (fun _ _ _ _ hw h => hw.body h) (fun _ _ _ _ hw hs h => hw.single hs h) hw h

theorem bestTraced_stable (env : Env M) (F : ℕ → Prop) (cfg : Cfg) (ns : List Str)
    (files : Str → Option Str) : Stable env F (BestTraced env cfg ns files) where
  advance := fun w hw => hw.same rfl rfl rfl ⟨[], (List.append_nil _).symm⟩ rfl
  body := fun _ _ _ _ _ _ hw _ h => hw.body h
  single := fun _ _ _ _ hw hs h => hw.single hs h
  waiting := fun w c hw => hw.same rfl rfl rfl ⟨_, rfl⟩ rfl
  finish := by
    intro w r c x w' hw h
    obtain ⟨R, m, C, w₁, w₂, R₂, hR, hm, hC, h1, h2, h3, rfl⟩ := collectContext_steps h
    obtain ⟨f1, f2, f3, f4, f5, f6, f7, f8, f9, f10⟩ :=
      record_frame env (w.emit (.finished r c x)) r R m c C x
    have hg := record_regions env (w.emit (.finished r c x)) r R m c C x
    have a0 : BestTraced env cfg ns files (record env (w.emit (.finished r c x)) r R m c C x) :=
      hw.set (R₀ := R) hR (by rfl) (fun hs => by
        unfold recRegion
        dsimp only
        split
        · exact Dataset.sorted_insert hs _ _ _
        · exact hs) f1 f3 hg ⟨_, f9⟩ f8
    have a1 := a0.auto h1
    have a2 : BestTraced env cfg ns files w₂ := by
      rcases destroyContext_ok h2 with ⟨-, rfl⟩ | ⟨n, -, -, rfl⟩
      · exact a1
      · exact a1.same rfl rfl rfl ⟨[], (List.append_nil _).symm⟩ rfl
    exact a2.set (R := { R₂ with current := none }) h3 rfl id rfl rfl rfl ⟨[], (List.append_nil _).symm⟩ rfl
  pending := fun w r R cs hw hR =>
    hw.set (R := { R with pending := cs }) hR rfl id rfl rfl rfl ⟨[], (List.append_nil _).symm⟩ rfl

theorem bestTraced_callwise (env : Env M) (F : ℕ → Prop) (cfg : Cfg) (ns : List Str)
    (files : Str → Option Str) : Callwise env F (BestTraced env cfg ns files) where
  toKept := (bestTraced_stable env F cfg ns files).kept
  finish := (bestTraced_stable env F cfg ns files).finish
  began := fun w r c R C w' hw hb =>
    hw.set (R := { R with current := some c, idx := R.idx + 1 }) hb.region rfl id hb.cfg hb.nextRegion hb.regions ⟨_, hb.log⟩ hb.files
  assigned := fun w c C f hw _ => hw.same rfl rfl rfl ⟨_, rfl⟩ rfl
  feature := fun w c C v hw _ => hw.same rfl rfl rfl ⟨_, rfl⟩ rfl
  asked := by
    intro w r c p w' hw h
    obtain ⟨R, m, C, m', w₀, hR, hm, hC, hi, h1, rfl⟩ := getPolicyIndex_trace h
    have hw₀ : BestTraced env cfg ns files w₀ := by
      unfold tracePolicy at h1
      split at h1
      · obtain ⟨s, -, h1⟩ := (Res.bind_eq_ok _ _ _).1 h1
        cases h1
        refine hw.frame (hw.conf.of ?_) ?_ (fun r R h => ⟨R, ?_, rfl, id⟩) (fun e he => ?_) fun p hp => ?_
        · obtain ⟨f, e⟩ := write_same env w (policiesPath env.rank)
            (some ((w.files (policiesPath env.rank)).getD [] ++ s))
          unfold World.append; rw [e]
        · obtain ⟨f, e⟩ := write_same env w (policiesPath env.rank)
            (some ((w.files (policiesPath env.rank)).getD [] ++ s))
          unfold World.append; rw [e]
        · obtain ⟨f, e⟩ := write_same env w (policiesPath env.rank)
            (some ((w.files (policiesPath env.rank)).getD [] ++ s))
          unfold World.append at h; rw [e] at h; exact h
        · obtain ⟨f, e'⟩ := write_same env w (policiesPath env.rank)
            (some ((w.files (policiesPath env.rank)).getD [] ++ s))
          unfold World.append; rw [e']; exact he
        · exact write_ne _ (hp.ne (t := "-policies.txt".toList) (List.suffix_append _ _) (by decide)
            (by decide))
      · cases h1; exact hw
    exact hw₀.same rfl rfl rfl ⟨_, rfl⟩ rfl
  stop := fun w c C t hw _ => hw.same rfl rfl rfl ⟨[], (List.append_nil _).symm⟩ rfl
  ended := fun w r c R hw hR _ _ =>
    hw.set (R := { R with pending := R.pending ++ [c] }) hR rfl id rfl rfl rfl ⟨_, rfl⟩ rfl
  period := fun w hw => hw.frame (by obtain ⟨G, e⟩ := hw.conf; exact ⟨0, by
      change ({ w.cfg with globalPeriod := 0 } : Cfg) = _; rw [e]⟩) rfl (fun r R h => ⟨R, h, rfl, id⟩)
    (fun e he => he) fun p _ => rfl
  destroyed := by
    intro w r R hw hR hp
    obtain ⟨f1, f2, f3, f4, f5, f6, f7, f8, f9⟩ := afterDestroy_frame env w r R
    refine hw.frame (hw.conf.of f8) f5 ?_ (fun e he => by rw [f4]; exact List.mem_append_left _ he) ?_
    · intro r' R' h'
      rw [f1] at h'
      by_cases heq : r' = r
      · subst heq; rw [Function.update_self] at h'; cases h'
      · rw [Function.update_of_ne heq] at h'; exact ⟨R', h', rfl, id⟩
    · intro p hp
      unfold afterDestroy
      dsimp only
      split
      · exact write_ne _ (hp.yaml (List.suffix_append _ _))
      · rfl

theorem BestTraced.created {cfg : Cfg} {ns : List Str} {files : Str → Option Str} {w w' : World M}
    {nf n mt : ℤ} {name info yaml : Str} {r : ℕ} (hw : BestTraced env cfg ns files w)
    (h : createRegion env w nf name n mt info yaml = .ok (r, w')) :
    BestTraced env cfg (ns ++ [name.take 63]) files w' := by
  unfold createRegion at h
  obtain ⟨⟨r₁, w₀⟩, h0, h⟩ := (Res.bind_eq_ok _ _ _).1 h
  obtain ⟨w₁, h1, h⟩ := (Res.bind_eq_ok _ _ _).1 h
  obtain ⟨w₂, h2, h⟩ := (Res.bind_eq_ok _ _ _).1 h
  obtain ⟨w₃, h3, h⟩ := (Res.bind_eq_ok _ _ _).1 h
  obtain ⟨w₄, h4, h⟩ := (Res.bind_eq_ok _ _ _).1 h
  obtain ⟨w₅, h5, h⟩ := (Res.bind_eq_ok _ _ _).1 h
  obtain ⟨R, hR, h⟩ := (Res.bind_eq_ok _ _ _).1 h
  obtain ⟨mc, hmc, h⟩ := (Res.bind_eq_ok _ _ _).1 h
  cases h
  have nil : ∀ l : List Ev, ∃ l', l = l ++ l' := fun l => ⟨[], (List.append_nil _).symm⟩
  have a0 : BestTraced env cfg (ns ++ [name.take 63]) files w₀ := by
    obtain ⟨R₀, m, hr, -, hn, -, -, -, hd, -, -, -, -, hw0⟩ := constructRegion_ok h0
    rw [hw.next] at hr
    have hold : ∀ {i : ℕ} {x : Str}, ns[i]? = some x → (ns ++ [name.take 63])[i]? = some x := by
      intro i x hx
      rw [List.getElem?_append_left (by
        rcases lt_or_ge i ns.length with h | h
        · exact h
        · rw [List.getElem?_eq_none h] at hx; cases hx)]
      exact hx
    have hreg : w₀.regions = Function.update w.regions r (some R₀) := by rw [hw0]; rfl
    have hfile : w₀.files = w.files := by rw [hw0]; rfl
    have hlog : w₀.log = w.log := by rw [hw0]; rfl
    have hcfg : w₀.cfg = w.cfg := by rw [hw0]; rfl
    have hnext : w₀.nextRegion = r + 1 := by rw [hw0]; rfl
    refine ⟨hw.conf.of hcfg, by rw [hnext, hr]; simp, ?_, ?_, ?_⟩
    · intro r' R' h'
      rw [hreg] at h'
      by_cases heq : r' = r
      · subst heq
        rw [Function.update_self] at h'
        cases h'
        rw [hr, hn, List.getElem?_concat_length]
        rfl
      · rw [Function.update_of_ne heq] at h'
        exact hold (hw.name _ _ h')
    · intro r' R' h'
      rw [hreg] at h'
      by_cases heq : r' = r
      · subst heq
        rw [Function.update_self] at h'
        cases h'
        rw [hd]
        exact OMap.sorted_nil
      · rw [Function.update_of_ne heq] at h'
        exact hw.sorted _ _ h'
    · intro p hp
      rw [hfile, hlog]
      refine (hw.file p hp).imp id ?_
      rintro ⟨h1, h2, r, ds, s, name, t, h3, h4, h5⟩
      exact ⟨h1, h2, r, ds, s, name, t, h3, hold h4, h5⟩
  have a1 : BestTraced env cfg (ns ++ [name.take 63]) files w₁ := by
    unfold loadPersistent at h1
    split at h1
    · cases h1; exact a0
    · obtain ⟨R, hR, h1⟩ := (Res.bind_eq_ok _ _ _).1 h1
      obtain ⟨ds, hds, h1⟩ := (Res.bind_eq_ok _ _ _).1 h1
      refine BestTraced.auto (a0.set (w' := w₀.setRegion r { R with dataset := ds })
        (R := { R with dataset := ds }) (World.region_ok.1 hR) rfl ?_ rfl rfl rfl (nil _) rfl) h1
      intro hs
      unfold loadIfExists at hds
      split at hds
      · cases hds; exact hs
      · exact sorted_load hs hds
  have a2 : BestTraced env cfg (ns ++ [name.take 63]) files w₂ := by
    unfold loadDatasetParam at h2
    obtain ⟨R, hR, h2⟩ := (Res.bind_eq_ok _ _ _).1 h2
    split at h2
    · cases h2; exact a1
    · split at h2
      · cases h2
      · obtain ⟨ds, hds, h2⟩ := (Res.bind_eq_ok _ _ _).1 h2
        split at h2
        · cases h2
        · exact (bestTraced_stable env (fun _ => True) cfg _ files).kept.regionTrain (fun _ => trivial)
            (a1.set (w' := w₁.setRegion r { R with dataset := ds }) (R := { R with dataset := ds }) (World.region_ok.1 hR) rfl
              (fun hs => sorted_load hs hds) rfl rfl rfl (nil _) rfl) h2
  have a3 : BestTraced env cfg (ns ++ [name.take 63]) files w₃ := by
    unfold loadOptimalFile at h3
    obtain ⟨R, hR, h3⟩ := (Res.bind_eq_ok _ _ _).1 h3
    split at h3
    · split at h3
      · cases h3
      · obtain ⟨_, _, h3⟩ := (Res.bind_eq_ok _ _ _).1 h3
        obtain ⟨_, _, h3⟩ := (Res.bind_eq_ok _ _ _).1 h3
        cases h3; exact a2.same rfl rfl rfl (nil _) rfl
    · cases h3; exact a2
  have a4 : BestTraced env cfg (ns ++ [name.take 63]) files w₄ := by
    unfold loadDatasetMap at h4
    obtain ⟨R, hR, h4⟩ := (Res.bind_eq_ok _ _ _).1 h4
    split at h4
    · split at h4
      · cases h4
      · obtain ⟨ds, hds, h4⟩ := (Res.bind_eq_ok _ _ _).1 h4
        split at h4
        · cases h4
        · obtain ⟨_, _, h4⟩ := (Res.bind_eq_ok _ _ _).1 h4
          obtain ⟨_, _, h4⟩ := (Res.bind_eq_ok _ _ _).1 h4
          cases h4
          exact a3.set (R := { R with dataset := ds }) (World.region_ok.1 hR) rfl
            (fun hs => sorted_load hs hds) rfl rfl rfl ⟨_, rfl⟩ rfl
    · cases h4; exact a3
  have a5 : BestTraced env cfg (ns ++ [name.take 63]) files w₅ := by
    obtain ⟨R, hR', ⟨-, -, rfl⟩ | ⟨-, rfl⟩⟩ := startTrace_cases h5
    · exact a4.set (R := { R with trace := traceHeader R.numFeatures }) (World.region_ok.1 hR') rfl id rfl
        rfl rfl (nil _) rfl
    · exact a4
  exact a5.same rfl rfl rfl ⟨_, rfl⟩ rfl

theorem bestTraced_init (env : Env M) (cfg : Cfg) (files : Str → Option Str) :
    BestTraced env cfg (regionNames []) files (initWorld cfg files) := by
  refine ⟨⟨cfg.globalPeriod, rfl⟩, rfl, ?_, ?_, fun p _ => .inl rfl⟩
  · intro r R h; cases h
  · intro r R h; cases h

theorem bestTraced_exec {cfg : Cfg} {files : Str → Option Str} {ops : List Op} :
    ∀ {done : List Op} {w w' : World M},
      BestTraced env cfg (regionNames done) files w → exec env ops w = .ok w' →
      BestTraced env cfg (regionNames (done ++ ops)) files w' := by
  induction ops with
  | nil =>
    intro done w w' hw h
    simp only [Apollo.exec] at h
    cases h
    simpa using hw
  | cons op ops ih =>
    intro done w w' hw h
    simp only [Apollo.exec] at h
    obtain ⟨⟨x, w₁⟩, h1, h⟩ := (Res.bind_eq_ok _ _ _).1 h
    rw [show done ++ op :: ops = (done ++ [op]) ++ ops by simp]
    refine ih ?_ h
    unfold regionNames
    rw [List.filterMap_append]
    by_cases hop : ∃ nf name n mt info yaml, op = .create nf name n mt info yaml
    · obtain ⟨nf, name, n, mt, info, yaml, rfl⟩ := hop
      simp only [step] at h1
      obtain ⟨⟨r, w₂⟩, h2, h1⟩ := (Res.bind_eq_ok _ _ _).1 h1
      cases h1
      exact hw.created h2
    · have e1 : regionNames [op] = [] := by
        cases op <;> first | rfl | exact absurd ⟨_, _, _, _, _, _, rfl⟩ hop
      unfold regionNames at e1
      rw [e1, List.append_nil]
      refine (bestTraced_callwise env (fun _ => True) cfg _ files).step (fun _ _ _ _ => trivial) ?_ hw h1
      intro nf name n mt info yaml e
      exact absurd ⟨_, _, _, _, _, _, e⟩ hop

end Apollo
