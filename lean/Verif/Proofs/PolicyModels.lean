import Verif.Proofs.Factory
import Verif.Proofs.DatasetHist
import Mathlib.Data.List.Rotate

/-! # Lemmas about the simple policy models -/

namespace Apollo
namespace PolicyModel

theorem indices_static (n c : ℤ) (fs : List Features) :
    indices (.static n c) fs = .ok (List.replicate fs.length c, .static n c) := by
  induction fs with
  | nil => rfl
  | cons f fs ih => simp [indices, getIndex, ih, List.replicate_succ]

theorem indices_append (m : PolicyModel) (fs gs : List Features) :
    indices m (fs ++ gs) =
      (indices m fs >>= fun p => indices p.2 gs >>= fun q => .ok (p.1 ++ q.1, q.2)) := by
  induction fs generalizing m with
  | nil =>
    simp only [List.nil_append, indices, Res.bind_ok]
    cases indices m gs <;> rfl
  | cons f fs ih =>
    simp only [List.cons_append, indices]
    cases hg : m.getIndex f with
    | error e => rfl
    | ok p =>
      simp only [Res.bind_ok, ih]
      cases h1 : indices p.2 fs with
      | error e => rfl
      | ok q =>
        simp only [Res.bind_ok]
        cases h2 : indices q.2 gs with
        | error e => rfl
        | ok r => rfl

theorem roundRobin_step (n : ℕ) (hn : 0 < n) (last : ℤ) (k : ℕ) (f : Features)
    (h : Int.tmod (last + 1) n = ((k % n : ℕ) : ℤ)) :
    getIndex (.roundRobin n last) f = .ok (((k % n : ℕ) : ℤ), .roundRobin n ((k % n : ℕ) : ℤ)) := by
  have : n ≠ 0 := by omega
  simp [getIndex, this, h]

theorem roundRobin_next (n k : ℕ) :
    Int.tmod (((k % n : ℕ) : ℤ) + 1) n = (((k + 1) % n : ℕ) : ℤ) := by
  rw [show ((k % n : ℕ) : ℤ) + 1 = ((k % n + 1 : ℕ) : ℤ) by push_cast; rfl, ← Int.ofNat_tmod]
  congr 1
  simp [Nat.add_mod]

theorem roundRobin_all (n : ℕ) (hn : 0 < n) (last : ℤ) (k : ℕ) (fs : List Features)
    (h : Int.tmod (last + 1) n = ((k % n : ℕ) : ℤ)) :
    ∃ m, indices (.roundRobin n last) fs =
      .ok ((List.range fs.length).map (fun i => (((k + i) % n : ℕ) : ℤ)), m) := by
  induction fs generalizing last k with
  | nil => exact ⟨_, rfl⟩
  | cons f fs ih =>
    obtain ⟨m, hm⟩ := ih ((k % n : ℕ) : ℤ) (k + 1) (roundRobin_next n k)
    refine ⟨m, ?_⟩
    simp only [indices, roundRobin_step n hn last k f h, Res.bind_ok, hm]
    simp only [List.length_cons, List.range_succ_eq_map, List.map_cons, List.map_map, Nat.add_zero,
      Except.ok.injEq, Prod.mk.injEq, and_true, List.cons.injEq, true_and]
    apply List.map_congr_left
    intro i _
    simp only [Function.comp_apply]
    congr 2
    omega

theorem random_all (n : ℕ) (hn : 1 < n) (gen : ℕ → ℕ) (fs : List Features) :
    indices (.random n gen) fs =
      .ok ((List.range fs.length).map (fun i => ((gen i % n : ℕ) : ℤ)),
        .random n (fun k => gen (k + fs.length))) := by
  induction fs generalizing gen with
  | nil => rfl
  | cons f fs ih =>
    have h1 : (1 : ℤ) < n := by omega
    simp only [indices, getIndex, h1, if_true, Res.bind_ok, ih, Int.toNat_natCast]
    simp only [List.length_cons, List.range_succ_eq_map, List.map_cons, List.map_map,
      Except.ok.injEq, Prod.mk.injEq, List.cons.injEq, true_and]
    refine ⟨?_, ?_⟩
    · apply List.map_congr_left
      intro i _
      rfl
    · congr 1

theorem random_one (gen : ℕ → ℕ) (fs : List Features) :
    indices (.random 1 gen) fs = .ok (List.replicate fs.length 0, .random 1 gen) := by
  induction fs with
  | nil => rfl
  | cons f fs ih => simp [indices, getIndex, ih, List.replicate_succ]

theorem optimal_all (ps q : List ℤ) (fs : List Features) (h : fs.length = ps.length) :
    indices (.optimal (ps ++ q)) fs = .ok (ps, .optimal q) := by
  induction fs generalizing ps with
  | nil =>
    have : ps = [] := List.length_eq_zero_iff.1 (by simpa using h.symm)
    subst this; rfl
  | cons f fs ih =>
    cases ps with
    | nil => simp at h
    | cons p ps =>
      simp only [indices, List.cons_append, getIndex, Res.bind_ok]
      rw [ih ps (by simpa using h)]
      rfl

/-! ## The comma separated file of Optimal -/

theorem commaPieces_noComma (cur a : List Char) (h : ',' ∉ a) (r : List Char) :
    commaPieces cur (a ++ r) = commaPieces (cur ++ a) r := by
  induction a generalizing cur with
  | nil => simp
  | cons c a ih =>
    have hc : c ≠ ',' := fun e => h (by simp [e])
    simp only [List.cons_append, commaPieces, hc, if_false]
    rw [ih _ (fun hm => h (by simp [hm]))]
    simp

/-- The file `p1,p2,…,pk` followed by `suffix`. -/
def commaText : List ℤ → List Char → List Char
  | [], suffix => suffix
  | [p], suffix => fmtInt p ++ suffix
  | p :: ps, suffix => fmtInt p ++ ',' :: commaText ps suffix

theorem commaText_eq (ps : List ℤ) (suffix : List Char) :
    commaText ps suffix = [','].intercalate (ps.map fmtInt) ++ suffix := by
  induction ps with
  | nil => simp [commaText]
  | cons p ps ih =>
    cases ps with
    | nil => simp [commaText]
    | cons q qs =>
      simp only [commaText, ih, List.map_cons, List.intercalate_cons_cons, List.append_assoc,
        List.cons_append, List.nil_append]

theorem comma_not_mem_fmtInt (n : ℤ) : ',' ∉ fmtInt n := by
  intro h
  exact ((fmtInt_spec n).1 _ h).ne (by decide) rfl

theorem commaPieces_text (ps : List ℤ) (suffix : List Char) (hs : ',' ∉ suffix) (hne : ps ≠ []) :
    commaPieces [] (commaText ps suffix) =
      ps.dropLast.map fmtInt ++ [fmtInt (ps.getLastD 0) ++ suffix] := by
  induction ps with
  | nil => exact absurd rfl hne
  | cons p ps ih =>
    cases ps with
    | nil =>
      have h1 : ',' ∉ fmtInt p ++ suffix := by
        simp [comma_not_mem_fmtInt p, hs]
      have := commaPieces_noComma [] (fmtInt p ++ suffix) h1 []
      simp only [List.append_nil, List.nil_append] at this
      simp only [commaText, this, commaPieces]
      rw [if_neg]
      · simp
      · have := (fmtInt_spec p).2
        simp [this]
    | cons q qs =>
      simp only [commaText]
      rw [commaPieces_noComma [] (fmtInt p) (comma_not_mem_fmtInt p)]
      simp only [List.nil_append, commaPieces, if_true]
      rw [ih (by simp)]
      simp

theorem mapM_stoi (ps : List ℤ) (suffix : List Char) (h : ∀ p ∈ ps, -2 ^ 31 ≤ p ∧ p < 2 ^ 31)
    (hd : ∀ c ∈ suffix.head?, isDigit c = false) (hne : ps ≠ []) :
    (ps.dropLast.map fmtInt ++ [fmtInt (ps.getLastD 0) ++ suffix]).mapM
      (fun piece => (stoi piece >>= fun v => .ok v.1 : Res ℤ)) = .ok ps := by
  induction ps with
  | nil => exact absurd rfl hne
  | cons p ps ih =>
    cases ps with
    | nil =>
      simp only [List.dropLast_singleton, List.map_nil, List.nil_append, List.getLastD_cons,
        List.getLastD_nil, List.mapM_cons, List.mapM_nil, stoi_fmtInt (h p (by simp)) suffix hd]
      rfl
    | cons q qs =>
      have h0 := stoi_fmtInt (h p (by simp)) [] (by simp)
      rw [List.append_nil] at h0
      have := ih (fun x hx => h x (by simp [hx])) (by simp)
      simp only [List.getLastD_cons] at this ⊢
      simp only [List.dropLast_cons_cons, List.map_cons, List.cons_append, List.mapM_cons, h0,
        Res.bind_ok]
      rw [this]
      rfl

theorem loadOptimal_text (q ps : List ℤ) (suffix : List Char) (h : ∀ p ∈ ps, -2 ^ 31 ≤ p ∧ p < 2 ^ 31)
    (hd : ∀ c ∈ suffix.head?, isDigit c = false) (hs : ',' ∉ suffix) (hne : ps ≠ []) :
    loadOptimal q (commaText ps suffix) = .ok (q ++ ps) := by
  unfold loadOptimal
  rw [commaPieces_text ps suffix hs hne]
  have := mapM_stoi ps suffix h hd hne
  erw [this]
  rfl

end PolicyModel
end Apollo
