import Verif.Model.RegionNet
import Verif.Proofs.NetSizes
import Verif.Proofs.RegionRange
import Verif.Proofs.RegionTrace
import Verif.Proofs.RegionFiles

/-!
# Regions with any policy model
-/

namespace Apollo

open Spec Arith

variable {α : Type} [Arith α] [Stored α] {gen : ℕ → ℕ → ℕ} {tenv : ℕ → TrainEnv} {d : NetDraws α}

theorem netOps_index {m m' : AnyModel α} {f : Features} {p : ℤ}
    (h : (netOps gen tenv d).getIndex m f = .ok (p, m')) :
    (∃ m₀ m₁, m = .plain m₀ ∧ m' = .plain m₁ ∧ (policyOps gen tenv).getIndex m₀ f = .ok (p, m₁)) ∨
      ∃ P P', m = .net P ∧ m' = .net P' ∧ P.getIndex f = .ok (p, P') := by
  cases m with
  | plain m₀ =>
    obtain ⟨⟨i, m₁⟩, h1, h⟩ := (Res.bind_eq_ok _ _ _).1 h
    cases h
    exact Or.inl ⟨m₀, m₁, rfl, rfl, h1⟩
  | net P =>
    obtain ⟨⟨i, P₁⟩, h1, h⟩ := (Res.bind_eq_ok _ _ _).1 h
    cases h
    exact Or.inr ⟨P, P₁, rfl, rfl, h1⟩

theorem netOps_train {m m' : AnyModel α} {t : ℕ} {ds : Dataset}
    (h : (netOps gen tenv d).train t ds m = .ok m') :
    (∃ m₀ m₁, m = .plain m₀ ∧ m' = .plain m₁ ∧ (policyOps gen tenv).train t ds m₀ = .ok m₁) ∨
      ∃ P P', m = .net P ∧ m' = .net P' ∧ P.train ds = .ok P' := by
  cases m with
  | plain m₀ =>
    obtain ⟨m₁, h1, h⟩ := (Res.bind_eq_ok _ _ _).1 h
    cases h
    exact Or.inl ⟨m₀, m₁, rfl, rfl, h1⟩
  | net P =>
    obtain ⟨P₁, h1, h⟩ := (Res.bind_eq_ok _ _ _).1 h
    cases h
    exact Or.inr ⟨P, P₁, rfl, rfl, h1⟩

theorem netOps_load {m m' : AnyModel α} {s : Option Str}
    (h : (netOps gen tenv d).load s m = .ok m') :
    (∃ m₀ m₁, m = .plain m₀ ∧ m' = .plain m₁ ∧ (policyOps gen tenv).load s m₀ = .ok m₁) ∨
      ∃ P P', m = .net P ∧ m' = .net P' ∧ P.load s = .ok P' := by
  cases m with
  | plain m₀ =>
    obtain ⟨m₁, h1, h⟩ := (Res.bind_eq_ok _ _ _).1 h
    cases h
    exact Or.inl ⟨m₀, m₁, rfl, rfl, h1⟩
  | net P =>
    obtain ⟨P₁, h1, h⟩ := (Res.bind_eq_ok _ _ _).1 h
    cases h
    exact Or.inr ⟨P, P₁, rfl, rfl, h1⟩

/-- What the factory makes of the name PolicyNet. -/
theorem create_policyNet {g : ℕ → ℕ} {nf n : ℤ} {params : Params} {c : Created}
    (h : createModel g "PolicyNet".toList nf n params = .ok c) :
    ∃ lr beta beta1 beta2 th, c = .policyNet n nf lr beta beta1 beta2 th := by
  unfold createModel createPolicyModel at h
  rw [if_neg (by decide), if_neg (by decide), if_neg (by decide), if_neg (by decide),
    if_neg (by decide), if_neg (by decide), if_pos rfl] at h
  obtain ⟨lr, -, h⟩ := (Res.bind_eq_ok _ _ _).1 h
  obtain ⟨beta, -, h⟩ := (Res.bind_eq_ok _ _ _).1 h
  obtain ⟨beta1, -, h⟩ := (Res.bind_eq_ok _ _ _).1 h
  obtain ⟨beta2, -, h⟩ := (Res.bind_eq_ok _ _ _).1 h
  obtain ⟨th, -, h⟩ := (Res.bind_eq_ok _ _ _).1 h
  cases h
  exact ⟨lr, beta, beta1, beta2, th, rfl⟩

/-- Only the name PolicyNet makes a PolicyNet. -/
theorem create_is_policyNet {g : ℕ → ℕ} {name : Str} {nf n n' nf' : ℤ} {params : Params}
    {lr beta beta1 beta2 th : ℚ}
    (h : createModel g name nf n params = .ok (.policyNet n' nf' lr beta beta1 beta2 th)) :
    name = "PolicyNet".toList := by
  by_contra hn
  unfold createModel createPolicyModel at h
  dsimp only at h
  split at h
  · obtain ⟨m, -, h⟩ := (Res.bind_eq_ok _ _ _).1 h; cases h
  split at h
  · cases h
  split at h
  · obtain ⟨m, -, h⟩ := (Res.bind_eq_ok _ _ _).1 h; cases h
  split at h
  · cases h
  split at h
  · obtain ⟨m, -, h⟩ := (Res.bind_eq_ok _ _ _).1 h
    obtain ⟨m, -, h⟩ := (Res.bind_eq_ok _ _ _).1 h
    cases h
  split at h
  · obtain ⟨m, -, h⟩ := (Res.bind_eq_ok _ _ _).1 h
    obtain ⟨m, -, h⟩ := (Res.bind_eq_ok _ _ _).1 h
    obtain ⟨m, -, h⟩ := (Res.bind_eq_ok _ _ _).1 h
    cases h
  split at h
  · cases h
  · cases h

theorem netOps_create {t : ℕ} {name : Str} {nf n : ℤ} {params : Params} {m : AnyModel α}
    (h : (netOps gen tenv d).create t name nf n params = .ok m) :
    (∃ m₀, m = .plain m₀ ∧ name ≠ "PolicyNet".toList ∧
      (policyOps gen tenv).create t name nf n params = .ok m₀) ∨
    name = "PolicyNet".toList ∧ 0 ≤ n ∧ 0 ≤ nf ∧ ∃ lr beta beta1 beta2 th : α,
      m = .net (.new n.toNat nf.toNat lr beta beta1 beta2 th (d.weights t) (d.gen t)) := by
  simp only [netOps] at h
  split at h
  next m₀ hc =>
    cases h
    refine Or.inl ⟨m₀, rfl, ?_, by simp only [policyOps]; rw [hc]⟩
    rintro rfl
    obtain ⟨_, _, _, _, _, he⟩ := create_policyNet hc
    cases he
  next n' nf' lr beta beta1 beta2 th hc =>
    have hname := create_is_policyNet hc
    subst hname
    obtain ⟨_, _, _, _, _, he⟩ := create_policyNet hc
    cases he
    split at h
    · cases h
    next hneg =>
      cases h
      rw [not_or, not_lt, not_lt] at hneg
      exact Or.inr ⟨rfl, hneg.1, hneg.2, _, _, _, _, _, rfl⟩
  · cases h

/-- Models in range, with PolicyNet. -/
def WithNet (K : Kind → Prop) (A : Kind → PolicyModel → Prop) (k : Kind) : AnyModel α → Prop
  | .plain m => K k ∧ A k m
  | .net P => k.modelName = "PolicyNet".toList ∧ 0 ≤ k.nf ∧ P.In k.n.toNat k.nf.toNat

theorem Ranged.withNet {Y : Prop} {K K' : Kind → Prop} {D : Kind → Dataset → Prop}
    {A : Kind → PolicyModel → Prop} (hg : Ranged (policyOps gen tenv) Y K D A)
    (hK : ∀ k, K' k → 1 ≤ k.n ∧ (K k ∨ k.modelName = "PolicyNet".toList))
    (hd : ∀ t k, lt (ofRat 1) (d.gen t k) = false) :
    Ranged (netOps gen tenv d) Y K' D (WithNet K A) where
  create := by
    intro t k m hk h
    rcases netOps_create h with ⟨m₀, rfl, hn, h'⟩ | ⟨hn, h1, h2, lr, beta, beta1, beta2, th, rfl⟩
    · have hk' := (hK k hk).2.resolve_right hn
      exact ⟨hk', hg.create t k m₀ hk' h'⟩
    · exact ⟨hn, h2, PolicyNet.in_new _ _ _ _ _ _ _ _ (hd t)⟩
  index := by
    intro k m f p m' hk ha h
    rcases netOps_index h with ⟨m₀, m₁, rfl, rfl, h'⟩ | ⟨P, P', rfl, rfl, h'⟩
    · obtain ⟨hk', ha⟩ := ha
      obtain ⟨h1, h2⟩ := hg.index k m₀ f p m₁ hk' ha h'
      exact ⟨h1, hk', h2⟩
    · obtain ⟨hn, h2, ha⟩ := ha
      have h1 := (hK k hk).1
      obtain ⟨h3, h4⟩ := (PolicyNet.getIndex_ok h').2 _ _ (by omega) ha
      exact ⟨by omega, hn, h2, h4⟩
  train := by
    intro k t ds m m' hk ha hds h
    rcases netOps_train h with ⟨m₀, m₁, rfl, rfl, h'⟩ | ⟨P, P', rfl, rfl, h'⟩
    · exact ⟨ha.1, hg.train k t ds m₀ m₁ ha.1 ha.2 hds h'⟩
    · exact ⟨ha.1, ha.2.1, PolicyNet.train_in h' ha.2.2⟩
  load := by
    intro k s m m' hk ha hy h
    rcases netOps_load h with ⟨m₀, m₁, rfl, rfl, h'⟩ | ⟨P, P', rfl, rfl, h'⟩
    · exact ⟨ha.1, hg.load k s m₀ m₁ ha.1 ha.2 hy h'⟩
    · exact ⟨ha.1, ha.2.1, PolicyNet.load_in h' ha.2.2⟩

/-! ## The conditions of the theorems on regions -/

theorem netOps_absorbing : Absorbing (netOps gen tenv d) where
  index := by
    intro m f p m' h ht
    rcases netOps_index h with ⟨m₀, m₁, rfl, rfl, h'⟩ | ⟨P, P', rfl, rfl, h'⟩
    · exact (policyOps_absorbing gen tenv).index m₀ f p m₁ h' ht
    · rfl
  train := by
    intro t ds m m' h ht
    rcases netOps_train h with ⟨m₀, m₁, rfl, rfl, h'⟩ | ⟨P, P', rfl, rfl, h'⟩
    · exact (policyOps_absorbing gen tenv).train t ds m₀ m₁ h' ht
    · rfl

theorem netOps_named : Named (netOps gen tenv d) where
  index := by
    intro m f p m' h
    rcases netOps_index h with ⟨m₀, m₁, rfl, rfl, h'⟩ | ⟨P, P', rfl, rfl, h'⟩
    · exact (policyOps_named gen tenv).index m₀ f p m₁ h'
    · rfl
  train := by
    intro t ds m m' h
    rcases netOps_train h with ⟨m₀, m₁, rfl, rfl, h'⟩ | ⟨P, P', rfl, rfl, h'⟩
    · exact (policyOps_named gen tenv).train t ds m₀ m₁ h'
    · rfl

theorem netOps_storing (hs : Storing (policyOps gen tenv)) : Storing (netOps gen tenv d) where
  index := by
    intro m f p m' h
    rcases netOps_index h with ⟨m₀, m₁, rfl, rfl, h'⟩ | ⟨P, P', rfl, rfl, h'⟩
    · exact hs.index m₀ f p m₁ h'
    · obtain ⟨ha, -⟩ := PolicyNet.getIndex_ok h'
      refine ⟨?_, rfl⟩
      change (do let s ← P'.store; Except.ok (some s)) = (do let s ← P.store; Except.ok (some s))
      have : P'.store = P.store := by
        unfold PolicyNet.store
        rw [ha.params.w1, ha.params.b1, ha.params.w2, ha.params.b2, ha.params.w3, ha.params.b3,
          ha.avg, ha.count]
      rw [this]
  dash := by
    intro m t h
    cases m with
    | plain m₀ => exact hs.dash m₀ t h
    | net P => exact (by decide : '-' ∉ "PolicyNet".toList)

end Apollo
