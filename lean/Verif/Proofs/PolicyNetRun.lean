import Verif.Proofs.PolicyNetKey
import Verif.Proofs.PolicyNetSample
import Verif.Proofs.NetTrain

/-!
# PolicyNet keeps its network and its cache in order
-/

namespace Apollo.PolicyNet

open Arith Net Spec.Net

variable {α : Type} [Arith α]

/-- The input of the network for encoded features. -/
def input (bs : List Bool) (k : ℕ) : α := bitVal (bs.getD k false)

/-- The probabilities of an abstract network for encoded features. -/
def probsList (s : Shape) (S : NetState α) (bs : List Bool) : List α :=
  (List.range s.output).map (probs s S.weights (input bs))

/-- The object holds the abstract network, and the cache only its probabilities. -/
structure Good (P : PolicyNet α) (s : Shape) (S : NetState α) : Prop where
  net : P.net.Rep s S
  num : P.numPolicies = s.output
  cache : ∀ e ∈ P.cache, ∃ f bs, key f = .ok e.1 ∧ encode f = .ok bs ∧ s.input ≤ bs.length ∧
    e.2 = probsList s S bs

omit [Arith α] in
theorem readProbs_spec {b : Buf α} {n : ℕ} {f : ℕ → α} (h : b.Has n f) :
    readProbs b n = .ok ((List.range n).map f) := by
  induction n with
  | zero => rfl
  | succ n ih =>
    unfold readProbs
    rw [ih fun i hi => h i (by omega), Res.bind_ok, (h n (by omega)).read, Res.bind_ok,
      List.range_succ, List.map_append]
    rfl

theorem bits_has {bs : List Bool} {n : ℕ} (h : n ≤ bs.length) :
    Buf.Has2 (α := α) (bs.map fun b => some (bitVal b)) 1 n fun _ => input bs := by
  intro i hi k hk
  have hi0 : i = 0 := by omega
  subst hi0
  unfold Buf.At input
  dsimp only
  rw [Nat.zero_mul, Nat.zero_add, List.getElem?_map, List.getD_eq_getElem?_getD,
    List.getElem?_eq_getElem (by omega)]
  rfl

theorem Good.evaluate {P : PolicyNet α} {s : Shape} {S : NetState α} (h : P.Good s S)
    (hs : 0 < s.output) {f : List ℚ} {bs : List Bool} (hf : encode f = .ok bs)
    (hl : s.input ≤ bs.length) :
    ∃ N, P.evaluate f = .ok (probsList s S bs, { P with net := N }) ∧ N.Rep s S := by
  obtain ⟨N, e, hN, ha⟩ := h.net.forward (bits_has (α := α) hl) (Or.inl hs)
  refine ⟨N, ?_, hN⟩
  unfold PolicyNet.evaluate
  have hp : N.softmax.outputs.Has s.output (probs s S.weights (input bs)) := fun j hj => by
    have := ha.a3 0 (by omega) j hj
    rwa [Nat.zero_mul, Nat.zero_add] at this
  rw [hf, Res.bind_ok, e, Res.bind_ok, h.num, readProbs_spec hp, Res.bind_ok]
  rfl

omit [Arith α] in
theorem cached_some {P : PolicyNet α} {k : List Char} {ps : List α} (h : P.cached k = some ps) :
    (k, ps) ∈ P.cache := by
  unfold cached at h
  rw [Option.map_eq_some_iff] at h
  obtain ⟨e, he, rfl⟩ := h
  have h1 := List.find?_some he
  have h2 := List.mem_of_find?_eq_some he
  simp only [decide_eq_true_eq] at h1
  rw [← h1]
  exact h2

theorem Good.probabilities {P : PolicyNet α} {s : Shape} {S : NetState α} (h : P.Good s S)
    (hs : 0 < s.output) {f : List ℚ} {bs : List Bool} (hf : encode f = .ok bs)
    (hl : s.input ≤ bs.length) :
    ∃ N c, P.probabilities f = .ok (probsList s S bs, { P with net := N, cache := c }) ∧
      ({ P with net := N, cache := c } : PolicyNet α).Good s S := by
  obtain ⟨k, hk⟩ := key_ok_of_encode hf
  unfold PolicyNet.probabilities
  rw [hk, Res.bind_ok]
  cases hc : P.cached k with
  | some ps =>
    obtain ⟨g, bs', hg, hg', -, he⟩ := h.cache _ (cached_some hc)
    rw [encode_of_key hg hk, hf] at hg'
    cases hg'
    dsimp only at he
    subst he
    exact ⟨P.net, P.cache, rfl, h⟩
  | none =>
    obtain ⟨N, e, hN⟩ := h.evaluate hs hf hl
    dsimp only
    rw [e, Res.bind_ok]
    refine ⟨N, P.cache ++ [(k, probsList s S bs)], rfl, hN, h.num, fun x hx => ?_⟩
    rcases List.mem_append.1 hx with hx | hx
    · exact h.cache x hx
    · rw [List.mem_singleton.1 hx]
      exact ⟨f, bs, hk, hf, hl, rfl⟩

theorem length_probsList (s : Shape) (S : NetState α) (bs : List Bool) :
    (probsList s S bs).length = s.output := by simp [probsList]

theorem Good.getIndex {P : PolicyNet α} {s : Shape} {S : NetState α} (h : P.Good s S)
    (hs : 0 < s.output) {f : List ℚ} {bs : List Bool} (hf : encode f = .ok bs)
    (hl : s.input ≤ bs.length) :
    ∃ i P', P.getIndex f = .ok (i, P') ∧ P'.Good s S ∧ P'.rewardMovingAvg = P.rewardMovingAvg ∧
      P'.trainCount = P.trainCount ∧ P'.beta = P.beta ∧ P'.threshold = P.threshold ∧
      (P'.gen = P.gen ∨ P'.gen = fun k => P.gen (k + 1)) ∧
      (lt (ofRat 1) (P.gen 0) = false → 0 ≤ i ∧ i < s.output) := by
  unfold PolicyNet.getIndex
  by_cases hsup : P.suppressed = true
  · refine ⟨0, P, by rw [if_pos hsup], h, rfl, rfl, rfl, rfl, Or.inl rfl, fun _ => ⟨le_refl _, ?_⟩⟩
    exact_mod_cast hs
  · rw [if_neg hsup]
    obtain ⟨N, c, e, hg⟩ := h.probabilities hs hf hl
    obtain ⟨i, gen', hi, -, hgen, -⟩ := sample_ok (probsList s S bs) P.gen
    rw [e, Res.bind_ok]
    dsimp only
    rw [hi, Res.bind_ok]
    refine ⟨i, _, rfl, ⟨hg.net, hg.num, hg.cache⟩, rfl, rfl, rfl, rfl, hgen, fun hu => ?_⟩
    have := sample_lt (by rw [length_probsList]; exact hs) hu hi
    rw [length_probsList] at this
    exact ⟨by omega, by omega⟩

/-! ## Training -/

theorem mapM_ok {β γ : Type} {f : β → Res γ} {l : List β} {g : β → γ}
    (h : ∀ x ∈ l, f x = .ok (g x)) : l.mapM f = .ok (l.map g) := by
  induction l with
  | nil => rfl
  | cons x l ih =>
    rw [List.mapM_cons, h x List.mem_cons_self, Res.bind_ok,
      ih fun y hy => h y (List.mem_cons_of_mem _ hy)]
    rfl

/-- Rows of equal length, one after the other. -/
theorem flatten_get {β : Type} {rows : List (List β)} {n : ℕ} (h : ∀ r ∈ rows, r.length = n)
    {i j : ℕ} (hj : j < n) : rows.flatten[i * n + j]? = rows[i]?.bind fun r => r[j]? := by
  induction rows generalizing i with
  | nil => simp
  | cons r rows ih =>
    have hr := h r List.mem_cons_self
    rw [List.flatten_cons]
    cases i with
    | zero =>
      rw [Nat.zero_mul, Nat.zero_add, List.getElem?_append_left (by omega)]
      rfl
    | succ i =>
      have e : (i + 1) * n + j = r.length + (i * n + j) := by rw [hr, Nat.add_mul]; omega
      rw [e, List.getElem?_append_right (by omega), Nat.add_sub_cancel_left,
        ih fun x hx => h x (List.mem_cons_of_mem _ hx), List.getElem?_cons_succ]

/-- The batch for encoded states. -/
def batchOf (states : List (List Bool)) (actions : List ℤ) (rewards : List α) : Batch α where
  size := states.length
  x i := input (states.getD i [])
  action i := actions.getD i 0
  reward i := rewards.getD i (ofRat 0)

/-- The debiased average after the next batch. -/
def nextBaseline (P : PolicyNet α) (rewards : List α) : α :=
  debias (P.updateAverage rewards).rewardMovingAvg P.beta (P.trainCount + 1)

theorem Good.trainNet {P : PolicyNet α} {s : Shape} {S : NetState α} (h : P.Good s S)
    {states : List (List Bool)} {actions : List ℤ} {rewards : List α}
    (hx : ∀ r ∈ states, r.length = s.input) (ha : actions.length = states.length)
    (hr : rewards.length = states.length) (hact : ∀ a ∈ actions, 0 ≤ a ∧ a < s.output)
    (hne : states ≠ []) :
    ∃ N, P.trainNet states actions rewards = .ok { P.updateAverage rewards with net := N } ∧
      (if lt (P.nextBaseline rewards) P.threshold then N = P.net ∧ N.Rep s S
       else N.Rep s (S.train s (batchOf states actions
        (rewards.map fun r => sub r (P.nextBaseline rewards))))) := by
  cases hst : states with
  | nil => exact absurd hst hne
  | cons first rest =>
    unfold PolicyNet.trainNet
    rw [← hst]
    rw [hst]
    dsimp only
    rw [← hst]
    change ∃ N, (if lt (P.nextBaseline rewards) P.threshold = true then _ else _) = _ ∧ _
    by_cases hlt : lt (P.nextBaseline rewards) P.threshold = true
    · rw [if_pos hlt]
      refine ⟨P.net, rfl, ?_⟩
      rw [if_pos hlt]
      exact ⟨rfl, h.net⟩
    · rw [if_neg hlt]
      have hfirst : first.length = s.input := hx first (by rw [hst]; exact List.mem_cons_self)
      have hrows : states.mapM (stateRow first.length) =
          .ok (states.map fun r => (r.map bitVal : List α)) := by
        apply mapM_ok
        intro r hr'
        unfold stateRow
        rw [hfirst, if_pos (hx r hr').ge, List.take_of_length_le (hx r hr').le]
      rw [hrows, Res.bind_ok]
      have hgiven : Network.Given s (batchOf states actions
          (rewards.map fun r => sub r (P.nextBaseline rewards)))
          ((states.map fun r => (r.map bitVal : List α)).flatten.map some) actions
          (rewards.map fun r => some (sub r (P.nextBaseline rewards))) := by
        refine ⟨fun i hi k hk => ?_, fun i hi => ?_, fun i hi => ?_⟩
        · have hi' : i < states.length := hi
          unfold Buf.At
          rw [List.getElem?_map, flatten_get (n := s.input) (by
            intro r hr'
            obtain ⟨r', hr'', rfl⟩ := List.mem_map.1 hr'
            rw [List.length_map, hx r' hr'']) hk, List.getElem?_map,
            List.getElem?_eq_getElem hi', Option.map_some, Option.bind_some, List.getElem?_map]
          have hk' : k < states[i].length := by rw [hx _ (List.getElem_mem hi')]; exact hk
          rw [List.getElem?_eq_getElem hk']
          simp only [batchOf, input, Option.map_some, List.getD_eq_getElem?_getD,
            List.getElem?_eq_getElem hi', Option.getD_some, List.getElem?_eq_getElem hk']
        · have hi' : i < actions.length := by rw [ha]; exact hi
          simp only [batchOf, List.getD_eq_getElem?_getD, List.getElem?_eq_getElem hi',
            Option.getD_some]
          exact ⟨trivial, hact _ (List.getElem_mem hi')⟩
        · have hi' : i < rewards.length := by rw [hr]; exact hi
          unfold Buf.At
          simp only [batchOf, List.getD_eq_getElem?_getD, List.getElem?_map,
            List.getElem?_eq_getElem hi', Option.map_some, Option.getD_some]
      obtain ⟨N, e, hN, -⟩ := h.net.trainStep hgiven
      refine ⟨N, ?_, ?_⟩
      · dsimp only [batchOf] at e
        rw [show (P.updateAverage rewards).net = P.net from rfl,
          show debias (P.updateAverage rewards).rewardMovingAvg (P.updateAverage rewards).beta
            (P.updateAverage rewards).trainCount = P.nextBaseline rewards from rfl, e]
        rfl
      · rw [if_neg hlt]
        exact hN

/-- What training needs of a dataset: features that can be encoded, of the right number, and policies
of the model. -/
def Trainable (numFeatures numPolicies : ℕ) (ds : Dataset) : Prop :=
  ∀ m ∈ ds.toVectorOfTuples, m.1.length = numFeatures ∧ (∀ f ∈ m.1, -1 < f ∧ f < 2 ^ 64) ∧
    0 ≤ m.2.1 ∧ m.2.1 < numPolicies

theorem encode_total {fs : List ℚ} (h : ∀ f ∈ fs, -1 < f ∧ f < 2 ^ 64) :
    ∃ bs, encode fs = .ok bs ∧ bs.length = 64 * fs.length := by
  have : ∃ bs, encode fs = .ok bs := by
    induction fs with
    | nil => exact ⟨[], rfl⟩
    | cons f fs ih =>
      obtain ⟨bs, e⟩ := ih fun x hx => h x (List.mem_cons_of_mem _ hx)
      refine ⟨bits ⌊f⌋.toNat ++ bs, ?_⟩
      unfold encode toU64
      rw [if_pos (h f List.mem_cons_self), Res.bind_ok, e, Res.bind_ok]
  obtain ⟨bs, e⟩ := this
  exact ⟨bs, e, length_encode e⟩

/-- The rewards of a dataset. -/
def rewardsOf (ds : Dataset) : List α :=
  ds.toVectorOfTuples.map fun m => exp (neg (ofRat m.2.2))

theorem Good.train {P : PolicyNet α} {s : Shape} {S : NetState α} (h : P.Good s S) {nf : ℕ}
    (hs : s.input = 64 * nf) {ds : Dataset} (hd : Trainable nf s.output ds) (hne : ds ≠ []) :
    ∃ N S', P.train ds =
        .ok { P.updateAverage (rewardsOf ds) with net := N, cache := [] } ∧
      ({ P.updateAverage (rewardsOf ds) with net := N, cache := [] } : PolicyNet α).Good s S' ∧
      (lt (P.nextBaseline (rewardsOf ds)) P.threshold = true → N = P.net ∧ S' = S) := by
  have hstates : ∃ states, (ds.toVectorOfTuples.mapM fun m => encode m.1) = .ok states ∧
      states.length = ds.toVectorOfTuples.length ∧ ∀ r ∈ states, r.length = s.input := by
    have : ∀ l : List (Features × ℤ × ℚ), (∀ m ∈ l, m.1.length = nf ∧
        (∀ f ∈ m.1, -1 < f ∧ f < 2 ^ 64) ∧ 0 ≤ m.2.1 ∧ m.2.1 < (s.output : ℤ)) →
        ∃ states, (l.mapM fun m => encode m.1) = .ok states ∧ states.length = l.length ∧
          ∀ r ∈ states, r.length = s.input := by
      intro l
      induction l with
      | nil => intro _; exact ⟨[], rfl, rfl, by simp⟩
      | cons m l ih =>
        intro hl
        obtain ⟨st, e, e1, e2⟩ := ih fun x hx => hl x (List.mem_cons_of_mem _ hx)
        obtain ⟨bs, e3, e4⟩ := encode_total (hl m List.mem_cons_self).2.1
        refine ⟨bs :: st, ?_, by simp [e1], ?_⟩
        · rw [List.mapM_cons, e3, Res.bind_ok, e]
          rfl
        · intro r hr
          rcases List.mem_cons.1 hr with rfl | hr
          · rw [e4, (hl m List.mem_cons_self).1, hs]
          · exact e2 r hr
    exact this _ hd
  obtain ⟨states, e, hlen, hx⟩ := hstates
  have hne' : states ≠ [] := by
    intro h0
    rw [h0] at hlen
    simp only [Dataset.toVectorOfTuples, List.length_map, List.length_nil] at hlen
    exact hne (List.length_eq_zero_iff.1 hlen.symm)
  obtain ⟨N, e', hN⟩ := h.trainNet (actions := ds.toVectorOfTuples.map fun m => m.2.1)
    (rewards := rewardsOf ds) hx (by rw [hlen]; simp) (by rw [hlen]; simp [rewardsOf]) (by
      intro a ha
      obtain ⟨m, hm, rfl⟩ := List.mem_map.1 ha
      exact (hd m hm).2.2) hne'
  unfold PolicyNet.train
  dsimp only
  rw [e, Res.bind_ok]
  rw [rewardsOf] at e'
  rw [e', Res.bind_ok]
  by_cases hlt : lt (P.nextBaseline (rewardsOf ds)) P.threshold = true
  · rw [if_pos hlt] at hN
    exact ⟨N, S, rfl, ⟨hN.2, h.num, by simp⟩, fun _ => ⟨hN.1, rfl⟩⟩
  · rw [if_neg hlt] at hN
    exact ⟨N, _, rfl, ⟨hN, h.num, by simp⟩, fun h' => absurd h' hlt⟩

theorem train_nil (P : PolicyNet α) : P.train [] = .ok { P with cache := [] } := rfl

/-- The shape of the network of a PolicyNet. -/
def shape (numPolicies numFeatures : ℕ) : Shape :=
  ⟨64 * numFeatures, (64 * numFeatures + numPolicies) / 2, numPolicies⟩

theorem good_new (np nf : ℕ) (lr beta beta1 beta2 threshold : α) (init : ℕ → ℕ → α)
    (gen : ℕ → α) : (new np nf lr beta beta1 beta2 threshold init gen).Good (shape np nf)
      (.fresh (shape np nf) lr beta1 beta2 init) :=
  ⟨Network.rep_new (shape np nf) lr beta1 beta2 init, rfl, by simp [new]⟩

end Apollo.PolicyNet
