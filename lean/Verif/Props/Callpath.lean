import Verif.Proofs.Callpath

/-!
# C63: region ids from call paths
-/

namespace Apollo.Props

open Callpath

/-- `backtrace_symbols`: `<dir>/<module>(<symbol>) [<addr>]`. -/
def frameText (dir module symbol addr : Str) : Str :=
  dir ++ '/' :: (module ++ '(' :: (symbol ++ ')' :: ' ' :: '[' :: (addr ++ [']'])))

/-- **C63.** The id of the frame `<dir>/<module>(<symbol>) [<addr>]` is `<module>@<addr>`: for every
directory, module and symbol and every address, as long as
* neither the module nor the symbol contains a path separator, and the symbol no `(`;
* the address contains no blank;
* the directory, module and symbol contain no blank, or no `[`;
* the text is shorter than `2^32` characters (the positions are held in `unsigned`). -/
theorem C63_regionId {dir module symbol addr : Str}
    (hm : '/' ∉ module ∧ '\\' ∉ module) (hs : '/' ∉ symbol ∧ '\\' ∉ symbol) (hp : '(' ∉ symbol)
    (ha : ' ' ∉ addr)
    (hb : (' ' ∉ dir ∧ ' ' ∉ module ∧ ' ' ∉ symbol) ∨ ('[' ∉ dir ∧ '[' ∉ module ∧ '[' ∉ symbol))
    (hlen : (frameText dir module symbol addr).length < 2 ^ 32) :
    regionId (frameText dir module symbol addr) = .ok (module ++ '@' :: addr) := by
  set P : Str := dir ++ '/' :: (module ++ '(' :: (symbol ++ [')'])) with hP
  have hT : frameText dir module symbol addr = P ++ ' ' :: '[' :: (addr ++ [']']) := by
    simp [frameText, hP]
  have hPb : ' ' ∉ P ∨ '[' ∉ P := by
    simp only [hP, List.mem_append, List.mem_cons, List.not_mem_nil, or_false, not_or]
    rcases hb with h | h
    · exact .inl ⟨h.1, by decide, h.2.1, by decide, h.2.2, by decide⟩
    · exact .inr ⟨h.1, by decide, h.2.1, by decide, h.2.2, by decide⟩
  rw [hT] at hlen ⊢
  have e1 : findLastOf [' '] (P ++ ' ' :: '[' :: (addr ++ [']'])) = P.length := by
    refine findLastOf_append (by simp) (fun x hx => ?_)
    simp only [List.mem_cons, List.mem_append, List.not_mem_nil, or_false] at hx ⊢
    rcases hx with rfl | hx | rfl
    · decide
    · exact fun h => ha (h ▸ hx)
    · decide
  have e2 : findLastOf ['/', '\\'] P = dir.length := by
    refine findLastOf_append (by simp) (fun x hx => ?_)
    simp only [List.mem_cons, List.mem_append, List.not_mem_nil, or_false] at hx ⊢
    rcases hx with hx | rfl | hx | rfl
    · exact fun h => h.elim (fun h => hm.1 (h ▸ hx)) (fun h => hm.2 (h ▸ hx))
    · decide
    · exact fun h => h.elim (fun h => hs.1 (h ▸ hx)) (fun h => hs.2 (h ▸ hx))
    · decide
  have e3 : findLastOf ['('] (module ++ '(' :: (symbol ++ [')'])) = module.length := by
    refine findLastOf_append (by simp) (fun x hx => ?_)
    simp only [List.mem_cons, List.mem_append, List.not_mem_nil, or_false] at hx ⊢
    rcases hx with hx | rfl
    · exact fun h => hp (h ▸ hx)
    · decide
  have hPl : P.length = dir.length + module.length + symbol.length + 3 := by
    simp [hP]; omega
  simp only [List.length_append, List.length_cons, List.length_nil] at hlen
  have e4 : addSize dir.length 1 = (dir ++ ['/']).length := by
    unfold addSize
    rw [Nat.mod_eq_of_lt (by omega)]
    simp
  obtain ⟨p, q, hpq, hf, hq⟩ := blank_part (addr := addr) hPb
  have hql : p.length + q.length = P.length + 1 := by
    have := congrArg List.length hpq
    simp only [List.length_append, List.length_cons, List.length_nil] at this
    omega
  unfold regionId
  have s1 : substr (P ++ ' ' :: '[' :: (addr ++ [']'])) 0 P.length = .ok P := by
    simp [substr_zero]
  have s2 : substr P (dir ++ ['/']).length npos = .ok (module ++ '(' :: (symbol ++ [')'])) := by
    have : P = (dir ++ ['/']) ++ (module ++ '(' :: (symbol ++ [')'])) := by simp [hP]
    rw [this]
    exact substr_rest (by simp [npos]; omega)
  have s3 : substr (module ++ '(' :: (symbol ++ [')'])) 0 module.length = .ok module := by
    simp [substr_zero]
  have s4 : substr (P ++ ' ' :: '[' :: (addr ++ [']'])) p.length npos
      = .ok (q ++ '[' :: (addr ++ [']'])) := by
    rw [hpq]
    exact substr_rest (by simp [npos]; omega)
  rw [e1, s1, Res.bind_ok, e2, e4, s2, Res.bind_ok, e3, s3, Res.bind_ok, hf, s4, Res.bind_ok]
  simp only
  rw [addr_part hq (by omega), Res.bind_ok]

/-- The whole function: the frame `walk - 1` of a stack at least that deep. -/
theorem C63_callpath {frames : List Str} {walk : ℕ} {dir module symbol addr : Str}
    (hw : 0 < walk) (hf : frames[walk - 1]? = some (frameText dir module symbol addr))
    (hm : '/' ∉ module ∧ '\\' ∉ module) (hs : '/' ∉ symbol ∧ '\\' ∉ symbol) (hp : '(' ∉ symbol)
    (ha : ' ' ∉ addr)
    (hb : (' ' ∉ dir ∧ ' ' ∉ module ∧ ' ' ∉ symbol) ∨ ('[' ∉ dir ∧ '[' ∉ module ∧ '[' ∉ symbol))
    (hlen : (frameText dir module symbol addr).length < 2 ^ 32) :
    getCallpathOffset frames walk = .ok (module ++ '@' :: addr) := by
  unfold getCallpathOffset
  rw [if_neg (by omega)]
  simp only [Int.toNat_natCast, hf]
  exact C63_regionId hm hs hp ha hb hlen

/-- Different places get different ids: if no address contains `@`, equal ids mean equal module and
equal address. -/
theorem C63_distinct {m a m' a' : Str} (ha : '@' ∉ a) (ha' : '@' ∉ a')
    (h : m ++ '@' :: a = m' ++ '@' :: a') : m = m' ∧ a = a' := by
  have hr : a.reverse ++ '@' :: m.reverse = a'.reverse ++ '@' :: m'.reverse := by
    have := congrArg List.reverse h
    simpa using this
  have key : ∀ (x y u v : Str), '@' ∉ x → '@' ∉ y → x ++ '@' :: u = y ++ '@' :: v → x = y ∧ u = v := by
    intro x
    induction x with
    | nil =>
      intro y u v _ hy h
      cases y with
      | nil => simpa using h
      | cons c y => simp only [List.nil_append, List.cons_append, List.cons.injEq] at h
                    exact absurd (h.1 ▸ List.mem_cons_self) hy
    | cons c x ih =>
      intro y u v hx hy h
      cases y with
      | nil => simp only [List.nil_append, List.cons_append, List.cons.injEq] at h
               exact absurd (h.1 ▸ List.mem_cons_self) hx
      | cons d y =>
        simp only [List.cons_append, List.cons.injEq] at h
        obtain ⟨rfl, h⟩ := h
        obtain ⟨rfl, rfl⟩ := ih y u v (fun k => hx (List.mem_cons_of_mem _ k))
          (fun k => hy (List.mem_cons_of_mem _ k)) h
        exact ⟨rfl, rfl⟩
  obtain ⟨h1, h2⟩ := key _ _ _ _ (by simpa using ha) (by simpa using ha') hr
  exact ⟨List.reverse_injective h2, List.reverse_injective h1⟩

/-- Two frames of the form above with the same id come from the same module and address. -/
theorem C63_injective {d m s a d' m' s' a' : Str}
    (hm : '/' ∉ m ∧ '\\' ∉ m) (hs : '/' ∉ s ∧ '\\' ∉ s) (hp : '(' ∉ s) (ha : ' ' ∉ a ∧ '@' ∉ a)
    (hb : (' ' ∉ d ∧ ' ' ∉ m ∧ ' ' ∉ s) ∨ ('[' ∉ d ∧ '[' ∉ m ∧ '[' ∉ s))
    (hlen : (frameText d m s a).length < 2 ^ 32)
    (hm' : '/' ∉ m' ∧ '\\' ∉ m') (hs' : '/' ∉ s' ∧ '\\' ∉ s') (hp' : '(' ∉ s')
    (ha' : ' ' ∉ a' ∧ '@' ∉ a')
    (hb' : (' ' ∉ d' ∧ ' ' ∉ m' ∧ ' ' ∉ s') ∨ ('[' ∉ d' ∧ '[' ∉ m' ∧ '[' ∉ s'))
    (hlen' : (frameText d' m' s' a').length < 2 ^ 32)
    (h : regionId (frameText d m s a) = regionId (frameText d' m' s' a')) : m = m' ∧ a = a' := by
  rw [C63_regionId hm hs hp ha.1 hb hlen, C63_regionId hm' hs' hp' ha'.1 hb' hlen'] at h
  exact C63_distinct ha.2 ha'.2 (Except.ok.inj h)

/-- Without enough frames the description is made of memory that was never written. -/
theorem C63_fewFrames {frames : List Str} {walk : ℕ} (h : frames.length < walk) :
    getCallpathOffset frames walk = .error (.ub .uninit) := by
  unfold getCallpathOffset
  rw [if_neg (by omega)]
  simp only [Int.toNat_natCast]
  rw [List.getElem?_eq_none (by omega)]

/-- A description without a blank is not handled: the exception leaves the function. -/
theorem C63_noBlank {info : Str} (h : ' ' ∉ info) (hlen : info.length < 2 ^ 32) :
    regionId info = .error .throw := by
  have e1 : findLastOf [' '] info = npos :=
    findLastOf_none (fun x hx => by simp only [List.mem_singleton]; exact fun k => h (k ▸ hx))
  have key : ∀ m : Str, m.length < 2 ^ 32 →
      ∃ m', substr m (addSize (findLastOf ['/', '\\'] m) 1) npos = .ok m' := by
    intro m hm
    refine ⟨_, substr_ok ?_⟩
    unfold findLastOf
    split
    · simp [addSize, npos]
    · rename_i i hi
      have := List.findIdx?_eq_some_iff_getElem.1 hi
      obtain ⟨hi', -⟩ := this
      simp only [List.length_reverse] at hi'
      unfold addSize
      rw [Nat.mod_eq_of_lt (by omega)]
      omega
  unfold regionId
  rw [e1, substr_zero, List.take_of_length_le (by simp only [npos]; omega), Res.bind_ok]
  obtain ⟨m', hm'⟩ := key info hlen
  rw [hm', Res.bind_ok, substr_zero, Res.bind_ok]
  have : substr info (findFirst ' ' info) npos = .error .throw := by
    unfold substr findFirst
    rw [findChar_none h, if_pos]
    simp only [Option.getD_none, npos]
    omega
  rw [this]
  rfl

/-- A usual line. -/
example : regionId "/usr/lib/libfoo.so.1(_ZN3fooEv+0x1a) [0x7f00aa]".toList
    = .ok "libfoo.so.1@0x7f00aa".toList := by decide +kernel

example : frameText "/usr/lib".toList "libfoo.so.1".toList "_ZN3fooEv+0x1a".toList "0x7f00aa".toList
    = "/usr/lib/libfoo.so.1(_ZN3fooEv+0x1a) [0x7f00aa]".toList := by decide +kernel

/-- The hypotheses of `C63_regionId` hold of it. -/
example : ('/' ∉ "libfoo.so.1".toList ∧ '\\' ∉ "libfoo.so.1".toList) ∧
    ('/' ∉ "_ZN3fooEv+0x1a".toList ∧ '\\' ∉ "_ZN3fooEv+0x1a".toList) ∧
    '(' ∉ "_ZN3fooEv+0x1a".toList ∧ ' ' ∉ "0x7f00aa".toList ∧ '@' ∉ "0x7f00aa".toList ∧
    (' ' ∉ "/usr/lib".toList ∧ ' ' ∉ "libfoo.so.1".toList ∧ ' ' ∉ "_ZN3fooEv+0x1a".toList) := by
  decide +kernel

/-- The restrictions are needed: a symbol with a separator, ... -/
example : regionId (frameText "/bin".toList "app".toList "operator/".toList "0x1".toList)
    ≠ .ok "app@0x1".toList := by decide +kernel

/-- ... a symbol with a parenthesis, ... -/
example : regionId (frameText "/bin".toList "app".toList "f(int)".toList "0x1".toList)
    = .ok "app(f@0x1".toList := by decide +kernel

/-- ... and a directory with a blank and a bracket. -/
example : regionId (frameText "/my dir[1]".toList "app".toList "f".toList "0x1".toList)
    ≠ .ok "app@0x1".toList := by decide +kernel

example : regionId "app".toList = .error .throw := by decide +kernel
example : getCallpathOffset ["app".toList] 2 = .error (.ub .uninit) := by decide +kernel
example : getCallpathOffset ["x".toList, "/bin/app(f) [0x1]".toList] 2 = .ok "app@0x1".toList := by
  decide +kernel

end Apollo.Props
