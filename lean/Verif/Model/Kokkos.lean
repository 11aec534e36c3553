import Verif.Model.Region

/-!
# Model of the Kokkos connector

Source: src/connectors/kokkos/kokkos-connector.cpp.

Simplifications:
* A variable is known by its id; its metadata (`toolProvidedInfo`) is what was declared for that id.
  Kokkos gives every declared variable a new id; declaring an id again is not modelled.
* The set `untunables` is never changed by the connector, so it is empty.
* Messages, the array `choices` and failing allocations are not modelled.
* Numbers of type `double` are rationals rounded by `rnd64`; overflow to infinity is not modelled.
* Strings contain no null character.
-/

namespace Apollo.Kokkos

/-- `Kokkos_Tools_VariableValue_ValueUnion` with the type of the variable. -/
inductive Value
  | int (v : ℤ)
  | dbl (v : ℚ)
  | str (s : Str)
  deriving DecidableEq

/-- `Kokkos_Tools_ValueRange` of one type of number. -/
structure Range (α : Type) where
  lower : α
  upper : α
  step : α
  openLower : Bool
  openUpper : Bool

/-- `VariableInfo::type`, `valueQuantity` and `candidates`. -/
inductive Candidates
  | set (vs : List Value)
  | intRange (r : Range ℤ)
  | dblRange (r : Range ℚ)
  /-- a range of strings -/
  | strRange
  | unbounded

/-- `int64_t` arithmetic: overflow is undefined. -/
def i64 (v : ℤ) : Res ℤ := if -2 ^ 63 ≤ v ∧ v < 2 ^ 63 then .ok v else .error (.ub .overflow)

/-- Conversion of an `int64_t` to `int`. -/
def wrap32 (v : ℤ) : ℤ := Int.bmod v (2 ^ 32)

/-- kokkos-connector.cpp:56: `1E-24`. -/
def epsilon : ℚ := rnd64 (1 / 10 ^ 24)

/-- kokkos-connector.cpp:73-76: the quotient is truncated. -/
def sliceHelper (upper lower step : ℚ) : Res ℤ :=
  let q := rnd64 (rnd64 (upper - lower) / step)
  i64 (if 0 ≤ q then ⌊q⌋ else ⌈q⌉)

/-- kokkos-connector.cpp:84-85. -/
def upperInt (r : Range ℤ) : Res ℤ := if !r.openUpper then .ok r.upper else i64 (r.upper - 1)

/-- kokkos-connector.cpp:86-87. -/
def lowerInt (r : Range ℤ) : Res ℤ := if !r.openLower then .ok r.lower else i64 (r.lower + 1)

/-- kokkos-connector.cpp:83-88: the number of candidates of an integer range. -/
def countInt (r : Range ℤ) : Res ℤ := do
  let hi ← upperInt r
  let lo ← lowerInt r
  let d ← i64 (hi - lo)
  if r.step = 0 then .error (.ub .divByZero)
  else do
    let q ← i64 (d.tdiv r.step)
    i64 (1 + q)

/-- kokkos-connector.cpp:89-101: the number of candidates of a range of `double`. -/
def countDbl (r : Range ℚ) : Res ℤ :=
  if r.step = 0 then .ok 100
  else
    sliceHelper (if r.openUpper then r.upper else rnd64 (r.upper - epsilon))
      (if r.openLower then r.lower else rnd64 (r.lower + epsilon)) r.step

/-- kokkos-connector.cpp:167-170. -/
def firstInt (r : Range ℤ) : Res ℤ := if r.openLower then .ok r.lower else i64 (r.lower + r.step)

/-- kokkos-connector.cpp:165-173: the `n` candidates from the `x`-th on. -/
def fillInt (r : Range ℤ) : ℕ → ℤ → Res (List Value)
  | 0, _ => .ok []
  | n + 1, x => do
    let lower ← firstInt r
    let d ← i64 (x * r.step)
    let v ← i64 (lower + d)
    let vs ← fillInt r n (x + 1)
    .ok (.int v :: vs)

/-- kokkos-connector.cpp:174-183. -/
def fillDbl (r : Range ℚ) (n : ℕ) : List Value :=
  (List.range n).map fun x : ℕ => .dbl (rnd64
    ((if r.openLower then r.lower else rnd64 (r.lower + epsilon)) + rnd64 ((x : ℚ) * r.step)))

/-- kokkos-connector.cpp:186-227: `candidate_set_size` and `candidate_values` (empty for a null
pointer).  The loops count with an `int`. -/
def associate : Candidates → Res (ℤ × List Value)
  | .set vs => if vs.length < 2 ^ 31 then .ok (vs.length, vs) else .error (.ub .overflow)
  | .intRange r => do
    let n ← countInt r
    if n ≤ 0 then .ok (n, [])
    else if n < 2 ^ 31 then do
      let vs ← fillInt r n.toNat 0
      .ok (n, vs)
    else .error (.ub .overflow)
  | .dblRange r => do
    let n ← countDbl r
    if n ≤ 0 then .ok (n, [])
    else if n < 2 ^ 31 then .ok (n, fillDbl r n.toNat)
    else .error (.ub .overflow)
  | .strRange => .ok (-1, [])
  | .unbounded => .ok (0, [])

/-- kokkos-connector.cpp:65-72: `VariableDatabaseData` (the members used). -/
structure Decl where
  name : Str
  setSize : ℤ
  values : List Value

/-- kokkos-connector.cpp:242-259: `less<variableSet>` on the ids; the loop. -/
def lessLoop : List ℕ → List ℕ → Bool
  | a :: l, b :: r => if a ≠ b then decide (a < b) else lessLoop l r
  | _, _ => false

/-- kokkos-connector.cpp:245-257. -/
def less (l r : List ℕ) : Bool :=
  if l.length ≠ r.length then decide (l.length < r.length) else lessLoop l r

/-- `std::map<variableSet, RegionData>`: entries in increasing order. -/
abbrev TuningMap := List (List ℕ × ℕ)

/-- `std::map::find`, by `less` alone: the entry that is not less, if the key is not less either. -/
def TuningMap.find : TuningMap → List ℕ → Option ℕ
  | [], _ => none
  | (k', r) :: m, k => if less k' k then TuningMap.find m k else if less k k' then none else some r

/-- `std::map::emplace` of a key that is not there. -/
def TuningMap.insert : TuningMap → List ℕ → ℕ → TuningMap
  | [], k, r => [(k, r)]
  | (k', r') :: m, k, r =>
    if less k' k then (k', r') :: TuningMap.insert m k r else (k, r) :: (k', r') :: m

/-- The state of the connector. -/
structure State (M : Type) where
  world : World M
  decls : ℕ → Option Decl := fun _ => none
  /-- `tuning_regions` -/
  regions : TuningMap := []
  /-- `tuned_contexts` -/
  contexts : ℕ → Option (ℕ × CtxPtr) := fun _ => none
  /-- `encounter` -/
  encounter : ℤ := 0
  /-- `num_unconverged_regions` -/
  unconverged : ℕ := 0

/-- What surrounds the connector: the library, `flush_interval` and `std::hash<std::string>`. -/
structure KEnv (M : Type) where
  env : Env M
  flush : ℤ := 500
  hash : Str → ℕ := fun _ => 0

variable {M : Type}

/-- The data of a variable. -/
def State.decl (s : State M) (id : ℕ) : Res Decl :=
  match s.decls id with
  | some d => .ok d
  | none => .error (.ub .dangling)

/-- kokkos-connector.cpp:422-431: `kokkosp_declare_output_type`. -/
def declareOutput (s : State M) (id : ℕ) (name : Str) (c : Candidates) : Res (State M) := do
  if (s.decls id).isSome then .error .unmodelled
  else do
    let (n, vs) ← associate c
    .ok { s with decls := Function.update s.decls id (some ⟨name, n, vs⟩) }

/-- kokkos-connector.cpp:433-443: `kokkosp_declare_input_type`. -/
def declareInput (s : State M) (id : ℕ) (name : Str) : Res (State M) :=
  if (s.decls id).isSome then .error .unmodelled
  else .ok { s with decls := Function.update s.decls id (some ⟨name, 0, []⟩) }

/-- kokkos-connector.cpp:445-458: `variableToFloat`. -/
def toFloat (hash : Str → ℕ) : Value → ℚ
  | .int v => rnd32 v
  | .dbl v => rnd32 v
  | .str s => rnd32 (hash s)

/-- kokkos-connector.cpp:515-524: the number of combinations. -/
def spaceSize (s : State M) : List ℕ → ℤ → Res ℤ
  | [], n => .ok n
  | id :: ids, n => do
    let d ← s.decl id
    if d.setSize = 0 then .error (.ub .divByZero)
    else do
      let n ← i64 (n * d.setSize)
      spaceSize s ids n

/-- kokkos-connector.cpp:484-499: `get_region_name`.  A name of 64 characters or more is copied
without its end (line 428). -/
def regionName (s : State M) : List ℕ → Res Str
  | [] => .ok []
  | id :: ids => do
    let d ← s.decl id
    if 64 ≤ d.name.length then .error (.ub .uninit)
    else do
      let rest ← regionName s ids
      .ok (d.name ++ (if ids = [] then ".yaml".toList else '_' :: rest))

/-- kokkos-connector.cpp:540-546: the file looked for. -/
def modelPath (name : Str) : Str :=
  ".apollo/models/".toList ++ "RandomForest-step-0-rank-0-".toList ++ name ++ ".yaml".toList

/-- kokkos-connector.cpp:537-561: the region of a new tuning problem. -/
def newRegion (e : KEnv M) (s : State M) (ids : List ℕ) (nctx : ℕ) (n : ℤ) :
    Res (ℕ × State M) := do
  let name ← regionName s ids
  let name := name.take 63
  let found := (s.world.files (modelPath name)).isSome
  let (r, w) ← createRegion e.env s.world nctx name (wrap32 n) 0
    (if found then modelPath name else []) []
  .ok (r, { s with world := w, regions := s.regions.insert ids r,
                   unconverged := if found then s.unconverged else s.unconverged + 1 })

/-- kokkos-connector.cpp:535-562: the region of a tuning problem. -/
def problemRegion (e : KEnv M) (s : State M) (ids : List ℕ) (nctx : ℕ) (n : ℤ) :
    Res (ℕ × State M) :=
  match s.regions.find ids with
  | some r => .ok (r, s)
  | none => newRegion e s ids nctx n

/-- kokkos-connector.cpp:566-570. -/
def setFeatures (hash : Str → ℕ) (c : CtxPtr) : List (ℕ × Value) → World M → Res (World M)
  | [], w => .ok w
  | v :: vs, w => do
    let w ← setFeature w c (toFloat hash v.2)
    setFeatures hash c vs w

/-- kokkos-connector.cpp:575-582: one variable of the policy. -/
def decodeStep (size : ℤ) (p : ℤ) : Res (ℤ × ℤ) :=
  if size = 0 then .error (.ub .divByZero)
  else if p = -2 ^ 31 ∧ size = -1 then .error (.ub .overflow)
  else .ok (p.tmod size, p.tdiv size)

/-- kokkos-connector.cpp:574-582: the values chosen by a policy. -/
def decode (s : State M) : List ℕ → ℤ → Res (List Value)
  | [], _ => .ok []
  | id :: ids, p => do
    let d ← s.decl id
    let (i, p) ← decodeStep (wrap32 d.setSize) p
    if i < 0 then .error (.ub .outOfBounds)
    else
      match d.values[i.toNat]? with
      | none => .error (.ub .outOfBounds)
      | some v => do
        let vs ← decode s ids p
        .ok (v :: vs)

/-- What a call does that can be seen from outside. -/
inductive Ret
  | unit
  /-- a request without tuning variables, or the end of an unknown context -/
  | ignored
  /-- the region used and the values chosen -/
  | values (r : ℕ) (vs : List Value)
  /-- a context was ended; whether all regions were trained -/
  | ended (flushed : Bool)
  deriving DecidableEq

/-- kokkos-connector.cpp:505-583: `kokkosp_request_values`.  The array of ids holds 50. -/
def request (e : KEnv M) (s : State M) (cid : ℕ) (ctx : List (ℕ × Value)) (tuning : List ℕ) :
    Res (Ret × State M) :=
  if tuning = [] then .ok (.ignored, s)
  else do
    let n ← spaceSize s tuning 1
    let ids := ctx.map Prod.fst ++ tuning
    if 50 < ids.length then .error (.ub .outOfBounds)
    else do
      let (r, s) ← problemRegion e s ids ctx.length n
      let (c, w) ← begin e.env s.world r .sync
      let w ← setFeatures e.hash c ctx w
      let (p, w) ← getPolicyIndex e.env w r c
      let vs ← decode s tuning p
      .ok (.values r vs,
        { s with world := w, contexts := Function.update s.contexts cid (some (r, c)) })

/-- kokkos-connector.cpp:585-601: `kokkosp_end_context`; `flushAllRegionMeasurements` is
src/Apollo.cpp:473. -/
def endContext (e : KEnv M) (s : State M) (cid : ℕ) : Res (Ret × State M) :=
  match s.contexts cid with
  | none => .ok (.ignored, s)
  | some (r, c) => do
    let w ← endCtx e.env s.world r c
    let s : State M := { s with world := w, contexts := Function.update s.contexts cid none }
    if s.encounter + 1 < 2 ^ 31 then
      if e.flush = 0 then .error (.ub .divByZero)
      else if (s.encounter + 1).tmod e.flush = 0 then do
        let w ← apolloTrain e.env s.world 0 true
        .ok (.ended true, { s with world := w, encounter := s.encounter + 1, unconverged := 0 })
      else .ok (.ended false, { s with encounter := s.encounter + 1 })
    else .error (.ub .overflow)

/-- The calls Kokkos makes. -/
inductive KOp
  | declareOutput (id : ℕ) (name : Str) (c : Candidates)
  | declareInput (id : ℕ) (name : Str)
  | request (cid : ℕ) (ctx : List (ℕ × Value)) (tuning : List ℕ)
  | endContext (cid : ℕ)

/-- One call. -/
def kstep (e : KEnv M) (s : State M) : KOp → Res (Ret × State M)
  | .declareOutput id name c => do
    let s ← declareOutput s id name c
    .ok (.unit, s)
  | .declareInput id name => do
    let s ← declareInput s id name
    .ok (.unit, s)
  | .request cid ctx tuning => request e s cid ctx tuning
  | .endContext cid => endContext e s cid

/-- The calls one after the other, and what they returned. -/
def kexec (e : KEnv M) : List KOp → State M → Res (List Ret × State M)
  | [], s => .ok ([], s)
  | op :: ops, s => do
    let (x, s) ← kstep e s op
    let (xs, s) ← kexec e ops s
    .ok (x :: xs, s)

/-- kokkos-connector.cpp:327-343: the state after initialisation, with the configuration read by the
library and the files there are. -/
def initState (cfg : Cfg) (files : Str → Option Str) : State M := { world := initWorld cfg files }

/-- kokkos-connector.cpp:359-364: whether `invoke_fence` fences a device, given whether Kokkos provided
the function. -/
def fences (provided : Bool) (s : State M) : Bool := provided && decide (0 < s.unconverged)

end Apollo.Kokkos
