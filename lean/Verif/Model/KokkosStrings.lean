import Verif.Model.Kokkos

/-!
# Model of the strings of the Kokkos connector

Source: src/connectors/kokkos/kokkos-connector.cpp:109-163, 422-458, 484-499, 574-582 and
src/connectors/kokkos/include/impl/Kokkos_Profiling_C_Interface.h:163-175.

In Verif.Model.Kokkos names and values are strings.  Here they are what the connector has: arrays of
bytes, copied with `strncpy` and read up to a null character.

Simplifications:
* A byte is a character; a byte that was not written is `none`.
* Of the union `Kokkos_Tools_VariableValue_ValueUnion` only the 64 bytes of `string_value` are modelled.
* The third function `mvv` (lines 460-482) is not used by the connector.
-/

namespace Apollo.Kokkos

/-- The bytes from a pointer to the end of the object it points into. -/
abbrev Mem := List (Option Char)

/-- Bytes that were not written. -/
def unwritten (n : ℕ) : Mem := List.replicate n none

/-- The string that a `const char *` stands for when a `std::string` is made of it
(kokkos-connector.cpp:454, 490): the bytes before the first null character. -/
def cString : Mem → Res Str
  | [] => .error (.ub .outOfBounds)
  | none :: _ => .error (.ub .uninit)
  | some c :: m =>
    if c = '\x00' then .ok []
    else do
      let s ← cString m
      .ok (c :: s)

/-- The `n` bytes that `strncpy` writes: the characters of the source up to a null character, followed by
null characters. -/
def copied : ℕ → Mem → Res Mem
  | 0, _ => .ok []
  | _ + 1, [] => .error (.ub .outOfBounds)
  | _ + 1, none :: _ => .error (.ub .uninit)
  | n + 1, some c :: m =>
    if c = '\x00' then .ok (List.replicate (n + 1) (some '\x00'))
    else do
      let r ← copied n m
      .ok (some c :: r)

/-- `strncpy(dst, src, n)`: the destination afterwards. -/
def strncpy (dst src : Mem) (n : ℕ) : Res Mem := do
  let b ← copied n src
  if dst.length < n then .error (.ub .outOfBounds) else .ok (b ++ dst.drop n)

/-- kokkos-connector.cpp:427-428, 438-439: the name kept of a variable; `malloc` writes nothing. -/
def keptName (name : Mem) : Res Mem := strncpy (unwritten 65) name 64

/-- kokkos-connector.cpp:109-133 for a string: the candidate number `index`. -/
def mvvSet (values : List Mem) (index : ℕ) : Res Mem :=
  match values[index]? with
  | none => .error (.ub .outOfBounds)
  | some v => strncpy (unwritten 64) v 64

/-- kokkos-connector.cpp:209-211: the candidates kept, from number `x` on. -/
def keptFrom (values : List Mem) : ℕ → ℕ → Res (List Mem)
  | 0, _ => .ok []
  | n + 1, x => do
    let v ← mvvSet values x
    let vs ← keptFrom values n (x + 1)
    .ok (v :: vs)

/-- kokkos-connector.cpp:205-212 for a set of strings. -/
def keptValues (values : List Mem) : Res (List Mem) := keptFrom values values.length 0

/-- kokkos-connector.cpp:136-163 for a string. -/
def mvvOne (value : Mem) : Res Mem := strncpy (unwritten 64) value 64

/-- kokkos-connector.cpp:579-581 for a string: what is handed out for candidate `i` of those kept. -/
def handOut (kept : List Mem) (i : ℕ) : Res Mem :=
  match kept[i]? with
  | none => .error (.ub .outOfBounds)
  | some v => mvvOne v

/-- kokkos-connector.cpp:452-454: the feature of a string. -/
def stringFeature (hash : Str → ℕ) (value : Mem) : Res ℚ := do
  let s ← cString value
  .ok (rnd32 (hash s))

/-- kokkos-connector.cpp:484-499: `get_region_name` of the names kept. -/
def regionNameOf : List Mem → Res Str
  | [] => .ok []
  | m :: ms => do
    let name ← cString m
    let rest ← regionNameOf ms
    .ok (name ++ (if ms = [] then ".yaml".toList else '_' :: rest))

/-- kokkos-connector.cpp:422-443: the names kept of several variables. -/
def keptNames : List Mem → Res (List Mem)
  | [] => .ok []
  | m :: ms => do
    let k ← keptName m
    let ks ← keptNames ms
    .ok (k :: ks)

end Apollo.Kokkos
