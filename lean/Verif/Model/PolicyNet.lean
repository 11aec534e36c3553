import Verif.Model.Net
import Verif.Model.Dataset
import Verif.Num.Bits

/-!
# Model of PolicyNet

Source: src/models/PolicyNet.cpp:415-685, include/apollo/models/PolicyNet.h.

The arithmetic of `double` is a parameter, as in Verif.Model.Net.  Of `std::discrete_distribution` the
model follows libstdc++.  `int` counters do not overflow in the model.
-/

namespace Apollo

/-- The bytes of a `double` in memory, for storing. -/
class Stored (α : Type) where
  enc : α → List Char
  dec : List Char → Res α

/-- Doubles as finite rationals; other bit patterns are not modelled. -/
instance : Stored ℚ := ⟨encDouble, decDouble⟩

open Net in
/-- The members of `PolicyNet` (include/apollo/models/PolicyNet.h).  `gen` is the stream of numbers
from `[0, 1)` which the generator will deliver through `std::generate_canonical`. -/
structure PolicyNet (α : Type) where
  cache : List (List Char × List α)
  numPolicies : ℕ
  net : Network α
  gen : ℕ → α
  rewardMovingAvg : α
  beta : α
  threshold : α
  trainCount : ℤ

namespace PolicyNet

open Arith Net

variable {α : Type} [Arith α]

/-- src/models/PolicyNet.cpp:415-438.  `init` gives the drawn weights. -/
def new (numPolicies numFeatures : ℕ) (lr beta beta1 beta2 threshold : α) (init : ℕ → ℕ → α)
    (gen : ℕ → α) : PolicyNet α where
  cache := []
  numPolicies := numPolicies
  net := Network.new (64 * numFeatures) ((64 * numFeatures + numPolicies) / 2) numPolicies lr beta1
    beta2 init
  gen := gen
  rewardMovingAvg := ofRat 0
  beta := beta
  threshold := threshold
  trainCount := 0

/-- `(uint64_t)f`: defined when the truncated value is representable. -/
def toU64 (f : ℚ) : Res ℕ :=
  if -1 < f ∧ f < 2 ^ 64 then .ok ⌊f⌋.toNat else .error (.ub .overflow)

/-- The bits of `std::bitset<64>`, from bit 0. -/
def bits (v : ℕ) : List Bool := (List.range 64).map v.testBit

/-- src/models/PolicyNet.cpp:455-461 and 557-565: all features in bits. -/
def encode : List ℚ → Res (List Bool)
  | [] => .ok []
  | f :: fs => do
    let v ← toU64 f
    let bs ← encode fs
    .ok (bits v ++ bs)

/-- `bits.to_string()`: the highest bit first. -/
def bitString (v : ℕ) : List Char :=
  (List.range 64).map fun i => if v.testBit (63 - i) then '1' else '0'

/-- src/models/PolicyNet.cpp:547-553: the key of the cache. -/
def key : List ℚ → Res (List Char)
  | [] => .ok []
  | f :: fs => do
    let v ← toU64 f
    let s ← key fs
    .ok (bitString v ++ s)

/-- A bit as a `double`. -/
def bitVal (b : Bool) : α := ofRat (if b then 1 else 0)

/-- src/models/PolicyNet.cpp:496-498: a row of the array of states.  `states[i][j]` beyond the end of
the vector is undefined. -/
def stateRow (inputSize : ℕ) (row : List Bool) : Res (List α) :=
  if inputSize ≤ row.length then .ok ((row.take inputSize).map bitVal)
  else .error (.ub .outOfBounds)

/-- src/models/PolicyNet.cpp:482-483. -/
def batchAverage (rewards : List α) : α :=
  div (rewards.foldl add (ofRat 0)) (ofRat rewards.length)

/-- The debiased average: src/models/PolicyNet.cpp:489, 535-537. -/
def debias (avg beta : α) (count : ℤ) : α := div avg (sub (ofRat 1) (pow beta count))

/-- src/models/PolicyNet.cpp:485-489: the moving average and the count are updated. -/
def updateAverage (P : PolicyNet α) (rewards : List α) : PolicyNet α :=
  { P with
    rewardMovingAvg := add (mul P.beta P.rewardMovingAvg)
      (mul (sub (ofRat 1) P.beta) (batchAverage rewards))
    trainCount := P.trainCount + 1 }

/-- src/models/PolicyNet.cpp:477-530. -/
def trainNet (P : PolicyNet α) (states : List (List Bool)) (actions : List ℤ) (rewards : List α) :
    Res (PolicyNet α) :=
  match states with
  | [] => .ok P
  | first :: _ =>
    let inputSize := first.length
    let P := P.updateAverage rewards
    let baseline := debias P.rewardMovingAvg P.beta P.trainCount
    if lt baseline P.threshold then .ok P
    else do
      let rows ← states.mapM (stateRow inputSize)
      let net ← P.net.trainStep (rows.flatten.map some) actions
        (rewards.map fun r => some (sub r baseline)) states.length
      .ok { P with net := net }

/-- src/models/PolicyNet.cpp:442-475. -/
def train (P : PolicyNet α) (ds : Dataset) : Res (PolicyNet α) := do
  let ms := ds.toVectorOfTuples
  let states ← ms.mapM fun m => encode m.1
  let P ← P.trainNet states (ms.map fun m => m.2.1) (ms.map fun m => exp (neg (ofRat m.2.2)))
  .ok { P with cache := [] }

/-- The loop reading the probabilities: src/models/PolicyNet.cpp:569-571. -/
def readProbs (b : Buf α) : ℕ → Res (List α)
  | 0 => .ok []
  | n + 1 => do
    let ps ← readProbs b n
    let p ← b.read n
    .ok (ps ++ [p])

/-- src/models/PolicyNet.cpp:557-571: the network is evaluated. -/
def evaluate (P : PolicyNet α) (features : List ℚ) : Res (List α × PolicyNet α) := do
  let bs ← encode features
  let net ← P.net.forward (bs.map fun b => some (bitVal b)) 1
  let probs ← readProbs net.softmax.outputs P.numPolicies
  .ok (probs, { P with net := net })

/-- Partial sums of the shares, the last one set to 1: what `std::discrete_distribution` of libstdc++
keeps of its weights. -/
def cumulative (ps : List α) : List α :=
  let sum := ps.foldl add (ofRat 0)
  let qs := ps.map fun p => div p sum
  match qs with
  | [] => []
  | q :: qs => (List.scanl add q qs).dropLast ++ [ofRat 1]

/-- `std::lower_bound(cp.begin(), cp.end(), u)`: the remaining part is `len` elements from `first`.
The fuel bounds the number of halvings. -/
def lowerBound (cp : List α) (u : α) : ℕ → ℕ → ℕ → Res ℕ
  | 0, _, _ => .error .diverge
  | fuel + 1, first, len =>
    if len = 0 then .ok first
    else
      let half := len / 2
      match cp[first + half]? with
      | none => .error (.ub .outOfBounds)
      | some c =>
        if lt c u then lowerBound cp u fuel (first + half + 1) (len - half - 1)
        else lowerBound cp u fuel first half

/-- `std::discrete_distribution<> d(...); d(gen)`: with fewer than two weights no number is drawn.
Returns the index and the stream of numbers left. -/
def sample (ps : List α) (gen : ℕ → α) : Res (ℕ × (ℕ → α)) :=
  if ps.length < 2 then .ok (0, gen)
  else do
    let cp := cumulative ps
    let i ← lowerBound cp (gen 0) (cp.length + 1) 0 cp.length
    .ok (i, fun k => gen (k + 1))

/-- src/models/PolicyNet.cpp:535-542: whether the network is bypassed. -/
def suppressed (P : PolicyNet α) : Bool :=
  lt (if 0 < P.trainCount then debias P.rewardMovingAvg P.beta P.trainCount else ofRat 0)
    P.threshold

/-- The entry of the cache with the given key. -/
def cached (P : PolicyNet α) (k : List Char) : Option (List α) :=
  (P.cache.find? fun e => e.1 = k).map Prod.snd

/-- src/models/PolicyNet.cpp:544-576: the probabilities, from the cache or from the network. -/
def probabilities (P : PolicyNet α) (features : List ℚ) : Res (List α × PolicyNet α) := do
  let k ← key features
  match P.cached k with
  | some ps => .ok (ps, P)
  | none => do
    let (ps, P) ← P.evaluate features
    .ok (ps, { P with cache := P.cache ++ [(k, ps)] })

/-- src/models/PolicyNet.cpp:532-594. -/
def getIndex (P : PolicyNet α) (features : List ℚ) : Res (ℤ × PolicyNet α) :=
  if P.suppressed then .ok (0, P)
  else do
    let (ps, P) ← P.probabilities features
    let (i, gen) ← sample ps P.gen
    .ok ((i : ℤ), { P with gen := gen })

/-- src/models/PolicyNet.cpp:596. -/
def isTrainable (_ : PolicyNet α) : Bool := true

/-! ## Files -/

variable [Stored α]

omit [Arith α] in
/-- The bytes of an array of `double`s. -/
def bytesOf : Buf α → Res (List Char)
  | [] => .ok []
  | none :: _ => .error (.ub .uninit)
  | some v :: b => do
    let s ← bytesOf b
    .ok (Stored.enc v ++ s)

omit [Arith α] in
/-- src/models/PolicyNet.cpp:631-655: the contents of the file. -/
def store (P : PolicyNet α) : Res (List Char) := do
  let w1 ← bytesOf P.net.layer1.weights
  let b1 ← bytesOf P.net.layer1.bias
  let w2 ← bytesOf P.net.layer2.weights
  let b2 ← bytesOf P.net.layer2.bias
  let w3 ← bytesOf P.net.layer3.weights
  let b3 ← bytesOf P.net.layer3.bias
  .ok (w1 ++ b1 ++ w2 ++ b2 ++ w3 ++ b3 ++ Stored.enc P.rewardMovingAvg ++ encInt 4 P.trainCount)

/-- A `std::ifstream` during `load`: the bytes left and whether a read has failed. -/
structure Stream where
  rest : List Char
  failed : Bool

/-- `f.read(p, n)` where the memory at `p` holds `old` (`n` bytes): after a failure nothing is done;
at the end of the file only the bytes that are there are stored, and the stream fails. -/
def Stream.read (f : Stream) (old : List Char) : List Char × Stream :=
  if f.failed then (old, f)
  else
    let got := f.rest.take old.length
    (got ++ old.drop got.length, ⟨f.rest.drop old.length, got.length < old.length⟩)

omit [Arith α] in
/-- An array of `n` `double`s from its bytes. -/
def decArray : ℕ → List Char → Res (Buf α)
  | 0, _ => .ok []
  | n + 1, s => do
    let v ← Stored.dec (s.take 8)
    let b ← decArray n (s.drop 8)
    .ok (some v :: b)

omit [Arith α] in
/-- `f.read((char *)array, ...)`. -/
def readArray (b : Buf α) (f : Stream) : Res (Buf α × Stream) := do
  let old ← bytesOf b
  let (new, f) := f.read old
  let b ← decArray b.length new
  .ok (b, f)

omit [Arith α] in
/-- src/models/PolicyNet.cpp:657-685, for the file's contents (`none`: it cannot be opened). -/
def load (file : Option (List Char)) (P : PolicyNet α) : Res (PolicyNet α) :=
  match file with
  | none => .ok P
  | some s => do
    let (w1, f) ← readArray P.net.layer1.weights ⟨s, false⟩
    let (b1, f) ← readArray P.net.layer1.bias f
    let (w2, f) ← readArray P.net.layer2.weights f
    let (b2, f) ← readArray P.net.layer2.bias f
    let (w3, f) ← readArray P.net.layer3.weights f
    let (b3, f) ← readArray P.net.layer3.bias f
    let (avg, f) := f.read (Stored.enc P.rewardMovingAvg)
    let avg ← Stored.dec avg
    let (count, _) := f.read (encInt 4 P.trainCount)
    .ok { P with
      net := { P.net with
        layer1 := { P.net.layer1 with weights := w1, bias := b1 }
        layer2 := { P.net.layer2 with weights := w2, bias := b2 }
        layer3 := { P.net.layer3 with weights := w3, bias := b3 } }
      rewardMovingAvg := avg
      trainCount := decInt count }

end PolicyNet

end Apollo
