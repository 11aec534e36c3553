import Verif.Model.AnyFloat
import Verif.Model.PolicyNet

/-!
# PolicyNet with features that are any floats

Source: src/models/PolicyNet.cpp:440-475, 532-594.  As in `Model/PolicyNet.lean`, but features are any values of the
type `float`.
-/

namespace Apollo.PolicyNet

open Arith Net

variable {α : Type} [Arith α]

/-- `(uint64_t)f`: defined when the truncated value is representable. -/
def toU64Any : AnyFloat → Res ℕ
  | .fin q => toU64 q
  | .negZero => .ok 0
  | .posInf | .negInf | .nan => .error (.ub .overflow)

/-- src/models/PolicyNet.cpp:455-461 and 557-565: all features in bits. -/
def encodeAny : List AnyFloat → Res (List Bool)
  | [] => .ok []
  | f :: fs => do
    let v ← toU64Any f
    let bs ← encodeAny fs
    .ok (bits v ++ bs)

/-- src/models/PolicyNet.cpp:547-553: the key of the cache. -/
def keyAny : List AnyFloat → Res (List Char)
  | [] => .ok []
  | f :: fs => do
    let v ← toU64Any f
    let s ← keyAny fs
    .ok (bitString v ++ s)

/-- src/models/PolicyNet.cpp:440-475, for the measurements of the dataset. -/
def trainAny (P : PolicyNet α) (ms : List (List AnyFloat × ℤ × ℚ)) : Res (PolicyNet α) := do
  let states ← ms.mapM fun m => encodeAny m.1
  let P ← P.trainNet states (ms.map fun m => m.2.1) (ms.map fun m => exp (neg (ofRat m.2.2)))
  .ok { P with cache := [] }

/-- src/models/PolicyNet.cpp:557-571: the network is evaluated. -/
def evaluateAny (P : PolicyNet α) (features : List AnyFloat) : Res (List α × PolicyNet α) := do
  let bs ← encodeAny features
  let net ← P.net.forward (bs.map fun b => some (bitVal b)) 1
  let probs ← readProbs net.softmax.outputs P.numPolicies
  .ok (probs, { P with net := net })

/-- src/models/PolicyNet.cpp:544-576: the probabilities, from the cache or from the network. -/
def probabilitiesAny (P : PolicyNet α) (features : List AnyFloat) : Res (List α × PolicyNet α) := do
  let k ← keyAny features
  match P.cached k with
  | some ps => .ok (ps, P)
  | none => do
    let (ps, P) ← P.evaluateAny features
    .ok (ps, { P with cache := P.cache ++ [(k, ps)] })

/-- src/models/PolicyNet.cpp:532-594. -/
def getIndexAny (P : PolicyNet α) (features : List AnyFloat) : Res (ℤ × PolicyNet α) :=
  if P.suppressed then .ok (0, P)
  else do
    let (ps, P) ← P.probabilitiesAny features
    let (i, gen) ← sample ps P.gen
    .ok ((i : ℤ), { P with gen := gen })

end Apollo.PolicyNet
