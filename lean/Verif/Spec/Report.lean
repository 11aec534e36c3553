import Verif.Spec.Scripts
import Mathlib.Data.List.Infix

/-!
# Specification of the report of analyze-traces.py
-/

namespace Apollo.Spec

/-- The traces of static policies, and of other models as far as given. -/
structure Runs where
  static : List (List RegionTrace)
  rr : Option (List RegionTrace) := none
  random : Option (List RegionTrace) := none
  load : Option (List RegionTrace) := none
  opt : Option (List RegionTrace) := none

/-- Files that can be read. -/
def Readable (py : Scripts.Py) (fs : List RegionTrace) : Prop :=
  fs ≠ [] ∧ ∀ F ∈ fs, F.Wellformed ∧ F.Kept py

/-- The executions on a rank with some of the models: the regions, and the rows. -/
def ranOn (fs : List RegionTrace) (rank : ℤ) (P : List Char → Bool) : List (List Char × Row) :=
  fs.flatMap fun F => if F.rank = rank ∧ P F.model = true then F.rows.map fun x => (F.region, x) else []

/-- The times of a model on a rank. -/
def modelTimes (fs : List RegionTrace) (rank : ℤ) (model : List Char) : List ℚ :=
  (ranOn fs rank fun m => decide (m = model)).map fun p => p.2.metric

/-- A fastest execution for every region and index, in the order of regions and indexes. -/
structure Chosen (fs : List RegionTrace) (rank : ℤ) (ch : List (List Char × Row)) : Prop where
  sorted : ch.Pairwise fun a b => a.1 < b.1 ∨ a.1 = b.1 ∧ a.2.index < b.2.index
  all : ∀ r i, (∃ x, (r, x) ∈ ch ∧ x.index = i) ↔ rowsAt fs rank r i ≠ []
  least : ∀ p ∈ ch, p.2 ∈ rowsAt fs rank p.1 p.2.index ∧
    ∀ y ∈ rowsAt fs rank p.1 p.2.index, p.2.metric ≤ y.metric

/-- The same region and index. -/
def samePlace (a b : List Char × Row) : Bool := decide (a.1 = b.1 ∧ a.2.index = b.2.index)

/-- The execution has the policy that was chosen for its region and index. -/
def agrees (ch : List (List Char × Row)) (p : List Char × Row) : Bool :=
  ch.any fun c => samePlace c p && decide (c.2.policy = p.2.policy)

/-- By how many percent a time differs from another, in double arithmetic. -/
def percent (t x : ℚ) : ℚ := rnd64 (rnd64 (|rnd64 (t - x)| * 100) / t)

/-- The time of the execution differs by at most 10% from the time of the execution that was chosen. -/
def near (ch : List (List Char × Row)) (p : List Char × Row) : Bool :=
  ch.any fun c => samePlace c p && decide (c.2.metric ≠ 0 ∧ percent c.2.metric p.2.metric ≤ 10)

/-- The executions that agree; those that agree or, where none agrees, are near; and all. -/
def accuracyOf (ch hits : List (List Char × Row)) : ℕ × ℕ × ℕ :=
  (hits.countP (agrees ch),
    hits.countP fun p => agrees ch p || near ch p && !hits.any fun q => agrees ch q && samePlace q p,
    hits.length)

/-- The entry of a model that was not trained. -/
def plainEntry (sum : List ℚ → ℚ) (rank : ℤ) (model : List Char) (fs : List RegionTrace) :
    List Char × ℚ × Option ℚ :=
  (model, sum (modelTimes fs rank model), none)

/-- The entry of a model and of the tree trained by it. -/
def trainedEntry (sum : List ℚ → ℚ) (rank : ℤ) (model : List Char) (fs : List RegionTrace) :
    List Char × ℚ × Option ℚ :=
  (model, sum (modelTimes fs rank model), some (sum (modelTimes fs rank "DecisionTree".toList)))

/-- The time of an entry. -/
def entryTime (sum : List ℚ → ℚ) (e : List Char × ℚ × Option ℚ) : ℚ :=
  match e.2.2 with
  | none => e.2.1
  | some y => sum [e.2.1, y]

/-- The time of a static policy. -/
def staticTime (sum : List ℚ → ℚ) (fs : List RegionTrace) (rank : ℤ) (j : ℕ) : ℚ :=
  sum (modelTimes fs rank ("Static,".toList ++ fmtInt j))

/-- The entries of the models that are reported. -/
def reportEntries (sum : List ℚ → ℚ) (runs : Runs) (rank : ℤ) : List (List Char × ℚ × Option ℚ) :=
  ((List.range runs.static.length).map fun j : ℕ =>
      plainEntry sum rank ("Static,".toList ++ fmtInt j) runs.static.flatten) ++
    (runs.rr.toList.map (trainedEntry sum rank "RoundRobin".toList)) ++
    (runs.random.toList.map (trainedEntry sum rank "Random".toList)) ++
    (runs.load.toList.map (plainEntry sum rank "Load".toList)) ++
    (runs.opt.toList.map (plainEntry sum rank "Optimal".toList))

/-- The executions of the models with a name in it. -/
def hitsOf (rank : ℤ) (name : List Char) (fs : List RegionTrace) : List (List Char × Row) :=
  ranOn fs rank fun m => decide (name <:+: m)

/-- The accuracies that are reported. -/
def accuracies (runs : Runs) (rank : ℤ) (ch : List (List Char × Row)) : List (List Char × ℕ × ℕ × ℕ) :=
  (runs.rr.toList.map fun fs => ("RoundRobin".toList, accuracyOf ch (hitsOf rank "DecisionTree".toList fs))) ++
  (runs.random.toList.map fun fs => ("Random".toList, accuracyOf ch (hitsOf rank "DecisionTree".toList fs))) ++
  (runs.load.toList.map fun fs => ("Load".toList, accuracyOf ch (hitsOf rank "Load".toList fs))) ++
  (runs.opt.toList.map fun fs => ("Optimal".toList, accuracyOf ch (hitsOf rank "Optimal".toList fs)))

/-- The times whose reciprocals are reported: of the choice, and of the trained models. -/
def denominators (sum : List ℚ → ℚ) (runs : Runs) (rank : ℤ) (ch : List (List Char × Row)) :
    List (List Char × ℚ) :=
  ("Opt".toList, sum (ch.map fun p => p.2.metric)) ::
    ((runs.rr.toList.map (trainedEntry sum rank "RoundRobin".toList)) ++
      (runs.random.toList.map (trainedEntry sum rank "Random".toList))).map fun e => (e.1, entryTime sum e)

/-- The policy `j` is the first of the fastest of `n` policies. -/
def FirstFastest (times : ℕ → ℚ) (n j : ℕ) : Prop :=
  j < n ∧ ∀ k < n, times j ≤ times k ∧ (k < j → times j < times k)

/-- Adding numbers: neither the order of the numbers matters nor do further numbers that are not negative
lower the sum, nor larger numbers. -/
def FairSum (sum : List ℚ → ℚ) : Prop :=
  ∀ ts ts' us vs : List ℚ, ts'.Perm (us ++ vs) → List.Forall₂ (· ≤ ·) ts us → (∀ v ∈ vs, 0 ≤ v) →
    sum ts ≤ sum ts'

end Apollo.Spec
