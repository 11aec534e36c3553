import Verif.Spec.Files

/-!
# The test programs of the library

The calls made by the programs in /repo/test, and what they count.  The region is the first one created
(number 0).  Delays only change what the clock says, which is arbitrary.
-/

namespace Apollo.Spec

/-- test/apollo-test.cpp:53-56: the features in the order of one pass, for any number of policies and
repetitions. -/
def testFeatures (n reps : ℕ) : List ℕ :=
  (List.range reps).flatMap fun _ => (List.range n).flatMap fun i => (List.range n).map fun k =>
    (k + i) % n

/-- test/apollo-test.cpp:57-72: one execution of the region. -/
def testRun (f : ℕ) : List Op :=
  [.begin 0 .sync, .setFeatureCur 0 f, .getPolicyIndexCur 0, .endCur 0]

/-- test/apollo-test.cpp:53-75: one pass. -/
def testPass (n reps : ℕ) : List Op := (testFeatures n reps).flatMap testRun

/-- test/apollo-test.cpp:40-44. -/
def testCreate (n : ℕ) : Op :=
  .create 1 "test-region".toList n 0 "DecisionTree,max_depth=3".toList []

/-- test/apollo-test.cpp:32-96 (there `n = 4` and `reps = 4`); each rank of test/apollo-test-mpi.cpp
makes the same calls. -/
def testProgram (n reps : ℕ) : List Op :=
  testCreate n :: (testPass n reps ++ .trainAll 0 true :: testPass n reps)

/-- The policies among the values returned. -/
def policies (rets : List Ret) : List ℤ :=
  rets.filterMap fun | .policy p => some p | _ => none

/-- The policies handed out, among the events. -/
def chosen (l : List Ev) : List ℤ := l.filterMap fun | .chose _ _ p => some p | _ => none

/-- test/apollo-test.cpp:64-70: how often the policy was the feature. -/
def matched (fs : List ℕ) (ps : List ℤ) : ℕ := (fs.zip ps).countP fun x => (x.1 : ℤ) = x.2

/-- test/apollo-test.cpp:87-90: the program prints PASSED; `ps` are the policies of the second pass. -/
def testPassed (n reps : ℕ) (ps : List ℤ) : Prop := matched (testFeatures n reps) ps = reps * n * n

/-- test/apollo-test-simple.cpp:20-34 for any number of executions. -/
def simpleProgram (k : ℕ) : List Op :=
  .create 1 "test-region".toList 2 0 [] [] :: (List.replicate k (testRun 1)).flatten

/-- test/apollo-overhead.cpp:52-62: one pass; `i % data` for each of the features. -/
def overheadPass (features data reps : ℕ) : List Op :=
  (List.range reps).flatMap fun i => .begin 0 .sync :: (List.replicate features
    (.setFeatureCur 0 ((i % data : ℕ) : ℚ)) ++ [.getPolicyIndexCur 0, .endCur 0])

/-- test/apollo-overhead.cpp:42-79. -/
def overheadProgram (features n data reps : ℕ) : List Op :=
  .create features "test-overhead".toList n 0 "DecisionTree,max_depth=2".toList [] ::
    (overheadPass features data reps ++ (List.replicate reps (.train 0 0 true true) ++
      .begin 0 .sync :: (List.replicate reps (.getPolicyIndexCur 0) ++ [.endCur 0])))

/-- The time measured for the `j`-th execution of a program that makes only such calls: the region is
created at tick 0 and every execution reads the clock twice. -/
def elapsed (clock : ℕ → ℤ × ℤ) (j : ℕ) : ℚ :=
  rnd64 (seconds (clock (2 * j + 2)) - seconds (clock (2 * j + 1)))

end Apollo.Spec
