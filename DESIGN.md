# Formal model of LLNL/apollo — design

## Goal

`properties.jsonl` lists semantic properties (C01 …) that users of the Apollo auto-tuner rely on.
This project models the C++ code in `/repo` as total computable Lean 4 functions (state machines,
parsers, numeric routines), states each property independently of the model and proves it for all
inputs, histories and schedules.  Where the code does not have a listed property, the negation is
proved with a concrete witness or for all inputs, and the strongest true part is kept as a `_partial`
theorem (see "Disagreements" below).  `MANIFEST.json` names the theorems of every property.

## Layout

* `Verif/Base/*`  – outcome type, `std::map`.
* `Verif/Num/*`   – binary floating point rounding, decimal formatting and reading, object
  representation of numbers.
* `Verif/Model/*` – the code, function by function; each definition cites file and lines.
* `Verif/Proofs/*`– helper lemmas.
* `Verif/Spec/*`  – small independent specifications.
* `Verif/Props/*` – the property theorems, with an `example` next to each that meets its hypotheses.
* `seeded/LOG.jsonl` – wrong programs tried against the theorems.
  `rejected_by` says what broke. `property theorem` is evidence about the property. `helper lemma only`
  is weaker: Lake does not rebuild what depends on a broken lemma, so the property statement itself was
  not tested by that attempt. `judged` gives a separate check of the statement where one was made.

## Modelling decisions

* **Outcomes.** `Res α = Except Err α`, `Err = abort | throw | ub why | unmodelled | diverge`.
  `fatal_error`, failed `assert` and `abort()` are `abort`; C++ exceptions are `throw`; undefined
  behaviour is the distinct outcome `ub` with a reason (`outOfBounds`, `endOfStream`, `divByZero`,
  `dangling`, `overflow`, `uninit`).  `diverge` is the fuel of a loop running out (C64 and the
  termination lemmas show where it cannot happen), `unmodelled` marks the few branches left out; no
  theorem concludes success from either.
* **Numbers.** A finite `float`/`double` is a rational number; every arithmetic operation is the
  exact operation followed by round-to-nearest-even to binary32/binary64 (gradual underflow).  Not
  modelled: infinities (except as a threshold), NaN, the sign of zero (separate models cover these three
  for features and metrics of a dataset and its files, `Model/AnyFloat`, `Model/AnyMetric`,
  `Model/AnyDatasetIO`, `Model/AnyMetricIO`, for features of predictions by trees, forests and PolicyNet,
  `Model/AnyPredict`, `Model/AnyForest`, `Model/AnyNet`, and for features in the training of trees,
  `Model/AnyTrain`), overflow; x87 excess precision
  and FMA contraction are assumed off.  Integers are `Int`/`Nat` with explicit range checks where the
  code can leave the range and the property depends on it.
* **PolicyNet.** The arithmetic is a type class `Arith`; everything that does not depend on the laws of
  the reals is proved for every arithmetic (this includes any model of `double`), the rest for exact
  real arithmetic.  `ReLU::backward` tests `std::signbit` of the negated input; the inputs are sums that
  start at `+0.0` and are never `-0.0`, so that zero passes the gradient (`signbit a` is `a ≤ 0` at the
  only place of use).  Arrays are lists of cells that are uninitialised until written.
* **Decimal text.** `operator<<` at default precision is `%g` with 6 digits, modelled on exact
  rationals; `std::stoi/stoul/stof/stod` are modelled with prefix parsing, `invalid_argument` and
  `out_of_range`.
* **std::map** is a strictly sorted association list; **std::sort** is an arbitrary function returning
  a sorted permutation (the theorems quantify over it); **random generators, clocks, GPU timers** are
  oracles (theorems quantify over their answers).
* **Regions.** The Region/Apollo runtime is a state machine (`World`, `Op`, `exec`) over create /
  destroy / begin / setFeature / getPolicyIndex / end / collect / train / shutdown and the functions
  without context, generic in the policy model (`ModelOps`); `policyOps` and `netOps` instantiate it
  with all models of the library.  Pointers are numbers that are never reused; a use after `delete` is
  `ub dangling`.  The file system is a map from paths to contents.  A ghost log of events lets the
  properties speak about histories.
* **Collective training.** All ranks at once, from the registries of all ranks before the gathering to
  those after it; packing produces bytes.  Histories are lists of events: a rank records a measurement,
  or all ranks gather (`COp`).  When a rank comes to gather is left open there; in `Model/Ranks` every
  rank runs a program of the library and the ranks meet in `Apollo::train`.
* **Kokkos connector.** A state machine on top of the region model; every execution of it is proved to
  be a program of the library (`kexec_runs`), so region theorems apply to it.

## Per property

| id | model | how proved |
|----|-------|------------|
| C01 | `Dataset` as sorted association list | fold characterisation by induction on history |
| C02 | binary64 rounding of `.5*a+.5*b` | monotone rounding, representability of min and max |
| C03 | same | sortedness invariant; two strictly sorted lists with the same members are equal |
| C04 | loop of `findMinMetricPolicyByFeatures` | loop invariant over the sorted list |
| C05 | `insert(Dataset&)`, load | fold; `.5x+.5x = x` |
| C06 | store, load, parser, `%g` | negation for two or more features (for all such datasets); round trip otherwise |
| C07 | same | induction over prefixes of the token stream |
| C08 | tokenizer with explicit buffer index | induction on the stream; simulation of the bufferless tokenizer |
| C09 | `fmtG6`, stod/stof | arithmetic of decimal digits |
| C10–C14 | Static, RoundRobin, Random, Optimal, DatasetMap | induction on sequences of calls |
| C15 | tree and forest models with explorer | state machine invariant |
| C16 | region state machine with all models | invariant over all executions |
| C17 | tree training | negation; what is predicted instead (smallest class), purity of leaves |
| C18–C21 | `build_tree`, `split`, `compute_gini` with float rounding | induction over the recursion; refinement to a specification of trees |
| C22 | threshold rounding | negation for neighbouring floats; proved for all floats that are not neighbours, since rounding gives a nearest float (`Num/RoundNearest`) |
| C23 | training twice | first training proved; negation for the second |
| C24–C26 | `output_tree`, `parse_tree`, `generate_source` | round trip by structural induction; negation for thresholds of more than six digits; the shell command and the source text of the generated code are read back by an independent reader (`Verif/Spec/CSource.lean`) |
| C27–C29, C65 | forest | fold invariants; negation for retraining |
| C30–C32 | model strings, validation, factory | list induction; negation for long names |
| C33, C43 | files of the region model | invariant tying files to what was trained, across two runs |
| C34–C42 | region state machine | invariants over all executions; negations as below |
| C44 | environment and checks at start | case analysis; independent specification of legal settings |
| C45 | trace files | invariant tying the text to the events; a reader of rows as specification |
| C46 | functions without context | simulation between two executions |
| C47 | TimerSync | monotonicity of rounding |
| C48–C50 | MPI pack/gather | codec round trip, folds; three-rank counterexample |
| C75–C78 | histories of measurements and collective trainings | invariants over histories (`Orderly`, `Held`), finiteness of averages, counting of the bytes sent |
| C51–C57 | PolicyNet | refinement of the layers to functions without memory; algebra; derivative by the chain rule; rounding error of softmax in binary64 (`C52_double`) |
| C58–C62 | Kokkos connector | arithmetic, order theory, state machine invariants; simulation by the library |
| C66 | Kokkos connector | frame lemmas for the context of a region over histories |
| C67 | Kokkos connector | invariant: the counter of new problems is zero iff none is new since the last flush |
| C68 | Kokkos connector: options and initialisation | loop as a fold of markings; environments as functions |
| C69 | executions of regions | simulation: the log of one region drives a machine that knows a single region |
| C70 | executions of regions, opening of files | `quiet` forgets the traces; every function commutes with it (`*_quiet`); directories in `Spec.Files` |
| C71 | files of datasets and models | a file that cannot be opened keeps its contents (`FileHolds.invariant`) |
| C72 | compiled trees: processes, libraries in `/tmp`, `dlopen` | invariant over interleavings: numbers of objects are fresh, so that a library is opened once |
| C73 | asynchronous timers: commands of a stream, a device that executes some prefix of them | the timers of live contexts are what the history says (`Recording`), pending contexts were ended (`Tracked`); replacing the error changes nothing (`exec_unfailing`) |
| C74 | same | pending contexts are in the order of their ends (`Queued`), loop invariant of one collection |
| C79 | environment and checks at start | exact characterisation of starting, by inversion of the reader |
| C80 | executions of regions | `hush` forgets these traces; every function simulates the hushed one up to undefined conversions (`Sim`) |
| C81 | executions of regions | answers of the observer; an invariant pairs them with the lines of the file (`LinesInv`); names of regions and kinds of models are read off the program |
| C82 | executions of regions | invariant `BestTraced`: what a file of such a name holds comes from a logged training |
| C83 | several ranks as processes that meet in collective trainings (`Verif.Model.Ranks`) | diamond property of steps, descent along a terminating run |
| C84 | same | the exchange of C48-C50 lifted to reachable states, training determined by the data (`alike_train`) |
| C85 | same | measure: every step takes all ranks equally far |
| C86 | same | the list of messages of C48; files that nothing else writes (`Spared`) |
| C87 | `Spec/Interface`: what a careful user keeps in mind about their calls | an invariant between the user's book-keeping and the state of the process (`Sane`), and one for the models (`GoodModel`, for networks `GoodNet`); totality of training; `Props/InterfaceNet` repeats the theorems for models of all kinds |
| C88 | `Spec/TestPrograms`: the calls of the programs in /repo/test and what they count | one execution as a lemma about the process between executions (`Between`), induction over passes; counting in rows; on several ranks one run is built rank by rank and C83 carries it to all runs |
| C89 | `Spec/Scripts`: trace files as data, numbers that survive six digits, what each aggregation keeps | the table that `pandas` reads has one row per execution (`RowOf`); printing and loading one entry (`EntryReads`); groups as a sorted map |
| C90 | `Spec/Scripts`: the executions with an index (`rowsAt`), the policies of the fastest of them (`BestAt`), the orders that sorting may give (`Orders`) | sorting and dropping duplicates keep one fastest execution for each region and index; executions with the model Optimal take the policies one by one (`optimal_list`) |
| C91 | `Spec/AnyFloat`: the number of a float (`num`), the metrics measured for features | a search tree whose comparator is a linear order on its keys behaves as a sorted list (`view_upsert`) |
| C92 | `createPolicyModel(name, num_policies, path)` | the constructors from a file and `load` run the same parser; C24, C29 and C13 |
| C93 | `Parser::error`: the loop of `getline` and `tellg` | induction over the text before the position (`errorLoop_lines`) |
| C94 | `Spec/Yaml`, `Spec/Dot`: readers for the part of YAML and of the language of `dot` in use; `Spec/TreeDot`: what is drawn | compositional readings of pieces of text (`Flds`, `Itms`, `Val`, `Dots`); names of nodes determine the ways to them |
| C95 | same | same; a name belongs to one tree (`Owner`) |
| C96 | `print_tree`, `print_forest` | same; for `load` the tokens up to the stray bracket (`BestTrained`) |
| C97 | `Spec/SharedFiles`: which files a rank may write and read; `Model/SharedFiles`: ranks with one file system | names of files are parsed from their ends, so that files of different ranks differ (`apart`); every function of the region model depends only on the files it may read and changes only those it may write (`Frame.Sim`); simulation in both directions (`Twins`) |
| C98 | `Spec/AnyPredict`: the number in whose place a float stands; `Model/AnyPredict`: `getIndex` for any floats, the map of `DatasetMap` a search tree of any shape | thresholds of trained trees are within ±2^128, so that a comparison with a float is the comparison with its stand-in (`lt_threshold`); the search in a tree of keys without NaN is the search in a sorted list (`SearchTree.find_eq`) |
| C99 | `Spec/Report`: rows of a set of executions, sums over them, the first best policy by a predicate; `Model/AnalyzeReport`: the script over tables, with `sum` a parameter | the tables the script builds have one row per execution (`RowOf`), the optimal table one row per best features (`optimalRows_ok`); what is printed is then a function of the executions (`report_ok`) |
| C100 | `Spec/TwoRuns`: the two programs, the policies tried with features (position in the sequence modulo the number of policies), times that depend on features and policy, the first fastest policy of a set | a run with one region is followed event by event (`Alone`, `run_all_alone`), so that C89 applies to its trace and C43 to its dataset file; the entries of the dataset are the times (`entry_time` from C02), and C14 gives the answers of the second run; `C100_cycle` is the Chinese remainder theorem |
| C101 | `Spec/Exhaustive`: the policy of a region when one is asked for, the policy of the fastest run in an execution, the fastest policy for features | the settings of every run are computed from its environment (`settings_run`), a run adds two files (`run_one`), induction over the runs with the files they leave (`After`); the patterns are characterized (`fnmatch_trace`) and a name with one `=` matches one policy (`static_other`); then C90 |
| C102 | `Spec/AnyTrain`: comparison of floats by the numbers they stand for, routes in a tree, equality of trees apart from thresholds | floats without NaN are put into the rationals (`standIn`), where each step is one of `Model/Tree` (`splitAny_cases`); simulation (`buildAny_alike`) and `Grown` with another threshold function (`buildAny_grown`), so that the lemmas of C20-C22 apply; for NaN an invariant of the loop over features (`scanAny_unordered`) |
| C103 | `Spec/OpencvDot`: trees with places and pre-order numbers, drawings; the reader of `Spec/Dot` | the stack is described by what `popTo` gives for lesser depths (`edgesText_tree`); the text is read back statement by statement (`Dots`) |
| C104 | `Spec/KokkosRange`: the range with its open and closed ends as a set of rationals | every operation is `rnd64` of the exact one; bounds by monotonicity of rounding, accuracy by its relative error (`candidate_near`), the count by `count_ge` |
| C105 | `Spec/PlotTrace`: groups of bars by ascending feature and policy, labels as decimal numbers near the mean in a unit | the flat list cut by a stride is the table (`stride_flatMap`); reading back is strictly monotone on kept features (`asRead_mono`); `fixed2_shows` for two digits |
| C106 | `Spec/Opencv`: what OpenCV promises: predictions are responses (`Classifies`) or averages of them (`Averages`), untrained models throw, what is saved can be loaded; best policies from `Spec/Dataset` | OpenCV is any structure `Cv` of functions; rows from C04; small ints as floats are denormal (`bitsAsFloat_small`); writing files commutes with the settings (`write_same`) |
| C107 | `Spec/KokkosTuning`: combinations as lists of candidates with their own numbering, the runs of a kernel, the values handed out; times from `Spec/TestPrograms` | one step per run (`use_once`), rows of runs (`uses_list`), the training at the flush (`flush_trains`), the trained model is constant (`trained_answer`, from C17 and C27/C28) |
| C108 | `Spec/KokkosKernels`: the calls about contexts among all calls, names of problems, problems measured before each flush, measurements of a region | `Ledger`: what a history says about regions, contexts, names and data; `Aged`: regions never become trainable again and keep data; `changed_learns`: data changes only while the model learns |
| C109 | `Spec/ExecInfo`: the file, its lines, calls that begin executions | registry invariant `RegInv`, counts from C34, no later write has this path (`report_spared`) |
| C110 | `Spec/TimerSwap`: the programs, numbers of the commands that record start and end, streams that keep the promises of the runtime | state between two executions (`DevBetween`), by induction over the executions; the timer answers exactly if the record of the end was executed (`isDone_stop`) |
| C111 | the tables of C45; files by name; programs interleaved with moments at which buffers are written | the trace of a region only grows (`Grown`); the stream of a region holds what its file lacks (`Owns`); rows of destroyed regions stay (`Gone`) |
| C112 | finished executions of all regions from the events (`finishedAll`), lines read as words | the text is the first line and one line per execution (`ProcessInv`), names and numbers of regions do not change (`Keeps`) |
| C113 | what one event does to the model and the data of a region (`Hears`), one after the other (`Replay`) | an invariant over all calls (`Follow`); the trainings at the end of an execution and in constructors one by one |
| C114 | turns by counting answers; best policies of the rows an observer of the events knows | from C113: between trainings the explorer is at its turn, after the first the model is one of `BestTrained` |
| C115 | requests counted in the list of calls; measurements matched with the requests and what they returned (`Answered`) | what each call adds to the events (`Adds`); C113 and C114 for the region of the kernel |
| C116 | memory as bytes that may be unwritten; `Terminated` and `Array64` say which string bytes hold | induction over the string; pigeonhole for the hash |
| C117 | `Spec/Accuracy`: rational time of readings and the bound | error of each rounding; the start of a context is kept until the next begin (`StartKept`) |
| C118 | `Spec/AnalyzePlot`: what a file holds after several writes, what a bar and a line show | C99 for the report of each rank; `plotRanks_ok` by induction over the ranks |
| C119 | `Spec/NetExplorer`: model strings, bits of features, which policy a number selects | `AlikeAt`: models that differ in their explorers only; `allOps_safe` builds on the safety of the other models (C87) |
| C120 | `Spec/RegionPlot`: executions of a region, their features and times, what a chart shows | rows of the selected table by `RowsOf`; labels by strict monotonicity of reading six digits; files by `leftIn` |
| C121 | `Spec/Histogram`: executions with a policy, `tally` of them for each static policy | bins of consecutive integers as equalities; `optimalTable_ok` for the fastest choice; induction for the total |
| C122 | `Spec/AnyTrain`, `Spec/Forest`: stand-ins for infinities, bootstrap samples, majority votes | C102 for each bootstrap sample; the draws `i` and `0` for the two outcomes with a NaN |
| C123 | `Spec/AnyNet`: `Truncates`, a float without its fraction is a natural number of 64 bits | induction over the features |
| C124 | `FloatCopy`: special floats as they are, numbers at six digits; entries as in C91 | the tokens of the file as in C06; keys in increasing order are inserted at the end (`insert_last`) |
| C125 | `AverageOf`, `NotGreater` on extended numbers, `BestOfNumbers` | the entries of one feature vector in order of policies (`group`), and a fold over them (`pick`) |
| C126 | `LaidOut`: words with any white space between them; `datasetWords` | the loader reads token by token (`Reads`), and a text laid out has these tokens |
| C127 | `DoubleCopy`: special doubles as they are, numbers at six digits | the tokens of the file as in C06; inserting the entries of a dataset gives the dataset (`metricRun_entries`) |
| C128 | `LaidOut` of C126 and `MetricCopy` of C127; `metricWords`, the words of a file | the words read one by one as in C126, the metric as in C127 |
| C129 | `textWords`: what is between white space; the text ends in white space | tokens of a text are its words and conversely (`wtoks_of_textWords`), then as in C24 and C29 |
| C63 | `getCallpathOffset` | string induction |
| C64 | all file readers | every loop consumes characters |

## Disagreements

Listed properties the code does not have.  Each is proved of the model; the cited code shows the same.

| id | what happens instead | theorem |
|----|----------------------|---------|
| C06, C43 | `Dataset::store` writes `1,2,` without blanks, the reader expects each number with its comma to be a token of its own: a file with two or more features never loads.  Six digits are kept. | `C06_fails_with_two_features`, `C06_loses_digits`, `C43_fails` |
| C06, C24 | numbers that round to subnormals make `stod`/`stof` throw `out_of_range` | `C06_tiny_metric_throws`, `C24_tiny_feature_throws` |
| C08 | `Parser::getNextToken` dereferences the stream iterator at the end of the stream | `C08_end_of_stream_undefined` |
| C17 | the node constructor is given moved-from counts: every node predicts the smallest class seen | `C17_fails`, `C17_always_smallest` |
| C22 | the middle of two neighbouring floats rounds to the lower one, which is then sent to the wrong side | `C22_fails` |
| C23 | `unique_classes` is not cleared before a second training | `C23_fails_retrained` |
| C24, C26 | thresholds are written with six digits, in files and in generated code | `C24_fails_loaded`, `C26_fails_loaded` |
| C24 | loading over a trained tree leaves a tree whose use is undefined | `C24_load_over_trained_unsafe` |
| C28, C29 | a second training appends trees; the stored file then does not load | `C28_fails_retrained`, `C29_fails_retrained` |
| C32 | names are cut to 63 characters before they are looked up | `C32_long_name_aborts` |
| C40, C42 | a second region with the same (cut) name is not registered and never trained globally | `C40_fails`, `C42_fails` |
| C41 | the registry keeps pointers to destroyed regions (use after free, double delete at exit); the destructor switches off the global training period for all regions | `C41_fails_*` |
| C50 | averaging is done in the order of arrival, so ranks disagree from three contributions on | `C50_fails` |
| C53 | `PolicyNet::load` does not clear the cache of probabilities | `C53_fails` |
| C55 | a truncated PolicyNet file is loaded without complaint | `C55_fails` |
| C59 | every integer range with candidates has one candidate outside the range; the closed lower bound is never a candidate; a continuous range gets 100 equal candidates | `C59_fails`, `C59_lowerMissing`, `C59_continuous` |
| C62 | the path of the stored model is passed as the name of a model: the second run of a program that stored models aborts | `C62_fails`, `C62_second_run` |
| C66 | contexts of the same problem that are open at the same time share the context of the region: a measurement is recorded under the other's features, the next one without features | `C66_nested` |
| C68 | `kokkosp_parse_args` reads flags that were not given (not initialised), compares with other spellings than the documented ones, and calls `setenv` with names that contain `=`, which fails; `kokkosp_init_library` then overwrites the settings: no flag has an effect; a flush rate that is not a number is zero, and the next end of a context divides by it | `C68_fails`, `C68_documented`, `C68_ignored`, `C68_init`, `C68_flush_word`, `C68_flush_zero` |
| C70 | the name of the trace of a region contains its model string (Region.cpp:384-387); with a path in it (`load=dir/file`) the directory does not exist and the constructor aborts; the same program works without tracing | `C70_fails`, `C70_slash` |
| C71 | the name of a region is part of file names; with a `/` in it the file cannot be opened; the destructor writes a message to standard error and goes on (Region.cpp:416-424), the models do not check at all: the data is lost | `C71_fails`, `C71_lost`, `C71_returns` |
| C72 | `DecisionTreeImpl::load` does not compile: a model created with `DecisionTree,load` calls an unassigned function pointer; after a second training `dlopen` returns the library that is already loaded under that name; the files `/tmp/_jit_eval_<n>.so` of different processes have the same names | `C72_fails_load`, `C72_fails_retrain`, `C72_fails_processes`, `C72_fails_abort` |
| C74 | `collectPendingContexts` asks the contexts one after the other: if the device makes progress in between, an execution that was ended later is recorded first | `C74_fails` |
| C76 | a second collective training without measurements in between averages the differences of the first again: the metrics move | `C76_fails` |
| C77 | after a collective training the other ranks hold a rank's old average and send it back in the next one, where it is averaged in as if it were new: old measurements count for more the more ranks there are | `C77_fails` |
| C80 | the traces convert features with `(int)f` (Region.cpp:67, 127), which is undefined from 2^31 on: a program that runs without APOLLO_TRACE_POLICY or APOLLO_TRACE_BEST_POLICIES may be undefined with it; the Kokkos connector always sets the latter | `C80_fails`, `C80_kokkos` |
| C84 | averages depend on the order of arrival, so from three ranks on models trained on "the same" data choose differently; `Apollo::train` gathers before `Region::train` collects pending contexts, so these measurements are trained on by one rank only | `C84_fails`, `C84_fails_pending` |
| C85 | the global training period counts the executions of each rank by itself (Region.cpp:494-498): ranks that execute unequally often do not meet, and one waits in `MPI_Allgather` forever | `C85_fails` |
| C86 | features are converted with `(int)f` (Apollo.cpp:438), undefined outside of the range of int, also for measurements of another rank | `C86_overflow` |
| C88 | test/apollo-test.cpp prints FAILED whatever the clock says (16 of 64 executions match after training), as a consequence of C17 | `C88_fails` |
| C88 | test/apollo-test-mpi.cpp with collective training prints FAILED on every rank, for any number of ranks, any clocks and any order in which the ranks proceed | `C88_mpi_fails` |
| C88 | test/apollo-overhead.cpp asks for policies without setting features after its last `begin`: the trained tree reads beyond the empty vector | `C88_overhead_fails` |
| C89 | create-dataset.py takes columns 5 to -2 of the joined table as features; if a trace of a region with fewer features comes first, the columns are in another order, and wider regions get the policy as a feature | `C89_widths_fail` |
| C89 | `--tracedirs` also reads `trace-rank-<n>.csv`, whose rows have no region: the script ends with an error, the files already written have policies such as `0.0` that `Dataset::load` rejects | `C89_dirs_fail` |
| C89 | `--agg mean-min` prints `(3.0,)` for the only feature with pandas 2; regions without features cannot be grouped | `C89_single_fail`, `C89_no_features_fail` |
| C91 | keys with a NaN cannot be ordered: `std::map` finds another entry for them, and others find theirs | `C91_fails`, `C91_nan_swallows` |
| C93 | `Parser::error` starts with `col = 1` for the first line although positions start with 0, and `tellg` returns -1 after a last line without line break | `C93_fails`, `C93_first`, `C93_last` |
| C95 | rfc2dot.py draws `num_trees` trees, but a forest that was trained again has more of them and one that was not trained has none | `C95_fails_retrained`, `C95_fails_untrained` |
| C96 | `output_tree` writes the bracket that closes `data` also without `data` (DecisionTreeImpl.cpp:445) | `C96_fails`, `C96_fails_load` |
| C97 | `Dataset-<region>.yaml` (Region.cpp:417) and `apollo_exec_info.csv` (Apollo.cpp:243) have no rank in their names: ranks overwrite each other's files | `C97_fails`, `C97_fails_info` |
| C98 | `DatasetMap` asked for features with a NaN answers with the policy of other features instead of aborting, depending on the shape of the search tree (DatasetMap.cpp:16-21) | `C98_fails` |
| C99 | the optimal time that `analyze-traces.py` prints can be larger than the time of the fastest static policy, since doubles are added in different orders (analyze-traces.py:42, 252); rows of a tree that is still exploring are counted as rows of the tree (Region.cpp:120-134) | `C99_fails`, `C99_fails_report`, `C99_labels` |
| C100 | the counter of `RoundRobin` is shared by all features (RoundRobin.cpp:16-20), so that with two alternating features and two policies each feature is only ever tried with one policy and the second run keeps the slower one; with persistent datasets and two features the second run aborts (as C06) | `C100_fails`, `C100_untried` |
| C101 | analyze-traces.py:25 looks for `trace*<model>-*.csv`, so that a region named like `-Static,policy=0-` makes the traces of all models pass for traces of policy 0; the option `--load` looks for a model `Load` though the library writes `load` (Region.cpp:170-172), so that it finds nothing and the script fails | `C101_name_needed`, `C101_load` |
| C102 | DecisionTreeImpl.cpp:358 takes the mean of the two values around a split also if one is infinite or NaN: with `-inf` the threshold is `-inf` (with `inf` on the other side NaN), with a NaN it is NaN, and all features go right (`C102_neg_inf_fails`, `C102_nan_fails`); a NaN and two different numbers break the contract of `std::sort` at lines 331-336 | `C102_nan_ub` |
| C103 | rfc2dot_opencv.py:67-68 asserts that the root is on top of the stack at the end, but there lies the parent of the last node (line 62): all forests with a root whose right child has children are refused (`C103_fails`, `C103_iff`). Line 33 writes quotes inside of the quoted label (`C103_fails_string`) | `C103_fails_right` |
| C104 | kokkos-connector.cpp:73-76 and 89-101 move the ends of ranges the wrong way round: a *closed* lower end is raised by 1E-24 and an open one is taken as it is, so that an open lower end is the first candidate (`C104_open_lower_fails`), while both ends of `[0, 1]` are missing (`C104_ends_missing`) | `C104_open_upper_fails`, `C104_repeats`: an open end is reached, and candidates repeat, by rounding |
| C105 | plot-trace.py:34 multiplies the times by 1e6, which gives microseconds, and line 75 says "in ms" (`C105_units_fail`) | plot-trace.py:50 cuts descriptions of models at the first `-` (`C105_name_fails`), and fails for names of files with directories (`C105_path_fails`) |
| C106 | DecisionTree.cpp:125, RandomForest.cpp:129 call the static `load` of OpenCV through a pointer and drop what it returns: the model stays as it was and counts as trained (`C106_load_keeps`, `C106_load_fails`) | RegressionTree.cpp:60 reads the ints of the best policies as floats, not the times (`C106_time_fails`, `C106_time_blind`); vectors without features or of differing lengths break training (`C106_no_features_fail`, `C106_widths_fail`) |
| C107 | The model trained at the first flush gives one answer for all contexts (the quirk of C17), so kernels with different sizes get the same candidates (`C107_fails`) | kokkos-connector.cpp:58 `flush_interval` = 500 runs end the exploration, tried or not (`C107_untried`); kokkosp_init_library does not set APOLLO_POLICY_MODEL, whose default is `Static,policy=0` (`C107_default`) |
| C108 | kokkos-connector.cpp:599 sets `num_unconverged_regions` to 0 at every flush, also when a region was not trained because its context is still open: its kernels are measured without fences (`C108_nested_fails`) | Variables with equal names give regions with equal names, of which `apollo->regions` keeps one: the other is never trained, yet no longer counted (`C108_names_fails`) |
| C109 | Apollo.cpp:247 lists `regions`, a map from names: of two regions with one name only the first is listed (`C109_fails`) | The count is `idx`, the executions begun, not those that ended |
| C110 | Region.cpp:574 does not look at what `isDone` returns: if the device has not executed the record of the end, `metric` has no value (`C110_unready`, `C110_fails`) | test-hip.cpp ends the execution right after the launch of the kernel, test-cuda.cpp after a copy that waits for the kernel but not for the record of the end; the timer of the last execution stays in the context, and the next `begin` starts it once more |
| C111 | files of traces are named after region and model only: two such regions write over each other's rows (`C111_same_name`), and opening empties the file (`C111_again`); `Apollo::regions` keeps the first region of a name, the others are not destroyed at the end and their buffers are lost (`C111_unknown`) | the trace of the whole process and the other files are not modelled as streams |
| C112 | between the name of the model and the policy two blanks are written: readers that split at single blanks see six columns, the fifth empty (`C112_columns`) | the text as written, not its buffer; regions are named by functions of their numbers (`C112_names`: there always are such functions) |
| C113 | a region may be trained twice in one call: `train` asks whether the model is trainable before it collects pending contexts, and a collection may train it (Region.cpp:38-51); the events show both | when trainings happen is read from the events; C38 and C39 say when |
| C114 | a second training, by force or while a training is asked for, is on the same measurements: the region no longer learns; a tree then stays as it is, a forest gets more trees | the explorer is round robin; APOLLO_PERSISTENT_DATASETS and APOLLO_SINGLE_MODEL off |
| C115 | names of regions are made of the names of the variables, cut to 63 characters, but problems are told apart by the ids: two problems may share a name, and only the first is registered with Apollo (kokkos-connector.cpp; Region.cpp, `regions.insert`) | no saved model in the file the connector looks for; contexts of the kernel itself do not overlap (C66 shows what goes wrong if they do) |
| C116 | `strncpy` of 64 characters into 65 bytes from `malloc` leaves the last byte unwritten (kokkos-connector.cpp:427-428); a value that fills its 64 bytes is read as a string without an end (454); the hash of a string is rounded to a float (453) | bytes are characters; only `string_value` of the union is modelled |
| C117 | readings are converted to doubles before the difference is taken (TimerSync.cpp:12-30), so that the precision falls with the uptime | readings below 2^53 seconds; time traces of blocks of at most 2^10 seconds |
| C118 | analyze-traces.py: all ranks save into `analysis-<dir>.pdf` (line 314); the text with speedups is overwritten (307); `<dir>` with a slash names a missing directory; `plt` is unbound for `--plot2` alone (162-163, 328) | counts of at most 2^46 executions; reports that succeed (contents of `--plot2` pictures: C120) |
| C119 | - | drawn policies in exact arithmetic, at least two policies, drawn numbers in (0, 1]; features greater than -1 while exploring (`C119_needs_unsigned`: converting them to `uint64_t` is undefined) |
| C120 | analyze-traces.py: `plt.savefig(f'{region}.pdf')` (329) takes the name of the region as a path; features are columns sorted as texts (175, 322), so `f10` comes before `f2`, and the axis only says `features` (326) | pandas sorts columns or leaves them (parameter `arrange`); names of regions without slashes |
| C121 | analyze-traces.py: the bins are `np.arange(nstatic+1)` (83, 104, 273), and the last bin of `np.histogram` includes its right edge, so a policy equal to `--nstatic` counts for the one before | counts only, not how they are printed |
| C122 | a NaN in the samples of a region makes the training of a forest undefined for some draws and not for others (RandomForestImpl.cpp:40-45, DecisionTreeImpl.cpp:333-336) | the numbers drawn by `std::mt19937` are arbitrary |
| C123 | PolicyNet.cpp:456-458, 551: `(uint64_t)f` is undefined for negative features from -1 on, though the interface takes any `float`; features that differ in their fractions only are the same to the network | none beyond C51-C57 |
| C124 | the entries of a file are inserted in order, and a NaN is found for other features: loading a file of three entries can give two | `C124_fails` |
| C125 | a NaN metric for the least policy of some features is never replaced: `<` with it is false, so this policy is the one trained | `C125_fails` |

Hypotheses that turned out to be necessary, each with a witness that the claim fails without it:
`C02_fails_for_subnormals`, `C16_loaded_tree`, `C35_stale_policy`, `C33_shared_name`,
`C46_needs_synchronous`, `C46_needs_no_overlap`, `C48_needs_exact_sizes`, `C48_too_many_features`,
`C48_too_few_features`, `C54_needs_range`, `C56_needs_actions`, `C58_split`, `C45_blank_in_name`,
`C45_missing_feature`, `C75_needs_agreement`.

## Trusted base

* The Lean kernel, and the axioms `propext`, `Classical.choice` and `Quot.sound`; no theorem depends on
  anything else (no `sorry`, no added axioms, no `native_decide` or `bv_decide`).  Concrete witnesses are
  evaluated by the kernel (`decide +kernel`).
* For the scripts: the part of `pandas` in `Model/Tables`, written down from its documentation; reading and
  printing of numbers of type `float64` and `Series.mean` are parameters with stated assumptions.
  `seaborn.countplot` draws a group of bars for each hue and in it a bar for each value, both ascending.
* PyYAML and `dot` on the parts of their languages that `Spec/Yaml` and `Spec/Dot` read (PyYAML accepts
  closing brackets at any indentation); what Python prints for a scalar is a parameter.
* The faithfulness of the hand-written model to the C++ text, as cited at every definition.
* What is assumed of the platform: IEEE arithmetic with rounding to nearest (that `rnd` gives a nearest
  representable number, and the even one of two, is proved: `rnd_nearest`, `rnd_tie_even`), 32-bit `int`, 64-bit
  `long`, libstdc++ for `discrete_distribution`, MPI delivering buffers in the order of ranks; `dlopen`
  returning a library that is already loaded under the same name (glibc), and the linker replacing the
  file of a library rather than overwriting it; commands of a CUDA or HIP stream executed in order, and
  `cudaEventElapsedTime` failing only for events that were not recorded.

## What is modelled

`src/Dataset.cpp`, `src/helpers/Parser.cpp`, `src/helpers/OutputFormatter.cpp`, `src/ModelFactory.cpp`,
`src/models/*.cpp` (with OpenCV and without), `src/models/impl/{DecisionTreeImpl,RandomForestImpl}.cpp`, `src/Region.cpp`,
`src/Apollo.cpp`, `src/timers/{TimerSync,TimerCudaAsync,TimerHipAsync}.cpp`, `src/connectors/kokkos/kokkos-connector.cpp` (without
messages), `include/apollo/Config.h`, `src/python/modeling/create-dataset.py` (without messages),
the option `--write-opt` of `src/python/analysis/analyze-traces.py` and the times, speedups and accuracies it reports and draws (`--plot`), `src/python/analysis/{dtree2dot,rfc2dot,rfc2dot_opencv}.py` (without the limit of
Python on the depth of recursion), the texts in the pictures of `src/python/analysis/plot-trace.py`; the test programs
`test/apollo-test.cpp`, `test/apollo-test-mpi.cpp`, `test/apollo-test-simple.cpp` and `test/apollo-overhead.cpp` as the calls they
make, the timers that `test/test-cuda.cpp` and `test/test-hip.cpp` put into a region (`Model/TimerSwap`), the runs that
`src/python/analysis/run-exhaustive.py` makes (`Model/Exhaustive`), and the pictures that `analyze-traces.py` draws
(`Model/AnalyzePlot`, `Model/RegionPlot`).

## Not modelled

Build system, OpenCV itself (its functions are a parameter, `Cv`; everything but C106 is about builds without OpenCV), the CUDA/HIP runtime beyond the documented
behaviour of events of the default stream (`Device`), PAPI, MPI transport (assumed reliable, ordered by rank), data races of
concurrent callers (the library is not thread safe), file system errors other than truncated or missing
files and files that cannot be opened for writing, regions that write to the same
trace file, Python scripts other than these, in `glob` patterns with brackets and directories with wildcards, messages on standard output and error (the files of APOLLO_TRACE_POLICY and
APOLLO_TRACE_BEST_POLICIES are modelled, the copies of these texts on standard output are not),
with MPI an asynchronous execution found finished that makes a global training period end, writes of several ranks to the same file that overlap,
NaN and infinite features in the files of trees and forests, and infinite or NaN metrics outside of the dataset (C125, C127, C128).
