{"id": "C01", "title": "Dataset is a map from (features, policy) to a running average", "statement": "After any sequence of measurement insertions into an empty dataset, there is exactly one entry for every (features, policy) pair that was ever inserted and no other entry; size() is the number of distinct pairs; the metric stored for a pair is obtained from that pair's own metrics only, in insertion order: the first metric as is, and each later one averaged half-and-half with the stored value. Measurements of other pairs never influence it.", "quantifier": "all finite sequences of Dataset::insert(features, policy, metric) calls, all feature vectors, policies and metrics", "why_tests_cant": "the claim is about every history and every interleaving of keys; a test fixes one history", "anchors": ["src/Dataset.cpp: Dataset::insert, size", "include/apollo/Dataset.h: data"]}
{"id": "C02", "title": "The stored metric stays within the range of the measured metrics", "statement": "For every (features, policy) pair the stored metric always lies between the smallest and the largest metric ever inserted for the pair, with the double rounding of each update taken into account (metrics that are zero or at least 2^-1021 in magnitude, no overflow).", "quantifier": "all insertion sequences, all finite double metrics in the stated range", "why_tests_cant": "rounding can break an average at isolated inputs; only a proof about rounding covers every double", "anchors": ["src/Dataset.cpp: Dataset::insert (line 38)"]}
{"id": "C03", "title": "Dataset iteration order is canonical", "statement": "toVectorOfTuples() (and the file written by store()) lists the entries strictly increasing in (feature vector lexicographically, then policy), so the set and order of listed (features, policy) pairs depends only on which pairs were inserted, not on the order of insertion.", "quantifier": "all insertion sequences and all permutations of them", "why_tests_cant": "factorially many insertion orders", "anchors": ["src/Dataset.cpp: toVectorOfTuples, store", "include/apollo/Dataset.h: data (std::map)"]}
{"id": "C04", "title": "Best-policy reduction is an argmin with lowest-policy tie-break", "statement": "findMinMetricPolicyByFeatures returns, for exactly the feature vectors that occur in the dataset, each once and in increasing order, a policy measured for these features whose stored metric is minimal among all policies measured for these features; among equal metrics the smallest policy number wins; the three outputs (features, policies, map) describe the same assignment.", "quantifier": "all datasets reachable by any insertion sequence", "why_tests_cant": "ties, any number of features/policies and every metric pattern", "anchors": ["src/Dataset.cpp: findMinMetricPolicyByFeatures"]}
{"id": "C05", "title": "Merging datasets", "statement": "Merging dataset B into A keeps every pair of A and of B and no other; a pair in only one of them keeps its metric; a pair in both gets the half-and-half average. Merging a dataset into itself, or loading the same data twice, changes nothing (normal-range metrics).", "quantifier": "all pairs of datasets", "why_tests_cant": "unbounded datasets with arbitrary overlap", "anchors": ["src/Dataset.cpp: insert(Dataset&), load", "src/Apollo.cpp: train (APOLLO_SINGLE_MODEL)"]}
{"id": "C06", "title": "A stored dataset can be loaded back", "statement": "store() followed by load() into an empty dataset succeeds and yields the same (features, policy) pairs and metrics.", "quantifier": "all datasets with finite values", "why_tests_cant": "every dataset size, feature count and numeric value; values fail at isolated digit patterns", "anchors": ["src/Dataset.cpp: store, load", "src/helpers/Parser.cpp"]}
{"id": "C07", "title": "A truncated dataset file is never accepted", "statement": "If writing a dataset file stops after any proper prefix of its bytes (crash, full disk), loading that file never returns normally: no silently shortened or altered dataset is produced.", "quantifier": "all datasets and all crash points (every proper prefix of the written bytes)", "why_tests_cant": "every byte position of every file", "anchors": ["src/Dataset.cpp: store, load", "src/helpers/Parser.cpp: getNextToken, parse, parseExpected"]}
{"id": "C08", "title": "The tokenizer never overruns its buffer", "statement": "For every input stream, reading the next token either yields a token of at most 63 characters without whitespace, or stops the program; it never writes outside its 64-byte buffer, and afterwards the stream is positioned directly behind the token.", "quantifier": "all input byte streams and all stream positions", "why_tests_cant": "memory safety for every input", "anchors": ["src/helpers/Parser.cpp: getNextToken", "src/helpers/Parser.h: BUFSIZE"]}
{"id": "C09", "title": "Number formatting loses everything beyond six significant digits, and nothing else", "statement": "A finite value written to a dataset or model file and read back is exactly the value rounded to six significant decimal digits and then to the nearest float/double; in particular values with at most six significant digits (such as integers below 10^6) survive unchanged.", "quantifier": "all finite float/double values in the normal range", "why_tests_cant": "2^64 values; failures are at isolated points", "anchors": ["src/Dataset.cpp: store", "src/models/impl/DecisionTreeImpl.cpp: output_tree, output_node", "src/helpers/Parser.cpp: parse<float>, parse<double>"]}
{"id": "C10", "title": "Static selects one fixed in-range policy", "statement": "A Static model created with policy=p returns p on every call for every features if 0 <= p < num_policies, returns 0 on every call if p >= num_policies, and creation with a negative p throws; without parameter it returns 0.", "quantifier": "all p, all num_policies, all call sequences", "why_tests_cant": "all integers and unbounded call sequences", "anchors": ["src/ModelFactory.cpp: createPolicyModel", "src/models/Static.cpp"]}
{"id": "C11", "title": "RoundRobin cycles fairly", "statement": "The k-th call (from 0) of a RoundRobin model with n >= 1 policies returns k mod n whatever the features are; hence in any n consecutive calls every policy is returned exactly once.", "quantifier": "all n >= 1, all call sequences, all features", "why_tests_cant": "unbounded call sequences", "anchors": ["src/models/RoundRobin.cpp: getIndex"]}
{"id": "C12", "title": "Random stays in range", "statement": "A Random model with n >= 1 policies returns a policy in [0, n) on every call for every outcome of the random generator, and every policy is a possible outcome.", "quantifier": "all n >= 1, all generator outcomes", "why_tests_cant": "random outcomes cannot be enumerated", "anchors": ["src/models/Random.cpp"]}
{"id": "C13", "title": "Optimal replays its file", "statement": "An Optimal model loaded from a comma separated file of integers returns exactly these integers in order, one per call, and aborts on the next call.", "quantifier": "all integer sequences (int range), all call sequences", "why_tests_cant": "unbounded sequences", "anchors": ["src/models/Optimal.cpp: load, getIndex"]}
{"id": "C14", "title": "DatasetMap answers with the best measured policy", "statement": "After training on a dataset, DatasetMap returns for every feature vector in the dataset a policy with minimal stored metric for these features (lowest policy on ties) and aborts for every other feature vector; retraining replaces earlier answers completely.", "quantifier": "all datasets, all feature vectors, all retrain sequences", "why_tests_cant": "unbounded datasets", "anchors": ["src/models/DatasetMap.cpp"]}
{"id": "C15", "title": "Exploration until training, model afterwards, never back", "statement": "A DecisionTree or RandomForest model answers with its exploration model's choice until it is trained or loaded, and from then on with its trained predictor only; no operation ever makes it explore again or become trainable again. Exploration continues exactly where it was: the explorer's state advances only on exploring calls.", "quantifier": "all sequences of getIndex/train/load/store calls", "why_tests_cant": "unbounded operation histories", "anchors": ["src/models/DecisionTree.cpp", "src/models/RandomForest.cpp"]}
{"id": "C16", "title": "Policy indices handed to the application are in range", "statement": "getPolicyIndex returns a value in [0, num_policies) for regions using Static, RoundRobin, Random, PolicyNet, and for DecisionTree/RandomForest regions whose model was trained on measurements of in-range policies, at any point of any execution.", "quantifier": "all executions of a region, all generator outcomes, num_policies >= 1", "why_tests_cant": "all histories; out-of-range indices arise only in specific states", "anchors": ["src/Region.cpp: getPolicyIndex", "src/models/*.cpp: getIndex"]}
{"id": "C17", "title": "A deep enough trained tree reproduces the best policies", "statement": "After training a DecisionTree on a dataset with max_depth at least the number of distinct feature vectors, getIndex returns for each feature vector of the dataset its best (minimum metric) policy.", "quantifier": "all datasets", "why_tests_cant": "every dataset; a test shows one", "anchors": ["src/models/impl/DecisionTreeImpl.cpp: train, build_tree, Node::Node, evaluate_tree", "test/apollo-test.cpp"]}
{"id": "C18", "title": "Tree shape and counters", "statement": "A trained tree has depth at most max_depth; every node's per-class counters sum to its sample count; every inner node has exactly two children whose sample counts and per-class counters sum to its own, both non-empty; the root accounts for all training samples.", "quantifier": "all training sets, all max_depth", "why_tests_cant": "every training set", "anchors": ["src/models/impl/DecisionTreeImpl.cpp: build_tree, get_count_per_class"]}
{"id": "C19", "title": "Training does not depend on sample order or on std::sort's treatment of ties", "statement": "The trained tree (all thresholds, feature indices, counters and predictions) is the same for every order of the training samples and for every behaviour of std::sort on equal keys.", "quantifier": "all training sets, all permutations, all conforming sort implementations", "why_tests_cant": "permutations and library implementations cannot be enumerated", "anchors": ["src/models/impl/DecisionTreeImpl.cpp: split, build_tree"]}
{"id": "C20", "title": "Each split minimises weighted Gini impurity", "statement": "For every inner node the chosen (feature, threshold position) has the least weighted Gini value among all positions between differing consecutive values of all features; among equals the lowest feature index and then the lowest position wins.", "quantifier": "all training sets", "why_tests_cant": "every training set", "anchors": ["src/models/impl/DecisionTreeImpl.cpp: split, compute_gini"]}
{"id": "C21", "title": "Training a tree never trips an assertion or undefined behaviour", "statement": "For every non-empty training set of at most 2^20 samples with equally long feature vectors in which equal feature vectors have equal responses, training terminates without assertion failure or out-of-range access.", "quantifier": "all such training sets, all max_depth, all conforming sorts", "why_tests_cant": "assertion failures are reached only by particular data", "anchors": ["src/models/impl/DecisionTreeImpl.cpp: split (assert size > 1), build_tree (assert split_it != End)"]}
{"id": "C22", "title": "Training samples are routed to the leaf they were counted in", "statement": "Evaluating a trained tree on a training feature vector descends to the node that was built from a partition containing that sample.", "quantifier": "all training sets of float features", "why_tests_cant": "rounding of the midpoint fails only for special neighbouring floats", "anchors": ["src/models/impl/DecisionTreeImpl.cpp: split (split_threshold), evaluate_tree"]}
{"id": "C23", "title": "Predictions are classes seen in training", "statement": "A trained DecisionTree returns, for every feature vector whatsoever (of the trained length), a policy that was the best policy of at least one feature vector of the training dataset.", "quantifier": "all datasets, all feature vectors", "why_tests_cant": "unbounded inputs", "anchors": ["src/models/impl/DecisionTreeImpl.cpp: Node::Node, evaluate_tree"]}
{"id": "C24", "title": "Storing and loading a tree preserves its predictions", "statement": "A DecisionTree stored to a file and loaded into a fresh model predicts the same policy for every feature vector.", "quantifier": "all trained trees and all feature vectors", "why_tests_cant": "all trees, all inputs, all thresholds", "anchors": ["src/models/impl/DecisionTreeImpl.cpp: save, output_tree, parse_tree, load"]}
{"id": "C25", "title": "A truncated tree file is never accepted", "statement": "Loading any proper prefix of a stored DecisionTree file never returns normally.", "quantifier": "all trained trees, all crash points", "why_tests_cant": "every byte position", "anchors": ["src/models/impl/DecisionTreeImpl.cpp: parse_tree, parse_node, parse_data"]}
{"id": "C26", "title": "JIT evaluation agrees with interpretation", "statement": "With JIT enabled, the generated evaluation function returns the same policy as interpreting the tree, for every feature vector.", "quantifier": "all trained trees, all feature vectors", "why_tests_cant": "all trees and inputs; thresholds go through decimal text", "anchors": ["src/models/impl/DecisionTreeImpl.cpp: generate_source, evaluate_tree"]}
{"id": "C27", "title": "Forest prediction is a majority vote", "statement": "RandomForest prediction returns a class with the maximal number of votes among its trees, the smallest such class on ties, always in [0, num_policies) when num_policies >= 1.", "quantifier": "all forests, all feature vectors", "why_tests_cant": "unbounded forests and votes", "anchors": ["src/models/impl/RandomForestImpl.cpp: predict"]}
{"id": "C28", "title": "A forest has num_trees trees, each trained on a bootstrap sample", "statement": "After training, a RandomForest holds exactly num_trees trees, each trained on as many samples as there are distinct feature vectors in the dataset, every sample being one of them with its best policy; this also holds after every retraining.", "quantifier": "all datasets, all generator outcomes, any number of trainings", "why_tests_cant": "random sampling and training histories", "anchors": ["src/models/impl/RandomForestImpl.cpp: train"]}
{"id": "C29", "title": "Storing and loading a forest preserves its predictions", "statement": "A RandomForest stored to a file and loaded into a fresh model with the same num_policies succeeds and predicts the same policy for every feature vector.", "quantifier": "all trained forests and all feature vectors", "why_tests_cant": "all forests and inputs", "anchors": ["src/models/impl/RandomForestImpl.cpp: save, output_rfc, parse_rfc, load"]}
{"id": "C30", "title": "Policy model strings are parsed as name,key=value,...", "statement": "For a model string made of a name and any list of key[=value] items (names and keys without ',' and '=', values without ','), the region's model name and parameters are exactly these; on repeated keys the first wins; an item without '=' has the empty value; for Static, DecisionTree, RandomForest and PolicyNet any undocumented key aborts, and for models without parameters any parameter aborts.", "quantifier": "all model strings", "why_tests_cant": "all strings", "anchors": ["src/Region.cpp: parsePolicyModel, validate"]}
{"id": "C31", "title": "The model factory builds what the string says", "statement": "Creating a region's model yields the model class named, with the documented defaults (Static policy 0, DecisionTree depth 2, RandomForest 10 trees of depth 2, RoundRobin exploration) overridden by given parameters; an unknown model name aborts.", "quantifier": "all names and parameter maps", "why_tests_cant": "all strings and parameters", "anchors": ["src/ModelFactory.cpp: createPolicyModel"]}
{"id": "C32", "title": "StaticRegion assigns each named region its own policy", "statement": "With model string StaticRegion,r1=p1,r2=p2,..., a region named ri always gets policy pi (0 if pi is out of range), and a region not named aborts at creation.", "quantifier": "all region/policy lists and all region names", "why_tests_cant": "all strings", "anchors": ["src/Region.cpp: Region::Region (StaticRegion)"]}
{"id": "C33", "title": "Models stored by one run are found by the next", "statement": "If training a region stores its model (APOLLO_STORE_MODELS), then creating a region of the same name, rank and model kind with the bare 'load' parameter loads exactly the file most recently stored for that region, for DecisionTree, RandomForest and PolicyNet.", "quantifier": "all region names, ranks, training histories", "why_tests_cant": "all names and histories", "anchors": ["src/Region.cpp: train (store), Region::Region (load)"]}
{"id": "C34", "title": "Every finished execution is counted once", "statement": "The total execution count grows by exactly one for every context ended and collected; the execution index assigned at begin is the number of earlier begins of the region, so indices within a region are unique and consecutive.", "quantifier": "all histories of begin/end over any number of regions", "why_tests_cant": "all histories", "anchors": ["src/Region.cpp: begin, collectContext", "src/Apollo.cpp: region_executions"]}
{"id": "C35", "title": "A measurement is recorded under the features and policy of its own execution", "statement": "While a region's model is trainable (or datasets are persistent), ending an execution adds to the region's dataset exactly one measurement: the features set on that context since its begin, the policy getPolicyIndex returned for that context, and its metric.", "quantifier": "all histories of begin/setFeature/getPolicyIndex/end, sync and async contexts interleaved", "why_tests_cant": "all interleavings", "anchors": ["src/Region.cpp: begin, setFeature, getPolicyIndex, collectContext"]}
{"id": "C36", "title": "Asynchronous executions are collected exactly once", "statement": "Each asynchronous context that was ended is collected (recorded, counted, released) exactly once, when its timer first reports completion at a collection point, in whatever order timers complete; none is lost, none is collected twice, and destruction of the region collects all that remain once the timers complete.", "quantifier": "all histories and all completion schedules", "why_tests_cant": "schedules cannot be enumerated", "anchors": ["src/Region.cpp: end, collectPendingContexts, ~Region"]}
{"id": "C37", "title": "No feature leaks between executions", "statement": "Features set during one synchronous execution never become part of a later execution's features.", "quantifier": "all histories", "why_tests_cant": "all histories", "anchors": ["src/Region.cpp: createRegionContext, collectContext"]}
{"id": "C38", "title": "Automatic training fires exactly when configured", "statement": "At the end of an execution of a region with a trainable model: if a global period G>0 divides the total execution count, all regions are trained; otherwise if a per-region period P>0 divides the region's number of begins, this region is trained; otherwise it is trained iff min_training_data > 0 and the dataset has reached that size; in all other cases nothing is trained.", "quantifier": "all configurations and histories", "why_tests_cant": "all counter values and configurations", "anchors": ["src/Region.cpp: autoTrain, collectContext"]}
{"id": "C39", "title": "A tuned region stops learning", "statement": "Once a region's DecisionTree/RandomForest model is trained or loaded, later executions do not change the model, and (without persistent datasets) do not change the dataset, for every later history without forced training and in per-region model mode.", "quantifier": "all later histories", "why_tests_cant": "unbounded histories", "anchors": ["src/Region.cpp: train, collectContext, autoTrain"]}
{"id": "C40", "title": "Every created region takes part in global training", "statement": "Apollo::train trains every live region that has a trainable model and measurements.", "quantifier": "all sets of regions with arbitrary names", "why_tests_cant": "name collisions occur for particular (long) names only", "anchors": ["src/Region.cpp: Region::Region (strncpy, regions.insert)", "src/Apollo.cpp: train"]}
{"id": "C41", "title": "Destroying a region does not affect other regions", "statement": "After a region object is destroyed, other regions behave exactly as if it had never been destroyed, including automatic training and global training.", "quantifier": "all histories with region destruction", "why_tests_cant": "all histories", "anchors": ["src/Region.cpp: ~Region", "src/Apollo.cpp: train, ~Apollo"]}
{"id": "C42", "title": "Single-model mode trains every region on the merged data", "statement": "With APOLLO_SINGLE_MODEL, Apollo::train trains each region's model on the merge of all regions' datasets.", "quantifier": "all sets of regions and datasets", "why_tests_cant": "unbounded sets", "anchors": ["src/Apollo.cpp: train"]}
{"id": "C43", "title": "Persistent datasets survive restarts", "statement": "With APOLLO_PERSISTENT_DATASETS, the measurements held by a region when it is destroyed are the ones a region of the same name starts with in the next run.", "quantifier": "all datasets and region names", "why_tests_cant": "all values and names", "anchors": ["src/Region.cpp: Region::Region, ~Region"]}
{"id": "C44", "title": "Inconsistent configuration is rejected", "statement": "Start-up aborts unless exactly one of collective/local training and exactly one of single/region model is enabled; collective training without MPI aborts; with the default environment start-up succeeds with local training and region models.", "quantifier": "all values of the environment variables", "why_tests_cant": "all environments", "anchors": ["src/Apollo.cpp: Apollo::Apollo"]}
{"id": "C45", "title": "Traces contain one well-formed row per collected execution", "statement": "With APOLLO_TRACE_CSV, the region's trace holds a header with 6+num_features columns and one row per collected execution, in collection order, carrying rank, model, region, execution index, the features, policy and metric; a row has as many columns as the header whenever num_features features were set.", "quantifier": "all histories", "why_tests_cant": "all histories", "anchors": ["src/Region.cpp: Region::Region, collectContext"]}
{"id": "C46", "title": "The context-free interface is equivalent to the context interface", "statement": "Using begin/setFeature/getPolicyIndex/end without passing a context has the same effect as passing the context returned by begin, for any sequence of non-overlapping synchronous executions.", "quantifier": "all such sequences", "why_tests_cant": "all histories", "anchors": ["src/Region.cpp: deprecated overloads", "src/Apollo.cpp: extern C API"]}
{"id": "C47", "title": "Synchronous timings are never negative", "statement": "The metric of a synchronous execution is non-negative for every non-decreasing monotonic clock, with rounding of the clock value to double taken into account.", "quantifier": "all pairs of clock readings", "why_tests_cant": "rounding at particular clock values", "anchors": ["src/timers/TimerSync.cpp"]}
{"id": "C48", "title": "Collective packing round-trips", "statement": "The buffer a rank sends for collective training decodes on every rank to exactly the measurements of its regions (rank, features, policy, region name, metric), provided each measurement has num_features features.", "quantifier": "all datasets and regions", "why_tests_cant": "all data", "anchors": ["src/Apollo.cpp: packMeasurements, get_mpi_pack_measure_size, gatherCollectiveTrainingData"]}
{"id": "C49", "title": "After collective gathering all ranks know the same measurements", "statement": "After gatherCollectiveTrainingData, for a region existing on all ranks, every rank's dataset has the same set of (features, policy) pairs, namely the union over ranks, and a pair measured on a single rank has that rank's metric everywhere; regions unknown to a rank are ignored there; a rank's own measurements are not added twice.", "quantifier": "any number of ranks, regions and measurements", "why_tests_cant": "all rank counts and data", "anchors": ["src/Apollo.cpp: gatherCollectiveTrainingData"]}
{"id": "C50", "title": "After collective gathering all ranks train on the same data", "statement": "After gathering, all ranks hold the same metric for every pair of a region, so they train identical models.", "quantifier": "any number of ranks", "why_tests_cant": "all rank counts and data", "anchors": ["src/Apollo.cpp: gatherCollectiveTrainingData", "src/Dataset.cpp: insert"]}
{"id": "C51", "title": "PolicyNet falls back to policy 0 below its threshold", "statement": "If the debiased average reward is below the threshold, getIndex returns 0 without consulting the network and training leaves the network unchanged; the average always lies between the smallest and largest batch average seen, so with rewards exp(-t), t >= 0, a threshold <= 0 never suppresses and a threshold > 1 always suppresses.", "quantifier": "all training histories, beta in [0,1)", "why_tests_cant": "unbounded histories of reals", "anchors": ["src/models/PolicyNet.cpp: trainNet, getIndex"]}
{"id": "C52", "title": "PolicyNet probabilities form a distribution", "statement": "For every network state and features the action probabilities are positive and sum to one (exact real arithmetic), and the sampled policy is in [0, num_policies).", "quantifier": "all weights, inputs, generator outcomes", "why_tests_cant": "continuous inputs", "anchors": ["src/models/PolicyNet.cpp: Softmax::forward, getIndex"]}
{"id": "C53", "title": "PolicyNet's probability cache is transparent", "statement": "At any time the probabilities used by getIndex for given features are those the current network computes for them; the cache never returns stale or foreign entries.", "quantifier": "all histories of getIndex, train and load", "why_tests_cant": "all histories", "anchors": ["src/models/PolicyNet.cpp: getIndex, train, load (actionProbabilityMap)"]}
{"id": "C54", "title": "PolicyNet's feature encoding is injective", "statement": "Two feature vectors get the same cache key / network input iff their elements truncated to unsigned 64-bit integers coincide.", "quantifier": "all feature vectors with values in [0, 2^64)", "why_tests_cant": "all vectors", "anchors": ["src/models/PolicyNet.cpp: getIndex, train"]}
{"id": "C55", "title": "PolicyNet store/load round-trips", "statement": "Loading a stored PolicyNet into a network of the same shape restores all weights, biases, the reward average and the training count exactly; a missing file leaves the model unchanged; a truncated file is detected.", "quantifier": "all weights, all shapes, all prefixes", "why_tests_cant": "all values and crash points", "anchors": ["src/models/PolicyNet.cpp: store, load"]}
{"id": "C56", "title": "Network evaluation does not depend on earlier calls", "statement": "The forward and backward passes compute the same matrix products whatever batches were processed before (buffers are reused but never leak), and stay inside their buffers.", "quantifier": "all sequences of batch sizes and inputs", "why_tests_cant": "all histories", "anchors": ["src/models/PolicyNet.cpp: FCLayer::forward/backward, ReLU, Softmax"]}
{"id": "C57", "title": "A training step moves along the policy gradient", "statement": "The gradient arrays computed by a training step are the partial derivatives of the mean of reward * log(probability of the taken action) with respect to each weight and bias (where the ReLUs are differentiable).", "quantifier": "all networks, batches and rewards", "why_tests_cant": "continuous inputs", "anchors": ["src/models/PolicyNet.cpp: lossGrad, backward, trainStep"]}
{"id": "C58", "title": "Tuning variable decoding is a bijection", "statement": "For candidate set sizes s1..sk >= 1, decoding policy indices 0..s1*...*sk-1 into per-variable candidate choices reaches every combination exactly once and never leaves a candidate set.", "quantifier": "all k, all sizes", "why_tests_cant": "all sizes", "anchors": ["src/connectors/kokkos/kokkos-connector.cpp: kokkosp_request_values"]}
{"id": "C59", "title": "Range candidates respect the declared range", "statement": "For an integer range tuning variable, every candidate value lies within the declared range (respecting open/closed ends) and is lower bound plus a multiple of step.", "quantifier": "all integer ranges with positive step", "why_tests_cant": "all ranges", "anchors": ["src/connectors/kokkos/kokkos-connector.cpp: count_range_slices, form_set_from_range"]}
{"id": "C60", "title": "Tuning problems with the same variables share one region", "statement": "Two requests use the same region iff they have the same sequence of variable ids; the ordering used for the lookup is a strict weak ordering.", "quantifier": "all request histories, all variable id sequences", "why_tests_cant": "all histories", "anchors": ["src/connectors/kokkos/kokkos-connector.cpp: less<variableSet>, kokkosp_request_values"]}
{"id": "C61", "title": "Kokkos contexts end once and flush periodically", "statement": "Ending an unknown or already ended context has no effect; every flush_interval-th ended context trains all regions; each requested context is ended at most once.", "quantifier": "all histories of request/end", "why_tests_cant": "all histories", "anchors": ["src/connectors/kokkos/kokkos-connector.cpp: kokkosp_end_context"]}
{"id": "C62", "title": "A previously stored Kokkos model is reused", "statement": "If a model file for a tuning problem exists from an earlier run, requesting values for the problem creates a region that uses that model.", "quantifier": "all tuning problems", "why_tests_cant": "all names", "anchors": ["src/connectors/kokkos/kokkos-connector.cpp: kokkosp_request_values (final_name)"]}
{"id": "C63", "title": "Region ids from call paths", "statement": "For a backtrace line '<dir>/<module>(<symbol>) [<addr>]' the region id is '<module>@<addr>'.", "quantifier": "all paths, modules, symbols and addresses without the separator characters", "why_tests_cant": "all strings", "anchors": ["src/Apollo.cpp: getCallpathOffset"]}
{"id": "C64", "title": "Loading any file ends", "statement": "Reading a dataset, a tree or a forest from a file ends for every content of the file: the parser loops make progress and never run forever.", "quantifier": "all input byte streams", "why_tests_cant": "non-termination on some malformed input cannot be excluded by samples", "anchors": ["src/Dataset.cpp: load", "src/models/impl/DecisionTreeImpl.cpp: parse_tree, parse_node, parse_data", "src/models/impl/RandomForestImpl.cpp: parse_rfc", "src/helpers/Parser.cpp"]}
{"id": "C65", "title": "A truncated forest file is never accepted", "statement": "No proper prefix of a file stored by RandomForest is loaded without error.", "quantifier": "all forests and all proper prefixes of their files", "why_tests_cant": "all files and cut positions", "anchors": ["src/models/impl/RandomForestImpl.cpp: parse_rfc, load", "src/models/impl/DecisionTreeImpl.cpp: parse_tree"]}
{"id": "C66", "title": "A Kokkos measurement belongs to its own request", "statement": "Ending a context of the Kokkos connector records exactly one measurement in the region of its problem, with the context variables of the request made for that context, the policy whose combination was answered, and the time from that request to the end.", "quantifier": "all histories of declarations, requests and ends, with any contexts open at the same time", "why_tests_cant": "all interleavings of contexts; tests end a context before asking for the next", "anchors": ["src/connectors/kokkos/kokkos-connector.cpp: kokkosp_request_values, kokkosp_end_context", "src/Region.cpp: begin, end, collectContext"]}
{"id": "C67", "title": "Kernels are fenced exactly while there are new tuning problems", "statement": "After any history of calls to the Kokkos connector, the begin and end of a kernel fence its device iff Kokkos provided the fence and, since the last training of all regions, values were requested for a tuning problem never seen before.", "quantifier": "all histories of declarations, requests and ends", "why_tests_cant": "all histories", "anchors": ["src/connectors/kokkos/kokkos-connector.cpp: invoke_fence, kokkosp_request_values, kokkosp_end_context"]}
{"id": "C68", "title": "The options of the Kokkos connector take effect", "statement": "After parsing the documented options and initialising, the library has the settings asked for: retraining, collective training and tracing as by the flags, and the flush interval as by the last --flush-rate.", "quantifier": "all argument lists and environments", "why_tests_cant": "all argument lists; reading a flag that was not given and setenv with a malformed name go unnoticed in runs", "anchors": ["src/connectors/kokkos/kokkos-connector.cpp: kokkosp_parse_args, kokkosp_init_library", "src/Apollo.cpp: Apollo"]}
{"id": "C69", "title": "Regions do not influence each other", "statement": "Without a global training period and without requests to train all regions, the answers, the model and the data of a region depend only on its initial model and data and on what is asked of it, in order: creating, using, training and destroying other regions in between changes nothing.", "quantifier": "all programs, all policy models, all interleavings of regions and of synchronous and asynchronous executions", "why_tests_cant": "non-interference relates pairs of executions; tests would have to compare all interleavings", "anchors": ["src/Region.cpp: begin, end, getPolicyIndex, collectContext, autoTrain, train", "src/Apollo.cpp: Apollo"]}
{"id": "C70", "title": "Tracing only observes", "statement": "Switching APOLLO_TRACE_CSV on does not change what a program does: every call returns the same, and models, datasets, contexts and files are the same as without tracing; a run fails with tracing exactly if it fails without, when the directory of the traces exists.", "quantifier": "all programs, all policy models, all file systems", "why_tests_cant": "relates pairs of executions of all programs; tests trace a few programs whose model strings contain no path", "anchors": ["src/Region.cpp: Region, collectContext", "src/Apollo.cpp: Apollo"]}
{"id": "C71", "title": "Datasets reach their files", "statement": "With persistent datasets, when the directory of the datasets exists, the file of a region holds its dataset after the region was destroyed, whatever the name of the region.", "quantifier": "all names of regions, all file systems, all programs", "why_tests_cant": "all names and file systems; the program goes on after a loss, so that only a later run would show it", "anchors": ["src/Region.cpp: ~Region", "src/Dataset.cpp: store"]}
{"id": "C72", "title": "A compiled tree evaluates its own code", "statement": "With JIT enabled, predict runs the code generated from the tree that the object holds, whatever was constructed, trained, loaded or destroyed before, by this process or by other processes of the machine.", "quantifier": "all histories of all processes of a machine", "why_tests_cant": "interleavings of processes that share /tmp; histories of trainings and loads of many objects", "anchors": ["src/models/impl/DecisionTreeImpl.cpp: compile_and_link_jit_evaluate_function, predict, load, ~DecisionTreeImpl"]}
{"id": "C73", "title": "Asynchronous executions get the time the device measured", "statement": "No timer is asked for a result before its execution was ended or after its context was released, so that the device reports no error; when the program passes no metrics, an asynchronous execution finishes after the device has executed its end, with the time that the device took from its begin to its end, in seconds; it is not negative.", "quantifier": "all programs, all policy models, all devices: any progress at any time, any clock", "why_tests_cant": "the progress of a device between calls is not under the control of a test; machines without GPU do not run this code at all", "anchors": ["src/timers/TimerCudaAsync.cpp: start, stop, isDone", "src/timers/TimerHipAsync.cpp: start, stop, isDone", "src/Region.cpp: collectPendingContexts, begin, end"]}
{"id": "C74", "title": "Asynchronous executions finish in order", "statement": "Asynchronous executions of a region finish, and so are recorded, in the order in which they were ended: when one finishes, those that were ended before it have finished.", "quantifier": "all programs, all policy models, all devices that execute commands in order", "why_tests_cant": "fails only when the device makes progress between two questions of a single collection", "anchors": ["src/Region.cpp: collectPendingContexts, end", "src/timers/TimerCudaAsync.cpp: isDone"]}
{"id": "C75", "title": "Collective training can be repeated", "statement": "When all ranks declare their regions with the same numbers of features, and measurements have as many, every history of measurements and collective trainings goes through without abort, exception or reading of unwritten memory as long as the pairs ever measured fit into an int of bytes; the ranks keep their regions, and what they hold can be sent again.", "quantifier": "all numbers of ranks, all histories of measurements and trainings of any length", "why_tests_cant": "what is received in one training is sent again in the next: faults show only after several trainings, with ranks that differ", "anchors": ["src/Apollo.cpp: packMeasurements, gatherCollectiveTrainingData, train", "src/Region.cpp: collectContext"]}
{"id": "C76", "title": "Training collectively again without new measurements changes nothing", "statement": "A second collective training directly after the first leaves the measurements of all ranks as they are.", "quantifier": "all numbers of ranks, all datasets", "why_tests_cant": "fails only with three or more ranks that measured the same pair", "anchors": ["src/Apollo.cpp: gatherCollectiveTrainingData", "src/Dataset.cpp: insert"]}
{"id": "C77", "title": "A pair measured on one rank has everywhere that rank's average", "statement": "When only one rank measures a pair of features and policy of a region, then after a collective training every rank with the region holds the average that the measuring rank would have by itself.", "quantifier": "all numbers of ranks, all histories of measurements and trainings of any length", "why_tests_cant": "depends on the interleaving of measurements with trainings: after a training the values of a rank come back to it from the others", "anchors": ["src/Apollo.cpp: gatherCollectiveTrainingData", "src/Dataset.cpp: insert"]}
{"id": "C78", "title": "Collective training stays within what was measured", "statement": "Whatever the history of measurements and collective trainings, the metric that a rank holds for a pair lies between the least and the greatest metric that any rank measured for it.", "quantifier": "all numbers of ranks, all histories of measurements and trainings of any length, doubles with rounding", "why_tests_cant": "rounding of repeated averages of averages over histories of any length", "anchors": ["src/Apollo.cpp: gatherCollectiveTrainingData", "src/Dataset.cpp: insert"]}
{"id": "C79", "title": "Every setting comes from its own variable", "statement": "The library starts exactly if every number among its settings can be read, the settings are consistent, and the directories and the global trace that the settings ask for can be created; each setting then has the value of its own environment variable, or its documented default if that is not set, and no other variable has any influence.", "quantifier": "all environments, all file systems, with and without MPI", "why_tests_cant": "the space of environments is infinite, and mixing up two of some twenty settings shows only if exactly one of them is set", "anchors": ["src/Apollo.cpp: Apollo::Apollo, safeGetEnv", "include/apollo/Config.h"]}
{"id": "C80", "title": "Tracing policies only observes", "statement": "Switching APOLLO_TRACE_POLICY or APOLLO_TRACE_BEST_POLICIES on or off does not change what any call returns, nor any region, model, dataset or file other than the files of these traces.", "quantifier": "all programs, models, file systems and configurations in which no model is loaded from a file of these traces", "why_tests_cant": "compares two runs of any length; differs only for features that do not fit in int", "anchors": ["src/Region.cpp: Region::train, Region::getPolicyIndex", "src/connectors/kokkos/kokkos-connector.cpp: kokkosp_init_library"]}
{"id": "C81", "title": "The policy trace has a line for each policy handed out", "statement": "With APOLLO_TRACE_POLICY the file rank-<rank>-policies.txt is what it was before the run, followed by one line for each policy that getPolicyIndex handed out, in order; the line holds the rank, the name of the region, the kind of its model, the features set for the context without their fractions, and the policy. Nothing else writes to the file.", "quantifier": "all programs, models, configurations and initial contents of the file", "why_tests_cant": "relates a file to the whole history of a program of any length, with any interleaving of regions and contexts", "anchors": ["src/Region.cpp: Region::getPolicyIndex"]}
{"id": "C82", "title": "The files of best policies list the best measured policies", "statement": "With APOLLO_TRACE_BEST_POLICIES every training of a region that has data writes step-<step>-rank-<rank>-<region>-best_policies.txt. It lists, for all features in the data and in their order, the policy with the least metric (the smaller policy on ties) and that metric. No other file of such a name changes, and such a file always holds the best policies of data with which a region of that name was trained.", "quantifier": "all programs, models, configurations, features, policies and metrics", "why_tests_cant": "relates files to all trainings of a program of any length, and the choice to all entries of the data", "anchors": ["src/Region.cpp: Region::train", "src/Dataset.cpp: Dataset::findMinMetricPolicyByFeatures"]}
{"id": "C83", "title": "The speed of the ranks does not matter", "statement": "In a program of several ranks with collective training, the order in which the ranks make their calls between the trainings does not matter: if one order makes all calls, every order does, in the same number of steps and with the same final state of every rank; a failure or a rank that waits forever does not depend on the order either.", "quantifier": "all numbers of ranks, programs, models, settings and interleavings of any length", "why_tests_cant": "the number of interleavings is exponential and tests see one of them", "anchors": ["src/Apollo.cpp: Apollo::train, gatherCollectiveTrainingData", "src/Region.cpp: Region::end, collectContext"]}
{"id": "C84", "title": "After a collective training all ranks choose the same policies", "statement": "After a collective training the models of a region are the same function of the features on all ranks: they were trained on the same data.", "quantifier": "all numbers of ranks, all programs and interleavings before the training, all measurements, all features asked for afterwards", "why_tests_cant": "relates the models of different processes, for all features and all histories", "anchors": ["src/Apollo.cpp: Apollo::train, gatherCollectiveTrainingData", "src/Region.cpp: Region::train", "src/models/DecisionTree.cpp: train", "src/models/RandomForest.cpp: train"]}
{"id": "C85", "title": "No rank waits forever in a collective training", "statement": "If all ranks have the same settings and call Apollo::train equally often, no rank waits in a collective training for a rank that does not come: a run can be continued until all calls are made, unless a call fails.", "quantifier": "all numbers of ranks, programs, settings and interleavings", "why_tests_cant": "absence of deadlock quantifies over all interleavings and programs", "anchors": ["src/Apollo.cpp: Apollo::train", "src/Region.cpp: Region::autoTrain, collectContext"]}
{"id": "C86", "title": "The allgather trace lists what all ranks held", "statement": "With APOLLO_TRACE_ALLGATHER a collective training with step S writes step-<S>-rank-<rank>-allgather.txt on every rank: a header and then one line for each measurement held by any rank, with its rank, region, features without their fractions, policy and metric; the lines are the same on all ranks, and no measurement is missing or listed twice. Without the setting no such file is written.", "quantifier": "all numbers of ranks, programs, measurements and settings", "why_tests_cant": "relates files of different processes to the states of all of them", "anchors": ["src/Apollo.cpp: gatherCollectiveTrainingData"]}
{"id": "C87", "title": "Programs that keep to the interface never fail", "statement": "A program that creates regions with known models and at least one policy, gives every execution all its features, ends every context once, uses no destroyed region and no context after its end, and trains all regions only while none was destroyed, never aborts, throws or runs into undefined behaviour, whatever the clocks, timers, random numbers and measurements are: every call answers (policies are always in range), destructors return once the timers are done, and the end of the process succeeds. Each of these rules is needed.", "quantifier": "all programs of any length that follow the rules, all surroundings, measurements and periods of training, static (also per region by name), round-robin, random, tree, forest and network models", "why_tests_cant": "absence of failures for all programs and surroundings; tests run a few programs", "anchors": ["src/Region.cpp: Region::Region, ~Region, begin, end, getPolicyIndex, train, collectPendingContexts, autoTrain", "src/Apollo.cpp: Apollo::train, ~Apollo", "src/ModelFactory.cpp: createPolicyModel", "src/models/impl/DecisionTreeImpl.cpp: fit, predict"]}
{"id": "C88", "title": "The test programs of the library succeed", "statement": "test/apollo-test.cpp (and each rank of apollo-test-mpi.cpp) prints PASSED: if executions with the matching policy are faster, the model installed after the first pass gives the matching policy in every execution of the second. test/apollo-test-simple.cpp and test/apollo-overhead.cpp run to their end.", "quantifier": "all clocks, conforming sorts, numbers of policies, repetitions, features and training data", "why_tests_cant": "the programs are run with one clock and fixed numbers; what they check depends on measured times", "anchors": ["test/apollo-test.cpp", "test/apollo-test-simple.cpp", "test/apollo-overhead.cpp", "src/models/impl/DecisionTreeImpl.cpp: Node::Node, evaluate_tree", "src/Region.cpp: begin, setFeature, getPolicyIndex, end, train"]}
{"id": "C89", "title": "create-dataset.py turns traces into the datasets of the regions", "statement": "Given the trace files that Apollo wrote for regions (or the directory with them), create-dataset.py succeeds and writes for each region that was measured the file Dataset-<region>.yaml, which Apollo::Dataset::load reads: without aggregation as the dataset Apollo itself has after these measurements; with min as the first execution with the least time for each vector of features; with mean as the mean time of each vector of features and policy; with mean-min as the policy with the least mean time for each vector of features.", "quantifier": "all traces of any length, numbers of regions, features and executions, all numbers that keep their value with six digits", "why_tests_cant": "a round trip through two languages and two text formats, for all measurements", "anchors": ["src/python/modeling/create-dataset.py", "src/Region.cpp: Region::Region, collectContext", "src/Dataset.cpp: Dataset::load"]}
{"id": "C90", "title": "Optimal replays the fastest static choices that analyze-traces.py found", "statement": "Given the trace files that Apollo wrote for runs with static policies, analyze-traces.py --write-opt writes for each region measured on a rank the file opt-<region>-rank-<rank>.txt with, for every index measured in ascending order, a policy of one of the fastest executions with this index. If the executions 0 to n-1 were measured, a program that creates the region with the model Optimal and executes it n times, asking once in each, gets in every execution the policy that was fastest in the execution with this number.", "quantifier": "all traces of any length, numbers of regions, ranks and executions, all times that keep their value with six digits, all orders of equal times, all clocks and features in the replay", "why_tests_cant": "a round trip through two languages, a text format and a stateful model, for all measurements", "anchors": ["src/python/analysis/analyze-traces.py:24-33, 168-175, 230-249", "src/Region.cpp:349-360", "src/models/Optimal.cpp: load, getIndex"]}
{"id": "C91", "title": "Whatever floats the features are, a measurement is recorded under its own features", "statement": "For every history of Dataset::insert calls whose features are any values of type float (finite, zeros of either sign, infinities, NaN), and however std::map balances its tree, features and a policy have an entry iff they were inserted, and its metric is the running average of their own metrics. (False: NaN cannot be ordered; a measurement for [NaN] is averaged into another entry, and if [NaN] came first all later measurements of the policy go to its entry. Proved without NaN.)", "quantifier": "all histories, all float values, all balancings of the search tree", "why_tests_cant": "tests use small integers as features; the effect of a NaN depends on what was inserted before", "anchors": ["src/Dataset.cpp: insert", "include/apollo/Dataset.h: data"]}
{"id": "C92", "title": "A model created from a file behaves as one that loaded the file", "statement": "ModelFactory::createPolicyModel(name, num_policies, path) for DecisionTree and RandomForest has, whatever the file contains, the outcome of creating a trainable model and loading the file: the same failure, or a model that is not trainable and gives the same answers; in particular trained models come back from their files. Optimal replays the policies of its file; models without files throw, other names abort, and trees and forests abort if the file does not exist.", "quantifier": "all contents of the file, all names, numbers of policies, depths and explorers", "why_tests_cant": "no test creates a model from a file; the claim is about every text", "anchors": ["src/ModelFactory.cpp:26-47", "src/models/DecisionTree.cpp:35-54", "src/models/RandomForest.cpp:36-54", "src/models/Optimal.cpp:16-24"]}
{"id": "C93", "title": "A parse error shows where it is", "statement": "When the parser of stored files finds another token than it expects, the message shows the line of that token, its number, and marks its last character.", "quantifier": "all files and all places in them", "why_tests_cant": "tests do not read messages; the claim is about all positions in all files", "anchors": ["src/helpers/Parser.cpp:53-87"]}
{"id": "C94", "title": "dtree2dot.py draws the saved tree", "statement": "For every tree that DecisionTreeImpl::save writes, dtree2dot.py reads the file and writes a graph in the language of dot with one oval for the tree, exactly one box for each node of the tree that is labelled with the numbers of this node, and exactly one arrow from each node to each of its children and from the oval to the root. Trees with the same drawing have nodes with the same labels at the same places.", "quantifier": "all trees of any shape, depth, classes and numbers, and whatever Python prints for numbers as long as it prints no quotes or backslashes", "why_tests_cant": "a round trip through two languages and two text formats, for all trees", "anchors": ["src/python/analysis/dtree2dot.py", "src/models/impl/DecisionTreeImpl.cpp: output_tree, output_node, save"]}
{"id": "C95", "title": "rfc2dot.py draws all trees of the saved forest", "statement": "For every forest that RandomForestImpl::save writes, rfc2dot.py reads the file and writes a graph in the language of dot with an oval for the forest, an arrow from it to each tree of the forest, and the drawing of each tree. (False: of a forest that was trained again only the first num_trees trees are drawn, and for a forest that was saved before it was trained the script ends with an exception. Proved for forests that were trained once, and for the first num_trees trees of any others.)", "quantifier": "all forests of any number and shape of trees, and whatever Python prints for numbers as long as it prints no quotes or backslashes", "why_tests_cant": "a round trip through two languages and two text formats, for all forests; no test trains a forest twice and saves it", "anchors": ["src/python/analysis/rfc2dot.py", "src/models/impl/RandomForestImpl.cpp: output_rfc, save, train"]}
{"id": "C96", "title": "Printed models have the format of saved models", "statement": "What print_tree and print_forest write is a document in the format of the saved model, without the data, that the scripts can draw. (False for trees: output_tree closes the mapping of the data also when it does not open it, so that the text is a YAML document for no tree and load fails on it. Proved for forests, and for trees without this line.)", "quantifier": "all trees and forests", "why_tests_cant": "the output is meant for the terminal and no test reads it; the claim is about all models", "anchors": ["src/models/impl/DecisionTreeImpl.cpp:200-204, 416-448", "src/models/impl/RandomForestImpl.cpp:195-199, 78-101"]}
{"id": "C97", "title": "Ranks do not disturb each other through files", "statement": "With MPI, where all ranks write to the same directories, what each rank does and finds in the files it reads is the same as if it had a file system of its own; no file is written by two ranks, and the contents of all files at the end do not depend on the speeds of the ranks. (False: the files of persistent datasets and apollo_exec_info.csv do not have the rank in their names, so that the rank that is last overwrites what the others wrote. Proved without persistent datasets, for models of all kinds, the files of best policies, chosen policies and exchanged measurements, and traces.)", "quantifier": "all numbers of ranks, programs, interleavings of calls and collective trainings, settings with common directories, and regions of any names", "why_tests_cant": "quantifies over interleavings of ranks and over all names of regions and models; no test looks at files with several ranks", "anchors": ["src/Region.cpp:66-100, 120-134, 294-387, 407-428", "src/Apollo.cpp:240-262, 430-463"]}
{"id": "C98", "title": "Trained models answer for any floats", "statement": "A trained model answers for features that are any floats: infinities, negative zero and NaN as well as finite ones. A tree or forest answers as if infinities were numbers beyond all thresholds, negative zero were zero and NaN the positive infinity; its answer is the best policy of some measured features (tree) or a policy of the region (forest), and compiled code answers as the interpreted tree does. DatasetMap answers with the best policy for measured features that are the same numbers and aborts for all others. (False for DatasetMap and NaN: it answers with the policy of other features, and what it answers depends on the shape of the search tree. Proved for features without NaN; for all features it aborts or answers with a best policy of some measured features.)", "quantifier": "all training histories, models, orders of equal elements in sorting, random draws, feature vectors of floats, and shapes of the search tree", "why_tests_cant": "NaN and infinite features are not tested; the claim is about all vectors of floats and all trained models", "anchors": ["src/models/impl/DecisionTreeImpl.cpp:191-198, 300-311", "src/models/impl/RandomForestImpl.cpp:175-193", "src/models/DatasetMap.cpp:14-24"]}
{"id": "C99", "title": "analyze-traces.py reports the measured times, speedups and accuracies", "statement": "For trace files that Apollo wrote, analyze-traces.py reports for every kind of model the sum of the execution times of its rows, the sum of the best times over all measured features, the speedups of all of them over the fastest static policy, and for each option the percentage of rows whose policy is the best one, or nearly as fast, for their features. The optimal time is no larger than that of the fastest static policy, and the rows of an option are those of the trained model. (False: the sums are in double arithmetic and in different orders, so that the optimal time can be the larger one; and all rows of a region that trains a tree are labelled with the tree, also those of the exploration. Proved: what is reported, with the sums as Python computes them; that accuracies are between 0 and 100 and 100 for runs that replay the best policies; and that the optimal time is smallest for exact sums.)", "quantifier": "all sets of trace files of any regions, features, policies and times, and any way to add a list of numbers", "why_tests_cant": "the script is run by hand on results of experiments and its numbers are not compared with anything; the claim is about all traces", "anchors": ["src/python/analysis/analyze-traces.py:36-135, 166-284", "src/Region.cpp:120-134"]}
{"id": "C100", "title": "Tuning a region in two runs finds the fastest policies", "statement": "If a first run of a program executes a region with the model RoundRobin and records its executions, by traces from which create-dataset.py makes the dataset or by persistent datasets, and the time of an execution depends only on its features and policy, then a second run with the model DatasetMap, which finds the dataset, gets for all features of the first run, in any order and number, the fastest policy. (False: the first run takes the policies in turn over all features, so that a policy may never be tried with some features; and with persistent datasets the second run aborts if there are two or more features. Proved: the second run gets the first of the fastest policies among those tried with the features, these are all policies exactly if the features cover them, and features that repeat in the same order cover them exactly if the number of features and the number of policies have no common factor.)", "quantifier": "all regions, numbers of policies, features and sequences of executions of both runs, all clocks and times with six digits", "why_tests_cant": "tuning is tried on single programs whose loops happen to cover the policies; which sequences do is a statement about all sequences, and the claim spans two processes and a script", "anchors": ["src/models/RoundRobin.cpp:16-54", "src/models/DatasetMap.cpp:14-32", "src/Region.cpp:247-428", "src/python/modeling/create-dataset.py"]}
{"id": "C101", "title": "Exhaustive experiments lead to the fastest policy of every execution", "statement": "If run-exhaustive.py runs a program that executes a region, with every static policy and with RoundRobin, then all runs succeed and leave the traces of the static policies, one of RoundRobin and one of the process; analyze-traces.py --nstatic N --write-opt, in whatever order the directory is listed, finds exactly the traces of the static policies in the order of the policies and writes one file for the region, however equal times are sorted; and the program run with the model Optimal and this file gets in every execution the policy of the run that was fastest in the execution with this number. If the times depend only on the features and the policy and N is at least the number of policies, it is the fastest of all policies. With a region whose name looks like a model the search also finds other traces, and the option --load never finds traces whose names have no capital L.", "quantifier": "all numbers of policies and runs, regions with ordinary names without = and /, numbers of features, sequences of executions, clocks of every run with times of six digits, directories before the runs, orders of listing and of sorting", "why_tests_cant": "an experiment takes N+1 processes and two scripts on a file system; that the search pattern of policy 1 does not find policy 11, or traces left by other runs, is a statement about all names and directories", "anchors": ["src/python/analysis/run-exhaustive.py:9-30", "src/python/analysis/analyze-traces.py:24-33", "src/python/analysis/analyze-traces.py:166-249", "src/Apollo.cpp:120-258", "src/Region.cpp:247-428"]}
{"id": "C102", "title": "Decision trees trained with infinities and NaN", "statement": "Training a decision tree with features that are floats without NaN succeeds if the same features have the same class, and treats infinities as numbers beyond all others: the tree is, apart from thresholds, the one trained with such numbers in their places (without infinities also the thresholds are the same). Every sample is routed to the node that was built from it. A feature with a NaN and two different numbers makes the comparison no ordering and training has undefined behaviour. Whenever training succeeds, the tree answers all features of the right length. The part about routing is false with a negative infinity or a NaN: the threshold is then the negative infinity or NaN and all features go right.", "quantifier": "all lists of samples with features of any float values, all conforming sorts, all depths, all classes of earlier trainings", "why_tests_cant": "the results depend on the order in which std::sort leaves equivalent elements and undefined behaviour may show as anything; a test sees one library and a few samples", "anchors": ["src/models/impl/DecisionTreeImpl.cpp:54-96", "src/models/impl/DecisionTreeImpl.cpp:256-311", "src/models/impl/DecisionTreeImpl.cpp:313-414"]}
{"id": "C103", "title": "rfc2dot_opencv.py draws all saved forests of OpenCV", "statement": "For every forest that OpenCV saves (the nodes of each tree in pre-order with their depths), rfc2dot_opencv.py writes a graph in the language of dot that has one node for each node of each tree, labelled with what was saved of it, one arrow from each node to each of its children, and one arrow from the box of the settings to each root.", "quantifier": "all forests of any number of binary trees of any shape, all values saved with their nodes, all settings", "why_tests_cant": "whether the script succeeds depends on the shape of the trees; a forest whose roots have leaves as right children is drawn", "anchors": ["src/python/analysis/rfc2dot_opencv.py:6-37", "src/python/analysis/rfc2dot_opencv.py:40-70", "src/python/analysis/rfc2dot_opencv.py:72-107"]}
{"id": "C104", "title": "Candidates of ranges of floating-point numbers", "statement": "For a range of floating-point numbers with a positive step, the candidates that the Kokkos connector makes lie in the declared range (without ends that are open), never decrease, and the k-th is lower + k*step up to the rounding of doubles and the 1E-24 that the connector adds; each such value that lies a step below the upper end has its candidate.", "quantifier": "all ranges with ends and steps of type double (positive step) whose number of candidates fits in an int, all indices", "why_tests_cant": "the claim is about rounding errors for all doubles; the cases where an open end is reached need steps near the distance of neighbouring doubles", "anchors": ["src/connectors/kokkos/kokkos-connector.cpp:73-76", "src/connectors/kokkos/kokkos-connector.cpp:89-101", "src/connectors/kokkos/kokkos-connector.cpp:174-183"]}
{"id": "C105", "title": "Labels of plot-trace.py", "statement": "For the trace of a region, plot-trace.py draws for each feature value and each policy a bar labelled with the mean execution time, in milliseconds as its title says, of exactly those executions with this feature and policy in the part of the trace that the chart shows; the titles give the model and the numbers of executions shown.", "quantifier": "all traces with at least one feature whose numbers survive six digits, all numbers of training executions that leave rows for both charts, all model descriptions without '-', all behaviours of the mean", "why_tests_cant": "the labels are a flat list that is cut into groups by a stride; a wrong order or unit gives plausible pictures, and every combination of missing features and policies would have to be drawn", "anchors": ["src/python/analysis/plot-trace.py:12-40", "src/python/analysis/plot-trace.py:50-80", "src/Region.cpp:384-400"]}
{"id": "C106", "title": "Models backed by OpenCV", "statement": "With OpenCV a decision tree or random forest is trained with one row for each feature vector measured, labelled with the policy best for it; afterwards the model answers policies of the region; a model that is loaded from a file answers as the model stored there; and the time model of APOLLO_RETRAIN_ENABLE predicts the measured times.", "quantifier": "all OpenCVs that classify, average and load what they saved, all measurements, numbers of policies, files, regions and worlds", "why_tests_cant": "OpenCV is off in the tested build; the pointer returned by load is dropped and the bits of ints are read as floats without any diagnostic, so tests would have to compare predictions of restored models and times", "anchors": ["src/models/DecisionTree.cpp:35-127", "src/models/RandomForest.cpp:36-131", "src/models/RegressionTree.cpp:17-127", "src/Region.cpp:81-112"]}
{"id": "C107", "title": "A kernel tuned by the Kokkos connector settles on the fastest candidates", "statement": "A kernel whose tuning variables are asked for again and again tries the combinations of candidates in turn until the first training, and from then on gets a combination that is fastest for the values of its context variables.", "quantifier": "all declarations, numbers of variables and candidates, values of context variables, flush intervals, clocks, models set in the environment, sort orders and random numbers", "why_tests_cant": "the outcome depends on measured times and on how many runs precede the flush; tests run a few kernels with one value of the context and cannot tell a candidate that is never tried from one that is slow", "anchors": ["src/connectors/kokkos/kokkos-connector.cpp:327-343", "src/connectors/kokkos/kokkos-connector.cpp:460-601", "src/Region.cpp:60-180", "src/models/DecisionTree.cpp:56-118", "src/models/RandomForest.cpp:56-122"]}
{"id": "C108", "title": "Kernels measured by the Kokkos connector are fenced", "statement": "Whenever the end of a context adds a measurement to a region, every kernel that ran between the request and the end was fenced on its device at its begin and at its end, if Kokkos provided a fence.", "quantifier": "all histories of declarations, requests, ends of contexts and kernels of the three kinds, nested contexts, devices, flush intervals and models", "why_tests_cant": "kernels run asynchronously only on devices; on a host test an unfenced kernel gives the same times, and the counter that decides about fences is wrong only after a flush inside an open context or with variables that share a name", "anchors": ["src/connectors/kokkos/kokkos-connector.cpp:327-343", "src/connectors/kokkos/kokkos-connector.cpp:358-420", "src/connectors/kokkos/kokkos-connector.cpp:505-601"]}
{"id": "C109", "title": "The execution report counts every region", "statement": "When the library shuts down with APOLLO_STORE_EXEC_INFO, apollo_exec_info.csv has for every region a line with its name and the number of executions it began, and nothing written later changes the file.", "quantifier": "all programs, regions, names, settings, executions in any order, executions still pending at the end", "why_tests_cant": "tests do not read the file; a wrong count, a missing region or a file overwritten by the destructors of the regions would pass them all", "anchors": ["src/Apollo.cpp:240-262", "src/Region.cpp:407-450"]}
{"id": "C110", "title": "The test programs for devices record the time of each execution on the device", "statement": "test-cuda and test-hip, which put an asynchronous timer into the context that begin() returned, run to their end, and for every execution the time is recorded that passed on the device from the start of the timer to its end.", "quantifier": "all streams of a device that keep the promises of the runtime, all numbers of executions, policies and problem sizes, all clocks of the host", "why_tests_cant": "whether the device has executed the record of the end when it is asked depends on its speed; a test on one machine sees one such speed, and a variable without a value may hold a plausible number", "anchors": ["test/test-cuda.cpp:76-122", "test/test-hip.cpp:79-125", "src/Region.cpp:437-483", "src/Region.cpp:569-580", "src/timers/TimerCudaAsync.cpp:41-64", "src/timers/TimerHipAsync.cpp:41-65"]}
{"id": "C111", "title": "The file of the trace of a region holds all its rows in the end", "statement": "With APOLLO_TRACE_CSV, however and whenever the stream library writes its buffers, once the regions that Apollo knows have been destroyed the file of the trace of every region reads as the table with one row for each execution of the region.", "quantifier": "all programs, any number of regions with any names and models, all moments at which parts of buffers are written", "why_tests_cant": "when buffers are written depends on their size and on the library; a test sees complete files of short runs, and regions that share a file are not expected", "anchors": ["src/Region.cpp:383-413", "src/Region.cpp:511-526", "src/Apollo.cpp:242-258", "include/apollo/Region.h:76-150"]}
{"id": "C112", "title": "The trace of the process has one line for each execution of any region", "statement": "With APOLLO_TRACE_CSV, the trace of the process has after its first line one line for each finished execution of any region, in the order in which executions finish, with the time, the name of the region, the number of the execution in its region, the name of the model of the region and the policy that was asked for; the times are readings of the clock in order, and the lines of one region are its own rows in order.", "quantifier": "all programs whose executions are proper, any number of regions, synchronous and asynchronous executions, regions that were destroyed included", "why_tests_cant": "lines of several regions interleave in ways that depend on timers; a test reads the file of one short run", "anchors": ["src/Region.cpp:510-515", "src/Apollo.cpp:226-235", "src/Apollo.cpp:258"]}
{"id": "C113", "title": "Regions follow their own events", "statement": "What a region holds at any time, its model and its measurements, follows from its own events since it was created, read one after the other: each answer is the model's answer to the features of that execution, each finished execution adds its measurement if the region learns, and each training, whoever asked for it, trains the model with the measurements held; nothing else changes what the region holds.", "quantifier": "all programs and settings: any number of regions, synchronous and asynchronous executions, periods, collective or forced trainings, one model for all; all kinds of models", "why_tests_cant": "the trainings of one region are triggered by executions of others, by timers and by calls; no test sees all ways in which they interleave", "anchors": ["src/Region.cpp:38-113", "src/Region.cpp:470-575", "src/Apollo.cpp:475-511"]}
{"id": "C114", "title": "Every policy handed out is a turn of the explorer or the best one measured", "statement": "A region with a new decision tree or random forest and a round robin explorer hands out its policies in turn until its model is first trained, and from then on only policies that were the fastest measured for one of its feature vectors at the first training, a tree always the smallest of them; the first training is on all measurements of the region so far, and nothing that happens later changes what was learned.", "quantifier": "all programs and all histories of other regions, any training settings in region model mode, also trainings by force and trainings that happen while a training is asked for; any number of policies, features and trees; datasets that are not kept in files", "why_tests_cant": "the model is trained once in a run, at a time that depends on other regions; tests look at the answer after one short history", "anchors": ["src/models/DecisionTree.cpp:86-121", "src/models/RandomForest.cpp:88-125", "src/models/RoundRobin.cpp:16-20", "src/Region.cpp:38-113", "src/Region.cpp:470-575"]}
{"id": "C115", "title": "Every kernel of a process is tuned for itself", "statement": "When many kernels are tuned in one process with the Kokkos connector, each tries the combinations of its own candidates in turn until the regions are trained, whatever the others do and however their contexts overlap; the first training settles every kernel that was measured by then on one combination, the fastest of those measured for some values of its context variables, learned only from measurements of requests for its own variables; nothing that happens later changes this.", "quantifier": "all histories of calls of Kokkos: any number of kernels and variables, nested and overlapping contexts of other kernels, any flush interval; trees and forests with default parameters; contexts of the kernel itself do not overlap, and no saved model is found", "why_tests_cant": "tests tune one kernel in a loop; the order in which kernels start, end and reach the flush interval cannot be enumerated", "anchors": ["src/connectors/kokkos/kokkos-connector.cpp:327-343", "src/connectors/kokkos/kokkos-connector.cpp:460-601", "src/Apollo.cpp:392-460", "src/models/DecisionTree.cpp:86-121", "src/models/RandomForest.cpp:88-125"]}
{"id": "C116", "title": "Strings pass through the Kokkos connector unchanged", "statement": "A string declared as a candidate is handed out as it was declared, names of variables are kept as declared, and different strings are different features.", "quantifier": "all sets of candidates, all contents of their arrays of 64 bytes, with and without a terminator, all names of any length, all hash functions", "why_tests_cant": "tests use short strings; an array that is filled completely, or two strings with equal hashes, are not found by trying", "anchors": ["src/connectors/kokkos/kokkos-connector.cpp:109-163", "src/connectors/kokkos/kokkos-connector.cpp:422-458", "src/connectors/kokkos/kokkos-connector.cpp:484-499", "src/connectors/kokkos/kokkos-connector.cpp:574-582", "src/connectors/kokkos/include/impl/Kokkos_Profiling_C_Interface.h:163-175"]}
{"id": "C117", "title": "Timings are accurate to a nanosecond", "statement": "The time recorded for a synchronous execution differs from the time between the two readings of the clock by less than a nanosecond, whatever happens in between; of two executions the faster one is measured as faster; a time trace prints the time of its block in microseconds, rounded.", "quantifier": "all readings of the clock, all states and all calls between begin and end, doubles with rounding", "why_tests_cant": "the clock is converted to a double before the difference is taken: the loss depends on how long the machine runs, and no test waits for months", "anchors": ["src/timers/TimerSync.cpp:12-30", "src/helpers/TimeTrace.h:17-36", "src/Region.cpp:468-483", "src/Region.cpp:569-580"]}
{"id": "C118", "title": "The pictures of an analysis show every rank", "statement": "With --plot analyze-traces.py saves for every rank a picture with a bar for the time of each model and of the optimal choice, labelled with the time, and with the speedups and accuracies; --plot2 saves a picture for every region. The script succeeds whenever the report does, whatever the path of the directory with the traces is.", "quantifier": "all traces that Apollo wrote, all numbers of ranks, all names of directories, every way to add numbers and to order equal times", "why_tests_cant": "pictures are looked at, not compared, and a script for analysis is tried in the current directory with a single process", "anchors": ["src/python/analysis/analyze-traces.py:286-331", "src/python/analysis/analyze-traces.py:14-22", "src/python/analysis/analyze-traces.py:162-163"]}
{"id": "C119", "title": "A network may explore for a tree or a forest", "statement": "A tree or forest created with explore=PolicyNet explores with a network that has the default parameters and is never trained: until the first training each policy is the one that the next number drawn selects among the policies, with the probabilities that the weights drawn at the creation give for the bits of the features, whatever was asked before. Once trained or loaded, nothing is left of the explorer: answers, names and stored files are those of the same tree or forest with any other explorer. Programs that keep to the interface never fail with such models, and get policies in range.", "quantifier": "all model strings for trees and forests with this explorer, all weights and numbers drawn, all sequences of features, all datasets, all programs of any length that follow the rules; the probabilities in exact arithmetic, everything else in any arithmetic", "why_tests_cant": "the combination of models is tried nowhere, and the policies are random", "anchors": ["src/ModelFactory.cpp:74-125", "src/models/DecisionTree.cpp:88-127", "src/models/RandomForest.cpp:90-131", "src/models/PolicyNet.cpp:532-594"]}
{"id": "C120", "title": "analyze-traces.py --plot --plot2 leaves a chart of the mean times for each region", "statement": "When the reports of all ranks succeed, analyze-traces.py with --plot and --plot2 succeeds as well and leaves, besides the picture of the last rank, one file <region>.pdf for each region with executions in the static traces, and no others. Its chart has a group for each combination of features that occurs, in ascending order, and in it for each model, in the order of their names, a bar with the mean of the times over the files of all ranks, no bar where there are no executions. Below a group the features come in the order of the names of their columns, which is that of the program exactly if there are at most ten.", "quantifier": "all static traces that Apollo can have written, on any number of ranks, with any regions, models and features, whatever else is analysed; region names without slashes and other than analysis-<dir>; any order in which pandas leaves the columns, for the order of the features a sorted one", "why_tests_cant": "the script has no tests; which file is overwritten by which rank and the order of eleven features are not seen in small runs", "anchors": ["src/python/analysis/analyze-traces.py:162-163", "src/python/analysis/analyze-traces.py:316-330"]}
{"id": "C121", "title": "the histograms of analyze-traces.py count the executions with each policy", "statement": "For every model that is analysed analyze-traces.py prints two histograms for a rank: one of a fastest choice of static executions for each region and index, and one of the executions with the trained model. Each has, for every static policy, how many of these executions had it, and together the counts are the number of executions. This needs --nstatic to be the number of policies: if it is smaller, the first policy left out counts for the last one that is not, and the others are not counted.", "quantifier": "all traces that Apollo can have written, of any number of regions, models and ranks, with any policies below --nstatic; C121_last for any policies", "why_tests_cant": "the script has no tests; that the last bin of np.histogram includes its right edge shows only with more policies than --nstatic", "anchors": ["src/python/analysis/analyze-traces.py:83-110", "src/python/analysis/analyze-traces.py:269-284"]}
{"id": "C122", "title": "Random forests trained with infinities and NaN", "statement": "Training a random forest with features that are floats without NaN succeeds if the same features have the same class, whatever numbers are drawn, and treats infinities as numbers beyond all others: each tree is, apart from thresholds, the one trained with such numbers in their places, and the forests give the same answers. Whenever training succeeds, also with NaN, the forest answers all features of the right length by a vote of its trees, and each tree votes for the least class of its bootstrap sample. If a feature has a NaN and two different numbers, whether training has undefined behaviour depends on the numbers drawn.", "quantifier": "all lists of samples with features of any float values, all sequences of drawn numbers, all numbers of trees, all depths, all conforming sorts", "why_tests_cant": "which samples meet in a bootstrap depends on the generator of the library, and undefined behaviour may show as anything", "anchors": ["src/models/impl/RandomForestImpl.cpp:23-76", "src/models/impl/RandomForestImpl.cpp:175-193"]}
{"id": "C123", "title": "PolicyNet uses features without their fractions, and only those of 64 bits", "statement": "PolicyNet answers and trains as if every feature were truncated to a whole number: features between -1 and 1, and negative zero, are 0. A feature that is NaN, infinite, -1 or less, or 2^64 or more is undefined behaviour, in training always, in getIndex unless the average reward is below the threshold.", "quantifier": "all vectors of any floats, all networks in any state, all datasets, any arithmetic of doubles", "why_tests_cant": "conversions that are undefined give some number on each machine", "anchors": ["src/models/PolicyNet.cpp:440-475", "src/models/PolicyNet.cpp:532-594"]}
{"id": "C124", "title": "Dataset files keep infinities, NaN and the sign of zero", "statement": "A dataset with at most one feature per entry, whose finite numbers have at most six significant digits, has the same entries after store and load, whatever floats its features are: infinities, NaN and negative zero are kept.", "quantifier": "all histories of measurements with any floats, all ways to balance the tree, all signs of the NaNs", "why_tests_cant": "which entry is found for a NaN depends on the order of insertions and on the shape of the tree", "anchors": ["src/Dataset.cpp:94-174", "src/helpers/Parser.cpp:105-111"]}
{"id": "C125", "title": "Infinite and NaN metrics do not hide a better policy", "statement": "Whatever doubles the metrics are, the entry of a pair is the running average of its metrics (infinite or NaN once they are), and the policy found for features has a metric that is not greater than the metric, unless NaN, of any other policy measured for them.", "quantifier": "all histories of measurements whose metrics are any doubles", "why_tests_cant": "tests measure finite times; NaN makes every comparison false, so the result depends on which policy comes first", "anchors": ["src/Dataset.cpp:14-92"]}
{"id": "C126", "title": "Dataset files load in every layout", "statement": "A dataset file in which every feature is a word of its own loads without error, whatever white space stands between the words, however many features the entries have and however they are numbered; its entries are inserted in the order of the file with their features in order.", "quantifier": "all lists of entries with any floats as features, all white space between the words, all ways to balance the tree", "why_tests_cant": "tests load only files that the library wrote, which have one layout and at most one feature", "anchors": ["src/Dataset.cpp:114-174", "src/helpers/Parser.cpp:17-51"]}
{"id": "C127", "title": "Dataset files keep infinite and NaN metrics", "statement": "A dataset with at most one feature per entry, whose finite numbers have at most six significant digits, has the same entries after store and load, whatever doubles its metrics are: infinities, NaN and negative zero are kept.", "quantifier": "all histories of measurements whose metrics are any doubles, all signs of the NaNs", "why_tests_cant": "tests measure finite times; the text of a special double is read by another branch of the standard library", "anchors": ["src/Dataset.cpp:94-174", "src/helpers/Parser.cpp:97-103"]}
{"id": "C128", "title": "Dataset files with any metrics are read in any layout", "statement": "A dataset file in which every feature is a word of its own is loaded without error, whatever white space stands between the words, however many features there are and whatever doubles the metrics are: the dataset is the one after inserting the entries in the order of the file, with infinite, NaN and negative zero metrics kept.", "quantifier": "all lists of entries, all layouts", "why_tests_cant": "the layouts of a file are unbounded, and tests have no special doubles", "anchors": ["src/Dataset.cpp:114-174", "src/helpers/Parser.cpp:97-103"]}
{"id": "C129", "title": "The layout of the files of trees and forests does not matter", "statement": "A text that has the same words as the file of a stored tree or forest behind its first line, with whatever white space between them, is loaded without error, and gives the same tree or forest object as the file itself.", "quantifier": "all trees and forests with numbers in the range of the parser, all texts with the same words, all objects loaded into", "why_tests_cant": "the layouts of a file and the shapes of trees are unbounded", "anchors": ["src/models/impl/DecisionTreeImpl.cpp:477-630", "src/models/impl/RandomForestImpl.cpp: parse_rfc", "src/helpers/Parser.cpp"]}
