{
 "claims": [
  {
   "property": "C01",
   "status": "proved",
   "theorems": [
    "Apollo.Props.C01_entry_iff",
    "Apollo.Props.C01_key_iff",
    "Apollo.Props.C01_size",
    "Apollo.Props.C01_independent",
    "Apollo.Props.C01_update_is_rounded_mean"
   ],
   "note": "Metric arithmetic is binary64 with explicit rounding."
  },
  {
   "property": "C02",
   "status": "proved",
   "theorems": [
    "Apollo.Props.C02_between_min_max",
    "Apollo.Props.C02_fails_for_subnormals"
   ],
   "note": "The second theorem shows the range restriction is needed."
  },
  {
   "property": "C03",
   "status": "proved",
   "theorems": [
    "Apollo.Props.C03_strictly_increasing",
    "Apollo.Props.C03_depends_only_on_pairs",
    "Apollo.Props.C03_permutation",
    "Apollo.Props.C03_file"
   ],
   "note": ""
  },
  {
   "property": "C04",
   "status": "proved",
   "theorems": [
    "Apollo.Props.C04_best_policy"
   ],
   "note": ""
  },
  {
   "property": "C05",
   "status": "proved",
   "theorems": [
    "Apollo.Props.C05_merge",
    "Apollo.Props.C05_merge_self",
    "Apollo.Props.C05_stored_normal",
    "Apollo.Props.C05_load_twice"
   ],
   "note": ""
  },
  {
   "property": "C06",
   "status": "partial",
   "theorems": [
    "Apollo.Props.C06_fails_with_two_features",
    "Apollo.Props.C06_load_store_partial",
    "Apollo.Props.C06_reader_partial",
    "Apollo.Props.C06_exact_partial",
    "Apollo.Props.C06_loses_digits",
    "Apollo.Props.C06_tiny_metric_throws"
   ],
   "note": "False of the code: datasets with two or more features never load; six digits; the partial theorems cover stored files with at most one feature, and files with blanks between any number of features."
  },
  {
   "property": "C07",
   "status": "proved",
   "theorems": [
    "Apollo.Props.C07_truncated_never_loads"
   ],
   "note": "Reading past the end of the stream is an error outcome of the model (undefined in C++, a crash or abort with libstdc++)."
  },
  {
   "property": "C08",
   "status": "partial",
   "theorems": [
    "Apollo.Props.C08_tokenizer_partial",
    "Apollo.Props.C08_end_of_stream_undefined"
   ],
   "note": "Undefined behaviour only when the stream is not empty and ends before a token ends (Unfinished)."
  },
  {
   "property": "C09",
   "status": "proved",
   "theorems": [
    "Apollo.Props.C09_double",
    "Apollo.Props.C09_float",
    "Apollo.Props.C09_six_digits_survive",
    "Apollo.Props.C09_integers_survive",
    "Apollo.Props.C09_loses_beyond_six_digits"
   ],
   "note": ""
  },
  {
   "property": "C10",
   "status": "proved",
   "theorems": [
    "Apollo.Props.C10_in_range",
    "Apollo.Props.C10_too_large",
    "Apollo.Props.C10_negative_throws",
    "Apollo.Props.C10_default"
   ],
   "note": ""
  },
  {
   "property": "C11",
   "status": "proved",
   "theorems": [
    "Apollo.Props.C11_sequence",
    "Apollo.Props.C11_fair"
   ],
   "note": ""
  },
  {
   "property": "C12",
   "status": "proved",
   "theorems": [
    "Apollo.Props.C12_in_range",
    "Apollo.Props.C12_all_possible"
   ],
   "note": "The generator is an arbitrary stream of numbers; uniform_int_distribution is modelled as some function of it onto the range."
  },
  {
   "property": "C13",
   "status": "proved",
   "theorems": [
    "Apollo.Props.C13_replay",
    "Apollo.Props.C13_loads",
    "Apollo.Props.C13_empty"
   ],
   "note": ""
  },
  {
   "property": "C14",
   "status": "proved",
   "theorems": [
    "Apollo.Props.C14_best"
   ],
   "note": ""
  },
  {
   "property": "C15",
   "status": "proved",
   "theorems": [
    "Apollo.Props.C15_explores",
    "Apollo.Props.C15_settles",
    "Apollo.Props.C15_never_back"
   ],
   "note": ""
  },
  {
   "property": "C16",
   "status": "proved",
   "theorems": [
    "Apollo.Props.C16_any_models",
    "Apollo.Props.C16_any_trained",
    "Apollo.Props.C16_any_own",
    "Apollo.Props.C16_models",
    "Apollo.Props.C16_trained",
    "Apollo.Props.C16_own",
    "Apollo.Props.C16_loaded_tree"
   ],
   "note": "C16_any_* cover all models, PolicyNet with any arithmetic (PolicyNet as explorer of a tree or forest is not modelled). A tree loaded from a file can answer out of range (C16_loaded_tree), which the property does not exclude."
  },
  {
   "property": "C17",
   "status": "partial",
   "theorems": [
    "Apollo.Props.C17_fails",
    "Apollo.Props.C17_always_smallest",
    "Apollo.Props.C17_single_best_partial",
    "Apollo.Props.C17_leaf_partial"
   ],
   "note": "False: every node predicts the smallest class seen (the constructor reads a vector it has moved from). Proved: the negation with a witness, what is returned instead, and that leaves are pure."
  },
  {
   "property": "C18",
   "status": "proved",
   "theorems": [
    "Apollo.Props.C18_shape"
   ],
   "note": ""
  },
  {
   "property": "C19",
   "status": "proved",
   "theorems": [
    "Apollo.Props.C19_order_independent"
   ],
   "note": "Feature vectors of one length."
  },
  {
   "property": "C20",
   "status": "proved",
   "theorems": [
    "Apollo.Props.C20_splits",
    "Apollo.Props.C20_root_exact"
   ],
   "note": "Impurities are the computed ones, proved to be within a stated distance of the exact ones."
  },
  {
   "property": "C21",
   "status": "proved",
   "theorems": [
    "Apollo.Props.C21_train_succeeds",
    "Apollo.Props.C21_retrain_succeeds",
    "Apollo.Props.C21_model_succeeds",
    "Apollo.Props.C21_contradictory_samples_abort"
   ],
   "note": ""
  },
  {
   "property": "C22",
   "status": "partial",
   "theorems": [
    "Apollo.Props.C22_fails",
    "Apollo.Props.C22_roomy_partial",
    "Apollo.Props.C22_spaced_partial",
    "Apollo.Props.C22_integers_partial"
   ],
   "note": "False for neighbouring floats (the rounded threshold equals the lower value); proved for all floats that are not neighbours, and without assuming floats when different values are apart by 2^-21 relative or are integers up to 2^22."
  },
  {
   "property": "C23",
   "status": "partial",
   "theorems": [
    "Apollo.Props.C23_first_training_partial",
    "Apollo.Props.C23_fails_retrained"
   ],
   "note": "Proved for the first training; false after a second training, because old classes are kept."
  },
  {
   "property": "C24",
   "status": "partial",
   "theorems": [
    "Apollo.Props.C24_trained_partial",
    "Apollo.Props.C24_exact_partial",
    "Apollo.Props.C24_between_partial",
    "Apollo.Props.C24_fails_loaded",
    "Apollo.Props.C24_tiny_feature_throws",
    "Apollo.Props.C24_load_over_trained_unsafe"
   ],
   "note": "Proved for trained trees on moderate numbers, and for all trees with six-digit thresholds; false for other thresholds and for very small numbers."
  },
  {
   "property": "C25",
   "status": "proved",
   "theorems": [
    "Apollo.Props.C25_truncated_never_loads"
   ],
   "note": ""
  },
  {
   "property": "C26",
   "status": "partial",
   "theorems": [
    "Apollo.Props.C26_trained_partial",
    "Apollo.Props.C26_exact_partial",
    "Apollo.Props.C26_fails_loaded",
    "Apollo.Props.C26_text",
    "Apollo.Props.C26_text_trained_partial",
    "Apollo.Props.C26_between_partial"
   ],
   "note": "Proved for trained trees with finite thresholds, and for all trees with six-digit thresholds; false for other thresholds. C26_text: the text of the command and of the source, read back by an independent reader, has this meaning."
  },
  {
   "property": "C27",
   "status": "proved",
   "theorems": [
    "Apollo.Props.C27_majority",
    "Apollo.Props.C27_total",
    "Apollo.Props.C27_out_of_range_aborts",
    "Apollo.Props.C27_trained_in_range"
   ],
   "note": ""
  },
  {
   "property": "C28",
   "status": "partial",
   "theorems": [
    "Apollo.Props.C28_first_training_partial",
    "Apollo.Props.C28_training_appends",
    "Apollo.Props.C28_all_bootstraps_possible",
    "Apollo.Props.C28_training_succeeds",
    "Apollo.Props.C28_fails_retrained"
   ],
   "note": "Proved for the first training; false after a second one, which appends trees to the old ones."
  },
  {
   "property": "C29",
   "status": "partial",
   "theorems": [
    "Apollo.Props.C29_trained_partial",
    "Apollo.Props.C29_exact_partial",
    "Apollo.Props.C29_wrong_number_throws",
    "Apollo.Props.C29_load_appends",
    "Apollo.Props.C29_fails_retrained"
   ],
   "note": "Proved for forests trained once on moderate numbers, and for all forests with six-digit thresholds; files of forests trained twice do not load."
  },
  {
   "property": "C30",
   "status": "proved",
   "theorems": [
    "Apollo.Props.C30_name_only",
    "Apollo.Props.C30_parse",
    "Apollo.Props.C30_undocumented_aborts"
   ],
   "note": ""
  },
  {
   "property": "C31",
   "status": "proved",
   "theorems": [
    "Apollo.Props.C31_bare",
    "Apollo.Props.C31_decisionTree",
    "Apollo.Props.C31_randomForest",
    "Apollo.Props.C31_policyNet",
    "Apollo.Props.C31_unknown_aborts",
    "Apollo.Props.C31_unknown_explorer_aborts",
    "Apollo.Props.C31_bad_number_throws"
   ],
   "note": ""
  },
  {
   "property": "C32",
   "status": "partial",
   "theorems": [
    "Apollo.Props.C32_named_partial",
    "Apollo.Props.C32_negative_throws",
    "Apollo.Props.C32_unnamed_aborts",
    "Apollo.Props.C32_long_name_aborts"
   ],
   "note": "False for region names longer than 63 characters, which the region cuts before the lookup."
  },
  {
   "property": "C33",
   "status": "proved",
   "theorems": [
    "Apollo.Props.C33_stored",
    "Apollo.Props.C33_loads",
    "Apollo.Props.C33_next_run",
    "Apollo.Props.C33_destroyed",
    "Apollo.Props.C33_policyNet",
    "Apollo.Props.policyOps_storing",
    "Apollo.Props.C33_shared_name"
   ],
   "note": "For every implementation of the model functions that stores what it is; policyOps_storing and C33_policyNet instantiate it for all models of the library. Hypotheses: distinct region names (C33_shared_name shows they are needed) and separate directories for models and datasets. DatasetMap and Optimal regions store nothing."
  },
  {
   "property": "C34",
   "status": "proved",
   "theorems": [
    "Apollo.Props.C34_count",
    "Apollo.Props.C34_collect",
    "Apollo.Props.C34_observed",
    "Apollo.Props.C34_index",
    "Apollo.Props.C34_index_with",
    "Apollo.Props.C34_index_stays"
   ],
   "note": "The wrap-around of the 64-bit counter is not modelled; 2^31 begins of one region are an overflow outcome."
  },
  {
   "property": "C35",
   "status": "proved",
   "theorems": [
    "Apollo.Props.C35_recorded",
    "Apollo.Props.C35_recorded_models",
    "Apollo.Props.C35_recorded_any",
    "Apollo.Props.C35_one",
    "Apollo.Props.C35_stale_policy"
   ],
   "note": "For executions that begin, ask for a policy and end on the same region; an execution that ends without asking records the policy of the previous execution (C35_stale_policy)."
  },
  {
   "property": "C36",
   "status": "proved",
   "theorems": [
    "Apollo.Props.C36_once",
    "Apollo.Props.C36_not_lost",
    "Apollo.Props.C36_only_ended",
    "Apollo.Props.C36_ended",
    "Apollo.Props.C36_collection",
    "Apollo.Props.C36_timer",
    "Apollo.Props.C36_destroyed",
    "Apollo.Props.C36_destructor_ends",
    "Apollo.Props.C36_destructor_ends_models"
   ],
   "note": ""
  },
  {
   "property": "C37",
   "status": "proved",
   "theorems": [
    "Apollo.Props.C37_features",
    "Apollo.Props.C37_begin_clears",
    "Apollo.Props.C37_execution"
   ],
   "note": ""
  },
  {
   "property": "C38",
   "status": "proved",
   "theorems": [
    "Apollo.Props.C38_fires",
    "Apollo.Props.C38_has_data",
    "Apollo.Props.C38_restored"
   ],
   "note": "For region model mode without collective training; periods non-negative. 'All regions' are those known to Apollo (see C40)."
  },
  {
   "property": "C39",
   "status": "proved",
   "theorems": [
    "Apollo.Props.C39_stops",
    "Apollo.Props.C39_trained",
    "Apollo.Props.C39_loaded"
   ],
   "note": ""
  },
  {
   "property": "C40",
   "status": "partial",
   "theorems": [
    "Apollo.Props.C40_fails",
    "Apollo.Props.C40_registered_partial",
    "Apollo.Props.C40_distinct_partial"
   ],
   "note": "False: a second region with the same first 63 characters of the name is not registered. Proved for registered regions, and for programs with distinct names and no destroyed region."
  },
  {
   "property": "C41",
   "status": "partial",
   "theorems": [
    "Apollo.Props.C41_fails_train_all",
    "Apollo.Props.C41_fails_period",
    "Apollo.Props.C41_fails_double_delete",
    "Apollo.Props.C41_others_partial"
   ],
   "note": "False: the registry keeps the destroyed region, and the global period is switched off. Proved: what the destructor leaves unchanged."
  },
  {
   "property": "C42",
   "status": "partial",
   "theorems": [
    "Apollo.Props.C42_merged_partial",
    "Apollo.Props.C42_all_registered_partial",
    "Apollo.Props.C42_fails"
   ],
   "note": "False for regions that share a name. Proved for the registered regions, which are all regions when names differ and none was destroyed."
  },
  {
   "property": "C43",
   "status": "partial",
   "theorems": [
    "Apollo.Props.C43_written",
    "Apollo.Props.C43_shutdown",
    "Apollo.Props.C43_fails",
    "Apollo.Props.C43_fails_witness",
    "Apollo.Props.C43_restart_partial",
    "Apollo.Props.C43_exact_partial",
    "Apollo.Props.C43_first_run",
    "Apollo.Props.C43_loses_digits",
    "Apollo.Props.C43_unregistered"
   ],
   "note": "False as stated: with two or more features the next run aborts (C43_fails), digits beyond the sixth are lost. What is written is proved for destroy and shutdown; reading back is proved to six digits, exactly for six-digit decimals."
  },
  {
   "property": "C44",
   "status": "proved",
   "theorems": [
    "Apollo.Props.C44_accepts",
    "Apollo.Props.C44_rejects",
    "Apollo.Props.C44_starts",
    "Apollo.Props.C44_not_a_number",
    "Apollo.Props.C44_default"
   ],
   "note": ""
  },
  {
   "property": "C45",
   "status": "proved",
   "theorems": [
    "Apollo.Props.C45_trace",
    "Apollo.Props.C45_trace_models",
    "Apollo.Props.C45_trace_net",
    "Apollo.Props.C45_header",
    "Apollo.Props.C45_columns",
    "Apollo.Props.C45_blank_in_name",
    "Apollo.Props.C45_missing_feature"
   ],
   "note": "Names without blanks and line feeds; executions that begin on the region and ask for a policy. A row has the width of the header exactly if the execution set as many features as the region has (C45_columns)."
  },
  {
   "property": "C46",
   "status": "proved",
   "theorems": [
    "Apollo.Props.C46_equivalent",
    "Apollo.Props.C46_equivalent_from",
    "Apollo.Props.C46_needs_synchronous",
    "Apollo.Props.C46_needs_no_overlap",
    "Apollo.Props.C46_latest",
    "Apollo.Props.C46_none"
   ],
   "note": ""
  },
  {
   "property": "C47",
   "status": "proved",
   "theorems": [
    "Apollo.Props.C47_metric_nonneg",
    "Apollo.Props.C47_seconds_mono",
    "Apollo.Props.C47_seconds_strict"
   ],
   "note": ""
  },
  {
   "property": "C48",
   "status": "proved",
   "theorems": [
    "Apollo.Props.C48_round_trip",
    "Apollo.Props.C48_received",
    "Apollo.Props.C48_too_many_features",
    "Apollo.Props.C48_too_few_features",
    "Apollo.Props.C48_needs_exact_sizes"
   ],
   "note": "for MPI_Pack_size answering exact sizes; C48_needs_exact_sizes shows the code relies on it; without num_features features the claim fails (two witnesses)"
  },
  {
   "property": "C49",
   "status": "proved",
   "theorems": [
    "Apollo.Props.C49_metric",
    "Apollo.Props.C49_regions",
    "Apollo.Props.C49_union",
    "Apollo.Props.C49_single",
    "Apollo.Props.C49_succeeds"
   ],
   "note": "the model runs all ranks at once; exact MPI_Pack_size; received bytes fit into an int"
  },
  {
   "property": "C50",
   "status": "partial",
   "theorems": [
    "Apollo.Props.C50_metric_partial",
    "Apollo.Props.C50_partial",
    "Apollo.Props.C50_within",
    "Apollo.Props.C50_fails"
   ],
   "note": "false for pairs measured on three or more ranks (C50_fails); proved for pairs measured on at most two"
  },
  {
   "property": "C51",
   "status": "proved",
   "theorems": [
    "Apollo.Props.C51_default",
    "Apollo.Props.C51_untrained",
    "Apollo.Props.C51_suppressed_iff",
    "Apollo.Props.C51_average",
    "Apollo.Props.C51_never",
    "Apollo.Props.C51_never_double",
    "Apollo.Props.C51_always"
   ],
   "note": "C51_default and C51_untrained for every arithmetic; the averages in exact real arithmetic, C51_never_double for double arithmetic"
  },
  {
   "property": "C52",
   "status": "proved",
   "theorems": [
    "Apollo.Props.C52_distribution",
    "Apollo.Props.C52_double",
    "Apollo.Props.C52_range",
    "Apollo.Props.C52_proportional",
    "Apollo.Props.C52_draws"
   ],
   "note": "range for every arithmetic, the distribution in exact real arithmetic and, up to (np + 2) * 2^-53, in binary64 (overflow to infinity not modelled); sampling as in libstdc++; features of the right number with values in [0, 2^64)"
  },
  {
   "property": "C53",
   "status": "partial",
   "theorems": [
    "Apollo.Props.C53_partial",
    "Apollo.Props.C53_fails"
   ],
   "note": "false: load does not clear the cache (C53_fails); proved for histories of getIndex and train after a load into a new object"
  },
  {
   "property": "C54",
   "status": "proved",
   "theorems": [
    "Apollo.Props.C54_key",
    "Apollo.Props.C54_input",
    "Apollo.Props.C54_needs_range"
   ],
   "note": ""
  },
  {
   "property": "C55",
   "status": "partial",
   "theorems": [
    "Apollo.Props.C55_round_trip",
    "Apollo.Props.C55_missing",
    "Apollo.Props.C55_truncated",
    "Apollo.Props.C55_fails"
   ],
   "note": "restoring and missing files proved; truncated files are not detected (C55_fails), C55_truncated says what is loaded"
  },
  {
   "property": "C56",
   "status": "proved",
   "theorems": [
    "Apollo.Props.C56_forward",
    "Apollo.Props.C56_backward",
    "Apollo.Props.C56_needs_actions"
   ],
   "note": "for every arithmetic; the actions trained with must be outputs of the network (C56_needs_actions)"
  },
  {
   "property": "C57",
   "status": "proved",
   "theorems": [
    "Apollo.Props.C57_gradient",
    "Apollo.Props.C57_directional",
    "Apollo.Props.C57_first_step",
    "Apollo.Props.C57_first_update"
   ],
   "note": "exact real arithmetic, where no input of an activation is zero; C57_first_step and C57_first_update say how the first update uses the gradient"
  },
  {
   "property": "C58",
   "status": "proved",
   "theorems": [
    "Apollo.Props.C58_bijection",
    "Apollo.Props.C58_safe",
    "Apollo.Props.C58_reaches",
    "Apollo.Props.C58_distinct",
    "Apollo.Props.C58_policies",
    "Apollo.Props.C58_answer",
    "Apollo.Props.C58_chosen",
    "Apollo.Props.C58_split"
   ],
   "note": "the number of policies of the region equals the number of combinations if the same variables are always divided in the same way into context and tuning variables (C58_split shows this is needed) and there are fewer than 2^31 combinations"
  },
  {
   "property": "C59",
   "status": "partial",
   "theorems": [
    "Apollo.Props.C59_partial",
    "Apollo.Props.C59_candidates",
    "Apollo.Props.C59_covers",
    "Apollo.Props.C59_upperMissing",
    "Apollo.Props.C59_fails",
    "Apollo.Props.C59_lowerMissing",
    "Apollo.Props.C59_continuous"
   ],
   "note": "false for every integer range with positive step that gets candidates (C59_fails): one candidate is always outside; proved: all candidates are the lower bound plus a multiple of the step, all but one are in the range"
  },
  {
   "property": "C60",
   "status": "proved",
   "theorems": [
    "Apollo.Props.C60_order",
    "Apollo.Props.C60_region"
   ],
   "note": "requests that were answered; more than 50 variables are undefined behaviour in the model as in the code"
  },
  {
   "property": "C61",
   "status": "proved",
   "theorems": [
    "Apollo.Props.C61_history",
    "Apollo.Props.C61_step",
    "Apollo.Props.C61_once",
    "Apollo.Props.C61_trains"
   ],
   "note": "'trains all regions' for regions with different names, trainable models and measurements (see C40)"
  },
  {
   "property": "C62",
   "status": "partial",
   "theorems": [
    "Apollo.Props.C62_partial",
    "Apollo.Props.C62_fails",
    "Apollo.Props.C62_models",
    "Apollo.Props.C62_second_run"
   ],
   "note": "false for all tuning problems (C62_fails): the path is passed as the name of a model and the program aborts; proved: the path is where the flush stores the model, and what happens without the file"
  },
  {
   "property": "C63",
   "status": "proved",
   "theorems": [
    "Apollo.Props.C63_regionId",
    "Apollo.Props.C63_callpath",
    "Apollo.Props.C63_distinct",
    "Apollo.Props.C63_injective",
    "Apollo.Props.C63_fewFrames",
    "Apollo.Props.C63_noBlank"
   ],
   "note": ""
  },
  {
   "property": "C64",
   "status": "proved",
   "theorems": [
    "Apollo.Props.C64_dataset_load_terminates",
    "Apollo.Props.C64_tree_load_terminates",
    "Apollo.Props.C64_forest_load_terminates"
   ],
   "note": ""
  },
  {
   "property": "C65",
   "status": "proved",
   "theorems": [
    "Apollo.Props.C65_truncated_never_loads"
   ],
   "note": ""
  },
  {
   "property": "C66",
   "status": "partial",
   "theorems": [
    "Apollo.Props.C66_own_partial",
    "Apollo.Props.C66_nested"
   ],
   "note": "false when two contexts of the same problem are open at the same time (C66_nested): they share the context of the region; proved when they do not overlap, with any other problems interleaved"
  },
  {
   "property": "C67",
   "status": "proved",
   "theorems": [
    "Apollo.Props.C67_fences",
    "Apollo.Props.C67_fences_models"
   ],
   "note": "histories without undefined behaviour; a fence is seen as the condition under which it is called"
  },
  {
   "property": "C68",
   "status": "partial",
   "theorems": [
    "Apollo.Props.C68_partial",
    "Apollo.Props.C68_fails",
    "Apollo.Props.C68_documented",
    "Apollo.Props.C68_ignored",
    "Apollo.Props.C68_init",
    "Apollo.Props.C68_single",
    "Apollo.Props.C68_flush_word",
    "Apollo.Props.C68_flush_zero"
   ],
   "note": "false: undefined behaviour for every list of documented options (C68_documented), and no option but the flush rate has an effect (C68_ignored, C68_init); proved: the flush rate, and the settings that are always made"
  },
  {
   "property": "C69",
   "status": "proved",
   "theorems": [
    "Apollo.Props.C69_machine",
    "Apollo.Props.C69_independent",
    "Apollo.Props.C69_global"
   ],
   "note": "the region is compared with a machine that knows a single region; hypotheses: policies are asked for and executions finished on contexts that began on the region; C69_global shows that the hypothesis on the global period is needed. C69_independent also needs that training is a function of model and data"
  },
  {
   "property": "C70",
   "status": "partial",
   "theorems": [
    "Apollo.Props.C70_observes",
    "Apollo.Props.C70_partial",
    "Apollo.Props.C70_fails",
    "Apollo.Props.C70_slash"
   ],
   "note": "false: with tracing, regions whose model string contains a slash, such as a path to load from, cannot be created (C70_fails, C70_slash); proved: a run that returns with tracing does the same without (C70_observes, no hypotheses), and the outcomes agree for names and model strings without slashes (C70_partial)"
  },
  {
   "property": "C71",
   "status": "partial",
   "theorems": [
    "Apollo.Props.C71_partial",
    "Apollo.Props.C71_writable",
    "Apollo.Props.C71_fails",
    "Apollo.Props.C71_lost",
    "Apollo.Props.C71_returns"
   ],
   "note": "false for names with a slash (C71_fails): no execution writes the file (C71_lost) and the destructor returns all the same (C71_returns); proved for other names"
  },
  {
   "property": "C72",
   "status": "partial",
   "theorems": [
    "Apollo.Props.C72_partial",
    "Apollo.Props.C72_links",
    "Apollo.Props.C72_trained_partial",
    "Apollo.Props.C72_fails",
    "Apollo.Props.C72_fails_load",
    "Apollo.Props.C72_fails_retrain",
    "Apollo.Props.C72_fails_processes",
    "Apollo.Props.C72_fails_abort"
   ],
   "note": "false: load does not compile, so that predict calls a pointer never assigned; a second training finds the library of the first one still loaded; two processes write the same file; proved for all other histories"
  },
  {
   "property": "C73",
   "status": "proved",
   "theorems": [
    "Apollo.Props.C73_answers",
    "Apollo.Props.C73_measured",
    "Apollo.Props.C73_nonneg"
   ],
   "note": "the runtime of the device is modelled by its documentation: events of one stream are recorded in order, the elapsed time is an error unless both events were recorded; programs that pass metrics themselves are excluded in C73_measured; C73_nonneg for clocks that do not go back"
  },
  {
   "property": "C74",
   "status": "partial",
   "theorems": [
    "Apollo.Props.C74_partial",
    "Apollo.Props.C74_fails"
   ],
   "note": "false when the device makes progress between two questions of the same collection (C74_fails); proved when it makes none while contexts are collected; contexts ended once, no metrics passed by the program"
  },
  {
   "property": "C75",
   "status": "proved",
   "theorems": [
    "Apollo.Props.C75_orderly",
    "Apollo.Props.C75_safe",
    "Apollo.Props.C75_succeeds",
    "Apollo.Props.C75_needs_agreement"
   ],
   "note": "gathering is one step of all ranks; exact MPI_Pack_size as in C48; the ranks have to agree on the number of features of a region (C75_needs_agreement: otherwise the second training aborts)"
  },
  {
   "property": "C76",
   "status": "partial",
   "theorems": [
    "Apollo.Props.C76_partial",
    "Apollo.Props.C76_fails"
   ],
   "note": "false for pairs known to three or more ranks (C76_fails); proved for pairs known to at most two"
  },
  {
   "property": "C77",
   "status": "partial",
   "theorems": [
    "Apollo.Props.C77_partial",
    "Apollo.Props.C77_fails"
   ],
   "note": "false when the ranks train between the measurements (C77_fails): the old value comes back from the other ranks and is averaged in again; proved when they do not, for any number of trainings afterwards"
  },
  {
   "property": "C78",
   "status": "proved",
   "theorems": [
    "Apollo.Props.C78_within"
   ],
   "note": "bounds that are zero or normal with halves that are doubles (at least 2^-1021)"
  },
  {
   "property": "C79",
   "status": "proved",
   "theorems": [
    "Apollo.Props.C79_starts",
    "Apollo.Props.C79_determined",
    "Apollo.Props.C79_only"
   ],
   "note": "conversion by stoi and stof as in C44; APOLLO_TRACE_RETRAIN and the retraining thresholds are read but not part of the modelled configuration"
  },
  {
   "property": "C80",
   "status": "partial",
   "theorems": [
    "Apollo.Props.C80_observes",
    "Apollo.Props.C80_partial",
    "Apollo.Props.C80_failures",
    "Apollo.Props.C80_fails",
    "Apollo.Props.C80_kokkos"
   ],
   "note": "false when a feature does not fit in int (C80_fails: its conversion is undefined in both traces); proved when all features fit, and in general whenever the traced run returns (C80_observes); the Kokkos connector always traces the best policies (C80_kokkos); messages on standard output are not modelled"
  },
  {
   "property": "C81",
   "status": "proved",
   "theorems": [
    "Apollo.Props.C81_trace",
    "Apollo.Props.C81_file",
    "Apollo.Props.C81_file_net",
    "Apollo.Props.C81_line",
    "Apollo.Props.C81_untouched"
   ],
   "note": "answers for contexts that have ended show what is left of the features; a trace that cannot be opened stays as it is; programs that return (features out of the range of int are undefined, see C80_fails)"
  },
  {
   "property": "C82",
   "status": "proved",
   "theorems": [
    "Apollo.Props.C82_train",
    "Apollo.Props.C82_automatic",
    "Apollo.Props.C82_files",
    "Apollo.Props.C82_unique"
   ],
   "note": "the directory of the file can be written to; the list is determined by the entries (C82_unique); trainings that return (features out of the range of int are undefined, see C80_fails)"
  },
  {
   "property": "C83",
   "status": "proved",
   "theorems": [
    "Apollo.Props.C83_confluent",
    "Apollo.Props.C83_unique",
    "Apollo.Props.C83_stuck",
    "Apollo.Props.C83_local"
   ],
   "note": "ranks have their files to themselves; an asynchronous execution found finished that ends a global training period is not modelled with MPI"
  },
  {
   "property": "C84",
   "status": "partial",
   "theorems": [
    "Apollo.Props.C84_data_partial",
    "Apollo.Props.C84_partial",
    "Apollo.Props.C84_fails",
    "Apollo.Props.C84_fails_pending",
    "Apollo.Props.C84_local",
    "Apollo.Props.C84_alone"
   ],
   "note": "false from three ranks on, because averages depend on the order (C84_fails), and with pending contexts, which are collected after the gathering (C84_fails_pending); proved if every pair was measured on at most two ranks, for trees and forests that were alike before and conforming sorts, without a global period"
  },
  {
   "property": "C85",
   "status": "partial",
   "theorems": [
    "Apollo.Props.C85_partial",
    "Apollo.Props.C85_equal",
    "Apollo.Props.C85_reasons",
    "Apollo.Props.C85_fails"
   ],
   "note": "false with a global training period, which counts the executions of each rank (C85_fails); proved without, where equal numbers of calls of Apollo::train are also necessary (C85_equal)"
  },
  {
   "property": "C86",
   "status": "proved",
   "theorems": [
    "Apollo.Props.C86_trace",
    "Apollo.Props.C86_lines",
    "Apollo.Props.C86_untraced",
    "Apollo.Props.C86_overflow"
   ],
   "note": "trainings called by the program, without a global period; features outside of the range of int are undefined (C86_overflow)"
  },
  {
   "property": "C87",
   "status": "proved",
   "theorems": [
    "Apollo.Props.C87_never_fails",
    "Apollo.Props.C87_without_destroy",
    "Apollo.Props.C87_synchronous",
    "Apollo.Props.C87_timers_done",
    "Apollo.Props.C87_answers",
    "Apollo.Props.C87_needs_features",
    "Apollo.Props.C87_needs_open",
    "Apollo.Props.C87_needs_region",
    "Apollo.Props.C87_needs_all_regions",
    "Apollo.Props.C87_needs_current",
    "Apollo.Props.C87_needs_uncollected",
    "Apollo.Props.C87_needs_policies",
    "Apollo.Props.C87_needs_model",
    "Apollo.Props.C87_needs_name",
    "Apollo.Props.C87_needs_async",
    "Apollo.Props.C87_needs_int",
    "Apollo.Props.C87_needs_own_models",
    "Apollo.Props.C87_needs_region_model",
    "Apollo.Props.C87_needs_no_retrain",
    "Apollo.Props.C87_needs_no_collective",
    "Apollo.Props.C87_needs_timers",
    "Apollo.Props.C87_needs_traces",
    "Apollo.Props.C87_needs_no_data",
    "Apollo.Props.C87_any_never_fails",
    "Apollo.Props.C87_any_without_destroy",
    "Apollo.Props.C87_any_synchronous",
    "Apollo.Props.C87_any_timers_done",
    "Apollo.Props.C87_any_answers",
    "Apollo.Props.C87_any_needs_unsigned",
    "Apollo.Props.C87_any_needs_draws"
   ],
   "note": "one process, one model per region, no retraining, data kept in memory, at most 2^19 executions per region; models loaded from files, DatasetMap and Optimal are not among the known models; a sort that conforms; the C87_any theorems include PolicyNet, whose features must be greater than -1"
  },
  {
   "property": "C88",
   "status": "partial",
   "theorems": [
    "Apollo.Props.C88_fails",
    "Apollo.Props.C88_mpi_fails",
    "Apollo.Props.C88_overhead_fails",
    "Apollo.Props.C88_simple_partial",
    "Apollo.Props.C88_expected_partial"
   ],
   "note": "false: apollo-test prints FAILED for every clock, because the trained tree gives one policy only (C88_fails, see C17), apollo-test-mpi with collective training prints it on every rank, for any number of ranks and any order in which they proceed (C88_mpi_fails), and apollo-overhead reads beyond an empty vector of features (C88_overhead_fails); proved: apollo-test-simple runs to its end, and the first pass of apollo-test finds the matching policies and the leaves count them"
  },
  {
   "property": "C89",
   "status": "partial",
   "theorems": [
    "Apollo.Props.C89_partial",
    "Apollo.Props.C89_min_partial",
    "Apollo.Props.C89_mean_partial",
    "Apollo.Props.C89_mean_min_partial",
    "Apollo.Props.C89_program",
    "Apollo.Props.C89_widths_fail",
    "Apollo.Props.C89_dirs_fail",
    "Apollo.Props.C89_single_fail",
    "Apollo.Props.C89_no_features_fail"
   ],
   "note": "false: if the first trace is not of a region with the most features the datasets of wider regions get the policy as a feature (C89_widths_fail); the directory that Apollo fills also has the trace of the process, which makes the script fail (C89_dirs_fail); mean-min with one feature and pandas 2, and aggregating a region without features (C89_single_fail, C89_no_features_fail); proved otherwise, for what pandas reads and prints of six digits"
  },
  {
   "property": "C90",
   "status": "proved",
   "theorems": [
    "Apollo.Props.C90_files",
    "Apollo.Props.C90",
    "Apollo.Props.C90_programs",
    "Apollo.Props.C90_gap_needed",
    "Apollo.Props.C90_once_needed"
   ],
   "note": "what the replay needs is shown by examples: with an execution that was begun and not ended (C90_gap_needed) or that asks twice (C90_once_needed) the policies are shifted and the replay aborts at its end"
  },
  {
   "property": "C91",
   "status": "partial",
   "theorems": [
    "Apollo.Props.C91_fails",
    "Apollo.Props.C91_entry_partial",
    "Apollo.Props.C91_ordered",
    "Apollo.Props.C91_finite",
    "Apollo.Props.C91_nan_swallows"
   ],
   "note": "false for NaN (C91_fails, C91_nan_swallows); proved for all other floats, including infinities and zeros of either sign; std::map is modelled as the search tree of libstdc++ with any rebalancing that keeps the order, and C91_finite shows that the sorted list used in the rest of the model is the same"
  },
  {
   "property": "C92",
   "status": "proved",
   "theorems": [
    "Apollo.Props.C92_tree",
    "Apollo.Props.C92_forest",
    "Apollo.Props.C92_tree_stored",
    "Apollo.Props.C92_forest_stored",
    "Apollo.Props.C92_optimal",
    "Apollo.Props.C92_throws",
    "Apollo.Props.C92_aborts"
   ],
   "note": "trained models come back from their files in the range of C24 and C29"
  },
  {
   "property": "C93",
   "status": "partial",
   "theorems": [
    "Apollo.Props.C93_fails",
    "Apollo.Props.C93_partial",
    "Apollo.Props.C93_first",
    "Apollo.Props.C93_last",
    "Apollo.Props.C93_expected_partial"
   ],
   "note": "false on the first line (the mark is one character too far to the left) and on a last line without line break (wrong line number, mark far to the right); proved for all other lines, and what is shown on these"
  },
  {
   "property": "C94",
   "status": "proved",
   "theorems": [
    "Apollo.Props.C94_tree",
    "Apollo.Props.C94_injective"
   ],
   "note": "PyYAML is modelled by a reader for the part of YAML that is used, dot by a reader for its language; what Python prints for a number is a parameter"
  },
  {
   "property": "C95",
   "status": "partial",
   "theorems": [
    "Apollo.Props.C95_partial",
    "Apollo.Props.C95_first_training_partial",
    "Apollo.Props.C95_fails_more",
    "Apollo.Props.C95_fails_fewer",
    "Apollo.Props.C95_fails_untrained",
    "Apollo.Props.C95_fails_retrained"
   ],
   "note": "false for forests that were trained again (only the first num_trees trees are drawn) or not yet (exception); proved for forests trained once and, in general, for the first num_trees trees"
  },
  {
   "property": "C96",
   "status": "partial",
   "theorems": [
    "Apollo.Props.C96_fails",
    "Apollo.Props.C96_fails_load",
    "Apollo.Props.C96_partial",
    "Apollo.Props.C96_prints_partial",
    "Apollo.Props.C96_forest_partial",
    "Apollo.Props.C96_forest_drawn_partial"
   ],
   "note": "false for every tree (a closing bracket too many); proved for forests, and for trees without the line with this bracket"
  },
  {
   "property": "C97",
   "status": "partial",
   "theorems": [
    "Apollo.Props.C97_fails",
    "Apollo.Props.C97_fails_info",
    "Apollo.Props.C97_run_partial",
    "Apollo.Props.C97_back_partial",
    "Apollo.Props.C97_unique_partial",
    "Apollo.Props.C97_names",
    "Apollo.Props.C97_plain",
    "Apollo.Props.C97_traces"
   ],
   "note": "false for persistent datasets and apollo_exec_info.csv, whose names do not have the rank (C97_fails, C97_fails_info); proved without persistent datasets, if programs do not themselves name files of other ranks; calls are atomic"
  },
  {
   "property": "C98",
   "status": "partial",
   "theorems": [
    "Apollo.Props.C98_fails",
    "Apollo.Props.C98_map_partial",
    "Apollo.Props.C98_map_any",
    "Apollo.Props.C98_tree",
    "Apollo.Props.C98_nan",
    "Apollo.Props.C98_finite",
    "Apollo.Props.C98_trained_tree",
    "Apollo.Props.C98_trained_forest",
    "Apollo.Props.C98_compiled"
   ],
   "note": "false for DatasetMap and features with NaN (C98_fails); proved for DatasetMap without NaN, for all features that it aborts or answers with a best policy of some features, and for trees, forests and compiled trees with any floats"
  },
  {
   "property": "C99",
   "status": "partial",
   "theorems": [
    "Apollo.Props.C99_report",
    "Apollo.Props.C99_counts",
    "Apollo.Props.C99_best",
    "Apollo.Props.C99_replay",
    "Apollo.Props.C99_fastest_partial",
    "Apollo.Props.C99_fails",
    "Apollo.Props.C99_fails_report",
    "Apollo.Props.C99_labels"
   ],
   "note": "false in double arithmetic (C99_fails, C99_fails_report: the optimal time is larger than that of the only policy) and because rows of the exploration have the label of the tree (C99_labels); proved: the reported numbers, bounds of the accuracies, 100 percent for replays of the best policies, and that the optimal time is smallest for sums without rounding"
  },
  {
   "property": "C100",
   "status": "partial",
   "theorems": [
    "Apollo.Props.C100_traces",
    "Apollo.Props.C100_persistent_partial",
    "Apollo.Props.C100_covered",
    "Apollo.Props.C100_untried",
    "Apollo.Props.C100_cycle",
    "Apollo.Props.C100_fails"
   ],
   "note": "false when the features do not cover the policies and, with persistent datasets, for two or more features (C100_fails, C100_untried); proved: the whole chain of first run, script and second run gets the first of the fastest policies that were tried, for any number of features with traces and for at most one with persistent datasets, and when all policies are tried (C100_covered, C100_cycle)"
  },
  {
   "property": "C101",
   "status": "proved",
   "theorems": [
    "Apollo.Props.C101",
    "Apollo.Props.C101_runs",
    "Apollo.Props.C101_found",
    "Apollo.Props.C101_fastest",
    "Apollo.Props.C101_name_needed",
    "Apollo.Props.C101_load"
   ],
   "note": "the whole chain of start of the library, N+1 runs, directory, search, script and replay; C101_name_needed shows what happens with a region named like a model, C101_load that --load finds nothing"
  },
  {
   "property": "C102",
   "status": "partial",
   "theorems": [
    "Apollo.Props.C102_same",
    "Apollo.Props.C102_succeeds",
    "Apollo.Props.C102_routed_partial",
    "Apollo.Props.C102_neg_inf_fails",
    "Apollo.Props.C102_nan_ub",
    "Apollo.Props.C102_nan_fails",
    "Apollo.Props.C102_answers"
   ],
   "note": "routing is proved without NaN and negative infinity for well separated finite values (positive infinities allowed) and refuted, for every conforming sort, with a negative infinity and with a NaN; everything else holds in full"
  },
  {
   "property": "C103",
   "status": "partial",
   "theorems": [
    "Apollo.Props.C103_partial",
    "Apollo.Props.C103_fails",
    "Apollo.Props.C103_iff",
    "Apollo.Props.C103_fails_right",
    "Apollo.Props.C103_fails_string"
   ],
   "note": "proved for the forests in which the right child of each root is a leaf; for every other forest the script is proved to end with a failed assertion"
  },
  {
   "property": "C104",
   "status": "partial",
   "theorems": [
    "Apollo.Props.C104_partial",
    "Apollo.Props.C104_closed",
    "Apollo.Props.C104_increasing",
    "Apollo.Props.C104_accurate",
    "Apollo.Props.C104_covers",
    "Apollo.Props.C104_open_lower_fails",
    "Apollo.Props.C104_open_upper_fails",
    "Apollo.Props.C104_repeats",
    "Apollo.Props.C104_ends_missing"
   ],
   "note": "proved that the candidates lie between the ends (in the range if it is closed), are ordered, accurate and cover the range; false for open ends: an open lower end is always the first candidate, an open upper end can be one"
  },
  {
   "property": "C105",
   "status": "partial",
   "theorems": [
    "Apollo.Props.C105_partial",
    "Apollo.Props.C105_programs_partial",
    "Apollo.Props.C105_file",
    "Apollo.Props.C105_units_fail",
    "Apollo.Props.C105_name_fails",
    "Apollo.Props.C105_path_fails"
   ],
   "note": "proved with microseconds for milliseconds, for all well-formed traces and for the traces that programs write; false as stated: the factor is 1e6 and the title says ms.  The name of the model is cut at its first hyphen, and the name of the file must be given without directories"
  },
  {
   "property": "C106",
   "status": "partial",
   "theorems": [
    "Apollo.Props.C106_rows_partial",
    "Apollo.Props.C106_answers_partial",
    "Apollo.Props.C106_created_partial",
    "Apollo.Props.C106_no_retrain",
    "Apollo.Props.C106_retrain_partial",
    "Apollo.Props.C106_widths_fail",
    "Apollo.Props.C106_no_features_fail",
    "Apollo.Props.C106_load_keeps",
    "Apollo.Props.C106_load_fails",
    "Apollo.Props.C106_time_fails",
    "Apollo.Props.C106_time_blind"
   ],
   "note": "rows and answers are proved when all feature vectors have the same length, at least one, and for at most 2^24 policies (otherwise training throws or is undefined); models created from a file answer as the stored one, but load leaves the model as it was, so the region throws; the time model predicts less than n * 2^-149 whatever the times are, and depends only on the best policies.  What OpenCV promises is a hypothesis (Spec/Opencv)"
  },
  {
   "property": "C107",
   "status": "partial",
   "theorems": [
    "Apollo.Props.C107_settles",
    "Apollo.Props.C107_fastest_partial",
    "Apollo.Props.C107_fails",
    "Apollo.Props.C107_untried",
    "Apollo.Props.C107_default",
    "Apollo.Props.C107_start"
   ],
   "note": "without context variables and with at most flush_interval combinations all runs after the first flush_interval get the fastest combination; in general all later runs get one and the same combination, whatever their context, and it is the fastest of those tried with the context of some run.  Missing because false of the code: two contexts with different fastest candidates (C107_fails), combinations beyond flush_interval are never tried (C107_untried), and without APOLLO_POLICY_MODEL the connector never tries anything (C107_start, C107_default).  One kernel per process; features in the range of int (else C80_fails); models DecisionTree, RandomForest and that of the options of the connector"
  },
  {
   "property": "C108",
   "status": "partial",
   "theorems": [
    "Apollo.Props.C108_device",
    "Apollo.Props.C108_measured_partial",
    "Apollo.Props.C108_models",
    "Apollo.Props.C108_nested_fails",
    "Apollo.Props.C108_names_fails"
   ],
   "note": "begin and end of a kernel fence the same device, for every history; measured kernels are fenced when models are final once trained (C108_models: all but PolicyNet), different problems have different names and at every flush all problems asked for so far had been measured.  Missing because false of the code: a flush while a context of a new problem is open (C108_nested_fails) and variables with the same name (C108_names_fails); SINGLE_MODEL and PERSISTENT_DATASETS off"
  },
  {
   "property": "C109",
   "status": "partial",
   "theorems": [
    "Apollo.Props.C109_report",
    "Apollo.Props.C109_first_partial",
    "Apollo.Props.C109_off",
    "Apollo.Props.C109_fails"
   ],
   "note": "the report has exactly one line for each name, in the order of names, with the number of executions begun by the first region of that name; the destructors of the regions do not touch it; without the setting nothing is written.  Missing because false of the code: a second region with the same name has no line (C109_fails)"
  },
  {
   "property": "C110",
   "status": "partial",
   "theorems": [
    "Apollo.Props.C110_recorded_partial",
    "Apollo.Props.C110_unready",
    "Apollo.Props.C110_fails",
    "Apollo.Props.C110_false"
   ],
   "note": "on devices that have executed the record of the end whenever they are asked, the programs run to their end and record exactly the times measured on the device.  Missing because false of the code: Region::end ignores the answer of isDone, so for every other device an unset variable is recorded (C110_unready; C110_fails gives a device that keeps all promises of the runtime, for both programs)"
  },
  {
   "property": "C111",
   "status": "partial",
   "theorems": [
    "Apollo.Props.C111_file_partial",
    "Apollo.Props.C111_models_partial",
    "Apollo.Props.C111_running",
    "Apollo.Props.C111_same_name",
    "Apollo.Props.C111_again",
    "Apollo.Props.C111_unknown",
    "Apollo.Props.C111_false"
   ],
   "note": "proved for every region that is destroyed and whose file no other region opens, whatever is written when; before, the file holds a beginning of the trace (C111_running).  Missing because false of the code: regions with the same name and model write over each other (C111_same_name), a region created again empties the file (C111_again), and a region with the name of another one is never destroyed by Apollo, so that its buffer is lost (C111_unknown)"
  },
  {
   "property": "C112",
   "status": "proved",
   "theorems": [
    "Apollo.Props.C112_trace",
    "Apollo.Props.C112_names",
    "Apollo.Props.C112_region",
    "Apollo.Props.C112_alive",
    "Apollo.Props.C112_columns"
   ],
   "note": "for all programs; names of regions and models without blanks and not empty, as words of lines are read; C112_columns is a remark: read with single blanks the lines have an empty column that the first line does not name"
  },
  {
   "property": "C113",
   "status": "proved",
   "theorems": [
    "Apollo.Props.C113_story",
    "Apollo.Props.C113_policy",
    "Apollo.Props.C113_training",
    "Apollo.Props.C113_one_way"
   ],
   "note": "for all programs, settings and kinds of models; features and policies of an execution are those the observer knows as long as its context is open"
  },
  {
   "property": "C114",
   "status": "proved",
   "theorems": [
    "Apollo.Props.C114_turns",
    "Apollo.Props.C114_best"
   ],
   "note": "for all programs after the creation of the region; C114_best: executions of the region are proper (a policy was asked for on an open context), feature vectors have one length and measured policies are in range, which C16_own shows for contexts asked on their own region"
  },
  {
   "property": "C115",
   "status": "partial",
   "theorems": [
    "Apollo.Props.C115_turns",
    "Apollo.Props.C115_best_partial",
    "Apollo.Props.C115_fastest_partial",
    "Apollo.Props.C115_names_fails"
   ],
   "note": "the turns are proved for all histories; settling is proved for kernels whose region has a name of its own.  Missing because false of the code: of two regions with the same name only the first is registered and trained, and the kernel of the other explores for ever (C115_names_fails)"
  },
  {
   "property": "C116",
   "status": "partial",
   "theorems": [
    "Apollo.Props.C116_values",
    "Apollo.Props.C116_values_partial",
    "Apollo.Props.C116_beyond",
    "Apollo.Props.C116_feature_partial",
    "Apollo.Props.C116_name_partial",
    "Apollo.Props.C116_region_name",
    "Apollo.Props.C116_hash_fails",
    "Apollo.Props.C116_fails",
    "Apollo.Props.C116_fails_value"
   ],
   "note": "the bytes handed out are proved to be those declared, for all strings; reading them is proved for strings of less than 64 characters.  Missing because false of the code: a name or a value of 64 characters is read beyond what was written (C116_fails, C116_fails_value, C116_beyond), and for every hash function there are different strings that are the same feature (C116_hash_fails)"
  },
  {
   "property": "C117",
   "status": "partial",
   "theorems": [
    "Apollo.Props.C117_metric_partial",
    "Apollo.Props.C117_nanosecond_partial",
    "Apollo.Props.C117_execution_partial",
    "Apollo.Props.C117_order_partial",
    "Apollo.Props.C117_trace_partial",
    "Apollo.Props.C117_fails"
   ],
   "note": "a bound on the error is proved for every uptime; it is below a nanosecond for 48 days.  Missing because false of the code: after a year three nanoseconds are measured as none (C117_fails)"
  },
  {
   "property": "C118",
   "status": "partial",
   "theorems": [
    "Apollo.Props.C118_last_partial",
    "Apollo.Props.C118_fails",
    "Apollo.Props.C118_speedups_fails",
    "Apollo.Props.C118_path_fails",
    "Apollo.Props.C118_plot2_fails"
   ],
   "note": "the picture of the last rank is proved to be left and to show its times and accuracies.  Missing because false of the code: the ranks share one file (C118_fails), the speedups are overwritten (C118_speedups_fails), a path with a slash ends the script (C118_path_fails), and so does --plot2 alone (C118_plot2_fails).  The contents of the pictures of --plot2 are not modelled"
  },
  {
   "property": "C119",
   "status": "proved",
   "theorems": [
    "Apollo.Props.C119_created",
    "Apollo.Props.C119_others",
    "Apollo.Props.C119_explores",
    "Apollo.Props.C119_trained",
    "Apollo.Props.C119_loaded",
    "Apollo.Props.C119_never_fails",
    "Apollo.Props.C119_timers_done",
    "Apollo.Props.C119_answers",
    "Apollo.Props.C119_needs_unsigned"
   ],
   "note": "the policies while exploring are proved in exact arithmetic and for at least two policies (with one policy nothing is drawn); features must be greater than -1 while the network explores (C119_needs_unsigned)"
  },
  {
   "property": "C120",
   "status": "proved",
   "theorems": [
    "Apollo.Props.C120",
    "Apollo.Props.C120_without",
    "Apollo.Props.C120_order",
    "Apollo.Props.C120_needs_plain",
    "Apollo.Props.C120_needs_plot",
    "Apollo.Props.C120_needs_other"
   ],
   "note": "a slash in the name of a region ends the script (C120_needs_plain) and a region analysis-<dir> replaces the picture of the ranks (C120_needs_other); with more than ten features those below the groups are not in the order of the program (C120_order)"
  },
  {
   "property": "C121",
   "status": "proved",
   "theorems": [
    "Apollo.Props.C121",
    "Apollo.Props.C121_last",
    "Apollo.Props.C121_total",
    "Apollo.Props.C121_needs_static"
   ],
   "note": "policies must be among the static ones (C121_needs_static); C121_last says what is counted otherwise"
  },
  {
   "property": "C122",
   "status": "proved",
   "theorems": [
    "Apollo.Props.C122_same",
    "Apollo.Props.C122_succeeds",
    "Apollo.Props.C122_answers",
    "Apollo.Props.C122_nan"
   ],
   "note": "the numbers drawn are a parameter; that each tree always votes for the same class follows from the defect of C17"
  },
  {
   "property": "C123",
   "status": "proved",
   "theorems": [
    "Apollo.Props.C123",
    "Apollo.Props.C123_undefined",
    "Apollo.Props.C123_which",
    "Apollo.Props.C123_train",
    "Apollo.Props.C123_train_undefined"
   ],
   "note": ""
  },
  {
   "property": "C124",
   "status": "partial",
   "theorems": [
    "Apollo.Props.C124_reload",
    "Apollo.Props.C124_fails",
    "Apollo.Props.C124_exact_partial",
    "Apollo.Props.C124_two_features"
   ],
   "note": "false with NaN: reading merges entries (C124_fails); proved without NaN, and what is inserted with NaN (C124_reload)"
  },
  {
   "property": "C125",
   "status": "partial",
   "theorems": [
    "Apollo.Props.C125_entry",
    "Apollo.Props.C125_fails",
    "Apollo.Props.C125_best_partial",
    "Apollo.Props.C125_numbers_partial"
   ],
   "note": "false when the least policy has the metric NaN: it is chosen (C125_fails); otherwise proved, with infinities and other NaNs; the choice is characterised in all cases (C125_best_partial)"
  },
  {
   "property": "C126",
   "status": "proved",
   "theorems": [
    "Apollo.Props.C126_layout"
   ],
   "note": "numbers in the normal ranges, written as the standard library does; generalises C06_reader_partial"
  },
  {
   "property": "C127",
   "status": "proved",
   "theorems": [
    "Apollo.Props.C127_exact",
    "Apollo.Props.C127_reload"
   ],
   "note": "C127_reload: the same at six significant digits for other numbers"
  },
  {
   "property": "C128",
   "status": "proved",
   "theorems": [
    "Apollo.Props.C128_layout"
   ],
   "note": "finite numbers in the normal ranges, written as the standard library does"
  },
  {
   "property": "C129",
   "status": "proved",
   "theorems": [
    "Apollo.Props.C129_tree",
    "Apollo.Props.C129_forest"
   ],
   "note": "numbers in the range of the parser; forests with the same number of policies (others are refused, C29_wrong_number_throws)"
  }
 ]
}