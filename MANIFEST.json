{
 "claims": [
  {
   "property": "C01",
   "status": "proved",
   "theorems": [
    "Rml.C01_index_in_range"
   ],
   "note": "For numBits <= 31; numBits >= 32 overflows the shift in the code (DESIGN.md findings)."
  },
  {
   "property": "C02",
   "status": "proved",
   "theorems": [
    "Rml.C02_interaction",
    "Rml.C02_quadratic_index",
    "Rml.C02_cubic_index"
   ],
   "note": "Any number of terms; plus the quadratic and cubic index against Feature::hash."
  },
  {
   "property": "C03",
   "status": "partial",
   "theorems": [
    "Rml.C03_inverse_hash_partial",
    "Rml.C03_default_namespace_false",
    "Rml.C03_default_namespace_iff"
   ],
   "note": "Holds for every namespace name other than the default aliases; refuted for the default namespace (C03_default_namespace_false)."
  },
  {
   "property": "C04",
   "status": "proved",
   "theorems": [
    "Rml.C04_weight_access_in_bounds",
    "Rml.C04_new_succeeds"
   ],
   "note": "Both profiles, after any history of writes."
  },
  {
   "property": "C05",
   "status": "proved",
   "theorems": [
    "Rml.C05_slots_independent"
   ],
   "note": "Any history of writes from a new table."
  },
  {
   "property": "C06",
   "status": "proved",
   "theorems": [
    "Rml.C06_sparse_vector_roundtrip",
    "Rml.C06_sparse_vector_exact",
    "Rml.C06_table_roundtrip"
   ],
   "note": "Every vector, including negative zeros and NaN: value by value the same except that -0.0 becomes 0.0; exact if there is none."
  },
  {
   "property": "C07",
   "status": "proved",
   "theorems": [
    "Rml.C07_nested_roundtrip",
    "Rml.C07_nested_exact"
   ],
   "note": "Every table made by a history of writes, every iteration order of the hash map."
  },
  {
   "property": "C08",
   "status": "proved",
   "theorems": [
    "Rml.C08_ieee",
    "Rml.C08_untouched",
    "Rml.C08_rewrite_inverse",
    "Rml.C08_json_same_behaviour",
    "Rml.C08_nonfinite_panics"
   ],
   "note": "C08_untouched and C08_rewrite_inverse range over all documents; C08_json_same_behaviour is end to end for every stack and history. C08_nonfinite_panics: JSON has no NaN or infinity, so serialize_to_json panics on such a weight."
  },
  {
   "property": "C09",
   "status": "partial",
   "theorems": [
    "Rml.C09_append_remove_partial",
    "Rml.C09_exact",
    "Rml.C09_empty_namespace_false"
   ],
   "note": "C09_exact: appending and then removing always succeeds, and it restores the example exactly when no namespace of the shared features is visible but empty in the example. C09_append_remove_partial is the restoring half in terms of single namespaces; C09_empty_namespace_false is the failure."
  },
  {
   "property": "C10",
   "status": "proved",
   "theorems": [
    "Rml.C10_refines_map",
    "Rml.C10_reachable_wf",
    "Rml.C10_set_inactive_quirk"
   ],
   "note": "Refinement to a map for every sequence of API calls; set_namespace with an inactive namespace is recorded as a quirk (C10_set_inactive_quirk)."
  },
  {
   "property": "C11",
   "status": "partial",
   "theorems": [
    "Rml.C11_recycled_partial",
    "Rml.C11_reserve_false",
    "Rml.C11_namespaces_false"
   ],
   "note": "Everything reported by an example built in a recycled object equals a fresh one; refuted for the namespaces iterator and the reserve precondition of debug builds."
  },
  {
   "property": "C12",
   "status": "proved",
   "theorems": [
    "Rml.C12_each_feature_once",
    "Rml.C12_read_pass_folds",
    "Rml.C12_write_pass_visits_same"
   ],
   "note": "Counting statement for the visited features plus fold statements for the read and write passes."
  },
  {
   "property": "C13",
   "status": "proved",
   "theorems": [
    "Rml.C13_quadratic_distinct",
    "Rml.C13_quadratic_same",
    "Rml.C13_quadratic_missing"
   ],
   "note": "Exact enumeration for different namespaces, unordered pairs exactly once for equal ones, nothing for missing ones."
  },
  {
   "property": "C14",
   "status": "partial",
   "theorems": [
    "Rml.C14_cubic_distinct_partial",
    "Rml.C14_cubic_first_two_equal_partial",
    "Rml.C14_exact",
    "Rml.C14_all_equal_covers_partial",
    "Rml.C14_false_last_two_equal",
    "Rml.C14_false_all_equal"
   ],
   "note": "Proved when the last two namespaces differ; refuted when they coincide (C14_false_*), where the code skips by the wrong loop index. C14_exact says exactly which combinations are visited, for every choice of namespaces."
  },
  {
   "property": "C15",
   "status": "proved",
   "theorems": [
    "Rml.C15_compile_interactions"
   ],
   "note": ""
  },
  {
   "property": "C16",
   "status": "partial",
   "theorems": [
    "Rml.C16_same_namespace_partial",
    "Rml.C16_default_alias_false",
    "Rml.C16_resolution_injective"
   ],
   "note": "Holds for names that are not aliases of the default namespace; refuted for the aliases."
  },
  {
   "property": "C17",
   "status": "proved",
   "theorems": [
    "Rml.C17_min_prob_distribution"
   ],
   "note": "Exact arithmetic over any linearly ordered field."
  },
  {
   "property": "C18",
   "status": "proved",
   "theorems": [
    "Rml.C18_keeps_ranking",
    "Rml.C18_keeps_valid"
   ],
   "note": "Exact arithmetic over any linearly ordered field."
  },
  {
   "property": "C19",
   "status": "proved",
   "theorems": [
    "Rml.C19_rejects_exactly",
    "Rml.C19_zero_unchanged",
    "Rml.C19_never_panics"
   ],
   "note": "Exact arithmetic; the error cases are characterised exactly."
  },
  {
   "property": "C20",
   "status": "proved",
   "theorems": [
    "Rml.C20_greedy_distribution",
    "Rml.C20_greedy_reduction"
   ],
   "note": "Exact arithmetic; the function and the reduction on top of any base."
  },
  {
   "property": "C21",
   "status": "proved",
   "theorems": [
    "Rml.C21_softmax_distribution",
    "Rml.C21_softmax_shift",
    "Rml.C21_softmax_reduction"
   ],
   "note": "Exact arithmetic over the reals."
  },
  {
   "property": "C22",
   "status": "proved",
   "theorems": [
    "Rml.C22_squarecb_distribution",
    "Rml.C22_squarecb_reduction"
   ],
   "note": "Exact arithmetic; ties with the best action get the non-best weight, as the code does."
  },
  {
   "property": "C23",
   "status": "proved",
   "theorems": [
    "Rml.C23_schedule",
    "Rml.C23_probability_ignored"
   ],
   "note": "Any history of calls; learning with SquareCB sees probability 1 whatever the label says."
  },
  {
   "property": "C24",
   "status": "proved",
   "theorems": [
    "Rml.C24_predictions_do_not_matter",
    "Rml.C24_predict_twice"
   ],
   "note": "Any history; examples valid as the API builds them."
  },
  {
   "property": "C25",
   "status": "proved",
   "theorems": [
    "Rml.C25_predict_then_learn"
   ],
   "note": "All stacks from configurations, both profiles."
  },
  {
   "property": "C26",
   "status": "partial",
   "theorems": [
    "Rml.C26_exact",
    "Rml.C26_exact_all",
    "Rml.C26_simple",
    "Rml.C26_examples_restored_partial",
    "Rml.C26_history_partial",
    "Rml.C26_empty_namespace_false"
   ],
   "note": "C26_examples_restored_partial and C26_history_partial: restoration for every stack and every example without visible empty namespaces. C26_exact: for stacks without ElementwiseInteraction and every bandit example, exactly when each of the three calls restores it (no namespace of the one side is visible but empty in the other). Refuted for such namespaces (C26_empty_namespace_false). C26_exact_all: the same exact condition for every stack, ElementwiseInteraction included. C26_simple: simple examples are restored by every stack, with visible empty namespaces too. Partial because the property itself is false for the examples the exact condition excludes."
  },
  {
   "property": "C27",
   "status": "proved",
   "theorems": [
    "Rml.C27_depth_restored",
    "Rml.C27_assertion_holds",
    "Rml.C27_no_overflow"
   ],
   "note": "All stacks, both profiles."
  },
  {
   "property": "C28",
   "status": "proved",
   "theorems": [
    "Rml.C28_layers_agree",
    "Rml.C28_predict_typed",
    "Rml.C28_learn_typed",
    "Rml.C28_predict_then_learn_typed"
   ],
   "note": "All accepted configurations, any learned state, both profiles."
  },
  {
   "property": "C29",
   "status": "proved",
   "theorems": [
    "Rml.C29_accepted_iff",
    "Rml.C29_rejected",
    "Rml.C29_unknown_rejected"
   ],
   "note": "Exact characterisation of the accepted configurations. SquareCB's mtr rule is stated as the code has it (only a direct CbAdf child is looked at)."
  },
  {
   "property": "C30",
   "status": "proved",
   "theorems": [
    "Rml.C30_scores",
    "Rml.C30_independent"
   ],
   "note": "C30_scores: the prediction has one entry per action in order and each score is the base prediction on the merged features; C30_independent: it does not depend on the other actions."
  },
  {
   "property": "C31",
   "status": "proved",
   "theorems": [
    "Rml.C31_ips",
    "Rml.C31_mtr",
    "Rml.C31_mtr_history"
   ],
   "note": "ips and mtr training examples, mtr weight over whole histories (C31_mtr_history)."
  },
  {
   "property": "C32",
   "status": "partial",
   "theorems": [
    "Rml.C32_ips",
    "Rml.C32_mtr_partial",
    "Rml.C32_mtr_raw_partial",
    "Rml.C32_mtr_false"
   ],
   "note": "Proved for ips. For mtr the code merges shared then action, prediction action then shared: the multiset is equal if no interaction names the same namespace twice in a row; C32_mtr_false proves that for an interaction of a namespace with itself it differs, so the full statement is false of the code. See DESIGN.md finding b."
  },
  {
   "property": "C33",
   "status": "partial",
   "theorems": [
    "Rml.C33_predict",
    "Rml.C33_learn_ips",
    "Rml.C33_learn_mtr_false"
   ],
   "note": "Prediction and ips learning proved; C33_learn_mtr_false proves that mtr learning without shared features panics (todo!()), so the full statement is false of the code."
  },
  {
   "property": "C34",
   "status": "proved",
   "theorems": [
    "Rml.C34_predict",
    "Rml.C34_learn",
    "Rml.C34_learn_other",
    "Rml.C34_predict_then_learn"
   ],
   "note": "Sign of the base prediction, label +1/-1 with weight 1, other labels are rejected; also for predict_then_learn."
  },
  {
   "property": "C35",
   "status": "proved",
   "theorems": [
    "Rml.C35_debug_transparent",
    "Rml.C35_create"
   ],
   "note": "Configurations equal up to Debug reductions are observationally equal for every history (including panics); inserting Debug keeps a configuration accepted."
  },
  {
   "property": "C36",
   "status": "proved",
   "theorems": [
    "Rml.C36_in_label_range",
    "Rml.C36_predict_never_panics",
    "Rml.C36_learn_never_panics",
    "Rml.C36_history",
    "Rml.C36_f32",
    "Rml.C36_ieee"
   ],
   "note": "For any float type satisfying the IEEE comparison laws (LawfulCmp), instantiated for exact arithmetic and for bit-level f32 (C36_f32); at regressor level and for every API call history on a stack (C36_history)."
  },
  {
   "property": "C37",
   "status": "proved",
   "theorems": [
    "Rml.C37_only_own_weights",
    "Rml.C37_prediction_unchanged"
   ],
   "note": "No law of arithmetic used: holds bit for bit in floats."
  },
  {
   "property": "C38",
   "status": "proved",
   "theorems": [
    "Rml.C38_statistics",
    "Rml.C38_monotone"
   ],
   "note": "Exact arithmetic. The trace of gradient factors of the whole history determines the statistics of every weight. C105_table states the same with gradients that are defined independently of the model."
  },
  {
   "property": "C39",
   "status": "proved",
   "theorems": [
    "Rml.C39_wealth_positive",
    "Rml.C39_wealth_positive_stack"
   ],
   "note": "Exact arithmetic, any labels and weights (also negative); division by zero total weight is 0 in the model and does not enter the wealth. Also for the regressor at the bottom of any stack."
  },
  {
   "property": "C40",
   "status": "proved",
   "theorems": [
    "Rml.C40_zero_until_trained",
    "Rml.C40_ieee"
   ],
   "note": "Under LawfulZero (IEEE laws of zero): the raw prediction is a zero of either sign."
  },
  {
   "property": "C41",
   "status": "partial",
   "theorems": [
    "Rml.C41_always_squared",
    "Rml.C41_configured_loss_partial",
    "Rml.C41_false"
   ],
   "note": "False of the code for the logistic loss (C41_false, witness over the reals); true for the squared loss (C41_configured_loss_partial); C41_always_squared says what the code does for every configuration."
  },
  {
   "property": "C42",
   "status": "proved",
   "theorems": [
    "Rml.C42_first_derivative",
    "Rml.C42_second_derivative",
    "Rml.C42_nonneg",
    "Rml.C42_square_grad",
    "Rml.C42_unsafe_update"
   ],
   "note": "Over the reals: the derivatives are derivatives (HasDerivAt) of the loss, for every prediction and label."
  },
  {
   "property": "C43",
   "status": "proved",
   "theorems": [
    "Rml.C43_flow",
    "Rml.C43_composition",
    "Rml.C43_no_overshoot",
    "Rml.C43_monotone",
    "Rml.C43_small_step"
   ],
   "note": "Over the reals: the closed form update composes over importance weights, never passes the label and is monotone in the weight. C43_flow: the update ends exactly where following the gradient of the loss for that importance ends."
  },
  {
   "property": "C44",
   "status": "proved",
   "theorems": [
    "Rml.Vw.C44_single_line"
   ],
   "note": "All inputs. Input is a list of characters; reading is assumed to succeed."
  },
  {
   "property": "C45",
   "status": "proved",
   "theorems": [
    "Rml.Vw.C45_multi_line"
   ],
   "note": "All inputs, including that splitting a chunk into lines during parsing gives the same lines back."
  },
  {
   "property": "C46",
   "status": "proved",
   "theorems": [
    "Rml.Vw.C46_features",
    "Rml.Vw.C46_empty_namespace_panics"
   ],
   "note": "All rendered examples; float syntax and hash function are parameters. Debug profile: positions of anonymous features must not overflow 32 bits. C46_empty_namespace_panics records that an empty segment after a bar panics."
  },
  {
   "property": "C47",
   "status": "proved",
   "theorems": [
    "Rml.Vw.C47_labels",
    "Rml.Vw.C47_every_text"
   ],
   "note": "All texts before the first bar (C47_every_text). A tab before the bar does not count as separation."
  },
  {
   "property": "C48",
   "status": "proved",
   "theorems": [
    "Rml.Vw.C48_assembly",
    "Rml.Vw.C48_other_labels"
   ],
   "note": "All chunks of any number of lines of well formed lines."
  },
  {
   "property": "C49",
   "status": "partial",
   "theorems": [
    "Rml.Js.C49_features_partial",
    "Rml.Js.C49_cb_partial",
    "Rml.Js.C49_empty_list_false",
    "Rml.Js.C49_recycled_false",
    "Rml.Js.C49_number_overflow_false"
   ],
   "note": "Partial: in the documented format parsing can panic. Proved for all examples whose lists are not empty, whose number lists stay inside the 32-bit index space and, for string lists, when the recycled object has no spare capacity in that namespace; the three exceptions are proved to panic. JSON text parsing (serde) and the conversion of JSON numbers to f32 are parameters."
  },
  {
   "property": "C50",
   "status": "partial",
   "theorems": [
    "Rml.Js.C50_simple_partial",
    "Rml.Js.C50_cb",
    "Rml.Js.C50_weight_false"
   ],
   "note": "Partial: the documented default weight does not exist; a label object without a weight makes the parser panic (C50_weight_false). Everything else is proved for all documents."
  },
  {
   "property": "C51",
   "status": "proved",
   "theorems": [
    "Rml.Ds.C51_dsjson",
    "Rml.Ds.C51_balanced",
    "Rml.Ds.C51_paths"
   ],
   "note": "C51_dsjson gives acceptance and the result for every document; C51_paths says in terms of key paths which features an example has; C51_balanced is the stack. Text to JSON value is a parameter. In the debug profile an array position may overflow the 32-bit hash (part of Accepted)."
  },
  {
   "property": "C52",
   "status": "partial",
   "theorems": [
    "Rml.C52_vw",
    "Rml.C52_dsjson",
    "Rml.C52_json_partial",
    "Rml.C52_json_ok_partial",
    "Rml.C52_json_false",
    "Rml.C52_namespaces_false"
   ],
   "note": "Proved for every chunk (well-formed or not) for VW text and DsJson. For JSON proved for documents without string lists and, for all documents, whenever both parses succeed; a string list on a recycled object can panic (C52_json_false). The namespaces iterator shows namespaces of former examples (C52_namespaces_false)."
  },
  {
   "property": "C53",
   "status": "proved",
   "theorems": [
    "Rml.C53_same_as_sequential",
    "Rml.C53_always_a_prefix",
    "Rml.C53_same_failure",
    "Rml.C53_training"
   ],
   "note": "Any number of threads, any queue size, any schedule with spurious wake-ups, any behaviour of parser and learner. Sequentially consistent memory."
  },
  {
   "property": "C54",
   "status": "proved",
   "theorems": [
    "Rml.C54_progress",
    "Rml.C54_terminates",
    "Rml.C54_usable_input",
    "Rml.C54_completes",
    "Rml.C54_panic_deadlocks",
    "Rml.C54_error_hangs"
   ],
   "note": "Queue size >= 1, at least one parser thread, and the single-threaded loop succeeds. Without the last assumption refuted: C54_panic_deadlocks, C54_error_hangs."
  },
  {
   "property": "C55",
   "status": "proved",
   "theorems": [
    "Rml.C55_no_assertion_fails",
    "Rml.C55_no_race",
    "Rml.C55_handed_over_once",
    "Rml.C55_right_result"
   ],
   "note": "Sequentially consistent memory; no two threads are ever about to access the same unsafe cell, and no assertion fails."
  },
  {
   "property": "C56",
   "status": "proved",
   "theorems": [
    "Rml.C56_mse",
    "Rml.C56_ips",
    "Rml.C56_parsed_features",
    "Rml.C56_example_number",
    "Rml.C56_example_number_limits",
    "Rml.C56_training_feeds"
   ],
   "note": "Exact arithmetic; example_number and parsed_features within the range of i32 (limits stated). C56_training_feeds ties the metrics to the training loop."
  },
  {
   "property": "C57",
   "status": "proved",
   "theorems": [
    "Rml.C57_any_number",
    "Rml.C57_debug_overflow",
    "Rml.C57_cast",
    "Rml.C57_default",
    "Rml.C57_debug_overflow_multiplicative",
    "Rml.C57_whole_factor",
    "Rml.C57_additive",
    "Rml.C57_rule",
    "Rml.C57_multiplicative"
   ],
   "note": "Additive periods: exact for any number of examples in the release profile, where the u32 counters start again (C57_any_number), and the exact point of the overflow panic in the debug profile (C57_debug_overflow). The default period *2 in single precision: exact for any number of examples (C57_default). Whole factors in single precision up to 2^24 examples (C57_whole_factor; not exact beyond). C57_rule covers every period including fractional ones."
  },
  {
   "property": "C58",
   "status": "proved",
   "theorems": [
    "Rml.C58_accepted",
    "Rml.C58_unchanged",
    "Rml.C58_errors",
    "Rml.C58_register",
    "Rml.C58_registered",
    "Rml.C58_unknown"
   ],
   "note": "For try_from. The derived Deserialize does not validate (DESIGN.md findings)."
  },
  {
   "property": "C59",
   "status": "proved",
   "theorems": [
    "Rml.C59_ieee",
    "Rml.C59_save_load_same_behaviour",
    "Rml.C59_exact"
   ],
   "note": "Every stack, every history before saving and after loading; only the sign of zeros can change and the theorem shows it is never observable. Uses the float laws LawfulCmp and SignedZero (both satisfied by IEEE 754; shown satisfiable with a negative zero by SInt). The flexbuffers byte format itself is not modelled: a document round-trips through it unchanged."
  },
  {
   "property": "C60",
   "status": "proved",
   "theorems": [
    "Rml.C60_products",
    "Rml.C60_dense",
    "Rml.C60_base_sees"
   ],
   "note": "Products of matching stored positions, dense reading of the result, and what the base reduction sees."
  },
  {
   "property": "C61",
   "status": "proved",
   "theorems": [
    "Rml.C61_linear",
    "Rml.C61_additive",
    "Rml.C61_order_irrelevant"
   ],
   "note": "Exact arithmetic, without interactions; in floats the sum depends on the order."
  },
  {
   "property": "C62",
   "status": "proved",
   "theorems": [
    "Rml.Js.C62_lines"
   ],
   "note": "Blank lines are delivered like others (and then fail to parse), unlike for VW text. Reading is assumed to succeed."
  },
  {
   "property": "C63",
   "status": "proved",
   "theorems": [
    "Rml.Cfg.C63_read",
    "Rml.Cfg.C63_workspace",
    "Rml.Cfg.C63_unambiguous"
   ],
   "note": "Exact characterisation (iff) against the separate specification SpecConfig.lean, for the whole document, plus uniqueness of the reading."
  },
  {
   "property": "C64",
   "status": "partial",
   "theorems": [
    "Rml.Cfg.C64_unknown_setting_partial",
    "Rml.Cfg.C64_unknown_key_false"
   ],
   "note": "Proved for unknown keys at the top, in the global settings and in the settings of a reduction at any depth. False for the object {typename, config} itself: C64_unknown_key_false shows that with a misspelled `config` all settings are silently dropped, although the published JSON schema forbids additional keys there."
  },
  {
   "property": "C65",
   "status": "partial",
   "theorems": [
    "Rml.Cfg.C65_new_is_accepted_partial",
    "Rml.Cfg.C65_known",
    "Rml.Cfg.C65_debug_false",
    "Rml.Cfg.C65_prints",
    "Rml.Cfg.C65_full"
   ],
   "note": "Proved for all reductions but Debug. C65_debug_false: what `config new Debug` emits is always rejected, because its `next` defaults to a reduction called Unknown. C65_prints: the printed document, word for word, for every reduction; C65_full: it gives a value to every setting the reduction has."
  },
  {
   "property": "C66",
   "status": "proved",
   "theorems": [
    "Rml.Cfg.C66_expressible"
   ],
   "note": ""
  },
  {
   "property": "C67",
   "status": "proved",
   "theorems": [
    "Rml.C67_vw",
    "Rml.C67_json",
    "Rml.C67_dsjson",
    "Rml.C67_empty_namespace_false"
   ],
   "note": "Features.Formed and Features.Valid as in SpecTrain and Spec. C67_empty_namespace_false: the condition on contextual bandit text is needed."
  },
  {
   "property": "C68",
   "status": "partial",
   "theorems": [
    "Rml.C68_vw",
    "Rml.C68_dsjson",
    "Rml.C68_json_partial",
    "Rml.C68_vw_terminates",
    "Rml.C68_dsjson_terminates",
    "Rml.C68_json_false"
   ],
   "note": "Full for VW text and DsJson. JSON: documents without lists of strings; C68_json_false shows that with lists of strings success depends on the schedule. Termination bounds the steps of the threads, not the number of objects taken."
  },
  {
   "property": "C69",
   "status": "proved",
   "theorems": [
    "Rml.Cli.C69_resumed_training",
    "Rml.Cli.C69_one_step_succeeds",
    "Rml.Cli.C69_two_steps_succeed",
    "Rml.C69_ieee"
   ],
   "note": "Numbers satisfy the laws LawfulCmp and SignedZero (f32 does; the laws are stated in Spec and SpecSerde). JSON data with lists of strings, for which C68 does not hold, is excluded by Clean; namespaces without features are allowed."
  },
  {
   "property": "C70",
   "status": "proved",
   "theorems": [
    "Rml.Cli.C70_same_model",
    "Rml.Cli.C70_quiet_succeeds",
    "Rml.Cli.C70_threads_same_output",
    "Rml.Cli.C70_threads_succeed"
   ],
   "note": "As C69. With threads, success is stated for every schedule: no reachable state is stuck without the right output; termination of every schedule is C68."
  },
  {
   "property": "C71",
   "status": "partial",
   "theorems": [
    "Rml.Cli.C71_no_examples_false",
    "Rml.Cli.C71_quiet_unchanged_partial",
    "Rml.Cli.C71_last_row"
   ],
   "note": "C71_no_examples_false: the property fails unless --quiet is given; train panics when it prints the last row. C71_quiet_unchanged_partial is the part that holds; C71_last_row is the second sentence."
  },
  {
   "property": "C72",
   "status": "proved",
   "theorems": [
    "Rml.Cli.C72_additive",
    "Rml.Cli.C72_multiplicative"
   ],
   "note": "On the text after to_lowercase; f32 parsing and the cast f32 to u32 are parameters. C72_additive includes the undocumented second plus sign."
  },
  {
   "property": "C73",
   "status": "proved",
   "theorems": [
    "Rml.Cli.C73_export_import"
   ],
   "note": "The hypothesis FinRed says that all numbers in the loaded model are finite; C08_nonfinite_panics shows it is needed."
  },
  {
   "property": "C74",
   "status": "partial",
   "theorems": [
    "Rml.Vw.C74_names_partial",
    "Rml.Vw.C74_names_lines_partial",
    "Rml.Vw.C74_indices",
    "Rml.Vw.C74_no_space_fails",
    "Rml.Vw.C74_repeated_false",
    "Rml.Vw.C74_tab_false"
   ],
   "note": "C74_names_partial and C74_names_lines_partial say exactly which names are given when a space follows each namespace name: those of the last occurrence of each namespace. C74_indices: if no namespace occurs twice, all names are given and hash to the parsed indices. C74_repeated_false, C74_no_space_fails and C74_tab_false show where the property fails."
  },
  {
   "property": "C75",
   "status": "partial",
   "theorems": [
    "Rml.Py.C75_session_partial",
    "Rml.Py.C75_unique",
    "Rml.Py.C75_saved_json",
    "Rml.Py.C75_json_false",
    "Rml.Py.C75_empty_false"
   ],
   "note": "C75_session_partial for all sessions whose parsed texts have no JSON lists of strings and, for contextual bandits in VW text and JSON, no namespaces without features; C75_unique: the reference semantics leaves no choice. C75_json_false and C75_empty_false show that the property fails for both. C75_saved_json: saved JSON models may be loaded. Models that were not saved by this library are not covered; a session ends at the first panic, and C107 is about what follows."
  },
  {
   "property": "C76",
   "status": "partial",
   "theorems": [
    "Rml.Py.C76_repeatable_partial",
    "Rml.Py.C76_empty_false"
   ],
   "note": "For the same sessions as C75; C76_empty_false shows that the property fails for namespaces without features."
  },
  {
   "property": "C77",
   "status": "proved",
   "theorems": [
    "Rml.C77_ieee",
    "Rml.Cli.C77_train",
    "Rml.Cli.C77_quiet_succeeds"
   ],
   "note": "Parsed, Learns and Plays (SpecPlay.lean) say what a user of the library would do. JSON with lists of strings is excluded (see C52)."
  },
  {
   "property": "C78",
   "status": "proved",
   "theorems": [
    "Rml.Cli.C78_table",
    "Rml.Cli.C78_additive"
   ],
   "note": "MetricIs gives a formula for each metric, in the arithmetic of the model (any Flt); C56 relates mse and ips to means over exact fields. Fewer than 2^31 examples; the counters of the progress must not overflow (examples + period at most 2^32)."
  },
  {
   "property": "C79",
   "status": "proved",
   "theorems": [
    "Rml.C79_ieee",
    "Rml.C79_no_panic",
    "Rml.C79_f32",
    "Rml.C79_exact",
    "Rml.C79_needs_action",
    "Rml.C79_needs_chosen",
    "Rml.C79_needs_settled",
    "Rml.C79_elementwise_false"
   ],
   "note": "Stated with the restrictions named in the property. C79_no_panic is for any arithmetic (C79_f32 for single precision bit patterns) with uniform epsilon 0, C79_exact for any uniform epsilon in [0,1] over the reals. In the release profile examples may have namespaces without features, although calls change such examples. C79_elementwise_false shows why ElementwiseInteraction is excluded; C79_needs_* show that the conditions are needed. Single precision with a uniform epsilon other than 0: C110 (no panic as long as the scores are moderate, C110_infinite_false otherwise)."
  },
  {
   "property": "C80",
   "status": "proved",
   "theorems": [
    "Rml.C80_vw",
    "Rml.C80_json",
    "Rml.C80_dsjson",
    "Rml.C80_binary_false",
    "Rml.C80_json_action_false",
    "Rml.C80_dsjson_action_false"
   ],
   "note": "C80_vw, C80_json and C80_dsjson are for every pool that parsing and recycling can make. Findings: C80_binary_false (no VW text or JSON parses for a model with binary labels), C80_json_action_false and C80_dsjson_action_false (in JSON and DsJson the labelled action need not be an action of the example)."
  },
  {
   "property": "C81",
   "status": "proved",
   "theorems": [
    "Rml.C81_ieee",
    "Rml.Cli.C81_train",
    "Rml.Cli.C81_release"
   ],
   "note": "Stated without threads and with --quiet; C70 carries it to any number of threads. ElementwiseInteraction is excluded because it can panic (C79_elementwise_false)."
  },
  {
   "property": "C82",
   "status": "proved",
   "theorems": [
    "Rml.Cli.C82_train"
   ],
   "note": "Stated without threads; C70 carries it to any number of threads. Metrics that suit the model are a hypothesis: with others the run panics at the first example. A uniform epsilon other than 0 is excluded as in C79."
  },
  {
   "property": "C83",
   "status": "partial",
   "theorems": [
    "Rml.JsonSchema.C83_published",
    "Rml.JsonSchema.C83_accepted_partial",
    "Rml.JsonSchema.C83_valid_partial",
    "Rml.JsonSchema.C83_new_partial",
    "Rml.JsonSchema.C83_other_key_false",
    "Rml.JsonSchema.C83_null_false",
    "Rml.JsonSchema.C83_typename_false",
    "Rml.JsonSchema.C83_debug_false",
    "Rml.JsonSchema.C83_range_false",
    "Rml.JsonSchema.C83_schema_false",
    "Rml.JsonSchema.C83_new_debug_false"
   ],
   "note": "Both directions have exceptions in the code, each with a counterexample: C83_other_key_false, C83_null_false (accepted, not valid), C83_typename_false, C83_debug_false, C83_range_false, C83_schema_false (valid, rejected), C83_new_debug_false. The hypotheses Tidy, Complete and CompleteRest exclude exactly these. That the stack of a valid document is well typed is beyond the schema (C28, C29)."
  },
  {
   "property": "C84",
   "status": "proved",
   "theorems": [
    "Rml.C84_stack",
    "Rml.C84_units",
    "Rml.C84_features"
   ],
   "note": "C84_units: for the visited features (with interactions and constant); C84_features: in terms of the features given, without interactions; C84_stack: for every stack without ElementwiseInteraction and every session, bandit examples included. Exact arithmetic of an ordered field."
  },
  {
   "property": "C85",
   "status": "proved",
   "theorems": [
    "Rml.C85_stack",
    "Rml.C85_order",
    "Rml.C85_features",
    "Rml.C85_repeated_false"
   ],
   "note": "C85_order with interactions, C85_features without; C85_repeated_false shows that the proviso on features with the same weight is needed. Exact arithmetic. C85_stack: for every stack without ElementwiseInteraction and every session, bandit examples included."
  },
  {
   "property": "C86",
   "status": "proved",
   "theorems": [
    "Rml.C86_sign"
   ],
   "note": "For both link functions, all loss functions, l1 and l2. Exact arithmetic."
  },
  {
   "property": "C87",
   "status": "partial",
   "theorems": [
    "Rml.C87_zero_weight_partial",
    "Rml.C87_zero_weight_false"
   ],
   "note": "False of the code (C87_zero_weight_false); C87_zero_weight_partial states what an example with weight 0 leaves unchanged."
  },
  {
   "property": "C88",
   "status": "partial",
   "theorems": [
    "Rml.C88_scores",
    "Rml.C88_greedy_scores",
    "Rml.C88_greedy_partial",
    "Rml.C88_softmax_scores",
    "Rml.C88_squarecb_scores",
    "Rml.C88_softmax",
    "Rml.C88_squarecb_partial",
    "Rml.C88_learn_mtr_partial",
    "Rml.C88_learn_greedy",
    "Rml.C88_learn_softmax",
    "Rml.C88_learn_squarecb",
    "Rml.C88_learn_ips_false",
    "Rml.C88_tie_false"
   ],
   "note": "Scores (C88_scores) and learning in mtr mode (C88_learn_*) for all numbers, probabilities in exact arithmetic, for greedy and SquareCB if one action has the lowest score. False of the code otherwise: C88_learn_ips_false, C88_tie_false."
  },
  {
   "property": "C89",
   "status": "proved",
   "theorems": [
    "Rml.C89_stack",
    "Rml.C89_names",
    "Rml.C89_features",
    "Rml.C89_bits",
    "Rml.C89_vw",
    "Rml.C89_json",
    "Rml.C89_dsjson",
    "Rml.C89_collision_false"
   ],
   "note": "For all numbers (so also f32): C89_names for any renaming of indices that is injective on the indices used, C89_features for feature names, C89_stack for every stack without ElementwiseInteraction and every session (no interactions), C89_bits for fewer bits, C89_vw, C89_json and C89_dsjson for the parsers. C89_collision_false shows that the condition is needed."
  },
  {
   "property": "C90",
   "status": "proved",
   "theorems": [
    "Rml.C90_metric",
    "Rml.C90_total",
    "Rml.C90_ips",
    "Rml.C90_mtr"
   ],
   "note": "In exact arithmetic. C90_metric for any run that succeeds, C90_total for new models, where success is a conclusion; C90_ips and C90_mtr for what the regressor learns."
  },
  {
   "property": "C91",
   "status": "proved",
   "theorems": [
    "Rml.Formats.C91_simple",
    "Rml.Formats.C91_cb"
   ],
   "note": "Data that all formats can express: names and texts without white space, colons and bars, no leading underscore (DsJson ignores such keys), at least one feature in every namespace, texts that are not numbers; the JSON and the VW reading of each number are the same float."
  },
  {
   "property": "C92",
   "status": "proved",
   "theorems": [
    "Rml.C92_squarecb",
    "Rml.C92_schedule",
    "Rml.C92_decay",
    "Rml.C92_softmax",
    "Rml.C92_greedy"
   ],
   "note": "Exact arithmetic over the reals (as C19 to C22); gamma scale and gamma exponent at least 0, which the documentation assumes and the configuration does not check."
  },
  {
   "property": "C93",
   "status": "proved",
   "theorems": [
    "Rml.C93_squarecb",
    "Rml.C93_floor",
    "Rml.C93_guarantee"
   ],
   "note": "Exact arithmetic over the reals; gamma scale positive. A statement about one decision: no bound for the error of the regressor is claimed."
  },
  {
   "property": "C94",
   "status": "partial",
   "theorems": [
    "Rml.C94_floor_f32",
    "Rml.C94_squarecb_f32_partial",
    "Rml.C94_softmax_f32_partial",
    "Rml.C94_greedy_f32",
    "Rml.C94_greedy",
    "Rml.C94_floor",
    "Rml.C94_softmax_partial",
    "Rml.C94_squarecb_partial",
    "Rml.C94_softmax_floor_false"
   ],
   "note": "The floor does not hold for softmax in f32 (C94_softmax_floor_false): a weight that is rounded to 0 stays 0 whatever epsilon is. Proved: every action has the floor or probability exactly 0 (C94_softmax_partial, C94_squarecb_partial), the sum is within 123 n (u + n eta) of 1, and the ranking is kept (for SquareCB among the actions that are not the best one, and with 6 n^2 (u + eta) <= 1, about 1600 actions in f32). For epsilon-greedy and for the floor itself nothing is missing (C94_greedy, C94_floor). On f32 bit patterns with the IEEE operations, infinities included: epsilon-greedy (C94_greedy_f32), the floor (C94_floor_f32), SquareCB (C94_squarecb_f32_partial) and softmax (C94_softmax_f32_partial). For SquareCB and softmax gamma and lambda are any finite numbers that are not negative, and the scores are up to 2^126 in magnitude (beyond, their difference can be infinite, see C110_infinite_false); products with gamma and lambda may overflow to infinity. The exponential function of the platform is assumed to be a function E of the value that increases, is not negative, is 1 at 0 and 0 far below it and at minus infinity (ExpIs)."
  },
  {
   "property": "C95",
   "status": "partial",
   "theorems": [
    "Rml.C95_mse_f32_partial",
    "Rml.C95_ips_f32_partial",
    "Rml.C95_overflow_false",
    "Rml.C95_mse_partial",
    "Rml.C95_ips_partial",
    "Rml.C95_mse_false"
   ],
   "note": "False for very many examples (C95_mse_false): the running sum is kept in f32 and stops growing at 2^24 times the size of the terms; with every error equal to 1 the reported mean squared error after 2^25 examples is 1/2. Proved for up to 1 / (100 (u + eta)) examples (about 167000 in f32): the error of the mean squared error is at most 7 n u times the mean itself plus underflow (C95_mse_partial), and that of ips is likewise in terms of the absolute values (C95_ips_partial, for costs that are representable). C95_mse_f32_partial and C95_ips_f32_partial: the same bounds for the metrics computed on f32 bit patterns with the IEEE operations, infinities included, for labels, predictions and costs up to 2^40, logged probabilities from 2^-40 to 1 and up to 160000 examples: nothing overflows. C95_overflow_false: a finite label of 1e30 makes the mean squared error infinite."
  },
  {
   "property": "C96",
   "status": "proved",
   "theorems": [
    "Rml.C96_raw",
    "Rml.C96_predict",
    "Rml.C96_relative_false"
   ],
   "note": "For up to 1 / (100 (u + eta)) visited features (about 167000 in f32). C96_raw is the bound on the raw sum, C96_predict the bound on the whole prediction, with the exponential function accurate up to one rounding. C96_relative_false shows that the bound cannot be relative to the prediction itself. Overflow to infinity is not modelled."
  },
  {
   "property": "C97",
   "status": "proved",
   "theorems": [
    "Rml.C97_add",
    "Rml.C97_sub",
    "Rml.C97_mul",
    "Rml.C97_div",
    "Rml.C97_of_nat",
    "Rml.C97_literal",
    "Rml.C97_neg_abs",
    "Rml.C97_compare",
    "Rml.C97_compare_nan",
    "Rml.C97_add_nan",
    "Rml.C97_mul_nan",
    "Rml.C97_div_nan",
    "Rml.C97_rounding",
    "Rml.C97_add_special",
    "Rml.C97_mul_special",
    "Rml.C97_div_special",
    "Rml.C97_neg_abs_sign",
    "Rml.C97_sub_special"
   ],
   "note": "The arithmetic of `f32` is given concretely on bit patterns (Model/Ieee.lean) and is correctly rounded in the sense of SpecIeee.lean, which is about values only. C97_add_special, C97_sub_special, C97_mul_special, C97_div_special and C97_neg_abs_sign give signs and infinities, where values do not. exp, ln, powf and sqrt stay parameters. As a consequence the theorems about lawful floats hold for f32 without assumptions on arithmetic: C08_ieee, C36_ieee, C40_ieee, C59_ieee, C69_ieee, C77_ieee, C79_ieee, C81_ieee. C97_rounding connects it to the rounded arithmetic of C94 to C96 where nothing overflows."
  },
  {
   "property": "C98",
   "status": "partial",
   "theorems": [
    "Rml.C98_bad_number",
    "Rml.C98_partial",
    "Rml.C98_finite_false",
    "Rml.C98_large_false",
    "Rml.C98_visits",
    "Rml.C98_shared_partial"
   ],
   "note": "False as stated: C98_finite_false gives three examples with label 1 and weight 1 (two of them with a value of 1e-30), C98_large_false three with values of at least 1 and labels up to 1e10, after which the regressor with the default configuration predicts 0 for everything whatever else it is trained with. C98_bad_number: one NaN in a value, a label or a weight, and one more example, do the same to every model whose constant weight was moved. C98_partial: with labels up to 2^16, weights from 2^-8 to 2^8 and values 0 or from 2^-10 to 2^10 in magnitude, every statistic stays finite and no prediction is NaN, for histories of any length, as long as the betting wealth of every weight stays within 2^20 and the features of an example have different weights. C98_shared_partial: the same when features share weights, with the wealth within 2^k after each example, 2^k bounding alpha, and at most 18 - k visits of a weight in one example. C98_visits: nothing is asked of the wealth when training visits no weight more than 19 - k times (17 with the default alpha), because each visit at most doubles it up to rounding. Missing: a bound on the wealth for long histories."
  },
  {
   "property": "C99",
   "status": "partial",
   "theorems": [
    "Rml.C99_same_results",
    "Rml.C99_usable",
    "Rml.C99_usable_f32",
    "Rml.C99_kinds_partial",
    "Rml.C99_regression_partial",
    "Rml.C99_bandit_partial",
    "Rml.C99_mtr_partial",
    "Rml.C99_ips_partial",
    "Rml.C99_range_false",
    "Rml.C99_mtr_false",
    "Rml.C99_elementwise_false",
    "Rml.C99_ips_false",
    "Rml.C99_features_false"
   ],
   "note": "False as stated, with five witnesses in single precision: a failing learn call widens the label range of a regressor (C99_range_false), counts the example in mtr mode (C99_mtr_false), has learned the actions before the one it fails at in ips mode (C99_ips_false), or takes namespaces out of the example for good (C99_elementwise_false); a failing predict call leaves shared features in an action, and another model predicts something else for the example (C99_features_false). Proved: C99_same_results (the crash model returns what the model of all other theorems returns), C99_usable (after any calls, failed or not, every well-formed call succeeds), C99_kinds_partial (a mistaken kind of example or label changes nothing), C99_regression_partial (of a regression model only the label range can change, and nothing if the label is inside it), C99_bandit_partial (exactly what can be left of a bandit example), C99_mtr_partial (a failing learn call in mtr mode changes no prediction), C99_ips_partial (a failing learn call in ips mode has learned the actions before the one it fails at and nothing else: apart from the label range the model is the one that has learned the example with the other actions left out)."
  },
  {
   "property": "C100",
   "status": "proved",
   "theorems": [
    "Rml.C100_lookup"
   ],
   "note": "C100_lookup. The hash map and the hash sets are an association list of lists; only membership is stated."
  },
  {
   "property": "C101",
   "status": "proved",
   "theorems": [
    "Rml.C101_value",
    "Rml.C101_never_grows",
    "Rml.C101_stack",
    "Rml.C101_bandit_panics"
   ],
   "note": "Exact arithmetic in an ordered field; of the square root only its order and sign are used. C101_value gives the formula (no interactions), C101_never_grows sign and monotony (interactions included), C101_stack and C101_bandit_panics the stacks. The call panics for the features of a contextual bandit in every stack: see the findings in DESIGN.md."
  },
  {
   "property": "C102",
   "status": "proved",
   "theorems": [
    "Rml.C102_quadratic",
    "Rml.C102_cubic",
    "Rml.C102_visited",
    "Rml.C102_same_false"
   ],
   "note": "C102_quadratic, C102_cubic, C102_visited. C102_same_false: for one namespace twice the listing has both orders of each pair, while predicting and learning visit one."
  },
  {
   "property": "C103",
   "status": "partial",
   "theorems": [
    "Rml.C103_lambert_exists",
    "Rml.C103_lambert",
    "Rml.C103_flow_partial",
    "Rml.C103_flow_exists",
    "Rml.C103_soft_false"
   ],
   "note": "Over the reals. C103_lambert is the documented error bound of wexpmx for every argument (C103_lambert_exists: the value it approximates exists and is unique). C103_flow_partial is the property for the two extreme labels, for every prediction, importance and speed; C103_flow_exists shows that the curve exists. Missing: labels in between, for which the property is false (C103_soft_false): the update averages the two extreme updates, and a large importance moves a prediction that already has the smallest loss far away. Rounding is not modelled here."
  },
  {
   "property": "C104",
   "status": "proved",
   "theorems": [
    "Rml.C104_rounds_exist",
    "Rml.C104_regret",
    "Rml.C104_same_length",
    "Rml.C104_average"
   ],
   "note": "Over the reals. C104_regret is the bound for every history; C104_same_length is the bound for histories whose examples have equally many features of constant size, against the plain linear predictor; C104_average is the statement about the average; C104_rounds_exist: every history has its rounds, nothing panics. The answer right after learning an example is the one that the update was computed from, because the table stores the weight from before the update. Rounding is not modelled here."
  },
  {
   "property": "C105",
   "status": "proved",
   "theorems": [
    "Rml.C105_predict",
    "Rml.C105_table"
   ],
   "note": "Exact arithmetic. The reference (SpecReference.lean) is a function of the history and uses nothing of the model. C105_predict is the property; C105_table says what each weight holds in terms of the reference. Examples with repeated features and labels beyond beta are included. Rounding is not modelled here."
  },
  {
   "property": "C106",
   "status": "proved",
   "theorems": [
    "Rml.C106_session",
    "Rml.C106_release",
    "Rml.C106_parse_text",
    "Rml.C106_parse_json",
    "Rml.C106_parse_dsjson",
    "Rml.C106_train",
    "Rml.C106_debug_panics",
    "Rml.C106_overflow",
    "Rml.Py.C106_python"
   ],
   "note": "C106_session: the two builds end in the same way, or the debug build stops with an overflow or a failed debug assertion; C106_parse_* the same for the parsers; C106_train: what train outputs in the debug build it outputs in the release build, with and without parser threads. C106_debug_panics and C106_overflow show that the other direction is false: there are examples on which the debug build panics and the release build returns. C106_python: for sessions of the Python package."
  },
  {
   "property": "C107",
   "status": "proved",
   "theorems": [
    "Rml.Py.C107_same_results",
    "Rml.Py.C107_others",
    "Rml.Py.C107_goes_on",
    "Rml.Py.C107_no_elementwise",
    "Rml.Py.C107_new_empty",
    "Rml.Py.C107_parses_the_same"
   ],
   "note": "C107_same_results and C107_others for one call; C107_goes_on for all histories, with the condition that the features still in use are valid; C107_no_elementwise without that condition for workspaces without ElementwiseInteraction; C107_new_empty and C107_parses_the_same with all features still in use. Texts and JSON models as in C75_session_partial, whose counterexamples apply. What a failing call leaves of the objects it was given is the subject of C99."
  },
  {
   "property": "C108",
   "status": "proved",
   "theorems": [
    "Rml.C108_edited",
    "Rml.C108_settings",
    "Rml.C108_settings_binary"
   ],
   "note": "Every stack and history; dimensions, every slot, everything else equal. A zero may lose its sign (C06). The numbers of the model and the new ones must be representable in JSON (C08_nonfinite_panics otherwise). Each listed feature must list all its models and numbers; otherwise loading panics (C109_malformed_false). C108_settings, C108_settings_binary: the global settings in the document."
  },
  {
   "property": "C109",
   "status": "partial",
   "theorems": [
    "Rml.C109_no_weights_partial",
    "Rml.C109_malformed_false",
    "Rml.C109_binary_false"
   ],
   "note": "Holds for JSON documents without an entry named weights at any depth (C109_no_weights_partial: rejected with an error). Refuted for JSON models with a malformed weight table, for every model (C109_malformed_false), and for binary models: create_from_model panics on everything it cannot read (C109_binary_false)."
  },
  {
   "property": "C110",
   "status": "proved",
   "theorems": [
    "Rml.C110_greedy",
    "Rml.C110_softmax",
    "Rml.C110_squarecb",
    "Rml.C110_infinite_false"
   ],
   "note": "Bit-exact f32 arithmetic (C97); exp is assumed sane (SaneExp), powf is arbitrary as long as gamma is a nonnegative number. C110_infinite_false: without the bound on the scores it is false. A softmax model with valid settings, trained with small well-formed examples, panics when it predicts an example with values of 3e38 (uniform epsilon 0.1), or answers NaN for every action (uniform epsilon 0). For softmax and SquareCB an upper bound of 1 is not claimed in f32 (C94 has the exact sums over the reals)."
  },
  {
   "property": "C111",
   "status": "proved",
   "theorems": [
    "Rml.C111_wealth",
    "Rml.C111_score"
   ],
   "note": "Exact arithmetic over any ordered field, through the reference of C105. The conditions are those of C104 (beta bounds the gradients, no weight twice in an example). What rounding does to it is not covered; C98 has the conditions under which f32 training stays finite."
  },
  {
   "property": "C112",
   "status": "partial",
   "theorems": [
    "Rml.C112_history_partial",
    "Rml.C112_release_partial",
    "Rml.C112_number_false",
    "Rml.C112_ips_false"
   ],
   "note": "Proved for the type mtr below any exploration, if the events list equally many actions: in release builds both histories have the same outcome, panics included, for arbitrary features (C112_release_partial); in both profiles the resulting models are equal (C112_history_partial). False of the code otherwise: the number of actions enters the weight of the event (C112_number_false), and ips learns every action that was not chosen as one without cost (C112_ips_false)."
  },
  {
   "property": "C113",
   "status": "partial",
   "theorems": [
    "Rml.C113_small",
    "Rml.C113_debug",
    "Rml.C113_release",
    "Rml.C113_release_false"
   ],
   "note": "C113_small: up to 31 bits both profiles compute what the model of all other theorems computes. C113_debug: with more bits the debug build creates no workspace for any stack (it panics). False of release builds: C113_release shows that num_bits counts modulo 32, C113_release_false that with 32 bits a workspace is created whose table has one feature, to which every feature is mapped."
  },
  {
   "property": "C114",
   "status": "partial",
   "theorems": [
    "Rml.Cfg.C114_accepted_partial",
    "Rml.Cfg.C114_interactions_false"
   ],
   "note": "C114_accepted_partial: without interactions every typed dictionary is read and means what it says. False otherwise: C114_interactions_false shows that no dictionary with interactions of the published type is accepted, because the code expects lists of lists and the key Name where the types say a list and name."
  },
  {
   "property": "C115",
   "status": "partial",
   "theorems": [
    "Rml.C115_unchecked",
    "Rml.C115_uniform_false",
    "Rml.C115_greedy_false",
    "Rml.C115_lambda_false",
    "Rml.C115_gamma_false"
   ],
   "note": "False of the code, for every stack and every such setting. C115_unchecked: whether a workspace is created does not depend on any number in the configuration. C115_uniform_false: with a uniform epsilon outside [0, 1] every prediction panics, after any history, for any numbers (also f32). C115_greedy_false: with epsilon above 1 the best action is the least likely, with a negative epsilon probabilities are negative. C115_lambda_false and C115_gamma_false: negative lambda and gamma. For settings inside the range see C20 to C22 and C110."
  },
  {
   "property": "C116",
   "status": "partial",
   "theorems": [
    "Rml.C116_stack_false",
    "Rml.C116_exact",
    "Rml.C116_outside_false",
    "Rml.C116_exact_debug",
    "Rml.C116_bandit_false",
    "Rml.C116_bandit_exact",
    "Rml.C116_bandit_learn_mtr",
    "Rml.C116_bandit_learn_ips",
    "Rml.C116_below_false"
   ],
   "note": "False as stated. C116_exact_debug: for an ElementwiseInteraction over Coin, after any history, an example with two vectors is served exactly if the index of the product namespace plus the length of the shorter vector is at most 2^num_bits (the index of a product is not masked) and, in debug builds, no value is infinite or NaN; C116_exact is the release case without the condition on composite namespaces. C116_outside_false: otherwise every call panics. C116_bandit_exact, C116_bandit_false: the same for predicting below CbAdf, action by action, with the shared features appended. C116_bandit_learn_mtr and C116_bandit_learn_ips: the same for learning, in mtr mode for the chosen action only. C116_below_false: in the debug profile every call panics if the first feature of one namespace has an index below the hash of the namespace, as named features can have. C116_stack_false: the panics in every stack with further reductions (CbAdf, explorers, Binary, Debug) above ElementwiseInteraction, and Debug below it. Missing: the exact condition for such stacks, and several ElementwiseInteractions on top of each other."
  },
  {
   "property": "C117",
   "status": "partial",
   "theorems": [
    "Rml.C117_predict_f32_partial",
    "Rml.C117_predict_f32_false",
    "Rml.C117_predict",
    "Rml.C117_learn_partial",
    "Rml.C117_history_partial",
    "Rml.C117_zero_false",
    "Rml.C117_learn_false",
    "Rml.C117_predict_interactions_partial",
    "Rml.C117_learn_interactions_partial"
   ],
   "note": "False of the code for learning: C117_zero_false (leaving a feature of value 0 out of one example changes later predictions) and C117_learn_false (it changes the largest gradient of the weight and the weight used in predictions). C117_predict is the full statement for predictions. C117_learn_partial states everything that is the same after one learn call; C117_history_partial: features that are 0 in all examples of the history that list them do not matter for any prediction. These use exact arithmetic, without configured interactions. C117_predict_interactions_partial and C117_learn_interactions_partial: the same with configured interactions (exact arithmetic), except those of three namespaces of which the last two are the same. On f32 bit patterns, C117_predict_f32_partial: the predictions are the same bit for bit if the weights of the zeros are finite; C117_predict_f32_false: otherwise they can differ, 0 times an overflowed weight is NaN."
  },
  {
   "property": "C118",
   "status": "partial",
   "theorems": [
    "Rml.C118_interactions_partial",
    "Rml.C118_constant"
   ],
   "note": "C118_constant (the constant, complete) and C118_interactions_partial: after any training, for any numbers and so also bit for bit on f32, the predictions are the ones of a regressor without constant and interactions that is given the products and the constant as listed features. Missing: interactions of three namespaces of which the last two are the same, where the code does not use all products (C14_false_last_two_equal, C14_false_all_equal)."
  }
 ]
}