{"id": "C01", "title": "Every feature index handed to a model is inside the weight table", "statement": "For every configuration with numBits <= 31, every feature visited when predicting or learning (a parsed feature, a quadratic or cubic interaction feature, or the constant feature) has an index strictly below 2^numBits, provided the features of the example themselves are below 2^numBits as all parsers produce.", "quantifier": "all examples, namespaces, feature indices, interaction lists, seeds and numBits <= 31", "why_tests_cant": "the hash space has 2^32 values per feature and interactions multiply them; tests can only sample a few indices", "anchors": ["reductionml-core/src/types.rs: FeatureMask::from_num_bits, FeatureMask::mask", "reductionml-core/src/weights.rs: foreach_feature", "reductionml-core/src/sparse_namespaced_features.rs: constant_feature_index"]}
{"id": "C02", "title": "Masking feature hashes early or late gives the same interaction index", "statement": "The index the model uses for an interaction feature, computed from already masked feature indices, equals the low numBits bits of the interaction hash computed from the full 32-bit feature hashes, for any number of interacted terms, as the inverse hash table promises.", "quantifier": "all 32-bit hashes, all numBits, all numbers of terms", "why_tests_cant": "identity over the whole 2^32 hash space and unbounded number of terms", "anchors": ["reductionml-core/src/inverse_hash_table.rs: Feature::hash (Interacted)", "reductionml-core/src/weights.rs: foreach_feature", "reductionml-core/src/sparse_namespaced_features.rs: quadratic_feature_hash, cubic_feature_hash"]}
{"id": "C03", "title": "Names reported by the inverse hash table hash to the index that was learned", "statement": "For every parsed feature, hashing the feature name object built from it gives the same hash as the parser used for the same namespace and seed, so a lookup by model index finds the feature name. Expected for every namespace, including the default one.", "quantifier": "all namespaces names, feature names, string values, offsets, seeds and hash functions", "why_tests_cant": "must hold for every string and for any hash function", "anchors": ["reductionml-core/src/inverse_hash_table.rs: Feature::hash, Feature::from_parsed_feature", "reductionml-core/src/parsers.rs: ParsedFeature::hash", "reductionml-core/src/sparse_namespaced_features.rs: Namespace::from_name"]}
{"id": "C04", "title": "Weight table accesses never go out of bounds", "statement": "For every table created by DenseWeights::new and every feature index below the feature size and model index below the model size, weight_at, state_at and state_at_mut return a slot of exactly feature_state_size values inside the table and do not panic.", "quantifier": "all table dimensions accepted by the constructor and all in-range indices", "why_tests_cant": "three independent dimensions with non power of two sizes", "anchors": ["reductionml-core/src/dense_weights.rs: DenseWeights::new, convert_index, weight_at, state_at, state_at_mut"]}
{"id": "C05", "title": "Weight slots of different features and models are independent", "statement": "Writing the state of one (feature, model) pair never changes the state read for any other pair, and reading a pair back returns exactly what was last written to it, for every history of writes.", "quantifier": "all dimensions, all pairs of in-range coordinates, all write histories", "why_tests_cant": "aliasing of packed index arithmetic can only be excluded by quantifying over all coordinates", "anchors": ["reductionml-core/src/dense_weights.rs: convert_index, state_at, state_at_mut"]}
{"id": "C06", "title": "Binary model serialisation of weights is lossless", "statement": "Serialising a weight vector to its sparse form and deserialising it yields the same vector (equal under float comparison with zero; only the sign of a negative zero can be lost), for every vector.", "quantifier": "all weight vectors of all lengths", "why_tests_cant": "unbounded vectors, including all zero patterns", "anchors": ["reductionml-core/src/dense_weights.rs: SparseF32Vec::from_dense, SparseF32Vec::to_dense"]}
{"id": "C07", "title": "JSON model serialisation of weights is lossless", "statement": "Converting a weight table to the nested per-feature JSON form and back yields the same table, for every table reachable from a new one by writing slots, regardless of the iteration order of the hash map.", "quantifier": "all table dimensions, all write histories, all hash map iteration orders", "why_tests_cant": "depends on dimensions, padding between slots and hash map order", "anchors": ["reductionml-core/src/dense_weights.rs: DenseWeightsWithNDArray::from_dense_weights, to_dense_weights"]}
{"id": "C08", "title": "JSON rewriting of a whole model touches exactly the weight tables and is reversible", "statement": "For every model whose numbers are finite (JSON has no NaN or infinity; with one of those among the weights serialize_to_json panics), serialize_to_json followed by the inverse rewriting restores the JSON document of the model at every nesting depth, and the loaded model behaves like the saved one; parts of any document that are not weight tables are left untouched.", "quantifier": "all JSON documents of all nesting depths", "why_tests_cant": "recursion over unbounded documents", "anchors": ["reductionml-core/src/workspace.rs: rewrite_json_sparse_to_ndarray, rewrite_json_ndarray_to_sparse, serialize_to_json, deserialize_from_json"]}
{"id": "C09", "title": "Appending then removing shared features restores an example", "statement": "a.append(s) followed by a.remove(s) leaves every namespace of a with the same features in the same order and the same visibility as before. Expected for all a and s.", "quantifier": "all pairs of sparse feature objects", "why_tests_cant": "depends on overlap patterns of namespaces, emptiness and reuse history", "anchors": ["reductionml-core/src/sparse_namespaced_features.rs: SparseFeatures::append, SparseFeatures::remove"]}
{"id": "C10", "title": "Sparse features behave like a map from namespaces to feature lists", "statement": "Any sequence of API calls (get_or_create, add_feature(s), clear, remove_namespace, set_namespace, append) has the effect of the same calls on a simple map from namespace to ordered feature list; get_namespace and all_features report exactly that map, with namespaces in a fixed order.", "quantifier": "all operation sequences of any length", "why_tests_cant": "state space of histories is unbounded and includes objects reused after clear", "anchors": ["reductionml-core/src/sparse_namespaced_features.rs: SparseFeatures"]}
{"id": "C11", "title": "A recycled feature object is indistinguishable from a new one", "statement": "After clear_and_return_object and get_object, in any order and number, an object obtained from the pool reports no features and no namespaces, and everything later built in it is what would be built in a fresh object, whatever it held before.", "quantifier": "all pool histories (returns and gets, any interleaving), all contents", "why_tests_cant": "leaks depend on which examples the object carried before", "anchors": ["reductionml-core/src/object_pool.rs: Pool::get_object, Pool::return_object", "reductionml-core/src/sparse_namespaced_features.rs: clear, clear_and_return_object", "reductionml-core/src/types.rs: PoolReturnable for Features"]}
{"id": "C12", "title": "Each feature of an example contributes exactly once", "statement": "A prediction or learning pass visits every feature of the example exactly once with its own value, the constant feature exactly once with value 1 when enabled and never otherwise, plus interaction features; nothing else.", "quantifier": "all examples and configurations", "why_tests_cant": "unbounded number of namespaces and features", "anchors": ["reductionml-core/src/weights.rs: foreach_feature, foreach_feature_with_state, foreach_feature_with_state_mut"]}
{"id": "C13", "title": "Quadratic interactions enumerate each pair exactly once", "statement": "For namespaces A != B every pair (a,b) is visited exactly once; for A = B every unordered pair, including a feature with itself, is visited exactly once; missing namespaces contribute nothing; the value is the product.", "quantifier": "all feature lists of both namespaces", "why_tests_cant": "combinatorial in unbounded list sizes", "anchors": ["reductionml-core/src/weights.rs: foreach_feature (quadratics)"]}
{"id": "C14", "title": "Cubic interactions enumerate each combination exactly once", "statement": "For a cubic interaction every combination (as an unordered selection when namespaces coincide) is visited exactly once. Expected for every choice of equal or different namespaces.", "quantifier": "all feature lists, all coincidence patterns of the three namespaces", "why_tests_cant": "combinatorial in unbounded list sizes and coincidence patterns", "anchors": ["reductionml-core/src/weights.rs: foreach_feature (cubics)"]}
{"id": "C15", "title": "Interaction configuration is compiled completely or rejected", "statement": "compile_interactions accepts exactly the lists in which every interaction has two or three namespaces; the result keeps all pairs and all triples in order with the namespaces named by the user.", "quantifier": "all interaction lists, seeds", "why_tests_cant": "unbounded lists of lists", "anchors": ["reductionml-core/src/interactions.rs: compile_interactions, hash_interaction, NamespaceDef::to_namespace"]}
{"id": "C16", "title": "An interaction or reduction refers to the namespace the parser fills", "statement": "A namespace name used in the configuration resolves to the same namespace as the same name in the data. Expected for every name, including ':default'.", "quantifier": "all names and seeds", "why_tests_cant": "ranges over all strings", "anchors": ["reductionml-core/src/interactions.rs: NamespaceDef::to_namespace", "reductionml-core/src/sparse_namespaced_features.rs: Namespace::from_name"]}
{"id": "C17", "title": "enforce_min_prob returns a distribution with the requested floor", "statement": "For epsilon in (0,1] and nonnegative inputs with nonempty support, enforce_min_prob returns probabilities that sum to 1, each action in the support gets at least epsilon/support, actions with probability 0 stay 0 when zeros are not considered, action ids and their order are unchanged.", "quantifier": "all inputs of all lengths, all epsilon, in exact arithmetic", "why_tests_cant": "correctness of the projection depends on all relative magnitudes of an unbounded vector", "anchors": ["reductionml-core/src/explore.rs: enforce_min_prob"]}
{"id": "C18", "title": "enforce_min_prob keeps the ranking and does not move a distribution that already satisfies the floor", "statement": "The output preserves the order of probabilities; if the input already is a distribution with every supported entry at least epsilon/support (and epsilon <= 0.999) it is returned unchanged.", "quantifier": "all inputs of all lengths, all epsilon, in exact arithmetic", "why_tests_cant": "relational property over pairs of entries of unbounded vectors", "anchors": ["reductionml-core/src/explore.rs: enforce_min_prob"]}
{"id": "C19", "title": "enforce_min_prob rejects exactly the invalid requests", "statement": "It returns an error exactly for an empty slice or an epsilon outside [0,1], returns the input unchanged for epsilon 0, and otherwise never fails on comparable numbers.", "quantifier": "all inputs and epsilons", "why_tests_cant": "boundary conditions over a continuous range", "anchors": ["reductionml-core/src/explore.rs: enforce_min_prob"]}
{"id": "C20", "title": "Epsilon-greedy returns the documented distribution", "statement": "For any scores, CbExploreAdfGreedy gives the first lowest-score action 1 - epsilon + epsilon/n and every other action epsilon/n; the result sums to 1, is nonnegative for epsilon in [0,1], and keeps one entry per action in order.", "quantifier": "all score vectors of all lengths, all epsilon", "why_tests_cant": "unbounded action sets with ties", "anchors": ["reductionml-core/src/reductions/cb_explore_adf_greedy.rs: action_scores_to_probs"]}
{"id": "C21", "title": "Softmax exploration returns a valid distribution ordered by score", "statement": "Softmax exploration returns probabilities in [0,1] that sum to 1, all positive, with lower cost never getting lower probability (lambda >= 0), depending only on score differences.", "quantifier": "all score vectors, all lambda >= 0, all epsilon in [0,1], in real arithmetic", "why_tests_cant": "continuous domain, unbounded action sets", "anchors": ["reductionml-core/src/reductions/cb_explore_adf_softmax.rs: predict", "reductionml-core/src/explore.rs: enforce_min_prob"]}
{"id": "C22", "title": "SquareCB exploration returns a valid distribution favouring the best action", "statement": "SquareCB returns probabilities that are nonnegative and sum to 1, every non-best action gets at most 1/n, the best action at least 1/n, and lower cost never gets lower probability, for any history of learning.", "quantifier": "all score vectors, all gamma >= 0, all epsilon in [0,1], any number of learned examples", "why_tests_cant": "continuous domain, unbounded action sets and histories", "anchors": ["reductionml-core/src/reductions/cb_explore_adf_squarecb.rs: predict", "reductionml-core/src/explore.rs: enforce_min_prob"]}
{"id": "C23", "title": "SquareCB exploration schedule counts learned examples", "statement": "The exploration parameter used by a prediction is gammaScale * n^gammaExponent where n is the number of examples learned so far, whatever predictions were interleaved; the logged probability does not influence learning.", "quantifier": "all interleavings of predict, learn and predict_then_learn", "why_tests_cant": "histories are unbounded", "anchors": ["reductionml-core/src/reductions/cb_explore_adf_squarecb.rs: predict, learn"]}
{"id": "C24", "title": "Prediction does not change the model", "statement": "predict leaves the model unchanged: any number of predictions between two operations does not influence later predictions or learning.", "quantifier": "all stacks, all histories", "why_tests_cant": "needs every interleaving of predictions in a history", "anchors": ["reductionml-core/src/workspace.rs: Workspace::predict", "reductionml-core/src/reduction.rs: ReductionWrapper::predict", "reductionml-core/src/reductions"]}
{"id": "C25", "title": "predict_then_learn equals predict followed by learn", "statement": "For every reduction stack, predict_then_learn returns the prediction predict would have returned and leaves the model exactly as predict followed by learn would, including reductions that override it.", "quantifier": "all well formed stacks of any depth, all features and labels", "why_tests_cant": "stack depth and the composition of overridden methods is unbounded", "anchors": ["reductionml-core/src/reduction.rs: ReductionImpl::predict_then_learn", "reductionml-core/src/reductions/binary.rs", "reductionml-core/src/reductions/debug.rs", "reductionml-core/src/reductions/elementwise_interaction.rs"]}
{"id": "C26", "title": "Predicting and learning leave the caller's features as they were", "statement": "After predict, learn or predict_then_learn the features passed in contain the same namespaces, features, values and visibility as before. Expected for every stack and example.", "quantifier": "all stacks, all examples", "why_tests_cant": "depends on namespace overlap, emptiness, and nesting of reductions that edit features in place", "anchors": ["reductionml-core/src/reduction.rs: ReductionWrapper::predict/learn (debug check)", "reductionml-core/src/reductions/cb_adf.rs", "reductionml-core/src/reductions/elementwise_interaction.rs"]}
{"id": "C27", "title": "The model offset bookkeeping is restored after every call", "statement": "The depth bookkeeping passed through the stack is the same after each predict, learn and predict_then_learn as before, so the internal assertions never fire, for every stack created through a configuration.", "quantifier": "all created stacks, all inputs", "why_tests_cant": "unbounded stack depth", "anchors": ["reductionml-core/src/reduction.rs: DepthInfo, ReductionWrapper, predict_then_learn"]}
{"id": "C28", "title": "A stack that was created is type correct", "statement": "If creating a workspace succeeds, every reduction in the stack agrees with the one below on label, feature and prediction types, and predict on features of the declared type never fails with a type mismatch and returns the declared prediction type; learn with the declared label type never fails with a type mismatch.", "quantifier": "all configurations of any nesting depth, all inputs of declared types", "why_tests_cant": "recursive configurations are unbounded", "anchors": ["reductionml-core/src/reduction.rs: ReductionTypeDescription::check_and_get_reason", "reductionml-core/src/reductions: create functions", "reductionml-core/src/types.rs: AsInner"]}
{"id": "C29", "title": "Ill-typed configurations are rejected", "statement": "Creating a stack fails whenever some reduction's base has a different label, feature or prediction type than required, or names an unknown reduction at any depth.", "quantifier": "all configurations of any nesting depth", "why_tests_cant": "recursive configurations are unbounded", "anchors": ["reductionml-core/src/reduction_factory.rs: parse_config, create_reduction", "reductionml-core/src/reductions: create functions", "reductionml-core/src/reduction_registry.rs"]}
{"id": "C30", "title": "CbAdf returns one independent score per action in order", "statement": "CbAdf's prediction lists actions 0..n-1 in order, and the score of an action is what the base learner predicts for that action's features plus the shared ones; it does not depend on the other actions, their number or their order.", "quantifier": "all action lists of any length", "why_tests_cant": "unbounded action sets, leaks between actions through in-place editing", "anchors": ["reductionml-core/src/reductions/cb_adf.rs: predict"]}
{"id": "C31", "title": "CbAdf reduces to the documented regression examples", "statement": "In ips mode every action is learned once, in order, with cost/probability for the chosen one and 0 for the others, weight 1. In mtr mode only the chosen action is learned, with its cost and weight (1/probability) * events/actions over the whole history.", "quantifier": "all histories of labelled events with any numbers of actions", "why_tests_cant": "weights depend on the whole history", "anchors": ["reductionml-core/src/reductions/cb_adf.rs: learn, generate_ips_simple_label"]}
{"id": "C32", "title": "CbAdf learns the same features it predicts with", "statement": "The multiset of (index, value) pairs used when learning the chosen action is the one used when predicting that action. Expected for every configuration.", "quantifier": "all examples and interaction configurations", "why_tests_cant": "hash of interactions depends on feature order for every overlap pattern", "anchors": ["reductionml-core/src/reductions/cb_adf.rs: predict, learn", "reductionml-core/src/weights.rs"]}
{"id": "C33", "title": "CbAdf accepts examples without shared features", "statement": "Shared features are optional: predicting and learning work for examples without them. Expected in both ips and mtr mode.", "quantifier": "all examples without shared features", "why_tests_cant": "ranges over all examples and histories", "anchors": ["reductionml-core/src/reductions/cb_adf.rs: learn", "docs/source/input_formats.md"]}
{"id": "C34", "title": "Binary reduction is the sign of its regressor", "statement": "The Binary reduction predicts true exactly when the base prediction is positive and trains the base with +1 or -1 at weight 1.", "quantifier": "all stacks below, all inputs and histories", "why_tests_cant": "ranges over all base models", "anchors": ["reductionml-core/src/reductions/binary.rs"]}
{"id": "C35", "title": "Debug reduction is transparent", "statement": "Inserting Debug reductions anywhere in a stack changes neither predictions nor what is learned.", "quantifier": "all stacks, all positions, all histories", "why_tests_cant": "unbounded stacks and histories", "anchors": ["reductionml-core/src/reductions/debug.rs"]}
{"id": "C36", "title": "Coin predictions stay within the range of labels seen", "statement": "For every training history the Coin prediction (identity link, squared loss) lies between the smallest and largest label seen, including 0, and a prediction never panics, even if labels or weights were NaN or infinite.", "quantifier": "all training histories and examples, for any float semantics with IEEE min/max/compare", "why_tests_cant": "unbounded histories and special float values", "anchors": ["reductionml-core/src/reductions/coin.rs: predict, learn, CoinRegressor::new"]}
{"id": "C37", "title": "Learning only changes the weights of the example's own features", "statement": "A learn call changes only the weight slots whose indices are produced by the example's features, its interactions or the constant; predictions for examples that touch none of them keep their raw value.", "quantifier": "all models, examples, configurations", "why_tests_cant": "aliasing over the whole table for every example", "anchors": ["reductionml-core/src/reductions/coin.rs: coin_betting_update_after_predict", "reductionml-core/src/weights.rs"]}
{"id": "C38", "title": "Coin per-weight statistics stay consistent", "statement": "For every history: the accumulated absolute gradient is at least the absolute accumulated gradient, the tracked maximum feature magnitude and gradient bound only grow and dominate every value seen at that weight.", "quantifier": "all training histories, in exact arithmetic", "why_tests_cant": "inductive invariant over unbounded histories", "anchors": ["reductionml-core/src/reductions/coin.rs: coin_betting_update_after_predict"]}
{"id": "C39", "title": "The coin betting wealth never reaches zero", "statement": "alpha plus the accumulated reward of every weight stays strictly positive for every history with nonnegative label weights and any labels, so the bettor can always bet.", "quantifier": "all training histories, in exact arithmetic", "why_tests_cant": "inductive invariant over unbounded histories, needs a real inequality at every step", "anchors": ["reductionml-core/src/reductions/coin.rs: coin_betting_update_after_predict"]}
{"id": "C40", "title": "A model predicts zero until it has something to say", "statement": "A fresh model predicts 0 for every example (raw), and an example whose features (and interactions, constant) were never trained gets raw prediction 0 after any history.", "quantifier": "all examples, all configurations, all histories", "why_tests_cant": "ranges over all examples and histories", "anchors": ["reductionml-core/src/reductions/coin.rs: new, predict"]}
{"id": "C41", "title": "The configured loss function drives learning", "statement": "Configuring the logistic loss makes the Coin reduction learn with the gradient of the logistic loss. Expected by the configuration option lossFunction.", "quantifier": "all configurations and examples", "why_tests_cant": "observable only through the update for arbitrary examples", "anchors": ["reductionml-core/src/reductions/coin.rs: CoinRegressor::new, coin_betting_update_after_predict"]}
{"id": "C42", "title": "Loss derivatives are the derivatives of the loss", "statement": "first_derivative and second_derivative of squared and logistic loss are the mathematical derivatives of get_loss with respect to the prediction (squared: inside and outside the label range); losses are nonnegative and get_square_grad is the square of the derivative inside the range.", "quantifier": "all real predictions, labels and ranges", "why_tests_cant": "statement about limits over the reals", "anchors": ["reductionml-core/src/loss_function/squared_loss.rs", "reductionml-core/src/loss_function/logistic_loss.rs"]}
{"id": "C43", "title": "Importance-weighted squared updates never overshoot", "statement": "The squared loss get_update, applied for total importance h at once or split in two parts, moves the prediction to the same point, monotonically towards the label and never past it (outside the small-step Taylor branch).", "quantifier": "all real predictions, labels, scales", "why_tests_cant": "functional equation over the reals", "anchors": ["reductionml-core/src/loss_function/squared_loss.rs: get_update, get_unsafe_update"]}
{"id": "C44", "title": "Reading a VW text file loses and invents nothing (single line)", "statement": "Reading chunks until the end yields exactly the non-blank lines of the input, in order, each without trailing whitespace, and the reader stops.", "quantifier": "all input texts", "why_tests_cant": "unbounded inputs with arbitrary blank lines, final newline or not", "anchors": ["reductionml-core/src/parsers/vw_text_parser.rs: read_single_line, get_next_chunk"]}
{"id": "C45", "title": "Reading a multi-line VW file groups examples at blank lines", "statement": "Reading chunks until the end yields exactly the maximal groups of consecutive non-blank lines, in order, joined by newlines, with trailing whitespace removed; parsing a chunk sees the same lines.", "quantifier": "all input texts", "why_tests_cant": "unbounded inputs with arbitrary blank lines", "anchors": ["reductionml-core/src/parsers/vw_text_parser.rs: read_multi_lines, get_next_chunk, parse_chunk"]}
{"id": "C46", "title": "VW text features parse to the described features", "statement": "Rendering any list of namespaces with scale and features (named with numeric, string or no value, or anonymous) as VW text and parsing it produces exactly those features: named features hashed by name in their namespace, numeric values multiplied by the namespace scale, anonymous features numbered in order, repeated namespaces accumulated.", "quantifier": "all well formed examples of any size, any hash function and float syntax", "why_tests_cant": "round trip over an unbounded grammar", "anchors": ["reductionml-core/src/parsers/vw_text_parser.rs: parse_text_line_internal, parse_namespace_inline, parse_feature"]}
{"id": "C47", "title": "VW text labels are read as documented", "statement": "A simple label is value with optional weight (default 1); an unlabelled example has no label; a trailing token that is not separated from the bar by a space, or that starts with a quote, is a tag and never a label; anything else before the bar is not accepted.", "quantifier": "all label segments", "why_tests_cant": "ranges over all strings", "anchors": ["reductionml-core/src/parsers/vw_text_parser.rs: parse_initial_segment, parse_label, finalize_parsed_result_singleline"]}
{"id": "C48", "title": "VW text contextual bandit examples are assembled correctly", "statement": "In a multi-line example a leading shared line becomes the shared features and every other line one action in order; the label's action index is the position of the labelled line among the actions; two labelled lines are rejected; no label gives no label; a label that is neither `shared` nor `action:cost:probability` is rejected.", "quantifier": "all chunks of any number of lines", "why_tests_cant": "unbounded numbers of lines and label positions", "anchors": ["reductionml-core/src/parsers/vw_text_parser.rs: finalize_parsed_result_multiline, parse_label"]}
{"id": "C49", "title": "JSON features parse to the described features", "statement": "For every JSON example in the documented feature format, parsing yields exactly the described features: number lists become consecutive indices from the namespace hash, string lists and object entries become hashed names, false booleans are dropped, ':default' is the default namespace. Expected for every example in the format whatever was parsed before.", "quantifier": "all JSON examples in the documented format, all pool histories", "why_tests_cant": "unbounded inputs and reuse histories", "anchors": ["reductionml-core/src/parsers/json_parser.rs: to_features, parse_features", "docs/source/input_formats.md"]}
{"id": "C50", "title": "JSON labels parse as documented", "statement": "A simple label object yields its value and weight, with weight defaulting to 1.0 when absent; a missing label yields no label; a CB label yields action, cost, probability.", "quantifier": "all JSON label objects", "why_tests_cant": "ranges over all documents", "anchors": ["reductionml-core/src/parsers/json_parser.rs: parse_label", "reductionml-core/src/types.rs: SimpleLabel", "docs/source/input_formats.md"]}
{"id": "C51", "title": "DsJson parsing follows the nesting of the document", "statement": "For every DsJson document, each number, string or true value becomes a feature in the namespace named by the nearest enclosing key, keys starting with an underscore contribute nothing at any depth, and the namespace stack is balanced after every value.", "quantifier": "all JSON documents of any depth", "why_tests_cant": "recursion over unbounded documents", "anchors": ["reductionml-core/src/parsers/dsjson_parser.rs: handle_features, parse_chunk"]}
{"id": "C52", "title": "Parsing does not depend on pool history", "statement": "The result of parsing a chunk is the same, as far as any API can observe, whatever objects the pool holds from earlier examples. Expected for all formats.", "quantifier": "all chunks, all pool histories", "why_tests_cant": "reuse histories are unbounded", "anchors": ["reductionml-core/src/parsers/vw_text_parser.rs: parse_chunk", "reductionml-core/src/parsers/json_parser.rs: parse_features", "reductionml-core/src/sparse_namespaced_features.rs: reserve"]}
{"id": "C53", "title": "Multi-threaded training gives the same result as single-threaded training", "statement": "For any number of parser threads, queue size and schedule, the learner processes exactly the parsed chunks in file order, so the final model, metrics and predictions equal those of numParseThreads = 0.", "quantifier": "all schedules of the input, parser and learner threads, all queue sizes >= 1, all inputs", "why_tests_cant": "the number of interleavings is unbounded", "anchors": ["reductionml-cli/src/train.rs: TrainCommand::execute, ParseResult"]}
{"id": "C54", "title": "Multi-threaded training never deadlocks", "statement": "In every reachable state of the training pipeline in which training is not finished, some thread can take a step, and every schedule terminates, if parsing succeeds on every chunk, for every queue size >= 1 and at least one parser thread.", "quantifier": "all reachable states under all schedules", "why_tests_cant": "deadlocks depend on rare schedules and full/empty queue combinations", "anchors": ["reductionml-cli/src/train.rs: TrainCommand::execute, ParseResult"]}
{"id": "C55", "title": "A parsed result is handed over exactly once", "statement": "Each example slot is filled by exactly one parser thread and read by the learner only after it was filled, so the unsafe cells are never accessed concurrently and the internal assertions never fire.", "quantifier": "all schedules", "why_tests_cant": "data races depend on the schedule", "anchors": ["reductionml-cli/src/train.rs: ParseResult::get_input, set_result, await_result"]}
{"id": "C56", "title": "Metrics are the documented averages over all examples", "statement": "After any stream of examples mse is the mean squared error, ips the mean of -cost * predicted/logged probability, parsed_features the total number of features, example_number one less than the number of examples.", "quantifier": "all streams of examples, in exact arithmetic", "why_tests_cant": "unbounded streams", "anchors": ["reductionml-core/src/metrics/mean_squared_error.rs", "reductionml-core/src/metrics/ips.rs", "reductionml-core/src/metrics/parsed_features.rs", "reductionml-core/src/metrics/example_number.rs"]}
{"id": "C57", "title": "Progress output follows the configured period", "statement": "With an additive period p >= 1 results are printed exactly at iterations 0, p, 2p, ...; with a multiplicative period the sequence of printed iterations is determined by multiplying, starting with 0 and 1; the first example is always printed.", "quantifier": "all periods and numbers of iterations", "why_tests_cant": "unbounded iteration counts", "anchors": ["reductionml-cli/src/train.rs: TrainResultManager::inc_iteration"]}
{"id": "C58", "title": "Reduction type names are validated", "statement": "A PascalCaseString can be built from a string exactly if it is nonempty, starts with an ASCII uppercase letter and is ASCII alphanumeric; all registered names qualify and are found by the registry.", "quantifier": "all strings", "why_tests_cant": "ranges over all strings", "anchors": ["reductionml-core/src/reduction_factory.rs: PascalCaseString", "reductionml-core/src/reduction_registry.rs"]}
{"id": "C59", "title": "Saving and loading a model does not change its behaviour", "statement": "A workspace saved to binary form after any history and loaded again makes the same predictions and learns in the same way as the original from then on.", "quantifier": "all stacks, all histories before saving, all continuations after loading", "why_tests_cant": "unbounded histories on both sides of the save", "anchors": ["reductionml-core/src/workspace.rs: serialize_model, create_from_model", "reductionml-core/src/dense_weights.rs", "reductionml-core/src/reductions: Serialize/Deserialize of states"]}
{"id": "C60", "title": "Elementwise interaction multiplies matching positions", "statement": "For two dense namespaces the ElementwiseInteraction reduction gives its base exactly the products of the values at equal offsets, under consecutive indices from the composite base, and otherwise the original features or none of the two namespaces as configured.", "quantifier": "all pairs of dense vectors of any lengths, all hashes where the vectors do not wrap around the index space", "why_tests_cant": "unbounded vectors and merge order", "anchors": ["reductionml-core/src/reductions/elementwise_interaction.rs: elementwise_multiply, predict, learn"]}
{"id": "C61", "title": "Linear predictions are linear", "statement": "With the identity link and inside the label range, a Coin raw prediction is the sum over features of value times weight, additive over namespaces and independent of the order in which features were added within a namespace when no interactions are used.", "quantifier": "all examples and models, in exact arithmetic", "why_tests_cant": "unbounded examples and permutations", "anchors": ["reductionml-core/src/reductions/coin.rs: predict", "reductionml-core/src/weights.rs"]}
{"id": "C62", "title": "JSON and DsJson input is read line by line", "statement": "Asking for chunks of JSON or DsJson input until there is none delivers every line exactly once and in order, blank lines and a last line without a newline included, and loses or repeats no character.", "quantifier": "all input texts", "why_tests_cant": "ranges over all texts", "anchors": ["reductionml-core/src/parsers/json_parser.rs: get_next_chunk", "reductionml-core/src/parsers/dsjson_parser.rs: get_next_chunk"]}
{"id": "C63", "title": "A configuration means what it says", "statement": "A configuration document is accepted exactly when it gives known settings with values of the right kind, and the workspace then has, for every reduction at every depth and for the global settings, the given value of each setting, the default for each setting left out, and the default reduction where none is given; a document never has two readings.", "quantifier": "all configuration documents", "why_tests_cant": "ranges over all documents and nestings of reductions", "anchors": ["reductionml-core/src/workspace.rs: Configuration, Workspace::new", "reductionml-core/src/reduction_factory.rs: JsonReductionConfig, parse_config", "reductionml-core/src/global_config.rs: GlobalConfig", "reductionml-core/src/reductions/*.rs: the config structs"]}
{"id": "C64", "title": "No key of a configuration is ignored", "statement": "A configuration that contains a key nobody reads, anywhere in it, is rejected instead of being accepted with a default in its place.", "quantifier": "all configuration documents, keys and depths", "why_tests_cant": "ranges over all documents, keys and nestings", "anchors": ["reductionml-core/src/workspace.rs: Configuration", "reductionml-core/src/reduction_factory.rs: JsonReductionConfig", "reductionml-core/src/config_schema.rs: add_reduction"]}
{"id": "C65", "title": "Emitted configurations are valid", "statement": "For every available reduction, the configuration printed by `config new` passes `config check`, and makes the same workspace as a configuration that names the reduction and leaves everything else out.", "quantifier": "all reduction names, schema versions and hash functions", "why_tests_cant": "each default is nested in others and is written and read by different code", "anchors": ["reductionml-cli/src/config.rs: ConfigCommand", "reductionml-core/src/reduction_factory.rs: get_config_default", "reductionml-core/src/reductions/debug.rs: default_next"]}
{"id": "C66", "title": "Every stack can be configured", "statement": "For every stack of known reductions with any settings, and any global settings, there is a configuration document that makes exactly that workspace.", "quantifier": "all stacks, settings and global settings", "why_tests_cant": "ranges over stacks of any height", "anchors": ["reductionml-core/src/reduction_factory.rs: parse_config, create_reduction", "reductionml-core/src/workspace.rs: Workspace::new"]}
{"id": "C67", "title": "Parsed examples are valid", "statement": "Whatever text is parsed, and whatever was parsed before with the same pool of feature objects: if a parser accepts a chunk, the example is well-formed (every namespace has as many values as indices, hidden namespaces are empty, no composite namespaces), so that predicting and learning treat it as the other properties say. Contextual bandit examples have no visible but empty namespace if every namespace written in the text has a feature; DsJson examples never have one.", "quantifier": "all texts, parsers (VW, JSON, DsJson), settings and pool histories", "why_tests_cant": "ranges over all texts and over all histories of the pool", "anchors": ["reductionml-core/src/parsers/vw_text_parser.rs: parse_chunk", "reductionml-core/src/parsers/json_parser.rs: parse_chunk", "reductionml-core/src/parsers/dsjson_parser.rs: parse_chunk", "reductionml-core/src/object_pool.rs: Pool", "reductionml-core/src/sparse_namespaced_features.rs: SparseFeatures"]}
{"id": "C68", "title": "Multi-threaded training from text equals single-threaded training", "statement": "Training a model from a text file with any number of parser threads, where all threads take feature objects from one pool and the learner returns them to it, gives the same model, metrics, progress rows and predictions as the single-threaded loop, or fails at the same example; no assertion fails, no schedule runs for ever, and if the single-threaded loop succeeds the threads do not block for ever.", "quantifier": "all inputs, parsers, models, options, thread counts, queue sizes, pool histories and schedules", "why_tests_cant": "ranges over all schedules and over all inputs; which object a thread gets depends on the schedule", "anchors": ["reductionml-cli/src/train.rs: TrainCommand, process_example", "reductionml-core/src/object_pool.rs: Pool", "reductionml-core/src/parsers/vw_text_parser.rs: parse_chunk", "reductionml-core/src/types.rs: PoolReturnable for Features"]}
{"id": "C69", "title": "Training can be interrupted and resumed", "statement": "Training on a file A, saving the model and training the saved model further on a file B gives the same model file, byte for byte in content, and the same predictions as training once on A followed by B, whatever output options and thread counts the three runs use; and if one way succeeds then so does the other. A must consist of whole examples (complete lines, and a blank line at the end if examples span lines). Data whose parsing depends on the history of the object pool (C52: lists of strings in JSON) is excluded.", "quantifier": "all configurations and saved models, formats, pairs of files, options, thread counts and schedules", "why_tests_cant": "ranges over all ways to cut a file and over all models and schedules", "anchors": ["reductionml-cli/src/train.rs: TrainCommand::execute", "reductionml-core/src/workspace.rs: create_from_model, serialize_model", "reductionml-core/src/weights.rs: DenseWeights"]}
{"id": "C70", "title": "Output and speed options do not change what is learned", "statement": "The model that train saves depends only on the configuration or input model, the format and the data: --quiet, --progress, --metrics, --predictions, --num-parse-threads and --queue-size have no influence on it, and the predictions file is the same in all runs that write one. Runs that differ only in threads and queue size output the same table, predictions and model. If some run succeeds then so does the quiet run, and so does every run with the same output options and any positive number of threads and queue size, under every schedule.", "quantifier": "all configurations and saved models, formats, files (with the exclusions of C69), options and schedules", "why_tests_cant": "ranges over all data and all pairs of option sets and schedules", "anchors": ["reductionml-cli/src/train.rs: TrainArgs, TrainCommand::execute, process_example"]}
{"id": "C71", "title": "Data without examples is not an error", "statement": "Training a saved model on data without examples succeeds and leaves the model file as it is. In every other case the last row of the progress table counts the examples from zero.", "quantifier": "all saved models, formats, options and files", "why_tests_cant": "ranges over all models, options and schedules", "anchors": ["reductionml-cli/src/train.rs: TrainCommand::execute", "reductionml-core/src/metrics/example_number.rs: get_value"]}
{"id": "C72", "title": "The progress option", "statement": "--progress accepts exactly: a whole number below 2^32 (every so many examples), such a number after a plus sign, and a star followed by a floating-point number; it means the number that is written. (A second plus sign is also accepted.)", "quantifier": "all texts", "why_tests_cant": "ranges over all texts", "anchors": ["reductionml-cli/src/train.rs: OutputPeriod, FromStr"]}
{"id": "C73", "title": "Export and import give the model file back", "statement": "export-model followed by import-model gives a model file with the same content, for every model file that train has written, whatever the training history, if all numbers in the model are finite.", "quantifier": "all model files that some history of train commands writes, and all orders in which a hash map lists its entries", "why_tests_cant": "ranges over all training histories", "anchors": ["reductionml-cli/src/export_model.rs", "reductionml-cli/src/import_model.rs", "reductionml-core/src/workspace.rs: serialize_to_json, deserialize_from_json"]}
{"id": "C74", "title": "The names of features match the parsed features", "statement": "Extracting the feature names of an example in VW text gives, for each namespace of the example, the names of all its features in order; hashing the names gives exactly the indices that parsing the same text gives for this namespace.", "quantifier": "all examples in VW text, in one line or in several (contextual bandits)", "why_tests_cant": "ranges over all texts, namespaces, names and numbers of features", "anchors": ["reductionml-core/src/parsers/vw_text_parser.rs: extract_feature_names, extract_namespace_features, parse_namespace_info, parse_feature, parse_namespace_inline", "reductionml-core/src/parsers.rs: ParsedFeature::hash"]}
{"id": "C75", "title": "Python objects do not influence each other through the shared pool", "statement": "All workspaces, parsers and feature objects of a Python process share one pool of recycled feature objects. Nevertheless every call returns what it would return if every object were a value of its own: parsing gives the same features and label whatever was parsed and dropped before, predicting changes nothing, learning changes only the workspace that learns, and dropping an object affects no other object. Errors and panics are the same as well.", "quantifier": "all sequences of calls of the Python API (create from configuration, model or JSON model, create parsers, parse, predict, learn, predict_then_learn, serialize, ask for types, drop), on any number of objects, up to the first panic", "why_tests_cant": "ranges over all histories of creating, using and dropping objects", "anchors": ["reductionml-python/src/lib.rs: SPARSE_FEATURES_POOL", "reductionml-python/src/features.rs", "reductionml-python/src/parsers.rs", "reductionml-python/src/workspace.rs: WrappedWorkspace", "reductionml-core/src/object_pool.rs"]}
{"id": "C76", "title": "Predictions in Python are repeatable", "statement": "If a workspace has predicted for some features, then it predicts the same for these features again as long as it has not been trained in between, whatever other calls are made.", "quantifier": "all sequences of calls of the Python API before and between the two predictions", "why_tests_cant": "ranges over all histories of calls, including training of other workspaces and recycling of other feature objects", "anchors": ["reductionml-python/src/workspace.rs: predict", "reductionml-python/src/features.rs: to_features", "reductionml-core/src/workspace.rs: predict"]}
{"id": "C77", "title": "train does what the library does", "statement": "A successful train has parsed every example of the data, has learned them in the order of the data, and has saved exactly the model that calling learn for these examples gives; the predictions file has, for each example, what predict returns just before the example is learned. Conversely, if the format fits the model and all examples can be parsed and learned then the quiet run succeeds with this model.", "quantifier": "all configurations and saved models, formats, data files (JSON without lists of strings), options, numbers of threads and schedules", "why_tests_cant": "ranges over all data, options and schedules; recycled objects, predict_then_learn and threads must not show", "anchors": ["reductionml-cli/src/train.rs: TrainCommand::execute, process_example", "reductionml-core/src/workspace.rs: predict, learn, predict_then_learn"]}
{"id": "C78", "title": "The progress table shows the metrics of the examples so far", "statement": "The table of train has one row after each example that the progress period selects (for +q: after the first and every q further examples) and one last row. Each row has the number of the example and the values of the chosen metrics, in the order of the options, for the examples up to this row: mse and ips are the averages over predictions made before learning, parsed_features is the total number of features.", "quantifier": "all configurations and saved models, formats, data files with fewer than 2^31 examples (JSON without lists of strings), metrics, periods, numbers of threads and schedules", "why_tests_cant": "ranges over all data, metrics, periods and schedules", "anchors": ["reductionml-cli/src/train.rs: TrainCommand::execute, process_example, TrainResultManager", "reductionml-core/src/metrics/"]}
{"id": "C79", "title": "Well-formed input never crashes a model", "statement": "Take any model with valid configuration and without ElementwiseInteraction, whose softmax and SquareCB reductions have uniform epsilon 0 (the default; with exact arithmetic any uniform epsilon between 0 and 1). Every history of predict, learn and predict_then_learn on well-formed calls succeeds, in both build profiles: the example has the feature type of the model and indices below 2^num_bits, a model that chooses actions gets at least one action, the label has the label type of the model, and in mtr mode the example has shared features and the action of the label. In the debug profile, in addition, values are finite, logged probabilities positive, and contextual bandit examples have no namespaces without features. The conditions are needed: without actions, without the chosen action or shared features in mtr mode, and with infinite values or NaN in the debug profile the call panics.", "quantifier": "all configurations without ElementwiseInteraction, hash functions, arithmetics with IEEE-like comparison, examples and histories of calls", "why_tests_cant": "ranges over all stacks, histories and float values; a panic may need a particular history (learned label range, appended and removed shared features, NaN scores)", "anchors": ["reductionml-core/src/workspace.rs: predict, learn, predict_then_learn", "reductionml-core/src/reduction.rs: ReductionWrapper", "reductionml-core/src/reductions/coin.rs", "reductionml-core/src/reductions/cb_adf.rs", "reductionml-core/src/utils.rs: GetInner"]}
{"id": "C80", "title": "A parsed example fits the model it was parsed for", "statement": "Whatever the text, an example that a parser accepts has the kind of features of the model, its label, if any, has the label type of the model, and every feature index is smaller than 2^num_bits. For VW text, a labelled action is one of the actions of the example. A DsJson example always has shared features.", "quantifier": "all texts, models, hash functions, number parsers and reused feature objects", "why_tests_cant": "ranges over all texts and over all pools of reused objects", "anchors": ["reductionml-core/src/parsers/vw_text_parser.rs: parse_chunk", "reductionml-core/src/parsers/json_parser.rs: parse_chunk", "reductionml-core/src/parsers/dsjson_parser.rs: parse_chunk", "reductionml-core/src/hash.rs"]}
{"id": "C81", "title": "Training on parseable data does not fail", "statement": "Start train, quietly, from a configuration or from a model it has written, without ElementwiseInteraction. If every example of the data can be parsed and has a label then train succeeds and writes the model that learning the examples one after the other gives. In mtr mode the examples also need shared features and the labelled action; in the debug profile also finite values, positive logged probabilities and, for contextual bandit examples, no namespaces without features. In the release profile and outside mtr mode, train succeeds if and only if the format fits the model and every example can be parsed and has a label.", "quantifier": "all configurations and saved models without ElementwiseInteraction, formats and data files (JSON without lists of strings)", "why_tests_cant": "ranges over all data files and stacks; a panic may need a particular sequence of examples", "anchors": ["reductionml-cli/src/train.rs: TrainCommand::execute", "reductionml-core/src/parsers/", "reductionml-core/src/reductions/", "reductionml-core/src/workspace.rs"]}
{"id": "C82", "title": "Training with output does not fail", "statement": "As C81, for train with a progress table or a predictions file, for models whose softmax and SquareCB reductions have uniform epsilon 0: it succeeds if, in addition, the table has at least one example, the metrics exist and suit the model (mse for regression; ips for models that choose actions, with logged actions that exist), the counters of examples and features stay below 2^31, the next row of the progress period stays within 32 bits, and a model that chooses actions gets at least one action.", "quantifier": "all configurations and saved models without ElementwiseInteraction and with uniform epsilon 0, formats, data files (JSON without lists of strings), metrics and periods", "why_tests_cant": "ranges over all data, metrics and periods", "anchors": ["reductionml-cli/src/train.rs: TrainCommand::execute, process_example, TrainResultManager", "reductionml-core/src/metrics/"]}
{"id": "C83", "title": "The published schema describes the configurations that are accepted", "statement": "gen-schema prints the published JSON schema. A configuration from which a workspace can be made is valid according to the schema, and a configuration that is valid according to the schema can be read: it stands for global settings and a stack. What config new emits is valid. Exceptions in the code: a reduction with other keys than typename and config or with config null is accepted but not valid; a reduction without typename, Debug without next, numbers that are too large and a $schema that is not a string are valid but rejected; what config new emits for Debug is not valid.", "quantifier": "all JSON documents (valid documents without repeated keys), and all reductions for config new", "why_tests_cant": "ranges over all documents; the schema is recursive", "anchors": ["reductionml-core/src/config_schema.rs: ConfigSchema::new, add_reduction, gen_json_reduction_config_schema", "reductionml-cli/src/gen_schema.rs: build_json_schema", "schemas/config/latest/schema.json", "reductionml-core/src/workspace.rs: Configuration, Workspace::new"]}
{"id": "C84", "title": "The units of features do not matter", "statement": "If the values of a feature are given in other units, that is multiplied with the same non-zero number in all examples learned from and in the example to predict, then a Coin regressor, and every stack on top of one, makes the same predictions (in exact arithmetic). This holds for every weight at once, with a unit for each.", "quantifier": "all configurations, all histories of examples, all units, all examples to predict", "why_tests_cant": "ranges over all histories and all units", "anchors": ["reductionml-core/src/reductions/coin.rs: CoinRegressor::predict, learn, coin_betting_predict, coin_betting_update_after_predict, inner_coin_betting_predict, inner_coin_betting_update_after_predict", "reductionml-core/src/weights.rs: DenseWeightsWithNDArray"]}
{"id": "C85", "title": "The order of features does not matter", "statement": "If the features of the examples, learned from or to predict, are listed in another order, then a Coin regressor, and every stack on top of one, makes the same predictions (in exact arithmetic), provided features that share a weight stay in their order. The proviso is needed: a feature given twice in an example with different values has another effect in the other order.", "quantifier": "all configurations, all histories of examples, all reorderings", "why_tests_cant": "ranges over all histories and reorderings", "anchors": ["reductionml-core/src/reductions/coin.rs: CoinRegressor::predict, learn, coin_betting_predict, coin_betting_update_after_predict, inner_coin_betting_predict, inner_coin_betting_update_after_predict", "reductionml-core/src/weights.rs: DenseWeightsWithNDArray"]}
{"id": "C86", "title": "Labels of both signs are treated alike", "statement": "If the labels of all examples are negated, then the raw predictions of a Coin regressor are negated, and so are its predictions with the identity link function (in exact arithmetic).", "quantifier": "all configurations, all histories of examples, all examples to predict", "why_tests_cant": "ranges over all histories", "anchors": ["reductionml-core/src/reductions/coin.rs: CoinRegressor::predict, learn, coin_betting_predict, coin_betting_update_after_predict, inner_coin_betting_predict, inner_coin_betting_update_after_predict", "reductionml-core/src/weights.rs: DenseWeightsWithNDArray"]}
{"id": "C87", "title": "Examples with importance weight 0 have no influence", "statement": "Learning from an example with importance weight 0 does not change later predictions. False of the code: it leaves the sums of gradients, the wealth and the sums over all examples alone, but it widens the range of labels, changes the largest value of its features, and brings the weights of its features up to date.", "quantifier": "all configurations, histories and examples", "why_tests_cant": "ranges over all histories", "anchors": ["reductionml-core/src/reductions/coin.rs: CoinRegressor::predict, learn, coin_betting_predict, coin_betting_update_after_predict, inner_coin_betting_predict, inner_coin_betting_update_after_predict", "reductionml-core/src/weights.rs: DenseWeightsWithNDArray"]}
{"id": "C88", "title": "Where an action is listed does not matter", "statement": "If the actions of a contextual bandit event are listed in another order (and the label names the action at its new place), then each action gets the same score and the same probability, and learning leads to the same model. False of the code in two cases: ips mode learns the actions one after the other, so their order has an effect; and with epsilon-greedy and SquareCB exploration, of several actions with the lowest score the one listed first is preferred.", "quantifier": "all models, learned states, events, orders of the actions and labels", "why_tests_cant": "ranges over all states, events and orders", "anchors": ["reductionml-core/src/reductions/cb_adf.rs: predict, learn", "reductionml-core/src/reductions/cb_explore_adf_greedy.rs: predict", "reductionml-core/src/reductions/cb_explore_adf_softmax.rs: predict", "reductionml-core/src/reductions/cb_explore_adf_squarecb.rs: predict", "reductionml-core/src/explore.rs: enforce_min_prob"]}
{"id": "C89", "title": "Names of features do not matter unless two collide", "statement": "The names of features, the hash seed and the number of bits of the feature space have no influence on predictions, as long as no two different features or interactions (or one of them and the constant) fall on the same index: a regressor that learned the same examples under other names, or with fewer bits, makes the same predictions, and so does every stack on top of it. A parser with fewer bits accepts the same input and gives the same example, in which the indices keep their lowest bits. (If two features collide, predictions can change.)", "quantifier": "all configurations, interactions, histories, examples, renamings without collisions, numbers of bits up to 31, and inputs of the three formats", "why_tests_cant": "ranges over all histories, renamings and inputs", "anchors": ["reductionml-core/src/reductions/coin.rs: CoinRegressor::predict, learn", "reductionml-core/src/utils.rs: bits_to_max_feature_index", "reductionml-core/src/weights.rs: foreach_feature", "reductionml-core/src/sparse_namespaced_features.rs: quadratic and cubic iterators", "reductionml-core/src/parsers/vw_text_parser.rs: parse_namespace_inline", "reductionml-core/src/parsers/json_parser.rs: to_features", "reductionml-core/src/parsers/dsjson_parser.rs: handle_features"]}
{"id": "C90", "title": "Off-policy estimates are unbiased", "statement": "Data is logged by a policy that gives each action a positive probability, and the logged probabilities are those of that policy. Then the ips metric of a training run is an unbiased estimate of the average reward (negative cost) of the policies that the model predicts during the run: both have the same expected value, although the model learns from the same data and although events, costs and the logging policy may depend on the past. In ips mode the regressor learns targets whose expected value is the cost of the action; in mtr mode the importance weights make the expected weighted loss proportional to the sum of the losses of all actions, whatever the logging policy is.", "quantifier": "all models, environments, logging policies that explore, costs and numbers of rounds (exact arithmetic)", "why_tests_cant": "a statement about expected values over all logged action sequences, for all environments", "anchors": ["reductionml-core/src/metrics/ips.rs: IpsMetric::add_point, get_value", "reductionml-core/src/reductions/cb_adf.rs: generate_ips_simple_label, learn", "reductionml-cli/src/train.rs: process_example"]}
{"id": "C91", "title": "The input formats agree", "statement": "The same data written as VW text, as a JSON document and (contextual bandits) as a DsJson document is the same example with the same label: same namespaces, feature indices, values and order, so every model predicts the same for it and learns the same from it, whatever the parsers have parsed before. Covered are regression examples with or without label and weight, contextual bandit examples with shared features, actions and label, default and named namespaces, features that are present, have a number or a text, and lists of numbers.", "quantifier": "all data that can be written in the formats, all hash functions, seeds and bits, all histories of the parsers, all models", "why_tests_cant": "a relation between three parsers on every document, over all models", "anchors": ["reductionml-core/src/parsers/vw_text_parser.rs: parse_chunk", "reductionml-core/src/parsers/json_parser.rs: parse_chunk", "reductionml-core/src/parsers/dsjson_parser.rs: parse_chunk"]}
{"id": "C92", "title": "Exploration declines as it should", "statement": "SquareCB explores less the more examples it has learned: the same model with more updates behind it gives the action with the lowest score at least as much probability and every other action at most as much, and an action that is not the best gets at most 1 / (n + gamma * gap) or the uniform floor. A larger lambda of softmax gives an action with the lowest score at least as much probability; a smaller epsilon of epsilon-greedy the same, and every other action at most as much. All with the uniform floor in place.", "quantifier": "all score lists, all parameters, all uniform epsilons in [0, 1], all numbers of updates, all base models and examples", "why_tests_cant": "a monotonicity over all real parameters and score lists", "anchors": ["reductionml-core/src/reductions/cb_explore_adf_squarecb.rs: predict, learn", "reductionml-core/src/reductions/cb_explore_adf_softmax.rs: predict", "reductionml-core/src/reductions/cb_explore_adf_greedy.rs: predict", "reductionml-core/src/utils/probabilities.rs: enforce_minimum_probability"]}
{"id": "C93", "title": "SquareCB turns good scores into good decisions", "statement": "Whatever the actions really cost, the expected cost of the action SquareCB chooses exceeds the cost of any fixed action by at most 2 (n - 1) / gamma plus gamma / 4 times the expected squared error of the scores, where gamma is the scheduled one after any history. A uniform floor epsilon adds at most epsilon for costs between 0 and 1.", "quantifier": "all cost functions, all actions compared with, all score lists, all histories with at least one update, all base models", "why_tests_cant": "an inequality for every real cost vector, score list and history", "anchors": ["reductionml-core/src/reductions/cb_explore_adf_squarecb.rs: predict, learn"]}
{"id": "C94", "title": "Exploration in floating point", "statement": "Computed with rounding after every operation, as f32 does, the probabilities of epsilon-greedy, softmax and SquareCB are never negative, add up to 1 up to an explicit bound that is linear in the number of actions times the rounding error, give every action at least the uniform floor and never rank a more expensive action higher.", "quantifier": "all ways of rounding with relative error u and underflow error eta (f32 is one), all score lists, all epsilon, lambda and gamma, all monotone exponential functions", "why_tests_cant": "rounding errors accumulate differently for every list of scores; a bound for all of them is a statement about all real inputs", "anchors": ["reductionml-core/src/utils/explore.rs: enforce_min_prob", "reductionml-core/src/reductions/cb_explore_adf_softmax.rs: predict", "reductionml-core/src/reductions/cb_explore_adf_squarecb.rs: predict", "reductionml-core/src/reductions/cb_explore_adf_greedy.rs: action_scores_to_probs"]}
{"id": "C95", "title": "Metrics in floating point", "statement": "Computed with rounding after every operation, as f32 does, the mean squared error and the ips estimate that are reported differ from the exact mean over the examples by no more than an explicit rounding error.", "quantifier": "all ways of rounding with relative error u and underflow error eta (f32 is one), all lists of labels and predictions", "why_tests_cant": "rounding errors accumulate over an unbounded number of examples; any test uses a fixed, small number of them", "anchors": ["reductionml-core/src/metrics/mean_squared_error.rs: MeanSquaredErrorMetric", "reductionml-core/src/metrics/ips.rs: IpsMetric"]}
{"id": "C96", "title": "Predictions in floating point", "statement": "Computed with rounding after every operation, as f32 does, a prediction of the Coin regressor succeeds whenever it does in exact arithmetic; its raw prediction differs from the exact sum of value times weight over the features, the interactions and the constant by at most an explicit multiple of the rounding error times the sum of the absolute values of the terms, and so does the prediction for the identity link; for the logistic link the error is a quarter of that plus a few rounding errors.", "quantifier": "all ways of rounding with relative error u and underflow error eta (f32 is one), all models, all examples, all interactions", "why_tests_cant": "the rounding error depends on every value and weight and on the order of the features; a bound for all of them is a statement about all real inputs", "anchors": ["reductionml-core/src/reductions/coin.rs: predict", "reductionml-core/src/weights.rs: foreach_feature", "reductionml-core/src/reductions/coin.rs: LinkFunction::link"]}
{"id": "C97", "title": "Single precision arithmetic", "statement": "The numbers of the library are IEEE 754 single precision floats: every sum, difference, product, quotient, conversion from an integer and literal is the finite number nearest to the exact result, with ties to even, or an infinity of the right sign on overflow; negation and absolute value are exact; comparisons are those of the values, and false for NaN; NaN arises exactly from NaN, from opposite infinities, from zero times infinity, from infinity over infinity and from zero over zero. So what holds for all floats with certain laws holds for the library's floats.", "quantifier": "all pairs of 32-bit patterns; all integers and fractions", "why_tests_cant": "there are 2^64 pairs of operands for each operation", "anchors": ["reductionml-core/src/reductions/coin.rs: every f32 expression", "reductionml-core/src/explore.rs", "reductionml-core/src/loss_function.rs"]}
{"id": "C98", "title": "Finite data keep a model usable", "statement": "A regressor that is trained with finite feature values, labels and weights holds finite numbers only and goes on learning: no prediction becomes NaN (which the library replaces by 0).", "quantifier": "all training histories with finite numbers, any length; all examples to predict", "why_tests_cant": "overflow and underflow depend on the magnitudes along the whole history", "anchors": ["reductionml-core/src/reductions/coin.rs: predict, learn, coin_betting_predict, coin_betting_update_after_predict", "reductionml-core/src/loss_function/squared_loss.rs: first_derivative"]}
{"id": "C99", "title": "A call that fails changes nothing", "statement": "A predict, learn or predict-then-learn call that panics (in Python: raises) leaves the model and the examples as they were: no later call can tell that it was made, and the model stays usable.", "quantifier": "all models, all histories of calls of which any number may have failed, all examples and labels, every point inside a call at which it can fail", "why_tests_cant": "a panic can happen at many points inside a call, and its damage may show only much later", "anchors": ["reductionml-core/src/reductions/coin.rs: learn", "reductionml-core/src/reductions/cb/cb_adf.rs: predict, learn", "reductionml-core/src/reductions/elementwise_interaction.rs: predict, learn", "reductionml-core/src/reduction.rs: ReductionWrapper", "reductionml-core/src/workspace.rs: predict, learn, predict_then_learn"]}
{"id": "C100", "title": "The inverse hash table finds every feature", "statement": "After any insertions into an inverse hash table, looking an index up finds nothing exactly if nothing was inserted under it, and otherwise finds exactly the features inserted under it; features whose indices collide are all kept.", "quantifier": "all sequences of insertions, all indices", "why_tests_cant": "collisions and orders of insertion are unbounded", "anchors": ["reductionml-core/src/inverse_hash_table.rs: InverseHashTable::insert, InverseHashTable::get"]}
{"id": "C101", "title": "Sensitivity never grows with training", "statement": "The sensitivity of a regressor to an example is the sum over its features of the sign of the value divided by (beta + sqrt(sum of absolute gradients)) / alpha + l2_lambda. For values that are not negative it is never negative, and no further training raises it. A stack answers with the sensitivity of its regressor; the features of a contextual bandit make every stack panic.", "quantifier": "all training histories, all further examples, all queried examples, all stacks", "why_tests_cant": "unbounded histories and arbitrary values", "anchors": ["reductionml-core/src/reductions/coin.rs: sensitivity", "reductionml-core/src/reduction.rs: ReductionWrapper::sensitivity"]}
{"id": "C102", "title": "Interaction features are listed completely", "statement": "quadratic_features and cubic_features return nothing exactly if one of the namespaces is missing, and otherwise list every combination of features exactly once, with the combined index and the product of the values. If adjacent namespaces of the interaction differ these are the features that predicting and learning use for it.", "quantifier": "all examples, all choices of namespaces, all numbers of bits", "why_tests_cant": "combinatorial in unbounded list sizes", "anchors": ["reductionml-core/src/sparse_namespaced_features.rs: quadratic_features, cubic_features"]}
{"id": "C103", "title": "Importance-weighted logistic updates follow the gradient", "statement": "Applying the get_update of the logistic loss for an importance moves the prediction to within 9e-5 of the point that is reached by following the negative gradient of the loss continuously for that importance; the helper wexpmx has the documented error of less than 9e-5 for every argument.", "quantifier": "all real predictions, labels in the range, importances and speeds; all real arguments of wexpmx", "why_tests_cant": "an error bound over all reals, against the solution of a differential equation", "anchors": ["reductionml-core/src/loss_function/logistic_loss.rs: wexpmx, get_update_sub, LogisticLoss::get_update"]}
{"id": "C104", "title": "The regressor competes with every linear predictor, without a learning rate", "statement": "Train a Coin regressor with the squared loss and ask it for its answer to each example right after the example was learned. Whatever the sequence of examples, the squared errors of the answers add up to at most those of any fixed linear predictor plus, for each weight, a term that grows only like the square root of the number of its examples times a logarithm; so the average error ends up at most epsilon above that of the best linear predictor. Conditions: beta bounds the gradients, no example visits a weight twice, and examples are scaled by the average length that the regressor normalizes with (a constant if examples have equally many features of constant size).", "quantifier": "all training histories (also chosen by an adversary), all competing linear predictors, all table sizes and interactions, over the reals", "why_tests_cant": "a bound for every sequence of examples of every length against every linear predictor", "anchors": ["reductionml-core/src/reductions/coin.rs: Coin::learn, Coin::predict, inner_update, inner_predict, bet"]}
{"id": "C105", "title": "The regressor computes coin betting on the whole history", "statement": "After any training history, the prediction of a Coin regressor for any features is the one that coin betting on that history prescribes: each feature has a bettor whose wealth starts at alpha and who bets a fraction of it that is given by the outcomes so far; bets are added up and divided by the average length of the examples; weights for predictions are the latest bets. The weight table, the passes over features and interactions and the running statistics make no difference.", "quantifier": "all histories, features, configurations, table sizes and interactions, over every ordered field", "why_tests_cant": "equality of two programs on all histories of every length", "anchors": ["reductionml-core/src/reductions/coin.rs: CoinRegressor::new, learn, predict, coin_betting_predict, coin_betting_update_after_predict"]}
{"id": "C106", "title": "Debug and release builds agree", "statement": "Whatever a debug build returns - predictions, trained models, the examples afterwards, parsed examples, parse errors, the output of train, the results of a Python session - a release build returns too. The only difference is that a debug build also panics when an integer operation overflows or a debug assertion fails; the release build then continues.", "quantifier": "all workspaces, examples, histories of calls, texts, train options and Python sessions", "why_tests_cant": "equality of two programs on all inputs; tests are run in one of the two profiles", "anchors": ["reductionml-core/src/dense_weights.rs: convert_index (debug_assert)", "reductionml-core/src/reduction.rs: ReductionWrapper (cfg!(debug_assertions)), DepthInfo", "reductionml-core/src/reductions/cb_adf.rs: debug_assert", "reductionml-core/src/workspace.rs: predict, learn, predict_then_learn", "reductionml-core/src/parsers", "reductionml-cli/src/command/train.rs", "reductionml-python/src/workspace.rs"]}
{"id": "C107", "title": "A Python program can go on after exceptions", "statement": "A Python program that catches the exceptions of panicking calls can go on, whatever has failed before. A failing call changes no object but the workspace and the features it was given, and raises the same exception as it would end the program with. New feature objects are empty and parsing gives what it gives in a new process, although failing calls have left features half changed, and have lost or returned objects of the process-wide pool. Once the features that failing calls left invalid are given up, all calls again return what they return on plain values that share nothing, for the texts and models of C75; without ElementwiseInteraction no features need to be given up.", "quantifier": "all sequences of calls on any number of workspaces, parsers and feature objects, with any of the calls failing, and all sequences of calls afterwards", "why_tests_cant": "all histories of failing calls; each may fail at any point and leaves other objects behind", "anchors": ["reductionml-python/src/lib.rs: SPARSE_FEATURES_POOL", "reductionml-python/src/workspace.rs: predict, learn, predict_then_learn", "reductionml-python/src/features.rs: WrappedSparseFeatures, Drop", "reductionml-python/src/parsers.rs: parse", "reductionml-core/src/object_pool.rs: Pool", "reductionml-core/src/reductions"]}
{"id": "C108", "title": "Weights edited in a JSON model are the weights of the imported model", "statement": "Export a workspace as JSON, replace the weights in the document by others that fit its dimensions (any features listed in any order, the others left out), and import the document. Importing succeeds; the imported workspace has for every feature exactly the numbers that were written, zeros for features that are not listed, and is otherwise the exported workspace: same configuration, same other state. The global settings in a document, edited or not, are read as in a configuration: each given value is the setting of the imported workspace, and a setting that is left out has its default.", "quantifier": "all configurations, all histories before the export with numbers that JSON can represent, all replacement weights, all orders in which hash maps list their entries", "why_tests_cant": "all sets of edited weights on top of all training histories and all stacks", "anchors": ["reductionml-core/src/workspace.rs: serialize_to_json, deserialize_from_json, rewrite_json_ndarray_to_sparse", "reductionml-core/src/dense_weights.rs: DenseWeightsWithNDArray, to_dense_weights", "cli/src/import_model.rs, export_model.rs"]}
{"id": "C109", "title": "Loading something that is not a model is reported as an error", "statement": "Loading a document that is not a saved model, such as a configuration file or a damaged model, returns an error and does not panic.", "quantifier": "all documents", "why_tests_cant": "all documents of any depth", "anchors": ["reductionml-core/src/workspace.rs: create_from_model, deserialize_from_json", "reductionml-core/src/dense_weights.rs: to_dense_weights"]}
{"id": "C110", "title": "Exploration answers in single precision", "statement": "Take an exploration reduction (epsilon-greedy, softmax, SquareCB) with settings in range (epsilon between 0 and 1, lambda and SquareCB's gamma finite and not negative) over any model. Whenever the model below answers a predict call with scores that are finite and at most 2^126 in magnitude, for at least one action, the exploration reduction's predict call returns, leaves the example as the model below does, and answers with one number for each action in the same order, none of which is NaN; for softmax none is negative and for epsilon-greedy all are between 0 and 1. All of it with every operation rounded to single precision, including the sort by probability that panics on NaN.", "quantifier": "all models below and their states, all examples, all settings in range, all uniform epsilons, both build profiles, every exp function with exp(0)=1 and exp(x) in [0,1] for x not positive, every powf function", "why_tests_cant": "all score vectors and settings in single precision, where overflow, underflow and rounding interact with a comparison that panics on NaN", "anchors": ["reductionml-core/src/utils/explore.rs: enforce_minimum_probability, generate_softmax", "reductionml-core/src/reductions/cb_explore_adf_greedy.rs, cb_explore_adf_softmax.rs, cb_explore_adf_squarecb.rs: predict"]}
{"id": "C111", "title": "Wealth and scores grow at most linearly", "statement": "Train Coin with labels between lo and hi (the range includes 0, and -50..50 with the logistic loss) and positive importance weights such that beta bounds every gradient, on examples of at most k values none of which visits a weight twice. Then all bettors together gain at most (k beta + 2e-6 (hi - lo)) (hi - lo) per example on top of the initial wealth alpha each. With the constant feature on, the raw score of any example whose values are at most M times those seen in training is bounded by a linear function of the number of training examples, with constants given by k, M, alpha, beta, lo, hi and the number of weights: scores never explode.", "quantifier": "all configurations, all training histories of any length under these conditions, all examples to score, all ordered fields (exact arithmetic)", "why_tests_cant": "a growth bound for training histories of every length and content", "anchors": ["reductionml-core/src/reductions/coin.rs: learn, tally_update, inner_update, predict"]}
{"id": "C112", "title": "Actions that are listed but not chosen do not influence what is learned", "statement": "Actions can be added or removed over time: a bandit model learns from the chosen action and its cost. Two training histories that report, event by event, the same shared features, the same features of the chosen action (at any position), the same cost and the same probability give the same model, whatever the other actions were and however many there were.", "quantifier": "all bandit stacks, all pairs of training histories of any length, all hash functions and number types, both build profiles", "why_tests_cant": "ranges over all histories and all features of the actions that were not chosen", "anchors": ["reductionml-core/src/reductions/cb_adf.rs: learn", "docs/source/reductions/cb_adf.md"]}
{"id": "C113", "title": "A number of hash bits that cannot be used is rejected", "statement": "num_bits is any number from 0 to 255 in a configuration, but indices have 32 bits. A configuration with up to 31 bits is used as configured; one with more bits is rejected when the workspace is created, in every build.", "quantifier": "all values of num_bits, all stacks, hash functions and other settings, both build profiles", "why_tests_cant": "ranges over all configurations and both build profiles; a test runs in one profile", "anchors": ["reductionml-core/src/utils.rs: bits_to_max_feature_index", "reductionml-core/src/types.rs: FeatureMask::from_num_bits", "reductionml-core/src/global_config.rs: num_bits", "reductionml-core/src/reductions/coin.rs: CoinRegressor::new"]}
{"id": "C114", "title": "Configurations with the types published for Python are accepted", "statement": "The Python package publishes the types Config, GlobalConfig, EntryReductionConfig and Interaction. Every dictionary of type Config (with numbers in range) is accepted as a configuration document and means what its entries say.", "quantifier": "all dictionaries of the published type, with any settings and any lists of interactions", "why_tests_cant": "ranges over all typed dictionaries; a test tries a few", "anchors": ["reductionml-python/python/reductionml/__init__.py: Config, GlobalConfig, EntryReductionConfig, NameInteraction, Interaction", "reductionml-python/src/workspace.rs: create_from_config", "reductionml-core/src/interactions.rs: NamespaceDef, Interaction"]}
{"id": "C115", "title": "Exploration settings outside their range are rejected", "statement": "An epsilon or a uniform epsilon outside [0, 1], a negative lambda and a negative scale of gamma make no sense. A configuration with such a setting is rejected when the workspace is created.", "quantifier": "all stacks, all values of the settings, all training histories and examples, both build profiles", "why_tests_cant": "ranges over all values of all settings in all stacks", "anchors": ["reductionml-core/src/reductions/cb_explore_adf_greedy.rs: create, action_scores_to_probs", "reductionml-core/src/reductions/cb_explore_adf_softmax.rs: create, predict", "reductionml-core/src/reductions/cb_explore_adf_squarecb.rs: create, predict", "reductionml-core/src/explore.rs: enforce_min_prob"]}
{"id": "C116", "title": "ElementwiseInteraction works for every pair of vectors that fits into the table", "statement": "A model with ElementwiseInteraction predicts and learns for every example that has the two namespaces, if all features of the example have indices below 2^num_bits. It does not panic.", "quantifier": "all names, hash functions, numbers of bits, examples, vectors of any length, training histories and both build profiles", "why_tests_cant": "depends on the hash of the product of two namespace hashes; ranges over all hash values, vector lengths and histories", "anchors": ["reductionml-core/src/reductions/elementwise_interaction.rs: elementwise_multiply, predict, learn, predict_then_learn", "reductionml-core/src/dense_weights.rs: convert_index, weight_at", "docs/source/reductions/elementwise_interaction.md"]}
{"id": "C117", "title": "Features with value 0 do not matter", "statement": "Listing a feature with value 0 in an example is the same as not listing it: it changes neither the prediction for the example nor what is learned from it, so that no later prediction depends on it.", "quantifier": "all configurations, examples, training histories and positions of the features with value 0", "why_tests_cant": "ranges over all histories, values and orders of features; a test shows it for one example", "anchors": ["reductionml-core/src/reductions/coin.rs: predict, learn, coin_betting_predict, coin_betting_update_after_predict", "reductionml-core/src/weights.rs: foreach_feature, foreach_feature_with_state, foreach_feature_with_state_mut"]}
{"id": "C118", "title": "The constant and interactions are ordinary features", "statement": "Configuring interactions and the constant is the same as listing the products of the features and a feature with value 1 in every example: a regressor with the options and a regressor without them that sees the longer examples make the same predictions after the same training.", "quantifier": "all configurations, hash functions, training histories, examples and arithmetic (also f32 bit patterns)", "why_tests_cant": "ranges over all histories and examples; the two models have to agree bit for bit after any number of updates", "anchors": ["reductionml-core/src/weights.rs: foreach_feature, foreach_feature_with_state, foreach_feature_with_state_mut", "reductionml-core/src/reductions/coin.rs: new, predict, learn", "reductionml-core/src/global_config.rs: GlobalConfig"]}
