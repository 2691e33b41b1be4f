# Formal model of reductionml in Lean 4

## Approach

The model is a set of total, computable Lean functions, one per Rust function, over lists, naturals, 32-bit words (`BitVec 32`) and a number
type. Rust `&mut` becomes a returned new value, `Result` and `Option` stay data, a panic is the explicit value `Except.error` of type `Panic`
(`Model/Base.lean`). Behaviour that exists only in the debug profile (`debug_assert!`, `cfg!(debug_assertions)`, overflow checks) is controlled by
a parameter `dbg`; unless a theorem says otherwise it holds for both profiles. Every definition in `lean/Verif/Model` cites the lines it models
and says where it simplifies.

### Numbers

`Flt F` (`Model/Base.lean`) is a signature of float operations **without laws**, and the whole model is generic in it. There are six kinds of
theorem:

* *Any arithmetic.* Structural theorems (round trips, frames, equality of predict and learn paths, restored examples, type soundness, parsing,
  scheduling) are stated for every `Flt F`, so for IEEE-754 `f32` with all its rounding too.
* *Comparison laws.* Theorems about clamping and NaN assume `LawfulCmp` (`Model/F32.lean`): what IEEE 754 guarantees about `<=`, `<`, `min`, `max`
  and NaN, nothing about rounding. `Lemmas/F32.lean` proves these laws for `f32` bit patterns, and `C36_f32` is the instance. `LawfulZero` and
  `SignedZero` are the IEEE facts about zeros used by C40 and C59.
* *Exact arithmetic.* Theorems whose content is numeric (sums to one, invariants of the Coin update, linearity, metrics) are about `fieldFlt K` for an
  arbitrary linearly ordered field `K` (`Model/Field.lean`). Rounding errors of `f32` are not covered by these.
* *Rounded arithmetic.* C94 and later theorems that bound rounding errors use the reals with a rounding after every operation (`Model/Round.lean`), for every
  rounding with a relative error `u` and an underflow error `eta`. `fl32` (round to nearest, ties to even, 24 bits, subnormals) is shown to be one with `u = 2^-24`
  and `eta = 2^-150`. Overflow to infinity is not modelled there; the theorems with `f32` in their
  name carry the bounds over to bit patterns, infinities included.
* *`f32` itself.* `Model/Ieee.lean` has the arithmetic of IEEE 754 binary32 on bit patterns, as functions that compute; C97 proves it correctly rounded with respect to
  `SpecIeee.lean`, which speaks of values only. `exp`, `ln`, `powf` and `sqrt` are parameters (`F32Trans`). The laws of `LawfulCmp`, `LawfulZero` and `SignedZero` are
  proved for it, so the theorems that assume them hold for `f32` (`C36_ieee`, `C59_ieee`, ...), and counterexamples about `f32` are evaluated by the kernel. The
  functions were also compared with the hardware on 20000 random pairs of patterns, with no difference.
* *Real numbers.* Theorems with `exp` and derivatives are about `ℝ` with Mathlib's `Real.exp`.

### Parameters of the model (external code)

* `hash_bytes` (xxh3): an arbitrary function of text and seed. Nothing is assumed about it.
* `fast_float::parse` and the conversion of a JSON number to `f32`: arbitrary functions. Rendering theorems assume that the float syntax chosen by the
  writer is read back.
* JSON text to JSON value (`serde_json`, `serde_json_borrow`): an arbitrary partial function; the model starts from JSON values.
* The derived `Serialize`/`Deserialize` of plain structs and enums: modelled by their documented result (`Model/Serde.lean`, header). The byte format of
  flexbuffers is left out: a document is stored and restored unchanged.
* The order in which a hash map lists its entries: an arbitrary permutation.
* `flume::bounded`: a FIFO queue that blocks the sender while full and reports closed when all senders are gone. The futex of `atomic_wait`: sleeps only
  if the flag is still 0, in one atomic step, may wake spuriously. Memory is sequentially consistent; the relaxed load in `await_result` is a plain
  load.
* `BTreeMap`: an association list kept in key order. `Vec`: a list with a capacity. Text: a list of characters.

## Trusted base

* The Lean 4.33.0 kernel.
* The axioms `propext`, `Classical.choice` and `Quot.sound`. There are no others, no `sorry`, no `native_decide`, no `bv_decide` (list per theorem at
  the end).
* That the hand-written definitions in `lean/Verif/Model` describe the Rust code: each cites its source lines. Standard library functions
  (`trim`, `split`, `lines`, `sort_by`, `Vec` growth, `f32::clamp`, ...) are modelled from their documentation.
* That the specifications (`Spec*.lean` and the statements in `Props`) say what the English properties say.

## Layout

* `lean/Verif/Model/*.lean`: the model, definitions only, with citations.
* `lean/Verif/Spec.lean`, `SpecCoin.lean`, `SpecSerde.lean`, `SpecText.lean`, `SpecJson.lean`, `SpecConfig.lean`, `SpecTrain.lean`, `SpecCommand.lean`, `SpecHash.lean`, `SpecNames.lean`, `SpecPython.lean`, `SpecPythonCrash.lean`, `SpecCrash.lean`, `SpecRelabel.lean`: small specifications used in the statements.
* `lean/Verif/Lemmas/*.lean`: helper lemmas.
* `lean/Verif/Props/*.lean`: the property theorems, each with `example`s showing that a concrete non-trivial case meets its hypotheses.
* `seeded/LOG.jsonl`: the wrong programs the theorems were tested against.

## What is modelled

`core` is `reductionml-core/src`, `cli` is `reductionml-cli/src`.

| Source | Modelled | Not modelled |
|---|---|---|
| `core/hash.rs` | `FNV_PRIME`, `hash_bytes` as a parameter | the hash function, `hash_all` helpers used by nothing |
| `core/types.rs` | predictions, labels, features, `AbsDiffEq`, conversions, `FeatureMask`, `FeatureHash` | JSON schema derives |
| `core/sparse_namespaced_features.rs` | everything | `Debug` printing |
| `core/object_pool.rs` | everything (the mutex makes each call atomic) | |
| `core/dense_weights.rs` | everything | |
| `core/weights.rs`, `core/interactions.rs`, `core/utils.rs` | everything | |
| `core/explore.rs` | everything | |
| `core/loss_function*.rs` | all methods of both losses | `f64` intermediate precision of `wexpmx` |
| `core/global_config.rs` | everything | |
| `core/reduction.rs` | wrapper, depth, types, default `predict_then_learn` | |
| `core/reduction_factory.rs`, `core/reduction_registry.rs` | type checking at creation, names, registry, lookup, reading of configuration documents and defaults | JSON schema |
| `core/reductions/*.rs` | `create`, `predict`, `learn`, `predict_then_learn`, `sensitivity` of Coin, all state | printing of Debug |
| `core/workspace.rs` | creation, predict/learn (also what they leave behind when they panic, Model/Crash.lean), saving and loading, JSON rewriting | YAML/JSON text syntax |
| `core/inverse_hash_table.rs`, `core/parsers.rs` | everything | serialization of the table |
| `core/parsers/vw_text_parser.rs` | reading and parsing, feature names | |
| `core/parsers/json_parser.rs`, `dsjson_parser.rs` | reading and parsing | JSON text syntax |
| `core/metrics/*.rs` | everything | |
| `cli/train.rs` | the whole command: loading, both loops with the shared pool, metrics, progress, predictions, saving, `--progress` | table rendering, other argument parsing, the file system |
| `cli/config.rs`, `cli/export_model.rs`, `cli/import_model.rs` | the documents they read and print | YAML/JSON text syntax, the file system |
| `reductionml-python/python/reductionml/__init__.py` | the published configuration types (C114) | the other annotations; the functions only forward |
| `reductionml-python/src/*.rs` | sessions of calls with the process-wide pool, also of programs that catch panics (C107) | conversions of Python values, descriptions of reduction types made by hand, string representations |
| `core/config_schema.rs`, `cli/gen_schema.rs`, `schemas/config/latest/schema.json` | construction of the schema, the published file, what validity means | what `schemars` derives for the configuration types is transcribed; titles, descriptions, defaults and formats, which do not restrict documents, are left out; the published file is transcribed by a script |
| `core/error.rs`, other `cli` commands (`test`, `convert-data` and `create-inv-hash-table` are not implemented in the code), `docs`, `utils`, `benches`, `tests` | | not modelled |

Assumptions of single models: reading input succeeds (VW, JSON, pipeline); in the pipeline `queue_size >= 1` for progress, and in C53 to C55 parsing a chunk is a
function of the chunk (C68 removes this assumption); `u64` counters do not overflow; `num_bits <= 31` where indices are masked (C113 is about larger values, which overflow a shift in
the code, see the findings).


## Properties

One entry per property of `properties.jsonl`: what is modelled, how it is proved, and the theorems. A theorem whose name ends in `_partial` proves part of the property; a theorem whose name ends in `_false` refutes the full statement for the code with a concrete witness.

* **C01 Every feature index handed to a model is inside the weight table**
  Model: Hash, InverseHash, Weights. Proof: Index arithmetic concrete on 32-bit words. Invariant over the list of visited features; `and` with 2^n-1 is `mod 2^n`.
  Status: proved. Theorems in `Props/Hash.lean`: `C01_index_in_range`.
  For numBits <= 31; numBits >= 32 overflows the shift in the code (DESIGN.md findings).
* **C02 Masking feature hashes early or late gives the same interaction index**
  Model: Hash, InverseHash. Proof: Low bits of a product/xor depend on low bits only; induction over the term list.
  Status: proved. Theorems in `Props/Hash.lean`: `C02_interaction`, `C02_quadratic_index`, `C02_cubic_index`.
  Any number of terms; plus the quadratic and cubic index against Feature::hash.
* **C03 Names reported by the inverse hash table hash to the index that was learned**
  Model: InverseHash. Proof: Hash function is a parameter. Case analysis for named namespaces; negation with a concrete hash for the default namespace (`_partial`).
  Status: partial. Theorems in `Props/Hash.lean`: `C03_inverse_hash_partial`, `C03_default_namespace_false`, `C03_default_namespace_iff`.
  Holds for every namespace name other than the default aliases; refuted for the default namespace (C03_default_namespace_false).
* **C04 Weight table accesses never go out of bounds**
  Model: Weights. Proof: Packed index = feat*2^k + model*2^j; arithmetic bound.
  Status: proved. Theorems in `Props/Weights.lean`: `C04_weight_access_in_bounds`, `C04_new_succeeds`.
  Both profiles, after any history of writes.
* **C05 Weight slots of different features and models are independent**
  Model: Weights. Proof: Injectivity of packed index + list update lemmas; induction over write histories.
  Status: proved. Theorems in `Props/Weights.lean`: `C05_slots_independent`.
  Any history of writes from a new table.
* **C06 Binary model serialisation of weights is lossless**
  Model: Serde. Proof: Induction over the vector.
  Status: proved. Theorems in `Props/Serde.lean`: `C06_sparse_vector_roundtrip`, `C06_sparse_vector_exact`, `C06_table_roundtrip`.
  Every vector, including negative zeros and NaN: value by value the same except that -0.0 becomes 0.0; exact if there is none.
* **C07 JSON model serialisation of weights is lossless**
  Model: Serde. Proof: ND array as association list with arbitrary order; table recovered for every permutation; invariant that padding stays zero, by induction over writes.
  Status: proved. Theorems in `Props/Serde.lean`: `C07_nested_roundtrip`, `C07_nested_exact`.
  Every table made by a history of writes, every iteration order of the hash map.
* **C08 JSON rewriting of a whole model touches exactly the weight tables and is reversible**
  Model: Serde. Proof: JSON as an inductive type; structural induction with a rewriter that is the identity outside weight tables.
  Status: proved. Theorems in `Props/Ieee.lean`, `Props/Serde.lean`: `C08_ieee`, `C08_untouched`, `C08_rewrite_inverse`, `C08_json_same_behaviour`, `C08_nonfinite_panics`.
  C08_untouched and C08_rewrite_inverse range over all documents; C08_json_same_behaviour is end to end for every stack and history. C08_nonfinite_panics: JSON has no NaN or infinity, so serialize_to_json panics on such a weight.
* **C09 Appending then removing shared features restores an example**
  Model: SparseFeatures. Proof: Per-namespace view; append adds a suffix, remove truncates. Negation for active empty namespaces, `_partial` otherwise.
  Status: partial. Theorems in `Props/SparseFeatures.lean`: `C09_append_remove_partial`, `C09_exact`, `C09_empty_namespace_false`.
  C09_exact: appending and then removing always succeeds, and it restores the example exactly when no namespace of the shared features is visible but empty in the example. C09_append_remove_partial is the restoring half in terms of single namespaces; C09_empty_namespace_false is the failure.
* **C10 Sparse features behave like a map from namespaces to feature lists**
  Model: SparseFeatures. Proof: Refinement: sorted association list vs function from namespace to list; induction over operation sequences.
  Status: proved. Theorems in `Props/SparseFeatures.lean`: `C10_refines_map`, `C10_reachable_wf`, `C10_set_inactive_quirk`.
  Refinement to a map for every sequence of API calls; set_namespace with an inactive namespace is recorded as a quirk (C10_set_inactive_quirk).
* **C11 A recycled feature object is indistinguishable from a new one**
  Model: SparseFeatures. Proof: Observational equivalence preserved by every API call; induction over histories.
  Status: partial. Theorems in `Props/SparseFeatures.lean`: `C11_recycled_partial`, `C11_reserve_false`, `C11_namespaces_false`.
  Everything reported by an example built in a recycled object equals a fresh one; refuted for the namespaces iterator and the reserve precondition of debug builds.
* **C12 Each feature of an example contributes exactly once**
  Model: Weights. Proof: Counting theorem on the visited list.
  Status: proved. Theorems in `Props/Visit.lean`: `C12_each_feature_once`, `C12_read_pass_folds`, `C12_write_pass_visits_same`.
  Counting statement for the visited features plus fold statements for the read and write passes.
* **C13 Quadratic interactions enumerate each pair exactly once**
  Model: Weights. Proof: Permutation with the spec enumeration.
  Status: proved. Theorems in `Props/Visit.lean`: `C13_quadratic_distinct`, `C13_quadratic_same`, `C13_quadratic_missing`.
  Exact enumeration for different namespaces, unordered pairs exactly once for equal ones, nothing for missing ones.
* **C14 Cubic interactions enumerate each combination exactly once**
  Model: Weights. Proof: Permutation for patterns where it holds; negation witness for (A,B,B) and (A,A,A) (`_partial`).
  Status: partial. Theorems in `Props/Visit.lean`: `C14_cubic_distinct_partial`, `C14_cubic_first_two_equal_partial`, `C14_exact`, `C14_all_equal_covers_partial`, `C14_false_last_two_equal`, `C14_false_all_equal`.
  Proved when the last two namespaces differ; refuted when they coincide (C14_false_*), where the code skips by the wrong loop index. C14_exact says exactly which combinations are visited, for every choice of namespaces.
* **C15 Interaction configuration is compiled completely or rejected**
  Model: Weights. Proof: Induction over the list.
  Status: proved. Theorems in `Props/Interactions.lean`: `C15_compile_interactions`.
* **C16 An interaction or reduction refers to the namespace the parser fills**
  Model: Weights. Proof: Equality for every name other than the aliases of the default namespace; negation for those (`_partial`).
  Status: partial. Theorems in `Props/Interactions.lean`: `C16_same_namespace_partial`, `C16_default_alias_false`, `C16_resolution_injective`.
  Holds for names that are not aliases of the default namespace; refuted for the aliases.
* **C17 enforce_min_prob returns a distribution with the requested floor**
  Model: Explore. Proof: Simplex projection proof over an arbitrary linear ordered field.
  Status: proved. Theorems in `Props/Explore.lean`: `C17_min_prob_distribution`.
  Exact arithmetic over any linearly ordered field.
* **C18 enforce_min_prob keeps the ranking and does not move a distribution that already satisfies the floor**
  Model: Explore. Proof: Same development: thresholding is monotone; fixed point.
  Status: proved. Theorems in `Props/Explore.lean`: `C18_keeps_ranking`, `C18_keeps_valid`.
  Exact arithmetic over any linearly ordered field.
* **C19 enforce_min_prob rejects exactly the invalid requests**
  Model: Explore. Proof: Decision logic.
  Status: proved. Theorems in `Props/Explore.lean`: `C19_rejects_exactly`, `C19_zero_unchanged`, `C19_never_panics`.
  Exact arithmetic; the error cases are characterised exactly.
* **C20 Epsilon-greedy returns the documented distribution**
  Model: Explore, Reductions. Proof: First minimum of a list; sums over an ordered field.
  Status: proved. Theorems in `Props/ExplorePolicies.lean`: `C20_greedy_distribution`, `C20_greedy_reduction`.
  Exact arithmetic; the function and the reduction on top of any base.
* **C21 Softmax exploration returns a valid distribution ordered by score**
  Model: Reductions. Proof: Real numbers with Real.exp; composition with C17.
  Status: proved. Theorems in `Props/ExplorePolicies.lean`: `C21_softmax_distribution`, `C21_softmax_shift`, `C21_softmax_reduction`.
  Exact arithmetic over the reals.
* **C22 SquareCB exploration returns a valid distribution favouring the best action**
  Model: Reductions. Proof: Ordered field with powf as parameter with nonnegative value; composition with C17.
  Status: proved. Theorems in `Props/ExplorePolicies.lean`: `C22_squarecb_distribution`, `C22_squarecb_reduction`.
  Exact arithmetic; ties with the best action get the non-best weight, as the code does.
* **C23 SquareCB exploration schedule counts learned examples**
  Model: Reductions. Proof: Induction over histories of operations.
  Status: proved. Theorems in `Props/SquareCb.lean`: `C23_schedule`, `C23_probability_ignored`.
  Any history of calls; learning with SquareCB sees probability 1 whatever the label says.
* **C24 Prediction does not change the model**
  Model: Reductions. Proof: predict's model type is read-only as in Rust (&self); history theorem: erasing predictions from a history does not change later results.
  Status: proved. Theorems in `Props/Stack.lean`: `C24_predictions_do_not_matter`, `C24_predict_twice`.
  Any history; examples valid as the API builds them.
* **C25 predict_then_learn equals predict followed by learn**
  Model: Reductions. Proof: Induction over the stack for arbitrary arithmetic.
  Status: proved. Theorems in `Props/Stack.lean`: `C25_predict_then_learn`.
  All stacks from configurations, both profiles.
* **C26 Predicting and learning leave the caller's features as they were**
  Model: Reductions. Proof: Induction over the stack; per-namespace view; negation for the empty-namespace case (`_partial`).
  Status: partial. Theorems in `Props/Restore.lean`, `Props/RestoreAll.lean`, `Props/Stack.lean`: `C26_exact`, `C26_exact_all`, `C26_simple`, `C26_examples_restored_partial`, `C26_history_partial`, `C26_empty_namespace_false`.
  C26_examples_restored_partial and C26_history_partial: restoration for every stack and every example without visible empty namespaces. C26_exact: for stacks without ElementwiseInteraction and every bandit example, exactly when each of the three calls restores it (no namespace of the one side is visible but empty in the other). Refuted for such namespaces (C26_empty_namespace_false). C26_exact_all: the same exact condition for every stack, ElementwiseInteraction included. C26_simple: simple examples are restored by every stack, with visible empty namespaces too. Partial because the property itself is false for the examples the exact condition excludes.
* **C27 The model offset bookkeeping is restored after every call**
  Model: Reductions. Proof: Induction over the stack.
  Status: proved. Theorems in `Props/Stack.lean`: `C27_depth_restored`, `C27_assertion_holds`, `C27_no_overflow`.
  All stacks, both profiles.
* **C28 A stack that was created is type correct**
  Model: Factory, Names. Proof: Typing relation; progress/preservation style induction.
  Status: proved. Theorems in `Props/Types.lean`: `C28_layers_agree`, `C28_predict_typed`, `C28_learn_typed`, `C28_predict_then_learn_typed`.
  All accepted configurations, any learned state, both profiles.
* **C29 Ill-typed configurations are rejected**
  Model: Factory, Names. Proof: Induction over configurations.
  Status: proved. Theorems in `Props/Types.lean`: `C29_accepted_iff`, `C29_rejected`, `C29_unknown_rejected`.
  Exact characterisation of the accepted configurations. SquareCB's mtr rule is stated as the code has it (only a direct CbAdf child is looked at).
* **C30 CbAdf returns one independent score per action in order**
  Model: Reductions. Proof: Map characterisation of the prediction.
  Status: proved. Theorems in `Props/CbAdf.lean`: `C30_scores`, `C30_independent`.
  C30_scores: the prediction has one entry per action in order and each score is the base prediction on the merged features; C30_independent: it does not depend on the other actions.
* **C31 CbAdf reduces to the documented regression examples**
  Model: Reductions. Proof: Refinement into a list of base learn calls; induction over histories for the mtr counters.
  Status: proved. Theorems in `Props/CbAdf.lean`: `C31_ips`, `C31_mtr`, `C31_mtr_history`.
  ips and mtr training examples, mtr weight over whole histories (C31_mtr_history).
* **C32 CbAdf learns the same features it predicts with**
  Model: Weights, Reductions. Proof: Permutation for distinct-namespace interactions, negation with witness for same-namespace interactions (`_partial`).
  Status: partial. Theorems in `Props/CbAdf2.lean`: `C32_ips`, `C32_mtr_partial`, `C32_mtr_raw_partial`, `C32_mtr_false`.
  Proved for ips. For mtr the code merges shared then action, prediction action then shared: the multiset is equal if no interaction names the same namespace twice in a row; C32_mtr_false proves that for an interaction of a namespace with itself it differs, so the full statement is false of the code. See DESIGN.md finding b.
* **C33 CbAdf accepts examples without shared features**
  Model: Reductions. Proof: Total in ips mode; negation in mtr mode (`_partial`).
  Status: partial. Theorems in `Props/CbAdf2.lean`: `C33_predict`, `C33_learn_ips`, `C33_learn_mtr_false`.
  Prediction and ips learning proved; C33_learn_mtr_false proves that mtr learning without shared features panics (todo!()), so the full statement is false of the code.
* **C34 Binary reduction is the sign of its regressor**
  Model: Reductions. Proof: Definitional equations over any stack.
  Status: proved. Theorems in `Props/Wrap.lean`: `C34_predict`, `C34_learn`, `C34_learn_other`, `C34_predict_then_learn`.
  Sign of the base prediction, label +1/-1 with weight 1, other labels are rejected; also for predict_then_learn.
* **C35 Debug reduction is transparent**
  Model: Reductions. Proof: Erasure of Debug nodes is a bisimulation.
  Status: proved. Theorems in `Props/Debug.lean`: `C35_debug_transparent`, `C35_create`.
  Configurations equal up to Debug reductions are observationally equal for every history (including panics); inserting Debug keeps a configuration accepted.
* **C36 Coin predictions stay within the range of labels seen**
  Model: Coin. Proof: Floats with NaN as an order-with-NaN structure; induction over histories.
  Status: proved. Theorems in `Props/Coin.lean`, `Props/Ieee.lean`: `C36_in_label_range`, `C36_predict_never_panics`, `C36_learn_never_panics`, `C36_history`, `C36_f32`, `C36_ieee`.
  For any float type satisfying the IEEE comparison laws (LawfulCmp), instantiated for exact arithmetic and for bit-level f32 (C36_f32); at regressor level and for every API call history on a stack (C36_history).
* **C37 Learning only changes the weights of the example's own features**
  Model: Coin. Proof: Frame lemma through the fold.
  Status: proved. Theorems in `Props/Coin.lean`: `C37_only_own_weights`, `C37_prediction_unchanged`.
  No law of arithmetic used: holds bit for bit in floats.
* **C38 Coin per-weight statistics stay consistent**
  Model: Coin. Proof: Invariant by induction over histories.
  Status: proved. Theorems in `Props/Coin2.lean`: `C38_statistics`, `C38_monotone`.
  Exact arithmetic. The trace of gradient factors of the whole history determines the statistics of every weight. C105_table states the same with gradients that are defined independently of the model.
* **C39 The coin betting wealth never reaches zero**
  Model: Coin. Proof: Wealth inequality by induction over histories; exact arithmetic.
  Status: proved. Theorems in `Props/Coin2.lean`: `C39_wealth_positive`, `C39_wealth_positive_stack`.
  Exact arithmetic, any labels and weights (also negative); division by zero total weight is 0 in the model and does not enter the wealth. Also for the regressor at the bottom of any stack.
* **C40 A model predicts zero until it has something to say**
  Model: Coin. Proof: Frame lemma + initial state.
  Status: proved. Theorems in `Props/Coin.lean`, `Props/Ieee.lean`: `C40_zero_until_trained`, `C40_ieee`.
  Under LawfulZero (IEEE laws of zero): the raw prediction is a zero of either sign.
* **C41 The configured loss function drives learning**
  Model: Coin. Proof: Negation: update is independent of the configured loss; the positive part for squared loss (`_partial`).
  Status: partial. Theorems in `Props/Coin2.lean`: `C41_always_squared`, `C41_configured_loss_partial`, `C41_false`.
  False of the code for the logistic loss (C41_false, witness over the reals); true for the squared loss (C41_configured_loss_partial); C41_always_squared says what the code does for every configuration.
* **C42 Loss derivatives are the derivatives of the loss**
  Model: Loss. Proof: HasDerivAt over the reals.
  Status: proved. Theorems in `Props/Loss.lean`: `C42_first_derivative`, `C42_second_derivative`, `C42_nonneg`, `C42_square_grad`, `C42_unsafe_update`.
  Over the reals: the derivatives are derivatives (HasDerivAt) of the loss, for every prediction and label.
* **C43 Importance-weighted squared updates never overshoot**
  Model: Loss. Proof: Real analysis with exp.
  Status: proved. Theorems in `Props/Flow.lean`, `Props/Loss.lean`: `C43_flow`, `C43_composition`, `C43_no_overshoot`, `C43_monotone`, `C43_small_step`.
  Over the reals: the closed form update composes over importance weights, never passes the label and is monotone in the weight. C43_flow: the update ends exactly where following the gradient of the loss for that importance ends.
* **C44 Reading a VW text file loses and invents nothing (single line)**
  Model: VwText, Text. Proof: Reader over a list of characters; induction.
  Status: proved. Theorems in `Props/Read.lean`: `Vw.C44_single_line`.
  All inputs. Input is a list of characters; reading is assumed to succeed.
* **C45 Reading a multi-line VW file groups examples at blank lines**
  Model: VwText, Text. Proof: Same.
  Status: proved. Theorems in `Props/Read.lean`: `Vw.C45_multi_line`.
  All inputs, including that splitting a chunk into lines during parsing gives the same lines back.
* **C46 VW text features parse to the described features**
  Model: VwText. Proof: Print/parse round trip by induction; float syntax is a parameter.
  Status: proved. Theorems in `Props/Vw.lean`: `Vw.C46_features`, `Vw.C46_empty_namespace_panics`.
  All rendered examples; float syntax and hash function are parameters. Debug profile: positions of anonymous features must not overflow 32 bits. C46_empty_namespace_panics records that an empty segment after a bar panics.
* **C47 VW text labels are read as documented**
  Model: VwText. Proof: Decision logic over token lists.
  Status: proved. Theorems in `Props/Vw.lean`: `Vw.C47_labels`, `Vw.C47_every_text`.
  All texts before the first bar (C47_every_text). A tab before the bar does not count as separation.
* **C48 VW text contextual bandit examples are assembled correctly**
  Model: VwText. Proof: Induction over lines.
  Status: proved. Theorems in `Props/Vw.lean`: `Vw.C48_assembly`, `Vw.C48_other_labels`.
  All chunks of any number of lines of well formed lines.
* **C49 JSON features parse to the described features**
  Model: JsonParser. Proof: Induction over JSON; negation for empty arrays and for reserve on recycled objects (`_partial`).
  Status: partial. Theorems in `Props/JsonParser.lean`: `Js.C49_features_partial`, `Js.C49_cb_partial`, `Js.C49_empty_list_false`, `Js.C49_recycled_false`, `Js.C49_number_overflow_false`.
  Partial: in the documented format parsing can panic. Proved for all examples whose lists are not empty, whose number lists stay inside the 32-bit index space and, for string lists, when the recycled object has no spare capacity in that namespace; the three exceptions are proved to panic. JSON text parsing (serde) and the conversion of JSON numbers to f32 are parameters.
* **C50 JSON labels parse as documented**
  Model: JsonParser. Proof: Decision logic; negation for the missing weight (`_partial`).
  Status: partial. Theorems in `Props/JsonParser.lean`: `Js.C50_simple_partial`, `Js.C50_cb`, `Js.C50_weight_false`.
  Partial: the documented default weight does not exist; a label object without a weight makes the parser panic (C50_weight_false). Everything else is proved for all documents.
* **C51 DsJson parsing follows the nesting of the document**
  Model: JsonParser. Proof: Structural induction over JSON.
  Status: proved. Theorems in `Props/JsonParser.lean`: `Ds.C51_dsjson`, `Ds.C51_balanced`, `Ds.C51_paths`.
  C51_dsjson gives acceptance and the result for every document; C51_paths says in terms of key paths which features an example has; C51_balanced is the stack. Text to JSON value is a parameter. In the debug profile an array position may overflow the 32-bit hash (part of Accepted).
* **C52 Parsing does not depend on pool history**
  Model: SparseFeatures, VwText, JsonParser. Proof: Observational congruence; negation for JSON string arrays (`_partial`).
  Status: partial. Theorems in `Props/Recycle.lean`: `C52_vw`, `C52_dsjson`, `C52_json_partial`, `C52_json_ok_partial`, `C52_json_false`, `C52_namespaces_false`.
  Proved for every chunk (well-formed or not) for VW text and DsJson. For JSON proved for documents without string lists and, for all documents, whenever both parses succeed; a string list on a recycled object can panic (C52_json_false). The namespaces iterator shows namespaces of former examples (C52_namespaces_false).
* **C53 Multi-threaded training gives the same result as single-threaded training**
  Model: Pipeline. Proof: Transition system; invariant over all reachable states; refinement to the sequential fold.
  Status: proved. Theorems in `Props/Pipeline.lean`, `Props/Train.lean`: `C53_same_as_sequential`, `C53_always_a_prefix`, `C53_same_failure`, `C53_training`.
  Any number of threads, any queue size, any schedule with spurious wake-ups, any behaviour of parser and learner. Sequentially consistent memory.
* **C54 Multi-threaded training never deadlocks**
  Model: Pipeline. Proof: Progress from invariant; termination measure.
  Status: proved. Theorems in `Props/Pipeline.lean`: `C54_progress`, `C54_terminates`, `C54_usable_input`, `C54_completes`, `C54_panic_deadlocks`, `C54_error_hangs`.
  Queue size >= 1, at least one parser thread, and the single-threaded loop succeeds. Without the last assumption refuted: C54_panic_deadlocks, C54_error_hangs.
* **C55 A parsed result is handed over exactly once**
  Model: Pipeline. Proof: Invariant over all reachable states.
  Status: proved. Theorems in `Props/Pipeline.lean`: `C55_no_assertion_fails`, `C55_no_race`, `C55_handed_over_once`, `C55_right_result`.
  Sequentially consistent memory; no two threads are ever about to access the same unsafe cell, and no assertion fails.
* **C56 Metrics are the documented averages over all examples**
  Model: Train. Proof: Induction over streams.
  Status: proved. Theorems in `Props/Train.lean`: `C56_mse`, `C56_ips`, `C56_parsed_features`, `C56_example_number`, `C56_example_number_limits`, `C56_training_feeds`.
  Exact arithmetic; example_number and parsed_features within the range of i32 (limits stated). C56_training_feeds ties the metrics to the training loop.
* **C57 Progress output follows the configured period**
  Model: Train. Proof: Induction over iterations.
  Status: proved. Theorems in `Props/LongTrain.lean`, `Props/Progress.lean`, `Props/Train.lean`: `C57_any_number`, `C57_debug_overflow`, `C57_cast`, `C57_default`, `C57_debug_overflow_multiplicative`, `C57_whole_factor`, `C57_additive`, `C57_rule`, `C57_multiplicative`.
  Additive periods: exact for any number of examples in the release profile, where the u32 counters start again (C57_any_number), and the exact point of the overflow panic in the debug profile (C57_debug_overflow). The default period *2 in single precision: exact for any number of examples (C57_default). Whole factors in single precision up to 2^24 examples (C57_whole_factor; not exact beyond). C57_rule covers every period including fractional ones.
* **C58 Reduction type names are validated**
  Model: Factory, Names. Proof: Character-level decision logic.
  Status: proved. Theorems in `Props/Names.lean`: `C58_accepted`, `C58_unchanged`, `C58_errors`, `C58_register`, `C58_registered`, `C58_unknown`.
  For try_from. The derived Deserialize does not validate (DESIGN.md findings).
* **C59 Saving and loading a model does not change its behaviour**
  Model: Serde, Reductions. Proof: State round trip for each reduction by induction over the stack.
  Status: proved. Theorems in `Props/Ieee.lean`, `Props/Serde.lean`: `C59_ieee`, `C59_save_load_same_behaviour`, `C59_exact`.
  Every stack, every history before saving and after loading; only the sign of zeros can change and the theorem shows it is never observable. Uses the float laws LawfulCmp and SignedZero (both satisfied by IEEE 754; shown satisfiable with a negative zero by SInt). The flexbuffers byte format itself is not modelled: a document round-trips through it unchanged.
* **C60 Elementwise interaction multiplies matching positions**
  Model: Reductions. Proof: Sorted merge of two index lists; induction.
  Status: proved. Theorems in `Props/Elementwise.lean`: `C60_products`, `C60_dense`, `C60_base_sees`.
  Products of matching stored positions, dense reading of the result, and what the base reduction sees.
* **C61 Linear predictions are linear**
  Model: Coin. Proof: Sum over lists, permutation invariance.
  Status: proved. Theorems in `Props/Coin2.lean`: `C61_linear`, `C61_additive`, `C61_order_irrelevant`.
  Exact arithmetic, without interactions; in floats the sum depends on the order.
* **C62 JSON and DsJson input is read line by line**
  Model: JsonParser. Proof: Induction over the input text: every line, with its newline, is one chunk, and the chunks concatenate to the input.
  Status: proved. Theorems in `Props/JsonParser.lean`: `Js.C62_lines`.
  Blank lines are delivered like others (and then fail to parse), unlike for VW text. Reading is assumed to succeed.
* **C63 A configuration means what it says**
  Model: Config, Serde, Factory. Proof: the reader is compared with an inductive specification of what a document stands for (SpecConfig), both directions, by induction on the nesting with a bound on the fuel
  Status: proved. Theorems in `Props/Config.lean`: `Cfg.C63_read`, `Cfg.C63_workspace`, `Cfg.C63_unambiguous`.
  Exact characterisation (iff) against the separate specification SpecConfig.lean, for the whole document, plus uniqueness of the reading.
* **C64 No key of a configuration is ignored**
  Model: Config. Proof: inversion of the specification along the path to the unknown key; the failure for the outer object by showing that both documents read the same
  Status: partial. Theorems in `Props/Config.lean`: `Cfg.C64_unknown_setting_partial`, `Cfg.C64_unknown_key_false`.
  Proved for unknown keys at the top, in the global settings and in the settings of a reduction at any depth. False for the object {typename, config} itself: C64_unknown_key_false shows that with a misspelled `config` all settings are silently dropped, although the published JSON schema forbids additional keys there.
* **C65 Emitted configurations are valid**
  Model: Config, Factory. Proof: the emitted document is read symbolically for each registered reduction; creation by C29
  Status: partial. Theorems in `Props/Config.lean`, `Props/ConfigNew.lean`: `Cfg.C65_new_is_accepted_partial`, `Cfg.C65_known`, `Cfg.C65_debug_false`, `Cfg.C65_prints`, `Cfg.C65_full`.
  Proved for all reductions but Debug. C65_debug_false: what `config new Debug` emits is always rejected, because its `next` defaults to a reduction called Unknown. C65_prints: the printed document, word for word, for every reduction; C65_full: it gives a value to every setting the reduction has.
* **C66 Every stack can be configured**
  Model: Config. Proof: an explicit written form, by induction on the stack, then C63
  Status: proved. Theorems in `Props/Config.lean`: `Cfg.C66_expressible`.
* **C67 Parsed examples are valid**
  Model: VwText, JsonParser, SparseFeatures. Proof: an invariant of the object that is being filled, kept by every step of the three parsers
  Status: proved. Theorems in `Props/EndToEnd.lean`: `C67_vw`, `C67_json`, `C67_dsjson`, `C67_empty_namespace_false`.
  Features.Formed and Features.Valid as in SpecTrain and Spec. C67_empty_namespace_false: the condition on contextual bandit text is needed.
* **C68 Multi-threaded training from text equals single-threaded training**
  Model: PoolTrain, Train, Pipeline, all parsers. Proof: a simulation: every step of the pipeline with the shared pool is a step of the pipeline with new objects for every chunk (C52, C26 and C67 make the objects invisible), then C53 to C55
  Status: partial. Theorems in `Props/EndToEnd.lean`: `C68_vw`, `C68_dsjson`, `C68_json_partial`, `C68_vw_terminates`, `C68_dsjson_terminates`, `C68_json_false`.
  Full for VW text and DsJson. JSON: documents without lists of strings; C68_json_false shows that with lists of strings success depends on the schedule. Termination bounds the steps of the threads, not the number of objects taken.
* **C69 Training can be interrupted and resumed**
  Model: Command (train, with load, parsers, loop, threads and saving). Proof: the loop learns the parsed examples in order (C68, C25); reading a concatenation reads the parts; a loaded model differs from the saved one in signs of zeros only and stays so (C59); saved documents ignore these signs
  Status: proved. Theorems in `Props/Command.lean`, `Props/Ieee.lean`: `Cli.C69_resumed_training`, `Cli.C69_one_step_succeeds`, `Cli.C69_two_steps_succeed`, `C69_ieee`.
  Numbers satisfy the laws LawfulCmp and SignedZero (f32 does; the laws are stated in Spec and SpecSerde). JSON data with lists of strings, for which C68 does not hold, is excluded by Clean; namespaces without features are allowed.
* **C70 Output and speed options do not change what is learned**
  Model: Command. Proof: both runs learn the same sequence (C68); processing an example with output learns what processing it without output learns (C25); completion from progress and the bound on steps (C68)
  Status: proved. Theorems in `Props/Command.lean`: `Cli.C70_same_model`, `Cli.C70_quiet_succeeds`, `Cli.C70_threads_same_output`, `Cli.C70_threads_succeed`.
  As C69. With threads, success is stated for every schedule: no reachable state is stuck without the right output; termination of every schedule is C68.
* **C71 Data without examples is not an error**
  Model: Command. Proof: the counter metric is the first column; without examples it panics (finding); otherwise induction over the examples
  Status: partial. Theorems in `Props/Command.lean`: `Cli.C71_no_examples_false`, `Cli.C71_quiet_unchanged_partial`, `Cli.C71_last_row`.
  C71_no_examples_false: the property fails unless --quiet is given; train panics when it prints the last row. C71_quiet_unchanged_partial is the part that holds; C71_last_row is the second sentence.
* **C72 The progress option**
  Model: Command: OutputPeriod.fromStr. Proof: exact characterisation of the accepted texts
  Status: proved. Theorems in `Props/Command.lean`: `Cli.C72_additive`, `Cli.C72_multiplicative`.
  On the text after to_lowercase; f32 parsing and the cast f32 to u32 are parameters. C72_additive includes the undocumented second plus sign.
* **C73 Export and import give the model file back**
  Model: Command: exportModel, importModel. Proof: C08 applied to a loaded model; writing a loaded model gives the document it was loaded from
  Status: proved. Theorems in `Props/Command.lean`: `Cli.C73_export_import`.
  The hypothesis FinRed says that all numbers in the loaded model are finite; C08_nonfinite_panics shows it is needed.
* **C74 The names of features match the parsed features**
  Model: VwNames, VwText. Proof: Induction over the features, namespaces and lines of a document; the map is characterised by its lookups. Hashes of the names are compared with the meaning of the document that C46 proves for parsing.
  Status: partial. Theorems in `Props/VwNames.lean`: `Vw.C74_names_partial`, `Vw.C74_names_lines_partial`, `Vw.C74_indices`, `Vw.C74_no_space_fails`, `Vw.C74_repeated_false`, `Vw.C74_tab_false`.
  C74_names_partial and C74_names_lines_partial say exactly which names are given when a space follows each namespace name: those of the last occurrence of each namespace. C74_indices: if no namespace occurs twice, all names are given and hash to the parsed indices. C74_repeated_false, C74_no_space_fails and C74_tab_false show where the property fails.
* **C75 Python objects do not influence each other through the shared pool**
  Model: Python. Proof: The session with the pool simulates a reference session on plain values: related objects are equal, features are related by having the same visible content, and the objects of the pool are empty. One lemma per call; induction over the calls.
  Status: partial. Theorems in `Props/Python.lean`: `Py.C75_session_partial`, `Py.C75_unique`, `Py.C75_saved_json`, `Py.C75_json_false`, `Py.C75_empty_false`.
  C75_session_partial for all sessions whose parsed texts have no JSON lists of strings and, for contextual bandits in VW text and JSON, no namespaces without features; C75_unique: the reference semantics leaves no choice. C75_json_false and C75_empty_false show that the property fails for both. C75_saved_json: saved JSON models may be loaded. Models that were not saved by this library are not covered; a session ends at the first panic, and C107 is about what follows.
* **C76 Predictions in Python are repeatable**
  Model: Python. Proof: By C75 it is enough to follow the plain values: calls that leave workspace and features alone do not change them.
  Status: partial. Theorems in `Props/Python.lean`: `Py.C76_repeatable_partial`, `Py.C76_empty_false`.
  For the same sessions as C75; C76_empty_false shows that the property fails for namespaces without features.
* **C77 train does what the library does**
  Model: Command, PoolTrain. Proof: The loop is the sequential run (C68); by induction over the examples predict_then_learn leaves the model of learn and returns the prediction of predict, also for examples with empty namespaces; the converse runs the quiet loop.
  Status: proved. Theorems in `Props/Ieee.lean`, `Props/Play.lean`: `C77_ieee`, `Cli.C77_train`, `Cli.C77_quiet_succeeds`.
  Parsed, Learns and Plays (SpecPlay.lean) say what a user of the library would do. JSON with lists of strings is excluded (see C52).
* **C78 The progress table shows the metrics of the examples so far**
  Model: Command, Train. Proof: Induction over the examples of the sequential run: every metric has been fed the points so far; the rows are at the positions that C57 gives; each metric is characterised by a formula over the points.
  Status: proved. Theorems in `Props/Play.lean`: `Cli.C78_table`, `Cli.C78_additive`.
  MetricIs gives a formula for each metric, in the arithmetic of the model (any Flt); C56 relates mse and ips to means over exact fields. Fewer than 2^31 examples; the counters of the progress must not overflow (examples + period at most 2^32).
* **C79 Well-formed input never crashes a model**
  Model: Reductions, Workspace, Explore. Proof: Structural induction over the stack shows that predict and learn succeed in a state whose regressor has its invariants (weights allocated for num_bits, label range ordered); C27's invariant carries the states along the history, C24's equivalence the examples; predict_then_learn is reduced to predict and learn. The necessity theorems follow the same recursion.
  Status: proved. Theorems in `Props/Ieee.lean`, `Props/Safe.lean`: `C79_ieee`, `C79_no_panic`, `C79_f32`, `C79_exact`, `C79_needs_action`, `C79_needs_chosen`, `C79_needs_settled`, `C79_elementwise_false`.
  Stated with the restrictions named in the property. C79_no_panic is for any arithmetic (C79_f32 for single precision bit patterns) with uniform epsilon 0, C79_exact for any uniform epsilon in [0,1] over the reals. In the release profile examples may have namespaces without features, although calls change such examples. C79_elementwise_false shows why ElementwiseInteraction is excluded; C79_needs_* show that the conditions are needed. Single precision with a uniform epsilon other than 0: C110 (no panic as long as the scores are moderate, C110_infinite_false otherwise).
* **C80 A parsed example fits the model it was parsed for**
  Model: Vw, Json, JsonParser, SparseFeatures. Proof: Every feature is added through a function that masks its hash with num_bits; an invariant of the objects under construction and of the pool carries this through the parsers; labels by cases.
  Status: proved. Theorems in `Props/ParsedFit.lean`: `C80_vw`, `C80_json`, `C80_dsjson`, `C80_binary_false`, `C80_json_action_false`, `C80_dsjson_action_false`.
  C80_vw, C80_json and C80_dsjson are for every pool that parsing and recycling can make. Findings: C80_binary_false (no VW text or JSON parses for a model with binary labels), C80_json_action_false and C80_dsjson_action_false (in JSON and DsJson the labelled action need not be an action of the example).
* **C81 Training on parseable data does not fail**
  Model: Train, Serde and everything below. Proof: C80 and C67 turn parsed examples into well-formed ones, C79's lemmas give the next learn call, and the invariants of C68 (also for loaded models) carry the state; C77 turns the sequence of learn calls into the run.
  Status: proved. Theorems in `Props/Ieee.lean`, `Props/TrainSafe.lean`: `C81_ieee`, `Cli.C81_train`, `Cli.C81_release`.
  Stated without threads and with --quiet; C70 carries it to any number of threads. ElementwiseInteraction is excluded because it can panic (C79_elementwise_false).
* **C82 Training with output does not fail**
  Model: Train. Proof: As C81 with predict_then_learn, and an invariant that every metric of the run accepts the label and the prediction and has room for the remaining examples; the ids of the predicted actions are those of the example, so ips finds the logged action.
  Status: proved. Theorems in `Props/TrainSafe.lean`: `Cli.C82_train`.
  Stated without threads; C70 carries it to any number of threads. Metrics that suit the model are a hypothesis: with others the run panics at the first example. A uniform epsilon other than 0 is excluded as in C79.
* **C83 The published schema describes the configurations that are accepted**
  Model: Schema (construction of the schema, the published file, the meaning of JSON Schema keywords), Config. Proof: One lemma per form of subschema that occurs says what it means; induction over what a document stands for (C63) in one direction, over the document in the other. Validity of a oneOf over the reductions reduces to the one alternative with the right typename.
  Status: partial. Theorems in `Props/Schema.lean`: `JsonSchema.C83_published`, `JsonSchema.C83_accepted_partial`, `JsonSchema.C83_valid_partial`, `JsonSchema.C83_new_partial`, `JsonSchema.C83_other_key_false`, `JsonSchema.C83_null_false`, `JsonSchema.C83_typename_false`, `JsonSchema.C83_debug_false`, `JsonSchema.C83_range_false`, `JsonSchema.C83_schema_false`, `JsonSchema.C83_new_debug_false`.
  Both directions have exceptions in the code, each with a counterexample: C83_other_key_false, C83_null_false (accepted, not valid), C83_typename_false, C83_debug_false, C83_range_false, C83_schema_false (valid, rejected), C83_new_debug_false. The hypotheses Tidy, Complete and CompleteRest exclude exactly these. That the stack of a valid document is well typed is beyond the schema (C28, C29).
* **C84 The units of features do not matter**
  Model: Coin. Proof: A relation between two states of the regressor, with a factor per weight and a sign, is kept by learning and relates the predictions; induction over the history.
  Status: proved. Theorems in `Props/Lift.lean`, `Props/Units.lean`: `C84_stack`, `C84_units`, `C84_features`.
  C84_units: for the visited features (with interactions and constant); C84_features: in terms of the features given, without interactions; C84_stack: for every stack without ElementwiseInteraction and every session, bandit examples included. Exact arithmetic of an ordered field.
* **C85 The order of features does not matter**
  Model: Coin. Proof: C84 with factor 1: the updates of different weights commute, so the state after a pass depends only on the values seen at each weight.
  Status: proved. Theorems in `Props/Lift.lean`, `Props/Units.lean`: `C85_stack`, `C85_order`, `C85_features`, `C85_repeated_false`.
  C85_order with interactions, C85_features without; C85_repeated_false shows that the proviso on features with the same weight is needed. Exact arithmetic. C85_stack: for every stack without ElementwiseInteraction and every session, bandit examples included.
* **C86 Labels of both signs are treated alike**
  Model: Coin. Proof: The relation of C84 with factor 1 and sign -1.
  Status: proved. Theorems in `Props/Units.lean`: `C86_sign`.
  For both link functions, all loss functions, l1 and l2. Exact arithmetic.
* **C87 Examples with importance weight 0 have no influence**
  Model: Coin. Proof: Case analysis of one step for what stays; a concrete counterexample over the rationals.
  Status: partial. Theorems in `Props/Units.lean`: `C87_zero_weight_partial`, `C87_zero_weight_false`.
  False of the code (C87_zero_weight_false); C87_zero_weight_partial states what an example with weight 0 leaves unchanged.
* **C88 Where an action is listed does not matter**
  Model: CbAdf, Greedy, Softmax, SquareCb, Explore. Proof: Each distribution is the image of the scores under one function that depends only on the multiset of scores; sorting makes the minimum probability independent of the order. Learning in mtr mode uses the chosen action only.
  Status: partial. Theorems in `Props/Order.lean`: `C88_scores`, `C88_greedy_scores`, `C88_greedy_partial`, `C88_softmax_scores`, `C88_squarecb_scores`, `C88_softmax`, `C88_squarecb_partial`, `C88_learn_mtr_partial`, `C88_learn_greedy`, `C88_learn_softmax`, `C88_learn_squarecb`, `C88_learn_ips_false`, `C88_tie_false`.
  Scores (C88_scores) and learning in mtr mode (C88_learn_*) for all numbers, probabilities in exact arithmetic, for greedy and SquareCB if one action has the lowest score. False of the code otherwise: C88_learn_ips_false, C88_tie_false.
* **C89 Names of features do not matter unless two collide**
  Model: Coin, Visit, VwText, JsonParser. Proof: A simulation relation between two weight tables (weight of i here = weight of the renamed i there), kept by learning; the low bits of a hash or an interaction depend on the low bits of its parts only; the parsers commute with taking low bits.
  Status: proved. Theorems in `Props/Lift.lean`, `Props/Renaming.lean`: `C89_stack`, `C89_names`, `C89_features`, `C89_bits`, `C89_vw`, `C89_json`, `C89_dsjson`, `C89_collision_false`.
  For all numbers (so also f32): C89_names for any renaming of indices that is injective on the indices used, C89_features for feature names, C89_stack for every stack without ElementwiseInteraction and every session (no interactions), C89_bits for fewer bits, C89_vw, C89_json and C89_dsjson for the parsers. C89_collision_false shows that the condition is needed.
* **C90 Off-policy estimates are unbiased**
  Model: Train (metrics), CbAdf, Workspace. Proof: The difference of the metric's sum and the sum of the true rewards is a martingale: a prediction does not depend on the action logged for it. Expectation is a finite sum over action sequences, defined by recursion on the number of rounds.
  Status: proved. Theorems in `Props/OffPolicy.lean`: `C90_metric`, `C90_total`, `C90_ips`, `C90_mtr`.
  In exact arithmetic. C90_metric for any run that succeeds, C90_total for new models, where success is a conclusion; C90_ips and C90_mtr for what the regressor learns.
* **C91 The input formats agree**
  Model: VwText, JsonParser (JSON and DsJson). Proof: A description of examples with three renderings; the meanings of the renderings coincide, so C46, C48, C49 and C51 give objects that represent the same map.
  Status: proved. Theorems in `Props/Formats.lean`: `Formats.C91_simple`, `Formats.C91_cb`.
  Data that all formats can express: names and texts without white space, colons and bars, no leading underscore (DsJson ignores such keys), at least one feature in every namespace, texts that are not numbers; the JSON and the VW reading of each number are the same float.
* **C92 Exploration declines as it should**
  Model: Exploration reductions, enforce_minimum_probability. Proof: The floor turns a distribution p into max (p - tau) floor for one tau; if the gaps of the best action grow, so does its share. SquareCB and softmax gaps grow with gamma and lambda; gamma grows with the counter.
  Status: proved. Theorems in `Props/Declines.lean`: `C92_squarecb`, `C92_schedule`, `C92_decay`, `C92_softmax`, `C92_greedy`.
  Exact arithmetic over the reals (as C19 to C22); gamma scale and gamma exponent at least 0, which the documentation assumes and the configuration does not check.
* **C93 SquareCB turns good scores into good decisions**
  Model: SquareCB. Proof: Completing squares for the error of the scores, the inverse gap weights for the rest; the schedule from C23.
  Status: proved. Theorems in `Props/Regret.lean`: `C93_squarecb`, `C93_floor`, `C93_guarantee`.
  Exact arithmetic over the reals; gamma scale positive. A statement about one decision: no bound for the error of the regressor is claimed.
* **C94 Exploration in floating point**
  Model: rounded arithmetic (`Model, Round.lean`), exploration. Proof: Standard model of rounding; forward error of the sums; invariant of the loop of `enforce_min_prob` with a slack of 41 (u + n eta); `fl32` is shown to be such a rounding.
  Status: partial. Theorems in `Props/ExploreF32.lean`, `Props/GreedyF32.lean`, `Props/Rounded.lean`: `C94_floor_f32`, `C94_squarecb_f32_partial`, `C94_softmax_f32_partial`, `C94_greedy_f32`, `C94_greedy`, `C94_floor`, `C94_softmax_partial`, `C94_squarecb_partial`, `C94_softmax_floor_false`.
  The floor does not hold for softmax in f32 (C94_softmax_floor_false): a weight that is rounded to 0 stays 0 whatever epsilon is. Proved: every action has the floor or probability exactly 0 (C94_softmax_partial, C94_squarecb_partial), the sum is within 123 n (u + n eta) of 1, and the ranking is kept (for SquareCB among the actions that are not the best one, and with 6 n^2 (u + eta) <= 1, about 1600 actions in f32). For epsilon-greedy and for the floor itself nothing is missing (C94_greedy, C94_floor). On f32 bit patterns with the IEEE operations, infinities included: epsilon-greedy (C94_greedy_f32), the floor (C94_floor_f32), SquareCB (C94_squarecb_f32_partial) and softmax (C94_softmax_f32_partial). For SquareCB and softmax gamma and lambda are any finite numbers that are not negative, and the scores are up to 2^126 in magnitude (beyond, their difference can be infinite, see C110_infinite_false); products with gamma and lambda may overflow to infinity. The exponential function of the platform is assumed to be a function E of the value that increases, is not negative, is 1 at 0 and 0 far below it and at minus infinity (ExpIs).
* **C95 Metrics in floating point**
  Model: rounded arithmetic, metrics. Proof: Forward error of a running sum of terms that are themselves computed with rounding (`total_round`); counterexample by the fixed point of `x + 1` in `f32`.
  Status: partial. Theorems in `Props/MetricsF32.lean`, `Props/RoundedMetrics.lean`: `C95_mse_f32_partial`, `C95_ips_f32_partial`, `C95_overflow_false`, `C95_mse_partial`, `C95_ips_partial`, `C95_mse_false`.
  False for very many examples (C95_mse_false): the running sum is kept in f32 and stops growing at 2^24 times the size of the terms; with every error equal to 1 the reported mean squared error after 2^25 examples is 1/2. Proved for up to 1 / (100 (u + eta)) examples (about 167000 in f32): the error of the mean squared error is at most 7 n u times the mean itself plus underflow (C95_mse_partial), and that of ips is likewise in terms of the absolute values (C95_ips_partial, for costs that are representable). C95_mse_f32_partial and C95_ips_f32_partial: the same bounds for the metrics computed on f32 bit patterns with the IEEE operations, infinities included, for labels, predictions and costs up to 2^40, logged probabilities from 2^-40 to 1 and up to 160000 examples: nothing overflows. C95_overflow_false: a finite label of 1e30 makes the mean squared error infinite.
* **C96 Predictions in floating point**
  Model: rounded arithmetic, `Coin.predict`. Proof: The visited features in rounded and in exact arithmetic are compared element by element (`visited_round`); then `total_round`; clamping does not expand distances, the logistic function shrinks them by 4.
  Status: proved. Theorems in `Props/RoundedPredict.lean`: `C96_raw`, `C96_predict`, `C96_relative_false`.
  For up to 1 / (100 (u + eta)) visited features (about 167000 in f32). C96_raw is the bound on the raw sum, C96_predict the bound on the whole prediction, with the exponential function accurate up to one rounding. C96_relative_false shows that the bound cannot be relative to the prediction itself. Overflow to infinity is not modelled.
* **C97 Single precision arithmetic**
  Model: `Model, Ieee.lean`: binary32 on bit patterns. Proof: The result of every operation is `sign`, and a quotient of naturals rounded to the 24 leading bits. On the multiples of the last place this is the nearest one, ties to even; numbers with a finer last place are farther away than the least number of the binade. Comparison by induction on sign and magnitude.
  Status: proved. Theorems in `Props/Ieee.lean`: `C97_add`, `C97_sub`, `C97_mul`, `C97_div`, `C97_of_nat`, `C97_literal`, `C97_neg_abs`, `C97_compare`, `C97_compare_nan`, `C97_add_nan`, `C97_mul_nan`, `C97_div_nan`, `C97_rounding`, `C97_add_special`, `C97_mul_special`, `C97_div_special`, `C97_neg_abs_sign`, `C97_sub_special`.
  The arithmetic of `f32` is given concretely on bit patterns (Model/Ieee.lean) and is correctly rounded in the sense of SpecIeee.lean, which is about values only. C97_add_special, C97_sub_special, C97_mul_special, C97_div_special and C97_neg_abs_sign give signs and infinities, where values do not. exp, ln, powf and sqrt stay parameters. As a consequence the theorems about lawful floats hold for f32 without assumptions on arithmetic: C08_ieee, C36_ieee, C40_ieee, C59_ieee, C69_ieee, C77_ieee, C79_ieee, C81_ieee. C97_rounding connects it to the rounded arithmetic of C94 to C96 where nothing overflows.
* **C98 Finite data keep a model usable**
  Model: `ieeeFlt` (Model, Ieee.lean) with the regressor of Model, Coin.lean. Proof: NaN in the gradient sum of the constant stays there, and makes its weight NaN with the next example; a NaN weight of the constant makes every prediction 0. Interval bounds by powers of two, which rounding keeps; sums of bounded terms stop growing at 2^25 times the bound.
  Status: partial. Theorems in `Props/Nan.lean`, `Props/NanVisits.lean`: `C98_bad_number`, `C98_partial`, `C98_finite_false`, `C98_large_false`, `C98_visits`, `C98_shared_partial`.
  False as stated: C98_finite_false gives three examples with label 1 and weight 1 (two of them with a value of 1e-30), C98_large_false three with values of at least 1 and labels up to 1e10, after which the regressor with the default configuration predicts 0 for everything whatever else it is trained with. C98_bad_number: one NaN in a value, a label or a weight, and one more example, do the same to every model whose constant weight was moved. C98_partial: with labels up to 2^16, weights from 2^-8 to 2^8 and values 0 or from 2^-10 to 2^10 in magnitude, every statistic stays finite and no prediction is NaN, for histories of any length, as long as the betting wealth of every weight stays within 2^20 and the features of an example have different weights. C98_shared_partial: the same when features share weights, with the wealth within 2^k after each example, 2^k bounding alpha, and at most 18 - k visits of a weight in one example. C98_visits: nothing is asked of the wealth when training visits no weight more than 19 - k times (17 with the default alpha), because each visit at most doubles it up to rounding. Missing: a bound on the wealth for long histories.
* **C99 A call that fails changes nothing**
  Model: Model, Crash.lean: every call again as a function from the state and the example to a result and the state and example left behind, also when the result is a panic. Proof: Refinement between the two models by induction over the stack; invariants of what each point of a call has changed so far.
  Status: partial. Theorems in `Props/Crash.lean`: `C99_same_results`, `C99_usable`, `C99_usable_f32`, `C99_kinds_partial`, `C99_regression_partial`, `C99_bandit_partial`, `C99_mtr_partial`, `C99_ips_partial`, `C99_range_false`, `C99_mtr_false`, `C99_elementwise_false`, `C99_ips_false`, `C99_features_false`.
  False as stated, with five witnesses in single precision: a failing learn call widens the label range of a regressor (C99_range_false), counts the example in mtr mode (C99_mtr_false), has learned the actions before the one it fails at in ips mode (C99_ips_false), or takes namespaces out of the example for good (C99_elementwise_false); a failing predict call leaves shared features in an action, and another model predicts something else for the example (C99_features_false). Proved: C99_same_results (the crash model returns what the model of all other theorems returns), C99_usable (after any calls, failed or not, every well-formed call succeeds), C99_kinds_partial (a mistaken kind of example or label changes nothing), C99_regression_partial (of a regression model only the label range can change, and nothing if the label is inside it), C99_bandit_partial (exactly what can be left of a bandit example), C99_mtr_partial (a failing learn call in mtr mode changes no prediction), C99_ips_partial (a failing learn call in ips mode has learned the actions before the one it fails at and nothing else: apart from the label range the model is the one that has learned the example with the other actions left out).
* **C100 The inverse hash table finds every feature**
  Model: Model, InverseHash.lean: the table as an association list. Proof: Induction over the insertions.
  Status: proved. Theorems in `Props/InverseHash.lean`: `C100_lookup`.
  C100_lookup. The hash map and the hash sets are an association list of lists; only membership is stated.
* **C101 Sensitivity never grows with training**
  Model: Model, Sensitivity.lean and Model, Coin.lean: sensitivity of a stack and of the regressor. Proof: The pass over the weights as a sum; monotony of the gradient statistics (C38) termwise.
  Status: proved. Theorems in `Props/Sensitivity.lean`: `C101_value`, `C101_never_grows`, `C101_stack`, `C101_bandit_panics`.
  Exact arithmetic in an ordered field; of the square root only its order and sign are used. C101_value gives the formula (no interactions), C101_never_grows sign and monotony (interactions included), C101_stack and C101_bandit_panics the stacks. The call panics for the features of a contextual bandit in every stack: see the findings in DESIGN.md.
* **C102 Interaction features are listed completely**
  Model: Model, SparseFeatures.lean: quadratic_features and cubic_features, collected. Proof: Case analysis on the namespaces; cartesian products of lists.
  Status: proved. Theorems in `Props/Listing.lean`: `C102_quadratic`, `C102_cubic`, `C102_visited`, `C102_same_false`.
  C102_quadratic, C102_cubic, C102_visited. C102_same_false: for one namespace twice the listing has both orders of each pair, while predicting and learning visit one.
* **C103 Importance-weighted logistic updates follow the gradient**
  Model: Model, Loss.lean: wexpmx, get_update of the logistic loss over the reals. Proof: The residual of the fourth order step has a rational derivative in the relative residual of the first guess; integrate its bound, and bound the first guess on both branches. The flow conserves the speed of z + exp z.
  Status: partial. Theorems in `Props/Flow.lean`: `C103_lambert_exists`, `C103_lambert`, `C103_flow_partial`, `C103_flow_exists`, `C103_soft_false`.
  Over the reals. C103_lambert is the documented error bound of wexpmx for every argument (C103_lambert_exists: the value it approximates exists and is unique). C103_flow_partial is the property for the two extreme labels, for every prediction, importance and speed; C103_flow_exists shows that the curve exists. Missing: labels in between, for which the property is false (C103_soft_false): the update averages the two extreme updates, and a large importance moves a prediction that already has the smallest loss far away. Rounding is not modelled here.
* **C104 The regressor competes with every linear predictor, without a learning rate**
  Model: Model, Coin.lean over the reals: learn and predict along a history. Proof: The bet of each weight is the Krichevsky-Trofimov bettor. Its wealth is bounded below by an integral potential (Lemmas/Betting.lean), kept through changes of scale by Jensen's inequality (Lemmas/BetInv.lean); the wealth bound gives the regret by convex duality; convexity of the squared loss adds the weights up (Lemmas/Online.lean).
  Status: proved. Theorems in `Props/Online.lean`: `C104_rounds_exist`, `C104_regret`, `C104_same_length`, `C104_average`.
  Over the reals. C104_regret is the bound for every history; C104_same_length is the bound for histories whose examples have equally many features of constant size, against the plain linear predictor; C104_average is the statement about the average; C104_rounds_exist: every history has its rounds, nothing panics. The answer right after learning an example is the one that the update was computed from, because the table stores the weight from before the update. Rounding is not modelled here.
* **C105 The regressor computes coin betting on the whole history**
  Model: Model, Coin.lean, Weights.lean over an ordered field. Proof: Invariant over the history: the table holds for each index the statistics of the outcomes of that index in the reference's history (Lemmas/Reference.lean).
  Status: proved. Theorems in `Props/Reference.lean`: `C105_predict`, `C105_table`.
  Exact arithmetic. The reference (SpecReference.lean) is a function of the history and uses nothing of the model. C105_predict is the property; C105_table says what each weight holds in terms of the reference. Examples with repeated features and labels beyond beta are included. Rounding is not modelled here.
* **C106 Debug and release builds agree**
  Model: The flag dbg of Model, *.lean. Proof: A relation between computations (same result, or the first has a debug panic) that every definition of the model respects, by induction over the stack, the actions, the features, the text and the history (Lemmas/Profile.lean); train with threads by C70.
  Status: proved. Theorems in `Props/Profile.lean`, `Props/ProfilePython.lean`: `C106_session`, `C106_release`, `C106_parse_text`, `C106_parse_json`, `C106_parse_dsjson`, `C106_train`, `C106_debug_panics`, `C106_overflow`, `Py.C106_python`.
  C106_session: the two builds end in the same way, or the debug build stops with an overflow or a failed debug assertion; C106_parse_* the same for the parsers; C106_train: what train outputs in the debug build it outputs in the release build, with and without parser threads. C106_debug_panics and C106_overflow show that the other direction is false: there are examples on which the debug build panics and the release build returns. C106_python: for sessions of the Python package.
* **C107 A Python program can go on after exceptions**
  Model: Model, PythonCrash.lean on top of Model, Python.lean and Model, Crash.lean. Proof: Invariant over the calls, failing ones included: all feature objects are well-formed, the objects of the pool are empty, workspaces are as some configuration describes (Lemmas/CrashInv.lean, Lemmas/PythonCrash.lean). Without ElementwiseInteraction valid examples stay valid (Lemmas/CrashKeeps.lean). Then C75.
  Status: proved. Theorems in `Props/PythonCrash.lean`: `Py.C107_same_results`, `Py.C107_others`, `Py.C107_goes_on`, `Py.C107_no_elementwise`, `Py.C107_new_empty`, `Py.C107_parses_the_same`.
  C107_same_results and C107_others for one call; C107_goes_on for all histories, with the condition that the features still in use are valid; C107_no_elementwise without that condition for workspaces without ElementwiseInteraction; C107_new_empty and C107_parses_the_same with all features still in use. Texts and JSON models as in C75_session_partial, whose counterexamples apply. What a failing call leaves of the objects it was given is the subject of C99.
* **C108 Weights edited in a JSON model are the weights of the imported model**
  Model: Serde, SpecEdit. Proof: Two rewritings and the edit are one rewriting of the single table of a saved stack (Lemmas/Edit.lean); what to_dense_weights makes of rows is in Lemmas/SerdeW.lean.
  Status: proved. Theorems in `Props/Edit.lean`, `Props/EditSettings.lean`: `C108_edited`, `C108_settings`, `C108_settings_binary`.
  Every stack and history; dimensions, every slot, everything else equal. A zero may lose its sign (C06). The numbers of the model and the new ones must be representable in JSON (C08_nonfinite_panics otherwise). Each listed feature must list all its models and numbers; otherwise loading panics (C109_malformed_false). C108_settings, C108_settings_binary: the global settings in the document.
* **C109 Loading something that is not a model is reported as an error**
  Model: Serde, SpecEdit. Proof: A document without weights has no table to rewrite and no regressor to read, by induction over the nesting; negations for malformed tables and for the binary form.
  Status: partial. Theorems in `Props/Edit.lean`: `C109_no_weights_partial`, `C109_malformed_false`, `C109_binary_false`.
  Holds for JSON documents without an entry named weights at any depth (C109_no_weights_partial: rejected with an error). Refuted for JSON models with a malformed weight table, for every model (C109_malformed_false), and for binary models: create_from_model panics on everything it cannot read (C109_binary_false).
* **C110 Exploration answers in single precision**
  Model: Explore, Ieee, SpecExplore32. Proof: Ranges of every intermediate single precision number (Lemmas/Explore32.lean), with the Bound32 lemmas on rounding; the outer call is the inner call plus the policy (explore_call). Negation by a kernel-evaluated session.
  Status: proved. Theorems in `Props/Explore32.lean`: `C110_greedy`, `C110_softmax`, `C110_squarecb`, `C110_infinite_false`.
  Bit-exact f32 arithmetic (C97); exp is assumed sane (SaneExp), powf is arbitrary as long as gamma is a nonnegative number. C110_infinite_false: without the bound on the scores it is false. A softmax model with valid settings, trained with small well-formed examples, panics when it predicts an example with values of 3e38 (uniform epsilon 0.1), or answers NaN for every action (uniform epsilon 0). For softmax and SquareCB an upper bound of 1 is not claimed in f32 (C94 has the exact sums over the reals).
* **C111 Wealth and scores grow at most linearly**
  Model: Coin, SpecReference. Proof: Over the reference of C105: what a round adds to the total wealth is minus the gradient times the sum of the bets (total_step); clipping towards the label can only lose (winnings); induction over the history (Lemmas/Growth.lean). A weight is at most the wealth over beta times the largest value.
  Status: proved. Theorems in `Props/Growth.lean`: `C111_wealth`, `C111_score`.
  Exact arithmetic over any ordered field, through the reference of C105. The conditions are those of C104 (beta bounds the gradients, no weight twice in an example). What rounding does to it is not covered; C98 has the conditions under which f32 training stays finite.
* **C112 Actions that are listed but not chosen do not influence what is learned**
  Model: Reductions, SpecChoice. Proof: In mtr mode the learned example is a function of the shared features, the chosen action and the counters (C31_mtr); layers above hand the example down, by induction over the configuration; induction over the history. Release builds: equality of the computations, without any condition on the features.
  Status: partial. Theorems in `Props/Choice.lean`: `C112_history_partial`, `C112_release_partial`, `C112_number_false`, `C112_ips_false`.
  Proved for the type mtr below any exploration, if the events list equally many actions: in release builds both histories have the same outcome, panics included, for arbitrary features (C112_release_partial); in both profiles the resulting models are equal (C112_history_partial). False of the code otherwise: the number of actions enters the weight of the event (C112_number_false), and ips learns every action that was not chosen as one without cost (C112_ips_false).
* **C113 A number of hash bits that cannot be used is rejected**
  Model: Shift. Proof: The shift of Rust in both profiles; every use of num_bits goes through the three functions that are modelled with it. Debug: induction over the stack down to the regressor.
  Status: partial. Theorems in `Props/NumBits.lean`: `C113_small`, `C113_debug`, `C113_release`, `C113_release_false`.
  C113_small: up to 31 bits both profiles compute what the model of all other theorems computes. C113_debug: with more bits the debug build creates no workspace for any stack (it panics). False of release builds: C113_release shows that num_bits counts modulo 32, C113_release_false that with 32 bits a workspace is created whose table has one feature, to which every feature is mapped.
* **C114 Configurations with the types published for Python are accepted**
  Model: Config, SpecPyConfig. Proof: The published types are transcribed as predicates on documents; the settings one by one, then C63. The negative half is universal: no element of the published type is a list.
  Status: partial. Theorems in `Props/PyConfig.lean`: `Cfg.C114_accepted_partial`, `Cfg.C114_interactions_false`.
  C114_accepted_partial: without interactions every typed dictionary is read and means what it says. False otherwise: C114_interactions_false shows that no dictionary with interactions of the published type is accepted, because the code expects lists of lists and the key Name where the types say a list and name.
* **C115 Exploration settings outside their range are rejected**
  Model: Factory, Reductions, Explore. Proof: Induction over pairs of configurations that differ in numbers only; a floor outside [0, 1] is an error of enforce_min_prob, which the reductions unwrap; C20 and C21 for the rest.
  Status: partial. Theorems in `Props/Settings.lean`: `C115_unchecked`, `C115_uniform_false`, `C115_greedy_false`, `C115_lambda_false`, `C115_gamma_false`.
  False of the code, for every stack and every such setting. C115_unchecked: whether a workspace is created does not depend on any number in the configuration. C115_uniform_false: with a uniform epsilon outside [0, 1] every prediction panics, after any history, for any numbers (also f32). C115_greedy_false: with epsilon above 1 the best action is the least likely, with a negative epsilon probabilities are negative. C115_lambda_false and C115_gamma_false: negative lambda and gamma. For settings inside the range see C20 to C22 and C110.
* **C116 ElementwiseInteraction works for every pair of vectors that fits into the table**
  Model: Reductions, Coin, Weights. Proof: C60 gives the indices of the products; the regressor succeeds exactly on features inside its table (C01, C04); the wrapper of the release build checks nothing else.
  Status: partial. Theorems in `Props/ElementwiseStacks.lean`, `Props/ElementwiseTable.lean`: `C116_stack_false`, `C116_exact`, `C116_outside_false`, `C116_exact_debug`, `C116_bandit_false`, `C116_bandit_exact`, `C116_bandit_learn_mtr`, `C116_bandit_learn_ips`, `C116_below_false`.
  False as stated. C116_exact_debug: for an ElementwiseInteraction over Coin, after any history, an example with two vectors is served exactly if the index of the product namespace plus the length of the shorter vector is at most 2^num_bits (the index of a product is not masked) and, in debug builds, no value is infinite or NaN; C116_exact is the release case without the condition on composite namespaces. C116_outside_false: otherwise every call panics. C116_bandit_exact, C116_bandit_false: the same for predicting below CbAdf, action by action, with the shared features appended. C116_bandit_learn_mtr and C116_bandit_learn_ips: the same for learning, in mtr mode for the chosen action only. C116_below_false: in the debug profile every call panics if the first feature of one namespace has an index below the hash of the namespace, as named features can have. C116_stack_false: the panics in every stack with further reductions (CbAdf, explorers, Binary, Debug) above ElementwiseInteraction, and Debug below it. Missing: the exact condition for such stacks, and several ElementwiseInteractions on top of each other.
* **C117 Features with value 0 do not matter**
  Model: Coin, Weights. Proof: A visit with value 0 adds nothing to the sums of the read passes; relate the regressors after an example and after the example without its zeros (`Props/ZeroFeatures.lean`).
  Status: partial. Theorems in `Props/ZeroF32.lean`, `Props/ZeroFeatures.lean`, `Props/ZeroInteractions.lean`: `C117_predict_f32_partial`, `C117_predict_f32_false`, `C117_predict`, `C117_learn_partial`, `C117_history_partial`, `C117_zero_false`, `C117_learn_false`, `C117_predict_interactions_partial`, `C117_learn_interactions_partial`.
  False of the code for learning: C117_zero_false (leaving a feature of value 0 out of one example changes later predictions) and C117_learn_false (it changes the largest gradient of the weight and the weight used in predictions). C117_predict is the full statement for predictions. C117_learn_partial states everything that is the same after one learn call; C117_history_partial: features that are 0 in all examples of the history that list them do not matter for any prediction. These use exact arithmetic, without configured interactions. C117_predict_interactions_partial and C117_learn_interactions_partial: the same with configured interactions (exact arithmetic), except those of three namespaces of which the last two are the same. On f32 bit patterns, C117_predict_f32_partial: the predictions are the same bit for bit if the weights of the zeros are finite; C117_predict_f32_false: otherwise they can differ, 0 times an overflowed weight is NaN.
* **C118 The constant and interactions are ordinary features**
  Model: Coin, Weights. Proof: The passes are folds over the visited features, so a regressor with another configuration that visits the same list goes through the same states (`Props/Expanded.lean`).
  Status: partial. Theorems in `Props/Expanded.lean`: `C118_interactions_partial`, `C118_constant`.
  C118_constant (the constant, complete) and C118_interactions_partial: after any training, for any numbers and so also bit for bit on f32, the predictions are the ones of a regressor without constant and interactions that is given the products and the constant as listed features. Missing: interactions of three namespaces of which the last two are the same, where the code does not use all products (C14_false_last_two_equal, C14_false_all_equal).

## Findings

Places where the code does not do what the property (or its own documentation) says. The ones marked with a theorem are proved in the model.

* **Default namespace by name** (C03, C16: `C03_default_namespace_false`, `C16_default_alias_false`). The parsers map `" "` and `":default"` to the default
  namespace; `NamespaceDef::Name` and `Feature::hash` hash the text instead.
* **Visible but empty namespaces** (C09, C26: `C09_empty_namespace_false`, `C26_empty_namespace_false`). `remove` deactivates a namespace that was active and
  empty before `append`; a debug build then fails its own assertion.
* **Capacity underflow** (C11, C49, C52: `C11_reserve_false`, `C49_recycled_false`, `C52_json_false`). `reserve` computes `size - capacity` without a check, so a
  JSON list of strings can panic on a recycled object, or on a namespace that occurs twice.
* **Left-over namespaces** (C11, C52: `C11_namespaces_false`, `C52_namespaces_false`). The `namespaces` iterator includes inactive namespaces of former
  examples.
* **Cubic interactions** (C14: `C14_false_last_two_equal`, `C14_false_all_equal`). The third loop skips by the index of the first loop.
* **mtr learning** (C32: `C32_mtr_false`). Learning merges shared then action, prediction action then shared; with an interaction of a namespace with itself the
  features differ. Without shared features mtr learning is `todo!()` (C33: `C33_learn_mtr_false`).
* **Configured loss** (C41: `C41_false`). Coin always uses the squared loss.
* **Set inactive** (C10: `C10_set_inactive_quirk`). `set_namespace` with an inactive namespace makes it invisible.
* **JSON models** (C08: `C08_nonfinite_panics`). `serialize_to_json` panics if a weight is NaN or infinite. Sparse saving turns `-0.0` into `0.0` (C06), which is never
  observable (C59).
* **JSON input** (C49, C50, C62: `C49_empty_list_false`, `C49_number_overflow_false`, `C50_weight_false`). An empty list is `todo!()`; a number list that reaches the end of the
  32-bit index space panics in both profiles; the documented default weight of a label object does not exist; a blank line is delivered as a chunk and
  panics.
* **VW text** (C46, C47: `C46_empty_namespace_panics`). A bar followed by nothing panics; a label followed by a tab before the bar is read as a tag; `|:2 a` names the
  namespace with the empty name instead of the default one.
* **Failures in the pipeline** (C54: `C54_panic_deadlocks`, `C54_error_hangs`). If a parser thread panics, the learner waits forever. If a chunk does not parse and many
  chunks are left, the program hangs.
* **Example number** (C56: `C56_example_number_limits`). The cast to `i32` makes the metric negative or panic above 2^31 examples.
* **Elementwise interaction**: the composite namespace is inactive, so interactions that name it see nothing; a missing namespace panics; an index below the
  namespace's base underflows; the composite index is not masked.
* **Inverse hash table**: an interacted feature with a single term panics; an anonymous offset may overflow in a debug build.
* **Unchecked configuration**: `num_bits >= 32` overflows a shift; the epsilon of Greedy is not validated; SquareCB's check for mtr looks only at a direct CbAdf child
  (a Debug in between hides it, `C29_accepted_iff`); `PascalCaseString`'s derived `Deserialize` does not validate.
* **Keys beside `typename` and `config`** (C64: `C64_unknown_key_false`). They are ignored, so a misspelled `config` silently gives the defaults.
* **`config new Debug`** (C65: `C65_debug_false`). The printed configuration is always rejected, because the default of `next` is the type `Unknown`.
* **Lists of strings and threads** (C68: `C68_json_false`). With lists of strings in JSON input it depends on the schedule whether multi-threaded training succeeds.
* **Namespaces without features** (C67: `C67_empty_namespace_false`). In contextual bandit VW text they give an example with a visible empty namespace (see above for what that breaks).
* **Training without examples** (C71: `C71_no_examples_false`). Unless `--quiet` is given, `train` panics at the end if the data has no examples.
* **Second plus sign** (C72: `C72_additive`). `--progress ++5` is accepted.
* **Feature names of VW text** (C74: `C74_repeated_false`, `C74_no_space_fails`, `C74_tab_false`). If a namespace occurs twice on a line, or on several lines of a
  contextual bandit chunk, only the names of its last occurrence are kept, so the inverse hash table misses features. A namespace name without a space after it panics
  although the parser accepts it, and a tab after the name becomes part of the name. For JSON and DsJson the function is `todo!()`.
* **Lists of strings in Python** (C75: `C75_json_false`). Whether `parse` panics for a JSON example with lists of strings depends on the examples that were parsed and dropped before.
* **Namespaces without features in Python** (C75, C76: `C75_empty_false`, `C76_empty_false`). mtr learning makes an empty namespace of the shared features invisible, so in a
  release build a later prediction for the same features object can panic (ElementwiseInteraction needs the namespace). Training from files is not affected (C68, C69):
  there every example is used once.
* **Binary in Python**: predictions and labels of type Binary are `todo!()`, so a workspace with entry reduction Binary panics at every prediction.
* **Binary models from files** (C80: `C80_binary_false`). No VW text and no JSON can be parsed for a model whose entry reduction is Binary, so it cannot be trained with `train`.
* **Labelled action in JSON and DsJson** (C80: `C80_json_action_false`, `C80_dsjson_action_false`). The parsers accept a label whose action is not one of the actions of the
  example. In mtr mode learning it panics (C79: `C79_needs_*`), and so does the ips metric. The VW text parser cannot produce such labels (`C80_vw`).
* **Schema and reader disagree** (C83: `C83_*_false`). The published schema rejects reductions with other keys than `typename` and `config` and `config: null`, which the
  code accepts. It does not require `typename`, does not require `next` for Debug, and does not bound integers to their number of bits, so an editor that uses it accepts
  documents that the code rejects. The configuration that `config new Debug` prints is not valid.
* **Importance weight 0** (C87: `C87_zero_weight_false`). An example with importance weight 0 changes later predictions: learning computes the weights from the sums before the
  example and stores them, so the last example before takes effect only now; it also widens the range of labels to which predictions are clamped.
* **Features with value 0** (C117: `C117_zero_false`, `C117_learn_false`). Learning from an example updates the largest gradient and the weight of every listed feature, also if
  its value is 0, so a feature with an explicit 0 is learned differently from a feature that is left out. Sparse and dense versions of the same data lead to different models.
* **Repeated features** (C85: `C85_repeated_false`). If an example has the same feature twice, the order of the two values matters.
* **Order of actions** (C88: `C88_learn_ips_false`, `C88_tie_false`). In ips mode the actions of an event are learned one after the other, so listing them in another order
  leads to another model. With epsilon-greedy and SquareCB exploration, ties for the lowest score go to the action that is listed first (an untrained model always prefers action 0).
* **Floor of softmax in `f32`** (C94: `C94_softmax_floor_false`). A weight `exp(-lambda * gap)` that underflows to 0 is left at 0 by `enforce_min_prob`, so the action is never
  explored whatever epsilon is: costs 0 and 1, lambda 200, epsilon 1/2 give the second action probability 0 instead of 1/4.
* **Metrics over many examples in `f32`** (C95: `C95_mse_false`). The metrics keep a running sum in `f32`. When the sum is about 2^24 times as large as the terms, adding a term has no
  effect, but the count goes on: with every error equal to 1 the reported mean squared error is 1 up to 2^24 examples, 1/2 after 2^25, and then goes to 0.
* **A model can stop learning for good** (C98: `C98_finite_false`, `C98_large_false`, `C98_bad_number`). `learn` does not check for NaN or infinity. One NaN in the data (the text
  parser accepts `nan` as a value, a label and a weight), a gradient that overflows, or a value so small that `mg * mx * (mg * mx + g2)` underflows to 0 (1e-30 is enough) makes the
  gradient sum of the constant feature NaN. Its weight is NaN after the next example, and then every prediction is NaN, which `predict` replaces by 0: no error, and no amount of
  training repairs it.
* **Failed calls leave traces** (C99: `C99_range_false`, `C99_mtr_false`, `C99_ips_false`, `C99_elementwise_false`, `C99_features_false`). A learn call that panics, for example because the example was made
  with more bits or because the label names an action that the example does not have, has already widened the label range or counted the example in the mtr sums. A predict call that
  panics leaves the shared features appended to one action, and the same example then gets other predictions from other models. In Python both are an exception that a program may catch.
* **Sensitivity does not exist for contextual bandits** (C101: `C101_bandit_panics`). Every reduction passes the features unchanged to its first child, and the regressor unwraps them as
  simple features, so the call panics for every example that a bandit stack accepts.
* **Listed and visited interactions differ for one namespace twice** (C102: `C102_same_false`). `quadratic_features` lists both orders of a pair; predicting and learning visit one.
* **The logistic update overshoots for labels inside the range** (C103: `C103_soft_false`). `get_update` averages the updates for the two extreme labels. For a label in between, a large
  importance moves the prediction past the point of smallest loss, by any distance: from the very point of smallest loss it moves away. No reduction calls `get_update` at this commit.
* **Damaged models panic instead of being rejected** (C109: `C109_malformed_false`, `C109_binary_false`). `create_from_model` unwraps every failure to read the document, so a configuration
  file or a truncated model given as a model panics. `deserialize_from_json` returns an error for most documents, but an object with the six keys of a weight table is read with `unwrap`
  and copied with `copy_from_slice`: one number too few in one row of an exported model panics.
* **Large values make exploration panic** (C110: `C110_infinite_false`). Scores are not clamped before exploration. If two scores are infinite, the softmax weights are NaN; with a uniform
  epsilon the sort in `enforce_minimum_probability` then panics, without one the answer is NaN for every action. Six ordinary examples and one with values of 3e38 are enough.
* **Progress counters overflow after 2^32 examples** (C57: `C57_any_number`, `C57_debug_overflow`, `C57_default`). With `--progress 1000` the debug build panics at example 4294967000. The release
  build reports each of the examples 4294967000 to 4294967295, then starts again one step out of phase. With the default `*2` it reports only one example in 2^32 from then on.
* **Unchosen actions influence the model** (C112: `C112_number_false`, `C112_ips_false`). The documentation says that actions can be added or removed over time. In mtr mode the features of
  an unchosen action have no influence, but the number of actions enters the weight of the event. In ips mode every unchosen action is learned as an action with cost zero.
* **Too many hash bits are not reported** (C113: `C113_release_false`). `num_bits` is a `u8` that is only used to shift `1u32`. With 32 or more the debug build panics when the workspace is
  created; the release build uses the remainder modulo 32, so that `num_bits: 32` gives a model in which all features share one weight, without any message.
* **The types published for Python forbid interactions** (C114: `C114_interactions_false`). `Interaction` is `"Default"` or a dictionary with the key `name`; the library reads lists of
  namespaces with the key `Name`. No dictionary that type checks and has an interaction is accepted; `create_from_config` panics.
* **Settings are not checked** (C115: `C115_unchecked`, `C115_uniform_false`, `C115_greedy_false`, `C115_lambda_false`, `C115_gamma_false`). No number in a configuration is looked at when a
  workspace is created. A uniform epsilon outside [0, 1] makes every prediction panic; an epsilon above 1 makes the best action the least likely one; other values give negative probabilities.
* **Elementwise products can lie outside the table** (C116: `C116_exact`, `C116_exact_debug`, `C116_bandit_exact`, `C116_bandit_learn_mtr`, `C116_bandit_learn_ips`, `C116_outside_false`, `C116_bandit_false`, `C116_below_false`). `elementwise_multiply` adds the position to the masked hash of the
  product namespace without masking the sum. If the vectors reach beyond `2^num_bits`, every call on the example panics. In debug builds named features panic when their index is
  below the hash of their namespace.

## Axioms of each theorem

Output of `#print axioms`, grouped. No theorem of the project depends on any other axiom.

* Classical.choice, Quot.sound, propext: `C01_index_in_range`, `C02_interaction`, `C02_quadratic_index`, `C02_cubic_index`, `C03_inverse_hash_partial`, `C03_default_namespace_false`, `C03_default_namespace_iff`, `C04_weight_access_in_bounds`, `C05_slots_independent`, `C06_table_roundtrip`, `C07_nested_roundtrip`, `C07_nested_exact`, `C08_ieee`, `C08_untouched`, `C08_rewrite_inverse`, `C08_json_same_behaviour`, `C08_nonfinite_panics`, `C09_append_remove_partial`, `C09_exact`, `C10_refines_map`, `C11_recycled_partial`, `C12_each_feature_once`, `C13_quadratic_distinct`, `C13_quadratic_same`, `C14_cubic_distinct_partial`, `C14_cubic_first_two_equal_partial`, `C14_exact`, `C14_all_equal_covers_partial`, `C14_false_all_equal`, `C15_compile_interactions`, `C16_same_namespace_partial`, `C16_default_alias_false`, `C17_min_prob_distribution`, `C18_keeps_ranking`, `C18_keeps_valid`, `C19_never_panics`, `C20_greedy_distribution`, `C20_greedy_reduction`, `C21_softmax_distribution`, `C21_softmax_shift`, `C21_softmax_reduction`, `C22_squarecb_distribution`, `C22_squarecb_reduction`, `C24_predictions_do_not_matter`, `C24_predict_twice`, `C25_predict_then_learn`, `C26_exact`, `C26_exact_all`, `C26_simple`, `C26_examples_restored_partial`, `C26_history_partial`, `C27_depth_restored`, `C27_assertion_holds`, `C30_scores`, `C30_independent`, `C31_ips`, `C31_mtr`, `C31_mtr_history`, `C32_ips`, `C32_mtr_partial`, `C32_mtr_raw_partial`, `C32_mtr_false`, `C33_predict`, `C33_learn_ips`, `C36_in_label_range`, `C36_predict_never_panics`, `C36_learn_never_panics`, `C36_history`, `C36_f32`, `C36_ieee`, `C37_only_own_weights`, `C37_prediction_unchanged`, `C38_statistics`, `C38_monotone`, `C39_wealth_positive`, `C39_wealth_positive_stack`, `C40_zero_until_trained`, `C40_ieee`, `C41_always_squared`, `C41_configured_loss_partial`, `C41_false`, `C42_first_derivative`, `C42_second_derivative`, `C42_nonneg`, `C42_square_grad`, `C42_unsafe_update`, `C43_flow`, `C43_composition`, `C43_no_overshoot`, `C43_monotone`, `C43_small_step`, `Vw.C44_single_line`, `Vw.C45_multi_line`, `Vw.C46_features`, `Vw.C46_empty_namespace_panics`, `Vw.C47_labels`, `Vw.C48_assembly`, `Vw.C48_other_labels`, `Js.C49_features_partial`, `Js.C49_cb_partial`, `Js.C49_empty_list_false`, `Js.C49_recycled_false`, `Js.C49_number_overflow_false`, `Js.C50_simple_partial`, `Js.C50_cb`, `Js.C50_weight_false`, `Ds.C51_dsjson`, `Ds.C51_balanced`, `Ds.C51_paths`, `C52_vw`, `C52_dsjson`, `C52_json_partial`, `C52_json_ok_partial`, `C52_json_false`, `C52_namespaces_false`, `C53_same_as_sequential`, `C53_always_a_prefix`, `C53_same_failure`, `C53_training`, `C54_progress`, `C54_terminates`, `C54_completes`, `C55_no_assertion_fails`, `C55_no_race`, `C55_handed_over_once`, `C55_right_result`, `C56_mse`, `C56_ips`, `C56_parsed_features`, `C56_example_number`, `C56_training_feeds`, `C57_any_number`, `C57_cast`, `C57_default`, `C57_whole_factor`, `C57_additive`, `C57_rule`, `C57_multiplicative`, `C58_accepted`, `C58_errors`, `C58_register`, `C58_registered`, `C58_unknown`, `C59_ieee`, `C59_save_load_same_behaviour`, `C59_exact`, `C60_products`, `C60_dense`, `C60_base_sees`, `C61_linear`, `C61_additive`, `C61_order_irrelevant`, `Cfg.C63_read`, `Cfg.C63_workspace`, `Cfg.C63_unambiguous`, `Cfg.C64_unknown_setting_partial`, `Cfg.C64_unknown_key_false`, `Cfg.C65_new_is_accepted_partial`, `Cfg.C65_known`, `Cfg.C65_debug_false`, `Cfg.C65_prints`, `Cfg.C65_full`, `Cfg.C66_expressible`, `C67_vw`, `C67_json`, `C67_dsjson`, `C67_empty_namespace_false`, `C68_vw`, `C68_dsjson`, `C68_json_partial`, `C68_vw_terminates`, `C68_dsjson_terminates`, `C68_json_false`, `Cli.C69_resumed_training`, `Cli.C69_one_step_succeeds`, `Cli.C69_two_steps_succeed`, `C69_ieee`, `Cli.C70_same_model`, `Cli.C70_quiet_succeeds`, `Cli.C70_threads_same_output`, `Cli.C70_threads_succeed`, `Cli.C71_no_examples_false`, `Cli.C71_quiet_unchanged_partial`, `Cli.C71_last_row`, `Cli.C72_additive`, `Cli.C73_export_import`, `Vw.C74_names_partial`, `Vw.C74_names_lines_partial`, `Vw.C74_indices`, `Vw.C74_no_space_fails`, `Vw.C74_repeated_false`, `Vw.C74_tab_false`, `Py.C75_session_partial`, `Py.C75_unique`, `Py.C75_saved_json`, `Py.C75_json_false`, `Py.C75_empty_false`, `Py.C76_repeatable_partial`, `Py.C76_empty_false`, `C77_ieee`, `Cli.C77_train`, `Cli.C77_quiet_succeeds`, `Cli.C78_table`, `Cli.C78_additive`, `C79_ieee`, `C79_no_panic`, `C79_f32`, `C79_exact`, `C79_needs_settled`, `C80_vw`, `C80_json`, `C80_dsjson`, `C80_binary_false`, `C80_json_action_false`, `C80_dsjson_action_false`, `C81_ieee`, `Cli.C81_train`, `Cli.C81_release`, `Cli.C82_train`, `JsonSchema.C83_published`, `JsonSchema.C83_accepted_partial`, `JsonSchema.C83_valid_partial`, `JsonSchema.C83_new_partial`, `JsonSchema.C83_other_key_false`, `JsonSchema.C83_null_false`, `JsonSchema.C83_typename_false`, `JsonSchema.C83_debug_false`, `JsonSchema.C83_range_false`, `JsonSchema.C83_schema_false`, `JsonSchema.C83_new_debug_false`, `C84_stack`, `C84_units`, `C84_features`, `C85_stack`, `C85_order`, `C85_features`, `C85_repeated_false`, `C86_sign`, `C87_zero_weight_partial`, `C87_zero_weight_false`, `C88_scores`, `C88_greedy_scores`, `C88_greedy_partial`, `C88_softmax_scores`, `C88_squarecb_scores`, `C88_softmax`, `C88_squarecb_partial`, `C88_learn_mtr_partial`, `C88_learn_greedy`, `C88_learn_softmax`, `C88_learn_squarecb`, `C88_learn_ips_false`, `C88_tie_false`, `C89_stack`, `C89_names`, `C89_features`, `C89_bits`, `C89_vw`, `C89_json`, `C89_dsjson`, `C89_collision_false`, `C90_metric`, `C90_total`, `C90_ips`, `C90_mtr`, `Formats.C91_simple`, `Formats.C91_cb`, `C92_squarecb`, `C92_schedule`, `C92_decay`, `C92_softmax`, `C92_greedy`, `C93_squarecb`, `C93_floor`, `C93_guarantee`, `C94_floor_f32`, `C94_squarecb_f32_partial`, `C94_softmax_f32_partial`, `C94_greedy_f32`, `C94_greedy`, `C94_floor`, `C94_softmax_partial`, `C94_squarecb_partial`, `C94_softmax_floor_false`, `C95_mse_f32_partial`, `C95_ips_f32_partial`, `C95_overflow_false`, `C95_mse_partial`, `C95_ips_partial`, `C95_mse_false`, `C96_raw`, `C96_predict`, `C96_relative_false`, `C97_add`, `C97_sub`, `C97_mul`, `C97_div`, `C97_of_nat`, `C97_literal`, `C97_neg_abs`, `C97_compare`, `C97_compare_nan`, `C97_add_nan`, `C97_mul_nan`, `C97_div_nan`, `C97_rounding`, `C97_add_special`, `C97_mul_special`, `C97_div_special`, `C97_neg_abs_sign`, `C97_sub_special`, `C98_bad_number`, `C98_partial`, `C98_finite_false`, `C98_large_false`, `C98_visits`, `C98_shared_partial`, `C99_usable`, `C99_usable_f32`, `C99_regression_partial`, `C99_bandit_partial`, `C99_mtr_partial`, `C99_ips_partial`, `C100_lookup`, `C101_value`, `C101_never_grows`, `C102_quadratic`, `C102_cubic`, `C102_visited`, `C103_lambert_exists`, `C103_lambert`, `C103_flow_partial`, `C103_flow_exists`, `C103_soft_false`, `C104_rounds_exist`, `C104_regret`, `C104_same_length`, `C104_average`, `C105_predict`, `C105_table`, `C106_parse_text`, `C106_parse_json`, `C106_parse_dsjson`, `C106_train`, `C106_overflow`, `Py.C106_python`, `Py.C107_same_results`, `Py.C107_others`, `Py.C107_goes_on`, `Py.C107_no_elementwise`, `Py.C107_new_empty`, `Py.C107_parses_the_same`, `C108_edited`, `C108_settings`, `C108_settings_binary`, `C109_no_weights_partial`, `C109_malformed_false`, `C109_binary_false`, `C110_greedy`, `C110_softmax`, `C110_squarecb`, `C110_infinite_false`, `C111_wealth`, `C111_score`, `C112_history_partial`, `C112_number_false`, `C112_ips_false`, `C113_debug`, `Cfg.C114_accepted_partial`, `Cfg.C114_interactions_false`, `C115_greedy_false`, `C115_lambda_false`, `C115_gamma_false`, `C116_stack_false`, `C116_exact`, `C116_outside_false`, `C116_exact_debug`, `C116_bandit_false`, `C116_bandit_exact`, `C116_bandit_learn_mtr`, `C116_bandit_learn_ips`, `C116_below_false`, `C117_predict_f32_partial`, `C117_predict_f32_false`, `C117_predict`, `C117_learn_partial`, `C117_history_partial`, `C117_zero_false`, `C117_learn_false`, `C117_predict_interactions_partial`, `C117_learn_interactions_partial`, `C118_interactions_partial`, `C118_constant`
* Quot.sound, propext: `C04_new_succeeds`, `C06_sparse_vector_roundtrip`, `C06_sparse_vector_exact`, `C09_empty_namespace_false`, `C10_reachable_wf`, `C11_reserve_false`, `C11_namespaces_false`, `C12_read_pass_folds`, `C12_write_pass_visits_same`, `C13_quadratic_missing`, `C14_false_last_two_equal`, `C19_rejects_exactly`, `C23_schedule`, `C23_probability_ignored`, `C26_empty_namespace_false`, `C27_no_overflow`, `C28_layers_agree`, `C28_predict_typed`, `C28_learn_typed`, `C28_predict_then_learn_typed`, `C29_accepted_iff`, `C29_rejected`, `C29_unknown_rejected`, `C33_learn_mtr_false`, `C34_predict`, `C34_learn`, `C34_learn_other`, `C34_predict_then_learn`, `C35_debug_transparent`, `C35_create`, `Vw.C47_every_text`, `C54_usable_input`, `C57_debug_overflow`, `C57_debug_overflow_multiplicative`, `Js.C62_lines`, `Cli.C72_multiplicative`, `C79_needs_action`, `C79_needs_chosen`, `C79_elementwise_false`, `C99_same_results`, `C99_kinds_partial`, `C99_range_false`, `C99_mtr_false`, `C99_elementwise_false`, `C99_ips_false`, `C99_features_false`, `C101_stack`, `C101_bandit_panics`, `C102_same_false`, `C106_session`, `C106_release`, `C106_debug_panics`, `C112_release_partial`, `C113_small`, `C113_release`, `C113_release_false`, `C115_unchecked`, `C115_uniform_false`
* none: `C10_set_inactive_quirk`, `C19_zero_unchanged`
* propext: `C16_resolution_injective`, `C54_panic_deadlocks`, `C54_error_hangs`, `C56_example_number_limits`, `C58_unchanged`

## How to read seeded/LOG.jsonl

`first_failures` are the declarations that failed to compile after the edit. Most runs stop at the first failures that reach a claim. `theorems_failed` then lists the
claims' theorems that use one of these declarations, found from the dependencies of the proofs and not by compiling each of them. `killed` says that some theorem of
the development fails; where none of the named claim was reached, a note says so.
