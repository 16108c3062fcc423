# Formal model of UFJF-MLTK in Lean 4: design

## Approach
* `lean/Verif/Model/*`  executable (or, for real arithmetic, noncomputable) definitions, one per C++ function, each citing file and lines.
* `lean/Verif/Spec/*`   small, model independent specification vocabulary.
* `lean/Verif/Lemmas/*` helper lemmas.
* `lean/Verif/Props/*`  the property theorems, with a non-vacuity `example` beside each.

A theorem named `Cnn_...` belongs to property `Cnn`.  The suffix `_partial` marks a theorem that proves part of the property
(its comment says which part); the suffix `_refuted` marks a proof that the property, or a named part of it, is false of the
code: either a concrete reachable state and call, or a general class of them.  A property whose claim is partly false has
both: refutations and the exact statement of what the code does instead.

## Trusted base
* Lean 4.33.0's kernel.
* The axioms `propext`, `Classical.choice`, `Quot.sound` (list per theorem at the end).  No `sorry`, no `native_decide`, no
  `bv_decide`, no axioms of our own.  `decide +kernel` is only used to compute the concrete witnesses of refutations and examples.
* The reading of the C++ source recorded in the comments of `Verif/Model`: nothing is extracted mechanically.

## Modelling decisions
* Undefined behaviour (out of bounds, null or dangling pointers, uninitialised reads, signed overflow), failed `assert`, `exit`,
  integer division by zero and endless loops are explicit outcomes (`Except Fault`), never silently defined.
* Random generators, `std::shuffle`, `nth_element`, the order in which `std::sort` leaves equal keys, clocks and thread
  schedules are parameters: theorems quantify over all their outcomes (subject to the contract of the function).
* Floating point is replaced by exact arithmetic in an ordered field (ℝ where roots, exponentials or logarithms occur):
  rounding, NaN, infinities and overflow are not modelled, except in the files `Model/Double*`.  `Model/Double` defines the
  IEEE 754 binary64 operations (round to nearest, ties to even; subnormal numbers, infinities, NaN; the sign of zero is not
  represented, no modelled code observes it) and the claims that say "in double arithmetic" are about models written with
  them.  These assume that the compiler evaluates every operation in binary64 and does not contract or reorder.  Where a division by zero would produce a NaN or infinity that
  matters, it is the fault `nonFinite` or the result `none`.
* Integers are unbounded unless a property is about their width.
* `std::shared_ptr<Point>` is a reference into an explicit heap, so aliasing between datasets is visible; memory is never
  reclaimed where that cannot be observed.  The two hand-written pointer structures (`int_dll`, the search queue and table)
  have heaps with deletion.

## What is modelled
| Code | Model | Not modelled in it |
|---|---|---|
| core `Data.hpp` | `Model/Data`, `Model/Split`, `Model/Features`, CSV part of `Model/Text`, `Model/Readers` (`.data`, `.arff`, `.txt`, file types, names), `Model/Crash` (what a crash during `write` leaves), `Model/DataMore` (`normalize`, filled datasets, columns, `copyZero`, `changeXVector`), `Model/Load` (choosing the reader, loading into a used dataset), `Model/DataEdit` (`setPoint`, `apply`, removing features from a copy), `Model/DataSelf` (`copy` and `classesCopy` of a dataset into itself or a used one), `Model/FracLabel` (labels with fractions) | getters and setters of single fields |
| core `Point.hpp`, `ExprOps/Scalar/Traits.hpp` | `Model/Point`, `Model/PointReal`, `Model/PointAlias` (targets mentioned by their own right hand sides), `Model/KeptExpr` (expressions kept in variables), `Model/Remainder` (`%`) | kept expressions with subscripts or `%` |
| core `Statistics.hpp` | `Model/Stats` | |
| core `Kernel.hpp` | `Model/Kernel`; `Model/KernelCall`: call operators, subscript, constructor from a matrix | kernel cache files |
| core `DistanceMetric.hpp`, `DistanceMatrix.hpp` | `Model/Metric`, `Model/DistanceMatrix` | names of the functors |
| core `Random.*` | `Model/Random`, `Model/RandomInit` (`random_init`) | `std::random_device`, the distributions |
| core `Utils.*` | `Model/Text`, `Model/Dtoa` (exact arithmetic), `Model/Print` (confusion matrix, `operator<<` of points and datasets) | terminal helpers; the digits `operator<<` makes of a double |
| core `ThreadPool.hpp` | `Model/ThreadPool`, `Model/PoolCounts` (progress numbers), `Model/PoolClient` (futures, exceptions, `reset`, destructor), `Model/SyncStream` (`synced_stream`) | weak memory orders, concurrent use during `reset` or destruction, exceptions of `operator<<`, `timer` |
| core `Sampling.hpp`, `Datasets.cpp` | `Model/Sampling` | distributions of the draws; negative class counts; the copy into the returned pairs |
| classifier `Perceptron.hpp`, `PrimalClassifier`, `DualClassifier`, `Learner` | `Model/Perceptron`, `Model/Balanced`, weights of `DualClassifier` in `Model/ImaDual`; `Model/Lifecycle` (copies, assignment, repeated training), `Model/KernelOwner` (ownership and caching of kernels), `Model/Batch` (`batchEvaluate`, `batchEvaluateProbability`) | |
| classifier `IMA.hpp`; core `Timer.hpp` | `Model/IMA`, `Model/ImaDual`; `Model/TimeLimit`: the time tests of all trainers from the timer's readings | messages |
| classifier `SMO.hpp`, `int_dll` | `Model/Smo`, `Model/IntDll` | messages, kernel cache |
| classifier `KNNClassifier.hpp`, regressor `KNNRegressor.hpp` | `Model/Neighbors` | |
| classifier `OneVsOne/OneVsAll.hpp`, ensembles | `Model/Voting`, training of `BaggingClassifier` in `Model/Bagging`, the sharing of members and datasets in `Model/Ensemble`, the wrappers as objects in `Model/MultiClass`, training of `AdaBoostClassifier` in `Model/BoostTrain`, `PerceptronCommittee` as a whole in `Model/Committee`, `AutoWeightedVoting` in `Model/AutoVote` (as if its stray `#endif` were not there) |  `VotingClassifier::operator=` (no return statement: undefined) |
| clusterer `KMeans.hpp` | `Model/Clustering` | verbose output |
| valid `Validation.hpp` | `Model/Validation`, `Model/Split`, `Model/Seeds` (seeds, repeated splits), `Model/FoldRun` (one object through the folds), `Model/ValidationMore` (rates; the final validation of `kkfold`) | printing |
| featselect `AOS.hpp` | `Model/Aos`: queue and visited table; `Model/AosRun`: `selectFeatures`, `mainLoop` with sorting and choice shape 1 and the inner product kernel; `Model/AosAhead`: look-ahead; `Model/AosOwn`: the end of a search and the destruction of its queue; `Model/AosShapes`: sorting shapes 5 and 6, choice shape 2 in the branching | sorting shapes 2 to 4 (only the distances they use), choice shape 2 outside of the branching, cross-validation inside the search, time limits, statistics |
| featselect `Golub`, `Fisher`, `RFE` | `Model/Select`, `Model/RfeCv` (what cross-validations report and leave is an argument) | times, printing |
| visual `gnuplot_i.hpp`, `gnuplot_i.cpp` | `Model/Gnuplot`: lines sent by every call, state of a session, temporary files, counter and descriptors of all sessions, search of the program | gnuplot itself, the pipe, `DISPLAY`, Windows and Apple code, the text of numbers (parameter), the answer of `mkstemp` (part of the call) |
| visual `Visualization.hpp` | `Model/Visual`: files, labels, settings, the text sent by every plot, grid and samples of the decision surface, folders; `Model/SurfaceCmd`: files and command of the decision surface, kept folders | gnuplot and its pipe, Windows code, the text of numbers (parameters) |
| the parts of `Data.hpp`, `Sampling.hpp`, `Point.hpp`, `Perceptron.hpp`, `SMO.hpp`, `Validation.hpp`, `DistanceMetric.hpp`, `Statistics.hpp`, `KNNClassifier.hpp` that compute with `double`s | `Model/Double` (the arithmetic), `Model/DoubleDsm` (`DSM`), `Model/DoubleSizes` (`splitSample`, `sampling`, `RSM`, `linspace`), `Model/DoublePerc` (`PerceptronPrimal`), `Model/DoubleSmo` (`SMO::train`), `Model/DoubleValid` (accuracies and errors), `Model/DoubleMetric` (three distances), `Model/DoubleStats` (mean, deviation, variance), `Model/DoubleKnn` (`KNNClassifier::evaluate`), `Model/DoubleDual` (`PerceptronDual`, `DualClassifier::evaluate`, `Kernel::function`), `Model/DoubleKMeans` (`KMeans` without the `kmeanspp` initialisation), `Model/DoubleVote` (`evaluate` of `VotingClassifier`, `AdaBoostClassifier`, `OneVsAll`), `Model/DoubleNorm` (`normalize`, `Data::normalize`), `Model/DoubleLms` (`LMSPrimal`, `PrimalRegressor::evaluate`), `Model/DoubleKnnReg` (`KNNRegressor::evaluate`), `Model/DoubleBoost` (`AdaBoostClassifier`), `Model/DoubleKernel` (`featureSpaceNorm`), `Model/DoubleScore` (the scores of `Golub` and `Fisher`), `Model/DoubleFixed` (`PerceptronFixedMarginPrimal`), `Model/DoubleText` (`atod`), `Model/DoubleDtoa` (`dtoa`), `Model/DoubleRatio` (quotient distances), `Model/DoubleIma` (`IMAp`), `Model/DoubleFixedDual` (`PerceptronFixedMarginDual`), `Model/DoubleImaDual` (`IMADual`), `Model/DoubleBalanced` (`BalancedPerceptron`), `Model/DoubleCommittee` (`PerceptronCommittee`), `Model/DoubleCentres` (`radius`, `distCenters`, `covar`) | the sign of zero; `sqrt`, `pow`, `exp` are parameters |
| regressor `LMS.hpp`, `PrimalRegressor.hpp`, `Metrics.hpp` | `Model/Regressor` | `DualRegressor` (does not compile when used: it reads a private member), printing, float overflow |

## Plan and outcome per property

First what is modelled and how it is proved, then the theorems (all in namespace `MLTK.Props`) and what is missing.

* **C01 Insertion keeps the dataset's bookkeeping consistent** - Model.Data: heap of points + dataset record; induction over the list of insertions, with a declarative spec (Nodup, first-occurrence order, counts).
  - status proved: `C01_insert_history`, `C01_insert_ids`, `C01_ids_shared_pointer_refuted`, `C01_types`
  - Every insertion history from an empty dataset: accepted samples, order, labels, class table, counts. The id clause is proved for distinct objects and refuted when the same shared pointer is inserted twice (C01_ids_shared_pointer_refuted).
* **C02 A point of the wrong dimension never enters a dataset** - Same model; case analysis of insertPoint plus the history invariant.
  - status proved: `C02_wrong_dimension`
  - A sample of another dimension is rejected and nothing changes.
* **C03 removePoint removes exactly the requested point** - Same model; refutation for absent ids (size shrinks / undefined class), exact theorem for present ids.
  - status partial: `C03_history_consistent`, `C03_remove_present_partial`, `C03_absent_undefined`, `C03_absent_reachable`, `C03_present_but_refused`
  - Invariant over all insert/remove histories proved; exact effect of removing a present id proved when the id is at most the last sample's id. The code violates the rest: absent id => uninitialised read, present id larger than the last id is refused.
* **C04 removePoints removes all and only the listed ids and reports the missing ones** - Same model; induction over the erase loop; refutation for the single-point break and for flags of unsorted/duplicate ids.
  - status partial: `C04_removePoints_partial`, `C04_remove_all_refuted`, `C04_flags_order_refuted`
  - Exact effect proved when some sample survives and the ids are positive; code violates the rest (all removed, order of flags).
* **C05 A copied dataset is independent of the original** - Heap model: copy allocates fresh cells; writes to one reference set never change the view of the other.
  - status proved: `C05_copy_independent`, `C05_join_independent`
  - copy() and join: fresh objects, equal content, and any sequence of writes on either side is invisible on the other.
* **C06 Building a dataset from another one does not disturb the source** - Heap model: splitSample-style (through copy) is safe; insertPoint by pointer renumbers the shared point: refutation with a general witness.
  - status partial: `C06_source_ids_refuted`, `C06_source_unchanged_partial`, `C06_source_content`
  - Content (features, labels, alphas) of the source is never changed; ids survive when keepIndex is true; with keepIndex=false the shared object is renumbered (refuted). splitSample leaves the source unchanged (C09_*).
* **C07 join appends the other dataset's samples and keeps class counts right** - Heap model: join; refutation when the distribution is flagged as computed.
  - status partial: `C07_join_partial`, `C07_loaded_counts_refuted`, `C07_join_empty_exits`
  - Proved for datasets whose distribution flag is not set by load; refuted for a loaded dataset (counts stay stale) and join with an empty dataset.
* **C08 Shuffling only permutes** - std::shuffle as an arbitrary permutation parameter.
  - status proved: `C08_shuffle_permutes`
  - Shuffling by any permutation.
* **C09 Stratified split is a balanced partition** - Stable multimap + round robin; balance proved by induction on runs.
  - status proved: `C09_stratified_split`, `C09_zero_parts_undefined`
  - Every consistent dataset, k>=1, keepIndex and shuffle. splitSample(0) is undefined.
* **C10 Plain split loses no sample** - Refutation: exactly n mod k samples are dropped; partial theorem for k | n.
  - status partial: `C10_plain_split_partial`, `C10_remainder_lost_refuted`
  - Parts are floor(n/k) each and nothing is altered or repeated; n mod k samples are in no part (refuted when k does not divide n, for every dataset and shuffle).
* **C11 k-fold splits train and test on disjoint, exhaustive sets** - Fold ring; exact for k>=3, leakage theorem for k=2, divergence for k=1.
  - status partial: `C11_kfold_partial`, `C11_kfold_ids_disjoint_partial`, `C11_two_folds_refuted`, `C11_one_fold_diverges`, `C11_one_fold_grows`, `C11_plain_remainder_refuted`, `C11_two_folds_every_refuted`
  - k>=3 stratified, or k | n: proved in full. k=2 tests on the training samples, for every dataset (stratified or of even size) and every shuffle; k=1 does not return; plain mode with remainder drops samples: refuted.
* **C12 partTrainTest partitions the data** - As C11 on a single split.
  - status partial: `C12_partTrainTest_partial`, `C12_plain_remainder_refuted`
  - Stratified, or k | n: proved in full. Plain mode with remainder drops samples (refuted).
* **C13 splitByClasses groups every sample under its own class** - Induction over the insertion loop.
  - status proved: `C13_splitByClasses`
  - Every consistent dataset.
* **C14 Relabelling a point keeps class counts right** - Refutation with new labels; exact for known labels whose old class keeps a member.
  - status partial: `C14_relabel_known_partial`, `C14_new_label_counts_refuted`, `C14_relabel_out_of_range`
  - Proved when the new label is already a class; refuted for a new label (iterator invalidated, or the new class is counted twice).
* **C15 clear empties the dataset** - Refutation (stale distribution); exact characterisation of what survives.
  - status partial: `C15_clear_then_insert_partial`, `C15_distribution_refuted`
  - Size, points, classes agree with a fresh dataset after clear; the class distribution does not (refuted).
* **C16 Class names are encoded consistently and injectively** - State machine over class names; refutations ("-1" then "2","2"; "cat","1"); exact on non-numeric names and on numeric names without "-1".
  - status partial: `C16_text_names_partial`, `C16_integer_names_partial`, `C16_integer_faithful_partial`, `C16_equal_names_refuted`, `C16_different_names_refuted`, `C16_fractional_names_refuted`
  - Proved for textual names (labels faithful up to white space) and, for integer names, the exact condition under which labels equal the names; refuted in general with three witnesses.
* **C17 Removing or selecting features keeps names and columns aligned** - Erase loops; exact for duplicate-free lists of existing names on sorted feature names; refutations outside.
  - status partial: `C17_remove_partial`, `C17_remove_values_partial`, `C17_insert_partial`, `C17_select_partial`, `C17_order_refuted`, `C17_repetition_refuted`, `C17_select_names_refuted`, `C17_select_zero_refuted`
  - remove/insert/selectFeatures proved exact on aligned datasets with ascending names and distinct features; refuted for names out of order, repeated features, feature 0, and the names after selectFeatures.
* **C18 Sampling without replacement terminates with distinct samples** - Draw sequence as a parameter; divergence theorem for every sequence with two classes.
  - status partial: `C18_without_replacement_diverges`, `C18_termination_refuted`, `C18_single_class_partial`, `C18_single_class_terminates_partial`, `C18_with_replacement_partial`, `C18_size_refuted`, `C18_empty_sample_refuted`
  - Without replacement: proved to diverge for every draw sequence as soon as there are two non-empty classes; single-class correctness and fair termination proved; with replacement: exact counts proved; wrong totals and the empty sample refuted. Class samples are given as the result of splitByClasses.
* **C19 Writing a dataset and loading it back gives the same data** - Text model of write/load_csv over Int values.
  - status partial: `C19_regression_round_trip_partial`, `C19_classification_round_trip_partial`, `C19_labels_refuted`, `C19_large_values_refuted`
  - Round trip proved for all integer datasets below 10^6 (regression: always; classification: exact condition on the label sequence); every value from 10^6 on is refuted. File I/O is text; operator<<(double) is modelled for integers.
* **C20 Tokenizing splits exactly at the delimiters** - List Char model; spec by splitOn/filter.
  - status proved: `C20_tokens_are_the_pieces`, `C20_tokens_clean`, `C20_tokens_join`
  - Tokens are exactly the maximal pieces (specified inductively, with uniqueness).
* **C21 Integer/text conversion round-trips** - List Char model of itos/stoin, digit loops.
  - status proved: `C21_itos_canonical`, `C21_round_trip`, `C21_int_min`
  - itos is the canonical numeral and stoin inverts it for every int but INT_MIN, which overflows.
* **C22 Decimal text is parsed to the number it denotes** - List Char model of atod over rationals; exact on plain decimals, refuted on exponents.
  - status partial: `C22_decimal_partial`, `C22_exponent_ignored_partial`, `C22_exponent_refuted`, `C22_numbers_accepted`
  - Proved for every decimal without exponent; every exponent is ignored (refutation).
* **C23 Point expressions compute element-wise values** - Inductive expression type with size/at as in the templates.
  - status proved: `C23_expression`, `C23_assign`, `C23_mixed_dimensions_rejected`, `C23_empty_operand_refuted`
  - All expression trees over points, scalars, component functions and subscripts; mixed non-empty dimensions are rejected. An empty point is treated like a scalar and read out of bounds (C23_empty_operand_refuted).
* **C24 Assigning a point makes it equal to the source** - Refutation for longer destinations, exact otherwise.
  - status partial: `C24_assignment_partial`, `C24_shrinking_refuted`, `C24_label_refuted`, `C24_copy_constructor`
  - Holds when the target is not longer than the source; a longer target keeps its tail and labels are never assigned (refuted for all such points).
* **C25 max and min return the extreme components** - max starts at the smallest positive value: refutation and exact formula; min exact.
  - status partial: `C25_min`, `C25_max_partial`, `C25_max_refuted`
  - min proved. max proved when some component reaches numeric_limits::min(); refuted for floating points without positive component.
* **C26 linspace is an evenly spaced grid** - Loop over ordered field.
  - status proved: `C26_linspace`
  - Over any field of characteristic 0.
* **C27 Kernel matrices are symmetric and positive semidefinite** - Reals; symmetric by loop structure; PSD by sum of squares.
  - status proved: `C27_matrix`, `C27_custom`, `C27_positive_semidefinite`
  - Entries and symmetry for all built-in kernels and custom ones; positive semidefiniteness of the inner product, polynomial (natural degree, Schur product) and Gaussian (power series) kernels.
* **C28 compute returns the kernel matrix of its argument** - State machine with the computed flag; refutation; partial.
  - status partial: `C28_compute_partial`, `C28_refuted`
  - Holds after any history whose last compute precedes a setType/setParam/recompute; otherwise the call is ignored (refuted).
* **C29 Distance metrics satisfy the metric axioms** - Reals; Minkowski from Mathlib for Euclid, sums for Manhattan, Chebyshev refutation/partial.
  - status partial: `C29_euclidean`, `C29_manhattan`, `C29_chebyshev_partial`, `C29_chebyshev_refuted`
  - Euclidean and Manhattan are metrics; Chebyshev of equal points is numeric_limits::min() (refuted), its other axioms are proved.
* **C30 The parallel distance matrix is schedule independent** - Interleaving of row writes; commuting writes to distinct rows.
  - status partial: `C30_schedule_independent_partial`, `C30_race_free`, `C30_shuffled_ids_refuted`
  - Proved for every interleaving, thread count, distance function and dataset whose ids are the positions 1..n; for other ids (e.g. after shuffle) refuted by C30_shuffled_ids_refuted.
* **C31 The thread pool runs every submitted task exactly once** - Labelled transition system of pool; invariants by induction over executions.
  - status proved: `C31_fifo`, `C31_conservation`, `C31_at_most_once`, `C31_total`, `C31_liveness`, `C31_reset_keeps_queue`
  - Safety for every event list of the pool transition system; liveness under fair scheduling of the workers. Atomics sequentially consistent, tasks terminate, counters do not wrap.
* **C32 wait_for_tasks is a barrier** - Same LTS; refutation for paused race.
  - status partial: `C32_barrier`, `C32_paused_refuted`, `C32_running_refuted`, `C32_paused_partial`
  - Unpaused barrier proved for every interleaving. Paused half is false in general (two refutations) and proved when the pool is already quiet and nobody submits.
* **C33 parallelize_loop covers each index exactly once** - Integer arithmetic of block boundaries.
  - status proved: `C33_tiling`, `C33_exactly_one`, `C33_zero_threads_refuted`
  - Indices as mathematical integers; needs a positive thread or block count (C33_zero_threads_refuted shows the division by zero otherwise).
* **C34 Seeding makes random streams reproducible** - Generator as abstract state machine; refutation for repeated seed and seed 1.
  - status partial: `C34_reproducible_partial`, `C34_getSeed`, `C34_reported_seed`, `C34_same_seed_refuted`, `C34_seed_one_refuted`
  - Proved unless the seed equals the seed in force (initially 1); refuted for those two cases with the real mt19937 recurrence.
* **C35 A perceptron that reports success separates the training set** - Training loop over an ordered field with fuel and arbitrary clock oracle.
  - status partial: `C35_success_separates_partial`, `C35_success_classifies_partial`, `C35_expired_timer_refuted`
  - Proved for every run that executes at least one pass; refuted when the timer expires before the first pass (train returns true without looking at the data).
* **C36 The perceptron makes finitely many updates on separable data** - Novikoff potential argument over inner products.
  - status proved: `C36_mistake_bound`, `C36_converges`, `C36_dual_mistake_bound`
  - Novikoff bound proved of the training loop over any ordered field, plus convergence to success when the limits allow (R/g)^2 passes, and transfer to the dual trainer. double is modelled as an ordered field.
* **C37 Dual and primal perceptron agree** - Simulation between dual and primal loops.
  - status proved: `C37_scan`, `C37_train_agree`
  - Bisimulation of the two trainers for every scan and for whole runs over the reals (fresh start, labels +-1, presentation order 0..n-1 as the dual trainer uses).
* **C38 Fixed-margin perceptrons deliver the requested margin on success** - Loop invariant; refutation of norm bookkeeping in the dual fixed margin variant.
  - status partial: `C38_margin_partial`, `C38_requested_margin_partial`, `C38_infinity_norm_refuted`, `C38_dual_margin_partial`, `C38_dual_fresh_refuted`, `C38_dual_norm_refuted`
  - Margin and permutation proved for the primal trainer (any q) with the stored norm, which is the q-norm of w for q != -1; refuted for q = -1. Dual trainer: cached values and margin over the stored norm proved; stored norm refuted; with gamma != 0 every fresh run divides by zero.
* **C39 SMO keeps the dual solution feasible** - take_step over ordered field; box clipping.
  - status proved: `C39_feasible`, `C39_train`
  - Every reachable training state (SmoReachable: start, take_step on distinct samples, done marks) and the result of train; labels +1/-1, symmetric matrix, EPS>0, exact arithmetic.
* **C40 SMO's error cache is exact for non-bound multipliers** - take_step cache update algebra.
  - status proved: `C40_cache`
  - For every reachable training state.
* **C41 SMO's support vector list is exactly the set of samples with positive multiplier** - Pointer heap for int_dll, refinement to lists.
  - status proved: `C41_support_vectors`, `C41_list_operations`, `C41_no_leak`
  - Support vector list exact in every reachable state; list operations on an explicit heap; train leaks no node.
* **C42 An SMO step never decreases the dual objective** - Quadratic along the constraint line; refutation for the eta>=0 branch.
  - status partial: `C42_step_partial`, `C42_train_partial`, `C42_kernels`, `C42_refuted`
  - Proved (strict increase) when k(x,x)+k(z,z)-2k(x,z)>=0, shown for the built-in kernels; refuted for matrices with positive curvature (wrong term at SMO.hpp:319).
* **C43 k-NN predicts a majority class of the k nearest samples** - nth_element as any permutation satisfying its contract.
  - status partial: `C43_majority_partial`, `C43_full_matrix_partial`, `C43_triangular_matrix_partial`, `C43_dimension`, `C43_too_few_samples_refuted`, `C43_precompute_refuted`, `C43_triangular_matrix_refuted`, `C43_algorithm_refuted`
  - Proved: for at least k samples and a strict-weak metric order, evaluate answers the earliest class with most votes among k nearest samples. Refuted: fewer than k samples read past the end; precomputed matrices (stale or triangular) give wrong distances; the algorithm argument is ignored.
* **C44 One-vs-one predicts the class winning most pairwise duels** - Vote table; counting.
  - status proved: `C44_train`, `C44_most_duels`, `C44_votes`, `C44_undefeated`, `C44_object`
  - Training sets, most duels won, vote total and undefeated class, for every number of classes and every pairwise predictor.
* **C45 One-vs-all predicts the class with the highest decision value** - argmax; refutation since base classifiers ignore raw_value.
  - status partial: `C45_train`, `C45_argmax`, `C45_decision_value_partial`, `C45_primal_refuted`, `C45_object`
  - Proved: training sets, argmax of raw answers, and highest decision value for learners that honour raw_value. Refuted for primal classifiers, which ignore raw_value and answer +-1.
* **C46 Voting ensembles return a class with maximal (weighted) vote** - argmax over weighted counts.
  - status proved: `C46_hard`, `C46_soft`, `C46_weights_set`, `C46_committee`, `C46_unknown_label_refuted`
  - Hard, soft and committee votes; the unknown-label theorem records what happens outside the domain (a voter answering a label that is no class).
* **C47 AdaBoost keeps a probability distribution over samples** - Reals with exp.
  - status partial: `C47_distribution_partial`, `C47_single_sample_refuted`, `C47_single_class_refuted`
  - Proved for at least two samples and two classes, for every outcome of the learners and every number of rounds. Refuted for a single misclassified sample and for a single class (log 0).
* **C48 Bagging returns a plurality vote** - argmax over counts.
  - status proved: `C48_plurality`
  - Earliest class with most votes of the estimators.
* **C49 k-means assigns every sample to a nearest centre exactly once** - argmin over centres.
  - status proved: `C49_partition`, `C49_evaluate`
  - For every dataset, centres and total metric; also the value of the cost.
* **C50 k-means centres are the means of their clusters** - Refutation and exact formula.
  - status partial: `C50_zero_centre_partial`, `C50_mean_refuted`, `C50_empty_cluster_refuted`, `C50_train_refuted`
  - Proved: the new centre is the mean when the old centre is zero. Refuted for every other old centre, for empty clusters and for a trained model.
* **C51 Reading the clusters twice gives the same answer** - Refutation and exact formula.
  - status partial: `C51_first_call_partial`, `C51_repeated_calls_refuted`
  - Proved for the first call after training; refuted: call number n lists every sample n times.
* **C52 The confusion matrix counts each sample once under (true class, predicted class)** - Counting; refutation of orientation, exact transposed statement.
  - status partial: `C52_transposed_partial`, `C52_total`, `C52_orientation_refuted`, `C52_unknown_answer_refuted`
  - The matrix is transposed with respect to the documentation (rows are answers): every sample counted once (C52_total), entries characterised (C52_transposed_partial), orientation refuted, unknown answers are counted as the first class (refuted).
* **C53 Accuracy from the confusion matrix is the percentage of correct predictions** - Counting.
  - status partial: `C53_matrix_partial`, `C53_any_matrix`, `C53_accuracy_fraction`, `C53_scale_refuted`, `C53_unknown_answer_refuted`, `C53_empty_refuted`
  - Matrix accuracy is the percentage of correct answers when answers are classes; accuracy() is a fraction, so the two never agree (refuted); unknown answers and empty data refuted.
* **C54 The classification report's rates are the textbook rates** - Integer division semantics with division-by-zero fault.
  - status partial: `C54_metrics_counts_partial`, `C54_metrics_two_classes_partial`, `C54_pipeline_refuted`, `C54_many_classes_refuted`, `C54_zero_denominator_refuted`, `C54_unknown_positive`, `C54_print_refuted`, `C54_classification_counts_partial`, `C54_integer_division_refuted`, `C54_label_count_refuted`, `C54_no_positive_refuted`, `C54_specificity_refuted`
  - metricsReport: counters and ratios for two classes on a textbook matrix; on the library matrix fp and fn are exchanged (refuted), more classes, zero denominators, print() refuted. classificationReport: counters proved, integer division, label counts other than two, specificity refuted.
* **C55 k-fold reports the average error and the total counts over folds** - Accumulator loop: prefix sums; refutation.
  - status partial: `C55_error_partial`, `C55_empty_fold_refuted`, `C55_totals_refuted`, `C55_multiclass_totals_refuted`
  - Error and accuracy proved for non-empty folds; totals are sums of running totals (refuted), zero for more than two classes (refuted), empty folds give NaN (refuted).
* **C56 The feature selection search queue is a priority queue** - 1-based array heap; sift up / sift down invariants, multiset.
  - status proved: `C56_priority_queue`
  - Every sequence of inserts and pops below capacity, from the empty queue. The values of queued nodes do not change in between (see C89).
* **C57 Pruning the search queue keeps it a priority queue** - Refutation by concrete heap; partial statement on content.
  - status partial: `C57_contents_partial`, `C57_order_refuted`
  - Contents: exactly the pruned nodes are removed and deleted. The order of the queue is lost by cut (refuted with a witness).
* **C58 The visited-set hash recognises exactly the states added before** - Bucket array; set semantics.
  - status partial: `C58_visited_partial`, `C58_unsorted_refuted`, `C58_full_bucket_refuted`
  - Proved for nodes with sorted features, as the search makes them, up to a full bucket; refuted for unsorted features, and a full bucket exits the program.
* **C59 Filter feature selectors keep the best-scoring features** - Sort by score; removal of a prefix.
  - status partial: `C59_golub_partial`, `C59_fisher_partial`, `C59_default_refuted`, `C59_null_refuted`, `C59_small_class_refuted`
  - Golub and Fisher selection is modelled with the sorting and the trainings as arguments. For a wanted dimension between 1 and dim, scorable data and a classifier, the removed features are the worst by score and the wanted number stays unless a training fails. Refuted for the default dimension 0, the default null classifier and for a class with fewer than two samples.
* **C60 Recursive feature elimination removes the least relevant features** - As C59 at each step.
  - status partial: `C60_elimination_partial`, `C60_failed_training_refuted`, `C60_invalid_depth_refuted`
  - Without cross-validation stop and with every training successful each round removes the features of least absolute weight and the final dimension is reached. Refuted when a later training fails (the whole dataset is returned) and for an invalid depth (an empty dataset).
* **C61 k-NN regression averages the k nearest targets** - Sorted prefix mean.
  - status proved: `C61_mean_of_nearest`, `C61_domain`
  - Mean target of k nearest samples.
* **C62 Oversampling only adds minority points between existing ones** - Draw parameters; refutation (extrapolates).
  - status partial: `C62_smote_partial`, `C62_between_refuted`, `C62_amount_refuted`, `C62_neighbour_refuted`, `C62_empty_class_refuted`
  - Proved for every consistent dataset: originals kept, only minority samples appended, their number and form z+a(z-q). Refuted: they never lie between z and its neighbour, the replication factor is ignored, the neighbour is looked up in the wrong dataset and may be a majority sample, an emptied class is taken for the minority.
* **C63 Blob generation yields the requested number of samples per centre** - Counting loop; refutation.
  - status partial: `C63_blobs_partial`, `C63_blobs_refuted`, `C63_drawn_partial`, `C63_drawn_refuted`
  - Content, order, ids and counts of make_blobs proved for all arguments; each class has the sum of all n_samples entries, so the claim is refuted for more than one non-zero entry; the overload drawing centres is right when the division is exact.
* **C64 Statistics agree with their definitions** - Sums over ordered fields.
  - status partial: `C64_mean`, `C64_var`, `C64_covar`, `C64_var_covar_refuted`, `C64_mean_feature`, `C64_std`, `C64_std_feature`, `C64_var_feature_partial`, `C64_var_feature_refuted`
  - mean, var, covar, dataset mean and std_dev proved; var(x)=covar(x,x) refuted (n versus n-1); var(data,feat) excludes the feature named feat (exact formula proved, claim refuted).
* **C65 Normalisation gives unit-norm points** - Reals.
  - status proved: `C65_normalize`
  - Over the reals, any q>0, any non-zero point.
* **C66 Linear dual model evaluates like its weight vector** - Sums.
  - status proved: `C66_dual_evaluates_like_weights`, `C66_sign`
* **C67 Incremental margin algorithms only report margins they achieved** - Loop over subproblem outcomes.
  - status partial: `C67_direction_margin_partial`, `C67_margins_increase`, `C67_reports_last_success`, `C67_reported_margin_refuted`, `C67_single_class_refuted`, `C67_initial_solution_refuted`
  - Proved: what is reported is what the last successful round stored; margins strictly increase along every execution; each solution achieves more than the previously reported margin; the reported margin is the best margin of the reported direction. Refuted: with the reported (unshifted) bias the margin is not achieved; single-class data; training with an initial solution reads an empty vector. Flexibility 0 for the positive part.
* **C68 Ids identify samples** - Heap model of Data; invariant over histories; refutation for removals.
  - status partial: `C68_ids_not_unique`, `C68_ids_unique_partial`, `C68_removal_refuted`, `C68_last_partial`
  - Proved for insert-only histories with fresh objects, and for all histories whose removals ask for the id of the last sample (or for one not in range). Refuted in general: on every dataset with ids 1..n, the removal of any other sample followed by any insertion gives two samples with the id n.
* **C69 Assigning a dataset gives an independent dataset** - Heap model; operator= copies pointers: refutation, partial statement on the structure.
  - status partial: `C69_assignment_shares`, `C69_assignment_independent_refuted`
  - operator= shares the points: independence refuted; what assignment does share is stated exactly.
* **C70 Point norms are norms** - Reals; norm axioms for the p-norm, refutation for other exponents where they fail.
  - status partial: `C70_norm_partial`, `C70_norm_inf_partial`, `C70_norm_inf_zero_refuted`
  - Finite orders proved over the reals; maximum norm proved except near zero, where the code returns numeric_limits::min() (refuted for zero points).
* **C71 The other distance functors are dissimilarities** - One theorem per functor over the reals; refutations where symmetry or identity fails.
  - status partial: `C71_divergences`, `C71_totals_refuted`, `C71_l1`, `C71_squared_chord`, `C71_squared_l2`, `C71_chi`, `C71_entropy`, `C71_inner_product`, `C71_constant_refuted`, `C71_self_refuted`, `C71_negative_refuted`, `C71_jensen_shannon_refuted`, `C71_min_symmetric_refuted`, `C71_hassanat`, `C71_hassanat_refuted`
  - Proved functor by functor; KullbackLeibler and KDivergence proved to be divergences on positive points with equal totals and refuted without. Lorentzian, NonIntersection, Chord, Bhattacharyya, Average, JensenShannon, JensenDifference, MinSymmetric, AverageL1Linf, KumarJohnson and separation of Hassanat refuted.
* **C72 The H matrix and the dual norms are the quadratic form of the kernel** - Loops over ordered fields; quadratic form as a double sum.
  - status partial: `C72_matrix_H_partial`, `C72_growing_refuted`, `C72_without_dim_refuted`, `C72_feature_space_norm`, `C72_norm_refuted`
  - Exact when H is empty or of the same size; growing H refuted (out of bounds); variant without a dimension refuted (asymmetric); featureSpaceNorm proved; norm refuted.
* **C73 Dataset radius and centre distances** - Reals; refutations (start value, ignored exponent) and exact formulas.
  - status partial: `C73_radius2`, `C73_dist_centers`, `C73_without_feats_refuted`
  - radius (q=2) and distCenters proved; distCentersWithoutFeats refuted: it uses only the listed features (exact formula).
* **C74 Class counts of a loaded file are exact** - Class table loop of the loader over all sequences of labels.
  - status partial: `C74_distribution_counts_partial`, `C74_blank_name_refuted`
  - Proved for all sequences of non-blank names; a blank name is labelled 0 uncounted (refutation).
* **C75 SMO reports success only when no pair step is left** - Outer loop of SMO: no change in a full pass; KKT within tolerance.
  - status proved: `C75_stop`
  - Return value true implies KKT within 1e-4 or no pair step succeeds, for every sample.
* **C76 k-NN reports the share of the predicted class** - nth_element as any permutation satisfying its contract; counting.
  - status partial: `C76_near_one_refuted`, `C76_probability_refuted`
  - Refuted: the reported value is never below 1-1e-7, whatever the votes.
* **C77 Evaluating an ensemble does not change it** - State of the voting classifier before and after evaluate: refutation, partial.
  - status partial: `C77_soft_partial`, `C77_hard_refuted`
  - Soft voting keeps the ensemble; refuted for hard voting, which overwrites the weights.
* **C78 AdaBoost weighs an estimator by its weighted error** - Reals with log; algebra of the update.
  - status partial: `C78_alpha_partial`, `C78_weak_learner_refuted`
  - The code squares the sample weights; refuted with a learner of weighted error 3/4 that gets a positive weight.
* **C79 AdaBoost returns the class with the greatest total estimator weight** - argmax over weighted counts; ties by order.
  - status proved: `C79_boosted_vote`
  - For every number of estimators, weights and votes.
* **C80 k-means training does not depend on earlier reads** - State machine of the clusterer: training after any reads.
  - status partial: `C80_retrain_partial`, `C80_clusters_refuted`
  - Proved for retraining right after a converged training; refuted when clusters() is read in between.
* **C81 k-means starts from samples of the dataset** - Draws and shuffles as parameters.
  - status partial: `C81_random_partial`, `C81_plusplus_partial`, `C81_draw_refuted`
  - Proved when all draws are valid indices; refuted: the draw may be the size, one past the end.
* **C82 clusters_variance is the within-cluster sum of squares** - Sums of squared distances; exact formula.
  - status proved: `C82_variance`
  - For all clusters of valid ids.
* **C83 The k-means cost never increases** - Lloyd step; means minimise squares; refutation for other metrics and empty clusters.
  - status partial: `C83_assignment_partial`, `C83_cost_refuted`
  - Refuted with two samples; proved in part: reassigning the samples never raises the cost, it is the new centres that can.
* **C84 k-means++ does not choose a centre twice** - Draw parameters; refutation.
  - status partial: `C84_plusplus_refuted`, `C84_different_draws_partial`
  - Refuted for every dataset; proved in part: exactly the drawn samples become centres, and different draws give different centres.
* **C85 The metrics report's accuracy is the share of correct answers** - Counting over all outcome lists.
  - status partial: `C85_accuracy_partial`, `C85_positive_labels_refuted`
  - Holds without positive labels; with positive labels the true negatives are missing from the accuracy (refuted for every such case).
* **C86 Cross-validation never trains on the fold it tests** - Fold model of C11; disjointness of references.
  - status partial: `C86_train_partial`, `C86_dual_refuted`
  - Holds for classifiers that are not dual; dual classifiers are trained on test and training samples (refuted in general).
* **C87 Repeated k-fold reports averages over its runs** - Accumulator over runs; refutation and exact formula.
  - status partial: `C87_average_partial`, `C87_totals_refuted`
  - Average error proved; the counters are never accumulated (refuted).
* **C88 The visited table never reads deleted states** - Heap of nodes with deletion; invariant over histories of the table.
  - status partial: `C88_use_after_free_refuted`, `C88_other_buckets_partial`
  - Refuted in general: cut deletes nodes that stay in the table, and adding a state to such a bucket reads the deleted node. Proved for additions to buckets without a deleted node.
* **C89 Finding a state again keeps the search queue in order** - Queue invariants over reachable queues; refutation.
  - status partial: `C89_raise_refuted`, `C89_no_raise_partial`
  - Refuted with a witness; proved when the queued node is trained or has at least the value of the new one.
* **C90 A full search queue drops its worst node** - Queue invariants; refutation and what is dropped.
  - status partial: `C90_full_queue_partial`, `C90_worst_dropped_refuted`
  - The queue stays in order and the last node is replaced when its value is smaller; that node need not be the worst (refuted with a witness).
* **C91 Feature scores are the published criteria** - Ordered field with a given square root; sums over labelled columns.
  - status partial: `C91_fisher_refuted`, `C91_golub_partial`
  - Golub scores are the published ones over the reals. Refuted for Fisher: standard deviations are summed instead of variances, and a dataset shows that the better feature is removed.
* **C92 A recursive elimination object can be used again** - State kept between searches; refutation, partial.
  - status partial: `C92_second_search_refuted`, `C92_second_search_partial`
  - Refuted when the step does not divide the number of features to remove: the member jump is set to 0 and every later search diverges. Otherwise the object keeps its step.
* **C93 Spiral generation yields the requested number of samples in balanced classes** - Loops with an invariant on the content; shuffle as a permutation.
  - status partial: `C93_spirals_partial`, `C93_spirals_refuted`
  - Proved: n/classes points of every class, n in all when the division is exact. Refuted otherwise (99 for 100 samples in 3 classes; division by zero for no class). Negative class counts not modelled.
* **C94 Regression problems follow the returned coefficients** - Loops over the stream of draws; algebra.
  - status proved: `C94_regression`
  - Labels are field elements; random numbers are arguments. The copy into the returned pair is not modelled.
* **C95 Random subspaces are sets of valid features** - Shuffles as permutations; sequences of calls.
  - status partial: `C95_random_subspaces_partial`, `C95_large_fraction_refuted`
  - Proved for fractions in [0,1] and any sequence of calls; out of bounds read for larger ones.
* **C96 Diverse subspaces are sets of valid features** - Pigeonhole plus a lower bound for the scores of unused features; sequences of calls.
  - status partial: `C96_diverse_subspaces_partial`, `C96_second_call_refuted`, `C96_weight_refuted`
  - Proved for weights in [0,1] and correlations in [-1,1]: first call for n<=dim, all calls for n<dim. Refuted for a second call with n=dim and for weights outside [0,1]. Correlations are arguments here; what the code computes for them, also for constant features and below -1, is C251.
* **C97 Borderline oversampling keeps the samples and adds synthetic ones** - Heap model (points are shared between both datasets); neighbours as for C62; refutations by history.
  - status partial: `C97_borderline_partial`, `C97_few_samples_refuted`, `C97_repetition_refuted`
  - Proved: with enough neighbours features and labels of the originals are kept and everything added is derived from them. Refuted: null dereference with few samples, repeats originals of any class, changes ids.
* **C98 Least-mean-squares training applies the Widrow-Hoff rule** - Model one pass as a fold of the per-sample correction; induction over the passes gives the whole run in terms of a separately stated rule; refute the intercept clause for all rates other than 1.
  - status partial: `C98_rule_partial`, `C98_intercept_refuted`
  - The whole course of the training is characterised (passes, corrections, stopping). Refuted: the intercept moves by the whole error, not rate times it, for every rate other than 1.
* **C99 Least-mean-squares training converges on exactly linear data** - Fejer monotonicity: each correction lowers |w-w*|^2+rate(b-b*)^2 by rate(1-rate|x|^2)e^2; summing gives the bound on the passes. Single samples with large rate give geometric divergence.
  - status partial: `C99_converges_partial`, `C99_diverges_refuted`, `C99_oscillates_refuted`
  - Proved with an explicit bound on the passes when rate*|x|^2 <= rho < 1: distance to every exact function never grows. Refuted for every sample with rate*|x|^2 >= 2 (diverges) and = 1 (settles on a wrong function). Exact arithmetic.
* **C100 Regression training reports whether it converged** - Corollary of C98; refute from the constant return value.
  - status partial: `C100_settled_partial`, `C100_always_true_refuted`, `C100_diverged_refuted`
  - Ending early without the clock means the cost settled; but the answer is true in every case, also after divergence (refuted).
* **C101 Regression training starts from its declared starting point** - Compare two trainings of one object; refute by evaluation.
  - status partial: `C101_same_intercept_partial`, `C101_second_training_refuted`, `C101_initial_solution_refuted`
  - The result depends on the object only through its intercept; that is kept between trainings and initial slopes are discarded (refuted twice).
* **C102 A linear regressor evaluates its linear function** - Fold to sum.
  - status proved: `C102_evaluate`, `C102_trained`
  - Every trained regressor and point.
* **C103 MSE is the mean squared error** - Fold to sum, sum of squares.
  - status proved: `C103_mse`, `C103_empty`
  - Every pair of points over an ordered field; two empty points give 0/0 (C103_empty).
* **C104 Success of the balanced perceptron means a balanced separating hyperplane** - Model epochs, scan and update with bounds-checked products; the last epoch without mistakes gives the signs, the two minima give the balance; refute the corner cases by evaluation.
  - status partial: `C104_balanced_partial`, `C104_evaluate_partial`, `C104_no_epoch_refuted`, `C104_one_class_refuted`
  - Proved when at least one epoch may run and both classes occur. Refuted with no epoch (true on random weights) and for one class only (bias becomes half of the greatest double).
* **C105 The balanced perceptron converges on separable data** - Perceptron convergence argument with non-zero start weights (invariant on u.w and |w|^2 preserved by each update); refute for all settings on two points of one side.
  - status partial: `C105_converges_partial`, `C105_bias_refuted`
  - Refuted in general: the bias is multiplied, not trained, so it stays zero; two points on one side of the origin are never separated. Proved with an explicit bound for samples separable through the origin.
* **C106 Success of the dual incremental margin algorithm means its model separates its training set** - Model the rounds around the fixed-margin trainer of C17's model, with the saved multipliers; loop invariant on what was saved; refute bias, support vectors and retraining by evaluation.
  - status partial: `C106_separates_partial`, `C106_bias_of_failed_run_refuted`, `C106_trained_again_refuted`, `C106_support_vectors_refuted`
  - Success with zero Alpha values before gives a separating function with the margin, the reported multipliers are its multipliers above EPS*rate. The bias and support vectors are those of the last, possibly failed, round (refuted); earlier Alpha values are not reset (refuted).
* **C107 Training of the dual incremental margin algorithm ends** - The target margin strictly increases past the last achieved one, the round counter is bounded; fuel argument.
  - status proved: `C107_ends`
  - At most MAX_IT + 2 rounds, for all earlier Alpha values.
* **C108 Feature weights of dual classifiers are the relevance of the features** - Fold to double sums; for getDualWeight compute both matrices entry by entry (upper triangle of the second lacks the labels), prove the property when all labels agree, refute with two samples of opposite label.
  - status partial: `C108_product_weights`, `C108_dual_weight_partial`, `C108_one_label_partial`, `C108_linear_relevance`, `C108_two_labels_refuted`, `C108_polynomial_partial`, `C108_polynomial_refuted`
  - getDualWeightProdInt proved. getDualWeight: exact formula for inner-product, Gaussian and polynomial kernels; the property holds when all labels agree and the kernel is inner-product or Gaussian, refuted for two classes (the labels are missing above the diagonal) and for the polynomial kernel (one is added to the inner product only when a feature is left out).
* **C109 Loading a .data file gives each row's label and features** - Model the two readings of `load_data` over the characters of the file; specify lines by words and decimal numerals, prove that each word is read back, induction over the rows; refute mixing of columns, double blanks and regression by evaluation.
  - status partial: `C109_rows_partial`, `C109_sparse_refuted`, `C109_double_blank_refuted`, `C109_regression_refuted`
  - Refuted: values are stored by position, so rows naming different features mix columns and only the last row's names are kept; a double blank makes the label 0; with two rows or more a regression dataset is turned into a classification dataset with truncated labels. Proved for rows of equal length with single blanks.
* **C110 A dataset written as .data and loaded again is the same** - Model `write` for `.data`; show that a written line is a line of C109's specification and use C74's characterisation of the labels.
  - status partial: `C110_round_trip_partial`, `C110_regression_refuted`
  - Refuted for labels (a label first seen after -1 becomes 1) and for the type of regression datasets. Proved: features, names, ids, dimension always; labels exactly when no label other than 1 and -1 first occurs after -1.
* **C111 Loading a .txt file gives each row's features and id** - Model `load_txt`; lines specified by words and decimals; induction over the lines.
  - status partial: `C111_features_partial`, `C111_ids_refuted`
  - Refuted: the stated ids are ignored, points are numbered by line. Features, labels and names proved.
* **C112 Loading an .arff file gives each row's features and class** - Model `load_arff`; show for all files that a header line fixes the column count to one, that regression labels stay 0, and that class-first rows run past the point; induction over the rows for the rest.
  - status partial: `C112_header_refuted`, `C112_rows_partial`, `C112_regression_refuted`, `C112_class_first_refuted`
  - Refuted for every file with a declaration line (rejected), for every regression dataset (all labels 0) and for class-first files of three or more columns (write past the end of the point). Proved for files without declarations, class last, classification.
* **C113 The type of a file is decided by its extension** - Model the backward search of `identifyFileType` with reads before the string as faults; prove which type name is found in terms of infixes of the text after the last dot.
  - status partial: `C113_type_partial`, `C113_unknown_partial`, `C113_extensions_partial`, `C113_contains_refuted`, `C113_no_dot_refuted`
  - Refuted: any extension containing a type name is taken for it; a name without dot is read past its start. Proved: which type is found, for every name with a dot.
* **C114 A loaded dataset is named after its file** - Model `discover_dataset_name` on the tokenizer of C14; uniqueness of the pieces of a path.
  - status partial: `C114_name_partial`, `C114_no_extension_partial`, `C114_dots_refuted`, `C114_empty_refuted`
  - Refuted for stems with dots (cut at the first) and for empty paths (undefined). Proved for all others.
* **C115 AOS returns the samples restricted to some of their features** - Model `selectFeatures`/`mainLoop` of AOS on the queue and table of C56-C58 with an arbitrary classifier; invariant over all rounds: live nodes hold distinct names of the samples, one per level, trained ones not below the depth; feature removal by C17.
  - status proved: `C115_subset`
  - For the configuration of the constructor (sorting and choice shape 1, no look-ahead, no cross-validation) and datasets with ascending feature names: safety of every completed run, with arbitrary classifier answers and ties.
* **C116 AOS delivers the requested number of features** - Invariants: the queue holds live nodes, each once, the table knows no later nodes, no level is more than one beyond the deepest expanded one, and the next level is in the queue; induction over the rounds, also for the run that never ends.
  - status partial: `C116_dimension_partial`, `C116_breadth_refuted`, `C116_never_returns_refuted`, `C116_margin_refuted`
  - False: no result ever has fewer features than the breadth (default 3), so a smaller final_dim ends in an out-of-range read; with margins that are not positive (perceptron) the search never ends. Proved: if trainings succeed and the queue never fills up, a run that ends returns exactly final_dim features.
* **C117 AOS removes the least relevant features** - The invariant of C115 with a predicate closed under further removals; counting in the sorted weights.
  - status partial: `C117_heaviest_refuted`
  - False: the children of a node are made from the largest weights; a completed search always removes a feature among the breadth heaviest ones (with breadth 1: the heaviest).
* **C118 An AOS object can be used again** - The invariant of C115 started with an arbitrary level, combined with C116.
  - status partial: `C118_second_search_refuted`, `C118_used_object_partial`
  - False: the level reached is not reset, so the second search returns all features. Proved: a search of a used object returns all features or has removed more features than any search before.
* **C119 Normalising a dataset gives every sample unit norm** - Model the per-sample sum, resize, root and division over the reals; induction over the samples with the invariant that visited samples have unit power sum, so that repeated pointers are covered; rpow laws.
  - status proved: `C119_unit_norm`, `C119_direction`
  - Every non-empty rectangular dataset and p>0 (real arithmetic), samples held twice included; direction for distinct samples.
* **C120 Normalising a dataset changes nothing else** - Corollaries of the same induction (heap outside the dataset unchanged); refute names and idempotence in general.
  - status partial: `C120_rest_unchanged_partial`, `C120_names_partial`, `C120_names_refuted`, `C120_twice_refuted`
  - Frame proved; names 1..n become 1..n+1. The code violates the rest: the new name may repeat an old one, a second call adds a second constant feature (both refuted in general).
* **C121 Normalising one dataset does not change another** - Copies live at fresh addresses (lemmas of C05), so the frame of C120 applies; assignment shares all addresses.
  - status partial: `C121_copy_partial`, `C121_assigned_refuted`
  - Proved for copies in both directions; refuted for assignment (every non-empty dataset).
* **C122 Equality of datasets is an equivalence and means equal content** - Characterise the value of operator== on consistent datasets by a structure of eleven equalities; equivalence is then componentwise.
  - status partial: `C122_equivalence`, `C122_same_features_partial`, `C122_labels_refuted`, `C122_copy_equal_partial`, `C122_copy_equal_refuted`
  - Equivalence relation and exact meaning of == proved for consistent datasets; labels, ids and multipliers are not compared and copy drops the positive/negative class names (both refuted; exact condition for copies proved).
* **C123 A dataset built with a size is a usable dataset** - Fresh heap cells; follow computeClassesDistribution and removePoint on the result.
  - status partial: `C123_filled_partial`, `C123_classes_refuted`
  - Samples, ids and names proved for all sizes; the class table is empty: counting classes and removing samples write outside it (refuted in general).
* **C124 Columns and labels are read in order** - Induction over the positions of the dataset.
  - status proved: `C124_columns`
  - Every rectangular dataset and column.
* **C125 changeXVector rearranges the feature vectors** - Follow the first loop iteration: all entries of the new vector are null.
  - status partial: `C125_changeXVector_refuted`
  - The code writes through a null pointer for every non-empty dataset (refuted in general); nothing of the property holds.
* **C126 copyZero makes an empty dataset with the same description** - Unfold; follow an insertion into a non-empty target.
  - status partial: `C126_copyZero_partial`, `C126_isEmpty_refuted`, `C126_samples_refuted`
  - Proved for default constructed targets except isEmpty(); isEmpty() and non-empty targets refuted.
* **C127 A bootstrap sample is a stratified sample of the dataset** - model sampling on the heap (`Bag.samplingData`: splitByClasses, shares, draws as parameters, insertion of the shared pointers). Prove the specification structure `Bootstrap` and the frame by composing the lemmas of C13, C18 and of insertion histories.
  - status proved: `C127_bootstrap`
  - sampling at the level of the heap, on top of C13 and C18
* **C128 The samples of a bootstrap sample are separate samples with their own ids** - refute on a concrete dataset with a repeated draw; prove ids 1..n for draws without repetition by induction over the insertions.
  - status partial: `C128_ids_partial`, `C128_refuted`
  - repeated draws put one object twice into the sample: refuted; proved when nothing is drawn twice
* **C129 Bagging trains every estimator on its own bootstrap sample** - model the training loop (`Bag.train`): one sampling and one deep copy per estimator. Prove by induction over the estimators that each gets a `Bootstrap` dataset at fresh addresses; refute n > size and n = 0 for every dataset.
  - status partial: `C129_bagging_partial`, `C129_too_many_refuted`
  - proved for 1 <= n <= size; more estimators than samples and none at all: undefined behaviour, refuted
* **C130 Every training sample can take part in bagging** - prove that exactly the first samples of each class can be drawn (upper bound for all draws, and constant draws that reach each of them); refute on a concrete dataset for all draws.
  - status partial: `C130_first_only`, `C130_refuted`, `C130_reached_partial`
  - the samples that can take part are exactly the first ones of each class; the others are out of reach: refuted
* **C131 setSeed makes bagging reproducible** - model the two members called seed; refute for setSeed, prove for the constructor's seed.
  - status partial: `C131_seed_partial`, `C131_setSeed_refuted`
  - setSeed writes the member of Learner, training reads the one of BaggingClassifier: refuted; proved for seeds given to the constructor
* **C132 The files of a plot hold every sample once** - model the streams with positions and the files on disk; induct over the samples with the contents of all class files; counterexamples for equal names and slashes.
  - status partial: `C132_files_partial`, `C132_same_name_refuted`, `C132_slash_refuted`, `C132_regression_partial`, `C132_regression_refuted`
  - Proved for class names that differ and have no slash, and for regression datasets without a name. Refuted: classes of the same name overwrite each other's lines; a name with a slash loses its class; the path reported for a named regression dataset does not exist.
* **C133 The legend of a plot is right** - model the tokenizing of paths and the two sorts with the listing as a parameter; prove that both sorts give the unique order by class.
  - status partial: `C133_legend_partial`, `C133_surface_partial`, `C133_dot_refuted`, `C133_cut_refuted`, `C133_same_title_refuted`, `C133_empty_refuted`
  - Proved for names without dots (underscores for the decision surface), slashes and repetitions. Refuted: names with dots stop the program, are cut or coincide; empty names read outside a list.
* **C134 A scatter plot draws every class once with the features asked for** - model the plots as functions to the text sent; prove the text equal to a specified one.
  - status partial: `C134_plot2D_partial`, `C134_plot3D_partial`, `C134_same_name_refuted`, `C134_no_file_refuted`
  - Proved for datasets as in C133. Refuted: two classes of the same name, or no file at all, read outside a list.
* **C135 The hyperplane drawn is the decision boundary** - prove the formula's graph equal to the set with the decision value, by field arithmetic; counterexample with a zero weight.
  - status partial: `C135_line_partial`, `C135_plane_partial`, `C135_vertical_refuted`
  - Proved when the weight of the vertical axis is not zero (C135_line_partial, C135_plane_partial). Refuted for a vertical line: the formula has no number.
* **C136 Every sample is inside the limits of a plot** - model rounding with floor and ceiling; prove monotonicity and the half bound; counterexamples.
  - status partial: `C136_covers_partial`, `C136_tight_partial`, `C136_cut_refuted`, `C136_negative_refuted`
  - Proved: limits are whole numbers, nothing further out than one half is cut off, whole values are inside, and the limits are tight for scale 1. Refuted: rounding cuts values off; without positive values the upper limit is 0.
* **C137 A plot does not depend on earlier plots** - model the settings as state; invariant: no range is left after any call; counterexample for a failed decision surface.
  - status partial: `C137_history_partial`, `C137_surface_refuted`
  - Proved for all histories without a decision surface whose files could not be written; refuted for those.
* **C138 The script returned is the script executed** - by cases over the calls; refute for the one that returns another text.
  - status partial: `C138_script_partial`, `C138_hyperplane_refuted`
  - Proved for all calls but plot3DwithHyperplane; refuted for that one: the settings are missing from the text.
* **C139 The settings of a Visualization are used** - by cases over the calls: the text begins with the settings; the setters change nothing that is read.
  - status partial: `C139_terminal_partial`, `C139_title_partial`, `C139_setters_refuted`
  - Proved for the terminal and the arguments of the call. Refuted: setTitle and setStyle have no effect on any call.
* **C140 Regression plots show the target** - prove the text equal to a specified one; refute with the fixed column.
  - status partial: `C140_plot2D_partial`, `C140_line_partial`, `C140_plot1D_partial`, `C140_plot1D_refuted`
  - Proved for plot2DRegresion and plot1DRegresionHyperplane, and for plot1DRegresion with one feature. Refuted: plot1DRegresion always draws column 2.
* **C141 The decision surface shows the decision of the learner over the two features asked for** - reuse the theorem on selecting features; prove the loop that hands out the samples; counterexamples for the order.
  - status partial: `C141_surface_partial`, `C141_order_refuted`, `C141_same_refuted`
  - Proved for x < y and the default feature names. Refuted: for x > y the columns are exchanged; for x = y an assertion fails.
* **C142 A Visualization works in a folder of its own** - folder names are injective in the number; pigeonhole on the folders on disk.
  - status proved: `C142_own_folder`
  - For every set of folders; the search for a free number ends (pigeonhole).
* **C143 A Visualization removes what it made and nothing else** - induct over the number of datasets; counterexample with a folder of another program.
  - status partial: `C143_clean_partial`, `C143_other_refuted`
  - Proved when no plottempN from the counter on exists. Refuted: existing folders passed over while looking for a free name are removed.
* **C144 Assigning an expression to a point uses the old components** - Model/PointAlias: expressions with references into the target; sweep invariant `r[i]` computed from new components before i and old ones from i on.
  - status partial: `C144_in_place_partial`, `C144_sweep_partial`, `C144_dimension_rejected`, `C144_swap_refuted`, `C144_scale_refuted`
  - Proved for right hand sides that look ahead, with the exact result for all; false when an earlier component is used (p = p[{1,0}], p = p / p[0]).
* **C145 Combining a point with a scalar treats all components alike** - Same sweep for scalar references; closed form for p op= p[k].
  - status partial: `C145_scalar_partial`, `C145_own_component_partial`, `C145_last_component_partial`, `C145_first_component_refuted`, `C145_fill`
  - Proved for a scalar outside the point and for filling; p op= p[k] is characterised exactly and is wrong unless k is the last component.
* **C146 Assigning a vector to a point gives it exactly those components** - Loop of vector assignment with resize; closed form.
  - status partial: `C146_vector_assignment_partial`, `C146_vector_assignment_iff_partial`, `C146_vector_assignment_refuted`
  - Exact result proved; equal to the vector iff the point was not longer.
* **C147 dtoa writes the number** - Model/Dtoa over the rationals with exact log10; loop invariants for the integer and the fraction digits; exponent digits by the itos lemmas.
  - status partial: `C147_plain_partial`, `C147_integer_partial`, `C147_scientific_partial`, `C147_powers_refuted`
  - Proved for all numbers except the exact powers 10^-k with k at least 9, which are written with the character colon. Exact arithmetic.
* **C148 atod reads back what dtoa writes** - C147 composed with the atod theorem of C22.
  - status partial: `C148_round_trip_partial`, `C148_integer_round_trip_partial`, `C148_exponent_lost_refuted`
  - Proved for the plain notation; every number written with an exponent comes back as its mantissa.
* **C149 A future becomes ready exactly when its task has ended** - Model/PoolClient: promises added to the transition system; induction over executions, barrier from C31.
  - status proved: `C149_future`, `C149_future_barrier`
* **C150 reset changes the threads and nothing else** - reset as a list of client events interleaved with arbitrary worker steps; conservation and FIFO invariants.
  - status proved: `C150_reset`
* **C151 The destructor of the pool finishes all tasks** - Destructor as client events; the waiter of an unpaused pool can only return through tasks_total == 0.
  - status partial: `C151_destructor_partial`, `C151_paused_refuted`
  - Proved for a pool that is not paused; a paused pool drops the waiting tasks.
* **C152 A task that throws does not end the program** - Induction over executions; counterexample for push_task.
  - status partial: `C152_throwing_tasks_partial`, `C152_same_schedules_partial`, `C152_raw_refuted`
  - Proved when every throwing task was given to submit; a throwing task given to push_task ends the process.
* **C153 A copy of a classifier behaves like the original** - Model/Lifecycle: the members of the class hierarchy with their copy constructors and assignments; case analysis.
  - status partial: `C153_settings_partial`, `C153_untrained_partial`, `C153_refuted`, `C153_dual_partial`, `C153_dual_refuted`, `C153_assignment_partial`, `C153_assignment_refuted`
  - Proved: settings are copied; a copy without a solution answers and trains alike; assignment from a classifier of at least the own dimension. Refuted for every trained primal classifier (the copy answers 0) and every dual one (reads out of bounds), and for assignment to one of higher dimension.
* **C154 Giving a classifier a solution replaces the one it has** - Model/Lifecycle: Solution::operator= built on the assignment of points, which never shrinks its target.
  - status partial: `C154_solution_partial`, `C154_refuted`, `C154_constructor_partial`, `C154_dual_constructor_partial`, `C154_dual_initial_partial`, `C154_set_refuted`, `C154_weights_partial`
  - Proved when the new vectors are not shorter. Refuted in general: the tail of the old weights stays, and the classifier answers 0.
* **C155 Every kernel is deleted exactly once** - Model/KernelOwner: heap of kernels, objects with raw pointers, programs as lists of operations; an ownership invariant by induction over careful programs, counterexamples for the others.
  - status partial: `C155_careful_partial`, `C155_smo_partial`, `C155_leak_refuted`, `C155_copy_refuted`, `C155_given_refuted`
  - Proved for every careful program (SMO copied only before training, own kernels given to others only): no kernel is used or deleted wrongly, and the exact number of allocated kernels. Refuted: copies of a trained SMO, kernels given to an SMO, leaks of the perceptrons and IMA.
* **C156 A dual classifier trains with the kernel of its own samples** - Model/KernelOwner with Kernel::compute and its flag; two invariants by induction over programs (members agree with what was asked; no kernel shared).
  - status partial: `C156_smo_partial`, `C156_renewed_partial`, `C156_stale_refuted`, `C156_shared_refuted`, `C156_linear_refuted`, `C156_getter_refuted`, `C156_multiclass_refuted`
  - Proved for SMO in every program; for the others right after recomputeKernel/setKernelType/setKernelParam in programs that share no kernel. Refuted: retraining after setSamples, copies, one-vs-one and one-vs-all for every number of classes, PerceptronDual without kernel type, getKernelType.
* **C157 Training an object again is training a new one** - Model/Lifecycle: train as a transition of the whole object; comparison with a new object.
  - status partial: `C157_reset_partial`, `C157_dimension_refuted`, `C157_dual_larger_refuted`, `C157_dual_weights_partial`, `C157_refuted`, `C157_dual_refuted`
  - Proved when weights are set to zeros and the counters to zero first; the weights a dual training leaves are characterised. Refuted: warm start changes the answers, dual weights double, larger samples fail.
* **C158 Asking about a dataset is asking about each of its samples** - Fold over an arbitrary order of positions with a stateful learner; invariant: visited entries hold the answers.
  - status proved: `C158_batch`, `C158_fault`, `C158_learners`
  - For learners whose answers do not change by being asked; primal, nearest-neighbour and voting classifiers are shown to be such.
* **C159 batchEvaluateProbability gives each sample's probability** - Definition of the default probability; floor of a number below one.
  - status partial: `C159_refuted`, `C159_integers_refuted`, `C159_partial`
  - Refuted: every entry is 0 (no class overrides evaluateProbability, and the result type is Point<int>). Exact rounding proved.
* **C160 Repeated k-fold splits are independent full splits** - Induction over the executions with the result of C11 and a frame: later executions only allocate.
  - status partial: `C160_repeated_partial`
  - Proved for three or more folds in stratified mode or without remainder, for every seed and random device; otherwise already one execution fails (C11).
* **C161 A seed makes splits reproducible** - Random device as a stream in a state monad; a computation is reproducible if it leaves the stream untouched; composition.
  - status partial: `C161_reproducible_partial`, `C161_wrap_refuted`, `C161_zero_refuted`
  - Proved when seed, folds and executions stay within 64 bits; refuted when the sum wraps to zero, and for the default seed zero.
* **C162 Lines printed through a synced stream are never mixed** - Transition system of threads with a mutex; invariant describing the output by finished calls and the call in progress; a decreasing measure.
  - status partial: `C162_whole_lines_partial`, `C162_progress_partial`, `C162_two_streams_refuted`
  - Safety and progress proved for one synced_stream; refuted for two objects on the same output.
* **C163 Inserting a sample of another dataset by its position** - Model: insertFrom over the shared heap of points (Data.hpp 1436-1446) with the unsigned bounds test. Proof: case split on the position; insertPtr_consistent for the insertion.
  - status partial: `C163_outside`, `C163_inside_partial`, `C163_answer_refuted`, `C163_empty_refuted`, `C163_source_refuted`
  - A position outside a non-empty source is refused and nothing changes; inside it the sample is appended and the source keeps its samples (C163_outside, C163_inside_partial). False: a sample of another dimension is not inserted but the answer is true, an empty source is read out of bounds, and without keepIndex the sample is renumbered in the source too.
* **C164 The margin AOS predicts is the margin that remains** - Model: expand, branch and projMargin of Model/AosRun over the reals with the real power function. Proof: an invariant over the branches says what every node added by expand holds; then real-power algebra.
  - status partial: `C164_value_partial`, `C164_order_refuted`, `C164_equal_weights_partial`
  - What is computed is the share of the dropped weight, times (dim-1)^(1/q), times the margin (C164_value_partial); this is the remaining margin when all weights have the same absolute value (C164_equal_weights_partial), and for different weights the order is turned round (C164_order_refuted).
* **C165 A pass in the order of the index visits every sample** - Model: index bookkeeping of insertPoint, removePoint, resetIndex and the primal perceptron pass. Proof: the loop of removePoint is described pointwise by induction, then applied to an index in order and to a permuted one.
  - status partial: `C165_removed_refuted`, `C165_step_partial`, `C165_repeated_refuted`, `C165_training_refuted`, `C165_permuted_refuted`
  - One insertion, one removal or resetIndex keep the passes complete (C165_step_partial). False after a removal (one entry too many), after a removal and two insertions (one sample twice, one never; training does not depend on it), and after a removal from a dataset whose index a trainer permuted (position -1).
* **C166 Members of a trained ensemble answer as if trained alone** - Heap of datasets and learners behind shared pointers; a class of learners is an arbitrary pair of train and evaluate. Induction over the members: each finds the dataset unchanged when no member changes it. Refute with two dual perceptrons and a balanced perceptron, computed by the kernel.
  - status partial: `C166_alone_partial`, `C166_last_samples_partial`, `C166_shared_refuted`, `C166_positions_partial`
  - Proved when no member rearranges the shared dataset, for either setSamples; refuted with a BalancedPerceptron among dual members: it shuffles the shared dataset and the stored multipliers of the others then belong to other samples.
* **C167 A copy of an ensemble is independent of the original** - The copy constructor copies pointers; the training theorem C166 applied to the copy describes the members of the original.
  - status partial: `C167_same_partial`, `C167_refuted`, `C167_copy_trained_refuted`
  - The copy answers the same; refuted afterwards: copies share their members, so training the copy makes the original answer as trained on the samples of the copy.
* **C168 Bagging an ensemble trains every estimator on its own sample** - Induction over the estimators with the training theorem C166; the last training determines the shared members.
  - status partial: `C168_refuted`
  - Refuted: the estimators are copies that share their members, so all of them answer as trained on the last sample.
* **C169 Every fold of a cross-validation is evaluated by a classifier that has not seen its test samples** - Thread one object through the folds (arbitrary train/evaluate pair) and compare with a specification that restarts from the given object for each fold; induction over the folds when training starts over; two folds of three samples refute it for PerceptronPrimal.
  - status partial: `C169_fresh_partial`, `C169_leak_refuted`
  - Proved for classes whose training starts over (nearest neighbours, balanced perceptron); refuted for the primal perceptron, which keeps the weights of the fold before: reported error 0 instead of 25 per cent.
* **C170 A multi-class wrapper can be given another dataset** - Wrappers as objects whose learner matrix is made by the constructor; induction over the training loops with a relation between matrices of the same shape; invariants on the dimensions give the faults for other numbers of classes.
  - status partial: `C170_ovo_partial`, `C170_ovo_from_partial`, `C170_ovo_retrained_partial`, `C170_ovo_refuted`, `C170_ova_partial`, `C170_ova_retrained_partial`, `C170_ova_more_refuted`, `C170_ova_fewer_refuted`, `C170_ova_default_refuted`, `C170_three_classes_refuted`
  - Proved when the number of classes is the same, also after an earlier training if training a base learner starts over. Refuted otherwise: one-vs-one never answers, one-vs-all never predicts the added classes or faults, a default constructed one-vs-all reports success and always predicts the first class.
* **C171 The formulation of a multi-class wrapper is that of its base classifier** - Invariant of the training loops: every learner has the formulation of the base; the entries read exist when there are two classes.
  - status partial: `C171_ovo_partial`, `C171_ova_partial`, `C171_trained_partial`, `C171_refuted`
  - Proved with two classes or more (one-vs-all: one or more), also after training; refuted with fewer: reads outside the learners.
* **C172 Loading a file replaces what the dataset held** - load as a function on an arbitrary dataset with the class table threaded through; induction over items and lines shows that components do not depend on the table; monotonicity of the counts and three files refute the rest.
  - status partial: `C172_features_partial`, `C172_features_at_partial`, `C172_regression_partial`, `C172_counts_refuted`, `C172_classes_refuted`, `C172_arff_refuted`
  - Proved: components, ids, dimension, feature names and name are those of the file (for .arff if no word is a known class name); targets too for .csv regression data. Refuted: the class table is not cleared, so counts add up, labels differ, and loading an .arff file with named classes twice writes outside the points.
* **C173 A load that fails leaves the dataset as it was** - Case analysis over the readers: every return false happens before the dataset is written; two-line files refute it for name and type.
  - status partial: `C173_kept_partial`, `C173_constructor`, `C173_constructor_at`, `C173_refuted`
  - Proved for samples, dimension, feature names and classes; refuted for the name and the type.
* **C174 Looking ahead does not change what a feature search returns in kind** - Model lookAhead inside the search loop; invariant that the last removed entry is the root or a live node; with depth 0 the two models agree by induction over the rounds.
  - status partial: `C174_subset_partial`, `C174_off`, `C174_least`, `C174_first_only`, `C174_empty_refuted`
  - proved when trainings on the whole dataset succeed, and for depth 0, with the weights looked at and the features tried named; a training that fails while looking ahead makes the search return an empty dataset (refuted)
* **C175 The features a search returns were trained on** - Ghost-free invariant: every node in memory whose training counted names a set of features on which a training succeeded; a classifier that fails on all proper subsets refutes it for look-ahead.
  - status partial: `C175_trained_partial`, `C175_ahead_refuted`
  - proved without look-ahead; with look-ahead the classifier is trained on the data of the parent, so features are returned that were never trained on (refuted)
* **C176 The pruning margin stays in force** - The look-ahead writes 0 into the margin before the first comparison: induction over the loop shows that the margin is never read.
  - status partial: `C176_ignored_refuted`, `C176_matters`
  - refuted: with look-ahead the margin is replaced by 0, so the result does not depend on it; without look-ahead it matters
* **C177 A drawing joins the picture on display** - Gnuplot is the list of lines sent to it. Induction over the history of a session shows that the members agree with the picture on display, the style and the smoothing, as long as no text contains a word taken for a command; lemmas about substrings of concatenations show that no command is mistaken for another. Refuted by a title with "plot", by a title with "splot" and by the multiplot mode.
  - status partial: `C177_joined_partial`, `C177_replot_partial`, `C177_file`, `C177_title_refuted`, `C177_lost_refuted`, `C177_multiplot_refuted`
  - proved for sessions whose texts contain no word taken for a drawing command and that do not use multiplot; refuted for titles with "plot" or "splot" and for multiplot
* **C178 Temporary files are counted and cleaned up** - All sessions of a process with the shared disk, counter and descriptors. Invariant: the counter counts the temporary files, and the sessions that may still remove have disjoint lists of them. Refuted in full: the destructor leaves the files, 63 files of destroyed sessions end all further drawings for good, repeated removals lower the counter, descriptors are never closed.
  - status partial: `C178_count_partial`, `C178_cleaned_partial`, `C178_destroy_refuted`, `C178_exhausted_refuted`, `C178_twice_refuted`, `C178_descriptors_refuted`
  - proved for programs in which sessions remove their files once and last (cleaning up: before they are destroyed); refuted for destroyed sessions, repeated removals and descriptors
* **C179 The data of a drawing reach gnuplot** - The rows written are compared with the vectors by position. That the file stays uses the invariant of C178. Refuted by a session that removes twice.
  - status partial: `C179_written`, `C179_stays_partial`, `C179_foreign_refuted`
  - written data proved for all drawings; how long they stay for programs in which sessions remove once and last; refuted otherwise
* **C180 Which gnuplot is started** - Splitting of PATH against its specification (pieces between colons, the empty ones dropped), by induction over the characters; then the first hit. Refuted for a failed attempt to configure a directory.
  - status partial: `C180_found`, `C180_pieces`, `C180_set_partial`, `C180_unset_refuted`
  - the search is proved in full; that a failed attempt to configure a directory changes nothing is refuted
* **C181 The progress numbers of a thread pool are right** - The getters are functions of the states in which their reads happen (two states for get_tasks_running, in either order, subtraction modulo 2^64). The exact numbers follow from the invariant of the transition system (C31) plus an induction counting decrements; the refutations are executions.
  - status partial: `C181_total`, `C181_queued`, `C181_running_partial`, `C181_between_partial`, `C181_submitting_refuted`, `C181_pushed_refuted`, `C181_wrap_refuted`, `C181_threads_refuted`
  - get_tasks_total and get_tasks_queued are exact at every moment. get_tasks_running is exact if nothing happens between its two reads and no submission is half way; its value under concurrent work of the threads is given exactly. Refuted: half-done submissions count as running, a submission or a finished task between the reads gives 2^64-1, and the answer can exceed the number of threads.
* **C182 Random points are reproducible** - random_init on top of the generator model of C34; the distribution is a parameter. Induction over the components.
  - status partial: `C182_new`, `C182_into`, `C182_reproducible_partial`, `C182_continues`, `C182_repeat_refuted`, `C182_seed_refuted`
  - Shape, range, label and the untouched fields are proved for every state of the generator. Reproducible if the seed is not zero modulo 2^32 and not the one in force. A second call with the same seed continues the first one (C182_continues), so it is refuted for repeated seeds, for seed 1 at program start and for multiples of 2^32.
* **C183 Printed points and tables show what they print** - Text of a point, of a dataset and of the table as functions into lists of characters with out-of-bounds reads as faults. Reading back is injectivity, proved by splitting at separators.
  - status partial: `C183_point`, `C183_empty_refuted`, `C183_label_refuted`, `C183_readable_partial`, `C183_dataset`, `C183_layout_partial`, `C183_table_partial`, `C183_names_refuted`, `C183_cut_refuted`
  - The exact text is proved; points that are both labelled or both unlabelled can be told apart if the number texts can. Refuted: points without components (read out of bounds), labelled against unlabelled points, missing class names, matrices larger than the list of classes.
* **C184 Operations given the dataset itself act as if given a copy; a copy of some classes has their samples** - Self-calls as versions of the loops whose source is the container being changed, on the memory model of C05-C07; divergence is shown for every amount of fuel by an invariant.
  - status partial: `C184_assign`, `C184_join`, `C184_insert_partial`, `C184_insert_refuted`, `C184_alias_refuted`, `C184_copy_refuted`, `C184_copy_empty`, `C184_classes_refuted`, `C184_classes_into`, `C184_classes_partial`, `C184_index_refuted`, `C184_classes_used_refuted`
  - Assignment and join with itself are proved equal to using a copy; insertion is proved with keepIndex and shown to renumber the old sample without it, and to leave one shared point; copy into itself reads out of bounds and classesCopy into itself never ends; classesCopy into a new dataset is proved exact and into a used one refuted.
* **C185 The classes of a dataset are the labels of its samples, whatever numbers these are** - A small model with rational labels and integer classes; insertion, counting, removal and splitting as loops. Induction over the labels; whole labels satisfy the table of classes, fractional ones refute it.
  - status partial: `C185_total`, `C185_classes_partial`, `C185_twice_refuted`, `C185_merged_refuted`, `C185_remove_refuted`, `C185_mixed_refuted`, `C185_range_refuted`, `C185_recompute`, `C185_split`
  - Proved for whole labels; for all labels the counts add up, every whole part is a class, and recomputed counts and parts are characterised exactly. Refuted for labels with fractions: duplicate classes, labels counted together, counts that wrap on removal, undefined conversion beyond the ints.
* **C186 Recursive elimination stops when cross-validation shows too high a rise of the error** - `Model/RfeCv.lean` extends the elimination of `Model/Select.lean` with the cross-validations of a round: the errors they report and the weights they leave are arguments.  Induction over the rounds shows that the run is a `ValidatedElimination` (Spec/RfeCv.lean), which names when a round must and when it may stop.  Refutations: constant errors with several runs, the returned dataset, the weights, a step of 0, a negative limit.
  - status partial: `C186_one_run_partial`, `C186_many_runs_partial`, `C186_same_error_refuted`, `C186_result_refuted`, `C186_weights_refuted`, `C186_step_refuted`, `C186_limit_refuted`, `C186_off`
  - Proved for one cross-validation per round: the search stops exactly when a validated round shows a rise above the limit. For any number of runs: it never goes on after a rise of the mean above the limit. Refuted: with two or more runs it compares a sum with a single error and stops though nothing changed; the dataset returned after a stop is the one with the high error; weights are those of the last fold; a step of 0 (the default) divides by zero; a negative limit reads out of bounds.
* **C187 The next round of an elimination starts from the weights of the features that stay** - `keepWeights` models how the weight vector is cleared by value and packed; compared with the weights of the features that stay.
  - status partial: `C187_partial`, `C187_length`, `C187_zero_refuted`, `C187_tie_refuted`
  - Proved when no kept weight is 0 or equal to a removed one; the length is always right. Refuted for zero and for equal weights: weights move to other features and stale values remain.
* **C188 A decision surface is drawn with the right grid, classes and legend** - Continue the model of the decision surface to the texts of its files and the command; C141 gives the grid, C133 the order of the classes, a chunking lemma the blocks of the grid file. Refute class names with an underscore and files that cannot be opened.
  - status partial: `C188_surface_partial`, `C188_underscore_refuted`, `C188_unopened_refuted`
  - proved for features x < y, feature names 1..dim, class names without _ and /, files that can be opened; refuted for names with an underscore and for a file that cannot be opened (the script is empty and files stay behind)
* **C189 A Visualization asked to keep its files keeps them** - Folders with contents; rename as a map on the disk; invariant over setSample (current folder, folders kept before, the rest of the disk); names of kept folders differ since the digits of the plot number end at the underscore. Refute a taken name and folders of others.
  - status partial: `C189_kept_partial`, `C189_taken_refuted`, `C189_other_refuted`
  - proved for a disk without the names used; refuted when the saved name is taken (files lost) and for a folder plottempN of another program (removed)
* **C190 Projecting ensemble weights gives the nearest point of the simplex** - Model/AutoVote: `simplexProjection` over an ordered field. Invariant of the loop (the sum of the sorted tail without its greatest element); exact condition under which the answer is the projection, by completing the square.
  - status partial: `C190_nonneg_partial`, `C190_projection_partial`, `C190_sum_partial`, `C190_sum_refuted`, `C190_single_refuted`
  - Proved: same length and non-negative for two or more weights; for weights of any sign the answer is the nearest point exactly when its sum is 1 (C190_sum_partial); for non-negative weights (the only ones the code passes) the exact condition on the input under which that is so, otherwise the sum exceeds 1. Refuted: [0, 0.9, 0.9] gives sum 19/15; one weight stops the program.
* **C191 Choosing the weights of an ensemble keeps the most accurate weights it tried** - Model/AutoVote: the whole search with all random numbers as parameters. Invariant: the value of a member never rises, so the best solution never changes.
  - status partial: `C191_initial_partial`, `C191_no_search_refuted`, `C191_better_refuted`
  - Refuted: candidates replace members only when they are not better, so the result is always the best of the initial population (proved for all draws), even when a better weighting was tried. Population size is arbitrary in the model, 1000 in the source.
* **C192 Choosing the weights of an ensemble ends** - Drawing parents with fuel: ends for fair draws iff three other weightings exist; a single learner collapses the population.
  - status partial: `C192_parents_partial`, `C192_parents_refuted`, `C192_single_refuted`
  - Proved: drawing parents ends for fair draws iff three other weightings exist. Refuted: a single learner makes the search diverge.
* **C193 The seed of an ensemble with chosen weights fixes its split** - `trainParts` as an instance of the seeded split of Model/Seeds.
  - status partial: `C193_seed_partial`, `C193_device_refuted`
  - Refuted: the seed is passed as the stratified flag; the split uses the random device. Proved: all seeds other than zero behave alike.
* **C194 The search for weights stops when the weights are perfect** - Counts the generations made in the model of C191.
  - status partial: `C194_generations_partial`, `C194_perfect_refuted`
  - Proved: exact number of generations. Refuted: the stop compares a percentage with 1, so perfect weights never stop the search.
* **C195 The precision, recall and true negative rate of a cross-validation are averages over its folds** - Model the counters that kfold carries from fold to fold and the sums it adds the rates to (Model/ValidationMore). Prove by induction over the folds what the reported rates are: sums of the rates of the answers so far. Refuted: a perfect classifier gets the number of folds; not a number if the first fold has no positive answer; kkfold reports zero.
  - status partial: `C195_sums_partial`, `C195_perfect_refuted`, `C195_nan_refuted`, `C195_kkfold_refuted`, `C195_classes_refuted`
  - The rates of kfold are sums over the folds of the rates of all answers so far, not averages: a perfect classifier gets the number of folds (C195_perfect_refuted); without a positive answer in the first fold the precision is not a number; with other than two classes, and in kkfold, they are zero.
* **C196 The final validation of a repeated cross-validation trains on the training samples** - Model the operations of kkfold on a dual classifier as a program of Model/KernelOwner. By invariant over the folds: SMO trains with the matrix of its samples; the others with the matrix of the last fold. Leak of the held-out samples into a dual classifier from the theorem on join.
  - status partial: `C196_primal_partial`, `C196_leak_refuted`, `C196_kernel_refuted`, `C196_smo_partial`
  - A primal classifier is trained on the training part, and SMO with the kernel matrix of its samples; a dual classifier is trained on the held-out samples too (C196_leak_refuted), and perceptrons and IMADual with the kernel matrix of the last fold (C196_kernel_refuted).
* **C197 An expression kept in a variable can be used later** - Model memory with objects that die at the end of their statement, and the expression objects with their references (Model/KeptExpr). The specification reads programs by name. Prove by a simulation invariant over programs that expressions of one operation on variables are right; refuted: every nested operand and every literal operand is gone afterwards.
  - status partial: `C197_one_operation_partial`, `C197_nested_refuted`, `C197_literal_refuted`
  - Proved for programs that keep only expressions of one operation on variables. With a nested operand the kept expression can never be used (C197_nested_refuted), nor with a literal operand unless the point is empty (C197_literal_refuted).
* **C198 Replacing or changing samples in place keeps the dataset's bookkeeping right** - Model setPoint and apply on memory and pointers (Model/DataEdit). Prove the exact effect on the samples; consistency for samples of the same label and dimension; refuted for every other label and dimension, for functions that change labels, and for samples held twice.
  - status partial: `C198_set`, `C198_set_range`, `C198_same_partial`, `C198_counts_refuted`, `C198_dimension_refuted`, `C198_apply`, `C198_apply_partial`, `C198_apply_labels_refuted`, `C198_apply_twice_refuted`
  - The effect on the samples is proved in full; the bookkeeping is right only for replacements of the same label and dimension, and for functions that keep both on a dataset that holds no sample twice. Refuted otherwise.
* **C199 Removing the first features of a list from a copy removes exactly those** - Model the removal from a copy with its count (Model/DataEdit) on top of Model/Features, and reduce it to C17; refuted for datasets with one feature, and out of bounds for numbers beyond the list.
  - status partial: `C199_partial`, `C199_range`, `C199_single_refuted`
  - Proved for aligned datasets with more than one feature and lists without repetition; refuted for one feature; other numbers read outside the list.
* **C200 A feature search gives back the memory of its search states** - Run the search of Model/AosRun to its final state and then the destructors (Model/AosOwn). Invariant over all rounds, full queues included: the queue holds distinct live nodes, and of every level reached a live node is outside of it. So nothing is deleted twice, but of every level at least one node is left (refuted).
  - status partial: `C200_destroy`, `C200_no_double_delete_partial`, `C200_leak_refuted`
  - No state is deleted twice, for every search; refuted that all are deleted: of every level reached at least one is left.
* **C201 The search considers features in the order of the chosen criterion** - Model the criteria of sorting shapes 5 and 6 (Model/AosShapes) and compare them with the two criteria stated from class means and variances: shape 6 divides by scatters, which is the same order for balanced classes and another one otherwise; shape 5 subtracts the positive mean from itself, so only the negative samples matter, and takes roots of numbers below zero. Without a class 1 or -1 the class distribution is read past its end.
  - status partial: `C201_fisher_partial`, `C201_golub_refuted`, `C201_golub_blind_refuted`, `C201_golub_nan_refuted`, `C201_missing_refuted`, `C201_balanced_partial`, `C201_unbalanced_refuted`
  - Shape 6: the key is |w| times squared mean distance over the sum of scatters (C201_fisher_partial), which orders by Fisher's criterion for balanced classes (C201_balanced_partial) and not otherwise (C201_unbalanced_refuted). Shape 5 refuted: only the negative class matters, and small deviations give NaN. A dataset without label 1 or -1 makes an out-of-bounds read.
* **C202 Choice shape 2 ranks search states by margin times distance of the class centers** - Branching of Model/AosRun with a choice shape (Model/AosShapes). The value of each queued node is computed; with the sorting shapes other than 2 and 3 the distance is the initial -1, so values are negated margins and all but the first child are pruned (refuted). With sorting shape 2 or 3 it is the product with the distance of C73.
  - status partial: `C202_default`, `C202_value`, `C202_sign_refuted`, `C202_breadth_refuted`, `C202_centers_partial`
  - Refuted for every sorting shape but 2 and 3: values are negated margins and the breadth is ignored. For shapes 2 and 3 the value of a queued child is as claimed (C202_centers_partial). With another choice shape the branching is the one of C57 and others (C202_default).
* **C203 A kernel called like a function agrees with its matrix** - Add the call operators, the subscript and the matrix constructor to the kernel model (Model/KernelCall). Agreement follows from the entries of C27; for custom functions it needs symmetry (refuted otherwise), and a recomputation without the function throws.
  - status partial: `C203_pair`, `C203_agree`, `C203_custom_partial`, `C203_custom_refuted`, `C203_custom_call_refuted`, `C203_forgotten_refuted`
  - Proved for the built-in kernels (C203_pair, C203_agree) and for symmetric custom functions. Refuted for custom functions that are not symmetric, for calls before the first computation, and after a recomputation without the function.
* **C204 A kernel matrix given by the user is the one that is used** - Same model: a kernel that has not computed a matrix replaces the given one (refuted); one that has keeps it through any sequence of computations, by induction on the sequence.
  - status partial: `C204_replaced_refuted`, `C204_kept_partial`, `C204_read`
  - Refuted: a kernel without a computed matrix replaces the given one. Proved for a kernel that has computed one before (C204_kept_partial) and for reading back (C204_read).
* **C205 A time limit ends training, and only when it is reached** - The trainers take the outcomes of their time tests as parameters; Model/TimeLimit computes these from arbitrary timer readings. Bounds by induction on the loops; the incremental margin algorithm adds up readings that already count from the start and stops early (refuted), and a limit passed before the first pass is reported as success by the primal perceptron (refuted).
  - status partial: `C205_primal`, `C205_dual`, `C205_fixed_primal`, `C205_fixed_dual`, `C205_ima_fixed`, `C205_within`, `C205_regressor`, `C205_balanced`, `C205_kmeans`, `C205_ima`, `C205_ima_early_refuted`, `C205_ima_cut_refuted`, `C205_unstarted_refuted`
  - Bounds for all seven learners for arbitrary readings and equality with the unlimited run for the perceptrons; refuted for the incremental margin algorithm (its test adds up cumulative readings, so it stops early) and for the answer of a primal perceptron that made no pass. The time taken by one pass is not modelled.
* **C206 Each distance functor computes the formula it is named after** - Write the formulas once more, independently of the expression templates, as sums over components (Spec/Distances), and prove equality for all points through the sum form of each functor; for the functors that deviate prove what they compute and that it is not the formula.
  - status partial: `C206_lp`, `C206_l1_partial`, `C206_inner_product_partial`, `C206_squared_chord_partial`, `C206_squared_l2_partial`, `C206_entropy_partial`, `C206_other_partial`, `C206_instead_partial`, `C206_hassanat_partial`, `C206_formula_refuted`
  - Proved for 24 functors; ten (Lorentzian, NonIntersection, JensenDifference, Chord, Bhattacharyya, Clark, Average, JensenShannon, MinSymmetric, KumarJohnson) and Hassanat with negative components compute something else, which is proved too. Chebyshev is in C29. Over the reals; divisions by zero excluded by positivity.
* **C207 A fixed-margin perceptron answers its training samples by their labels** - Reuse the margin invariant of C38, add the invariant that the norm stays non-negative and the number of weights is kept by every update, and compare with the threshold margin*norm of evaluate; give runs with an initial solution's margin and with flexibility in which a training sample is answered wrongly.
  - status partial: `C207_labels_partial`, `C207_initial_margin_refuted`, `C207_flexible_refuted`
  - Proved for flexibility 0 and a solution margin of absolute value at most the trained margin (0 unless an initial solution brings one, since training never sets it). Refuted for a larger initial margin and for positive flexibility.
* **C208 A perceptron committee answers by the vote of perceptrons trained on all its samples** - Model the committee over the models of the balanced perceptron, of random start weights and of voting; induction over the members gives one training on a permutation of the samples for each; the vote is C46 and the labels follow from C104 and C105. Give a run where train reports success though its members failed, and show a vote out of bounds when the classes are not 1 and -1.
  - status partial: `C208_members`, `C208_vote`, `C208_labels_partial`, `C208_reported_refuted`, `C208_classes_refuted`
  - Training never fails on samples of the right dimension, trains every member on a permutation of all samples, and the answer is a class with most votes; if the limits allow every member to converge the training samples are answered by their labels. Refuted in general: train always answers true, whatever its members answered, and with classes other than 1 and -1 a vote is written out of bounds.
* **C209 Setting the seed of a perceptron committee makes its training reproducible** - Show that the seed of the committee is never used, and give two trainings with different numbers from the random device that end with different members.
  - status partial: `C209_ignored_refuted`, `C209_device_refuted`
  - Refuted: the seed of the committee is never used; the members are made with seed 0, that is with numbers of std::random_device, and two trainings with the same seed can end with different members.
* **C210 A multi-class wrapper answers training samples by their class if its classifiers separate theirs** - Combine the training theorems of C44 and C45 with the vote: the class of the sample wins all its duels, respectively is the only one with a positive value.
  - status proved: `C210_one_vs_one`, `C210_one_vs_all`
  - For datasets whose bookkeeping is right (C01); base classifiers are arbitrary functions of their training samples.
* **C211 A nearest-neighbour classifier with one neighbour knows its training samples** - Take k = 1 in the majority theorem of C43: the one neighbour has distance zero, so its label is that of the sample.
  - status proved: `C211_own_label`
  - For every functor that computes a distance and every std::nth_element.
* **C212 AdaBoost trains later estimators with regard to what earlier ones got wrong** - Model the rounds with a base estimator given as a function of seed and samples; show by induction that estimator i is that function of seed+i and the samples, so that with a base estimator that ignores its seed the ensemble answers what the base estimator answers.
  - status partial: `C212_unweighted_refuted`, `C212_same_answers_refuted`
  - Refuted: estimator i is what the base estimator makes of the samples and seed+i; the weights reach no estimator, so with a base estimator that ignores its seed the ensemble answers what a single one answers.
* **C213 A support vector machine trained with success answers its training samples by their labels** - Show that evaluate at a training sample has the side of the decision function of the last training state, and use C75: where the optimality conditions hold the side is the label. Give a separable set with large features where success is reported and a sample is answered wrongly.
  - status partial: `C213_answers_partial`, `C213_large_features_refuted`
  - Proved: answers are the side of the decision function of the last state, and after success a sample answered wrongly has its multiplier at C or takes part in no pair step any more. Refuted in general: for features of size 1e7 the first step counts as no change, success is reported and a sample is answered wrongly.
* **C214 The remainder of a point by a number is the remainder of each of its components** - Define the remainder by its three properties and show that they fix it; Int.tmod and fmod have them. Division by zero and INT_MIN % -1 are undefined.
  - status partial: `C214_int_partial`, `C214_undefined_refuted`, `C214_double`
  - Proved for doubles by a nonzero int and for ints by a nonzero divisor; refuted for ints by 0 and INT_MIN by -1 (undefined behaviour). Point<double> % double does not compile and is not modelled.
* **C215 In double arithmetic a plain split gives every part exactly size / k samples** - Model double arithmetic exactly (values are rationals, rounding to nearest even). The quotient of two numbers below 2^53 never rounds up to a whole number above it, so its floor is the integer quotient; then C10.
  - status proved: `C215_split_sizes`
  - All operations are those of IEEE double as modelled in Model/Double.
* **C216 In double arithmetic sampling with replacement draws from every class its share** - Bound the relative error of the rounded quotient and product; the computed share is within 1/2 of the exact one, so its floor is off by at most one. 15 of 22 is a counterexample to equality.
  - status partial: `C216_sampling_partial`, `C216_share_refuted`
  - Within one sample of the share, for datasets of at most 2^50 samples; the exact share is refuted (15 of 22).
* **C217 In double arithmetic the random subspace method returns the requested fraction of the features** - As C216 for the rounded product; then C95 with the fraction n/dims. 7.0/25 of 25 features is a counterexample to equality.
  - status partial: `C217_random_subspaces_partial`, `C217_count_refuted`
  - Same number each time, all different, within [r*dims - 1/2, r*dims + 3/2); the exact ceiling is refuted (7.0/25 of 25 gives 8).
* **C218 In double arithmetic linspace gives an increasing grid from lower to upper** - Rounded sums of a nonnegative step are monotone. linspace(0,1,10) and (0,1,11) end above and below 1.
  - status partial: `C218_linspace_partial`, `C218_last_refuted`
  - Count, first element and order; the last element is refuted.
* **C219 In double arithmetic a perceptron trained with success answers its training samples by their labels** - A pass without mistakes leaves the state alone, and rounding keeps signs: a product that is not at most zero means the value has the sign of the label unless it is NaN. Give a run that overflows to NaN.
  - status partial: `C219_answers_partial`, `C219_nan_refuted`
  - For samples whose computed value is not NaN; a run that ends in NaN and answers a sample wrongly refutes the rest.
* **C220 In double arithmetic a perceptron with enough passes finds a separating solution** - With integer features and a rate 2^-k all values are integers times the rate and below 2^53 by Novikoff's bound, so no operation rounds: simulate the exact run of C36. For the refutation follow the weights 2^60, from which subtracting 1 changes nothing.
  - status partial: `C220_integer_partial`, `C220_converges_refuted`
  - Integer features, rate a power of one half and a bound that keeps every value below 2^53; refuted in general by two samples on a line.
* **C221 In double arithmetic SMO training delivers multipliers in the box that balance, and success separates** - The whole of train in doubles. Bound the rounding of each operation by half a unit in the last place; the clipped pair stays on the grid of multiples of 2^-40 below 9999, so the corner adjustment brings the first multiplier back in the box. Lists as in C39-C41. Counterexamples to balance, to NaN-freeness and to separation by kernel evaluation of whole trainings.
  - status partial: `C221_box_partial`, `C221_balance_refuted`, `C221_nan_refuted`, `C221_separates_refuted`
  - Proved: the call returns, frees its nodes, and each multiplier is a double of [0, 9999] or NaN. False and refuted by whole trainings: that no multiplier is NaN, that they balance, and that success separates.
* **C222 In double arithmetic the accuracy is the fraction of correct answers** - Counting in doubles is exact up to 2^53; rounding is monotone and two fractions with denominator n below 2^53 are further apart than a rounding error.
  - status proved: `C222_accuracy`, `C222_order`, `C222_percentage`, `C222_empty_refuted`, `C222_complement`
  - Refuted only for an empty confusion matrix (0/0).
* **C223 In double arithmetic cross-validation reports percentages, 0 and 100 only when deserved** - Each fold's share is a double of [0, 100]; a rounded sum of j of them is at most 100 j, which is a double. A single error moves the average by more than 3/2^48, so 100 minus it does not round to 100.
  - status partial: `C223_kfold`, `C223_repeated`, `C223_empty_refuted`, `C223_average_refuted`
  - The bounds, the ends and the sum are proved for non-empty folds. Refuted: numbers at all when a fold is empty, and that the error of kkfold is the average (it is computed as 100-(100-average)).
* **C224 In double arithmetic the Manhattan, Chebyshev and Euclidean distances are metrics** - Distances in doubles on lists of finite doubles. A rounded difference of two doubles is zero only if they are equal (gradual underflow); sums of nonnegative doubles are monotone. Counterexamples: a rounded way by a third point; the Chebyshev maximum starts from the least positive normal number; squares underflow.
  - status partial: `C224_manhattan`, `C224_triangle_refuted`, `C224_chebyshev_partial`, `C224_chebyshev_refuted`, `C224_euclidean_partial`, `C224_euclidean_refuted`, `C224_sizes`
  - Manhattan: nonnegative, symmetric, zero exactly for equal points; the triangle inequality is refuted. Chebyshev: largest rounded difference, but never below the least normal number (refuted: zero for equal points). Euclidean: symmetric, zero root for equal points; refuted: different points can have it too. sqrt is a parameter.
* **C225 In double arithmetic the mean lies between the values and the deviation is zero exactly for constant features** - Sums and quotients in doubles. Squares are nonnegative, infinities have one sign, so no NaN arises. Positive for whole numbers with exact sums, refuted for three copies of 0.1 and for differences whose squares underflow.
  - status partial: `C225_nonneg`, `C225_whole_partial`, `C225_constant_refuted`, `C225_differ_refuted`
  - Never NaN or negative for all finite values; the rest for whole numbers with magnitudes adding up to at most 2^53, refuted for values such as 0.1 and for underflowing squares.
* **C226 In double arithmetic nearest neighbours vote as the distances order them, and one neighbour knows its training samples** - Map each nonnegative or infinite double to a rational rank that keeps the order; the classifier in doubles makes the same choices as the exact one on the ranks, so C43 carries over. Own label from C224 for Manhattan; refuted for Euclidean by underflow.
  - status partial: `C226_majority`, `C226_own_label`, `C226_own_label_refuted`
  - Majority among the nearest for every metric with nonnegative or infinite values; own label for Manhattan, refuted for Euclidean (underflow).
* **C227 In double arithmetic a dual perceptron that reports success knows its training samples** - Training and evaluation compute the same sum in the same order, because products commute and a difference and its opposite have the same square in doubles; the sign of the sum follows from the mistake test unless it is NaN. Counterexample with NaN by kernel evaluation.
  - status partial: `C227_kernel_symmetric`, `C227_answers_partial`, `C227_nan_refuted`
  - For every kernel of the library, unless the value computed for the sample is NaN; refuted with NaN. Symmetry of the kernels is proved in full.
* **C228 In double arithmetic the dual perceptron finds a separating solution when one exists** - Simulation: with integer features and a rate 2^-k all values are integers below 2^53 scaled by the rate, so the double trainer and the exact dual and primal trainers take the same steps (C36, C37). Refuted in general by an invariant of a run in which multiplier and bias stop growing at 2^53.
  - status partial: `C228_integer_partial`, `C228_converges_refuted`
  - Integer features within the bound and a rate that is a power of one half; refuted in general (samples 2^60 and 1).
* **C229 In double arithmetic k-means training ends and assigns points to the nearest centre** - Doubles from zero to infinity are ordered like rationals, so std::min_element finds the first least one (C49); the cost is a sum of such doubles. That training ends is refuted by an invariant: after a cluster of a concrete run empties its centre holds NaN, attracts every sample and the cost stays NaN.
  - status partial: `C229_assign`, `C229_evaluate`, `C229_training_ends_refuted`, `C229_training_ends_euclidean_refuted`, `C229_emptied_cluster_refuted`
  - Assignment and evaluation are proved for every metric whose values are numbers; that training ends is refuted, and so is the answer of evaluate after a cluster ran empty.
* **C230 In double arithmetic an ensemble answers the class with the greatest total weight** - The votes are sums folded over the voters in order; doubles that are not NaN are ordered like rationals, so std::max_element finds the first greatest. A sum of n weights has a relative error below (1+2^-53)^n by induction; counts below 2^53 are exact. Order dependence and the NaN case by kernel evaluation and induction.
  - status partial: `C230_soft`, `C230_boost`, `C230_hard`, `C230_near_greatest_partial`, `C230_greatest_refuted`, `C230_tie_refuted`, `C230_one_vs_all`, `C230_nan_refuted`
  - The greatest total of the sums as rounded is proved, and the exact totals up to the rounding of one part in 2^53 per voter; the exact greatest total, ties and NaN values are refuted.
* **C231 In double arithmetic normalising gives unit norm and keeps the direction** - pow is a parameter. Division by a positive double is monotone after rounding, so order and signs stay; with q = 1 the norm is at least every absolute value (C224), so quotients stay between -1 and 1. Overflow, underflow and the norm of ten ones by kernel evaluation.
  - status partial: `C231_order_partial`, `C231_sum_norm_partial`, `C231_overflow_refuted`, `C231_dataset_refuted`, `C231_unit_refuted`
  - Order and signs are proved for every norm that is a positive number, the bounds for the sum norm; unit norm, repeated normalising and points of very large or small components are refuted.
* **C232 In double arithmetic least-mean-squares training reports success only for a usable solution** - NaN is absorbed by every operation, so one poisoned sample poisons the pass and no NaN cost meets the tolerance; divergence to NaN of a one-sample dataset by kernel evaluation of 60 passes, then induction over the rest; an exact solution is a fixed point because every error is zero.
  - status partial: `C232_nan_refuted`, `C232_overflow_refuted`, `C232_fixed_point_partial`
  - Fixed point proved; finiteness refuted: NaN in the data or a diverging rate leave NaN everywhere and train still returns true.
* **C233 In double arithmetic nearest-neighbour regression answers with the mean of the nearest targets** - Nonnegative doubles are ordered by their values, so the stable sort is that of C61 on ranks; whole-numbered targets sum up exactly within 2^53 and one rounding stays between the targets. Targets 1/10 and 2^1023 refute the range in general.
  - status partial: `C233_mean_partial`, `C233_between_refuted`, `C233_domain`
  - Proved for whole-numbered targets with sums within 2^53; in general the rounded mean can exceed every target or overflow (refuted).
* **C234 In double arithmetic boosting of estimators that know their training samples knows them** - log and exp are parameters. Invariant over the rounds: all weights are equal to one double in (0, 1]; a sum of n equal doubles is off by at most a factor of two, so the quotient stays above 2^-53. With a single class log(0) makes every weight NaN (refuted).
  - status partial: `C234_perfect_partial`, `C234_one_class_refuted`
  - Proved for at least two classes and at most 2^52 samples; with a single class every weight becomes NaN (refuted).
* **C235 In double arithmetic the feature-space norm is the length of the weight vector** - sqrt is a parameter. Whole-numbered features and multipliers: all products and partial sums are whole numbers up to 2^53, hence exact, and the double sum is the squared length by algebra. For 0.3 and 0.7 with multipliers 7 and 3 the sum is negative (kernel evaluation).
  - status partial: `C235_norm_partial`, `C235_norm_refuted`
  - proved for whole-numbered features and multipliers and the inner product kernel, where nothing is rounded; in general the number under the root can be negative and the norm NaN (C235_norm_refuted)
* **C236 In double arithmetic Gaussian kernel values lie between 0 and 1** - exp is a parameter with exp(0) = 1 and values in [0, 1] up to 0. The rounded squared distance is a nonnegative double or infinity, zero for equal points and symmetric because squares forget signs; overflow with parameter 0 gives NaN and underflow makes different points equal (kernel evaluation).
  - status partial: `C236_gaussian_partial`, `C236_matrix_partial`, `C236_distinct_refuted`, `C236_zero_refuted`
  - proved for finite features and a positive parameter; different points can have the value 1, and with parameter 0 the value can be NaN (refuted)
* **C237 In double arithmetic the filter selectors rank features by scores that can be ordered** - The loops are sums over the two classes, so averages and deviations are those of C225; for whole values the deviation of a feature that varies is positive, hence the scores are nonnegative doubles or infinity and are ordered by a rank. A constant feature scores 0/0 = NaN for every dataset, and with it the comparison is no strict weak order.
  - status partial: `C237_number_partial`, `C237_order_partial`, `C237_constant_refuted`, `C237_order_refuted`, `C237_single_refuted`
  - proved for whole-valued features that vary within a class with at least two samples in each; a constant feature scores NaN in every dataset, which breaks the order std::sort requires, and with one negative sample all scores are NaN (refuted)
* **C238 In double arithmetic a fixed-margin perceptron that reports success has the margin and knows its training samples** - sqrt and pow are parameters of which only signs are used. Invariant: the index stays a permutation, the norm is never below zero, the weights keep their length; a pass without mistakes changes nothing, so its comparisons are about the final state. A point of size 2^-1050 with two labels: multipliers become NaN and success is reported (kernel evaluation, for every sqrt and pow).
  - status partial: `C238_margin_partial`, `C238_labels_partial`, `C238_nan_refuted`
  - proved unless one of the compared values is NaN; NaN multipliers make training report success on a point with two labels (C238_nan_refuted)
* **C239 In double arithmetic a decimal text is read as the nearest double** - Both loops stay exact while the digits form an integer of at most 2^53 and the power of ten is at most 10^22, so the final division is the only rounding, and rounding delivers a nearest double (near_nearest, proved for every number). False with 16 digits, with 23 places and, by overflow of both operands, with 309 zeros after the point: kernel evaluation.
  - status partial: `C239_nearest_partial`, `C239_exact_partial`, `C239_digits_refuted`, `C239_places_refuted`, `C239_nan_refuted`
  - Nearest double for decimals whose digits form an integer of at most 2^53 with at most 22 places; false beyond: with 16 digits, with 23 places, and NaN with 309 zeros after the point. Exponents are ignored (C22).
* **C240 In double arithmetic a number written by dtoa and read by atod comes back** - log10 and pow are parameters with the assumptions GoodLibm. For whole numbers the rounded quotient has the right floor (as in C215) and products and remainders are exact, so by induction on the places the digits are those of the numeral; C239 reads it back. 0.3, the double below 0.00001 and the words nan and inf refute the rest.
  - status partial: `C240_whole_partial`, `C240_fraction_refuted`, `C240_digit_refuted`, `C240_words_refuted`
  - Proved for whole numbers below 10^14 and above -10^9, for every library with exact whole powers of ten and right whole logarithms. Refuted: 0.3 comes back as 0.299999999, the double below 0.00001 is written with a colon, NaN and infinities come back as 0.
* **C241 In double arithmetic the quotient distances are symmetric, never negative and never NaN** - One lemma turns facts about the term of one place (nonnegative or infinite, symmetric, zero for equal components) into the claim for the whole sum; each functor supplies its term, with bounds on the components that keep the denominators positive and finite. A common zero component gives NaN for every pair of points (refuted), as do underflow and overflow of the denominator.
  - status partial: `C241_canberra_partial`, `C241_squared_partial`, `C241_divergence_partial`, `C241_average_partial`, `C241_canberra_bound`, `C241_common_zero_refuted`, `C241_single_partial`, `C241_range_refuted`
  - Proved for components of moderate size (up to 2^1022, for Divergence zero or between 2^-500 and 2^500) with no place where both are zero, AvgManhattan and SquaredEuclidean without that condition; refuted in general: a common zero makes six functors NaN for every such pair, and so do an underflowing or overflowing denominator.
* **C242 In double arithmetic a round of boosting leaves a distribution and favours mistaken samples and better estimators** - Each raised weight lies between the old weight and 2^300, so by induction the computed total is finite and within (1-u)^n and (1+u)^n of the exact one (u = 2^-53) and at least each summand; quotients are then between 0 and 1 and their exact sum is near 1. The order of the weights follows from the monotony of rounding. One mistaken sample alone gives NaN (refuted).
  - status partial: `C242_weights_partial`, `C242_better_partial`, `C242_only_mistakes_refuted`
  - Proved for weights of at least 2^-300, estimators of weight at least zero with exp up to 2^300, and errors from 2^-1000 to below 1; refuted in general: a single sample that is mistaken gives an estimator weight of -inf and a NaN sample weight.
* **C243 In double arithmetic the incremental margin algorithm separates the samples and reports margins that do not decrease** - A successful fixed-margin run ends with a pass without mistakes, so every value times its label exceeds the rounded product of margin and norm, and by the monotony of rounding the value over the norm is at least the margin asked for. The scan for the extremes keeps that bound, so the reported margin, half of a rounded sum, is at least the margin asked for, and the next margin asked for is at least the reported one; induction over the rounds. That the samples lie beyond the reported margin and that evaluate answers the labels is refuted.
  - status partial: `C243_margins_partial`, `C243_reports_last`, `C243_reported_margin_refuted`, `C243_single_class_refuted`
  - Proved for rounds whose numbers are usable (positive norm, multipliers that are numbers, no NaN value): every stored solution separates the samples and the reported margins never decrease; provenance of the result in full. Refuted: the reported margin is not attained and evaluate mislabels a training sample; one class alone reports half of DBL_MAX.
* **C244 In double arithmetic the dual fixed-margin perceptron classifies its training samples after a successful training** - For whole-number samples, the inner product kernel, a rate that is a power of 1/2 and no margin asked for, an invariant says that the points' Alpha values, the bias and the kept values are exact whole multiples of the rate (every sum stays below 2^53), so the kept value is the one evaluate computes, and the last pass without mistakes gives the labels. With any positive margin the first update divides by the norm 0 and everything becomes NaN, which counts as no mistake: refuted for every data set. With other values the kept and the computed values round differently: refuted by two samples.
  - status partial: `C244_answers_partial`, `C244_any_margin_refuted`, `C244_drift_refuted`
  - Proved: with whole-number samples, the inner product kernel, a rate (1/2)^k, no margin asked for and updates x (1 + features x X^2) <= 2^53, the kept value of each sample is exactly the one evaluate computes and evaluate answers its label. Refuted: asked for any positive margin, a fresh classifier reports success on every data set with NaN everywhere and answers -1 for every point; and two samples with fractional features on which training succeeds and evaluate answers one of them wrongly. Missing: other kernels, rates and values, which the refutations show fail in general.
* **C245 In double arithmetic the dual incremental margin algorithm ends and reports margins its training values have** - Ending: the scan for the extremes starts from DBL_MAX and -DBL_MAX and with a norm that is NaN or not negative only ever stores numbers, so the margin is a number; the loop goes on only when it grew, and numbers are multiples of the smallest double up to DBL_MAX. Margins: a clean last pass puts every kept value, over the norm, beyond the margin asked for (a rounded difference above zero means the numbers differ), the scan keeps that and bounds every value, and the next margin asked for is at least the reported one; induction over the rounds. Provenance of what is reported by induction over the loop. That the bias and the support vectors belong to the reported multipliers, and that evaluate answers the labels, is refuted.
  - status partial: `C245_margins_partial`, `C245_reports_last`, `C245_ends`, `C245_bias_refuted`, `C245_support_refuted`
  - Proved: training ends for every data set, kernel and clock when EPS > 0; the margin and the multipliers are those of the last successful round; with usable numbers (positive norm, kept values that are numbers) the margins never decrease and every kept value is at least the reported margin beyond the boundary. Refuted: the bias and the support vectors reported are those of the failed last run, so evaluate can answer a training sample wrongly and a multiplier 1 can come with an empty list of support vectors. Missing: the values kept are not the ones evaluate computes (C244), and runs whose norm or values stop being numbers.
* **C246 In double arithmetic a balanced perceptron that reports success answers its training labels after moving its bias** - A clean last pass puts every sample on its side with bias 0 (the bias is multiplied, so it stays 0; a rate that is not finite makes it NaN). Both margins found are doubles that are not negative. The rounded half of their rounded sum lies between them, so a shift towards the positive class is at most its margin. A shift towards the negative class must be strictly less than its margin: by error bounds, and for the four smallest doubles by counting multiples of the smallest. A sum of doubles below zero never rounds to zero. Overflow of the sum of the margins, and the balance itself, are refuted.
  - status partial: `C246_answers_partial`, `C246_middle_partial`, `C246_finite`, `C246_overflow_refuted`, `C246_balance_refuted`, `C246_no_epoch_refuted`
  - proved for every data set, rate and limits when the bias left is finite (C246_answers_partial), which it is if some sample of each class has a value of at most 2^1022 (C246_finite); the hyperplane is in the middle up to an explicit rounding error (C246_middle_partial) but not exactly (C246_balance_refuted); beyond 2^1022 the sum of the margins overflows and labels are answered wrong; with no epoch allowed the claim is false as in C104
* **C247 In double arithmetic a perceptron committee answers its training labels when its training succeeded** - By C246 every member that succeeded with a finite bias answers the training labels; every other member answers 1 or -1 without a fault, because the search for the margins has evaluated every sample with the final weights; a hard vote counted in double is exact up to 2^53 members (C230), so a strict majority decides. Half of the members is not enough, and an overflow of the margins turns all members wrong: refuted.
  - status partial: `C247_majority_partial`, `C247_half_refuted`, `C247_overflow_refuted`
  - train returns true whatever its members answer; proved if the training of more than half of the members succeeded with a finite bias (at most 2^53 members); false for half of them (C247_half_refuted) and for values whose margins overflow (C247_overflow_refuted)
* **C248 In double arithmetic radius, distance of class centres and covariance are never NaN and behave as distances and as a covariance** - Averages of finite values are never NaN, so squared differences are nonnegative or infinite and so are their sums; the maximum over the samples is one of the distances. Rounded addition is monotone, so the sum over some features is at most the sum over all. (a - b)^2 and (b - a)^2 round to the same number, and multiplication commutes. Refuted: three times 0.1 has a positive radius, one class only or sums overflowing in both classes give the root of NaN, and covar(p, p) divides by n - 1 where var(p) divides by n (NaN for n = 1).
  - status partial: `C248_radius`, `C248_drop`, `C248_largest`, `C248_centres_exchange`, `C248_centres_partial`, `C248_one_class_refuted`, `C248_covariance`, `C248_equal_refuted`, `C248_overflow_refuted`, `C248_variance_refuted`
  - Proved: C248_radius and C248_largest (bounds, attained, never NaN), C248_drop (leaving out a feature), C248_centres_exchange, C248_covariance. distCenters is never NaN exactly when no feature overflows to the same infinity in both classes and both classes occur (C248_centres_partial). Refuted: equal samples have radius zero (C248_equal_refuted), one class only (C248_one_class_refuted), overflow (C248_overflow_refuted), covar(p,p) is var(p) (C248_variance_refuted).
* **C249 A file left by a crash during write is not read as another dataset** - The file is emptied when it is opened and then grows from front to back, so a crash leaves a beginning of the text: whole lines, and the beginning of another. If that one has fewer fields, the first reading of the file finds two dimensions and load returns false. Otherwise only its last field is shorter, and the first digits of a number denote the number divided by a power of ten, towards zero; so the file is read like one written to the end for the first samples. Refuted: whole samples are lost without notice, a cut number is read as another number, what the file held before is lost, and a cut in the first line gives another dimension.
  - status partial: `C249_prefix_partial`, `C249_regression_partial`, `C249_lost_samples_refuted`, `C249_old_file_refuted`, `C249_cut_number_refuted`, `C249_first_line_partial`, `C249_sign_refuted`
  - Proved for every crash point and every previous content. After the first line: load refuses the file or does exactly what it does with a complete file of the first samples, where only the last feature of the last sample may have lost digits. Within the first line: one sample is loaded, made of the first numbers of that line. Refuted: lost samples go unnoticed (for every dataset and every number of samples), a cut number is read as another one, a cut first line as another dimension, a class cut to its sign ends the program (for every dataset whose first label is negative), and the old content is gone once the file is opened. Values are integers below a million in size.
* **C250 A file left by a crash during write as .data is not read as another dataset** - As for C249: whole lines and the beginning of another. A line with fewer items is refused. Otherwise only the last item is shorter: with its colon it sets the last feature to the first digits of the number (or leaves 0); without the colon it is taken for a label, after the right one. Names read before stay. Refuted: a cut name becomes the label of the sample, and a negative name cut to its sign ends the program.
  - status partial: `C250_prefix_partial`, `C250_label_refuted`, `C250_sign_refuted`
  - Proved for every crash point after the first line: load refuses the file or loads the samples whose lines have reached it and at most one more; names, dimension, ids, all features but the last one of the last sample and all labels but the last are right, and the last label is right and the last feature a beginning of the number written unless that feature is read as 0. Refuted: a cut feature name becomes the label of the last sample; a negative name cut to its sign ends the program. Values are integers below a million in size.
* **C251 In double arithmetic diverse subspaces hold different features of any dataset** - The correlation and the diversity of a feature are computed in doubles. The diversity is between 0 and 1 in every state, since rounding is monotone, so an unused feature scores above -1.01 if its correlation is a number above -1.0009, and std::max_element chooses an unused one. Refuted: 0/0 for a constant feature is a NaN, which std::max_element never chooses, or always if it comes first; and since covar divides by size - 1 and std_dev by size, a correlation may be -2, below the score of a used feature.
  - status partial: `C251_subspaces_partial`, `C251_later_partial`, `C251_second_refuted`, `C251_constant_partial`, `C251_constant_refuted`, `C251_first_refuted`, `C251_negative_refuted`
  - Proved for the first call (n <= dim) and for all later calls, with any changes of the weight in [0,1] (n < dim), if every computed correlation is a number between -1.0009 and 4. Refuted: a constant feature (correlation NaN, proved for integer values and any labels) that is not the first is in no subspace, so asking for all features gives repetitions (every dataset, weight and k); if it is the first, every subspace starts with it; two samples with correlation -2 give the same feature twice, because covar and std_dev use different divisors; and a second call with n = dim repeats a feature. The square root is a parameter.
* **C252 The diversity of a subspace is one minus the greatest share of features another subspace has in common with it** - std::set_intersection is modelled as the usual merge (its precondition, sorted ranges, is not kept by the code). For increasing lists the merge is the filter of the common features, by induction over both lists; in any order it is at most that, so the reported diversity is never too low. Refuted: a run of DSM leaves the same two features in different orders in two subspaces, and the diversity is one half instead of zero.
  - status partial: `C252_sorted_partial`, `C252_not_low_partial`, `C252_order_refuted`, `C252_reverse_refuted`
  - Proved for subspaces whose features are in increasing order; in any order the diversity is never too low. Refuted for all sets of features held in increasing order by one subspace and in decreasing order by the other (a single common feature is counted), and for a run of DSM that leaves the same features in different orders: the code calls std::set_intersection on unsorted ranges (outside its precondition; modelled as the usual merge).
* **C253 The diversity of a feature falls with the number of subspaces that hold it** - The double counter is exact up to 2^53, by induction over the subspaces; the rest follows since rounding is monotone and 0 and 1 are doubles.
  - status proved: `C253_feature`
  - For one to 2^53 subspaces of any content.

## Axioms of each theorem

As printed by `#print axioms` for the theorems of MANIFEST.json.  No other axiom occurs.

* `does not depend on any axioms` (2): `C24_copy_constructor`, `C69_assignment_shares`
* `[propext]` (18): `C125_changeXVector_refuted`, `C131_seed_partial`, `C131_setSeed_refuted`, `C14_relabel_out_of_range`, `C170_ova_default_refuted`, `C180_set_partial`, `C183_cut_refuted`, `C183_empty_refuted`, `C184_copy_empty`, `C21_int_min`, `C230_nan_refuted`, `C24_assignment_partial`, `C30_shuffled_ids_refuted`, `C34_getSeed`, `C34_reported_seed`, `C34_reproducible_partial`, `C34_same_seed_refuted`, `C34_seed_one_refuted`
* `[propext, Quot.sound]` (131): `C01_ids_shared_pointer_refuted`, `C03_absent_reachable`, `C03_present_but_refused`, `C04_flags_order_refuted`, `C04_remove_all_refuted`, `C05_copy_independent`, `C06_source_ids_refuted`, `C06_source_unchanged_partial`, `C08_shuffle_permutes`, `C100_always_true_refuted`, `C101_same_intercept_partial`, `C103_empty`, `C122_copy_equal_refuted`, `C122_labels_refuted`, `C123_filled_partial`, `C126_copyZero_partial`, `C126_isEmpty_refuted`, `C126_samples_refuted`, `C144_dimension_rejected`, `C151_paused_refuted`, `C152_raw_refuted`, `C152_same_schedules_partial`, `C152_throwing_tasks_partial`, `C153_assignment_partial`, `C153_assignment_refuted`, `C153_dual_partial`, `C153_dual_refuted`, `C153_refuted`, `C153_settings_partial`, `C153_untrained_partial`, `C154_constructor_partial`, `C154_dual_constructor_partial`, `C154_dual_initial_partial`, `C154_set_refuted`, `C154_solution_partial`, `C154_weights_partial`, `C157_dimension_refuted`, `C157_dual_larger_refuted`, `C157_reset_partial`, `C158_batch`, `C158_fault`, `C158_learners`, `C159_integers_refuted`, `C162_two_streams_refuted`, `C162_whole_lines_partial`, `C163_empty_refuted`, `C163_outside`, `C163_source_refuted`, `C165_training_refuted`, `C166_alone_partial`, `C167_same_partial`, `C169_fresh_partial`, `C16_different_names_refuted`, `C16_equal_names_refuted`, `C16_fractional_names_refuted`, `C170_ova_fewer_refuted`, `C170_ova_partial`, `C170_ova_retrained_partial`, `C170_ovo_from_partial`, `C170_ovo_partial`, `C170_ovo_refuted`, `C171_ovo_partial`, `C171_trained_partial`, `C174_first_only`, `C174_least`, `C174_off`, `C176_ignored_refuted`, `C17_order_refuted`, `C17_repetition_refuted`, `C180_found`, `C180_pieces`, `C180_unset_refuted`, `C181_pushed_refuted`, `C181_submitting_refuted`, `C181_threads_refuted`, `C181_wrap_refuted`, `C182_into`, `C182_new`, `C182_repeat_refuted`, `C182_reproducible_partial`, `C182_seed_refuted`, `C183_names_refuted`, `C184_alias_refuted`, `C184_copy_refuted`, `C186_off`, `C190_single_refuted`, `C195_classes_refuted`, `C195_kkfold_refuted`, `C198_apply`, `C198_apply_twice_refuted`, `C198_same_partial`, `C198_set_range`, `C199_range`, `C199_single_refuted`, `C202_default`, `C205_balanced`, `C209_ignored_refuted`, `C23_assign`, `C23_expression`, `C23_mixed_dimensions_rejected`, `C24_label_refuted`, `C24_shrinking_refuted`, `C25_max_partial`, `C25_max_refuted`, `C25_min`, `C31_reset_keeps_queue`, `C32_paused_refuted`, `C32_running_refuted`, `C33_tiling`, `C38_dual_fresh_refuted`, `C43_dimension`, `C43_precompute_refuted`, `C43_too_few_samples_refuted`, `C50_empty_cluster_refuted`, `C52_orientation_refuted`, `C55_empty_fold_refuted`, `C55_multiclass_totals_refuted`, `C60_invalid_depth_refuted`, `C63_drawn_refuted`, `C68_ids_not_unique`, `C69_assignment_independent_refuted`, `C70_norm_inf_partial`, `C74_blank_name_refuted`, `C77_soft_partial`, `C80_retrain_partial`, `C81_draw_refuted`, `C81_plusplus_partial`, `C81_random_partial`, `C84_different_draws_partial`, `C84_plusplus_refuted`, `C87_totals_refuted`
* `[propext, Classical.choice, Quot.sound]`: all other theorems of the manifest (777).
