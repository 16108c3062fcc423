{
 "claims": [
  {
   "property": "C01",
   "status": "proved",
   "theorems": [
    "MLTK.Props.C01_insert_history",
    "MLTK.Props.C01_insert_ids",
    "MLTK.Props.C01_ids_shared_pointer_refuted",
    "MLTK.Props.C01_types"
   ],
   "note": "Every insertion history from an empty dataset: accepted samples, order, labels, class table, counts. The id clause is proved for distinct objects and refuted when the same shared pointer is inserted twice (C01_ids_shared_pointer_refuted)."
  },
  {
   "property": "C02",
   "status": "proved",
   "theorems": [
    "MLTK.Props.C02_wrong_dimension"
   ],
   "note": "A sample of another dimension is rejected and nothing changes."
  },
  {
   "property": "C03",
   "status": "partial",
   "theorems": [
    "MLTK.Props.C03_history_consistent",
    "MLTK.Props.C03_remove_present_partial",
    "MLTK.Props.C03_absent_undefined",
    "MLTK.Props.C03_absent_reachable",
    "MLTK.Props.C03_present_but_refused"
   ],
   "note": "Invariant over all insert/remove histories proved; exact effect of removing a present id proved when the id is at most the last sample's id. The code violates the rest: absent id => uninitialised read, present id larger than the last id is refused."
  },
  {
   "property": "C04",
   "status": "partial",
   "theorems": [
    "MLTK.Props.C04_removePoints_partial",
    "MLTK.Props.C04_remove_all_refuted",
    "MLTK.Props.C04_flags_order_refuted"
   ],
   "note": "Exact effect proved when some sample survives and the ids are positive; code violates the rest (all removed, order of flags)."
  },
  {
   "property": "C05",
   "status": "proved",
   "theorems": [
    "MLTK.Props.C05_copy_independent",
    "MLTK.Props.C05_join_independent"
   ],
   "note": "copy() and join: fresh objects, equal content, and any sequence of writes on either side is invisible on the other."
  },
  {
   "property": "C06",
   "status": "partial",
   "theorems": [
    "MLTK.Props.C06_source_ids_refuted",
    "MLTK.Props.C06_source_unchanged_partial",
    "MLTK.Props.C06_source_content"
   ],
   "note": "Content (features, labels, alphas) of the source is never changed; ids survive when keepIndex is true; with keepIndex=false the shared object is renumbered (refuted). splitSample leaves the source unchanged (C09_*)."
  },
  {
   "property": "C07",
   "status": "partial",
   "theorems": [
    "MLTK.Props.C07_join_partial",
    "MLTK.Props.C07_loaded_counts_refuted",
    "MLTK.Props.C07_join_empty_exits"
   ],
   "note": "Proved for datasets whose distribution flag is not set by load; refuted for a loaded dataset (counts stay stale) and join with an empty dataset."
  },
  {
   "property": "C08",
   "status": "proved",
   "theorems": [
    "MLTK.Props.C08_shuffle_permutes"
   ],
   "note": "Shuffling by any permutation."
  },
  {
   "property": "C09",
   "status": "proved",
   "theorems": [
    "MLTK.Props.C09_stratified_split",
    "MLTK.Props.C09_zero_parts_undefined"
   ],
   "note": "Every consistent dataset, k>=1, keepIndex and shuffle. splitSample(0) is undefined."
  },
  {
   "property": "C10",
   "status": "partial",
   "theorems": [
    "MLTK.Props.C10_plain_split_partial",
    "MLTK.Props.C10_remainder_lost_refuted"
   ],
   "note": "Parts are floor(n/k) each and nothing is altered or repeated; n mod k samples are in no part (refuted when k does not divide n, for every dataset and shuffle)."
  },
  {
   "property": "C11",
   "status": "partial",
   "theorems": [
    "MLTK.Props.C11_kfold_partial",
    "MLTK.Props.C11_kfold_ids_disjoint_partial",
    "MLTK.Props.C11_two_folds_refuted",
    "MLTK.Props.C11_one_fold_diverges",
    "MLTK.Props.C11_one_fold_grows",
    "MLTK.Props.C11_plain_remainder_refuted",
    "MLTK.Props.C11_two_folds_every_refuted"
   ],
   "note": "k>=3 stratified, or k | n: proved in full. k=2 tests on the training samples, for every dataset (stratified or of even size) and every shuffle; k=1 does not return; plain mode with remainder drops samples: refuted."
  },
  {
   "property": "C12",
   "status": "partial",
   "theorems": [
    "MLTK.Props.C12_partTrainTest_partial",
    "MLTK.Props.C12_plain_remainder_refuted"
   ],
   "note": "Stratified, or k | n: proved in full. Plain mode with remainder drops samples (refuted)."
  },
  {
   "property": "C13",
   "status": "proved",
   "theorems": [
    "MLTK.Props.C13_splitByClasses"
   ],
   "note": "Every consistent dataset."
  },
  {
   "property": "C14",
   "status": "partial",
   "theorems": [
    "MLTK.Props.C14_relabel_known_partial",
    "MLTK.Props.C14_new_label_counts_refuted",
    "MLTK.Props.C14_relabel_out_of_range"
   ],
   "note": "Proved when the new label is already a class; refuted for a new label (iterator invalidated, or the new class is counted twice)."
  },
  {
   "property": "C15",
   "status": "partial",
   "theorems": [
    "MLTK.Props.C15_clear_then_insert_partial",
    "MLTK.Props.C15_distribution_refuted"
   ],
   "note": "Size, points, classes agree with a fresh dataset after clear; the class distribution does not (refuted)."
  },
  {
   "property": "C16",
   "status": "partial",
   "theorems": [
    "MLTK.Props.C16_text_names_partial",
    "MLTK.Props.C16_integer_names_partial",
    "MLTK.Props.C16_integer_faithful_partial",
    "MLTK.Props.C16_equal_names_refuted",
    "MLTK.Props.C16_different_names_refuted",
    "MLTK.Props.C16_fractional_names_refuted"
   ],
   "note": "Proved for textual names (labels faithful up to white space) and, for integer names, the exact condition under which labels equal the names; refuted in general with three witnesses."
  },
  {
   "property": "C17",
   "status": "partial",
   "theorems": [
    "MLTK.Props.C17_remove_partial",
    "MLTK.Props.C17_remove_values_partial",
    "MLTK.Props.C17_insert_partial",
    "MLTK.Props.C17_select_partial",
    "MLTK.Props.C17_order_refuted",
    "MLTK.Props.C17_repetition_refuted",
    "MLTK.Props.C17_select_names_refuted",
    "MLTK.Props.C17_select_zero_refuted"
   ],
   "note": "remove/insert/selectFeatures proved exact on aligned datasets with ascending names and distinct features; refuted for names out of order, repeated features, feature 0, and the names after selectFeatures."
  },
  {
   "property": "C18",
   "status": "partial",
   "theorems": [
    "MLTK.Props.C18_without_replacement_diverges",
    "MLTK.Props.C18_termination_refuted",
    "MLTK.Props.C18_single_class_partial",
    "MLTK.Props.C18_single_class_terminates_partial",
    "MLTK.Props.C18_with_replacement_partial",
    "MLTK.Props.C18_size_refuted",
    "MLTK.Props.C18_empty_sample_refuted"
   ],
   "note": "Without replacement: proved to diverge for every draw sequence as soon as there are two non-empty classes; single-class correctness and fair termination proved; with replacement: exact counts proved; wrong totals and the empty sample refuted. Class samples are given as the result of splitByClasses."
  },
  {
   "property": "C19",
   "status": "partial",
   "theorems": [
    "MLTK.Props.C19_regression_round_trip_partial",
    "MLTK.Props.C19_classification_round_trip_partial",
    "MLTK.Props.C19_labels_refuted",
    "MLTK.Props.C19_large_values_refuted"
   ],
   "note": "Round trip proved for all integer datasets below 10^6 (regression: always; classification: exact condition on the label sequence); every value from 10^6 on is refuted. File I/O is text; operator<<(double) is modelled for integers."
  },
  {
   "property": "C20",
   "status": "proved",
   "theorems": [
    "MLTK.Props.C20_tokens_are_the_pieces",
    "MLTK.Props.C20_tokens_clean",
    "MLTK.Props.C20_tokens_join"
   ],
   "note": "Tokens are exactly the maximal pieces (specified inductively, with uniqueness)."
  },
  {
   "property": "C21",
   "status": "proved",
   "theorems": [
    "MLTK.Props.C21_itos_canonical",
    "MLTK.Props.C21_round_trip",
    "MLTK.Props.C21_int_min"
   ],
   "note": "itos is the canonical numeral and stoin inverts it for every int but INT_MIN, which overflows."
  },
  {
   "property": "C22",
   "status": "partial",
   "theorems": [
    "MLTK.Props.C22_decimal_partial",
    "MLTK.Props.C22_exponent_ignored_partial",
    "MLTK.Props.C22_exponent_refuted",
    "MLTK.Props.C22_numbers_accepted"
   ],
   "note": "Proved for every decimal without exponent; every exponent is ignored (refutation)."
  },
  {
   "property": "C23",
   "status": "proved",
   "theorems": [
    "MLTK.Props.C23_expression",
    "MLTK.Props.C23_assign",
    "MLTK.Props.C23_mixed_dimensions_rejected",
    "MLTK.Props.C23_empty_operand_refuted"
   ],
   "note": "All expression trees over points, scalars, component functions and subscripts; mixed non-empty dimensions are rejected. An empty point is treated like a scalar and read out of bounds (C23_empty_operand_refuted)."
  },
  {
   "property": "C24",
   "status": "partial",
   "theorems": [
    "MLTK.Props.C24_assignment_partial",
    "MLTK.Props.C24_shrinking_refuted",
    "MLTK.Props.C24_label_refuted",
    "MLTK.Props.C24_copy_constructor"
   ],
   "note": "Holds when the target is not longer than the source; a longer target keeps its tail and labels are never assigned (refuted for all such points)."
  },
  {
   "property": "C25",
   "status": "partial",
   "theorems": [
    "MLTK.Props.C25_min",
    "MLTK.Props.C25_max_partial",
    "MLTK.Props.C25_max_refuted"
   ],
   "note": "min proved. max proved when some component reaches numeric_limits::min(); refuted for floating points without positive component."
  },
  {
   "property": "C26",
   "status": "proved",
   "theorems": [
    "MLTK.Props.C26_linspace"
   ],
   "note": "Over any field of characteristic 0."
  },
  {
   "property": "C27",
   "status": "proved",
   "theorems": [
    "MLTK.Props.C27_matrix",
    "MLTK.Props.C27_custom",
    "MLTK.Props.C27_positive_semidefinite"
   ],
   "note": "Entries and symmetry for all built-in kernels and custom ones; positive semidefiniteness of the inner product, polynomial (natural degree, Schur product) and Gaussian (power series) kernels."
  },
  {
   "property": "C28",
   "status": "partial",
   "theorems": [
    "MLTK.Props.C28_compute_partial",
    "MLTK.Props.C28_refuted"
   ],
   "note": "Holds after any history whose last compute precedes a setType/setParam/recompute; otherwise the call is ignored (refuted)."
  },
  {
   "property": "C29",
   "status": "partial",
   "theorems": [
    "MLTK.Props.C29_euclidean",
    "MLTK.Props.C29_manhattan",
    "MLTK.Props.C29_chebyshev_partial",
    "MLTK.Props.C29_chebyshev_refuted"
   ],
   "note": "Euclidean and Manhattan are metrics; Chebyshev of equal points is numeric_limits::min() (refuted), its other axioms are proved."
  },
  {
   "property": "C30",
   "status": "partial",
   "theorems": [
    "MLTK.Props.C30_schedule_independent_partial",
    "MLTK.Props.C30_race_free",
    "MLTK.Props.C30_shuffled_ids_refuted"
   ],
   "note": "Proved for every interleaving, thread count, distance function and dataset whose ids are the positions 1..n; for other ids (e.g. after shuffle) refuted by C30_shuffled_ids_refuted."
  },
  {
   "property": "C31",
   "status": "proved",
   "theorems": [
    "MLTK.Props.C31_fifo",
    "MLTK.Props.C31_conservation",
    "MLTK.Props.C31_at_most_once",
    "MLTK.Props.C31_total",
    "MLTK.Props.C31_liveness",
    "MLTK.Props.C31_reset_keeps_queue"
   ],
   "note": "Safety for every event list of the pool transition system; liveness under fair scheduling of the workers. Atomics sequentially consistent, tasks terminate, counters do not wrap."
  },
  {
   "property": "C32",
   "status": "partial",
   "theorems": [
    "MLTK.Props.C32_barrier",
    "MLTK.Props.C32_paused_refuted",
    "MLTK.Props.C32_running_refuted",
    "MLTK.Props.C32_paused_partial"
   ],
   "note": "Unpaused barrier proved for every interleaving. Paused half is false in general (two refutations) and proved when the pool is already quiet and nobody submits."
  },
  {
   "property": "C33",
   "status": "proved",
   "theorems": [
    "MLTK.Props.C33_tiling",
    "MLTK.Props.C33_exactly_one",
    "MLTK.Props.C33_zero_threads_refuted"
   ],
   "note": "Indices as mathematical integers; needs a positive thread or block count (C33_zero_threads_refuted shows the division by zero otherwise)."
  },
  {
   "property": "C34",
   "status": "partial",
   "theorems": [
    "MLTK.Props.C34_reproducible_partial",
    "MLTK.Props.C34_getSeed",
    "MLTK.Props.C34_reported_seed",
    "MLTK.Props.C34_same_seed_refuted",
    "MLTK.Props.C34_seed_one_refuted"
   ],
   "note": "Proved unless the seed equals the seed in force (initially 1); refuted for those two cases with the real mt19937 recurrence."
  },
  {
   "property": "C35",
   "status": "partial",
   "theorems": [
    "MLTK.Props.C35_success_separates_partial",
    "MLTK.Props.C35_success_classifies_partial",
    "MLTK.Props.C35_expired_timer_refuted"
   ],
   "note": "Proved for every run that executes at least one pass; refuted when the timer expires before the first pass (train returns true without looking at the data)."
  },
  {
   "property": "C36",
   "status": "proved",
   "theorems": [
    "MLTK.Props.C36_mistake_bound",
    "MLTK.Props.C36_converges",
    "MLTK.Props.C36_dual_mistake_bound"
   ],
   "note": "Novikoff bound proved of the training loop over any ordered field, plus convergence to success when the limits allow (R/g)^2 passes, and transfer to the dual trainer. double is modelled as an ordered field."
  },
  {
   "property": "C37",
   "status": "proved",
   "theorems": [
    "MLTK.Props.C37_scan",
    "MLTK.Props.C37_train_agree"
   ],
   "note": "Bisimulation of the two trainers for every scan and for whole runs over the reals (fresh start, labels +-1, presentation order 0..n-1 as the dual trainer uses)."
  },
  {
   "property": "C38",
   "status": "partial",
   "theorems": [
    "MLTK.Props.C38_margin_partial",
    "MLTK.Props.C38_requested_margin_partial",
    "MLTK.Props.C38_infinity_norm_refuted",
    "MLTK.Props.C38_dual_margin_partial",
    "MLTK.Props.C38_dual_fresh_refuted",
    "MLTK.Props.C38_dual_norm_refuted"
   ],
   "note": "Margin and permutation proved for the primal trainer (any q) with the stored norm, which is the q-norm of w for q != -1; refuted for q = -1. Dual trainer: cached values and margin over the stored norm proved; stored norm refuted; with gamma != 0 every fresh run divides by zero."
  },
  {
   "property": "C39",
   "status": "proved",
   "theorems": [
    "MLTK.Props.C39_feasible",
    "MLTK.Props.C39_train"
   ],
   "note": "Every reachable training state (SmoReachable: start, take_step on distinct samples, done marks) and the result of train; labels +1/-1, symmetric matrix, EPS>0, exact arithmetic."
  },
  {
   "property": "C40",
   "status": "proved",
   "theorems": [
    "MLTK.Props.C40_cache"
   ],
   "note": "For every reachable training state."
  },
  {
   "property": "C41",
   "status": "proved",
   "theorems": [
    "MLTK.Props.C41_support_vectors",
    "MLTK.Props.C41_list_operations",
    "MLTK.Props.C41_no_leak"
   ],
   "note": "Support vector list exact in every reachable state; list operations on an explicit heap; train leaks no node."
  },
  {
   "property": "C42",
   "status": "partial",
   "theorems": [
    "MLTK.Props.C42_step_partial",
    "MLTK.Props.C42_train_partial",
    "MLTK.Props.C42_kernels",
    "MLTK.Props.C42_refuted"
   ],
   "note": "Proved (strict increase) when k(x,x)+k(z,z)-2k(x,z)>=0, shown for the built-in kernels; refuted for matrices with positive curvature (wrong term at SMO.hpp:319)."
  },
  {
   "property": "C43",
   "status": "partial",
   "theorems": [
    "MLTK.Props.C43_majority_partial",
    "MLTK.Props.C43_full_matrix_partial",
    "MLTK.Props.C43_triangular_matrix_partial",
    "MLTK.Props.C43_dimension",
    "MLTK.Props.C43_too_few_samples_refuted",
    "MLTK.Props.C43_precompute_refuted",
    "MLTK.Props.C43_triangular_matrix_refuted",
    "MLTK.Props.C43_algorithm_refuted"
   ],
   "note": "Proved: for at least k samples and a strict-weak metric order, evaluate answers the earliest class with most votes among k nearest samples. Refuted: fewer than k samples read past the end; precomputed matrices (stale or triangular) give wrong distances; the algorithm argument is ignored."
  },
  {
   "property": "C44",
   "status": "proved",
   "theorems": [
    "MLTK.Props.C44_train",
    "MLTK.Props.C44_most_duels",
    "MLTK.Props.C44_votes",
    "MLTK.Props.C44_undefeated",
    "MLTK.Props.C44_object"
   ],
   "note": "Training sets, most duels won, vote total and undefeated class, for every number of classes and every pairwise predictor."
  },
  {
   "property": "C45",
   "status": "partial",
   "theorems": [
    "MLTK.Props.C45_train",
    "MLTK.Props.C45_argmax",
    "MLTK.Props.C45_decision_value_partial",
    "MLTK.Props.C45_primal_refuted",
    "MLTK.Props.C45_object"
   ],
   "note": "Proved: training sets, argmax of raw answers, and highest decision value for learners that honour raw_value. Refuted for primal classifiers, which ignore raw_value and answer +-1."
  },
  {
   "property": "C46",
   "status": "proved",
   "theorems": [
    "MLTK.Props.C46_hard",
    "MLTK.Props.C46_soft",
    "MLTK.Props.C46_weights_set",
    "MLTK.Props.C46_committee",
    "MLTK.Props.C46_unknown_label_refuted"
   ],
   "note": "Hard, soft and committee votes; the unknown-label theorem records what happens outside the domain (a voter answering a label that is no class)."
  },
  {
   "property": "C47",
   "status": "partial",
   "theorems": [
    "MLTK.Props.C47_distribution_partial",
    "MLTK.Props.C47_single_sample_refuted",
    "MLTK.Props.C47_single_class_refuted"
   ],
   "note": "Proved for at least two samples and two classes, for every outcome of the learners and every number of rounds. Refuted for a single misclassified sample and for a single class (log 0)."
  },
  {
   "property": "C48",
   "status": "proved",
   "theorems": [
    "MLTK.Props.C48_plurality"
   ],
   "note": "Earliest class with most votes of the estimators."
  },
  {
   "property": "C49",
   "status": "proved",
   "theorems": [
    "MLTK.Props.C49_partition",
    "MLTK.Props.C49_evaluate"
   ],
   "note": "For every dataset, centres and total metric; also the value of the cost."
  },
  {
   "property": "C50",
   "status": "partial",
   "theorems": [
    "MLTK.Props.C50_zero_centre_partial",
    "MLTK.Props.C50_mean_refuted",
    "MLTK.Props.C50_empty_cluster_refuted",
    "MLTK.Props.C50_train_refuted"
   ],
   "note": "Proved: the new centre is the mean when the old centre is zero. Refuted for every other old centre, for empty clusters and for a trained model."
  },
  {
   "property": "C51",
   "status": "partial",
   "theorems": [
    "MLTK.Props.C51_first_call_partial",
    "MLTK.Props.C51_repeated_calls_refuted"
   ],
   "note": "Proved for the first call after training; refuted: call number n lists every sample n times."
  },
  {
   "property": "C52",
   "status": "partial",
   "theorems": [
    "MLTK.Props.C52_transposed_partial",
    "MLTK.Props.C52_total",
    "MLTK.Props.C52_orientation_refuted",
    "MLTK.Props.C52_unknown_answer_refuted"
   ],
   "note": "The matrix is transposed with respect to the documentation (rows are answers): every sample counted once (C52_total), entries characterised (C52_transposed_partial), orientation refuted, unknown answers are counted as the first class (refuted)."
  },
  {
   "property": "C53",
   "status": "partial",
   "theorems": [
    "MLTK.Props.C53_matrix_partial",
    "MLTK.Props.C53_any_matrix",
    "MLTK.Props.C53_accuracy_fraction",
    "MLTK.Props.C53_scale_refuted",
    "MLTK.Props.C53_unknown_answer_refuted",
    "MLTK.Props.C53_empty_refuted"
   ],
   "note": "Matrix accuracy is the percentage of correct answers when answers are classes; accuracy() is a fraction, so the two never agree (refuted); unknown answers and empty data refuted."
  },
  {
   "property": "C54",
   "status": "partial",
   "theorems": [
    "MLTK.Props.C54_metrics_counts_partial",
    "MLTK.Props.C54_metrics_two_classes_partial",
    "MLTK.Props.C54_pipeline_refuted",
    "MLTK.Props.C54_many_classes_refuted",
    "MLTK.Props.C54_zero_denominator_refuted",
    "MLTK.Props.C54_unknown_positive",
    "MLTK.Props.C54_print_refuted",
    "MLTK.Props.C54_classification_counts_partial",
    "MLTK.Props.C54_integer_division_refuted",
    "MLTK.Props.C54_label_count_refuted",
    "MLTK.Props.C54_no_positive_refuted",
    "MLTK.Props.C54_specificity_refuted"
   ],
   "note": "metricsReport: counters and ratios for two classes on a textbook matrix; on the library matrix fp and fn are exchanged (refuted), more classes, zero denominators, print() refuted. classificationReport: counters proved, integer division, label counts other than two, specificity refuted."
  },
  {
   "property": "C55",
   "status": "partial",
   "theorems": [
    "MLTK.Props.C55_error_partial",
    "MLTK.Props.C55_empty_fold_refuted",
    "MLTK.Props.C55_totals_refuted",
    "MLTK.Props.C55_multiclass_totals_refuted"
   ],
   "note": "Error and accuracy proved for non-empty folds; totals are sums of running totals (refuted), zero for more than two classes (refuted), empty folds give NaN (refuted)."
  },
  {
   "property": "C56",
   "status": "proved",
   "theorems": [
    "MLTK.Props.C56_priority_queue"
   ],
   "note": "Every sequence of inserts and pops below capacity, from the empty queue. The values of queued nodes do not change in between (see C89)."
  },
  {
   "property": "C57",
   "status": "partial",
   "theorems": [
    "MLTK.Props.C57_contents_partial",
    "MLTK.Props.C57_order_refuted"
   ],
   "note": "Contents: exactly the pruned nodes are removed and deleted. The order of the queue is lost by cut (refuted with a witness)."
  },
  {
   "property": "C58",
   "status": "partial",
   "theorems": [
    "MLTK.Props.C58_visited_partial",
    "MLTK.Props.C58_unsorted_refuted",
    "MLTK.Props.C58_full_bucket_refuted"
   ],
   "note": "Proved for nodes with sorted features, as the search makes them, up to a full bucket; refuted for unsorted features, and a full bucket exits the program."
  },
  {
   "property": "C59",
   "status": "partial",
   "theorems": [
    "MLTK.Props.C59_golub_partial",
    "MLTK.Props.C59_fisher_partial",
    "MLTK.Props.C59_default_refuted",
    "MLTK.Props.C59_null_refuted",
    "MLTK.Props.C59_small_class_refuted"
   ],
   "note": "Golub and Fisher selection is modelled with the sorting and the trainings as arguments. For a wanted dimension between 1 and dim, scorable data and a classifier, the removed features are the worst by score and the wanted number stays unless a training fails. Refuted for the default dimension 0, the default null classifier and for a class with fewer than two samples."
  },
  {
   "property": "C60",
   "status": "partial",
   "theorems": [
    "MLTK.Props.C60_elimination_partial",
    "MLTK.Props.C60_failed_training_refuted",
    "MLTK.Props.C60_invalid_depth_refuted"
   ],
   "note": "Without cross-validation stop and with every training successful each round removes the features of least absolute weight and the final dimension is reached. Refuted when a later training fails (the whole dataset is returned) and for an invalid depth (an empty dataset)."
  },
  {
   "property": "C61",
   "status": "proved",
   "theorems": [
    "MLTK.Props.C61_mean_of_nearest",
    "MLTK.Props.C61_domain"
   ],
   "note": "Mean target of k nearest samples."
  },
  {
   "property": "C62",
   "status": "partial",
   "theorems": [
    "MLTK.Props.C62_smote_partial",
    "MLTK.Props.C62_between_refuted",
    "MLTK.Props.C62_amount_refuted",
    "MLTK.Props.C62_neighbour_refuted",
    "MLTK.Props.C62_empty_class_refuted"
   ],
   "note": "Proved for every consistent dataset: originals kept, only minority samples appended, their number and form z+a(z-q). Refuted: they never lie between z and its neighbour, the replication factor is ignored, the neighbour is looked up in the wrong dataset and may be a majority sample, an emptied class is taken for the minority."
  },
  {
   "property": "C63",
   "status": "partial",
   "theorems": [
    "MLTK.Props.C63_blobs_partial",
    "MLTK.Props.C63_blobs_refuted",
    "MLTK.Props.C63_drawn_partial",
    "MLTK.Props.C63_drawn_refuted"
   ],
   "note": "Content, order, ids and counts of make_blobs proved for all arguments; each class has the sum of all n_samples entries, so the claim is refuted for more than one non-zero entry; the overload drawing centres is right when the division is exact."
  },
  {
   "property": "C64",
   "status": "partial",
   "theorems": [
    "MLTK.Props.C64_mean",
    "MLTK.Props.C64_var",
    "MLTK.Props.C64_covar",
    "MLTK.Props.C64_var_covar_refuted",
    "MLTK.Props.C64_mean_feature",
    "MLTK.Props.C64_std",
    "MLTK.Props.C64_std_feature",
    "MLTK.Props.C64_var_feature_partial",
    "MLTK.Props.C64_var_feature_refuted"
   ],
   "note": "mean, var, covar, dataset mean and std_dev proved; var(x)=covar(x,x) refuted (n versus n-1); var(data,feat) excludes the feature named feat (exact formula proved, claim refuted)."
  },
  {
   "property": "C65",
   "status": "proved",
   "theorems": [
    "MLTK.Props.C65_normalize"
   ],
   "note": "Over the reals, any q>0, any non-zero point."
  },
  {
   "property": "C66",
   "status": "proved",
   "theorems": [
    "MLTK.Props.C66_dual_evaluates_like_weights",
    "MLTK.Props.C66_sign"
   ],
   "note": ""
  },
  {
   "property": "C67",
   "status": "partial",
   "theorems": [
    "MLTK.Props.C67_direction_margin_partial",
    "MLTK.Props.C67_margins_increase",
    "MLTK.Props.C67_reports_last_success",
    "MLTK.Props.C67_reported_margin_refuted",
    "MLTK.Props.C67_single_class_refuted",
    "MLTK.Props.C67_initial_solution_refuted"
   ],
   "note": "Proved: what is reported is what the last successful round stored; margins strictly increase along every execution; each solution achieves more than the previously reported margin; the reported margin is the best margin of the reported direction. Refuted: with the reported (unshifted) bias the margin is not achieved; single-class data; training with an initial solution reads an empty vector. Flexibility 0 for the positive part."
  },
  {
   "property": "C68",
   "status": "partial",
   "theorems": [
    "MLTK.Props.C68_ids_not_unique",
    "MLTK.Props.C68_ids_unique_partial",
    "MLTK.Props.C68_removal_refuted",
    "MLTK.Props.C68_last_partial"
   ],
   "note": "Proved for insert-only histories with fresh objects, and for all histories whose removals ask for the id of the last sample (or for one not in range). Refuted in general: on every dataset with ids 1..n, the removal of any other sample followed by any insertion gives two samples with the id n."
  },
  {
   "property": "C69",
   "status": "partial",
   "theorems": [
    "MLTK.Props.C69_assignment_shares",
    "MLTK.Props.C69_assignment_independent_refuted"
   ],
   "note": "operator= shares the points: independence refuted; what assignment does share is stated exactly."
  },
  {
   "property": "C70",
   "status": "partial",
   "theorems": [
    "MLTK.Props.C70_norm_partial",
    "MLTK.Props.C70_norm_inf_partial",
    "MLTK.Props.C70_norm_inf_zero_refuted"
   ],
   "note": "Finite orders proved over the reals; maximum norm proved except near zero, where the code returns numeric_limits::min() (refuted for zero points)."
  },
  {
   "property": "C71",
   "status": "partial",
   "theorems": [
    "MLTK.Props.C71_divergences",
    "MLTK.Props.C71_totals_refuted",
    "MLTK.Props.C71_l1",
    "MLTK.Props.C71_squared_chord",
    "MLTK.Props.C71_squared_l2",
    "MLTK.Props.C71_chi",
    "MLTK.Props.C71_entropy",
    "MLTK.Props.C71_inner_product",
    "MLTK.Props.C71_constant_refuted",
    "MLTK.Props.C71_self_refuted",
    "MLTK.Props.C71_negative_refuted",
    "MLTK.Props.C71_jensen_shannon_refuted",
    "MLTK.Props.C71_min_symmetric_refuted",
    "MLTK.Props.C71_hassanat",
    "MLTK.Props.C71_hassanat_refuted"
   ],
   "note": "Proved functor by functor; KullbackLeibler and KDivergence proved to be divergences on positive points with equal totals and refuted without. Lorentzian, NonIntersection, Chord, Bhattacharyya, Average, JensenShannon, JensenDifference, MinSymmetric, AverageL1Linf, KumarJohnson and separation of Hassanat refuted."
  },
  {
   "property": "C72",
   "status": "partial",
   "theorems": [
    "MLTK.Props.C72_matrix_H_partial",
    "MLTK.Props.C72_growing_refuted",
    "MLTK.Props.C72_without_dim_refuted",
    "MLTK.Props.C72_feature_space_norm",
    "MLTK.Props.C72_norm_refuted"
   ],
   "note": "Exact when H is empty or of the same size; growing H refuted (out of bounds); variant without a dimension refuted (asymmetric); featureSpaceNorm proved; norm refuted."
  },
  {
   "property": "C73",
   "status": "partial",
   "theorems": [
    "MLTK.Props.C73_radius2",
    "MLTK.Props.C73_dist_centers",
    "MLTK.Props.C73_without_feats_refuted"
   ],
   "note": "radius (q=2) and distCenters proved; distCentersWithoutFeats refuted: it uses only the listed features (exact formula)."
  },
  {
   "property": "C74",
   "status": "partial",
   "theorems": [
    "MLTK.Props.C74_distribution_counts_partial",
    "MLTK.Props.C74_blank_name_refuted"
   ],
   "note": "Proved for all sequences of non-blank names; a blank name is labelled 0 uncounted (refutation)."
  },
  {
   "property": "C75",
   "status": "proved",
   "theorems": [
    "MLTK.Props.C75_stop"
   ],
   "note": "Return value true implies KKT within 1e-4 or no pair step succeeds, for every sample."
  },
  {
   "property": "C76",
   "status": "partial",
   "theorems": [
    "MLTK.Props.C76_near_one_refuted",
    "MLTK.Props.C76_probability_refuted"
   ],
   "note": "Refuted: the reported value is never below 1-1e-7, whatever the votes."
  },
  {
   "property": "C77",
   "status": "partial",
   "theorems": [
    "MLTK.Props.C77_soft_partial",
    "MLTK.Props.C77_hard_refuted"
   ],
   "note": "Soft voting keeps the ensemble; refuted for hard voting, which overwrites the weights."
  },
  {
   "property": "C78",
   "status": "partial",
   "theorems": [
    "MLTK.Props.C78_alpha_partial",
    "MLTK.Props.C78_weak_learner_refuted"
   ],
   "note": "The code squares the sample weights; refuted with a learner of weighted error 3/4 that gets a positive weight."
  },
  {
   "property": "C79",
   "status": "proved",
   "theorems": [
    "MLTK.Props.C79_boosted_vote"
   ],
   "note": "For every number of estimators, weights and votes."
  },
  {
   "property": "C80",
   "status": "partial",
   "theorems": [
    "MLTK.Props.C80_retrain_partial",
    "MLTK.Props.C80_clusters_refuted"
   ],
   "note": "Proved for retraining right after a converged training; refuted when clusters() is read in between."
  },
  {
   "property": "C81",
   "status": "partial",
   "theorems": [
    "MLTK.Props.C81_random_partial",
    "MLTK.Props.C81_plusplus_partial",
    "MLTK.Props.C81_draw_refuted"
   ],
   "note": "Proved when all draws are valid indices; refuted: the draw may be the size, one past the end."
  },
  {
   "property": "C82",
   "status": "proved",
   "theorems": [
    "MLTK.Props.C82_variance"
   ],
   "note": "For all clusters of valid ids."
  },
  {
   "property": "C83",
   "status": "partial",
   "theorems": [
    "MLTK.Props.C83_assignment_partial",
    "MLTK.Props.C83_cost_refuted"
   ],
   "note": "Refuted with two samples; proved in part: reassigning the samples never raises the cost, it is the new centres that can."
  },
  {
   "property": "C84",
   "status": "partial",
   "theorems": [
    "MLTK.Props.C84_plusplus_refuted",
    "MLTK.Props.C84_different_draws_partial"
   ],
   "note": "Refuted for every dataset; proved in part: exactly the drawn samples become centres, and different draws give different centres."
  },
  {
   "property": "C85",
   "status": "partial",
   "theorems": [
    "MLTK.Props.C85_accuracy_partial",
    "MLTK.Props.C85_positive_labels_refuted"
   ],
   "note": "Holds without positive labels; with positive labels the true negatives are missing from the accuracy (refuted for every such case)."
  },
  {
   "property": "C86",
   "status": "partial",
   "theorems": [
    "MLTK.Props.C86_train_partial",
    "MLTK.Props.C86_dual_refuted"
   ],
   "note": "Holds for classifiers that are not dual; dual classifiers are trained on test and training samples (refuted in general)."
  },
  {
   "property": "C87",
   "status": "partial",
   "theorems": [
    "MLTK.Props.C87_average_partial",
    "MLTK.Props.C87_totals_refuted"
   ],
   "note": "Average error proved; the counters are never accumulated (refuted)."
  },
  {
   "property": "C88",
   "status": "partial",
   "theorems": [
    "MLTK.Props.C88_use_after_free_refuted",
    "MLTK.Props.C88_other_buckets_partial"
   ],
   "note": "Refuted in general: cut deletes nodes that stay in the table, and adding a state to such a bucket reads the deleted node. Proved for additions to buckets without a deleted node."
  },
  {
   "property": "C89",
   "status": "partial",
   "theorems": [
    "MLTK.Props.C89_raise_refuted",
    "MLTK.Props.C89_no_raise_partial"
   ],
   "note": "Refuted with a witness; proved when the queued node is trained or has at least the value of the new one."
  },
  {
   "property": "C90",
   "status": "partial",
   "theorems": [
    "MLTK.Props.C90_full_queue_partial",
    "MLTK.Props.C90_worst_dropped_refuted"
   ],
   "note": "The queue stays in order and the last node is replaced when its value is smaller; that node need not be the worst (refuted with a witness)."
  },
  {
   "property": "C91",
   "status": "partial",
   "theorems": [
    "MLTK.Props.C91_fisher_refuted",
    "MLTK.Props.C91_golub_partial"
   ],
   "note": "Golub scores are the published ones over the reals. Refuted for Fisher: standard deviations are summed instead of variances, and a dataset shows that the better feature is removed."
  },
  {
   "property": "C92",
   "status": "partial",
   "theorems": [
    "MLTK.Props.C92_second_search_refuted",
    "MLTK.Props.C92_second_search_partial"
   ],
   "note": "Refuted when the step does not divide the number of features to remove: the member jump is set to 0 and every later search diverges. Otherwise the object keeps its step."
  },
  {
   "property": "C93",
   "status": "partial",
   "theorems": [
    "MLTK.Props.C93_spirals_partial",
    "MLTK.Props.C93_spirals_refuted"
   ],
   "note": "Proved: n/classes points of every class, n in all when the division is exact. Refuted otherwise (99 for 100 samples in 3 classes; division by zero for no class). Negative class counts not modelled."
  },
  {
   "property": "C94",
   "status": "proved",
   "theorems": [
    "MLTK.Props.C94_regression"
   ],
   "note": "Labels are field elements; random numbers are arguments. The copy into the returned pair is not modelled."
  },
  {
   "property": "C95",
   "status": "partial",
   "theorems": [
    "MLTK.Props.C95_random_subspaces_partial",
    "MLTK.Props.C95_large_fraction_refuted"
   ],
   "note": "Proved for fractions in [0,1] and any sequence of calls; out of bounds read for larger ones."
  },
  {
   "property": "C96",
   "status": "partial",
   "theorems": [
    "MLTK.Props.C96_diverse_subspaces_partial",
    "MLTK.Props.C96_second_call_refuted",
    "MLTK.Props.C96_weight_refuted"
   ],
   "note": "Proved for weights in [0,1] and correlations in [-1,1]: first call for n<=dim, all calls for n<dim. Refuted for a second call with n=dim and for weights outside [0,1]. Correlations are arguments here; what the code computes for them, also for constant features and below -1, is C251."
  },
  {
   "property": "C97",
   "status": "partial",
   "theorems": [
    "MLTK.Props.C97_borderline_partial",
    "MLTK.Props.C97_few_samples_refuted",
    "MLTK.Props.C97_repetition_refuted"
   ],
   "note": "Proved: with enough neighbours features and labels of the originals are kept and everything added is derived from them. Refuted: null dereference with few samples, repeats originals of any class, changes ids."
  },
  {
   "property": "C98",
   "status": "partial",
   "theorems": [
    "MLTK.Props.C98_rule_partial",
    "MLTK.Props.C98_intercept_refuted"
   ],
   "note": "The whole course of the training is characterised (passes, corrections, stopping). Refuted: the intercept moves by the whole error, not rate times it, for every rate other than 1."
  },
  {
   "property": "C99",
   "status": "partial",
   "theorems": [
    "MLTK.Props.C99_converges_partial",
    "MLTK.Props.C99_diverges_refuted",
    "MLTK.Props.C99_oscillates_refuted"
   ],
   "note": "Proved with an explicit bound on the passes when rate*|x|^2 <= rho < 1: distance to every exact function never grows. Refuted for every sample with rate*|x|^2 >= 2 (diverges) and = 1 (settles on a wrong function). Exact arithmetic."
  },
  {
   "property": "C100",
   "status": "partial",
   "theorems": [
    "MLTK.Props.C100_settled_partial",
    "MLTK.Props.C100_always_true_refuted",
    "MLTK.Props.C100_diverged_refuted"
   ],
   "note": "Ending early without the clock means the cost settled; but the answer is true in every case, also after divergence (refuted)."
  },
  {
   "property": "C101",
   "status": "partial",
   "theorems": [
    "MLTK.Props.C101_same_intercept_partial",
    "MLTK.Props.C101_second_training_refuted",
    "MLTK.Props.C101_initial_solution_refuted"
   ],
   "note": "The result depends on the object only through its intercept; that is kept between trainings and initial slopes are discarded (refuted twice)."
  },
  {
   "property": "C102",
   "status": "proved",
   "theorems": [
    "MLTK.Props.C102_evaluate",
    "MLTK.Props.C102_trained"
   ],
   "note": "Every trained regressor and point."
  },
  {
   "property": "C103",
   "status": "proved",
   "theorems": [
    "MLTK.Props.C103_mse",
    "MLTK.Props.C103_empty"
   ],
   "note": "Every pair of points over an ordered field; two empty points give 0/0 (C103_empty)."
  },
  {
   "property": "C104",
   "status": "partial",
   "theorems": [
    "MLTK.Props.C104_balanced_partial",
    "MLTK.Props.C104_evaluate_partial",
    "MLTK.Props.C104_no_epoch_refuted",
    "MLTK.Props.C104_one_class_refuted"
   ],
   "note": "Proved when at least one epoch may run and both classes occur. Refuted with no epoch (true on random weights) and for one class only (bias becomes half of the greatest double)."
  },
  {
   "property": "C105",
   "status": "partial",
   "theorems": [
    "MLTK.Props.C105_converges_partial",
    "MLTK.Props.C105_bias_refuted"
   ],
   "note": "Refuted in general: the bias is multiplied, not trained, so it stays zero; two points on one side of the origin are never separated. Proved with an explicit bound for samples separable through the origin."
  },
  {
   "property": "C106",
   "status": "partial",
   "theorems": [
    "MLTK.Props.C106_separates_partial",
    "MLTK.Props.C106_bias_of_failed_run_refuted",
    "MLTK.Props.C106_trained_again_refuted",
    "MLTK.Props.C106_support_vectors_refuted"
   ],
   "note": "Success with zero Alpha values before gives a separating function with the margin, the reported multipliers are its multipliers above EPS*rate. The bias and support vectors are those of the last, possibly failed, round (refuted); earlier Alpha values are not reset (refuted)."
  },
  {
   "property": "C107",
   "status": "proved",
   "theorems": [
    "MLTK.Props.C107_ends"
   ],
   "note": "At most MAX_IT + 2 rounds, for all earlier Alpha values."
  },
  {
   "property": "C108",
   "status": "partial",
   "theorems": [
    "MLTK.Props.C108_product_weights",
    "MLTK.Props.C108_dual_weight_partial",
    "MLTK.Props.C108_one_label_partial",
    "MLTK.Props.C108_linear_relevance",
    "MLTK.Props.C108_two_labels_refuted",
    "MLTK.Props.C108_polynomial_partial",
    "MLTK.Props.C108_polynomial_refuted"
   ],
   "note": "getDualWeightProdInt proved. getDualWeight: exact formula for inner-product, Gaussian and polynomial kernels; the property holds when all labels agree and the kernel is inner-product or Gaussian, refuted for two classes (the labels are missing above the diagonal) and for the polynomial kernel (one is added to the inner product only when a feature is left out)."
  },
  {
   "property": "C109",
   "status": "partial",
   "theorems": [
    "MLTK.Props.C109_rows_partial",
    "MLTK.Props.C109_sparse_refuted",
    "MLTK.Props.C109_double_blank_refuted",
    "MLTK.Props.C109_regression_refuted"
   ],
   "note": "Refuted: values are stored by position, so rows naming different features mix columns and only the last row's names are kept; a double blank makes the label 0; with two rows or more a regression dataset is turned into a classification dataset with truncated labels. Proved for rows of equal length with single blanks."
  },
  {
   "property": "C110",
   "status": "partial",
   "theorems": [
    "MLTK.Props.C110_round_trip_partial",
    "MLTK.Props.C110_regression_refuted"
   ],
   "note": "Refuted for labels (a label first seen after -1 becomes 1) and for the type of regression datasets. Proved: features, names, ids, dimension always; labels exactly when no label other than 1 and -1 first occurs after -1."
  },
  {
   "property": "C111",
   "status": "partial",
   "theorems": [
    "MLTK.Props.C111_features_partial",
    "MLTK.Props.C111_ids_refuted"
   ],
   "note": "Refuted: the stated ids are ignored, points are numbered by line. Features, labels and names proved."
  },
  {
   "property": "C112",
   "status": "partial",
   "theorems": [
    "MLTK.Props.C112_header_refuted",
    "MLTK.Props.C112_rows_partial",
    "MLTK.Props.C112_regression_refuted",
    "MLTK.Props.C112_class_first_refuted"
   ],
   "note": "Refuted for every file with a declaration line (rejected), for every regression dataset (all labels 0) and for class-first files of three or more columns (write past the end of the point). Proved for files without declarations, class last, classification."
  },
  {
   "property": "C113",
   "status": "partial",
   "theorems": [
    "MLTK.Props.C113_type_partial",
    "MLTK.Props.C113_unknown_partial",
    "MLTK.Props.C113_extensions_partial",
    "MLTK.Props.C113_contains_refuted",
    "MLTK.Props.C113_no_dot_refuted"
   ],
   "note": "Refuted: any extension containing a type name is taken for it; a name without dot is read past its start. Proved: which type is found, for every name with a dot."
  },
  {
   "property": "C114",
   "status": "partial",
   "theorems": [
    "MLTK.Props.C114_name_partial",
    "MLTK.Props.C114_no_extension_partial",
    "MLTK.Props.C114_dots_refuted",
    "MLTK.Props.C114_empty_refuted"
   ],
   "note": "Refuted for stems with dots (cut at the first) and for empty paths (undefined). Proved for all others."
  },
  {
   "property": "C115",
   "status": "proved",
   "theorems": [
    "MLTK.Props.C115_subset"
   ],
   "note": "For the configuration of the constructor (sorting and choice shape 1, no look-ahead, no cross-validation) and datasets with ascending feature names: safety of every completed run, with arbitrary classifier answers and ties."
  },
  {
   "property": "C116",
   "status": "partial",
   "theorems": [
    "MLTK.Props.C116_dimension_partial",
    "MLTK.Props.C116_breadth_refuted",
    "MLTK.Props.C116_never_returns_refuted",
    "MLTK.Props.C116_margin_refuted"
   ],
   "note": "False: no result ever has fewer features than the breadth (default 3), so a smaller final_dim ends in an out-of-range read; with margins that are not positive (perceptron) the search never ends. Proved: if trainings succeed and the queue never fills up, a run that ends returns exactly final_dim features."
  },
  {
   "property": "C117",
   "status": "partial",
   "theorems": [
    "MLTK.Props.C117_heaviest_refuted"
   ],
   "note": "False: the children of a node are made from the largest weights; a completed search always removes a feature among the breadth heaviest ones (with breadth 1: the heaviest)."
  },
  {
   "property": "C118",
   "status": "partial",
   "theorems": [
    "MLTK.Props.C118_second_search_refuted",
    "MLTK.Props.C118_used_object_partial"
   ],
   "note": "False: the level reached is not reset, so the second search returns all features. Proved: a search of a used object returns all features or has removed more features than any search before."
  },
  {
   "property": "C119",
   "status": "proved",
   "theorems": [
    "MLTK.Props.C119_unit_norm",
    "MLTK.Props.C119_direction"
   ],
   "note": "Every non-empty rectangular dataset and p>0 (real arithmetic), samples held twice included; direction for distinct samples."
  },
  {
   "property": "C120",
   "status": "partial",
   "theorems": [
    "MLTK.Props.C120_rest_unchanged_partial",
    "MLTK.Props.C120_names_partial",
    "MLTK.Props.C120_names_refuted",
    "MLTK.Props.C120_twice_refuted"
   ],
   "note": "Frame proved; names 1..n become 1..n+1. The code violates the rest: the new name may repeat an old one, a second call adds a second constant feature (both refuted in general)."
  },
  {
   "property": "C121",
   "status": "partial",
   "theorems": [
    "MLTK.Props.C121_copy_partial",
    "MLTK.Props.C121_assigned_refuted"
   ],
   "note": "Proved for copies in both directions; refuted for assignment (every non-empty dataset)."
  },
  {
   "property": "C122",
   "status": "partial",
   "theorems": [
    "MLTK.Props.C122_equivalence",
    "MLTK.Props.C122_same_features_partial",
    "MLTK.Props.C122_labels_refuted",
    "MLTK.Props.C122_copy_equal_partial",
    "MLTK.Props.C122_copy_equal_refuted"
   ],
   "note": "Equivalence relation and exact meaning of == proved for consistent datasets; labels, ids and multipliers are not compared and copy drops the positive/negative class names (both refuted; exact condition for copies proved)."
  },
  {
   "property": "C123",
   "status": "partial",
   "theorems": [
    "MLTK.Props.C123_filled_partial",
    "MLTK.Props.C123_classes_refuted"
   ],
   "note": "Samples, ids and names proved for all sizes; the class table is empty: counting classes and removing samples write outside it (refuted in general)."
  },
  {
   "property": "C124",
   "status": "proved",
   "theorems": [
    "MLTK.Props.C124_columns"
   ],
   "note": "Every rectangular dataset and column."
  },
  {
   "property": "C125",
   "status": "partial",
   "theorems": [
    "MLTK.Props.C125_changeXVector_refuted"
   ],
   "note": "The code writes through a null pointer for every non-empty dataset (refuted in general); nothing of the property holds."
  },
  {
   "property": "C126",
   "status": "partial",
   "theorems": [
    "MLTK.Props.C126_copyZero_partial",
    "MLTK.Props.C126_isEmpty_refuted",
    "MLTK.Props.C126_samples_refuted"
   ],
   "note": "Proved for default constructed targets except isEmpty(); isEmpty() and non-empty targets refuted."
  },
  {
   "property": "C127",
   "status": "proved",
   "theorems": [
    "MLTK.Props.C127_bootstrap"
   ],
   "note": "sampling at the level of the heap, on top of C13 and C18"
  },
  {
   "property": "C128",
   "status": "partial",
   "theorems": [
    "MLTK.Props.C128_ids_partial",
    "MLTK.Props.C128_refuted"
   ],
   "note": "repeated draws put one object twice into the sample: refuted; proved when nothing is drawn twice"
  },
  {
   "property": "C129",
   "status": "partial",
   "theorems": [
    "MLTK.Props.C129_bagging_partial",
    "MLTK.Props.C129_too_many_refuted"
   ],
   "note": "proved for 1 <= n <= size; more estimators than samples and none at all: undefined behaviour, refuted"
  },
  {
   "property": "C130",
   "status": "partial",
   "theorems": [
    "MLTK.Props.C130_first_only",
    "MLTK.Props.C130_refuted",
    "MLTK.Props.C130_reached_partial"
   ],
   "note": "the samples that can take part are exactly the first ones of each class; the others are out of reach: refuted"
  },
  {
   "property": "C131",
   "status": "partial",
   "theorems": [
    "MLTK.Props.C131_seed_partial",
    "MLTK.Props.C131_setSeed_refuted"
   ],
   "note": "setSeed writes the member of Learner, training reads the one of BaggingClassifier: refuted; proved for seeds given to the constructor"
  },
  {
   "property": "C132",
   "status": "partial",
   "theorems": [
    "MLTK.Props.C132_files_partial",
    "MLTK.Props.C132_same_name_refuted",
    "MLTK.Props.C132_slash_refuted",
    "MLTK.Props.C132_regression_partial",
    "MLTK.Props.C132_regression_refuted"
   ],
   "note": "Proved for class names that differ and have no slash, and for regression datasets without a name. Refuted: classes of the same name overwrite each other's lines; a name with a slash loses its class; the path reported for a named regression dataset does not exist."
  },
  {
   "property": "C133",
   "status": "partial",
   "theorems": [
    "MLTK.Props.C133_legend_partial",
    "MLTK.Props.C133_surface_partial",
    "MLTK.Props.C133_dot_refuted",
    "MLTK.Props.C133_cut_refuted",
    "MLTK.Props.C133_same_title_refuted",
    "MLTK.Props.C133_empty_refuted"
   ],
   "note": "Proved for names without dots (underscores for the decision surface), slashes and repetitions. Refuted: names with dots stop the program, are cut or coincide; empty names read outside a list."
  },
  {
   "property": "C134",
   "status": "partial",
   "theorems": [
    "MLTK.Props.C134_plot2D_partial",
    "MLTK.Props.C134_plot3D_partial",
    "MLTK.Props.C134_same_name_refuted",
    "MLTK.Props.C134_no_file_refuted"
   ],
   "note": "Proved for datasets as in C133. Refuted: two classes of the same name, or no file at all, read outside a list."
  },
  {
   "property": "C135",
   "status": "partial",
   "theorems": [
    "MLTK.Props.C135_line_partial",
    "MLTK.Props.C135_plane_partial",
    "MLTK.Props.C135_vertical_refuted"
   ],
   "note": "Proved when the weight of the vertical axis is not zero (C135_line_partial, C135_plane_partial). Refuted for a vertical line: the formula has no number."
  },
  {
   "property": "C136",
   "status": "partial",
   "theorems": [
    "MLTK.Props.C136_covers_partial",
    "MLTK.Props.C136_tight_partial",
    "MLTK.Props.C136_cut_refuted",
    "MLTK.Props.C136_negative_refuted"
   ],
   "note": "Proved: limits are whole numbers, nothing further out than one half is cut off, whole values are inside, and the limits are tight for scale 1. Refuted: rounding cuts values off; without positive values the upper limit is 0."
  },
  {
   "property": "C137",
   "status": "partial",
   "theorems": [
    "MLTK.Props.C137_history_partial",
    "MLTK.Props.C137_surface_refuted"
   ],
   "note": "Proved for all histories without a decision surface whose files could not be written; refuted for those."
  },
  {
   "property": "C138",
   "status": "partial",
   "theorems": [
    "MLTK.Props.C138_script_partial",
    "MLTK.Props.C138_hyperplane_refuted"
   ],
   "note": "Proved for all calls but plot3DwithHyperplane; refuted for that one: the settings are missing from the text."
  },
  {
   "property": "C139",
   "status": "partial",
   "theorems": [
    "MLTK.Props.C139_terminal_partial",
    "MLTK.Props.C139_title_partial",
    "MLTK.Props.C139_setters_refuted"
   ],
   "note": "Proved for the terminal and the arguments of the call. Refuted: setTitle and setStyle have no effect on any call."
  },
  {
   "property": "C140",
   "status": "partial",
   "theorems": [
    "MLTK.Props.C140_plot2D_partial",
    "MLTK.Props.C140_line_partial",
    "MLTK.Props.C140_plot1D_partial",
    "MLTK.Props.C140_plot1D_refuted"
   ],
   "note": "Proved for plot2DRegresion and plot1DRegresionHyperplane, and for plot1DRegresion with one feature. Refuted: plot1DRegresion always draws column 2."
  },
  {
   "property": "C141",
   "status": "partial",
   "theorems": [
    "MLTK.Props.C141_surface_partial",
    "MLTK.Props.C141_order_refuted",
    "MLTK.Props.C141_same_refuted"
   ],
   "note": "Proved for x < y and the default feature names. Refuted: for x > y the columns are exchanged; for x = y an assertion fails."
  },
  {
   "property": "C142",
   "status": "proved",
   "theorems": [
    "MLTK.Props.C142_own_folder"
   ],
   "note": "For every set of folders; the search for a free number ends (pigeonhole)."
  },
  {
   "property": "C143",
   "status": "partial",
   "theorems": [
    "MLTK.Props.C143_clean_partial",
    "MLTK.Props.C143_other_refuted"
   ],
   "note": "Proved when no plottempN from the counter on exists. Refuted: existing folders passed over while looking for a free name are removed."
  },
  {
   "property": "C144",
   "status": "partial",
   "theorems": [
    "MLTK.Props.C144_in_place_partial",
    "MLTK.Props.C144_sweep_partial",
    "MLTK.Props.C144_dimension_rejected",
    "MLTK.Props.C144_swap_refuted",
    "MLTK.Props.C144_scale_refuted"
   ],
   "note": "Proved for right hand sides that look ahead, with the exact result for all; false when an earlier component is used (p = p[{1,0}], p = p / p[0])."
  },
  {
   "property": "C145",
   "status": "partial",
   "theorems": [
    "MLTK.Props.C145_scalar_partial",
    "MLTK.Props.C145_own_component_partial",
    "MLTK.Props.C145_last_component_partial",
    "MLTK.Props.C145_first_component_refuted",
    "MLTK.Props.C145_fill"
   ],
   "note": "Proved for a scalar outside the point and for filling; p op= p[k] is characterised exactly and is wrong unless k is the last component."
  },
  {
   "property": "C146",
   "status": "partial",
   "theorems": [
    "MLTK.Props.C146_vector_assignment_partial",
    "MLTK.Props.C146_vector_assignment_iff_partial",
    "MLTK.Props.C146_vector_assignment_refuted"
   ],
   "note": "Exact result proved; equal to the vector iff the point was not longer."
  },
  {
   "property": "C147",
   "status": "partial",
   "theorems": [
    "MLTK.Props.C147_plain_partial",
    "MLTK.Props.C147_integer_partial",
    "MLTK.Props.C147_scientific_partial",
    "MLTK.Props.C147_powers_refuted"
   ],
   "note": "Proved for all numbers except the exact powers 10^-k with k at least 9, which are written with the character colon. Exact arithmetic."
  },
  {
   "property": "C148",
   "status": "partial",
   "theorems": [
    "MLTK.Props.C148_round_trip_partial",
    "MLTK.Props.C148_integer_round_trip_partial",
    "MLTK.Props.C148_exponent_lost_refuted"
   ],
   "note": "Proved for the plain notation; every number written with an exponent comes back as its mantissa."
  },
  {
   "property": "C149",
   "status": "proved",
   "theorems": [
    "MLTK.Props.C149_future",
    "MLTK.Props.C149_future_barrier"
   ],
   "note": ""
  },
  {
   "property": "C150",
   "status": "proved",
   "theorems": [
    "MLTK.Props.C150_reset"
   ],
   "note": ""
  },
  {
   "property": "C151",
   "status": "partial",
   "theorems": [
    "MLTK.Props.C151_destructor_partial",
    "MLTK.Props.C151_paused_refuted"
   ],
   "note": "Proved for a pool that is not paused; a paused pool drops the waiting tasks."
  },
  {
   "property": "C152",
   "status": "partial",
   "theorems": [
    "MLTK.Props.C152_throwing_tasks_partial",
    "MLTK.Props.C152_same_schedules_partial",
    "MLTK.Props.C152_raw_refuted"
   ],
   "note": "Proved when every throwing task was given to submit; a throwing task given to push_task ends the process."
  },
  {
   "property": "C153",
   "status": "partial",
   "theorems": [
    "MLTK.Props.C153_settings_partial",
    "MLTK.Props.C153_untrained_partial",
    "MLTK.Props.C153_refuted",
    "MLTK.Props.C153_dual_partial",
    "MLTK.Props.C153_dual_refuted",
    "MLTK.Props.C153_assignment_partial",
    "MLTK.Props.C153_assignment_refuted"
   ],
   "note": "Proved: settings are copied; a copy without a solution answers and trains alike; assignment from a classifier of at least the own dimension. Refuted for every trained primal classifier (the copy answers 0) and every dual one (reads out of bounds), and for assignment to one of higher dimension."
  },
  {
   "property": "C154",
   "status": "partial",
   "theorems": [
    "MLTK.Props.C154_solution_partial",
    "MLTK.Props.C154_refuted",
    "MLTK.Props.C154_constructor_partial",
    "MLTK.Props.C154_dual_constructor_partial",
    "MLTK.Props.C154_dual_initial_partial",
    "MLTK.Props.C154_set_refuted",
    "MLTK.Props.C154_weights_partial"
   ],
   "note": "Proved when the new vectors are not shorter. Refuted in general: the tail of the old weights stays, and the classifier answers 0."
  },
  {
   "property": "C155",
   "status": "partial",
   "theorems": [
    "MLTK.Props.C155_careful_partial",
    "MLTK.Props.C155_smo_partial",
    "MLTK.Props.C155_leak_refuted",
    "MLTK.Props.C155_copy_refuted",
    "MLTK.Props.C155_given_refuted"
   ],
   "note": "Proved for every careful program (SMO copied only before training, own kernels given to others only): no kernel is used or deleted wrongly, and the exact number of allocated kernels. Refuted: copies of a trained SMO, kernels given to an SMO, leaks of the perceptrons and IMA."
  },
  {
   "property": "C156",
   "status": "partial",
   "theorems": [
    "MLTK.Props.C156_smo_partial",
    "MLTK.Props.C156_renewed_partial",
    "MLTK.Props.C156_stale_refuted",
    "MLTK.Props.C156_shared_refuted",
    "MLTK.Props.C156_linear_refuted",
    "MLTK.Props.C156_getter_refuted",
    "MLTK.Props.C156_multiclass_refuted"
   ],
   "note": "Proved for SMO in every program; for the others right after recomputeKernel/setKernelType/setKernelParam in programs that share no kernel. Refuted: retraining after setSamples, copies, one-vs-one and one-vs-all for every number of classes, PerceptronDual without kernel type, getKernelType."
  },
  {
   "property": "C157",
   "status": "partial",
   "theorems": [
    "MLTK.Props.C157_reset_partial",
    "MLTK.Props.C157_dimension_refuted",
    "MLTK.Props.C157_dual_larger_refuted",
    "MLTK.Props.C157_dual_weights_partial",
    "MLTK.Props.C157_refuted",
    "MLTK.Props.C157_dual_refuted"
   ],
   "note": "Proved when weights are set to zeros and the counters to zero first; the weights a dual training leaves are characterised. Refuted: warm start changes the answers, dual weights double, larger samples fail."
  },
  {
   "property": "C158",
   "status": "proved",
   "theorems": [
    "MLTK.Props.C158_batch",
    "MLTK.Props.C158_fault",
    "MLTK.Props.C158_learners"
   ],
   "note": "For learners whose answers do not change by being asked; primal, nearest-neighbour and voting classifiers are shown to be such."
  },
  {
   "property": "C159",
   "status": "partial",
   "theorems": [
    "MLTK.Props.C159_refuted",
    "MLTK.Props.C159_integers_refuted",
    "MLTK.Props.C159_partial"
   ],
   "note": "Refuted: every entry is 0 (no class overrides evaluateProbability, and the result type is Point<int>). Exact rounding proved."
  },
  {
   "property": "C160",
   "status": "partial",
   "theorems": [
    "MLTK.Props.C160_repeated_partial"
   ],
   "note": "Proved for three or more folds in stratified mode or without remainder, for every seed and random device; otherwise already one execution fails (C11)."
  },
  {
   "property": "C161",
   "status": "partial",
   "theorems": [
    "MLTK.Props.C161_reproducible_partial",
    "MLTK.Props.C161_wrap_refuted",
    "MLTK.Props.C161_zero_refuted"
   ],
   "note": "Proved when seed, folds and executions stay within 64 bits; refuted when the sum wraps to zero, and for the default seed zero."
  },
  {
   "property": "C162",
   "status": "partial",
   "theorems": [
    "MLTK.Props.C162_whole_lines_partial",
    "MLTK.Props.C162_progress_partial",
    "MLTK.Props.C162_two_streams_refuted"
   ],
   "note": "Safety and progress proved for one synced_stream; refuted for two objects on the same output."
  },
  {
   "property": "C163",
   "status": "partial",
   "theorems": [
    "MLTK.Props.C163_outside",
    "MLTK.Props.C163_inside_partial",
    "MLTK.Props.C163_answer_refuted",
    "MLTK.Props.C163_empty_refuted",
    "MLTK.Props.C163_source_refuted"
   ],
   "note": "A position outside a non-empty source is refused and nothing changes; inside it the sample is appended and the source keeps its samples (C163_outside, C163_inside_partial). False: a sample of another dimension is not inserted but the answer is true, an empty source is read out of bounds, and without keepIndex the sample is renumbered in the source too."
  },
  {
   "property": "C164",
   "status": "partial",
   "theorems": [
    "MLTK.Props.C164_value_partial",
    "MLTK.Props.C164_order_refuted",
    "MLTK.Props.C164_equal_weights_partial"
   ],
   "note": "What is computed is the share of the dropped weight, times (dim-1)^(1/q), times the margin (C164_value_partial); this is the remaining margin when all weights have the same absolute value (C164_equal_weights_partial), and for different weights the order is turned round (C164_order_refuted)."
  },
  {
   "property": "C165",
   "status": "partial",
   "theorems": [
    "MLTK.Props.C165_removed_refuted",
    "MLTK.Props.C165_step_partial",
    "MLTK.Props.C165_repeated_refuted",
    "MLTK.Props.C165_training_refuted",
    "MLTK.Props.C165_permuted_refuted"
   ],
   "note": "One insertion, one removal or resetIndex keep the passes complete (C165_step_partial). False after a removal (one entry too many), after a removal and two insertions (one sample twice, one never; training does not depend on it), and after a removal from a dataset whose index a trainer permuted (position -1)."
  },
  {
   "property": "C166",
   "status": "partial",
   "theorems": [
    "MLTK.Props.C166_alone_partial",
    "MLTK.Props.C166_last_samples_partial",
    "MLTK.Props.C166_shared_refuted",
    "MLTK.Props.C166_positions_partial"
   ],
   "note": "Proved when no member rearranges the shared dataset, for either setSamples; refuted with a BalancedPerceptron among dual members: it shuffles the shared dataset and the stored multipliers of the others then belong to other samples."
  },
  {
   "property": "C167",
   "status": "partial",
   "theorems": [
    "MLTK.Props.C167_same_partial",
    "MLTK.Props.C167_refuted",
    "MLTK.Props.C167_copy_trained_refuted"
   ],
   "note": "The copy answers the same; refuted afterwards: copies share their members, so training the copy makes the original answer as trained on the samples of the copy."
  },
  {
   "property": "C168",
   "status": "partial",
   "theorems": [
    "MLTK.Props.C168_refuted"
   ],
   "note": "Refuted: the estimators are copies that share their members, so all of them answer as trained on the last sample."
  },
  {
   "property": "C169",
   "status": "partial",
   "theorems": [
    "MLTK.Props.C169_fresh_partial",
    "MLTK.Props.C169_leak_refuted"
   ],
   "note": "Proved for classes whose training starts over (nearest neighbours, balanced perceptron); refuted for the primal perceptron, which keeps the weights of the fold before: reported error 0 instead of 25 per cent."
  },
  {
   "property": "C170",
   "status": "partial",
   "theorems": [
    "MLTK.Props.C170_ovo_partial",
    "MLTK.Props.C170_ovo_from_partial",
    "MLTK.Props.C170_ovo_retrained_partial",
    "MLTK.Props.C170_ovo_refuted",
    "MLTK.Props.C170_ova_partial",
    "MLTK.Props.C170_ova_retrained_partial",
    "MLTK.Props.C170_ova_more_refuted",
    "MLTK.Props.C170_ova_fewer_refuted",
    "MLTK.Props.C170_ova_default_refuted",
    "MLTK.Props.C170_three_classes_refuted"
   ],
   "note": "Proved when the number of classes is the same, also after an earlier training if training a base learner starts over. Refuted otherwise: one-vs-one never answers, one-vs-all never predicts the added classes or faults, a default constructed one-vs-all reports success and always predicts the first class."
  },
  {
   "property": "C171",
   "status": "partial",
   "theorems": [
    "MLTK.Props.C171_ovo_partial",
    "MLTK.Props.C171_ova_partial",
    "MLTK.Props.C171_trained_partial",
    "MLTK.Props.C171_refuted"
   ],
   "note": "Proved with two classes or more (one-vs-all: one or more), also after training; refuted with fewer: reads outside the learners."
  },
  {
   "property": "C172",
   "status": "partial",
   "theorems": [
    "MLTK.Props.C172_features_partial",
    "MLTK.Props.C172_features_at_partial",
    "MLTK.Props.C172_regression_partial",
    "MLTK.Props.C172_counts_refuted",
    "MLTK.Props.C172_classes_refuted",
    "MLTK.Props.C172_arff_refuted"
   ],
   "note": "Proved: components, ids, dimension, feature names and name are those of the file (for .arff if no word is a known class name); targets too for .csv regression data. Refuted: the class table is not cleared, so counts add up, labels differ, and loading an .arff file with named classes twice writes outside the points."
  },
  {
   "property": "C173",
   "status": "partial",
   "theorems": [
    "MLTK.Props.C173_kept_partial",
    "MLTK.Props.C173_constructor",
    "MLTK.Props.C173_constructor_at",
    "MLTK.Props.C173_refuted"
   ],
   "note": "Proved for samples, dimension, feature names and classes; refuted for the name and the type."
  },
  {
   "property": "C174",
   "status": "partial",
   "theorems": [
    "MLTK.Props.C174_subset_partial",
    "MLTK.Props.C174_off",
    "MLTK.Props.C174_least",
    "MLTK.Props.C174_first_only",
    "MLTK.Props.C174_empty_refuted"
   ],
   "note": "proved when trainings on the whole dataset succeed, and for depth 0, with the weights looked at and the features tried named; a training that fails while looking ahead makes the search return an empty dataset (refuted)"
  },
  {
   "property": "C175",
   "status": "partial",
   "theorems": [
    "MLTK.Props.C175_trained_partial",
    "MLTK.Props.C175_ahead_refuted"
   ],
   "note": "proved without look-ahead; with look-ahead the classifier is trained on the data of the parent, so features are returned that were never trained on (refuted)"
  },
  {
   "property": "C176",
   "status": "partial",
   "theorems": [
    "MLTK.Props.C176_ignored_refuted",
    "MLTK.Props.C176_matters"
   ],
   "note": "refuted: with look-ahead the margin is replaced by 0, so the result does not depend on it; without look-ahead it matters"
  },
  {
   "property": "C177",
   "status": "partial",
   "theorems": [
    "MLTK.Props.C177_joined_partial",
    "MLTK.Props.C177_replot_partial",
    "MLTK.Props.C177_file",
    "MLTK.Props.C177_title_refuted",
    "MLTK.Props.C177_lost_refuted",
    "MLTK.Props.C177_multiplot_refuted"
   ],
   "note": "proved for sessions whose texts contain no word taken for a drawing command and that do not use multiplot; refuted for titles with \"plot\" or \"splot\" and for multiplot"
  },
  {
   "property": "C178",
   "status": "partial",
   "theorems": [
    "MLTK.Props.C178_count_partial",
    "MLTK.Props.C178_cleaned_partial",
    "MLTK.Props.C178_destroy_refuted",
    "MLTK.Props.C178_exhausted_refuted",
    "MLTK.Props.C178_twice_refuted",
    "MLTK.Props.C178_descriptors_refuted"
   ],
   "note": "proved for programs in which sessions remove their files once and last (cleaning up: before they are destroyed); refuted for destroyed sessions, repeated removals and descriptors"
  },
  {
   "property": "C179",
   "status": "partial",
   "theorems": [
    "MLTK.Props.C179_written",
    "MLTK.Props.C179_stays_partial",
    "MLTK.Props.C179_foreign_refuted"
   ],
   "note": "written data proved for all drawings; how long they stay for programs in which sessions remove once and last; refuted otherwise"
  },
  {
   "property": "C180",
   "status": "partial",
   "theorems": [
    "MLTK.Props.C180_found",
    "MLTK.Props.C180_pieces",
    "MLTK.Props.C180_set_partial",
    "MLTK.Props.C180_unset_refuted"
   ],
   "note": "the search is proved in full; that a failed attempt to configure a directory changes nothing is refuted"
  },
  {
   "property": "C181",
   "status": "partial",
   "theorems": [
    "MLTK.Props.C181_total",
    "MLTK.Props.C181_queued",
    "MLTK.Props.C181_running_partial",
    "MLTK.Props.C181_between_partial",
    "MLTK.Props.C181_submitting_refuted",
    "MLTK.Props.C181_pushed_refuted",
    "MLTK.Props.C181_wrap_refuted",
    "MLTK.Props.C181_threads_refuted"
   ],
   "note": "get_tasks_total and get_tasks_queued are exact at every moment. get_tasks_running is exact if nothing happens between its two reads and no submission is half way; its value under concurrent work of the threads is given exactly. Refuted: half-done submissions count as running, a submission or a finished task between the reads gives 2^64-1, and the answer can exceed the number of threads."
  },
  {
   "property": "C182",
   "status": "partial",
   "theorems": [
    "MLTK.Props.C182_new",
    "MLTK.Props.C182_into",
    "MLTK.Props.C182_reproducible_partial",
    "MLTK.Props.C182_continues",
    "MLTK.Props.C182_repeat_refuted",
    "MLTK.Props.C182_seed_refuted"
   ],
   "note": "Shape, range, label and the untouched fields are proved for every state of the generator. Reproducible if the seed is not zero modulo 2^32 and not the one in force. A second call with the same seed continues the first one (C182_continues), so it is refuted for repeated seeds, for seed 1 at program start and for multiples of 2^32."
  },
  {
   "property": "C183",
   "status": "partial",
   "theorems": [
    "MLTK.Props.C183_point",
    "MLTK.Props.C183_empty_refuted",
    "MLTK.Props.C183_label_refuted",
    "MLTK.Props.C183_readable_partial",
    "MLTK.Props.C183_dataset",
    "MLTK.Props.C183_layout_partial",
    "MLTK.Props.C183_table_partial",
    "MLTK.Props.C183_names_refuted",
    "MLTK.Props.C183_cut_refuted"
   ],
   "note": "The exact text is proved; points that are both labelled or both unlabelled can be told apart if the number texts can. Refuted: points without components (read out of bounds), labelled against unlabelled points, missing class names, matrices larger than the list of classes."
  },
  {
   "property": "C184",
   "status": "partial",
   "theorems": [
    "MLTK.Props.C184_assign",
    "MLTK.Props.C184_join",
    "MLTK.Props.C184_insert_partial",
    "MLTK.Props.C184_insert_refuted",
    "MLTK.Props.C184_alias_refuted",
    "MLTK.Props.C184_copy_refuted",
    "MLTK.Props.C184_copy_empty",
    "MLTK.Props.C184_classes_refuted",
    "MLTK.Props.C184_classes_into",
    "MLTK.Props.C184_classes_partial",
    "MLTK.Props.C184_index_refuted",
    "MLTK.Props.C184_classes_used_refuted"
   ],
   "note": "Assignment and join with itself are proved equal to using a copy; insertion is proved with keepIndex and shown to renumber the old sample without it, and to leave one shared point; copy into itself reads out of bounds and classesCopy into itself never ends; classesCopy into a new dataset is proved exact and into a used one refuted."
  },
  {
   "property": "C185",
   "status": "partial",
   "theorems": [
    "MLTK.Props.C185_total",
    "MLTK.Props.C185_classes_partial",
    "MLTK.Props.C185_twice_refuted",
    "MLTK.Props.C185_merged_refuted",
    "MLTK.Props.C185_remove_refuted",
    "MLTK.Props.C185_mixed_refuted",
    "MLTK.Props.C185_range_refuted",
    "MLTK.Props.C185_recompute",
    "MLTK.Props.C185_split"
   ],
   "note": "Proved for whole labels; for all labels the counts add up, every whole part is a class, and recomputed counts and parts are characterised exactly. Refuted for labels with fractions: duplicate classes, labels counted together, counts that wrap on removal, undefined conversion beyond the ints."
  },
  {
   "property": "C186",
   "status": "partial",
   "theorems": [
    "MLTK.Props.C186_one_run_partial",
    "MLTK.Props.C186_many_runs_partial",
    "MLTK.Props.C186_same_error_refuted",
    "MLTK.Props.C186_result_refuted",
    "MLTK.Props.C186_weights_refuted",
    "MLTK.Props.C186_step_refuted",
    "MLTK.Props.C186_limit_refuted",
    "MLTK.Props.C186_off"
   ],
   "note": "Proved for one cross-validation per round: the search stops exactly when a validated round shows a rise above the limit. For any number of runs: it never goes on after a rise of the mean above the limit. Refuted: with two or more runs it compares a sum with a single error and stops though nothing changed; the dataset returned after a stop is the one with the high error; weights are those of the last fold; a step of 0 (the default) divides by zero; a negative limit reads out of bounds."
  },
  {
   "property": "C187",
   "status": "partial",
   "theorems": [
    "MLTK.Props.C187_partial",
    "MLTK.Props.C187_length",
    "MLTK.Props.C187_zero_refuted",
    "MLTK.Props.C187_tie_refuted"
   ],
   "note": "Proved when no kept weight is 0 or equal to a removed one; the length is always right. Refuted for zero and for equal weights: weights move to other features and stale values remain."
  },
  {
   "property": "C188",
   "status": "partial",
   "theorems": [
    "MLTK.Props.C188_surface_partial",
    "MLTK.Props.C188_underscore_refuted",
    "MLTK.Props.C188_unopened_refuted"
   ],
   "note": "proved for features x < y, feature names 1..dim, class names without _ and /, files that can be opened; refuted for names with an underscore and for a file that cannot be opened (the script is empty and files stay behind)"
  },
  {
   "property": "C189",
   "status": "partial",
   "theorems": [
    "MLTK.Props.C189_kept_partial",
    "MLTK.Props.C189_taken_refuted",
    "MLTK.Props.C189_other_refuted"
   ],
   "note": "proved for a disk without the names used; refuted when the saved name is taken (files lost) and for a folder plottempN of another program (removed)"
  },
  {
   "property": "C190",
   "status": "partial",
   "theorems": [
    "MLTK.Props.C190_nonneg_partial",
    "MLTK.Props.C190_projection_partial",
    "MLTK.Props.C190_sum_partial",
    "MLTK.Props.C190_sum_refuted",
    "MLTK.Props.C190_single_refuted"
   ],
   "note": "Proved: same length and non-negative for two or more weights; for weights of any sign the answer is the nearest point exactly when its sum is 1 (C190_sum_partial); for non-negative weights (the only ones the code passes) the exact condition on the input under which that is so, otherwise the sum exceeds 1. Refuted: [0, 0.9, 0.9] gives sum 19/15; one weight stops the program."
  },
  {
   "property": "C191",
   "status": "partial",
   "theorems": [
    "MLTK.Props.C191_initial_partial",
    "MLTK.Props.C191_no_search_refuted",
    "MLTK.Props.C191_better_refuted"
   ],
   "note": "Refuted: candidates replace members only when they are not better, so the result is always the best of the initial population (proved for all draws), even when a better weighting was tried. Population size is arbitrary in the model, 1000 in the source."
  },
  {
   "property": "C192",
   "status": "partial",
   "theorems": [
    "MLTK.Props.C192_parents_partial",
    "MLTK.Props.C192_parents_refuted",
    "MLTK.Props.C192_single_refuted"
   ],
   "note": "Proved: drawing parents ends for fair draws iff three other weightings exist. Refuted: a single learner makes the search diverge."
  },
  {
   "property": "C193",
   "status": "partial",
   "theorems": [
    "MLTK.Props.C193_seed_partial",
    "MLTK.Props.C193_device_refuted"
   ],
   "note": "Refuted: the seed is passed as the stratified flag; the split uses the random device. Proved: all seeds other than zero behave alike."
  },
  {
   "property": "C194",
   "status": "partial",
   "theorems": [
    "MLTK.Props.C194_generations_partial",
    "MLTK.Props.C194_perfect_refuted"
   ],
   "note": "Proved: exact number of generations. Refuted: the stop compares a percentage with 1, so perfect weights never stop the search."
  },
  {
   "property": "C195",
   "status": "partial",
   "theorems": [
    "MLTK.Props.C195_sums_partial",
    "MLTK.Props.C195_perfect_refuted",
    "MLTK.Props.C195_nan_refuted",
    "MLTK.Props.C195_kkfold_refuted",
    "MLTK.Props.C195_classes_refuted"
   ],
   "note": "The rates of kfold are sums over the folds of the rates of all answers so far, not averages: a perfect classifier gets the number of folds (C195_perfect_refuted); without a positive answer in the first fold the precision is not a number; with other than two classes, and in kkfold, they are zero."
  },
  {
   "property": "C196",
   "status": "partial",
   "theorems": [
    "MLTK.Props.C196_primal_partial",
    "MLTK.Props.C196_leak_refuted",
    "MLTK.Props.C196_kernel_refuted",
    "MLTK.Props.C196_smo_partial"
   ],
   "note": "A primal classifier is trained on the training part, and SMO with the kernel matrix of its samples; a dual classifier is trained on the held-out samples too (C196_leak_refuted), and perceptrons and IMADual with the kernel matrix of the last fold (C196_kernel_refuted)."
  },
  {
   "property": "C197",
   "status": "partial",
   "theorems": [
    "MLTK.Props.C197_one_operation_partial",
    "MLTK.Props.C197_nested_refuted",
    "MLTK.Props.C197_literal_refuted"
   ],
   "note": "Proved for programs that keep only expressions of one operation on variables. With a nested operand the kept expression can never be used (C197_nested_refuted), nor with a literal operand unless the point is empty (C197_literal_refuted)."
  },
  {
   "property": "C198",
   "status": "partial",
   "theorems": [
    "MLTK.Props.C198_set",
    "MLTK.Props.C198_set_range",
    "MLTK.Props.C198_same_partial",
    "MLTK.Props.C198_counts_refuted",
    "MLTK.Props.C198_dimension_refuted",
    "MLTK.Props.C198_apply",
    "MLTK.Props.C198_apply_partial",
    "MLTK.Props.C198_apply_labels_refuted",
    "MLTK.Props.C198_apply_twice_refuted"
   ],
   "note": "The effect on the samples is proved in full; the bookkeeping is right only for replacements of the same label and dimension, and for functions that keep both on a dataset that holds no sample twice. Refuted otherwise."
  },
  {
   "property": "C199",
   "status": "partial",
   "theorems": [
    "MLTK.Props.C199_partial",
    "MLTK.Props.C199_range",
    "MLTK.Props.C199_single_refuted"
   ],
   "note": "Proved for aligned datasets with more than one feature and lists without repetition; refuted for one feature; other numbers read outside the list."
  },
  {
   "property": "C200",
   "status": "partial",
   "theorems": [
    "MLTK.Props.C200_destroy",
    "MLTK.Props.C200_no_double_delete_partial",
    "MLTK.Props.C200_leak_refuted"
   ],
   "note": "No state is deleted twice, for every search; refuted that all are deleted: of every level reached at least one is left."
  },
  {
   "property": "C201",
   "status": "partial",
   "theorems": [
    "MLTK.Props.C201_fisher_partial",
    "MLTK.Props.C201_golub_refuted",
    "MLTK.Props.C201_golub_blind_refuted",
    "MLTK.Props.C201_golub_nan_refuted",
    "MLTK.Props.C201_missing_refuted",
    "MLTK.Props.C201_balanced_partial",
    "MLTK.Props.C201_unbalanced_refuted"
   ],
   "note": "Shape 6: the key is |w| times squared mean distance over the sum of scatters (C201_fisher_partial), which orders by Fisher's criterion for balanced classes (C201_balanced_partial) and not otherwise (C201_unbalanced_refuted). Shape 5 refuted: only the negative class matters, and small deviations give NaN. A dataset without label 1 or -1 makes an out-of-bounds read."
  },
  {
   "property": "C202",
   "status": "partial",
   "theorems": [
    "MLTK.Props.C202_default",
    "MLTK.Props.C202_value",
    "MLTK.Props.C202_sign_refuted",
    "MLTK.Props.C202_breadth_refuted",
    "MLTK.Props.C202_centers_partial"
   ],
   "note": "Refuted for every sorting shape but 2 and 3: values are negated margins and the breadth is ignored. For shapes 2 and 3 the value of a queued child is as claimed (C202_centers_partial). With another choice shape the branching is the one of C57 and others (C202_default)."
  },
  {
   "property": "C203",
   "status": "partial",
   "theorems": [
    "MLTK.Props.C203_pair",
    "MLTK.Props.C203_agree",
    "MLTK.Props.C203_custom_partial",
    "MLTK.Props.C203_custom_refuted",
    "MLTK.Props.C203_custom_call_refuted",
    "MLTK.Props.C203_forgotten_refuted"
   ],
   "note": "Proved for the built-in kernels (C203_pair, C203_agree) and for symmetric custom functions. Refuted for custom functions that are not symmetric, for calls before the first computation, and after a recomputation without the function."
  },
  {
   "property": "C204",
   "status": "partial",
   "theorems": [
    "MLTK.Props.C204_replaced_refuted",
    "MLTK.Props.C204_kept_partial",
    "MLTK.Props.C204_read"
   ],
   "note": "Refuted: a kernel without a computed matrix replaces the given one. Proved for a kernel that has computed one before (C204_kept_partial) and for reading back (C204_read)."
  },
  {
   "property": "C205",
   "status": "partial",
   "theorems": [
    "MLTK.Props.C205_primal",
    "MLTK.Props.C205_dual",
    "MLTK.Props.C205_fixed_primal",
    "MLTK.Props.C205_fixed_dual",
    "MLTK.Props.C205_ima_fixed",
    "MLTK.Props.C205_within",
    "MLTK.Props.C205_regressor",
    "MLTK.Props.C205_balanced",
    "MLTK.Props.C205_kmeans",
    "MLTK.Props.C205_ima",
    "MLTK.Props.C205_ima_early_refuted",
    "MLTK.Props.C205_ima_cut_refuted",
    "MLTK.Props.C205_unstarted_refuted"
   ],
   "note": "Bounds for all seven learners for arbitrary readings and equality with the unlimited run for the perceptrons; refuted for the incremental margin algorithm (its test adds up cumulative readings, so it stops early) and for the answer of a primal perceptron that made no pass. The time taken by one pass is not modelled."
  },
  {
   "property": "C206",
   "status": "partial",
   "theorems": [
    "MLTK.Props.C206_lp",
    "MLTK.Props.C206_l1_partial",
    "MLTK.Props.C206_inner_product_partial",
    "MLTK.Props.C206_squared_chord_partial",
    "MLTK.Props.C206_squared_l2_partial",
    "MLTK.Props.C206_entropy_partial",
    "MLTK.Props.C206_other_partial",
    "MLTK.Props.C206_instead_partial",
    "MLTK.Props.C206_hassanat_partial",
    "MLTK.Props.C206_formula_refuted"
   ],
   "note": "Proved for 24 functors; ten (Lorentzian, NonIntersection, JensenDifference, Chord, Bhattacharyya, Clark, Average, JensenShannon, MinSymmetric, KumarJohnson) and Hassanat with negative components compute something else, which is proved too. Chebyshev is in C29. Over the reals; divisions by zero excluded by positivity."
  },
  {
   "property": "C207",
   "status": "partial",
   "theorems": [
    "MLTK.Props.C207_labels_partial",
    "MLTK.Props.C207_initial_margin_refuted",
    "MLTK.Props.C207_flexible_refuted"
   ],
   "note": "Proved for flexibility 0 and a solution margin of absolute value at most the trained margin (0 unless an initial solution brings one, since training never sets it). Refuted for a larger initial margin and for positive flexibility."
  },
  {
   "property": "C208",
   "status": "partial",
   "theorems": [
    "MLTK.Props.C208_members",
    "MLTK.Props.C208_vote",
    "MLTK.Props.C208_labels_partial",
    "MLTK.Props.C208_reported_refuted",
    "MLTK.Props.C208_classes_refuted"
   ],
   "note": "Training never fails on samples of the right dimension, trains every member on a permutation of all samples, and the answer is a class with most votes; if the limits allow every member to converge the training samples are answered by their labels. Refuted in general: train always answers true, whatever its members answered, and with classes other than 1 and -1 a vote is written out of bounds."
  },
  {
   "property": "C209",
   "status": "partial",
   "theorems": [
    "MLTK.Props.C209_ignored_refuted",
    "MLTK.Props.C209_device_refuted"
   ],
   "note": "Refuted: the seed of the committee is never used; the members are made with seed 0, that is with numbers of std::random_device, and two trainings with the same seed can end with different members."
  },
  {
   "property": "C210",
   "status": "proved",
   "theorems": [
    "MLTK.Props.C210_one_vs_one",
    "MLTK.Props.C210_one_vs_all"
   ],
   "note": "For datasets whose bookkeeping is right (C01); base classifiers are arbitrary functions of their training samples."
  },
  {
   "property": "C211",
   "status": "proved",
   "theorems": [
    "MLTK.Props.C211_own_label"
   ],
   "note": "For every functor that computes a distance and every std::nth_element."
  },
  {
   "property": "C212",
   "status": "partial",
   "theorems": [
    "MLTK.Props.C212_unweighted_refuted",
    "MLTK.Props.C212_same_answers_refuted"
   ],
   "note": "Refuted: estimator i is what the base estimator makes of the samples and seed+i; the weights reach no estimator, so with a base estimator that ignores its seed the ensemble answers what a single one answers."
  },
  {
   "property": "C213",
   "status": "partial",
   "theorems": [
    "MLTK.Props.C213_answers_partial",
    "MLTK.Props.C213_large_features_refuted"
   ],
   "note": "Proved: answers are the side of the decision function of the last state, and after success a sample answered wrongly has its multiplier at C or takes part in no pair step any more. Refuted in general: for features of size 1e7 the first step counts as no change, success is reported and a sample is answered wrongly."
  },
  {
   "property": "C214",
   "status": "partial",
   "theorems": [
    "MLTK.Props.C214_int_partial",
    "MLTK.Props.C214_undefined_refuted",
    "MLTK.Props.C214_double"
   ],
   "note": "Proved for doubles by a nonzero int and for ints by a nonzero divisor; refuted for ints by 0 and INT_MIN by -1 (undefined behaviour). Point<double> % double does not compile and is not modelled."
  },
  {
   "property": "C215",
   "status": "proved",
   "theorems": [
    "MLTK.Props.C215_split_sizes"
   ],
   "note": "All operations are those of IEEE double as modelled in Model/Double."
  },
  {
   "property": "C216",
   "status": "partial",
   "theorems": [
    "MLTK.Props.C216_sampling_partial",
    "MLTK.Props.C216_share_refuted"
   ],
   "note": "Within one sample of the share, for datasets of at most 2^50 samples; the exact share is refuted (15 of 22)."
  },
  {
   "property": "C217",
   "status": "partial",
   "theorems": [
    "MLTK.Props.C217_random_subspaces_partial",
    "MLTK.Props.C217_count_refuted"
   ],
   "note": "Same number each time, all different, within [r*dims - 1/2, r*dims + 3/2); the exact ceiling is refuted (7.0/25 of 25 gives 8)."
  },
  {
   "property": "C218",
   "status": "partial",
   "theorems": [
    "MLTK.Props.C218_linspace_partial",
    "MLTK.Props.C218_last_refuted"
   ],
   "note": "Count, first element and order; the last element is refuted."
  },
  {
   "property": "C219",
   "status": "partial",
   "theorems": [
    "MLTK.Props.C219_answers_partial",
    "MLTK.Props.C219_nan_refuted"
   ],
   "note": "For samples whose computed value is not NaN; a run that ends in NaN and answers a sample wrongly refutes the rest."
  },
  {
   "property": "C220",
   "status": "partial",
   "theorems": [
    "MLTK.Props.C220_integer_partial",
    "MLTK.Props.C220_converges_refuted"
   ],
   "note": "Integer features, rate a power of one half and a bound that keeps every value below 2^53; refuted in general by two samples on a line."
  },
  {
   "property": "C221",
   "status": "partial",
   "theorems": [
    "MLTK.Props.C221_box_partial",
    "MLTK.Props.C221_balance_refuted",
    "MLTK.Props.C221_nan_refuted",
    "MLTK.Props.C221_separates_refuted"
   ],
   "note": "Proved: the call returns, frees its nodes, and each multiplier is a double of [0, 9999] or NaN. False and refuted by whole trainings: that no multiplier is NaN, that they balance, and that success separates."
  },
  {
   "property": "C222",
   "status": "proved",
   "theorems": [
    "MLTK.Props.C222_accuracy",
    "MLTK.Props.C222_order",
    "MLTK.Props.C222_percentage",
    "MLTK.Props.C222_empty_refuted",
    "MLTK.Props.C222_complement"
   ],
   "note": "Refuted only for an empty confusion matrix (0/0)."
  },
  {
   "property": "C223",
   "status": "partial",
   "theorems": [
    "MLTK.Props.C223_kfold",
    "MLTK.Props.C223_repeated",
    "MLTK.Props.C223_empty_refuted",
    "MLTK.Props.C223_average_refuted"
   ],
   "note": "The bounds, the ends and the sum are proved for non-empty folds. Refuted: numbers at all when a fold is empty, and that the error of kkfold is the average (it is computed as 100-(100-average))."
  },
  {
   "property": "C224",
   "status": "partial",
   "theorems": [
    "MLTK.Props.C224_manhattan",
    "MLTK.Props.C224_triangle_refuted",
    "MLTK.Props.C224_chebyshev_partial",
    "MLTK.Props.C224_chebyshev_refuted",
    "MLTK.Props.C224_euclidean_partial",
    "MLTK.Props.C224_euclidean_refuted",
    "MLTK.Props.C224_sizes"
   ],
   "note": "Manhattan: nonnegative, symmetric, zero exactly for equal points; the triangle inequality is refuted. Chebyshev: largest rounded difference, but never below the least normal number (refuted: zero for equal points). Euclidean: symmetric, zero root for equal points; refuted: different points can have it too. sqrt is a parameter."
  },
  {
   "property": "C225",
   "status": "partial",
   "theorems": [
    "MLTK.Props.C225_nonneg",
    "MLTK.Props.C225_whole_partial",
    "MLTK.Props.C225_constant_refuted",
    "MLTK.Props.C225_differ_refuted"
   ],
   "note": "Never NaN or negative for all finite values; the rest for whole numbers with magnitudes adding up to at most 2^53, refuted for values such as 0.1 and for underflowing squares."
  },
  {
   "property": "C226",
   "status": "partial",
   "theorems": [
    "MLTK.Props.C226_majority",
    "MLTK.Props.C226_own_label",
    "MLTK.Props.C226_own_label_refuted"
   ],
   "note": "Majority among the nearest for every metric with nonnegative or infinite values; own label for Manhattan, refuted for Euclidean (underflow)."
  },
  {
   "property": "C227",
   "status": "partial",
   "theorems": [
    "MLTK.Props.C227_kernel_symmetric",
    "MLTK.Props.C227_answers_partial",
    "MLTK.Props.C227_nan_refuted"
   ],
   "note": "For every kernel of the library, unless the value computed for the sample is NaN; refuted with NaN. Symmetry of the kernels is proved in full."
  },
  {
   "property": "C228",
   "status": "partial",
   "theorems": [
    "MLTK.Props.C228_integer_partial",
    "MLTK.Props.C228_converges_refuted"
   ],
   "note": "Integer features within the bound and a rate that is a power of one half; refuted in general (samples 2^60 and 1)."
  },
  {
   "property": "C229",
   "status": "partial",
   "theorems": [
    "MLTK.Props.C229_assign",
    "MLTK.Props.C229_evaluate",
    "MLTK.Props.C229_training_ends_refuted",
    "MLTK.Props.C229_training_ends_euclidean_refuted",
    "MLTK.Props.C229_emptied_cluster_refuted"
   ],
   "note": "Assignment and evaluation are proved for every metric whose values are numbers; that training ends is refuted, and so is the answer of evaluate after a cluster ran empty."
  },
  {
   "property": "C230",
   "status": "partial",
   "theorems": [
    "MLTK.Props.C230_soft",
    "MLTK.Props.C230_boost",
    "MLTK.Props.C230_hard",
    "MLTK.Props.C230_near_greatest_partial",
    "MLTK.Props.C230_greatest_refuted",
    "MLTK.Props.C230_tie_refuted",
    "MLTK.Props.C230_one_vs_all",
    "MLTK.Props.C230_nan_refuted"
   ],
   "note": "The greatest total of the sums as rounded is proved, and the exact totals up to the rounding of one part in 2^53 per voter; the exact greatest total, ties and NaN values are refuted."
  },
  {
   "property": "C231",
   "status": "partial",
   "theorems": [
    "MLTK.Props.C231_order_partial",
    "MLTK.Props.C231_sum_norm_partial",
    "MLTK.Props.C231_overflow_refuted",
    "MLTK.Props.C231_dataset_refuted",
    "MLTK.Props.C231_unit_refuted"
   ],
   "note": "Order and signs are proved for every norm that is a positive number, the bounds for the sum norm; unit norm, repeated normalising and points of very large or small components are refuted."
  },
  {
   "property": "C232",
   "status": "partial",
   "theorems": [
    "MLTK.Props.C232_nan_refuted",
    "MLTK.Props.C232_overflow_refuted",
    "MLTK.Props.C232_fixed_point_partial"
   ],
   "note": "Fixed point proved; finiteness refuted: NaN in the data or a diverging rate leave NaN everywhere and train still returns true."
  },
  {
   "property": "C233",
   "status": "partial",
   "theorems": [
    "MLTK.Props.C233_mean_partial",
    "MLTK.Props.C233_between_refuted",
    "MLTK.Props.C233_domain"
   ],
   "note": "Proved for whole-numbered targets with sums within 2^53; in general the rounded mean can exceed every target or overflow (refuted)."
  },
  {
   "property": "C234",
   "status": "partial",
   "theorems": [
    "MLTK.Props.C234_perfect_partial",
    "MLTK.Props.C234_one_class_refuted"
   ],
   "note": "Proved for at least two classes and at most 2^52 samples; with a single class every weight becomes NaN (refuted)."
  },
  {
   "property": "C235",
   "status": "partial",
   "theorems": [
    "MLTK.Props.C235_norm_partial",
    "MLTK.Props.C235_norm_refuted"
   ],
   "note": "proved for whole-numbered features and multipliers and the inner product kernel, where nothing is rounded; in general the number under the root can be negative and the norm NaN (C235_norm_refuted)"
  },
  {
   "property": "C236",
   "status": "partial",
   "theorems": [
    "MLTK.Props.C236_gaussian_partial",
    "MLTK.Props.C236_matrix_partial",
    "MLTK.Props.C236_distinct_refuted",
    "MLTK.Props.C236_zero_refuted"
   ],
   "note": "proved for finite features and a positive parameter; different points can have the value 1, and with parameter 0 the value can be NaN (refuted)"
  },
  {
   "property": "C237",
   "status": "partial",
   "theorems": [
    "MLTK.Props.C237_number_partial",
    "MLTK.Props.C237_order_partial",
    "MLTK.Props.C237_constant_refuted",
    "MLTK.Props.C237_order_refuted",
    "MLTK.Props.C237_single_refuted"
   ],
   "note": "proved for whole-valued features that vary within a class with at least two samples in each; a constant feature scores NaN in every dataset, which breaks the order std::sort requires, and with one negative sample all scores are NaN (refuted)"
  },
  {
   "property": "C238",
   "status": "partial",
   "theorems": [
    "MLTK.Props.C238_margin_partial",
    "MLTK.Props.C238_labels_partial",
    "MLTK.Props.C238_nan_refuted"
   ],
   "note": "proved unless one of the compared values is NaN; NaN multipliers make training report success on a point with two labels (C238_nan_refuted)"
  },
  {
   "property": "C239",
   "status": "partial",
   "theorems": [
    "MLTK.Props.C239_nearest_partial",
    "MLTK.Props.C239_exact_partial",
    "MLTK.Props.C239_digits_refuted",
    "MLTK.Props.C239_places_refuted",
    "MLTK.Props.C239_nan_refuted"
   ],
   "note": "Nearest double for decimals whose digits form an integer of at most 2^53 with at most 22 places; false beyond: with 16 digits, with 23 places, and NaN with 309 zeros after the point. Exponents are ignored (C22)."
  },
  {
   "property": "C240",
   "status": "partial",
   "theorems": [
    "MLTK.Props.C240_whole_partial",
    "MLTK.Props.C240_fraction_refuted",
    "MLTK.Props.C240_digit_refuted",
    "MLTK.Props.C240_words_refuted"
   ],
   "note": "Proved for whole numbers below 10^14 and above -10^9, for every library with exact whole powers of ten and right whole logarithms. Refuted: 0.3 comes back as 0.299999999, the double below 0.00001 is written with a colon, NaN and infinities come back as 0."
  },
  {
   "property": "C241",
   "status": "partial",
   "theorems": [
    "MLTK.Props.C241_canberra_partial",
    "MLTK.Props.C241_squared_partial",
    "MLTK.Props.C241_divergence_partial",
    "MLTK.Props.C241_average_partial",
    "MLTK.Props.C241_canberra_bound",
    "MLTK.Props.C241_common_zero_refuted",
    "MLTK.Props.C241_single_partial",
    "MLTK.Props.C241_range_refuted"
   ],
   "note": "Proved for components of moderate size (up to 2^1022, for Divergence zero or between 2^-500 and 2^500) with no place where both are zero, AvgManhattan and SquaredEuclidean without that condition; refuted in general: a common zero makes six functors NaN for every such pair, and so do an underflowing or overflowing denominator."
  },
  {
   "property": "C242",
   "status": "partial",
   "theorems": [
    "MLTK.Props.C242_weights_partial",
    "MLTK.Props.C242_better_partial",
    "MLTK.Props.C242_only_mistakes_refuted"
   ],
   "note": "Proved for weights of at least 2^-300, estimators of weight at least zero with exp up to 2^300, and errors from 2^-1000 to below 1; refuted in general: a single sample that is mistaken gives an estimator weight of -inf and a NaN sample weight."
  },
  {
   "property": "C243",
   "status": "partial",
   "theorems": [
    "MLTK.Props.C243_margins_partial",
    "MLTK.Props.C243_reports_last",
    "MLTK.Props.C243_reported_margin_refuted",
    "MLTK.Props.C243_single_class_refuted"
   ],
   "note": "Proved for rounds whose numbers are usable (positive norm, multipliers that are numbers, no NaN value): every stored solution separates the samples and the reported margins never decrease; provenance of the result in full. Refuted: the reported margin is not attained and evaluate mislabels a training sample; one class alone reports half of DBL_MAX."
  },
  {
   "property": "C244",
   "status": "partial",
   "theorems": [
    "MLTK.Props.C244_answers_partial",
    "MLTK.Props.C244_any_margin_refuted",
    "MLTK.Props.C244_drift_refuted"
   ],
   "note": "Proved: with whole-number samples, the inner product kernel, a rate (1/2)^k, no margin asked for and updates x (1 + features x X^2) <= 2^53, the kept value of each sample is exactly the one evaluate computes and evaluate answers its label. Refuted: asked for any positive margin, a fresh classifier reports success on every data set with NaN everywhere and answers -1 for every point; and two samples with fractional features on which training succeeds and evaluate answers one of them wrongly. Missing: other kernels, rates and values, which the refutations show fail in general."
  },
  {
   "property": "C245",
   "status": "partial",
   "theorems": [
    "MLTK.Props.C245_margins_partial",
    "MLTK.Props.C245_reports_last",
    "MLTK.Props.C245_ends",
    "MLTK.Props.C245_bias_refuted",
    "MLTK.Props.C245_support_refuted"
   ],
   "note": "Proved: training ends for every data set, kernel and clock when EPS > 0; the margin and the multipliers are those of the last successful round; with usable numbers (positive norm, kept values that are numbers) the margins never decrease and every kept value is at least the reported margin beyond the boundary. Refuted: the bias and the support vectors reported are those of the failed last run, so evaluate can answer a training sample wrongly and a multiplier 1 can come with an empty list of support vectors. Missing: the values kept are not the ones evaluate computes (C244), and runs whose norm or values stop being numbers."
  },
  {
   "property": "C246",
   "status": "partial",
   "theorems": [
    "MLTK.Props.C246_answers_partial",
    "MLTK.Props.C246_middle_partial",
    "MLTK.Props.C246_finite",
    "MLTK.Props.C246_overflow_refuted",
    "MLTK.Props.C246_balance_refuted",
    "MLTK.Props.C246_no_epoch_refuted"
   ],
   "note": "proved for every data set, rate and limits when the bias left is finite (C246_answers_partial), which it is if some sample of each class has a value of at most 2^1022 (C246_finite); the hyperplane is in the middle up to an explicit rounding error (C246_middle_partial) but not exactly (C246_balance_refuted); beyond 2^1022 the sum of the margins overflows and labels are answered wrong; with no epoch allowed the claim is false as in C104"
  },
  {
   "property": "C247",
   "status": "partial",
   "theorems": [
    "MLTK.Props.C247_majority_partial",
    "MLTK.Props.C247_half_refuted",
    "MLTK.Props.C247_overflow_refuted"
   ],
   "note": "train returns true whatever its members answer; proved if the training of more than half of the members succeeded with a finite bias (at most 2^53 members); false for half of them (C247_half_refuted) and for values whose margins overflow (C247_overflow_refuted)"
  },
  {
   "property": "C248",
   "status": "partial",
   "theorems": [
    "MLTK.Props.C248_radius",
    "MLTK.Props.C248_drop",
    "MLTK.Props.C248_largest",
    "MLTK.Props.C248_centres_exchange",
    "MLTK.Props.C248_centres_partial",
    "MLTK.Props.C248_one_class_refuted",
    "MLTK.Props.C248_covariance",
    "MLTK.Props.C248_equal_refuted",
    "MLTK.Props.C248_overflow_refuted",
    "MLTK.Props.C248_variance_refuted"
   ],
   "note": "Proved: C248_radius and C248_largest (bounds, attained, never NaN), C248_drop (leaving out a feature), C248_centres_exchange, C248_covariance. distCenters is never NaN exactly when no feature overflows to the same infinity in both classes and both classes occur (C248_centres_partial). Refuted: equal samples have radius zero (C248_equal_refuted), one class only (C248_one_class_refuted), overflow (C248_overflow_refuted), covar(p,p) is var(p) (C248_variance_refuted)."
  },
  {
   "property": "C249",
   "status": "partial",
   "theorems": [
    "MLTK.Props.C249_prefix_partial",
    "MLTK.Props.C249_regression_partial",
    "MLTK.Props.C249_lost_samples_refuted",
    "MLTK.Props.C249_old_file_refuted",
    "MLTK.Props.C249_cut_number_refuted",
    "MLTK.Props.C249_first_line_partial",
    "MLTK.Props.C249_sign_refuted"
   ],
   "note": "Proved for every crash point and every previous content. After the first line: load refuses the file or does exactly what it does with a complete file of the first samples, where only the last feature of the last sample may have lost digits. Within the first line: one sample is loaded, made of the first numbers of that line. Refuted: lost samples go unnoticed (for every dataset and every number of samples), a cut number is read as another one, a cut first line as another dimension, a class cut to its sign ends the program (for every dataset whose first label is negative), and the old content is gone once the file is opened. Values are integers below a million in size."
  },
  {
   "property": "C250",
   "status": "partial",
   "theorems": [
    "MLTK.Props.C250_prefix_partial",
    "MLTK.Props.C250_label_refuted",
    "MLTK.Props.C250_sign_refuted"
   ],
   "note": "Proved for every crash point after the first line: load refuses the file or loads the samples whose lines have reached it and at most one more; names, dimension, ids, all features but the last one of the last sample and all labels but the last are right, and the last label is right and the last feature a beginning of the number written unless that feature is read as 0. Refuted: a cut feature name becomes the label of the last sample; a negative name cut to its sign ends the program. Values are integers below a million in size."
  },
  {
   "property": "C251",
   "status": "partial",
   "theorems": [
    "MLTK.Props.C251_subspaces_partial",
    "MLTK.Props.C251_later_partial",
    "MLTK.Props.C251_second_refuted",
    "MLTK.Props.C251_constant_partial",
    "MLTK.Props.C251_constant_refuted",
    "MLTK.Props.C251_first_refuted",
    "MLTK.Props.C251_negative_refuted"
   ],
   "note": "Proved for the first call (n <= dim) and for all later calls, with any changes of the weight in [0,1] (n < dim), if every computed correlation is a number between -1.0009 and 4. Refuted: a constant feature (correlation NaN, proved for integer values and any labels) that is not the first is in no subspace, so asking for all features gives repetitions (every dataset, weight and k); if it is the first, every subspace starts with it; two samples with correlation -2 give the same feature twice, because covar and std_dev use different divisors; and a second call with n = dim repeats a feature. The square root is a parameter."
  },
  {
   "property": "C252",
   "status": "partial",
   "theorems": [
    "MLTK.Props.C252_sorted_partial",
    "MLTK.Props.C252_not_low_partial",
    "MLTK.Props.C252_order_refuted",
    "MLTK.Props.C252_reverse_refuted"
   ],
   "note": "Proved for subspaces whose features are in increasing order; in any order the diversity is never too low. Refuted for all sets of features held in increasing order by one subspace and in decreasing order by the other (a single common feature is counted), and for a run of DSM that leaves the same features in different orders: the code calls std::set_intersection on unsorted ranges (outside its precondition; modelled as the usual merge)."
  },
  {
   "property": "C253",
   "status": "proved",
   "theorems": [
    "MLTK.Props.C253_feature"
   ],
   "note": "For one to 2^53 subspaces of any content."
  }
 ]
}