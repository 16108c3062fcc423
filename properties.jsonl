{"id": "C01", "title": "Insertion keeps the dataset's bookkeeping consistent", "statement": "Starting from an empty classification dataset, after any sequence of insertPoint calls: size() is the number of accepted points, the points are stored in insertion order, accepted points without keepIndex get ids 1..n in order, classes() lists every label seen exactly once in order of first appearance, classesDistribution()[i] is the exact number of points with label classes()[i], and the index vector is 0..n-1.", "quantifier": "every finite sequence of points (any dimension, label, id), any keepIndex flags", "why_tests_cant": "histories are unbounded; the class table is updated incrementally so errors only surface for particular label orders", "anchors": ["subprojects/ufjfmltk-core/include/ufjfmltk/core/Data.hpp: Data::insertPoint, Data::classes, Data::classesDistribution, Data::size"]}
{"id": "C02", "title": "A point of the wrong dimension never enters a dataset", "statement": "insertPoint returns false and leaves the dataset (points, feature names, class tables, counts) and the point unchanged exactly when the dataset is non-empty and the point's dimension differs from the dataset's; therefore all stored points always share one dimension, equal to dim().", "quantifier": "every dataset reached by insertions, every point", "why_tests_cant": "all reachable datasets and all dimensions", "anchors": ["subprojects/ufjfmltk-core/include/ufjfmltk/core/Data.hpp: Data::insertPoint, Data::dim"]}
{"id": "C03", "title": "removePoint removes exactly the requested point", "statement": "On a dataset with at least two points, removing an id that is present returns true, deletes the first point with that id and nothing else, keeps the order of the others, decrements exactly that label's count and shrinks size() by one; asking for an id that is not present must return false and change nothing.", "quantifier": "every consistent dataset and every id", "why_tests_cant": "the not-found branch and the class counters depend on arbitrary histories of earlier removals", "anchors": ["subprojects/ufjfmltk-core/include/ufjfmltk/core/Data.hpp: Data::removePoint"]}
{"id": "C04", "title": "removePoints removes all and only the listed ids and reports the missing ones", "statement": "removePoints(ids) on a dataset deletes exactly the points whose id is listed, keeps the order of the others, and the returned flags mark exactly the listed ids that were not present.", "quantifier": "every dataset and every list of ids", "why_tests_cant": "arbitrary subsets, duplicates and order of ids", "anchors": ["subprojects/ufjfmltk-core/include/ufjfmltk/core/Data.hpp: Data::removePoints"]}
{"id": "C05", "title": "A copied dataset is independent of the original", "statement": "After b = a.copy() (or b.join(a)), no sequence of modifications of points through b changes any point observable through a, and vice versa; right after the copy both show the same feature values, labels, ids and alphas in the same order.", "quantifier": "every dataset, every later sequence of writes through the copy or the original", "why_tests_cant": "aliasing bugs depend on the write history after the copy", "anchors": ["subprojects/ufjfmltk-core/include/ufjfmltk/core/Data.hpp: Data::copy, Data::operator=, Data::join, Data::insertPoint"]}
{"id": "C06", "title": "Building a dataset from another one does not disturb the source", "statement": "Inserting points of a dataset a into another dataset b (insertPoint by pointer or index, splitSample, kfoldsplit, partTrainTest) leaves every value observable through a, ids included, unchanged.", "quantifier": "every source dataset, every sequence of insertions, every value of keepIndex", "why_tests_cant": "needs all aliasing configurations and all histories", "anchors": ["subprojects/ufjfmltk-core/include/ufjfmltk/core/Data.hpp: Data::insertPoint, Data::splitSample"]}
{"id": "C07", "title": "join appends the other dataset's samples and keeps class counts right", "statement": "a.join(b) with b of a's dimension leaves a's own points first and in order followed by (copies of) b's points in order with ids kept; classes() becomes a's classes plus the classes of b that a lacked, without repetition; the class distribution of the result equals the per-class count of its points.", "quantifier": "every pair of consistent datasets, whether built by insertion or loaded", "why_tests_cant": "depends on the cached-distribution flag and on the class overlap of arbitrary pairs", "anchors": ["subprojects/ufjfmltk-core/include/ufjfmltk/core/Data.hpp: Data::join, Data::computeClassesDistribution"]}
{"id": "C08", "title": "Shuffling only permutes", "statement": "shuffle reorders the points by some permutation: no sample is lost, duplicated or altered, size, classes and class counts stay the same and the index is reset to 0..n-1.", "quantifier": "every dataset, every outcome of the random generator", "why_tests_cant": "all permutations the generator can produce", "anchors": ["subprojects/ufjfmltk-core/include/ufjfmltk/core/Data.hpp: Data::shuffle"]}
{"id": "C09", "title": "Stratified split is a balanced partition", "statement": "splitSample(k, stratified=true), k>=1, yields k parts that together contain every sample exactly once; part sizes differ by at most one and, for each class, the numbers of its samples in any two parts differ by at most one.", "quantifier": "every dataset, every k>=1, every random order", "why_tests_cant": "balance must hold for every class histogram and every k", "anchors": ["subprojects/ufjfmltk-core/include/ufjfmltk/core/Data.hpp: Data::splitSample"]}
{"id": "C10", "title": "Plain split loses no sample", "statement": "splitSample(k, stratified=false) yields k parts that together contain every sample exactly once.", "quantifier": "every dataset, every k>=1, every random order", "why_tests_cant": "the remainder n mod k is only visible for particular sizes", "anchors": ["subprojects/ufjfmltk-core/include/ufjfmltk/core/Data.hpp: Data::splitSample"]}
{"id": "C11", "title": "k-fold splits train and test on disjoint, exhaustive sets", "statement": "kfoldsplit(samples, k, stratified) returns k train/test pairs; in each pair no sample is in both sets and the two sets together contain each sample exactly once; over the k pairs every sample is tested exactly once.", "quantifier": "every dataset, every k>=2, every random order", "why_tests_cant": "leakage depends on k and the wrap-around of the fold ring", "anchors": ["subprojects/ufjfmltk-valid/include/ufjfmltk/valid/Validation.hpp: kfoldsplit", "subprojects/ufjfmltk-core/include/ufjfmltk/core/Data.hpp: Data::splitSample, Data::join"]}
{"id": "C12", "title": "partTrainTest partitions the data", "statement": "partTrainTest(data, k) returns a train and a test set that are disjoint and together contain every sample exactly once, the test set holding about 1/k of them.", "quantifier": "every dataset, every k>=1, every random order", "why_tests_cant": "all sizes, class histograms and shuffles", "anchors": ["subprojects/ufjfmltk-valid/include/ufjfmltk/valid/Validation.hpp: partTrainTest"]}
{"id": "C13", "title": "splitByClasses groups every sample under its own class", "statement": "splitByClasses returns one dataset per class, in the order of classes(); the i-th contains exactly the samples with label classes()[i], in their original order; no sample is lost.", "quantifier": "every dataset whose class table is consistent", "why_tests_cant": "all label sequences", "anchors": ["subprojects/ufjfmltk-core/include/ufjfmltk/core/Data.hpp: Data::splitByClasses"]}
{"id": "C14", "title": "Relabelling a point keeps class counts right", "statement": "updatePointValue(i, y) sets the label of point i to y and afterwards the class table and distribution agree with the labels of the points.", "quantifier": "every consistent dataset, index and new label, every sequence of relabellings", "why_tests_cant": "the wrong count needs a label not seen before in a particular history", "anchors": ["subprojects/ufjfmltk-core/include/ufjfmltk/core/Data.hpp: Data::updatePointValue"]}
{"id": "C15", "title": "clear empties the dataset", "statement": "After clear(), the dataset behaves like a fresh empty one: later insertions give the same size, classes and class distribution as on a new dataset.", "quantifier": "every dataset and every later sequence of insertions", "why_tests_cant": "residual state shows only for some class orders after reuse", "anchors": ["subprojects/ufjfmltk-core/include/ufjfmltk/core/Data.hpp: Data::clear, Data::insertPoint"]}
{"id": "C16", "title": "Class names are encoded consistently and injectively", "statement": "While loading a file, equal class names always receive the same numeric label and different class names receive different labels.", "quantifier": "every sequence of class names in the file", "why_tests_cant": "collisions depend on name mix and order of appearance over unbounded files", "anchors": ["subprojects/ufjfmltk-core/include/ufjfmltk/core/Data.hpp: Data::process_class"]}
{"id": "C17", "title": "Removing or selecting features keeps names and columns aligned", "statement": "removeFeatures(fs)/selectFeatures(fs) yields points holding exactly the surviving feature columns, in order, with feature names and dim() matching them, in every point.", "quantifier": "every dataset and every list of feature names", "why_tests_cant": "arbitrary subsets, orders and unknown names", "anchors": ["subprojects/ufjfmltk-core/include/ufjfmltk/core/Data.hpp: Data::removeFeatures, Data::selectFeatures", "subprojects/ufjfmltk-core/include/ufjfmltk/core/Point.hpp: Point::selectFeatures"]}
{"id": "C18", "title": "Sampling without replacement terminates with distinct samples", "statement": "sampling(n, with_replacement=false) terminates whenever every class has enough samples and returns n distinct samples with the classes' proportions.", "quantifier": "every dataset and every sequence of random draws", "why_tests_cant": "non-termination can only be established for all draw sequences", "anchors": ["subprojects/ufjfmltk-core/include/ufjfmltk/core/Data.hpp: Data::sampling"]}
{"id": "C19", "title": "Writing a dataset and loading it back gives the same data", "statement": "For integer-valued features and labels, writing a dataset to CSV and loading that file yields the same points, labels and feature order.", "quantifier": "every dataset", "why_tests_cant": "round trip over all values and sizes", "anchors": ["subprojects/ufjfmltk-core/include/ufjfmltk/core/Data.hpp: Data::write, Data::load_csv, Data::process_class", "subprojects/ufjfmltk-core/src/Utils.cpp: atod, dtoa, itos"]}
{"id": "C20", "title": "Tokenizing splits exactly at the delimiters", "statement": "tokenize(s, d) returns the maximal delimiter-free non-empty pieces of s in order: no token is empty or contains a delimiter, and joining the tokens gives s without its delimiters.", "quantifier": "every string and delimiter", "why_tests_cant": "all strings", "anchors": ["subprojects/ufjfmltk-core/src/Utils.cpp: utils::tokenize"]}
{"id": "C21", "title": "Integer/text conversion round-trips", "statement": "For every int n other than INT_MIN, stoin(itos(n)) = n, itos(n) is its canonical decimal numeral.", "quantifier": "every int", "why_tests_cant": "2^32 values, and the overflow case", "anchors": ["subprojects/ufjfmltk-core/src/Utils.cpp: itos, stoin"]}
{"id": "C22", "title": "Decimal text is parsed to the number it denotes", "statement": "atod(s) returns the value denoted by s for every string that is_number accepts as a number.", "quantifier": "every numeric string", "why_tests_cant": "unbounded strings; exponent forms", "anchors": ["subprojects/ufjfmltk-core/src/Utils.cpp: atod, is_number"]}
{"id": "C23", "title": "Point expressions compute element-wise values", "statement": "Constructing a Point from any arithmetic expression over points of one common dimension and scalars gives a point of that dimension whose i-th component is the expression evaluated on the i-th components; mixing dimensions is rejected.", "quantifier": "every expression tree, all operand values", "why_tests_cant": "expression trees are unbounded", "anchors": ["subprojects/ufjfmltk-core/include/ufjfmltk/core/Point.hpp: Point ctor/operator=, operator+,-,*,/", "subprojects/ufjfmltk-core/include/ufjfmltk/core/ExprOps.hpp: BExprOp, A_Add, A_Sub, A_Mult, A_Div", "subprojects/ufjfmltk-core/include/ufjfmltk/core/ExprScalar.hpp: A_Scalar"]}
{"id": "C24", "title": "Assigning a point makes it equal to the source", "statement": "After p = q, p has q's dimension and components (p == q).", "quantifier": "every pair of points", "why_tests_cant": "depends on the relative sizes of arbitrary points", "anchors": ["subprojects/ufjfmltk-core/include/ufjfmltk/core/Point.hpp: Point::operator="]}
{"id": "C25", "title": "max and min return the extreme components", "statement": "p.max() is the greatest and p.min() the least component of a non-empty point.", "quantifier": "every non-empty point", "why_tests_cant": "all sign patterns", "anchors": ["subprojects/ufjfmltk-core/include/ufjfmltk/core/Point.hpp: Point::max, Point::min"]}
{"id": "C26", "title": "linspace is an evenly spaced grid", "statement": "linspace(lo, hi, N) has N points, starts at lo, ends at hi and has constant spacing, for N>=2.", "quantifier": "every lo, hi, N>=2", "why_tests_cant": "all N and ranges", "anchors": ["subprojects/ufjfmltk-core/include/ufjfmltk/core/Point.hpp: linspace"]}
{"id": "C27", "title": "Kernel matrices are symmetric and positive semidefinite", "statement": "The matrix computed for a dataset with the inner-product, polynomial or Gaussian kernel is symmetric, its (i,j) entry is the kernel of samples i and j, and the inner-product matrix is positive semidefinite.", "quantifier": "every dataset, kernel type and parameter", "why_tests_cant": "all datasets; definiteness quantifies over all coefficient vectors", "anchors": ["subprojects/ufjfmltk-core/include/ufjfmltk/core/Kernel.hpp: Kernel::compute, Kernel::function"]}
{"id": "C28", "title": "compute returns the kernel matrix of its argument", "statement": "After any sequence of kernel configuration and compute calls, compute(samples) gives the kernel matrix of exactly those samples with the current kernel.", "quantifier": "every history of setters and compute calls", "why_tests_cant": "staleness depends on history", "anchors": ["subprojects/ufjfmltk-core/include/ufjfmltk/core/Kernel.hpp: Kernel::compute, setType, setParam"]}
{"id": "C29", "title": "Distance metrics satisfy the metric axioms", "statement": "The Euclidean, Manhattan and Chebyshev distances are non-negative, symmetric, zero exactly on equal points and satisfy the triangle inequality.", "quantifier": "all triples of points of equal dimension", "why_tests_cant": "universally quantified inequalities", "anchors": ["subprojects/ufjfmltk-core/include/ufjfmltk/core/DistanceMetric.hpp: Euclidean, Manhattan, Chebyshev"]}
{"id": "C30", "title": "The parallel distance matrix is schedule independent", "statement": "For every interleaving of the worker tasks, DistanceMatrix(samples)[i][j] ends up as the distance between samples i and j.", "quantifier": "every dataset, thread count and interleaving", "why_tests_cant": "all schedules", "anchors": ["subprojects/ufjfmltk-core/include/ufjfmltk/core/DistanceMatrix.hpp: DistanceMatrix", "subprojects/ufjfmltk-core/include/ufjfmltk/core/ThreadPool.hpp: parallelize_loop"]}
{"id": "C31", "title": "The thread pool runs every submitted task exactly once", "statement": "In every interleaving of submitters and workers, a submitted task is executed at most once, none is lost or invented, tasks are started in submission order, and as long as a task is pending and the pool is running unpaused some worker step is enabled.", "quantifier": "every number of workers, every submission history, every interleaving", "why_tests_cant": "all schedules", "anchors": ["subprojects/ufjfmltk-core/include/ufjfmltk/core/ThreadPool.hpp: push_task, pop_task, worker"]}
{"id": "C32", "title": "wait_for_tasks is a barrier", "statement": "If the pool is not paused, when wait_for_tasks returns every task submitted before the call has finished; if paused, when it returns no task is running and none starts until unpaused.", "quantifier": "every interleaving", "why_tests_cant": "all schedules", "anchors": ["subprojects/ufjfmltk-core/include/ufjfmltk/core/ThreadPool.hpp: wait_for_tasks, worker, paused"]}
{"id": "C33", "title": "parallelize_loop covers each index exactly once", "statement": "parallelize_loop(first, last, f, blocks) calls f on contiguous blocks that tile the index range: every index of the range is in exactly one block, whatever the order of the bounds and the number of blocks, and it submits nothing for an empty range.", "quantifier": "every pair of bounds and every block count", "why_tests_cant": "all integer ranges and block counts", "anchors": ["subprojects/ufjfmltk-core/include/ufjfmltk/core/ThreadPool.hpp: parallelize_loop"]}
{"id": "C34", "title": "Seeding makes random streams reproducible", "statement": "After random::init(s) with s != 0 the sequence of generated values depends only on s and on the calls made since, never on what happened before.", "quantifier": "every seed and every earlier history of calls", "why_tests_cant": "history dependent", "anchors": ["subprojects/ufjfmltk-core/src/Random.cpp: random::init, intInRange, floatInRange"]}
{"id": "C35", "title": "A perceptron that reports success separates the training set", "statement": "If PerceptronPrimal::train returns true (having processed the data), then sign(w.x+b) strictly agrees with the label of every training sample.", "quantifier": "every training set with labels +-1, learning rate, initial solution and time limits", "why_tests_cant": "all data and all update trajectories", "anchors": ["subprojects/ufjfmltk-classifier/include/ufjfmltk/classifier/Perceptron.hpp: PerceptronPrimal::train, PrimalClassifier::evaluate"]}
{"id": "C36", "title": "The perceptron makes finitely many updates on separable data", "statement": "If some unit hyperplane separates the (bias-augmented) data with margin g and all samples have augmented norm at most R, then training from the zero solution makes at most (R/g)^2 updates, in whatever order samples are presented.", "quantifier": "every separable dataset, presentation order and learning rate", "why_tests_cant": "an unbounded convergence theorem", "anchors": ["subprojects/ufjfmltk-classifier/include/ufjfmltk/classifier/Perceptron.hpp: PerceptronPrimal::train"]}
{"id": "C37", "title": "Dual and primal perceptron agree", "statement": "With the linear kernel, the dual perceptron visits the same mistakes as the primal one; at every moment w = sum alpha_i y_i x_i, its norm bookkeeping equals ||w|| and its decision value equals w.x+b.", "quantifier": "every training set, rate and number of steps", "why_tests_cant": "all executions", "anchors": ["subprojects/ufjfmltk-classifier/include/ufjfmltk/classifier/Perceptron.hpp: PerceptronDual::train, PerceptronPrimal::train", "subprojects/ufjfmltk-classifier/include/ufjfmltk/classifier/DualClassifier.hpp: evaluate"]}
{"id": "C38", "title": "Fixed-margin perceptrons deliver the requested margin on success", "statement": "If the fixed-margin perceptron training reports success, every training sample satisfies y(w.x+b) > gamma*||w|| - flexibility*alpha, and the sample order bookkeeping remains a permutation.", "quantifier": "every training set, gamma, rate, flexibility", "why_tests_cant": "all executions", "anchors": ["subprojects/ufjfmltk-classifier/include/ufjfmltk/classifier/Perceptron.hpp: PerceptronFixedMarginPrimal::train, PerceptronFixedMarginDual::train"]}
{"id": "C39", "title": "SMO keeps the dual solution feasible", "statement": "Throughout SMO training every multiplier stays in [0,C] and sum y_i alpha_i stays 0.", "quantifier": "every two-class (+1/-1) dataset, symmetric kernel matrix and sequence of pair optimisation steps", "why_tests_cant": "all step sequences", "anchors": ["subprojects/ufjfmltk-classifier/include/ufjfmltk/classifier/SMO.hpp: take_step, train"]}
{"id": "C40", "title": "SMO's error cache is exact for non-bound multipliers", "statement": "After every successful optimisation step, the cached error of each sample with 0<alpha<C equals the decision value minus the label.", "quantifier": "every two-class dataset, symmetric kernel matrix and every sequence of steps", "why_tests_cant": "incremental cache over unbounded histories", "anchors": ["subprojects/ufjfmltk-classifier/include/ufjfmltk/classifier/SMO.hpp: take_step, function"]}
{"id": "C41", "title": "SMO's support vector list is exactly the set of samples with positive multiplier", "statement": "The linked list of support vectors contains each sample with alpha>0 exactly once and no other; list operations keep it a well-formed doubly linked list.", "quantifier": "every two-class dataset, symmetric kernel matrix and every sequence of appends and removals / optimisation steps", "why_tests_cant": "pointer histories", "anchors": ["subprojects/ufjfmltk-classifier/include/ufjfmltk/classifier/SMO.hpp: take_step", "subprojects/ufjfmltk-classifier/src/int_dll.cpp: append, remove, free"]}
{"id": "C42", "title": "An SMO step never decreases the dual objective", "statement": "Each successful optimisation step does not decrease the SVM dual objective.", "quantifier": "every kernel matrix, labels and feasible multipliers", "why_tests_cant": "real-valued inequality over all states", "anchors": ["subprojects/ufjfmltk-classifier/include/ufjfmltk/classifier/SMO.hpp: take_step"]}
{"id": "C43", "title": "k-NN predicts a majority class of the k nearest samples", "statement": "KNNClassifier::evaluate returns a class whose number of samples among k nearest training points is maximal, the earliest such class in classes() order.", "quantifier": "every training set, k<=n, query point", "why_tests_cant": "all data and all admissible nth_element orders", "anchors": ["subprojects/ufjfmltk-classifier/include/ufjfmltk/classifier/KNNClassifier.hpp: evaluate"]}
{"id": "C44", "title": "One-vs-one predicts the class winning most pairwise duels", "statement": "OneVsOne::evaluate returns the first class with the most votes; a class winning all its duels is returned; the votes add up to n(n-1).", "quantifier": "every number of classes, every pairwise predictor", "why_tests_cant": "all tournament outcomes", "anchors": ["subprojects/ufjfmltk-classifier/include/ufjfmltk/classifier/OneVsOne.hpp: train, evaluate"]}
{"id": "C45", "title": "One-vs-all predicts the class with the highest decision value", "statement": "OneVsAll trains classifier i on class i versus the rest and evaluate returns the class whose decision value is highest.", "quantifier": "every number of classes and every decision values", "why_tests_cant": "all outcomes", "anchors": ["subprojects/ufjfmltk-classifier/include/ufjfmltk/classifier/OneVsAll.hpp: train, evaluate", "subprojects/ufjfmltk-classifier/include/ufjfmltk/classifier/PrimalClassifier.hpp: evaluate"]}
{"id": "C46", "title": "Voting ensembles return a class with maximal (weighted) vote", "statement": "VotingClassifier::evaluate returns the earliest class whose total weight of voters is maximal; hard voting gives every voter weight one.", "quantifier": "every number of voters, weights and votes", "why_tests_cant": "all vote profiles", "anchors": ["subprojects/ufjfmltk-ensemble/include/ufjfmltk/ensemble/VotingClassifier.hpp: evaluate"]}
{"id": "C47", "title": "AdaBoost keeps a probability distribution over samples", "statement": "After each boosting round the sample weights are positive and sum to one.", "quantifier": "every dataset, number of rounds and outcome of the weak learners", "why_tests_cant": "all outcomes over unbounded rounds", "anchors": ["subprojects/ufjfmltk-ensemble/include/ufjfmltk/ensemble/AdaBoostClassifier.hpp: train"]}
{"id": "C48", "title": "Bagging returns a plurality vote", "statement": "BaggingClassifier::evaluate returns a class with the maximal number of votes of its estimators.", "quantifier": "every number of estimators and votes", "why_tests_cant": "all vote profiles", "anchors": ["subprojects/ufjfmltk-ensemble/include/ufjfmltk/ensemble/BaggingClassifier.hpp: evaluate"]}
{"id": "C49", "title": "k-means assigns every sample to a nearest centre exactly once", "statement": "The clusters computed in an iteration partition the samples, each sample being in a cluster whose centre is at minimal distance, and evaluate returns such a centre index.", "quantifier": "every dataset, every set of centres", "why_tests_cant": "all data", "anchors": ["subprojects/ufjfmltk-clusterer/include/ufjfmltk/clusterer/KMeans.hpp: assign_clusters, evaluate"]}
{"id": "C50", "title": "k-means centres are the means of their clusters", "statement": "After the centre update every non-empty cluster's centre is the mean of its samples.", "quantifier": "every dataset and assignment", "why_tests_cant": "all data and histories of centres", "anchors": ["subprojects/ufjfmltk-clusterer/include/ufjfmltk/clusterer/KMeans.hpp: compute_centers"]}
{"id": "C51", "title": "Reading the clusters twice gives the same answer", "statement": "KMeans::clusters() lists each sample once under its cluster, no matter how many times it is called.", "quantifier": "every number of calls", "why_tests_cant": "history dependent", "anchors": ["subprojects/ufjfmltk-clusterer/include/ufjfmltk/clusterer/KMeans.hpp: clusters"]}
{"id": "C52", "title": "The confusion matrix counts each sample once under (true class, predicted class)", "statement": "generateConfusionMatrix: entry (i,j) is the number of samples of class i predicted as class j; entries sum to the number of samples.", "quantifier": "every dataset and classifier", "why_tests_cant": "all datasets and predictors", "anchors": ["subprojects/ufjfmltk-valid/include/ufjfmltk/valid/Validation.hpp: generateConfusionMatrix"]}
{"id": "C53", "title": "Accuracy from the confusion matrix is the percentage of correct predictions", "statement": "confusionMatrixAccuracy equals 100*correct/total, lies in [0,100], and agrees with accuracy computed by direct comparison.", "quantifier": "every dataset and classifier", "why_tests_cant": "all datasets and predictors", "anchors": ["subprojects/ufjfmltk-valid/include/ufjfmltk/valid/Validation.hpp: confusionMatrixAccuracy, accuracy"]}
{"id": "C54", "title": "The classification report's rates are the textbook rates", "statement": "metricsReport/classificationReport print precision, recall, specificity as the ratios of tp, fp, tn, fn and never fail.", "quantifier": "every confusion table", "why_tests_cant": "all integer tables incl. multi-class and empty classes", "anchors": ["subprojects/ufjfmltk-valid/include/ufjfmltk/valid/Validation.hpp: metricsReport, classificationReport"]}
{"id": "C55", "title": "k-fold reports the average error and the total counts over folds", "statement": "kfold's error is the mean of the folds' error rates, accuracy is 100 minus it, and tp/tn/fp/fn are the totals over folds.", "quantifier": "every number of folds and per-fold outcomes", "why_tests_cant": "accumulator state over unbounded folds", "anchors": ["subprojects/ufjfmltk-valid/include/ufjfmltk/valid/Validation.hpp: kfold"]}
{"id": "C56", "title": "The feature selection search queue is a priority queue", "statement": "After any sequence of insert and pop below capacity, pop returns a node of maximal value among those inserted and not yet popped; nothing is lost.", "quantifier": "every sequence of inserts and pops", "why_tests_cant": "all histories", "anchors": ["subprojects/ufjfmltk-featselect/include/ufjfmltk/featselect/AOS.hpp: select_order_heap / Heap::insert, Heap::pop, Heap::percolate"]}
{"id": "C57", "title": "Pruning the search queue keeps it a priority queue", "statement": "After cut removes nodes, the queue holds exactly the nodes not pruned and pop still returns a maximal node.", "quantifier": "every queue content and cut level", "why_tests_cant": "all heap shapes", "anchors": ["subprojects/ufjfmltk-featselect/include/ufjfmltk/featselect/AOS.hpp: Heap::cut"]}
{"id": "C58", "title": "The visited-set hash recognises exactly the states added before", "statement": "Hash::add reports a state as new exactly when no state with the same feature set and level was added before.", "quantifier": "every sequence of adds", "why_tests_cant": "all histories and collisions", "anchors": ["subprojects/ufjfmltk-featselect/include/ufjfmltk/featselect/AOS.hpp: Hash::add"]}
{"id": "C59", "title": "Filter feature selectors keep the best-scoring features", "statement": "Golub/Fisher selection with target dimension m returns a dataset with m features whose scores are at least those of the removed ones (at each elimination step).", "quantifier": "every dataset, score assignment and m", "why_tests_cant": "all score orders", "anchors": ["subprojects/ufjfmltk-featselect/include/ufjfmltk/featselect/Golub.hpp: selectFeatures", "subprojects/ufjfmltk-featselect/include/ufjfmltk/featselect/Fisher.hpp: selectFeatures"]}
{"id": "C60", "title": "Recursive feature elimination removes the least relevant features", "statement": "Each RFE step removes features whose |w| is minimal among the remaining ones, and the final dataset has the requested dimension.", "quantifier": "every dataset and weight outcomes", "why_tests_cant": "all executions", "anchors": ["subprojects/ufjfmltk-featselect/include/ufjfmltk/featselect/RFE.hpp: selectFeatures"]}
{"id": "C61", "title": "k-NN regression averages the k nearest targets", "statement": "KNNRegressor::evaluate returns the mean target of k training samples that are nearest to the query, hence a value between the least and greatest target.", "quantifier": "every training set, k<=n, query", "why_tests_cant": "all data and ties", "anchors": ["subprojects/ufjfmltk-regressor/include/ufjfmltk/regressor/KNNRegressor.hpp: evaluate"]}
{"id": "C62", "title": "Oversampling only adds minority points between existing ones", "statement": "SMOTE keeps all original samples, adds synthetic samples of the minority class only, in the requested number, each on the segment between a minority sample and one of its minority neighbours.", "quantifier": "every dataset and random draws", "why_tests_cant": "all draws", "anchors": ["subprojects/ufjfmltk-core/include/ufjfmltk/core/Sampling.hpp: SMOTE"]}
{"id": "C63", "title": "Blob generation yields the requested number of samples per centre", "statement": "make_blobs(n_samples per centre, centres) yields exactly n_samples[i] points of class i.", "quantifier": "every request", "why_tests_cant": "all sizes", "anchors": ["subprojects/ufjfmltk-core/src/Datasets.cpp: make_blobs"]}
{"id": "C64", "title": "Statistics agree with their definitions", "statement": "mean, var, std_dev and covar of points/datasets are the usual ones: var is non-negative and equals covar(x,x), covar is symmetric and shift invariant.", "quantifier": "all samples", "why_tests_cant": "all samples", "anchors": ["subprojects/ufjfmltk-core/include/ufjfmltk/core/Statistics.hpp: mean, var, std_dev, covar"]}
{"id": "C65", "title": "Normalisation gives unit-norm points", "statement": "normalize(p, q) returns a point with q-norm one for every non-zero point, pointing in the same direction.", "quantifier": "every non-zero point, every q", "why_tests_cant": "all points", "anchors": ["subprojects/ufjfmltk-core/include/ufjfmltk/core/Point.hpp: normalize"]}
{"id": "C66", "title": "Linear dual model evaluates like its weight vector", "statement": "For the linear kernel, evaluating a trained dual classifier at x gives the sign of w.x+b with w the reported weight vector.", "quantifier": "every solution and point", "why_tests_cant": "all solutions", "anchors": ["subprojects/ufjfmltk-classifier/include/ufjfmltk/classifier/DualClassifier.hpp: evaluate, getWeight"]}
{"id": "C67", "title": "Incremental margin algorithms only report margins they achieved", "statement": "IMAp returns the last solution whose fixed-margin subproblem succeeded; its reported margin is achieved by that solution on all training samples and the sequence of margins is increasing.", "quantifier": "every dataset and subproblem outcome", "why_tests_cant": "all executions", "anchors": ["subprojects/ufjfmltk-classifier/include/ufjfmltk/classifier/IMA.hpp: IMAp::train, IMApFixedMargin::train"]}
{"id": "C68", "title": "Ids identify samples", "statement": "After any history of insertions and removals that leaves id assignment to the dataset (keepIndex = false), the ids of the stored samples are pairwise different, so that removePoint(id) designates one sample.", "quantifier": "all histories of insertPoint/removePoint calls starting from an empty dataset", "why_tests_cant": "the clash only shows for particular interleavings of insertions and removals; a test fixes one interleaving", "anchors": ["subprojects/ufjfmltk-core/include/ufjfmltk/core/Data.hpp: Data::insertPoint, Data::removePoint"]}
{"id": "C69", "title": "Assigning a dataset gives an independent dataset", "statement": "After b = a, modifying points or the structure of b is not observable through a (assignment has the value semantics that copy construction and copy() have).", "quantifier": "every dataset and every later sequence of writes", "why_tests_cant": "aliasing only shows after particular later writes; tests read right after the assignment", "anchors": ["subprojects/ufjfmltk-core/include/ufjfmltk/core/Data.hpp: Data::operator="]}
{"id": "C70", "title": "Point norms are norms", "statement": "norm(p) of a point is non-negative, zero exactly when all components are zero, absolutely homogeneous, and the maximum norm is the largest absolute component.", "quantifier": "every point, every order p>0 and the maximum norm", "why_tests_cant": "an algebraic law over all real vectors", "anchors": ["subprojects/ufjfmltk-core/include/ufjfmltk/core/Point.hpp: Point::norm, max, abs, pow"]}
{"id": "C71", "title": "The other distance functors are dissimilarities", "statement": "Every distance functor besides Euclidean, Manhattan and Chebyshev gives, on points of its domain, a non-negative value that is zero between a point and itself and (unless asymmetric by definition) does not depend on the order of the points; those defined from a metric separate different points.", "quantifier": "every pair of non-empty points of the same dimension with components in the functor's domain (all reals or positive reals)", "why_tests_cant": "a law over all real vectors; sampled points miss integer-division and sign errors", "anchors": ["subprojects/ufjfmltk-core/include/ufjfmltk/core/DistanceMetric.hpp: Lorentzian .. Hassanat"]}
{"id": "C72", "title": "The H matrix and the dual norms are the quadratic form of the kernel", "statement": "generateMatrixH(samples) gives the symmetric matrix y_i y_j k(x_i,x_j) whatever was computed before, its variant without a dimension is symmetric, and norm/featureSpaceNorm return sqrt(sum_ij alpha_i alpha_j y_i y_j K_ij).", "quantifier": "every dataset, labelling, multiplier vector and history of calls", "why_tests_cant": "must hold for every sequence of dataset sizes and every multiplier vector", "anchors": ["subprojects/ufjfmltk-core/include/ufjfmltk/core/Kernel.hpp: generateMatrixH, generateMatrixHwithoutDim, norm, featureSpaceNorm"]}
{"id": "C73", "title": "Dataset radius and centre distances", "statement": "radius(data,feat,2) is the largest distance of a sample to the mean over the features other than feat, distCenters(data,feat) the distance of the class means over those features, and distCentersWithoutFeats(data,feats) the distance of the class means over the features not listed.", "quantifier": "every dataset, feature name and list of feature names", "why_tests_cant": "quantifies over all datasets and feature subsets", "anchors": ["subprojects/ufjfmltk-core/include/ufjfmltk/core/Statistics.hpp: radius, distCenters, distCentersWithoutFeats"]}
{"id": "C74", "title": "Class counts of a loaded file are exact", "statement": "After loading a file, classes() lists each label that was assigned exactly once and classesDistribution() holds, for each, the number of samples with that label.", "quantifier": "every sequence of class names in the file", "why_tests_cant": "counts over unbounded files and arbitrary name sequences", "anchors": ["subprojects/ufjfmltk-core/include/ufjfmltk/core/Data.hpp: Data::process_class"]}
{"id": "C75", "title": "SMO reports success only when no pair step is left", "statement": "If SMO::train returns true, every sample either satisfies the optimality conditions within the tolerance or no optimisation step pairing it with another sample makes progress.", "quantifier": "every two-class dataset, symmetric kernel matrix, EPS > 0 and random starting offset", "why_tests_cant": "A test observes single runs; the claim covers every dataset and every order in which the pair search visits samples.", "anchors": ["subprojects/ufjfmltk-classifier/include/ufjfmltk/classifier/SMO.hpp: train, training_routine, examine_example, iterate_all_set"]}
{"id": "C76", "title": "k-NN reports the share of the predicted class", "statement": "After KNNClassifier::evaluate, getPredictionProbability is the smoothed share of the predicted class among the k nearest training samples.", "quantifier": "every dataset, k, metric and query", "why_tests_cant": "all neighbourhoods", "anchors": ["subprojects/ufjfmltk-classifier/include/ufjfmltk/classifier/KNNClassifier.hpp: evaluate, getPredictionProbability"]}
{"id": "C77", "title": "Evaluating an ensemble does not change it", "statement": "VotingClassifier::evaluate leaves the ensemble's voting weights as they were set, so the order of evaluations does not matter.", "quantifier": "every ensemble, weights, mode and query", "why_tests_cant": "all call histories", "anchors": ["subprojects/ufjfmltk-ensemble/include/ufjfmltk/ensemble/VotingClassifier.hpp: evaluate, setWeights, setVotingType"]}
{"id": "C78", "title": "AdaBoost weighs an estimator by its weighted error", "statement": "After a boosting round the estimator's weight is log((1-e)/e)+log(K-1) for the weighted error e of the estimator, so an estimator worse than chance does not get a positive weight.", "quantifier": "every distribution over samples and every outcome of the weak learner", "why_tests_cant": "all weights and outcomes", "anchors": ["subprojects/ufjfmltk-ensemble/include/ufjfmltk/ensemble/AdaBoostClassifier.hpp: train"]}
{"id": "C79", "title": "AdaBoost returns the class with the greatest total estimator weight", "statement": "AdaBoostClassifier::evaluate returns the earliest class whose voters have the greatest total estimator weight.", "quantifier": "every number of estimators, weights, classes and votes", "why_tests_cant": "all vote profiles", "anchors": ["subprojects/ufjfmltk-ensemble/include/ufjfmltk/ensemble/AdaBoostClassifier.hpp: evaluate"]}
{"id": "C80", "title": "k-means training does not depend on earlier reads", "statement": "Training a KMeans again with the same initial centres drawn gives the same centres, whatever was called in between (clusters(), evaluate).", "quantifier": "every dataset, initialisation and call history", "why_tests_cant": "history dependent", "anchors": ["subprojects/ufjfmltk-clusterer/include/ufjfmltk/clusterer/KMeans.hpp: train, clusters"]}
{"id": "C81", "title": "k-means starts from samples of the dataset", "statement": "The initial centres of KMeans are samples of the dataset, one per cluster, for every outcome of the random draws.", "quantifier": "every dataset, number of clusters and random draws", "why_tests_cant": "all random outcomes", "anchors": ["subprojects/ufjfmltk-clusterer/include/ufjfmltk/clusterer/KMeans.hpp: train", "subprojects/ufjfmltk-core/src/Random.cpp: intInRange"]}
{"id": "C82", "title": "clusters_variance is the within-cluster sum of squares", "statement": "KMeans::clusters_variance returns the sum, over the given clusters, of the squared distances of the members to the mean of their cluster; empty clusters add nothing.", "quantifier": "every dataset and clusters", "why_tests_cant": "all data", "anchors": ["subprojects/ufjfmltk-clusterer/include/ufjfmltk/clusterer/KMeans.hpp: clusters_variance"]}
{"id": "C83", "title": "The k-means cost never increases", "statement": "From one training iteration to the next the sum of squared distances to the nearest centre does not increase.", "quantifier": "every dataset and centres", "why_tests_cant": "all data and histories", "anchors": ["subprojects/ufjfmltk-clusterer/include/ufjfmltk/clusterer/KMeans.hpp: train, compute_centers"]}
{"id": "C84", "title": "k-means++ does not choose a centre twice", "statement": "With kmeanspp initialisation a sample at distance zero from the last chosen centre is not chosen as the next centre.", "quantifier": "every dataset and random draws", "why_tests_cant": "all random outcomes", "anchors": ["subprojects/ufjfmltk-clusterer/include/ufjfmltk/clusterer/KMeans.hpp: train"]}
{"id": "C85", "title": "The metrics report's accuracy is the share of correct answers", "statement": "metricsReport(data, cfm, positive).accuracy is the number of correctly classified samples over the number of samples, and error is one minus it, whatever labels are declared positive.", "quantifier": "every dataset, confusion matrix and choice of positive labels", "why_tests_cant": "all tables and all subsets of labels", "anchors": ["subprojects/ufjfmltk-valid/include/ufjfmltk/valid/Validation.hpp: metricsReport"]}
{"id": "C86", "title": "Cross-validation never trains on the fold it tests", "statement": "In every fold of kfold the classifier is trained on exactly the samples of the other folds.", "quantifier": "every dataset, number of folds, classifier formulation and shuffle", "why_tests_cant": "all datasets and splits; leakage only shows statistically", "anchors": ["subprojects/ufjfmltk-valid/include/ufjfmltk/valid/Validation.hpp: kfold"]}
{"id": "C87", "title": "Repeated k-fold reports averages over its runs", "statement": "kkfold's error is the mean of the errors of the runs, accuracy is 100 minus it, and the counters are those of the runs averaged.", "quantifier": "every number of runs and outcomes", "why_tests_cant": "accumulator over unbounded runs", "anchors": ["subprojects/ufjfmltk-valid/include/ufjfmltk/valid/Validation.hpp: kkfold"]}
{"id": "C88", "title": "The visited table never reads deleted states", "statement": "After the search queue is pruned, adding any state to the table of visited states does not read a node that the pruning deleted.", "quantifier": "every queue content, cut level and later addition", "why_tests_cant": "needs a hash collision with a deleted node; all histories", "anchors": ["subprojects/ufjfmltk-featselect/include/ufjfmltk/featselect/AOS.hpp: Heap::cut, Hash::add, select_gamma_equal"]}
{"id": "C89", "title": "Finding a state again keeps the search queue in order", "statement": "When a state already queued is found again, the queue still returns a node of maximal value afterwards.", "quantifier": "every queue content and every state found again", "why_tests_cant": "all histories of the search", "anchors": ["subprojects/ufjfmltk-featselect/include/ufjfmltk/featselect/AOS.hpp: Hash::add, Heap::pop"]}
{"id": "C90", "title": "A full search queue drops its worst node", "statement": "Inserting a node into a full queue keeps the queue a priority queue and the node that does not stay is one of least value.", "quantifier": "every full queue and every node", "why_tests_cant": "all heap shapes", "anchors": ["subprojects/ufjfmltk-featselect/include/ufjfmltk/featselect/AOS.hpp: Heap::insert"]}
{"id": "C91", "title": "Feature scores are the published criteria", "statement": "The score used to rank a feature is the published one: for Golub the distance of the class means over the sum of the standard deviations, for Fisher the squared distance of the class means over the sum of the variances.", "quantifier": "every dataset with at least two samples per class and every feature", "why_tests_cant": "the ranking must agree for all values", "anchors": ["subprojects/ufjfmltk-featselect/include/ufjfmltk/featselect/Golub.hpp: selectFeatures", "subprojects/ufjfmltk-featselect/include/ufjfmltk/featselect/Fisher.hpp: selectFeatures"]}
{"id": "C92", "title": "A recursive elimination object can be used again", "statement": "Calling selectFeatures a second time on the same recursive elimination object with the same samples ends and works like the first call.", "quantifier": "every dataset, step, final dimension and training outcome", "why_tests_cant": "termination over all inputs and call histories", "anchors": ["subprojects/ufjfmltk-featselect/include/ufjfmltk/featselect/RFE.hpp: selectFeatures"]}
{"id": "C93", "title": "Spiral generation yields the requested number of samples in balanced classes", "statement": "make_spirals(n_samples, n_classes) gives a dataset of n_samples points, the same number in every class, numbered 1, 2, \u2026 in order.", "quantifier": "every size, number of classes, random draws and shuffle", "why_tests_cant": "all sizes and numbers of classes, all draws", "anchors": ["subprojects/ufjfmltk-core/src/Datasets.cpp: make_spirals"]}
{"id": "C94", "title": "Regression problems follow the returned coefficients", "statement": "make_regression gives n_samples samples with n_dims features and n_dims coefficients, zero from n_informative on; without noise each label is the scalar product of features and coefficients plus the bias, with noise it differs from that by the noise value only.", "quantifier": "every size, dimension, number of informative features, draws and shuffle", "why_tests_cant": "all sizes and all draws", "anchors": ["subprojects/ufjfmltk-core/src/Datasets.cpp: make_regression"]}
{"id": "C95", "title": "Random subspaces are sets of valid features", "statement": "Every call of RSM returns ceil(r*dims) different features below dims.", "quantifier": "every fraction, dimension and sequence of calls with any shuffles", "why_tests_cant": "all fractions and histories of calls", "anchors": ["subprojects/ufjfmltk-core/include/ufjfmltk/core/Sampling.hpp: RSM"]}
{"id": "C96", "title": "Diverse subspaces are sets of valid features", "statement": "Every call of DSM returns k subspaces of n different features of the dataset each.", "quantifier": "every dataset (through the correlations of its features), weight, number and size of subspaces, and sequence of calls", "why_tests_cant": "all correlations, weights and histories of calls", "anchors": ["subprojects/ufjfmltk-core/include/ufjfmltk/core/Sampling.hpp: DSM"]}
{"id": "C97", "title": "Borderline oversampling keeps the samples and adds synthetic ones", "statement": "BorderlineSMOTEOne keeps all original samples with their ids and adds only synthetic samples of the minority class made from samples near the border.", "quantifier": "every dataset, numbers of neighbours and random draws", "why_tests_cant": "all datasets and draws", "anchors": ["subprojects/ufjfmltk-core/include/ufjfmltk/core/Sampling.hpp: BorderlineSMOTEOne"]}
{"id": "C98", "title": "Least-mean-squares training applies the Widrow-Hoff rule", "statement": "LMSPrimal::train passes over the samples in order and corrects the function after each sample by rate*error*x (slopes) and rate*error (intercept), until the cost settles within EPS, the time is up or the iteration limit is reached.", "quantifier": "every dataset, rate, EPS, limit, clock and starting state", "why_tests_cant": "all datasets, settings and timings", "anchors": ["subprojects/ufjfmltk-regressor/include/ufjfmltk/regressor/LMS.hpp: LMSPrimal::train"]}
{"id": "C99", "title": "Least-mean-squares training converges on exactly linear data", "statement": "If some linear function fits all training samples exactly, training settles and the learned function is not farther from the exact one than the start.", "quantifier": "every dataset with an exact linear fit, every rate, EPS and limit", "why_tests_cant": "convergence for all data is a statement about unbounded runs", "anchors": ["subprojects/ufjfmltk-regressor/include/ufjfmltk/regressor/LMS.hpp: LMSPrimal::train"]}
{"id": "C100", "title": "Regression training reports whether it converged", "statement": "LMSPrimal::train returns true exactly when the cost settled within EPS before the limits were reached.", "quantifier": "every dataset, setting and clock", "why_tests_cant": "all datasets, settings and timings", "anchors": ["subprojects/ufjfmltk-regressor/include/ufjfmltk/regressor/LMS.hpp: LMSPrimal::train"]}
{"id": "C101", "title": "Regression training starts from its declared starting point", "statement": "Training starts from the initial solution given to the constructor (zero if none), so training the same object twice on the same samples gives the same function.", "quantifier": "every dataset, setting and history of trainings", "why_tests_cant": "all histories", "anchors": ["subprojects/ufjfmltk-regressor/include/ufjfmltk/regressor/LMS.hpp: LMSPrimal::LMSPrimal, LMSPrimal::train"]}
{"id": "C102", "title": "A linear regressor evaluates its linear function", "statement": "After training, evaluate(x) is w.x+b for the trained w and b for every point of the right dimension, and 0 for any other point.", "quantifier": "every trained regressor and point", "why_tests_cant": "all trained functions and points", "anchors": ["subprojects/ufjfmltk-regressor/include/ufjfmltk/regressor/PrimalRegressor.hpp: PrimalRegressor::evaluate"]}
{"id": "C103", "title": "MSE is the mean squared error", "statement": "For non-empty points of the same size MSE is the mean of the squared differences: non-negative, symmetric, zero exactly for equal points; points of different sizes are rejected.", "quantifier": "every pair of points", "why_tests_cant": "all points", "anchors": ["subprojects/ufjfmltk-regressor/include/ufjfmltk/regressor/Metrics.hpp: MSE"]}
{"id": "C104", "title": "Success of the balanced perceptron means a balanced separating hyperplane", "statement": "When BalancedPerceptron::train answers true, the hyperplane it leaves classifies every training sample strictly on its side, and the closest samples of the two classes have the same functional margin.", "quantifier": "every dataset, random start weights, order of the samples, learning rate and limits", "why_tests_cant": "the start weights, the shuffle and the samples are unbounded", "anchors": ["subprojects/ufjfmltk-classifier/include/ufjfmltk/classifier/Perceptron.hpp: BalancedPerceptron::train"]}
{"id": "C105", "title": "The balanced perceptron converges on separable data", "statement": "On linearly separable samples BalancedPerceptron::train answers true after finitely many updates when the limits allow it.", "quantifier": "every separable dataset, random start weights, order of the samples and learning rate", "why_tests_cant": "convergence over all separable datasets", "anchors": ["subprojects/ufjfmltk-classifier/include/ufjfmltk/classifier/Perceptron.hpp: BalancedPerceptron::train"]}
{"id": "C106", "title": "Success of the dual incremental margin algorithm means its model separates its training set", "statement": "When IMADual::train answers true, the multipliers, bias, margin and support vectors it reports belong together: the reported model classifies every training sample as labelled and every sample is at least the reported margin away.", "quantifier": "every dataset, symmetric kernel, order of the samples, earlier Alpha values, limits and behaviour of the clock", "why_tests_cant": "the number of rounds, the limits that cut a round short and the clock cannot be enumerated", "anchors": ["subprojects/ufjfmltk-classifier/include/ufjfmltk/classifier/IMA.hpp: IMADual::train", "subprojects/ufjfmltk-classifier/include/ufjfmltk/classifier/Perceptron.hpp: PerceptronFixedMarginDual::train", "subprojects/ufjfmltk-classifier/include/ufjfmltk/classifier/DualClassifier.hpp: evaluate"]}
{"id": "C107", "title": "Training of the dual incremental margin algorithm ends", "statement": "IMADual::train returns after at most MAX_IT + 2 calls of the fixed-margin trainer.", "quantifier": "every dataset, kernel, earlier Alpha values, order of the samples and behaviour of the clock, EPS positive", "why_tests_cant": "termination over all datasets and settings", "anchors": ["subprojects/ufjfmltk-classifier/include/ufjfmltk/classifier/IMA.hpp: IMADual::train"]}
{"id": "C108", "title": "Feature weights of dual classifiers are the relevance of the features", "statement": "getDualWeightProdInt returns for every feature the square of its weight; getDualWeight returns for every feature the drop of the dual quadratic form when the feature is blanked out.", "quantifier": "every dataset, kernel and multiplier vector", "why_tests_cant": "holds for all datasets and multipliers or not at all; single cases with one class hide the missing labels", "anchors": ["subprojects/ufjfmltk-classifier/include/ufjfmltk/classifier/DualClassifier.hpp: getDualWeight, getDualWeightProdInt", "subprojects/ufjfmltk-core/include/ufjfmltk/core/Kernel.hpp: generateMatrixHwithoutDim"]}
{"id": "C109", "title": "Loading a .data file gives each row's label and features", "statement": "load(\"f.data\") answers true on a file of rows \"label name:value name:value \u2026\" and the dataset then holds one point per row, in order, with the row's value in the column of the feature it names, the row's label, ids 1, 2, \u2026, the feature names and the declared type.", "quantifier": "every number of rows and features, every label text, every feature name in the range of int and every decimal numeral", "why_tests_cant": "there are unboundedly many files", "anchors": ["subprojects/ufjfmltk-core/include/ufjfmltk/core/Data.hpp: load, load_data, process_class", "subprojects/ufjfmltk-core/src/Utils.cpp: is_number, stod, stoin"]}
{"id": "C110", "title": "A dataset written as .data and loaded again is the same", "statement": "write(name, \"data\") followed by load gives back the features, feature names, labels, ids 1, 2, \u2026 and the type of the dataset.", "quantifier": "every dataset of integer values below one million, every list of feature names", "why_tests_cant": "there are unboundedly many datasets", "anchors": ["subprojects/ufjfmltk-core/include/ufjfmltk/core/Data.hpp: write, load, load_data"]}
{"id": "C111", "title": "Loading a .txt file gives each row's features and id", "statement": "load(\"f.txt\") answers true on a file of rows \"word id value value \u2026\" and the dataset then holds one point per row, in order, with these values, the stated id, label 0 and the feature names 1, 2, \u2026.", "quantifier": "every number of rows and columns, all words, ids and decimal numerals", "why_tests_cant": "there are unboundedly many files", "anchors": ["subprojects/ufjfmltk-core/include/ufjfmltk/core/Data.hpp: load_txt"]}
{"id": "C112", "title": "Loading an .arff file gives each row's features and class", "statement": "load(\"f.arff\") answers true on a file of declarations followed by comma-separated rows with the class in the last column (or, with load(file, false), in the first), and the dataset then holds one point per data row with its features and its class or target value.", "quantifier": "every file of this form, both class positions, classification and regression datasets", "why_tests_cant": "there are unboundedly many files", "anchors": ["subprojects/ufjfmltk-core/include/ufjfmltk/core/Data.hpp: load, load_arff"]}
{"id": "C113", "title": "The type of a file is decided by its extension", "statement": "load treats a file as csv, data, arff or txt exactly if its name ends in that extension, and answers false for every other name.", "quantifier": "every file name", "why_tests_cant": "there are unboundedly many file names", "anchors": ["subprojects/ufjfmltk-core/include/ufjfmltk/core/Data.hpp: identifyFileType, load, types"]}
{"id": "C114", "title": "A loaded dataset is named after its file", "statement": "After load(path), name() is the last component of the path without its extension.", "quantifier": "every path", "why_tests_cant": "there are unboundedly many paths", "anchors": ["subprojects/ufjfmltk-core/include/ufjfmltk/core/Data.hpp: discover_dataset_name", "subprojects/ufjfmltk-core/src/Utils.cpp: tokenize"]}
{"id": "C115", "title": "AOS returns the samples restricted to some of their features", "statement": "Whatever the classifier answers, a selectFeatures() of AOS that ends returns the given samples with some features left out: every other column and feature name is kept in order in every sample, and at least final_dim features (and at least one) are left.", "quantifier": "every dataset with ascending feature names, every classifier behaviour, breadth, cut, margin norm, depth of search, number of earlier searches of the object and every order of ties", "why_tests_cant": "the search depends on unboundedly many answers of the classifier and on the order of a queue and a hash table; tests see a few trajectories", "anchors": ["subprojects/ufjfmltk-featselect/include/ufjfmltk/featselect/AOS.hpp: selectFeatures, mainLoop", "subprojects/ufjfmltk-core/include/ufjfmltk/core/Data.hpp: removeFeatures"]}
{"id": "C116", "title": "AOS delivers the requested number of features", "statement": "selectFeatures() of AOS ends and returns exactly final_dim features if the classifier can be trained on every subset.", "quantifier": "every dataset, every classifier whose trainings succeed, every breadth and final_dim", "why_tests_cant": "termination and the absence of out-of-range reads over all trajectories of the search cannot be tested", "anchors": ["subprojects/ufjfmltk-featselect/include/ufjfmltk/featselect/AOS.hpp: AOS, selectFeatures, mainLoop, setBreadth"]}
{"id": "C117", "title": "AOS removes the least relevant features", "statement": "The features that selectFeatures() of AOS leaves out are those with small weights: a feature with the largest absolute weight is kept as long as others are left.", "quantifier": "every dataset and every classifier whose trainings succeed", "why_tests_cant": "the order of relevance is any order of any weights", "anchors": ["subprojects/ufjfmltk-featselect/include/ufjfmltk/featselect/AOS.hpp: mainLoop"]}
{"id": "C118", "title": "An AOS object can be used again", "statement": "A second selectFeatures() of the same AOS object gives the same result as the first one of a new object with the same settings.", "quantifier": "every dataset, every classifier, every history of the object", "why_tests_cant": "it ranges over all pairs of runs", "anchors": ["subprojects/ufjfmltk-featselect/include/ufjfmltk/featselect/AOS.hpp: selectFeatures, lool"]}
{"id": "C119", "title": "Normalising a dataset gives every sample unit norm", "statement": "normalize(p) of a dataset adds one constant feature to every sample and divides the sample by a positive number so that its p-norm is exactly 1; it never divides by zero, labels and ids stay.", "quantifier": "every non-empty rectangular dataset of doubles (also with a sample held twice) and every p > 0", "why_tests_cant": "real-valued samples and exponents form a continuum; zero samples and repeated pointers are easy to miss", "anchors": ["subprojects/ufjfmltk-core/include/ufjfmltk/core/Data.hpp: normalize"]}
{"id": "C120", "title": "Normalising a dataset changes nothing else", "statement": "normalize(p) leaves labels, ids, order, size, class table and all samples outside the dataset as they were; feature names stay distinct; normalising a normalised dataset changes nothing.", "quantifier": "every non-empty rectangular dataset and every p", "why_tests_cant": "frame conditions range over all the memory and all earlier histories of feature removal", "anchors": ["subprojects/ufjfmltk-core/include/ufjfmltk/core/Data.hpp: normalize", "subprojects/ufjfmltk-core/include/ufjfmltk/core/Data.hpp: isNormalized"]}
{"id": "C121", "title": "Normalising one dataset does not change another", "statement": "After b was made from a by copying or assigning, normalising one of them leaves the samples of the other as they were.", "quantifier": "every pair of datasets made from one another and every p", "why_tests_cant": "aliasing depends on the history of both datasets", "anchors": ["subprojects/ufjfmltk-core/include/ufjfmltk/core/Data.hpp: normalize", "subprojects/ufjfmltk-core/include/ufjfmltk/core/Data.hpp: copy", "subprojects/ufjfmltk-core/include/ufjfmltk/core/Data.hpp: operator="]}
{"id": "C122", "title": "Equality of datasets is an equivalence and means equal content", "statement": "== on datasets always answers, is reflexive, symmetric and transitive and is the negation of !=; equal datasets have the same samples with the same labels; a copy is equal to its original.", "quantifier": "every pair and triple of datasets with consistent bookkeeping", "why_tests_cant": "it is a statement about all pairs and triples of datasets", "anchors": ["subprojects/ufjfmltk-core/include/ufjfmltk/core/Data.hpp: operator==", "subprojects/ufjfmltk-core/include/ufjfmltk/core/Data.hpp: operator!=", "subprojects/ufjfmltk-core/include/ufjfmltk/core/Data.hpp: copy"]}
{"id": "C123", "title": "A dataset built with a size is a usable dataset", "statement": "Data(size, dim, val) holds size samples of dim features val with the ids 1..size, and its class table describes the label of its samples, so that counting classes and removing samples work.", "quantifier": "every size, dimension and value", "why_tests_cant": "it ranges over all sizes and all later calls", "anchors": ["subprojects/ufjfmltk-core/include/ufjfmltk/core/Data.hpp: Data(size_t, size_t, T)", "subprojects/ufjfmltk-core/include/ufjfmltk/core/Data.hpp: computeClassesDistribution", "subprojects/ufjfmltk-core/include/ufjfmltk/core/Data.hpp: removePoint"]}
{"id": "C124", "title": "Columns and labels are read in order", "statement": "getFeature(j) returns the j-th feature of every sample in order; getLabels() returns the labels in order.", "quantifier": "every rectangular dataset and every column", "why_tests_cant": "it ranges over all datasets", "anchors": ["subprojects/ufjfmltk-core/include/ufjfmltk/core/Data.hpp: getFeature", "subprojects/ufjfmltk-core/include/ufjfmltk/core/Data.hpp: getLabels", "subprojects/ufjfmltk-core/include/ufjfmltk/core/Data.hpp: labels"]}
{"id": "C125", "title": "changeXVector rearranges the feature vectors", "statement": "changeXVector(index) gives sample i the features of sample index[i].", "quantifier": "every dataset and every list of positions", "why_tests_cant": "it ranges over all datasets and permutations", "anchors": ["subprojects/ufjfmltk-core/include/ufjfmltk/core/Data.hpp: changeXVector"]}
{"id": "C126", "title": "copyZero makes an empty dataset with the same description", "statement": "After copyZero(other) the dataset has no samples, says it is empty, has the names and the dimension of other, and accepts new samples as an empty dataset does.", "quantifier": "every pair of datasets, and every later insertion", "why_tests_cant": "it ranges over all states of the target and later calls", "anchors": ["subprojects/ufjfmltk-core/include/ufjfmltk/core/Data.hpp: copyZero", "subprojects/ufjfmltk-core/include/ufjfmltk/core/Data.hpp: insertPoint"]}
{"id": "C127", "title": "A bootstrap sample is a stratified sample of the dataset", "statement": "sampling(k, true) ends; the result has the classes of the dataset in their order, each with its share of k rounded down (at least one), every sample is a copy of a sample of that class, its class table is right, and neither the dataset nor any other sample in memory changes.", "quantifier": "every dataset whose classes all have samples, every size from 1 to the size of the dataset, and every sequence of draws", "why_tests_cant": "all datasets and all random sequences", "anchors": ["subprojects/ufjfmltk-core/include/ufjfmltk/core/Data.hpp: sampling", "subprojects/ufjfmltk-core/include/ufjfmltk/core/Data.hpp: splitByClasses", "subprojects/ufjfmltk-core/include/ufjfmltk/core/Data.hpp: insertPoint"]}
{"id": "C128", "title": "The samples of a bootstrap sample are separate samples with their own ids", "statement": "The samples returned by sampling(k, true) are separate objects (changing one changes no other) and have the ids 1, 2, \u2026 in order.", "quantifier": "every dataset whose classes all have samples and every sequence of draws", "why_tests_cant": "repeated draws depend on the random sequence", "anchors": ["subprojects/ufjfmltk-core/include/ufjfmltk/core/Data.hpp: sampling", "subprojects/ufjfmltk-core/include/ufjfmltk/core/Data.hpp: insertPoint"]}
{"id": "C129", "title": "Bagging trains every estimator on its own bootstrap sample", "statement": "BaggingClassifier::train gives each of its estimators a bootstrap sample of size/n samples of the training set, the datasets of the estimators share nothing with one another or with the training set, and the training set stays as it is.", "quantifier": "every training set, every number of estimators and every sequence of draws", "why_tests_cant": "all datasets, numbers of estimators and random sequences", "anchors": ["subprojects/ufjfmltk-ensemble/include/ufjfmltk/ensemble/BaggingClassifier.hpp: train", "subprojects/ufjfmltk-core/include/ufjfmltk/core/Data.hpp: sampling"]}
{"id": "C130", "title": "Every training sample can take part in bagging", "statement": "For every sample of the training set there are draws for which some estimator of the BaggingClassifier is trained on it.", "quantifier": "every training set, number of estimators and sample", "why_tests_cant": "a negative answer is about all random sequences at once", "anchors": ["subprojects/ufjfmltk-ensemble/include/ufjfmltk/ensemble/BaggingClassifier.hpp: train", "subprojects/ufjfmltk-core/include/ufjfmltk/core/Data.hpp: sampling"]}
{"id": "C131", "title": "setSeed makes bagging reproducible", "statement": "After setSeed(s) with s not zero, the seeds of the estimators of a BaggingClassifier depend on s only, and different estimators have different seeds.", "quantifier": "every seed, every earlier seed, every outcome of the random device and every estimator", "why_tests_cant": "it ranges over the outcomes of the random device", "anchors": ["subprojects/ufjfmltk-ensemble/include/ufjfmltk/ensemble/BaggingClassifier.hpp: train", "subprojects/ufjfmltk-ensemble/include/ufjfmltk/ensemble/BaggingClassifier.hpp: BaggingClassifier", "subprojects/ufjfmltk-core/include/ufjfmltk/core/Learner.hpp: setSeed"]}
{"id": "C132", "title": "The files of a plot hold every sample once", "statement": "Creating a Visualization (or setting its samples) writes for every class a file with exactly the samples of that class, one line each in the order of the dataset, and for a regression dataset one file with the features and the target of every sample; no other file changes; the paths reported are those of the files.", "quantifier": "every dataset and every previous content of the disk", "why_tests_cant": "all datasets, class names and previous files", "anchors": ["subprojects/ufjfmltk-visual/include/ufjfmltk/visual/Visualization.hpp: createTempFiles", "subprojects/ufjfmltk-visual/include/ufjfmltk/visual/Visualization.hpp: getTempFilesNames"]}
{"id": "C133", "title": "The legend of a plot is right", "statement": "In every plot the classes appear in increasing order, each under its own name next to its own file, whatever the order in which the folder is listed.", "quantifier": "every set of classes and class names and every listing order", "why_tests_cant": "the listing order is not under the control of a test", "anchors": ["subprojects/ufjfmltk-visual/include/ufjfmltk/visual/Visualization.hpp: sortLabels", "subprojects/ufjfmltk-visual/include/ufjfmltk/visual/Visualization.hpp: valid_file"]}
{"id": "C134", "title": "A scatter plot draws every class once with the features asked for", "statement": "plot2D(x, y) and plot3D(x, y, z) send a command that draws, for each class and once, the columns of the features asked for, with the title, the labels and the limits of these features.", "quantifier": "every dataset, all features, all titles and labels", "why_tests_cant": "all datasets and texts", "anchors": ["subprojects/ufjfmltk-visual/include/ufjfmltk/visual/Visualization.hpp: plot2D", "subprojects/ufjfmltk-visual/include/ufjfmltk/visual/Visualization.hpp: plot3D", "subprojects/ufjfmltk-visual/include/ufjfmltk/visual/Visualization.hpp: configurePlot", "subprojects/ufjfmltk-visual/include/ufjfmltk/visual/Visualization.hpp: fetchConfigs"]}
{"id": "C135", "title": "The hyperplane drawn is the decision boundary", "statement": "plot2DwithHyperplane and plot3DwithHyperplane draw the set of the points with decision value 0, and for a solution with a margin the two sets with decision values plus and minus margin times norm.", "quantifier": "every dataset with two (three) features and every solution", "why_tests_cant": "an equality of sets of points over all solutions", "anchors": ["subprojects/ufjfmltk-visual/include/ufjfmltk/visual/Visualization.hpp: plot2DwithHyperplane", "subprojects/ufjfmltk-visual/include/ufjfmltk/visual/Visualization.hpp: plot3DwithHyperplane"]}
{"id": "C136", "title": "Every sample is inside the limits of a plot", "statement": "With a scale of at least 1, the limits of an axis contain every value of the feature.", "quantifier": "every column of values and every scale of at least 1", "why_tests_cant": "all columns of real numbers", "anchors": ["subprojects/ufjfmltk-visual/include/ufjfmltk/visual/Visualization.hpp: configureRange"]}
{"id": "C137", "title": "A plot does not depend on earlier plots", "statement": "What a drawing call sends and returns depends on its arguments, the samples and the terminal set last, not on earlier calls on the same object.", "quantifier": "every sequence of earlier calls and every call", "why_tests_cant": "it ranges over all histories of an object", "anchors": ["subprojects/ufjfmltk-visual/include/ufjfmltk/visual/Visualization.hpp: fetchConfigs", "subprojects/ufjfmltk-visual/include/ufjfmltk/visual/Visualization.hpp: configurePlot", "subprojects/ufjfmltk-visual/include/ufjfmltk/visual/Visualization.hpp: plotDecisionSurface2D"]}
{"id": "C138", "title": "The script returned is the script executed", "statement": "The text returned by a drawing call is the text that was sent to gnuplot, with line breaks for semicolons.", "quantifier": "every drawing call, all arguments and settings", "why_tests_cant": "all arguments and texts", "anchors": ["subprojects/ufjfmltk-visual/include/ufjfmltk/visual/Visualization.hpp: prepareScript", "subprojects/ufjfmltk-visual/include/ufjfmltk/visual/Visualization.hpp: execute_command", "subprojects/ufjfmltk-visual/include/ufjfmltk/visual/Visualization.hpp: plot3DwithHyperplane"]}
{"id": "C139", "title": "The settings of a Visualization are used", "statement": "The terminal, the title and the style set on a Visualization, and the title, format and saving asked for in a call, appear in what the call sends.", "quantifier": "every setting and every drawing call", "why_tests_cant": "all texts and all calls", "anchors": ["subprojects/ufjfmltk-visual/include/ufjfmltk/visual/Visualization.hpp: setTitle", "subprojects/ufjfmltk-visual/include/ufjfmltk/visual/Visualization.hpp: setStyle", "subprojects/ufjfmltk-visual/include/ufjfmltk/visual/Visualization.hpp: setTerminal", "subprojects/ufjfmltk-visual/include/ufjfmltk/visual/Visualization.hpp: fetchConfigs"]}
{"id": "C140", "title": "Regression plots show the target", "statement": "plot1DRegresion, plot1DRegresionHyperplane and plot2DRegresion draw the features asked for against the target.", "quantifier": "every regression dataset, every number of features and every feature", "why_tests_cant": "all datasets and dimensions", "anchors": ["subprojects/ufjfmltk-visual/include/ufjfmltk/visual/Visualization.hpp: plot1DRegresion", "subprojects/ufjfmltk-visual/include/ufjfmltk/visual/Visualization.hpp: plot1DRegresionHyperplane", "subprojects/ufjfmltk-visual/include/ufjfmltk/visual/Visualization.hpp: plot2DRegresion"]}
{"id": "C141", "title": "The decision surface shows the decision of the learner over the two features asked for", "statement": "plotDecisionSurface2D(learner, x, y) evaluates the learner on an evenly spaced grid over the limits of the features x and y, in this order, trains an untrained learner on exactly these features, and shows the samples of every class at these features.", "quantifier": "every classification dataset, every pair of features, every learner and grid size", "why_tests_cant": "all datasets, pairs of features and decision functions", "anchors": ["subprojects/ufjfmltk-visual/include/ufjfmltk/visual/Visualization.hpp: plotDecisionSurface2D", "subprojects/ufjfmltk-core/include/ufjfmltk/core/Data.hpp: selectFeatures"]}
{"id": "C142", "title": "A Visualization works in a folder of its own", "statement": "Whatever folders exist, creating a Visualization ends and its files go to a folder that did not exist before; no other folder is touched by it.", "quantifier": "every set of existing folders and every value of the counter", "why_tests_cant": "it ranges over all states of the disk", "anchors": ["subprojects/ufjfmltk-visual/include/ufjfmltk/visual/Visualization.hpp: create_plotfolder"]}
{"id": "C143", "title": "A Visualization removes what it made and nothing else", "statement": "After a Visualization is created, given any number of other datasets and destroyed, the folders on disk are those that were there before.", "quantifier": "every set of existing folders and every number of datasets", "why_tests_cant": "it ranges over all states of the disk and all histories", "anchors": ["subprojects/ufjfmltk-visual/include/ufjfmltk/visual/Visualization.hpp: ~Visualization", "subprojects/ufjfmltk-visual/include/ufjfmltk/visual/Visualization.hpp: removeTempFiles", "subprojects/ufjfmltk-visual/include/ufjfmltk/visual/Visualization.hpp: create_plotfolder", "subprojects/ufjfmltk-visual/include/ufjfmltk/visual/Visualization.hpp: setSample"]}
{"id": "C144", "title": "Assigning an expression to a point uses the old components", "statement": "p = e and p op= e, where the expression e may mention p itself, its components p[k] and its subscripts p[ix], give the values of e on the components p had before the statement.", "quantifier": "every expression, every point and every operation", "why_tests_cant": "all expressions and all ways in which they can mention the target", "anchors": ["subprojects/ufjfmltk-core/include/ufjfmltk/core/Point.hpp: operator=", "subprojects/ufjfmltk-core/include/ufjfmltk/core/Point.hpp: operator+=", "subprojects/ufjfmltk-core/include/ufjfmltk/core/ExprScalar.hpp: A_Scalar", "subprojects/ufjfmltk-core/include/ufjfmltk/core/ExprOps.hpp: A_Subscript"]}
{"id": "C145", "title": "Combining a point with a scalar treats all components alike", "statement": "p op= c applies the operation with the same c to every component, and p = c makes every component c, also when c is a component of p.", "quantifier": "every point, scalar and operation", "why_tests_cant": "the scalar is taken by reference, so it depends on where it lives", "anchors": ["subprojects/ufjfmltk-core/include/ufjfmltk/core/Point.hpp: operator+=", "subprojects/ufjfmltk-core/include/ufjfmltk/core/Point.hpp: operator-=", "subprojects/ufjfmltk-core/include/ufjfmltk/core/Point.hpp: operator*=", "subprojects/ufjfmltk-core/include/ufjfmltk/core/Point.hpp: operator/=", "subprojects/ufjfmltk-core/include/ufjfmltk/core/Point.hpp: operator="]}
{"id": "C146", "title": "Assigning a vector to a point gives it exactly those components", "statement": "After p = v for a std::vector v, the components of p are those of v.", "quantifier": "every point and every vector", "why_tests_cant": "all pairs of lengths", "anchors": ["subprojects/ufjfmltk-core/include/ufjfmltk/core/Point.hpp: operator=(std::vector<T> const&)"]}
{"id": "C147", "title": "dtoa writes the number", "statement": "The text written by dtoa denotes a number of the same sign that is at most 1e-9 away (relatively, for numbers written with an exponent), integers are written as their numerals, and the text fits its buffer.", "quantifier": "every finite number", "why_tests_cant": "all numbers, in particular the boundaries between the notations", "anchors": ["subprojects/ufjfmltk-core/src/Utils.cpp: dtoa"]}
{"id": "C148", "title": "atod reads back what dtoa writes", "statement": "atod(dtoa(n)) is at most 1e-9 away from n, and is n for an integer.", "quantifier": "every finite number", "why_tests_cant": "all numbers", "anchors": ["subprojects/ufjfmltk-core/src/Utils.cpp: dtoa", "subprojects/ufjfmltk-core/src/Utils.cpp: atod"]}
{"id": "C149", "title": "A future becomes ready exactly when its task has ended", "statement": "In every interleaving a future returned by submit is ready just when its task has ended, and then holds what the task returned or threw; when wait_for_tasks has returned from an unpaused pool the futures of all tasks submitted before are ready.", "quantifier": "every number of threads, every set of tasks and every interleaving", "why_tests_cant": "all schedules", "anchors": ["subprojects/ufjfmltk-core/include/ufjfmltk/core/ThreadPool.hpp: submit", "subprojects/ufjfmltk-core/include/ufjfmltk/core/ThreadPool.hpp: worker", "subprojects/ufjfmltk-core/include/ufjfmltk/core/ThreadPool.hpp: wait_for_tasks"]}
{"id": "C150", "title": "reset changes the threads and nothing else", "statement": "When reset(n) returns, in every interleaving with the workers, the pool has n threads (the number of the hardware for n = 0), is paused just as before, and no task was lost, run twice or is still running: every task submitted before has finished or is still waiting, in the same order.", "quantifier": "every state of the pool, every thread count and every interleaving with the workers", "why_tests_cant": "all schedules", "anchors": ["subprojects/ufjfmltk-core/include/ufjfmltk/core/ThreadPool.hpp: reset", "subprojects/ufjfmltk-core/include/ufjfmltk/core/ThreadPool.hpp: destroy_threads", "subprojects/ufjfmltk-core/include/ufjfmltk/core/ThreadPool.hpp: create_threads"]}
{"id": "C151", "title": "The destructor of the pool finishes all tasks", "statement": "When the destructor has joined the threads, every task ever submitted has been executed to its end.", "quantifier": "every state of the pool and every interleaving with the workers", "why_tests_cant": "all schedules", "anchors": ["subprojects/ufjfmltk-core/include/ufjfmltk/core/ThreadPool.hpp: ~ThreadPool", "subprojects/ufjfmltk-core/include/ufjfmltk/core/ThreadPool.hpp: wait_for_tasks", "subprojects/ufjfmltk-core/include/ufjfmltk/core/ThreadPool.hpp: destroy_threads"]}
{"id": "C152", "title": "A task that throws does not end the program", "statement": "Whatever tasks throw, no exception leaves a worker thread and all other tasks keep being executed.", "quantifier": "every set of tasks and every interleaving", "why_tests_cant": "all schedules", "anchors": ["subprojects/ufjfmltk-core/include/ufjfmltk/core/ThreadPool.hpp: push_task", "subprojects/ufjfmltk-core/include/ufjfmltk/core/ThreadPool.hpp: submit", "subprojects/ufjfmltk-core/include/ufjfmltk/core/ThreadPool.hpp: worker"]}
{"id": "C153", "title": "A copy of a classifier behaves like the original", "statement": "A copy made by the copy constructor or by assignment has the samples, parameters and counters of the original, answers every point as it does, and learns the same when trained.", "quantifier": "every classifier object, in any state", "why_tests_cant": "all states an object can be in when it is copied, and all points", "anchors": ["subprojects/ufjfmltk-classifier/include/ufjfmltk/classifier/Classifier.hpp: Classifier(const Classifier&)", "subprojects/ufjfmltk-core/include/ufjfmltk/core/Learner.hpp: Learner(const Learner&)", "subprojects/ufjfmltk-core/include/ufjfmltk/core/Solution.hpp: operator=", "subprojects/ufjfmltk-classifier/include/ufjfmltk/classifier/PrimalClassifier.hpp: PrimalClassifier(const PrimalClassifier&)"]}
{"id": "C154", "title": "Giving a classifier a solution replaces the one it has", "statement": "After setSolution(s) or setW(w) the classifier's weights are exactly those given, and it answers with them.", "quantifier": "every classifier, every solution and every weight vector", "why_tests_cant": "all pairs of lengths of the old and new weights", "anchors": ["subprojects/ufjfmltk-classifier/include/ufjfmltk/classifier/Classifier.hpp: setSolution", "subprojects/ufjfmltk-classifier/include/ufjfmltk/classifier/PrimalClassifier.hpp: setW", "subprojects/ufjfmltk-core/include/ufjfmltk/core/Solution.hpp: operator=", "subprojects/ufjfmltk-core/include/ufjfmltk/core/Point.hpp: operator="]}
{"id": "C155", "title": "Every kernel is deleted exactly once", "statement": "In every program that constructs, copies, configures, trains, asks and destroys dual classifiers, no kernel object is used after it is deleted or deleted twice, and when all classifiers are destroyed all kernels they allocated are released.", "quantifier": "every sequence of operations on any number of objects", "why_tests_cant": "all programs; the pointer is shared by copies and deleted by some classes only", "anchors": ["subprojects/ufjfmltk-classifier/include/ufjfmltk/classifier/SMO.hpp: ~SMO, train", "subprojects/ufjfmltk-classifier/include/ufjfmltk/classifier/DualClassifier.hpp: kernel, setKernel", "subprojects/ufjfmltk-classifier/include/ufjfmltk/classifier/Perceptron.hpp: PerceptronDual, PerceptronFixedMarginDual", "subprojects/ufjfmltk-classifier/include/ufjfmltk/classifier/IMA.hpp: IMADual"]}
{"id": "C156", "title": "A dual classifier trains with the kernel of its own samples", "statement": "Each training of a dual classifier uses the kernel matrix of the samples, kernel type and parameter last given to that object, whatever was trained before and whatever happens to copies of it; getKernelType answers that type.", "quantifier": "every sequence of operations on any number of objects, every dataset", "why_tests_cant": "all histories of an object and its copies", "anchors": ["subprojects/ufjfmltk-classifier/include/ufjfmltk/classifier/SMO.hpp: train", "subprojects/ufjfmltk-classifier/include/ufjfmltk/classifier/Perceptron.hpp: PerceptronDual::train, PerceptronFixedMarginDual::train", "subprojects/ufjfmltk-classifier/include/ufjfmltk/classifier/IMA.hpp: IMADual::train", "subprojects/ufjfmltk-core/include/ufjfmltk/core/Kernel.hpp: compute, recompute", "subprojects/ufjfmltk-classifier/include/ufjfmltk/classifier/OneVsOne.hpp: train", "subprojects/ufjfmltk-classifier/include/ufjfmltk/classifier/OneVsAll.hpp: train"]}
{"id": "C157", "title": "Training an object again is training a new one", "statement": "Training a classifier that was trained before, on the same or other samples, gives what a new object with the same parameters gives.", "quantifier": "every classifier, every earlier history and every dataset", "why_tests_cant": "all histories before the second training", "anchors": ["subprojects/ufjfmltk-classifier/include/ufjfmltk/classifier/Perceptron.hpp: PerceptronPrimal::train, PerceptronDual::train", "subprojects/ufjfmltk-core/include/ufjfmltk/core/Learner.hpp: setSamples"]}
{"id": "C158", "title": "Asking about a dataset is asking about each of its samples", "statement": "batchEvaluate(data) returns data.size() predictions; entry i is what evaluate answers for sample i alone.", "quantifier": "every learner, every dataset and every order in which the entries are computed", "why_tests_cant": "all datasets and orders of evaluation; evaluate may change the learner", "anchors": ["subprojects/ufjfmltk-core/include/ufjfmltk/core/Learner.hpp: batchEvaluate"]}
{"id": "C159", "title": "batchEvaluateProbability gives each sample's probability", "statement": "Entry i of batchEvaluateProbability(data) is the probability of the prediction for sample i.", "quantifier": "every classifier and every dataset", "why_tests_cant": "all datasets and all probabilities", "anchors": ["subprojects/ufjfmltk-classifier/include/ufjfmltk/classifier/Classifier.hpp: batchEvaluateProbability, evaluateProbability"]}
{"id": "C160", "title": "Repeated k-fold splits are independent full splits", "statement": "kfoldsplit(data, k, qtde) returns qtde*k pairs, numbered by execution and fold in order; within each execution every sample is tested exactly once and each pair holds every sample exactly once; no two executions share sample objects; the source is unchanged.", "quantifier": "every dataset, number of folds and executions, seed, and outcome of the random device", "why_tests_cant": "all datasets, seeds and shuffles", "anchors": ["subprojects/ufjfmltk-valid/include/ufjfmltk/valid/Validation.hpp: kfoldsplit"]}
{"id": "C161", "title": "A seed makes splits reproducible", "statement": "With a seed other than zero, partTrainTest, both kfoldsplit, kfold and kkfold split the data and seed the classifier in a way that depends only on their arguments.", "quantifier": "every dataset, seed, number of folds and executions, and outcome of the random device", "why_tests_cant": "all seeds and all outcomes of the random device", "anchors": ["subprojects/ufjfmltk-valid/include/ufjfmltk/valid/Validation.hpp: partTrainTest, kfoldsplit, kfold, kkfold", "subprojects/ufjfmltk-core/include/ufjfmltk/core/Data.hpp: shuffle, splitSample"]}
{"id": "C162", "title": "Lines printed through a synced stream are never mixed", "statement": "When several threads print through one synced_stream, the output is a sequence of whole calls, each thread's in its own order; no thread waits for ever.", "quantifier": "every number of threads, every program of prints and every schedule", "why_tests_cant": "all interleavings of the threads", "anchors": ["subprojects/ufjfmltk-core/include/ufjfmltk/core/ThreadPool.hpp: synced_stream::print, println"]}
{"id": "C163", "title": "Inserting a sample of another dataset by its position", "statement": "d.insertPoint(other, i) appends the i-th sample of other to d, answers true exactly when it did so, refuses every position that other does not have, and leaves other as it was.", "quantifier": "every pair of datasets, every position (negative ones and those past the end included) and both values of keepIndex", "why_tests_cant": "the bounds test is an unsigned comparison and the sample is shared between the datasets; only particular positions, sizes and dimensions show it", "anchors": ["subprojects/ufjfmltk-core/include/ufjfmltk/core/Data.hpp: Data::insertPoint(const Data&, int, bool)"]}
{"id": "C164", "title": "The margin AOS predicts is the margin that remains", "statement": "When the search considers dropping a feature, the margin it predicts for the node is the margin of the current separator without that feature, so features that cost less margin come first.", "quantifier": "every weight vector, norm exponent, margin, dataset and state of the search", "why_tests_cant": "the formula must hold for every weight vector; for equal weights the wrong and the right formula agree", "anchors": ["subprojects/ufjfmltk-featselect/include/ufjfmltk/featselect/AOS.hpp: AOS::mainLoop"]}
{"id": "C165", "title": "A pass in the order of the index visits every sample", "statement": "Whatever was inserted into or removed from a dataset, the first size() entries of getIndex() are the positions 0..size()-1, each once, so that training passes visit every sample.", "quantifier": "every history of insertions and removals, every index left by a trainer", "why_tests_cant": "the defect needs a particular history (a removal followed by two insertions, or training followed by a removal)", "anchors": ["subprojects/ufjfmltk-core/include/ufjfmltk/core/Data.hpp: Data::getIndex", "subprojects/ufjfmltk-core/include/ufjfmltk/core/Data.hpp: Data::removePoint", "subprojects/ufjfmltk-core/include/ufjfmltk/core/Data.hpp: Data::insertPoint", "subprojects/ufjfmltk-classifier/include/ufjfmltk/classifier/Perceptron.hpp: PerceptronPrimal::train"]}
{"id": "C166", "title": "Members of a trained ensemble answer as if trained alone", "statement": "After VotingClassifier::train every member answers each point as it would had it been trained by itself on the samples last given to the ensemble, with the seed of the ensemble; the vote is taken over those answers.", "quantifier": "every ensemble (any number and any classes of members, whatever samples and seeds they had), every dataset, both setSamples, every query point", "why_tests_cant": "the members share one dataset object; whether one member's training disturbs another depends on the combination of classes, the order and the shuffle", "anchors": ["subprojects/ufjfmltk-ensemble/include/ufjfmltk/ensemble/VotingClassifier.hpp: VotingClassifier::train", "subprojects/ufjfmltk-ensemble/include/ufjfmltk/ensemble/Ensemble.hpp: Ensemble::setSamples", "subprojects/ufjfmltk-classifier/include/ufjfmltk/classifier/Perceptron.hpp: BalancedPerceptron::train"]}
{"id": "C167", "title": "A copy of an ensemble is independent of the original", "statement": "A copy of a voting ensemble answers like the original, and giving the copy other samples and training it does not change what the original answers.", "quantifier": "every ensemble, every dataset given to the copy, every query point", "why_tests_cant": "needs every history of two objects that share state through pointers", "anchors": ["subprojects/ufjfmltk-ensemble/include/ufjfmltk/ensemble/VotingClassifier.hpp: VotingClassifier", "subprojects/ufjfmltk-ensemble/include/ufjfmltk/ensemble/Ensemble.hpp: Ensemble"]}
{"id": "C168", "title": "Bagging an ensemble trains every estimator on its own sample", "statement": "In a BaggingClassifier whose base estimator is itself an ensemble, each estimator answers according to the sample drawn for it.", "quantifier": "every base ensemble, number of estimators, drawn samples, seeds and query points", "why_tests_cant": "the estimators are trained in one order and asked later; the sharing shows only over the whole history", "anchors": ["subprojects/ufjfmltk-ensemble/include/ufjfmltk/ensemble/BaggingClassifier.hpp: BaggingClassifier::train", "subprojects/ufjfmltk-ensemble/include/ufjfmltk/ensemble/VotingClassifier.hpp: VotingClassifier"]}
{"id": "C169", "title": "Every fold of a cross-validation is evaluated by a classifier that has not seen its test samples", "statement": "kfold reports the error of the classifier as it was given, trained for each fold on the training samples of that fold only; what was learnt in earlier folds does not count.", "quantifier": "every classifier class, every dataset and split into folds, every seed", "why_tests_cant": "whether something is carried from fold to fold depends on the classifier, the order of the folds and the samples", "anchors": ["subprojects/ufjfmltk-valid/include/ufjfmltk/valid/Validation.hpp: kfold", "subprojects/ufjfmltk-classifier/include/ufjfmltk/classifier/Perceptron.hpp: PerceptronPrimal::train"]}
{"id": "C170", "title": "A multi-class wrapper can be given another dataset", "statement": "After setSamples with another dataset and train, a OneVsOne or OneVsAll classifier predicts like one constructed with that dataset.", "quantifier": "every base classifier, every pair of datasets and every query", "why_tests_cant": "the learners are made once by the constructor; whether they fit depends on the number of classes of both datasets", "anchors": ["subprojects/ufjfmltk-classifier/include/ufjfmltk/classifier/OneVsOne.hpp: OneVsOne::train, OneVsOne::evaluate", "subprojects/ufjfmltk-classifier/include/ufjfmltk/classifier/OneVsAll.hpp: OneVsAll::train, OneVsAll::evaluate"]}
{"id": "C171", "title": "The formulation of a multi-class wrapper is that of its base classifier", "statement": "getFormulationString of a OneVsOne or OneVsAll classifier returns what its base classifier returns, before and after training.", "quantifier": "every base classifier and every dataset", "why_tests_cant": "the number of classes of the dataset is arbitrary, including none and one", "anchors": ["subprojects/ufjfmltk-classifier/include/ufjfmltk/classifier/OneVsOne.hpp: getFormulationString", "subprojects/ufjfmltk-classifier/include/ufjfmltk/classifier/OneVsAll.hpp: getFormulationString"]}
{"id": "C172", "title": "Loading a file replaces what the dataset held", "statement": "After a successful load the dataset describes the file, as if it had been loaded into a new dataset: samples, labels, class counts, feature names, name.", "quantifier": "every dataset, however it was made, every file of every type", "why_tests_cant": "it must hold for every earlier content of the dataset and every file", "anchors": ["subprojects/ufjfmltk-core/include/ufjfmltk/core/Data.hpp: Data::load, load_csv, load_data, load_arff, load_txt, process_class"]}
{"id": "C173", "title": "A load that fails leaves the dataset as it was", "statement": "When load returns false, because the file cannot be opened, is of unknown type or has lines of different dimension, the dataset is unchanged; a dataset constructed from such a file is empty.", "quantifier": "every dataset, every path and every file", "why_tests_cant": "files can be malformed at any line", "anchors": ["subprojects/ufjfmltk-core/include/ufjfmltk/core/Data.hpp: Data::load, Data(const char*)"]}
{"id": "C174", "title": "Looking ahead does not change what a feature search returns in kind", "statement": "With any look-ahead depth the ordered feature search returns a dataset made of the given samples restricted to some of their features, with at least the requested number of features; with depth 0 it is exactly the search without look-ahead.", "quantifier": "every dataset, classifier, sorting, depth, branching and margin settings", "why_tests_cant": "the queue and the restarts of the look-ahead depend on all trainings made so far", "anchors": ["subprojects/ufjfmltk-featselect/include/ufjfmltk/featselect/AOS.hpp: selectFeatures, mainLoop, lookAhead, setLookAheadDepth, AOS constructor"]}
{"id": "C175", "title": "The features a search returns were trained on", "statement": "The dataset a feature search returns is either the whole dataset or one on which a training of the classifier succeeded.", "quantifier": "every dataset, classifier, depth and setting", "why_tests_cant": "it must hold for every order in which nodes are expanded and pruned", "anchors": ["subprojects/ufjfmltk-featselect/include/ufjfmltk/featselect/AOS.hpp: selectFeatures, mainLoop, lookAhead, setLookAheadDepth, AOS constructor"]}
{"id": "C176", "title": "The pruning margin stays in force", "statement": "The pruning margin given to the constructor of the search decides which candidates are tried, whatever the look-ahead depth.", "quantifier": "every dataset, classifier, depth and margin", "why_tests_cant": "the margin is state that every expansion may overwrite", "anchors": ["subprojects/ufjfmltk-featselect/include/ufjfmltk/featselect/AOS.hpp: selectFeatures, mainLoop, lookAhead, setLookAheadDepth, AOS constructor"]}
{"id": "C177", "title": "A drawing joins the picture on display", "statement": "In a gnuplot session every drawing is added to the picture on display if that is of the same kind, flat or spatial, and begins a new one if not or if nothing is on display; it is drawn with the style and the smoothing in force. replot repeats the picture and does nothing if there is none.", "quantifier": "every history of calls of a session, every text, number, file and style", "why_tests_cant": "whether a picture is on display depends on all calls so far and on every text ever sent", "anchors": ["subprojects/ufjfmltk-visual/src/gnuplot_i.cpp: Gnuplot::cmd, plot_slope, plot_equation, plot_equation3d, plotfile_x, plotfile_xy, plotfile_xy_err, plotfile_xyz, plot_image, set_style, set_smooth, reset_plot, reset_all, replot", "subprojects/ufjfmltk-visual/include/ufjfmltk/visual/gnuplot_i.hpp: Gnuplot"]}
{"id": "C178", "title": "Temporary files are counted and cleaned up", "statement": "The temporary files of the sessions of a process are never more than 63, the shared counter is their number, files that were on the disk are not touched, and when every session is done nothing is left behind: no file and no open descriptor.", "quantifier": "every program that makes, uses and destroys any number of sessions in any order", "why_tests_cant": "the counter and the disk are shared by all sessions and depend on the whole history of the process", "anchors": ["subprojects/ufjfmltk-visual/src/gnuplot_i.cpp: Gnuplot::create_tmpfile, remove_tmpfiles, ~Gnuplot", "subprojects/ufjfmltk-visual/include/ufjfmltk/visual/gnuplot_i.hpp: plot_x, plot_xy, plot_xy_err, plot_xyz"]}
{"id": "C179", "title": "The data of a drawing reach gnuplot", "statement": "A drawing from vectors succeeds exactly if they are not empty, of one length, a name can be had and the limit is not reached; then the file named in the command holds the vectors row by row, and it stays until its own session removes its files.", "quantifier": "every vector, image, title and session, and every program around the drawing", "why_tests_cant": "the file may be taken away by any other session at any later moment", "anchors": ["subprojects/ufjfmltk-visual/src/gnuplot_i.cpp: Gnuplot::create_tmpfile, remove_tmpfiles, ~Gnuplot", "subprojects/ufjfmltk-visual/include/ufjfmltk/visual/gnuplot_i.hpp: plot_x, plot_xy, plot_xy_err, plot_xyz"]}
{"id": "C180", "title": "Which gnuplot is started", "statement": "A session starts the gnuplot of the configured directory if there is one, else that of the first directory of PATH that has one, else an exception is thrown; an attempt to configure a directory that fails changes nothing.", "quantifier": "every directory, every PATH with any number of directories and every set of executables", "why_tests_cant": "PATH is a text of any length with any number of directories, empty ones among them", "anchors": ["subprojects/ufjfmltk-visual/src/gnuplot_i.cpp: Gnuplot::get_program_path, set_GNUPlotPath, init", "subprojects/ufjfmltk-visual/include/ufjfmltk/visual/gnuplot_i.hpp: stringtok"]}
{"id": "C181", "title": "The progress numbers of a thread pool are right", "statement": "At every moment get_tasks_total is the number of tasks given to the pool and not finished, get_tasks_queued the number of those not started, and get_tasks_running the number of those being executed, never more than there are threads.", "quantifier": "every number of threads, every schedule of submitters and workers and every moment of the calls", "why_tests_cant": "the numbers are read while other threads change them, and one of them is computed from two reads", "anchors": ["subprojects/ufjfmltk-core/include/ufjfmltk/core/ThreadPool.hpp: ThreadPool::get_tasks_queued, get_tasks_running, get_tasks_total, push_task, worker"]}
{"id": "C182", "title": "Random points are reproducible", "statement": "random_init fills a point with the asked number of values of the distribution, gives it label 0 and leaves its id alone; with a seed that is not zero the values depend on the seed and the size only.", "quantifier": "every size, seed, distribution, history of the generator and machine", "why_tests_cant": "depends on everything drawn before and on the random device of the machine", "anchors": ["subprojects/ufjfmltk-core/include/ufjfmltk/core/Point.hpp: random_init", "subprojects/ufjfmltk-core/src/Random.cpp: random::init, floatInRange"]}
{"id": "C183", "title": "Printed points and tables show what they print", "statement": "A printed point shows its number, its components in order and its label, so that different points are printed differently; a dataset is printed as one line per point; a printed confusion matrix shows every entry, with the names of the classes if asked for.", "quantifier": "every point, dataset, list of classes and names, and matrix", "why_tests_cant": "two different objects may be printed alike; tests look at single outputs", "anchors": ["subprojects/ufjfmltk-core/include/ufjfmltk/core/Point.hpp: operator<<", "subprojects/ufjfmltk-core/include/ufjfmltk/core/Data.hpp: operator<<", "subprojects/ufjfmltk-core/src/Utils.cpp: utils::printConfusionMatrix"]}
{"id": "C184", "title": "Operations given the dataset itself act as if given a copy; a copy of some classes has their samples", "statement": "d = d, d.join(d), d.insertPoint(d, i), d.copy(d) and d.classesCopy(d, classes) do what they would do with an equal second dataset; classesCopy(source, classes) makes the dataset consist of the samples of the source with one of the classes, and count them.", "quantifier": "every dataset with right bookkeeping, every sample and every set of classes", "why_tests_cant": "the two arguments share their points; a test uses two different objects and does not run loops that do not end", "anchors": ["subprojects/ufjfmltk-core/include/ufjfmltk/core/Data.hpp: Data::copy, Data::join, Data::insertPoint, Data::classesCopy, Data::operator="]}
{"id": "C185", "title": "The classes of a dataset are the labels of its samples, whatever numbers these are", "statement": "However the samples of a classification dataset are labelled, its classes are the different labels, each once, the counts are the numbers of samples with each label, and splitting by classes puts samples into one part just if they have the same label.", "quantifier": "every list of labels, with or without fractions", "why_tests_cant": "labels are stored as floating-point numbers and classes as integers; tests use whole labels", "anchors": ["subprojects/ufjfmltk-core/include/ufjfmltk/core/Data.hpp: Data::insertPoint, Data::removePoint, Data::computeClassesDistribution, Data::splitByClasses"]}
{"id": "C186", "title": "Recursive elimination stops when cross-validation shows too high a rise of the error", "statement": "With a CrossValidation of qtde runs, RFE::selectFeatures removes the features with the least weights of the classifier trained on the data, round by round, until the final dimension is reached or the mean cross-validation error is more than limit_error above the mean error with all features; it stops for no other reason, and the dataset it returns is one whose error was within the limit.", "quantifier": "every dataset, every sequence of trained weights and of reported errors, every number of runs, step and limit", "why_tests_cant": "the stop depends on the whole history of rounds and on errors that random splits produce", "anchors": ["subprojects/ufjfmltk-featselect/include/ufjfmltk/featselect/RFE.hpp: RFE::selectFeatures", "subprojects/ufjfmltk-valid/include/ufjfmltk/valid/Validation.hpp: CrossValidation, kfold"]}
{"id": "C187", "title": "The next round of an elimination starts from the weights of the features that stay", "statement": "When RFE removes features with a primal classifier, the training of the next round starts from the weights of the features that stay, each weight with its feature.", "quantifier": "every weight vector, including zero and equal weights, every number of removed features and every earlier round", "why_tests_cant": "zero and equal weights are rare in test data, and the vector carries values from earlier rounds", "anchors": ["subprojects/ufjfmltk-featselect/include/ufjfmltk/featselect/RFE.hpp: RFE::selectFeatures"]}
{"id": "C188", "title": "A decision surface is drawn with the right grid, classes and legend", "statement": "plotDecisionSurface2D sends gnuplot a command that draws the values of the decision function on the grid and, over it, every class once under its own name from its own file, with the colours spanning the classes; the files hold exactly the grid values and the samples of each class, and the text returned is that command.", "quantifier": "every classification dataset, pair of features, grid size, learner and folder", "why_tests_cant": "it ranges over all datasets, class names and learners, and tests have no gnuplot to look at", "anchors": ["subprojects/ufjfmltk-visual/include/ufjfmltk/visual/Visualization.hpp: plotDecisionSurface2D, sortLabels"]}
{"id": "C189", "title": "A Visualization asked to keep its files keeps them", "statement": "With keep_temp_files, after any number of datasets given to the object and after its destruction, the files of every dataset are in a folder of their own that is still there, and every other folder is unchanged.", "quantifier": "every state of the disk, every number of datasets and all times of day", "why_tests_cant": "it ranges over histories, disk states and the clock", "anchors": ["subprojects/ufjfmltk-visual/include/ufjfmltk/visual/Visualization.hpp: removeTempFiles, setSample, create_plotfolder, ~Visualization"]}
{"id": "C190", "title": "Projecting ensemble weights gives the nearest point of the simplex", "statement": "The weights that AutoWeightedVoting uses with the simplex option are the point nearest to the weights drawn among those that are non-negative and sum to one.", "quantifier": "every number of learners and every list of weights", "why_tests_cant": "it ranges over all weight vectors of all lengths", "anchors": ["subprojects/ufjfmltk-ensemble/include/ufjfmltk/ensemble/AutoWeightedVoting.hpp: simplex_projection"]}
{"id": "C191", "title": "Choosing the weights of an ensemble keeps the most accurate weights it tried", "statement": "After train, the weights of an AutoWeightedVoting are, among all the weightings evaluated during the search, one with the highest accuracy on the held-out samples, and getBestGeneration says in which generation it was found.", "quantifier": "every set of learners, held-out set, initial population, number of generations and sequence of random numbers", "why_tests_cant": "it ranges over all random sequences and all generations", "anchors": ["subprojects/ufjfmltk-ensemble/include/ufjfmltk/ensemble/AutoWeightedVoting.hpp: train, new_sample, get_best_solution"]}
{"id": "C192", "title": "Choosing the weights of an ensemble ends", "statement": "train of an AutoWeightedVoting returns after the given number of generations for every ensemble, when the random numbers are fair.", "quantifier": "every number of learners, population and fair sequence of random numbers", "why_tests_cant": "non-termination cannot be observed, and it ranges over all random sequences", "anchors": ["subprojects/ufjfmltk-ensemble/include/ufjfmltk/ensemble/AutoWeightedVoting.hpp: new_sample, train"]}
{"id": "C193", "title": "The seed of an ensemble with chosen weights fixes its split", "statement": "With the same seed, train of an AutoWeightedVoting holds out the same samples; different seeds hold out different ones.", "quantifier": "every dataset, every seed and every output of the random device", "why_tests_cant": "it ranges over all outputs of the random device", "anchors": ["subprojects/ufjfmltk-ensemble/include/ufjfmltk/ensemble/AutoWeightedVoting.hpp: train", "subprojects/ufjfmltk-valid/include/ufjfmltk/valid/Validation.hpp: partTrainTest"]}
{"id": "C194", "title": "The search for weights stops when the weights are perfect", "statement": "train of an AutoWeightedVoting makes another generation exactly as long as the best weighting does not get every held-out sample right and generations are left.", "quantifier": "every ensemble, held-out set and sequence of random numbers", "why_tests_cant": "it ranges over all histories of the search", "anchors": ["subprojects/ufjfmltk-ensemble/include/ufjfmltk/ensemble/AutoWeightedVoting.hpp: train"]}
{"id": "C195", "title": "The precision, recall and true negative rate of a cross-validation are averages over its folds", "statement": "In the report of kfold the precision, recall and true negative rate are the averages over the folds of the rates measured on each held-out fold, and in the report of kkfold the averages over its executions; so they lie between zero and one, and are one for a classifier that makes no error.", "quantifier": "every number of folds and executions and every list of answers in each fold", "why_tests_cant": "it ranges over all answers of all classifiers on all folds", "anchors": ["subprojects/ufjfmltk-valid/include/ufjfmltk/valid/Validation.hpp: kfold", "subprojects/ufjfmltk-valid/include/ufjfmltk/valid/Validation.hpp: kkfold"]}
{"id": "C196", "title": "The final validation of a repeated cross-validation trains on the training samples", "statement": "The final validation of kkfold trains the classifier on the training part of the split only, and a dual classifier uses the kernel matrix of exactly the samples it is trained on, not one from an earlier fold.", "quantifier": "every dataset and split, every kernel type and parameter, every number of executions and folds before", "why_tests_cant": "it ranges over all histories of executions and folds before the final validation", "anchors": ["subprojects/ufjfmltk-valid/include/ufjfmltk/valid/Validation.hpp: kkfold", "subprojects/ufjfmltk-classifier/include/ufjfmltk/classifier/DualClassifier.hpp: recomputeKernel"]}
{"id": "C197", "title": "An expression kept in a variable can be used later", "statement": "After `auto e = <expression of points>;` a point constructed from e at any later time has the component-wise value of the expression, with the values its points and scalars have at that time, as long as the variables in it exist.", "quantifier": "every program of declarations, assignments and kept expressions, of any length and nesting", "why_tests_cant": "it ranges over all programs; a use of an object that no longer exists often seems to work", "anchors": ["subprojects/ufjfmltk-core/include/ufjfmltk/core/ExprTraits.hpp: A_Traits", "subprojects/ufjfmltk-core/include/ufjfmltk/core/ExprOps.hpp: BExprOp, UExprOp", "subprojects/ufjfmltk-core/include/ufjfmltk/core/ExprScalar.hpp: A_Scalar", "subprojects/ufjfmltk-core/include/ufjfmltk/core/Point.hpp: operator+"]}
{"id": "C198", "title": "Replacing or changing samples in place keeps the dataset's bookkeeping right", "statement": "setPoint(i, p) and d[i] = p replace exactly the sample at position i, and apply(f) changes every sample of the dataset by f exactly once and no other sample; afterwards the class list, the class counts and the dimension still describe the samples.", "quantifier": "every consistent dataset of any size, every position, every new sample and every function on samples", "why_tests_cant": "it ranges over all datasets, samples and functions; tests keep label and dimension, where nothing goes wrong", "anchors": ["subprojects/ufjfmltk-core/include/ufjfmltk/core/Data.hpp: setPoint, operator[], apply"]}
{"id": "C199", "title": "Removing the first features of a list from a copy removes exactly those", "statement": "d.removeFeatures(feats, n) returns a dataset that lacks exactly the first n features of the list (all of them when n is -1), with every sample's other values kept in order.", "quantifier": "every aligned dataset, every list of features and every number n", "why_tests_cant": "it ranges over all datasets, lists and numbers; the outcome of the removal is not reported to the caller", "anchors": ["subprojects/ufjfmltk-core/include/ufjfmltk/core/Data.hpp: removeFeatures"]}
{"id": "C200", "title": "A feature search gives back the memory of its search states", "statement": "After selectFeatures of AOS and the destruction of the object (or another search with it) every search state has been deleted exactly once: none twice, and none is left.", "quantifier": "every dataset, setting and classifier, and every search that ends, of any length, with the queue full or not", "why_tests_cant": "it ranges over all searches; a state that is never deleted changes no result", "anchors": ["subprojects/ufjfmltk-featselect/include/ufjfmltk/featselect/AOS.hpp: selectFeatures, mainLoop, Heap::~Heap, Hash::~Hash, Hash::add, Heap::cut"]}
{"id": "C201", "title": "The search considers features in the order of the chosen criterion", "statement": "With sorting shape 5 AOS branches on the features in descending order of |weight times Golub's score|, with sorting shape 6 in descending order of |weight times Fisher's criterion|, on every dataset.", "quantifier": "every dataset with its labels and class table, every feature and weight vector", "why_tests_cant": "it ranges over all datasets; a wrong criterion only changes which features are tried first, and the search still returns a subset", "anchors": ["subprojects/ufjfmltk-featselect/include/ufjfmltk/featselect/AOS.hpp: mainLoop, setSortingShape"]}
{"id": "C202", "title": "Choice shape 2 ranks search states by margin times distance of the class centers", "statement": "With choice shape 2 a search state of AOS is ranked by its projected margin times the distance of the class centers without the removed feature, and an expansion still queues up to breadth states.", "quantifier": "every state of the search, sorting shape, breadth, weight vector and margin", "why_tests_cant": "it ranges over all states and settings; a wrong rank or a pruned branch is invisible in the result of one search", "anchors": ["subprojects/ufjfmltk-featselect/include/ufjfmltk/featselect/AOS.hpp: mainLoop, setChoiceShape", "subprojects/ufjfmltk-core/include/ufjfmltk/core/Statistics.hpp: distCenters"]}
{"id": "C203", "title": "A kernel called like a function agrees with its matrix", "statement": "Calling a kernel with two points of the same dimension gives the kernel's value (other dimensions are refused), and after it was called with a dataset, entry [i][j] of the kernel is its value on samples i and j; this holds for custom kernel functions too, before and after the matrix is computed again.", "quantifier": "every kernel type and parameter, every custom function, every dataset and pair of samples", "why_tests_cant": "it ranges over all datasets, functions and histories of a kernel; only functions that are not symmetric or are not handed over again show the difference", "anchors": ["subprojects/ufjfmltk-core/include/ufjfmltk/core/Kernel.hpp: Kernel::operator(), Kernel::operator[], Kernel::compute, Kernel::function"]}
{"id": "C204", "title": "A kernel matrix given by the user is the one that is used", "statement": "A matrix given to the constructor of Kernel or to setKernelMatrix is read back unchanged and is not replaced by a later computation over samples, as at the start of training, until the type or parameter is changed or a recomputation is asked for.", "quantifier": "every matrix, kernel, dataset and sequence of computations", "why_tests_cant": "it ranges over all histories of a kernel object; replacing the matrix gives a plausible other matrix", "anchors": ["subprojects/ufjfmltk-core/include/ufjfmltk/core/Kernel.hpp: Kernel::Kernel, Kernel::setKernelMatrix, Kernel::compute, Kernel::operator[]"]}
{"id": "C205", "title": "A time limit ends training, and only when it is reached", "statement": "Training a perceptron, the incremental margin algorithm, the regressor, the balanced perceptron or k-means makes no further pass once the timer has gone past the learner's maximum time (plus start time), whatever the data; a run in which the limit is never passed gives what it gives without a limit; and a run that is cut before any pass does not report success.", "quantifier": "every learner of the list, every dataset, setting, limit and every sequence of timer readings", "why_tests_cant": "it ranges over all sequences of clock readings; a test sees one, usually far below the limit", "anchors": ["subprojects/ufjfmltk-classifier/include/ufjfmltk/classifier/Perceptron.hpp: PerceptronPrimal::train, PerceptronDual::train, PerceptronFixedMarginPrimal::train, PerceptronFixedMarginDual::train, BalancedPerceptron::train", "subprojects/ufjfmltk-classifier/include/ufjfmltk/classifier/IMA.hpp: IMAp::train, IMApFixedMargin::train", "subprojects/ufjfmltk-regressor/include/ufjfmltk/regressor/LMS.hpp: LMSPrimal::train", "subprojects/ufjfmltk-clusterer/include/ufjfmltk/clusterer/KMeans.hpp: KMeans::train", "subprojects/ufjfmltk-core/include/ufjfmltk/core/Timer.hpp: Timer::elapsed"]}
{"id": "C206", "title": "Each distance functor computes the formula it is named after", "statement": "For points of the same dimension with components in the functor's domain, every distance functor returns the value of the textbook formula of its name (Euclidean, Manhattan, Lorentzian, Canberra, Sorensen, ..., Taneja, Hassanat).", "quantifier": "every functor and every pair of non-empty points of the same dimension with components in its domain (all reals or positive reals)", "why_tests_cant": "an equality over all real vectors; integer divisions and dropped roots agree with the formula on many sampled points", "anchors": ["subprojects/ufjfmltk-core/include/ufjfmltk/core/DistanceMetric.hpp: Euclidean, Manhattan, Lorentzian .. Hassanat"]}
{"id": "C207", "title": "A fixed-margin perceptron answers its training samples by their labels", "statement": "After PerceptronFixedMarginPrimal::train has reported success, evaluate returns the label of every training sample.", "quantifier": "every training set with labels 1 and -1, every fixed margin, norm, flexibility, learning rate, initial solution, clock and iteration limit with a successful training", "why_tests_cant": "the answers depend on every pass of the training and on the margin and norm left in the solution by whatever was trained before", "anchors": ["subprojects/ufjfmltk-classifier/include/ufjfmltk/classifier/Perceptron.hpp: PerceptronFixedMarginPrimal::train, PerceptronFixedMarginPrimal::evaluate", "subprojects/ufjfmltk-core/include/ufjfmltk/core/Solution.hpp: Solution::margin"]}
{"id": "C208", "title": "A perceptron committee answers by the vote of perceptrons trained on all its samples", "statement": "PerceptronCommittee::train trains as many perceptrons as asked for, each on all the samples of the committee, and reports whether this succeeded; evaluate returns a class that most of them answer, and if all the members separate the training samples it returns the label of each of them.", "quantifier": "every training set, every number of members, every order the samples are shuffled into, every start weights and every point of the dimension of the samples", "why_tests_cant": "members start at random weights and see the samples in random orders; the claim ranges over all of them and over all points", "anchors": ["subprojects/ufjfmltk-ensemble/include/ufjfmltk/ensemble/PerceptronCommittee.hpp: PerceptronCommittee::train, PerceptronCommittee::evaluate", "subprojects/ufjfmltk-classifier/include/ufjfmltk/classifier/Perceptron.hpp: BalancedPerceptron::train, BalancedPerceptron::evaluate"]}
{"id": "C209", "title": "Setting the seed of a perceptron committee makes its training reproducible", "statement": "Two trainings of a PerceptronCommittee on the same samples after setSeed with the same non-zero seed, from the same state of the program, give the same members.", "quantifier": "every training set, every seed and every sequence of numbers the random device of the system delivers", "why_tests_cant": "the numbers a random device delivers differ from run to run and cannot be chosen by a test", "anchors": ["subprojects/ufjfmltk-ensemble/include/ufjfmltk/ensemble/PerceptronCommittee.hpp: PerceptronCommittee::train", "subprojects/ufjfmltk-core/include/ufjfmltk/core/Learner.hpp: Learner::setSeed", "subprojects/ufjfmltk-classifier/include/ufjfmltk/classifier/Perceptron.hpp: BalancedPerceptron::train"]}
{"id": "C210", "title": "A multi-class wrapper answers training samples by their class if its classifiers separate theirs", "statement": "If every base classifier of a trained OneVsOne answers each sample it was trained on by its label there, evaluate of the wrapper returns the class of every sample of the dataset; the same for OneVsAll if the raw answers of the base classifiers have the signs of the labels.", "quantifier": "every consistent dataset with any number of classes, every base classifier that fits its training samples, every sample", "why_tests_cant": "the number of classes, the samples and what the base classifiers learn are unbounded; the vote must be won against every other class", "anchors": ["subprojects/ufjfmltk-classifier/include/ufjfmltk/classifier/OneVsOne.hpp: OneVsOne::train, OneVsOne::evaluate", "subprojects/ufjfmltk-classifier/include/ufjfmltk/classifier/OneVsAll.hpp: OneVsAll::train, OneVsAll::evaluate"]}
{"id": "C211", "title": "A nearest-neighbour classifier with one neighbour knows its training samples", "statement": "KNNClassifier with k = 1 and the default algorithm returns the label of every training sample, unless a sample of another class is at distance zero from it.", "quantifier": "every training set, every distance functor, every training sample, every way nth_element may arrange equal distances", "why_tests_cant": "the claim is for all samples and all arrangements of ties among the distances", "anchors": ["subprojects/ufjfmltk-classifier/include/ufjfmltk/classifier/KNNClassifier.hpp: KNNClassifier::evaluate"]}
{"id": "C212", "title": "AdaBoost trains later estimators with regard to what earlier ones got wrong", "statement": "The weights AdaBoostClassifier::train computes for the samples after an estimator take part in the training of the next estimators.", "quantifier": "every training set, number of estimators, seed and base estimator", "why_tests_cant": "whether weights have an effect for some input cannot be settled by trying inputs without effect", "anchors": ["subprojects/ufjfmltk-ensemble/include/ufjfmltk/ensemble/AdaBoostClassifier.hpp: AdaBoostClassifier::train, AdaBoostClassifier::evaluate"]}
{"id": "C213", "title": "A support vector machine trained with success answers its training samples by their labels", "statement": "After SMO::train has returned true on a two-class training set that can be separated in the feature space of the kernel, evaluate returns the label of every training sample.", "quantifier": "every two-class training set, every kernel, every setting of the precision, every training sample", "why_tests_cant": "the answers depend on the whole history of pair steps; which samples stop the search early depends on magnitudes no finite set of tests covers", "anchors": ["subprojects/ufjfmltk-classifier/include/ufjfmltk/classifier/SMO.hpp: SMO::train, SMO::examine_example, SMO::take_step", "subprojects/ufjfmltk-classifier/include/ufjfmltk/classifier/DualClassifier.hpp: DualClassifier::evaluate"]}
{"id": "C214", "title": "The remainder of a point by a number is the remainder of each of its components", "statement": "p % s has, for every component of p, what is left after taking away a whole multiple of s: smaller than s in absolute value and of the sign of the component.", "quantifier": "every point of ints or doubles of any dimension, every number s", "why_tests_cant": "signs, sizes and special values of components and divisors are unbounded", "anchors": ["subprojects/ufjfmltk-core/include/ufjfmltk/core/ExprOps.hpp: A_Mod", "subprojects/ufjfmltk-core/include/ufjfmltk/core/Point.hpp: operator%"]}
{"id": "C215", "title": "In double arithmetic a plain split gives every part exactly size / k samples", "statement": "splitSample(k) without stratification puts exactly floor(size / k) samples in each of the k parts and loses only the remainder, although the size of a part is computed by a division of doubles.", "quantifier": "every dataset of fewer than 2^53 samples, every number of parts below 2^53, every shuffle", "why_tests_cant": "rounding errors appear at isolated sizes; no finite set of sizes shows that there is none", "anchors": ["subprojects/ufjfmltk-core/include/ufjfmltk/core/Data.hpp: Data::splitSample"]}
{"id": "C216", "title": "In double arithmetic sampling with replacement draws from every class its share", "statement": "sampling(n) with replacement draws from every class its share of n, class size times n over the size of the dataset, rounded down and at least one.", "quantifier": "every dataset, every sample size, every outcome of the random draws", "why_tests_cant": "the share is computed in doubles and then rounded down; a share a little below a whole number loses a sample at sizes tests do not hit", "anchors": ["subprojects/ufjfmltk-core/include/ufjfmltk/core/Data.hpp: Data::sampling"]}
{"id": "C217", "title": "In double arithmetic the random subspace method returns the requested fraction of the features", "statement": "RSM with rate r on dims features returns, each time it is called, the same number of different features, the requested fraction of dims rounded up.", "quantifier": "every rate between 0 and 1 a double can hold, every number of features, every sequence of shuffles", "why_tests_cant": "the number is the ceiling of a rounded product; a product a little above a whole number adds a feature at isolated rates", "anchors": ["subprojects/ufjfmltk-core/include/ufjfmltk/core/Sampling.hpp: RSM"]}
{"id": "C218", "title": "In double arithmetic linspace gives an increasing grid from lower to upper", "statement": "linspace(lower, upper, N) gives N numbers in increasing order, the first is lower and the last is upper.", "quantifier": "every pair of doubles with lower <= upper, every N of at least two", "why_tests_cant": "the step is rounded and added N-1 times; how the errors accumulate depends on the three arguments", "anchors": ["subprojects/ufjfmltk-core/include/ufjfmltk/core/Point.hpp: linspace"]}
{"id": "C219", "title": "In double arithmetic a perceptron trained with success answers its training samples by their labels", "statement": "After PerceptronPrimal::train has returned true, evaluate returns the label of every training sample, all operations being those of doubles, with overflow and NaN.", "quantifier": "every training set of doubles labelled 1 and -1, every rate, limits, clock and initial solution", "why_tests_cant": "the values compared during training are rounded; which histories overflow or produce NaN cannot be enumerated", "anchors": ["subprojects/ufjfmltk-classifier/include/ufjfmltk/classifier/Perceptron.hpp: PerceptronPrimal::train", "subprojects/ufjfmltk-classifier/include/ufjfmltk/classifier/PrimalClassifier.hpp: PrimalClassifier::evaluate"]}
{"id": "C220", "title": "In double arithmetic a perceptron with enough passes finds a separating solution", "statement": "On training samples that a hyperplane separates, PerceptronPrimal::train in double arithmetic with enough passes, updates and time returns true, and evaluate then returns the label of every sample.", "quantifier": "every separable training set of doubles labelled 1 and -1, every rate and order of presentation", "why_tests_cant": "the convergence theorem is about exact numbers; whether rounding stops progress depends on the magnitudes of all features", "anchors": ["subprojects/ufjfmltk-classifier/include/ufjfmltk/classifier/Perceptron.hpp: PerceptronPrimal::train", "subprojects/ufjfmltk-classifier/include/ufjfmltk/classifier/PrimalClassifier.hpp: PrimalClassifier::evaluate"]}
{"id": "C221", "title": "In double arithmetic SMO training delivers multipliers in the box that balance, and success separates", "statement": "SMO::train in double arithmetic returns; the multipliers are numbers between 0 and C whose sum weighted by the labels is zero; when it reports success the solution gives the two classes different answers.", "quantifier": "every two-class training set and kernel matrix of doubles, every tolerance, epoch limit and starting index", "why_tests_cant": "rounding, overflow and NaN enter through thousands of pair updates; whether a clip still holds after rounding depends on the values of the whole history", "anchors": ["subprojects/ufjfmltk-classifier/include/ufjfmltk/classifier/SMO.hpp: SMO::train"]}
{"id": "C222", "title": "In double arithmetic the accuracy is the fraction of correct answers", "statement": "The accuracy of an evaluation is the double nearest to the fraction of correct answers, 1 (100 in percent) exactly when all answers are correct and 0 exactly when none is; of two evaluations of the same size the one with more correct answers has the greater accuracy; accuracy and error of a report add up to 1.", "quantifier": "every list of answers of at most 2^53 samples, every set of classes", "why_tests_cant": "whether rounding makes two different fractions equal or an imperfect one 1 depends on counts tests never reach", "anchors": ["subprojects/ufjfmltk-valid/include/ufjfmltk/Validation.hpp: accuracy", "subprojects/ufjfmltk-valid/include/ufjfmltk/Validation.hpp: confusionMatrixAccuracy", "subprojects/ufjfmltk-valid/include/ufjfmltk/Validation.hpp: metricsReport"]}
{"id": "C223", "title": "In double arithmetic cross-validation reports percentages, 0 and 100 only when deserved", "statement": "The error and accuracy reported by kfold and kkfold are numbers of [0, 100]; for kfold they add up to 100, the error is 0 and the accuracy 100 exactly when every answer of every fold is correct, and 100 and 0 when all are wrong; the error of kkfold is the average over its executions.", "quantifier": "every division into test sets, every answer, every number of folds and executions", "why_tests_cant": "sums of rounded quotients could pass 100 or swallow a single error; this depends on the sizes of all folds", "anchors": ["subprojects/ufjfmltk-valid/include/ufjfmltk/Validation.hpp: kfold", "subprojects/ufjfmltk-valid/include/ufjfmltk/Validation.hpp: kkfold"]}
{"id": "C224", "title": "In double arithmetic the Manhattan, Chebyshev and Euclidean distances are metrics", "statement": "Between points of finite doubles each distance is a nonnegative double or infinite, never NaN, the same in both directions, zero exactly when the points are equal, and no longer than the way by a third point; points of different sizes have no distance.", "quantifier": "every pair of points of finite doubles of any dimension", "why_tests_cant": "rounding, underflow and overflow happen in few of the 2^64 values of a feature; one pair of points that differ and have distance zero is enough to break a claim", "anchors": ["subprojects/ufjfmltk-core/include/ufjfmltk/core/DistanceMetric.hpp: Manhattan", "subprojects/ufjfmltk-core/include/ufjfmltk/core/DistanceMetric.hpp: Chebyshev", "subprojects/ufjfmltk-core/include/ufjfmltk/core/DistanceMetric.hpp: Euclidean", "subprojects/ufjfmltk-core/include/ufjfmltk/core/Point.hpp: max"]}
{"id": "C225", "title": "In double arithmetic the mean lies between the values and the deviation is zero exactly for constant features", "statement": "The mean of finite values is never NaN and lies between the least and the greatest value; the variance and the number whose root is the deviation are never NaN or negative, zero when all values are equal and positive when two differ.", "quantifier": "every list of at least two and at most 2^53 finite doubles", "why_tests_cant": "a sum of many rounded values can end on either side of the exact one; the counterexamples are values like 0.1 whose multiples round", "anchors": ["subprojects/ufjfmltk-core/include/ufjfmltk/core/Statistics.hpp: mean", "subprojects/ufjfmltk-core/include/ufjfmltk/core/Statistics.hpp: std_dev", "subprojects/ufjfmltk-core/include/ufjfmltk/core/Statistics.hpp: var"]}
{"id": "C226", "title": "In double arithmetic nearest neighbours vote as the distances order them, and one neighbour knows its training samples", "statement": "KNNClassifier::evaluate in double arithmetic answers with a class that has the most samples among k samples none of which is farther than one left out, the distances compared as doubles; with one neighbour every training sample gets its own label if samples with different labels differ.", "quantifier": "every training set, number of neighbours, point and choice std::nth_element may make among equal distances", "why_tests_cant": "it depends on ties created by rounding and on what the standard library does with them", "anchors": ["subprojects/ufjfmltk-classifier/include/ufjfmltk/classifier/KNNClassifier.hpp: KNNClassifier::evaluate"]}
{"id": "C227", "title": "In double arithmetic a dual perceptron that reports success knows its training samples", "statement": "When PerceptronDual::train with a kernel of the library reports success, evaluate answers every training sample by its label; the kernel of two points is the same in both orders.", "quantifier": "every training set of doubles with labels 1 and -1, kernel type and parameter, rate, limits, clock and starting state", "why_tests_cant": "the answer depends on the last bit of a sum that training and evaluation compute at different places; NaN and overflow occur only for values tests do not use", "anchors": ["subprojects/ufjfmltk-classifier/include/ufjfmltk/classifier/Perceptron.hpp: PerceptronDual::train", "subprojects/ufjfmltk-classifier/include/ufjfmltk/classifier/DualClassifier.hpp: DualClassifier::evaluate", "subprojects/ufjfmltk-core/include/ufjfmltk/core/Kernel.hpp: Kernel::function"]}
{"id": "C228", "title": "In double arithmetic the dual perceptron finds a separating solution when one exists", "statement": "When the samples are separable, PerceptronDual::train with the inner product kernel, enough passes, updates and time reports success, and evaluate answers every sample by its label.", "quantifier": "every separable training set, rate and limits", "why_tests_cant": "whether rounding lets the multipliers grow far enough depends on the margin and the whole history of updates", "anchors": ["subprojects/ufjfmltk-classifier/include/ufjfmltk/classifier/Perceptron.hpp: PerceptronDual::train"]}
{"id": "C229", "title": "In double arithmetic k-means training ends and assigns points to the nearest centre", "statement": "With distances that are numbers, the clusters computed by KMeans::train put every sample in the cluster of its first nearest centre and evaluate answers the first nearest centre; training ends when the samples and the centres drawn are finite.", "quantifier": "every sample set of doubles, centres, distance function, tolerance and number of passes", "why_tests_cant": "whether a cluster runs empty depends on the centres drawn and the whole history; the NaN that follows appears only then", "anchors": ["subprojects/ufjfmltk-clusterer/include/ufjfmltk/clusterer/KMeans.hpp: KMeans::train", "subprojects/ufjfmltk-clusterer/include/ufjfmltk/clusterer/KMeans.hpp: KMeans::assign_clusters", "subprojects/ufjfmltk-clusterer/include/ufjfmltk/clusterer/KMeans.hpp: KMeans::compute_centers", "subprojects/ufjfmltk-clusterer/include/ufjfmltk/clusterer/KMeans.hpp: KMeans::evaluate"]}
{"id": "C230", "title": "In double arithmetic an ensemble answers the class with the greatest total weight", "statement": "VotingClassifier::evaluate and AdaBoostClassifier::evaluate answer the first class whose voters have the greatest total weight, a hard vote the first class with the most votes, and OneVsAll::evaluate the first class with the greatest value; the order of the learners does not matter.", "quantifier": "every number of learners, weights, classes, answers and values", "why_tests_cant": "which class wins depends on how the sums of weights round, and on NaN or infinite values", "anchors": ["subprojects/ufjfmltk-ensemble/include/ufjfmltk/ensemble/VotingClassifier.hpp: VotingClassifier::evaluate", "subprojects/ufjfmltk-ensemble/include/ufjfmltk/ensemble/AdaBoostClassifier.hpp: AdaBoostClassifier::evaluate", "subprojects/ufjfmltk-classifier/include/ufjfmltk/classifier/OneVsAll.hpp: OneVsAll::evaluate"]}
{"id": "C231", "title": "In double arithmetic normalising gives unit norm and keeps the direction", "statement": "normalize(p, q) and Data::normalize(q) of a non-zero point give a point of norm one, with finite components between -1 and 1 in the same order and with the same signs; normalising again changes nothing.", "quantifier": "every point of finite doubles that is not zero, every q", "why_tests_cant": "overflow and underflow of the powers occur only at magnitudes tests do not use; rounding depends on every component", "anchors": ["subprojects/ufjfmltk-core/include/ufjfmltk/core/Point.hpp: normalize", "subprojects/ufjfmltk-core/include/ufjfmltk/core/Point.hpp: Point::norm", "subprojects/ufjfmltk-core/include/ufjfmltk/core/Data.hpp: Data::normalize"]}
{"id": "C232", "title": "In double arithmetic least-mean-squares training reports success only for a usable solution", "statement": "When LMSPrimal::train returns true on finite data, the weights and bias are finite and evaluate answers finite values; a solution that already gives every training sample its target is kept by training, at cost zero.", "quantifier": "every dataset of doubles, every learning rate, tolerance and number of passes", "why_tests_cant": "divergence depends on rate and magnitudes of the features; overflow to NaN occurs only after enough passes", "anchors": ["subprojects/ufjfmltk-regressor/include/ufjfmltk/regressor/LMS.hpp: LMSPrimal::train", "subprojects/ufjfmltk-regressor/include/ufjfmltk/regressor/PrimalRegressor.hpp: PrimalRegressor::evaluate"]}
{"id": "C233", "title": "In double arithmetic nearest-neighbour regression answers with the mean of the nearest targets", "statement": "KNNRegressor::evaluate in double arithmetic answers with the mean target of k samples none of which is farther, as doubles compare, than one left out, of equally distant samples the earlier ones; the answer lies between the least and the greatest target.", "quantifier": "every dataset, every query, every k between one and the number of samples, every metric that gives no NaN", "why_tests_cant": "whether a rounded mean leaves the range of the targets depends on every target and on the order of summation", "anchors": ["subprojects/ufjfmltk-regressor/include/ufjfmltk/regressor/KNNRegressor.hpp: KNNRegressor::evaluate"]}
{"id": "C234", "title": "In double arithmetic boosting of estimators that know their training samples knows them", "statement": "When every estimator trained by AdaBoostClassifier::train answers every training sample by its label, evaluate of the ensemble does too, and the weights of the samples stay positive finite doubles, whatever the number of rounds.", "quantifier": "every dataset, every base estimator, every seed and number of rounds", "why_tests_cant": "the weights are renormalised in every round, so rounding errors pile up over arbitrarily many rounds", "anchors": ["subprojects/ufjfmltk-ensemble/include/ufjfmltk/ensemble/AdaBoostClassifier.hpp: AdaBoostClassifier::train", "subprojects/ufjfmltk-ensemble/include/ufjfmltk/ensemble/AdaBoostClassifier.hpp: AdaBoostClassifier::evaluate"]}
{"id": "C235", "title": "In double arithmetic the feature-space norm is the length of the weight vector", "statement": "featureSpaceNorm(data) returns the length of the weight vector the multipliers of the samples stand for; in particular it is a number, not NaN.", "quantifier": "every dataset of samples labelled 1 or -1 with finite features, every nonnegative multipliers", "why_tests_cant": "whether the rounded sum under the root stays nonnegative depends on every feature and multiplier", "anchors": ["subprojects/ufjfmltk-core/include/ufjfmltk/core/Kernel.hpp: Kernel::featureSpaceNorm", "subprojects/ufjfmltk-core/include/ufjfmltk/core/Kernel.hpp: Kernel::compute"]}
{"id": "C236", "title": "In double arithmetic Gaussian kernel values lie between 0 and 1", "statement": "The Gaussian kernel of two points is a number between 0 and 1, the same in both directions, 1 exactly for equal points; so its matrix is symmetric with ones on the diagonal.", "quantifier": "every two points of finite doubles, every dimension and parameter", "why_tests_cant": "overflow and underflow of the squared distance occur only at magnitudes tests do not use", "anchors": ["subprojects/ufjfmltk-core/include/ufjfmltk/core/Kernel.hpp: Kernel::function", "subprojects/ufjfmltk-core/include/ufjfmltk/core/Kernel.hpp: Kernel::compute"]}
{"id": "C237", "title": "In double arithmetic the filter selectors rank features by scores that can be ordered", "statement": "The scores Golub and Fisher compute for the features of a dataset with samples of both classes are numbers that std::sort can order (its comparison is a strict weak order), so selectFeatures removes the features with the lowest scores; features with equal class means score 0.", "quantifier": "every two-class dataset", "why_tests_cant": "a NaN among the scores makes the comparison inconsistent, which std::sort may answer in any way; tests on a few datasets with varying features never meet it", "anchors": ["subprojects/ufjfmltk-featselect/include/ufjfmltk/featselect/Golub.hpp: Golub::selectFeatures", "subprojects/ufjfmltk-featselect/include/ufjfmltk/featselect/Fisher.hpp: Fisher::selectFeatures"]}
{"id": "C238", "title": "In double arithmetic a fixed-margin perceptron that reports success has the margin and knows its training samples", "statement": "When PerceptronFixedMarginPrimal::train returns true, every training sample is beyond the margin asked for, as computed with the returned weights, bias and norm, and without flexibility evaluate answers every training sample by its label.", "quantifier": "every dataset, norm q, rate, margin, limits and timing", "why_tests_cant": "overflow and NaN in the norm or the multipliers silently turn mistakes into successes; the rounding depends on the whole history of updates", "anchors": ["subprojects/ufjfmltk-classifier/include/ufjfmltk/classifier/Perceptron.hpp: PerceptronFixedMarginPrimal::train", "subprojects/ufjfmltk-classifier/include/ufjfmltk/classifier/Perceptron.hpp: PerceptronFixedMarginPrimal::evaluate"]}
{"id": "C239", "title": "In double arithmetic a decimal text is read as the nearest double", "statement": "atod of a decimal without exponent returns the double nearest to the number the text denotes; if the text denotes a double, exactly that double.", "quantifier": "every decimal text, after any white space and before any text that does not continue it", "why_tests_cant": "whether rounding errors of the digit loop and of the power of ten cancel depends on every digit; there are unboundedly many texts", "anchors": ["subprojects/ufjfmltk-core/src/Utils.cpp: atod", "subprojects/ufjfmltk-core/include/ufjfmltk/core/Data.hpp: Data::load"]}
{"id": "C240", "title": "In double arithmetic a number written by dtoa and read by atod comes back", "statement": "dtoa writes a double as a text that atod reads back as the same double; whole numbers are written as their decimal numeral.", "quantifier": "every double, every C library whose log10 and pow satisfy the stated assumptions", "why_tests_cant": "the digits written depend on the rounding of every quotient and remainder of the digit loop; tests cover a few of 2^64 numbers", "anchors": ["subprojects/ufjfmltk-core/src/Utils.cpp: dtoa", "subprojects/ufjfmltk-core/src/Utils.cpp: atod"]}
{"id": "C241", "title": "In double arithmetic the quotient distances are symmetric, never negative and never NaN", "statement": "The functors Canberra, Clark, Squared, ProbabilisticSymmetric, Divergence, SquaredChiSquared, AvgManhattan and SquaredEuclidean give, for two points of the same size, the same nonnegative or infinite double in both directions, zero for equal points, and never NaN; Canberra is at most the number of components.", "quantifier": "every two points of the same size whose components are doubles", "why_tests_cant": "the claim ranges over all points of doubles of every size, and roundings, underflow and overflow appear only for particular magnitudes", "anchors": ["subprojects/ufjfmltk-core/include/ufjfmltk/core/DistanceMetric.hpp: Canberra", "subprojects/ufjfmltk-core/include/ufjfmltk/core/DistanceMetric.hpp: Clark", "subprojects/ufjfmltk-core/include/ufjfmltk/core/DistanceMetric.hpp: Squared", "subprojects/ufjfmltk-core/include/ufjfmltk/core/DistanceMetric.hpp: ProbabilisticSymmetric", "subprojects/ufjfmltk-core/include/ufjfmltk/core/DistanceMetric.hpp: Divergence", "subprojects/ufjfmltk-core/include/ufjfmltk/core/DistanceMetric.hpp: SquaredChiSquared", "subprojects/ufjfmltk-core/include/ufjfmltk/core/DistanceMetric.hpp: AvgManhattan", "subprojects/ufjfmltk-core/include/ufjfmltk/core/DistanceMetric.hpp: SquaredEuclidean"]}
{"id": "C242", "title": "In double arithmetic a round of boosting leaves a distribution and favours mistaken samples and better estimators", "statement": "After each round of AdaBoostClassifier::train the weights of the samples are positive doubles, at most 1, that add up to 1 up to rounding; of two samples of equal weight the one the estimator got wrong weighs at least as much as the one it got right; an estimator with a smaller error weighs at least as much.", "quantifier": "every number of samples and classes, all weights, every pattern of mistakes, every std::log and std::exp satisfying the stated assumptions", "why_tests_cant": "the rounding errors of arbitrarily many products, sums and quotients add up; a test covers one pattern of mistakes and one list of weights", "anchors": ["subprojects/ufjfmltk-ensemble/include/ufjfmltk/ensemble/AdaBoostClassifier.hpp: AdaBoostClassifier::train"]}
{"id": "C243", "title": "In double arithmetic the incremental margin algorithm separates the samples and reports margins that do not decrease", "statement": "After a successful IMAp::train without flexibility every training sample lies strictly on the side of its label for the reported weights and bias, the margins reported along the way never decrease, each sample lies beyond the reported margin, and evaluate answers the training labels.", "quantifier": "every number of samples and features, all values, every initial order, every clock, all limits and norms, every std::sqrt and std::pow", "why_tests_cant": "an unbounded number of rounds of an unbounded number of passes with rounded arithmetic; a test covers one data set", "anchors": ["subprojects/ufjfmltk-classifier/include/ufjfmltk/classifier/IMA.hpp: IMAp::train", "subprojects/ufjfmltk-classifier/include/ufjfmltk/classifier/IMA.hpp: IMApFixedMargin::train", "subprojects/ufjfmltk-classifier/include/ufjfmltk/classifier/IMA.hpp: IMAp::evaluate"]}
{"id": "C244", "title": "In double arithmetic the dual fixed-margin perceptron classifies its training samples after a successful training", "statement": "After PerceptronFixedMarginDual::train reports success on a fresh classifier, evaluate answers the label of every training sample, and the training values it kept are the ones evaluate computes.", "quantifier": "every number of samples and features, all values, every initial order, every clock, all limits, every std::sqrt", "why_tests_cant": "an unbounded number of passes with rounded arithmetic, where kept values are updated and never recomputed; a test covers one data set", "anchors": ["subprojects/ufjfmltk-classifier/include/ufjfmltk/classifier/Perceptron.hpp: PerceptronFixedMarginDual::train", "subprojects/ufjfmltk-classifier/include/ufjfmltk/classifier/DualClassifier.hpp: DualClassifier::evaluate"]}
{"id": "C245", "title": "In double arithmetic the dual incremental margin algorithm ends and reports margins its training values have", "statement": "IMADual::train ends for every data set. When it returns true, the margins reported along the way never decrease, every training sample is at least the reported margin away from the boundary on the side of its label for the values kept during training, the reported multipliers, bias and support vectors belong together, and evaluate answers the training labels.", "quantifier": "every number of samples and features, all values, every kernel, every initial order, every clock, all limits, every std::sqrt that answers NaN or something not negative", "why_tests_cant": "an unbounded number of rounds of an unbounded number of passes with rounded arithmetic; a test covers one data set and cannot show that a loop ends for all of them", "anchors": ["subprojects/ufjfmltk-classifier/include/ufjfmltk/classifier/IMA.hpp: IMADual::train", "subprojects/ufjfmltk-classifier/include/ufjfmltk/classifier/Perceptron.hpp: PerceptronFixedMarginDual::train", "subprojects/ufjfmltk-classifier/include/ufjfmltk/classifier/DualClassifier.hpp: DualClassifier::evaluate"]}
{"id": "C246", "title": "In double arithmetic a balanced perceptron that reports success answers its training labels after moving its bias", "statement": "When BalancedPerceptron::train answers true, evaluate answers every training sample with its label although the bias was moved after the last pass, and the closest samples of the two classes are equally far from the hyperplane it leaves.", "quantifier": "every number of samples and features, all values including infinities and NaN, every start weights, order of the samples, learning rate and limits", "why_tests_cant": "the bias is moved by a rounded half of a rounded sum; whether a sample is pushed over the boundary depends on the last digits of all values, down to the smallest double", "anchors": ["subprojects/ufjfmltk-classifier/include/ufjfmltk/classifier/Perceptron.hpp: BalancedPerceptron::train", "subprojects/ufjfmltk-classifier/include/ufjfmltk/classifier/Perceptron.hpp: BalancedPerceptron::evaluate"]}
{"id": "C247", "title": "In double arithmetic a perceptron committee answers its training labels when its training succeeded", "statement": "After PerceptronCommittee::train has returned true, evaluate answers every training sample by its label.", "quantifier": "every number of members, samples and features, all values including infinities and NaN, every start weights and order of the samples of each member, every learning rate and all limits", "why_tests_cant": "members start at random weights and see the samples in random orders, and every step is rounded; the claim ranges over all of them", "anchors": ["subprojects/ufjfmltk-ensemble/include/ufjfmltk/ensemble/PerceptronCommittee.hpp: PerceptronCommittee::train", "subprojects/ufjfmltk-ensemble/include/ufjfmltk/ensemble/PerceptronCommittee.hpp: PerceptronCommittee::evaluate", "subprojects/ufjfmltk-classifier/include/ufjfmltk/classifier/Perceptron.hpp: BalancedPerceptron::train"]}
{"id": "C248", "title": "In double arithmetic radius, distance of class centres and covariance are never NaN and behave as distances and as a covariance", "statement": "For finite values, radius(data, feat, 2) is never NaN, is the computed distance of one of the samples to the averages over the features other than feat and at least that of every other, and is zero for equal samples; radius(data, feat, 1) is the largest magnitude; distCenters(data, feat) is never NaN and the same when the classes are exchanged; leaving out a feature increases neither; covar(p, q) = covar(q, p), and covar(p, p) is the variance, never negative or NaN.", "quantifier": "every number of samples up to 2^53, features, names and left-out feature, all finite double values (and, for the symmetries, also infinities and NaN), all labels, every monotone root", "why_tests_cant": "sums may overflow or round anywhere; that the results stay ordered and comparable ranges over all values, sizes and labels", "anchors": ["subprojects/ufjfmltk-core/include/ufjfmltk/core/Statistics.hpp: radius", "subprojects/ufjfmltk-core/include/ufjfmltk/core/Statistics.hpp: distCenters", "subprojects/ufjfmltk-core/include/ufjfmltk/core/Statistics.hpp: covar"]}
{"id": "C249", "title": "A file left by a crash during write is not read as another dataset", "statement": "If the program stops at any moment during write(name, \"csv\"), then the file still holds what it held before, or load refuses what is left, or what is loaded is the dataset that was being written. In particular no loaded sample has other features or another label than the one that was written at its place, and a loss of samples is noticed.", "quantifier": "every dataset of integer values below a million in size, every previous content of the file, every crash point (any number of characters of the text has reached the file), classification and regression", "why_tests_cant": "the crash may come after any character of any file; every beginning of every file must be considered", "anchors": ["subprojects/ufjfmltk-core/include/ufjfmltk/core/Data.hpp: Data::write", "subprojects/ufjfmltk-core/include/ufjfmltk/core/Data.hpp: Data::load_csv"]}
{"id": "C250", "title": "A file left by a crash during write as .data is not read as another dataset", "statement": "If the program stops at any moment during write(name, \"data\"), then the file still holds what it held before, or load refuses what is left, or what is loaded is the dataset that was being written: no loaded sample has other features, another label or other feature names than those that were written at its place, and a loss of samples is noticed.", "quantifier": "every dataset of integer values below a million in size, all feature names that are not negative, every previous content of the file, every crash point (any number of characters of the text has reached the file), every declared type", "why_tests_cant": "the crash may come after any character of any file; every beginning of every file must be considered", "anchors": ["subprojects/ufjfmltk-core/include/ufjfmltk/core/Data.hpp: Data::write", "subprojects/ufjfmltk-core/include/ufjfmltk/core/Data.hpp: Data::load_data"]}
{"id": "C251", "title": "In double arithmetic diverse subspaces hold different features of any dataset", "statement": "Constructing DSM from a dataset, with k subspaces of n features (n at most the dimension) and a weight in [0,1], and calling it, once or several times and with changes of the weight in between, returns k subspaces of n different features of the dataset each, computed in double arithmetic from the features and labels themselves: whatever the features are, also if one has the same value in all samples or is negatively correlated with the labels. No feature is left out because its correlation is not defined.", "quantifier": "every dataset (all features and labels, as doubles), every number of subspaces and of features in them, every sequence of calls and of weights in [0,1]", "why_tests_cant": "the choice of a feature depends on the rounded scores of all others in every round; tests use a few datasets without constant features", "anchors": ["subprojects/ufjfmltk-core/include/ufjfmltk/core/Sampling.hpp: DSM", "subprojects/ufjfmltk-core/include/ufjfmltk/core/Statistics.hpp: covar", "subprojects/ufjfmltk-core/include/ufjfmltk/core/Statistics.hpp: std_dev"]}
{"id": "C252", "title": "The diversity of a subspace is one minus the greatest share of features another subspace has in common with it", "statement": "For an object of DSM with subspaces S_0, ..., S_{k-1}, div_ms(i) is, in double arithmetic, one minus the greatest share of the features of another subspace that are also in S_i. The order in which the features of a subspace were chosen does not matter.", "quantifier": "every number of subspaces, every content of them (all features, all orders, all sizes), every index", "why_tests_cant": "all sets of features and all orders in which they were chosen; the order depends on the whole history of choices", "anchors": ["subprojects/ufjfmltk-core/include/ufjfmltk/core/Sampling.hpp: DSM::div_ms", "subprojects/ufjfmltk-core/include/ufjfmltk/core/Sampling.hpp: DSM::operator()"]}
{"id": "C253", "title": "The diversity of a feature falls with the number of subspaces that hold it", "statement": "For an object of DSM with k subspaces, div_mx(f) is, in double arithmetic, one minus the share of the subspaces that hold f: 1 if none holds it, 0 if all do, and a feature held by more subspaces has no greater diversity than one held by fewer.", "quantifier": "every number of subspaces from 1 to 2^53, every content of them, every feature", "why_tests_cant": "all contents of the subspaces, and counts up to 2^53 kept in a double", "anchors": ["subprojects/ufjfmltk-core/include/ufjfmltk/core/Sampling.hpp: DSM::div_mx"]}
