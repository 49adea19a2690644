{
 "claims": [
  {
   "property": "C01",
   "status": "proved",
   "theorems": [
    "Gospn.C01_recursive_order",
    "Gospn.C01_recursive_exactly_once"
   ],
   "note": "Every finite graph without cycles, queue or stack, both functions; the exactly-once part also for graphs with cycles."
  },
  {
   "property": "C02",
   "status": "partial",
   "theorems": [
    "Gospn.C02_iterative_order_partial",
    "Gospn.C02_transitively_reduced_partial",
    "Gospn.C02_tarjanFunc_partial",
    "Gospn.C02_tarjanFunc_true_partial",
    "Gospn.C02_dfs_partial",
    "Gospn.C02_tarjan_order_refuted",
    "Gospn.C02_dfs_duplicate_refuted"
   ],
   "note": "False of the code as stated: C02_tarjan_order_refuted and C02_dfs_duplicate_refuted give graphs on which the iterative functions list a node before its child, or twice. Proved: exactly-once on every graph, the order when no child is reachable from a later sibling, TarjanFunc for every callback, DFS equal to Tarjan without repeated children."
  },
  {
   "property": "C03",
   "status": "partial",
   "theorems": [
    "Gospn.C03_inference_eq_value_partial",
    "Gospn.C03_leaf_root_refuted",
    "Gospn.C03_order_refuted"
   ],
   "note": "Bit for bit, for arbitrary floating-point operations, for every acyclic network in which no child is reachable from a later sibling. False for leaf roots (C03_leaf_root_refuted) and when TopSortTarjan does not list children first (C03_order_refuted)."
  },
  {
   "property": "C04",
   "status": "partial",
   "theorems": [
    "Gospn.C04_storeInference_partial",
    "Gospn.C04_order_refuted"
   ],
   "note": "For every reachable storage state and ticket, with the frame. Missing: networks in which TopSortTarjan does not list children first, where it is false (C04_order_refuted)."
  },
  {
   "property": "C05",
   "status": "partial",
   "theorems": [
    "Gospn.C05_inferenceY_partial",
    "Gospn.C05_leaf_root_refuted"
   ],
   "note": "As C03, for leaves whose variable is the first of their scope. False for leaf roots (C05_leaf_root_refuted)."
  },
  {
   "property": "C06",
   "status": "proved",
   "theorems": [
    "Gospn.C06_value_marginal_unnormalised",
    "Gospn.C06_value_marginal"
   ],
   "note": "Exact arithmetic. Value is a log-probability, completions are finitely many, and the probability of the evidence is the sum over them; no evidence gives log-probability exactly 0. The _unnormalised theorem drops the condition that weights sum to one."
  },
  {
   "property": "C07",
   "status": "partial",
   "theorems": [
    "Gospn.C07_storeMAP_partial",
    "Gospn.C07_argMax_value_partial",
    "Gospn.C07_argMax_refuted"
   ],
   "note": "StoreMAP under the conditions of C04 for every tie breaking; ArgMax for all networks without zero-deviation Gaussian leaves, for which it is false (C07_argMax_refuted)."
  },
  {
   "property": "C08",
   "status": "partial",
   "theorems": [
    "Gospn.C08_max_upper_bound",
    "Gospn.C08_argMax_partial",
    "Gospn.C08_storeMAP_partial",
    "Gospn.C08_indicator_refuted",
    "Gospn.C08_gaussian_refuted"
   ],
   "note": "Proved for ArgMax and StoreMAP (any tie breaking) on valid networks and evidence of positive MAP probability, with the upper bound over all states that extend the evidence. Not for unobserved indicators of values other than 0 and Gaussians with non-integer mean: C08_indicator_refuted and C08_gaussian_refuted show the claim false there. Probability zero: see C09."
  },
  {
   "property": "C09",
   "status": "partial",
   "theorems": [
    "Gospn.C09_argMax_returns_partial",
    "Gospn.C09_zero_probability_refuted",
    "Gospn.C09_witness"
   ],
   "note": "Returns whenever the MAP probability is positive. The claim is false for MAP probability zero: at a sum node ArgMax calls a method of a nil node (C09_zero_probability_refuted, C09_witness)."
  },
  {
   "property": "C10",
   "status": "proved",
   "theorems": [
    "Gospn.C10_search",
    "Gospn.C10_search_all",
    "Gospn.C10_breadth_first_levels",
    "Gospn.C10_countNodes"
   ],
   "note": "Every finite graph including cyclic ones, every callback; breadth-first order by levels is also proved."
  },
  {
   "property": "C11",
   "status": "proved",
   "theorems": [
    "Gospn.C11_storer_is_plain_map",
    "Gospn.C11_other_tickets_unchanged"
   ],
   "note": "Refinement of the heap model (tables by reference) to a plain map for every history, including calls through table handles."
  },
  {
   "property": "C12",
   "status": "partial",
   "theorems": [
    "Gospn.C12_tickets_unique",
    "Gospn.C12_new_table_empty",
    "Gospn.C12_fresh_partial",
    "Gospn.C12_fresh_refuted"
   ],
   "note": "Uniqueness and emptiness are proved for every history. Freshness is false of the code when a ticket is reset before it is issued (C12_fresh_refuted); proved for histories that only reset issued tickets."
  },
  {
   "property": "C13",
   "status": "proved",
   "theorems": [
    "Gospn.C13_handle_is_live",
    "Gospn.C13_handle_detached",
    "Gospn.C13_detached_independent"
   ],
   "note": "Live until the ticket is reset, deleted, reissued or purged; detached for ever afterwards; independent in both directions."
  },
  {
   "property": "C14",
   "status": "partial",
   "theorems": [
    "Gospn.C14_queue_fifo_partial",
    "Gospn.C14_dequeueBack_refuted",
    "Gospn.C14_dequeueBack_singleton_panics",
    "Gospn.C14_dequeueBack_exact"
   ],
   "note": "DequeueBack is wrong in the code (C14_dequeueBack_refuted); all other operations are proved against a FIFO queue for every history, and what DequeueBack does is stated exactly."
  },
  {
   "property": "C15",
   "status": "proved",
   "theorems": [
    "Gospn.C15_stack_lifo"
   ],
   "note": "Refinement to a LIFO stack for every history of calls."
  },
  {
   "property": "C16",
   "status": "proved",
   "theorems": [
    "Gospn.C16_bound",
    "Gospn.C16_exactly_once",
    "Gospn.C16_wait"
   ],
   "note": "Functions given to the queue are opaque and do not call the queue themselves; Signal may pick any waiter; Wait may return at any time after the counter is seen to be zero; panics from misuse of a WaitGroup are not modelled."
  },
  {
   "property": "C17",
   "status": "proved",
   "theorems": [
    "Gospn.C17_no_deadlock",
    "Gospn.C17_terminates"
   ],
   "note": "Same model as C16. Deadlock freedom is progress from every reachable state; termination is a bound on the number of steps of every execution."
  },
  {
   "property": "C18",
   "status": "proved",
   "theorems": [
    "Gospn.C18_logSumExp",
    "Gospn.C18_logSumExp_order",
    "Gospn.C18_logSumExpPair"
   ],
   "note": "Exact arithmetic on extended reals; all lengths."
  },
  {
   "property": "C19",
   "status": "proved",
   "theorems": [
    "Gospn.C19_logSumLog"
   ],
   "note": "Exact arithmetic on extended reals; all lengths and signs."
  },
  {
   "property": "C20",
   "status": "partial",
   "theorems": [
    "Gospn.C20_logProd_partial",
    "Gospn.C20_logSum_partial",
    "Gospn.C20_logSumPair_partial",
    "Gospn.C20_logSum_refuted",
    "Gospn.C20_logSumPair_refuted"
   ],
   "note": "LogProd and the sums are proved for the inputs stated in the theorems; with all probabilities zero LogSum and LogSumPair give NaN (C20_logSum_refuted, C20_logSumPair_refuted)."
  },
  {
   "property": "C21",
   "status": "proved",
   "theorems": [
    "Gospn.C21_trim"
   ],
   "note": "Every slice and value, with the permutation of the backing array."
  },
  {
   "property": "C22",
   "status": "proved",
   "theorems": [
    "Gospn.C22_find",
    "Gospn.C22_union"
   ],
   "note": "Nodes are numbered in the order of MakeSet; Find is shown to return within as many calls as there are nodes."
  },
  {
   "property": "C23",
   "status": "proved",
   "theorems": [
    "Gospn.C23_varids"
   ],
   "note": "Shown for the representative both before and after path compression by Find."
  },
  {
   "property": "C24",
   "status": "proved",
   "theorems": [
    "Gospn.C24_components"
   ],
   "note": "The outcome of each pairwise test is an arbitrary function of the two positions; ids are assumed distinct. The adjacency lists are modelled for NewIndepGraph, which reads them."
  },
  {
   "property": "C25",
   "status": "partial",
   "theorems": [
    "Gospn.C25_normalize",
    "Gospn.C25_fixed",
    "Gospn.C25_spn_partial",
    "Gospn.C25_spn_refuted"
   ],
   "note": "learn.Normalize is proved for every real vector (C25_normalize, C25_fixed). The normalisation used by NormalizeSPN is proved for vectors without negative entries; for others the claim is false (C25_spn_refuted: the minimum is added, not subtracted, spn/utils.go:267-271)."
  },
  {
   "property": "C26",
   "status": "proved",
   "theorems": [
    "Gospn.C26_normalize_spn"
   ],
   "note": "For arbitrary floating-point operations and arbitrary graphs."
  },
  {
   "property": "C27",
   "status": "partial",
   "theorems": [
    "Gospn.C27_complete_partial",
    "Gospn.C27_decomposable_partial",
    "Gospn.C27_refuted"
   ],
   "note": "Complete and Decomposable examine the root only: proved what they decide and that they accept every valid network; the claim itself is false (C27_refuted), because children are enqueued on the condition !V[S]."
  },
  {
   "property": "C28",
   "status": "partial",
   "theorems": [
    "Gospn.C28_scope_partial",
    "Gospn.C28_order_refuted"
   ],
   "note": "Proved for networks without cycles where no child is reachable from a later sibling; false otherwise (C28_order_refuted)."
  },
  {
   "property": "C29",
   "status": "partial",
   "theorems": [
    "Gospn.C29_height",
    "Gospn.C29_computeHeight_partial",
    "Gospn.C29_computeHeight_refuted"
   ],
   "note": "Height is proved for every DAG. ComputeHeight returns at most the height, and the height when all paths to a node have the same length; false in general (C29_computeHeight_refuted)."
  },
  {
   "property": "C30",
   "status": "partial",
   "theorems": [
    "Gospn.C30_copy_partial",
    "Gospn.C30_exact_copy_partial",
    "Gospn.C30_copy_same_results",
    "Gospn.C30_order_refuted",
    "Gospn.C30_weights_refuted"
   ],
   "note": "For networks without cycles where no child is reachable from a later sibling, the network read back is a copy up to the digits that %f drops, and an exact copy if there are none; copies give the same Value, Max and ArgMax bit for bit. False otherwise: C30_order_refuted (a bridged edge makes the result cyclic), C30_weights_refuted (weight 1e-7 becomes 0)."
  },
  {
   "property": "C31",
   "status": "partial",
   "theorems": [
    "Gospn.C31_deriveSPN_partial",
    "Gospn.C31_after_storeInference_partial",
    "Gospn.C31_queue_refuted",
    "Gospn.C31_stack_refuted"
   ],
   "note": "Proved when every parent is taken before its children (breadth-first search of levelled networks, any search of networks whose inner nodes form a tree). Refuted for queues and for stacks on networks with shared inner nodes at several depths (C31_queue_refuted, C31_stack_refuted)."
  },
  {
   "property": "C32",
   "status": "proved",
   "theorems": [
    "Gospn.C32_deriveWeights",
    "Gospn.C32_deriveWeightsBatch",
    "Gospn.C32_meaning",
    "Gospn.C32_meaning_batch",
    "Gospn.C32_after_deriveSPN_partial"
   ],
   "note": "Bit-exact on every graph (C32_deriveWeights, C32_deriveWeightsBatch); C32_meaning and C32_meaning_batch say that what is stored is the partial derivative, given right tables; C32_after_deriveSPN_partial chains the three calls under the conditions of C31."
  },
  {
   "property": "C33",
   "status": "proved",
   "theorems": [
    "Gospn.C33_apply",
    "Gospn.C33_apply_panics",
    "Gospn.C33_meaning"
   ],
   "note": "Bit-exact on every graph, with the exact panic condition; C33_meaning gives the step in terms of partial derivatives."
  },
  {
   "property": "C34",
   "status": "partial",
   "theorems": [
    "Gospn.C34_refuted",
    "Gospn.C34_root_partial",
    "Gospn.C34_refuted_witness"
   ],
   "note": "Refuted: on every acyclic network only the root changes (C34_refuted, C34_refuted_witness). C34_root_partial: the root is updated."
  },
  {
   "property": "C35",
   "status": "partial",
   "theorems": [
    "Gospn.C35_restored_iff",
    "Gospn.C35_restored_partial",
    "Gospn.C35_hidden",
    "Gospn.C35_refuted"
   ],
   "note": "C35_restored_iff says exactly when the instance is restored; refuted for absent and repeated query variables (C35_refuted)."
  },
  {
   "property": "C36",
   "status": "partial",
   "theorems": [
    "Gospn.C36_counts",
    "Gospn.C36_returns",
    "Gospn.C36_map_trace_partial",
    "Gospn.C36_choice_refuted"
   ],
   "note": "C36_counts proves the counting on every decomposable network whose childless nodes are leaves, for every tie breaking, bit-exact; C36_returns that it never panics. That the counted positions are the most probable ones (C36_map_trace_partial) needs the sibling order of C02 and is refuted without it (C36_choice_refuted)."
  },
  {
   "property": "C37",
   "status": "proved",
   "theorems": [
    "Gospn.C37_learn",
    "Gospn.C37_distribution"
   ],
   "note": "Learned is the relation \"this node can be what Learn/LearnGauss (or the concurrent variants) returned\"; independence tests, k-means results, map orders, random modes and the order of concurrent additions are all arbitrary. Exact real arithmetic. Termination is not claimed. C37_distribution adds that the learned SPN sums to one over the complete instances."
  },
  {
   "property": "C38",
   "status": "partial",
   "theorems": [
    "Gospn.C38_dbscan_partial",
    "Gospn.C38_returned_partial",
    "Gospn.C38_refuted",
    "Gospn.C38_density_refuted"
   ],
   "note": "Refuted as stated. C38_refuted: DBSCANData panics on two equal instances with mp = 1, because clusters are numbered by representative but only as many as there are clusters are allocated. C38_density_refuted: DBSCAN separates density-linked rows for mp = 2. Proved: the matrix version always returns a partition whose clusters are density-linked, exactly the density classes for mp <= 1 (C38_dbscan_partial); whenever DBSCANData returns, its result is such a partition of the instances (C38_returned_partial). The scan terminates on every input (scan_spec)."
  },
  {
   "property": "C39",
   "status": "proved",
   "theorems": [
    "Gospn.C39_groups",
    "Gospn.C39_kmeans"
   ],
   "note": "For every assignment function with indices below k and values that survive conversion to float64 and back (hypothesis toInt (ofInt v) = v)."
  },
  {
   "property": "C40",
   "status": "proved",
   "theorems": [
    "Gospn.C40_matrix",
    "Gospn.C40_complete",
    "Gospn.C40_roundtrip"
   ],
   "note": "For datasets in which all instances have the same variables, every map iteration order."
  },
  {
   "property": "C41",
   "status": "partial",
   "theorems": [
    "Gospn.C41_divide_partial",
    "Gospn.C41_refuted",
    "Gospn.C41_empty"
   ],
   "note": "Divide returns chunks of new maps that contain every instance exactly once with its own label, the first n-1 of size len/n and the last of size len/n + len%n (C41_divide_partial). Missing: sizes differing by at most one, which is false (C41_refuted). C41_empty: fewer instances than chunks."
  },
  {
   "property": "C42",
   "status": "partial",
   "theorems": [
    "Gospn.C42_partition_partial",
    "Gospn.C42_returned_partial",
    "Gospn.C42_refuted"
   ],
   "note": "Proved when no partial sum n*(p1+...+pj) is exactly half-integer (C42_partition_partial) and for every call that returns (C42_returned_partial). Missing: exactly half-integer partial sums, where cascade rounding can give -1 and Partition panics (C42_refuted). Exact arithmetic."
  },
  {
   "property": "C43",
   "status": "partial",
   "theorems": [
    "Gospn.C43_labels_partial",
    "Gospn.C43_exact_partial",
    "Gospn.C43_refuted"
   ],
   "note": "The labels of all parts together are the given labels (C43_labels_partial); the full claim holds when all proportions of all classes are whole numbers (C43_exact_partial). Missing: the instances left over by rounding, which are taken by position within the class instead of by index in D, so they get wrong labels (C43_refuted). Exact arithmetic."
  },
  {
   "property": "C44",
   "status": "proved",
   "theorems": [
    "Gospn.C44_extract",
    "Gospn.C44_merge",
    "Gospn.C44_merge_extract",
    "Gospn.C44_extract_merge"
   ],
   "note": "All four directions, on maps in memory, for every iteration order."
  },
  {
   "property": "C45",
   "status": "proved",
   "theorems": [
    "Gospn.C45_split",
    "Gospn.C45_subtractLabel",
    "Gospn.C45_join",
    "Gospn.C45_join_unlabelled"
   ],
   "note": "On maps in memory; C45_join covers labelled and C45_join_unlabelled unlabelled datasets."
  },
  {
   "property": "C46",
   "status": "partial",
   "theorems": [
    "Gospn.C46_identical_partial",
    "Gospn.C46_label_counts",
    "Gospn.C46_refuted"
   ],
   "note": "Proved for datasets of equal size whose instances have the same variables (C46_identical_partial). Missing: other pairs, for which an absent variable counts as 0, extra instances of the second dataset go unnoticed and a shorter second dataset makes it panic (C46_refuted)."
  },
  {
   "property": "C47",
   "status": "proved",
   "theorems": [
    "Gospn.C47_counts",
    "Gospn.C47_predictions",
    "Gospn.C47_confusion"
   ],
   "note": "Counters, predictions and confusion matrix after any history of NewScore, Register, Clear, Add and Merge on any number of scores; C47_predictions needs histories without Add of a slice with spare capacity (see C48), C47_counts and C47_confusion do not."
  },
  {
   "property": "C48",
   "status": "partial",
   "theorems": [
    "Gospn.C48_add_partial",
    "Gospn.C48_refuted",
    "Gospn.C48_call_partial"
   ],
   "note": "C48_add_partial: full refinement to independent lists for histories in which the first operand of each Add has no spare capacity; C48_call_partial: right at the moment of the call for any history. C48_refuted: with spare capacity two results of Add share an array and a later Register or Add overwrites predictions."
  },
  {
   "property": "C49",
   "status": "partial",
   "theorems": [
    "Gospn.C49_evaluate_memory_partial",
    "Gospn.C49_posterior_memory_partial",
    "Gospn.C49_refuted",
    "Gospn.C49_evaluate_partial"
   ],
   "note": "C49_refuted: both evaluations panic for every test set of two to nine instances; otherwise memory effect for every network (C49_*_memory_partial: an instance without the class variable gains it with value 0), and returning with right predictions on networks satisfying C08 (C49_evaluate_partial) or C06 (C59_posterior_partial)."
  },
  {
   "property": "C50",
   "status": "partial",
   "theorems": [
    "Gospn.C50_partition_partial",
    "Gospn.C50_refuted"
   ],
   "note": "C50_refuted: for every slice of 18 values and 7 groups the last group is empty and its mean and standard deviation are NaN, so the claim fails. C50_partition_partial: for every m >= 1 the groups are m consecutive blocks that together are X, with exact mean and standard deviation; they are non-empty when X has fewer than 2m values or m(m-1) < 2*len(X). A zero deviation is reported as 1/2."
  },
  {
   "property": "C51",
   "status": "proved",
   "theorems": [
    "Gospn.C51_counting",
    "Gospn.C51_scoped",
    "Gospn.C51_empty",
    "Gospn.C51_multinomial",
    "Gospn.C51_computeMode",
    "Gospn.C51_ties"
   ],
   "note": "All five ways of recording a mode, in exact arithmetic, for every result of RandIntn; C51_ties shows that every tie can be broken either way."
  },
  {
   "property": "C52",
   "status": "proved",
   "theorems": [
    "Gospn.C52_hamming",
    "Gospn.C52_hammingF",
    "Gospn.C52_euclideanF",
    "Gospn.C52_euclidean"
   ],
   "note": "Euclidean in exact arithmetic (XR); Hamming on integers."
  },
  {
   "property": "C53",
   "status": "proved",
   "theorems": [
    "Gospn.C53_decode_encode",
    "Gospn.C53_injective"
   ],
   "note": "Exact in 64-bit unsigned arithmetic; the only hypotheses are that the codes of the image size fit in 64 bits and that the coordinates lie in the image."
  },
  {
   "property": "C54",
   "status": "proved",
   "theorems": [
    "Gospn.C54_newCounts"
   ],
   "note": "For every n >= 0 and at least one class; with no class new_counts divides by zero (none in the model)."
  },
  {
   "property": "C55",
   "status": "proved",
   "theorems": [
    "Gospn.C55_splitHalf"
   ],
   "note": "For every width, height and every image with one value per pixel; also states which half is which."
  },
  {
   "property": "C56",
   "status": "partial",
   "theorems": [
    "Gospn.C56_first_partial",
    "Gospn.C56_others",
    "Gospn.C56_refuted"
   ],
   "note": "Right for the first weight of the root (C56_first_partial); the others are not divided by the value of the SPN (C56_others), refuted by C56_refuted."
  },
  {
   "property": "C57",
   "status": "proved",
   "theorems": [
    "Gospn.C57_copy",
    "Gospn.C57_copy_unlabelled",
    "Gospn.C57_subtractVariable"
   ],
   "note": "On maps in memory, for every iteration order."
  },
  {
   "property": "C58",
   "status": "proved",
   "theorems": [
    "Gospn.C58_shuffle",
    "Gospn.C58_shuffle_unlabelled"
   ],
   "note": "For every sequence of swaps of positions below the length."
  },
  {
   "property": "C59",
   "status": "partial",
   "theorems": [
    "Gospn.C59_posterior_partial"
   ],
   "note": "Proved for test sets of no, one or at least ten instances containing the class variable and networks whose children are listed in order with an inner root; otherwise see C49_refuted and C04_order_refuted."
  },
  {
   "property": "C60",
   "status": "proved",
   "theorems": [
    "Gospn.C60_muSigma",
    "Gospn.C60_mean",
    "Gospn.C60_stdDev"
   ],
   "note": "C60_muSigma is bit-exact in every float arithmetic; C60_mean and C60_stdDev are over exact reals."
  },
  {
   "property": "C61",
   "status": "partial",
   "theorems": [
    "Gospn.C61_pgm_partial",
    "Gospn.C61_ppm",
    "Gospn.C61_refuted"
   ],
   "note": "C61_refuted: in every non-empty completion drawing with fewer than 256 declared shades the red line has a sample above the declared maximum. C61_pgm_partial and C61_ppm prove everything else: dimensions, red line, and every pixel exactly once at its place and in its colour."
  },
  {
   "property": "C62",
   "status": "proved",
   "theorems": [
    "Gospn.C62_statePixels"
   ],
   "note": "For every iteration order; a state with another set of variables panics, which is also proved."
  },
  {
   "property": "C63",
   "status": "proved",
   "theorems": [
    "Gospn.C63_read"
   ],
   "note": "The npyio decoder is trusted to return the elements of the file in order; rows have at least one element."
  },
  {
   "property": "C64",
   "status": "proved",
   "theorems": [
    "Gospn.C64_readBalanced"
   ],
   "note": "Includes the error case; labels outside 0..c-1 panic in the code and are excluded by hypothesis."
  },
  {
   "property": "C65",
   "status": "proved",
   "theorems": [
    "Gospn.C65_contingency",
    "Gospn.C65_graph"
   ],
   "note": ""
  },
  {
   "property": "C66",
   "status": "proved",
   "theorems": [
    "Gospn.C66_gTest",
    "Gospn.C66_symmetric",
    "Gospn.C66_independent",
    "Gospn.C66_chiSquareTest"
   ],
   "note": "Statistics are computed in exact real arithmetic; the chi-square distribution function of gonum is an arbitrary function."
  },
  {
   "property": "C67",
   "status": "partial",
   "theorems": [
    "Gospn.C67_raw_partial",
    "Gospn.C67_counts_partial",
    "Gospn.C67_mode_refuted",
    "Gospn.C67_mode_refuted_witness"
   ],
   "note": "Refuted for NewGaussianMode, whose mode variable is never assigned: the leaf is centred on zero. Proved in exact real arithmetic for the other two."
  },
  {
   "property": "C68",
   "status": "partial",
   "theorems": [
    "Gospn.C68_gaussian_partial",
    "Gospn.C68_zero_refuted",
    "Gospn.C68_evidence_refuted",
    "Gospn.C68_positive_refuted"
   ],
   "note": "Proved for positive deviations in exact real arithmetic. Refuted for deviation zero (Value and Max without evidence are the log of zero; ArgMax overwrites observed values); a log-density may be positive."
  },
  {
   "property": "C69",
   "status": "proved",
   "theorems": [
    "Gospn.C69_normalised",
    "Gospn.C69_unnormalised",
    "Gospn.C69_still_distribution"
   ],
   "note": "Exact arithmetic; any graph."
  },
  {
   "property": "C70",
   "status": "partial",
   "theorems": [
    "Gospn.C70_ascent_partial",
    "Gospn.C70_ascent_refuted"
   ],
   "note": "Proved where values and derivatives are right (C04, C31); refuted on a network with paths of different lengths to a node: a weight of derivative 1 moves by half the learning rate."
  },
  {
   "property": "C71",
   "status": "partial",
   "theorems": [
    "Gospn.C71_keeps",
    "Gospn.C71_ascent_partial",
    "Gospn.C71_zero_batch"
   ],
   "note": "That it finishes and keeps distributions is proved on any graph; gradient ascent is proved where values and derivatives are right (C04, C31); a shorter last block is divided by the full batch size; BatchSize 0 panics."
  },
  {
   "property": "C72",
   "status": "partial",
   "theorems": [
    "Gospn.C72_gd_keeps",
    "Gospn.C72_bgd_keeps",
    "Gospn.C72_gd_ascent_partial",
    "Gospn.C72_bgd_ascent_partial",
    "Gospn.C72_zero_weight_refuted"
   ],
   "note": "That it finishes and keeps positive weights and distributions is proved on acyclic decomposable networks with positive weights; MAP traces where no child is reachable from a sibling listed after it (C36). Refuted for a weight of zero: the division by it gives +Inf and normalisation NaN."
  },
  {
   "property": "C73",
   "status": "partial",
   "theorems": [
    "Gospn.C73_bound_partial",
    "Gospn.C73_default",
    "Gospn.C73_unbind",
    "Gospn.C73_leaf_refuted",
    "Gospn.C73_generative_partial",
    "Gospn.C73_em_refuted",
    "Gospn.C73_generative_default",
    "Gospn.C73_discriminative_partial"
   ],
   "note": "Proved for sums and products, and for the dispatch on gradient descent. Refuted for leaves, whose method Parameters keys on the embedded Node and so never finds what was bound to the leaf, and for the learning types SoftEM and HardEM, for which gradient descent runs."
  },
  {
   "property": "C74",
   "status": "partial",
   "theorems": [
    "Gospn.C74_generative",
    "Gospn.C74_discriminative",
    "Gospn.C74_data_partial",
    "Gospn.C74_data_iff",
    "Gospn.C74_gd_returns",
    "Gospn.C74_bgd_returns"
   ],
   "note": "Proved for the network, for all eight routines and any floating point arithmetic; for the data set exactly when every instance has every query variable and none is listed twice (C74_data_iff); an instance without a query variable has it afterwards, with value 0. That the hard discriminative routines return is not claimed: TraceMAP panics on NaN."
  },
  {
   "property": "C75",
   "status": "partial",
   "theorems": [
    "Gospn.C75_gd_partial",
    "Gospn.C75_bgd_partial",
    "Gospn.C75_refuted"
   ],
   "note": "C75_gd_partial and C75_bgd_partial: over exact reals, for all draws and map orders, both loops are runs of contrastive steps between MAP traces with and without the query variables, one per instance or per block of the repeated data set, and the data set is restored, as long as the steps leave positive weights; conditions: acyclic, decomposable, childless nodes are leaves, no child reachable from a later sibling, instances have every query variable. C75_refuted: the claim about normalisation is false, on a valid network with positive probability vectors one step with learning rate 1 leaves a NaN weight (0/0 at a sum node with one child). Not covered: networks outside these conditions (C36), what happens after a weight is zero or negative."
  },
  {
   "property": "C76",
   "status": "partial",
   "theorems": [
    "Gospn.C76_one_partial",
    "Gospn.C76_total_partial",
    "Gospn.C76_structure_partial",
    "Gospn.C76_resolution_one",
    "Gospn.C76_single_partial",
    "Gospn.C76_refuted"
   ],
   "note": "C76_structure_partial: for every data set, size, resolution, draws and arithmetic, whatever Structure returns is acyclic and decomposable, about pixels of the image only, with all weights 1, and it is complete and about all pixels provided no reachable sum lacks children. C76_one_partial: with one sum per region (m = 1) no reachable sum lacks children, for every non-empty data set and arithmetic. C76_total_partial: in exact arithmetic Structure returns for every data set with at least g images and no empty quantile, for every m, resolution at least 2 dividing width and height, g at least 2. C76_single_partial: the same for one instance, where no reachable sum lacks children for any m (image of more than one block). The full claim is false: C76_refuted (an image of one block and m at least 2: the root can be a sum without children) and C76_resolution_one (with resolution 1 Structure panics on every non-empty data set). Missing: for which data sets of several images and m at least 2 no reachable sum lacks children."
  },
  {
   "property": "C77",
   "status": "proved",
   "theorems": [
    "Gospn.C77_scopes",
    "Gospn.C77_structure",
    "Gospn.C77_weights",
    "Gospn.C77_empty_cluster"
   ],
   "note": "Stated for the environment GoodEnv (clusterings without empty clusters, map orders that list each key once, draws below 10), which is what lies outside the repository. C77_structure holds for every arithmetic in which the quantiles can be computed, C77_weights in exact arithmetic without that assumption. C77_empty_cluster shows that the assumption about the library is needed. C77_scopes: the set operations and the similarity test."
  },
  {
   "property": "C78",
   "status": "proved",
   "theorems": [
    "Gospn.C78_scope_only",
    "Gospn.C78_more_evidence",
    "Gospn.C78_sum_out",
    "Gospn.C78_max_le_value",
    "Gospn.C78_gaussian_refuted"
   ],
   "note": "Locality holds bit for bit in any arithmetic; the order of probabilities is shown in exact arithmetic, where -Inf is the log of zero. Discrete leaves are necessary: the density of a narrow Gaussian exceeds one (C78_gaussian_refuted)."
  },
  {
   "property": "C79",
   "status": "partial",
   "theorems": [
    "Gospn.C79_partition_partial",
    "Gospn.C79_never_returns",
    "Gospn.C79_mean_not_mode",
    "Gospn.C79_too_many_clusters"
   ],
   "note": "Proved: no panic, and partition into clusters of nearest centres whenever the loop ends. Refuted: that the loop always ends (8 binary rows, k = 2, a cycle of 16 states) and that the centre is the mode after a removal. KMode and OldKMeans are the same code up to names and are modelled once."
  },
  {
   "property": "C80",
   "status": "proved",
   "theorems": [
    "Gospn.C80_returns",
    "Gospn.C80_too_few_rows",
    "Gospn.C80_not_true_medoids"
   ],
   "note": "Termination by the lexicographic measure (rows without cluster, total Hamming distance to the medoids, rows still to look at). The draws are given as the order in which the rows come up first."
  },
  {
   "property": "C81",
   "status": "proved",
   "theorems": [
    "Gospn.C81_partition",
    "Gospn.C81_returns",
    "Gospn.C81_empty_cluster",
    "Gospn.C81_too_many_clusters"
   ],
   "note": "Termination and nearest centroids hold for exact real arithmetic (with floats the cost may stall); the partition holds for any arithmetic. C81_empty_cluster: five points in the plane for which a cluster is empty at the end."
  },
  {
   "property": "C82",
   "status": "partial",
   "theorems": [
    "Gospn.C82_optics_partial",
    "Gospn.C82_core_panics"
   ],
   "note": "Proved: with no core point, one map with all rows; with a core point, a panic. So the claim about clusters is refuted. The code after a defined core distance is an argument of the model, since it is never reached."
  },
  {
   "property": "C83",
   "status": "partial",
   "theorems": [
    "Gospn.C83_kmeans_partial",
    "Gospn.C83_kmeansF",
    "Gospn.C83_library_error",
    "Gospn.C83_data_keysF",
    "Gospn.C83_data_keys",
    "Gospn.C83_data_loses_rows"
   ],
   "note": "Proved for KMeans and KMeansF with the library as an argument; refuted for KMeansData and KMeansFData (rows are lost). Not proved: anything about the labels themselves."
  },
  {
   "property": "C84",
   "status": "partial",
   "theorems": [
    "Gospn.C84_parseData_partial",
    "Gospn.C84_long_line",
    "Gospn.C84_lost_rows",
    "Gospn.C84_short_row",
    "Gospn.C84_no_rows",
    "Gospn.C84_parseDataNL_partial",
    "Gospn.C84_parseEvidence_partial"
   ],
   "note": "Proved for files whose lines all have less than 65536 characters (all three readers). Refuted without that: C84_long_line shows that the rows from the first long line on are silently lost, C84_lost_rows is a concrete file. Panics: C84_short_row, C84_no_rows."
  },
  {
   "property": "C85",
   "status": "proved",
   "theorems": [
    "Gospn.C85_partition",
    "Gospn.C85_size",
    "Gospn.C85_bad_p"
   ],
   "note": "Every split of every data file (lines below 65536 characters, see C84); size for exact real arithmetic; C85_bad_p: a negative size panics, and with too few different draws the loop does not end."
  },
  {
   "property": "C86",
   "status": "partial",
   "theorems": [
    "Gospn.C86_pgmFToData_partial",
    "Gospn.C86_buffered_partial",
    "Gospn.C86_lost_images",
    "Gospn.C86_large_images",
    "Gospn.C86_no_images",
    "Gospn.C86_written_image",
    "Gospn.C86_no_maximum"
   ],
   "note": "Proved for images whose line in the data file has less than 65536 characters, for both functions and every scheduling. Refuted without that: C86_lost_images, C86_large_images. Round trip with VarSetToPGM: C86_written_image (width at most 3120)."
  },
  {
   "property": "C87",
   "status": "partial",
   "theorems": [
    "Gospn.C87_labels_partial",
    "Gospn.C87_labels_wrong",
    "Gospn.C87_pgmFToEvidence_partial",
    "Gospn.C87_shifted"
   ],
   "note": "Pixels proved for tight images, refuted otherwise by C87_shifted; labels proved for classes of equal size, refuted otherwise by C87_labels_wrong."
  },
  {
   "property": "C88",
   "status": "partial",
   "theorems": [
    "Gospn.C88_pbmFToData_partial",
    "Gospn.C88_large_images",
    "Gospn.C88_pbmToData_class_lost",
    "Gospn.C88_pbmFToEvidence_partial",
    "Gospn.C88_written_image"
   ],
   "note": "Proved for images of at most 32750 characters. Refuted: C88_large_images, and C88_pbmToData_class_lost for the class of PBMToData."
  },
  {
   "property": "C89",
   "status": "partial",
   "theorems": [
    "Gospn.C89_parseArff_partial",
    "Gospn.C89_undeclared",
    "Gospn.C89_collision",
    "Gospn.C89_blank_line",
    "Gospn.C89_refuted",
    "Gospn.C89_real"
   ],
   "note": "C89_parseArff_partial proves the claim for all files whose nominal values are declared. C89_undeclared says what happens otherwise: the other values are numbered from 0 again, C89_collision shows that one of them then gets the code of the first label, C89_refuted is a file where this happens. C89_real: the types real and integer are read as classes of one label. C89_blank_line: an empty line adds an instance without values."
  },
  {
   "property": "C90",
   "status": "partial",
   "theorems": [
    "Gospn.C90_arffToData_partial",
    "Gospn.C90_blank_in_labels",
    "Gospn.C90_undeclared",
    "Gospn.C90_keywords",
    "Gospn.C90_blank_line"
   ],
   "note": "C90_arffToData_partial proves the round trip for strictly written files of at most 3119 nominal attributes (a line of the output then fits the scanner). C90_blank_in_labels, C90_undeclared, C90_keywords and C90_blank_line are files for which it fails."
  },
  {
   "property": "C91",
   "status": "partial",
   "theorems": [
    "Gospn.C91_imgClassify_partial",
    "Gospn.C91_label_panics"
   ],
   "note": "Proved for networks meeting the conditions of C04 (root with children, children in topological order), over exact reals, after learning: hits, total and test data (C91_imgClassify_partial); labels outside the classes panic after all the work (C91_label_panics). Missing: networks outside those conditions, floating-point rounding."
  },
  {
   "property": "C92",
   "status": "partial",
   "theorems": [
    "Gospn.C92_halfImg_partial",
    "Gospn.C92_panics"
   ],
   "note": "Known half proved for every image, size and map order; the completion is a MAP state under the conditions of C08 (C92_halfImg_partial). Missing: those conditions. Other types, or width zero for left and right, panic (C92_panics)."
  },
  {
   "property": "C93",
   "status": "partial",
   "theorems": [
    "Gospn.C93_types",
    "Gospn.C93_completion",
    "Gospn.C93_terminates",
    "Gospn.C93_parallel_partial",
    "Gospn.C93_parallel_refuted"
   ],
   "note": "Proved for ImgCompletion for every interleaving (C93_completion, C93_terminates). Refuted for ImgTestParallel, whose jobs use the shared loop variable instead of their own number: for any number of images there is an execution in which all files carry the number of images, so that all images overwrite the same four files (C93_parallel_refuted); what remains is C93_parallel_partial. The four files of a job are written in one step."
  },
  {
   "property": "C94",
   "status": "proved",
   "theorems": [
    "Gospn.C94_poon_many",
    "Gospn.C94_layered",
    "Gospn.C94_tree",
    "Gospn.C94_routines",
    "Gospn.C94_dennis",
    "Gospn.C94_poon",
    "Gospn.C94_poon_single",
    "Gospn.C94_gens"
   ],
   "note": "C94_layered and C94_tree give the graph condition from the shape; C94_routines collects C02, C03, C04, C07, C28 and C30 for every finite copy (IsCopy) of the network, and the existence of a finite copy; C94_dennis, C94_poon_single and C94_poon_many (any number of images, one sum per region) are end to end from the learner; C94_poon has the condition that no sum lacks children (needed: C76_refuted); C94_gens takes from the text of gens.go that every node is created once and added to one parent (TreeBelow)."
  },
  {
   "property": "C95",
   "status": "partial",
   "theorems": [
    "Gospn.C95_same_partial",
    "Gospn.C95_returns",
    "Gospn.C95_cpu_refuted",
    "Gospn.C95_empty_refuted",
    "Gospn.C95_few_refuted"
   ],
   "note": "Proved for at least ten instances and, if k <= 0, no more processors than instances: every execution ends, the score has the counts and (up to order) the predictions of EvaluatePosterior, and no existing map changes (C95_same_partial, C95_returns). Refuted: for one to nine instances every execution panics, because len(D)/10 is zero (C95_few_refuted); with k <= 0 and fewer instances than processors Divide panics (C95_cpu_refuted), and without instances G[1] does (C95_empty_refuted). One instance of one job is one step of the model: a job only shares the score with others, and that under a mutex."
  },
  {
   "property": "C96",
   "status": "partial",
   "theorems": [
    "Gospn.C96_generative",
    "Gospn.C96_dennis_partial",
    "Gospn.C96_hard",
    "Gospn.C96_poon_partial",
    "Gospn.C96_poon_single",
    "Gospn.C96_zeros_refuted",
    "Gospn.C96_poon_many"
   ],
   "note": "Proved for learn/dennis (C96_dennis_partial) for all complete data from which the Gaussians can be computed, all learning types, batch sizes and parameters with a learning rate that is not negative and lambda < 1/2; for learn/poon on one image (C96_poon_single), on any number of images with one sum per region (C96_poon_many) and on any network of Structure in which every sum has children and every Gaussian is real (C96_poon_partial). Refuted without the data condition: if there are fewer instances than Gaussians and a variable is zero in all of them, the learned network is NaN for every input that observes the variable (C96_zeros_refuted). Exact arithmetic."
  },
  {
   "property": "C97",
   "status": "partial",
   "theorems": [
    "Gospn.C97_dennis_partial",
    "Gospn.C97_poon_partial",
    "Gospn.C97_few_refuted",
    "Gospn.C97_one_refuted",
    "Gospn.C97_order_refuted"
   ],
   "note": "C97_dennis_partial and C97_poon_partial: with at least as many instances as Gaussians and no empty quantile every leaf has the mean and deviation of one of g non-empty consecutive parts of the values, hence a mean within the data and a positive deviation; for learn/poon (which sorts) the parts are quantiles. Refuted otherwise: with fewer instances than Gaussians (learn/dennis, C97_few_refuted) or one Gaussian per pixel (learn/poon, C97_one_refuted) the values are taken for counts, and the mean is a position below every value of the data; learn/dennis does not sort, so that for a variable alternating between a and b all g leaves are the same distribution around (a+b)/2 (C97_order_refuted). Exact arithmetic."
  },
  {
   "property": "C98",
   "status": "partial",
   "theorems": [
    "Gospn.C98_dot_partial",
    "Gospn.C98_leaf",
    "Gospn.C98_tools_partial",
    "Gospn.C98_tools_refuted",
    "Gospn.C98_dot_refuted"
   ],
   "note": "Proved for every acyclic network with a non-leaf root (C98_dot_partial): the file of DrawGraph is the unfolding of the network, with one vertex per path from the root (counted exactly), right labels, edges that stand for the links with their weights, one edge into every vertex but the top one; every node below the root is drawn; if no node is shared, vertices and nodes correspond one to one. C98_tools_partial: the program of DrawGraphTools draws the same graph after merging all vertices of each variable, and nothing else is merged. Refuted: C98_dot_refuted (a shared node is drawn once per path: for every k a network of 3k+1 nodes gets at least 2^k vertices), C98_tools_refuted (two leaves of one variable, as in every mixture, are one vertex), C98_leaf (a network that is one leaf is drawn as variable 1 whatever its variable is, and DrawGraphTools writes a call that lacks an argument). Not modelled: the text of the statements, three-decimal rounding of weights."
  },
  {
   "property": "C99",
   "status": "proved",
   "theorems": [
    "Gospn.C99_value",
    "Gospn.C99_cost",
    "Gospn.C99_standard",
    "Gospn.C99_inference"
   ],
   "note": "Float arithmetic is any arithmetic with the standard error model (StdFloat); C99_value allows any leaves whose own value is accurate, C99_standard is for indicators and multinomials and compares with the sum over all completions in exact arithmetic. Stored weights and probabilities may themselves be rounded. Range condition: (8K + 5)·ε·T ≤ 1. Inference under the conditions of C03."
  },
  {
   "property": "C100",
   "status": "proved",
   "theorems": [
    "Gospn.C100_max",
    "Gospn.C100_argMax",
    "Gospn.C100_standard"
   ],
   "note": "Max and ArgMax over an arbitrary arithmetic satisfying the standard model (StdFloat: relative error u, underflow η, exact infinities and comparisons). C100_max and C100_argMax are for any leaves whose own value and mode are accurate (Gaussians included); C100_standard is for multinomials and for indicators of the value 0 or of known variables, the cases in which ArgMax is right over exact reals (C08). The exact values are those of the same network over the reals; C08 says what they are."
  },
  {
   "property": "C101",
   "status": "partial",
   "theorems": [
    "Gospn.C101_gd_partial",
    "Gospn.C101_bgd_partial",
    "Gospn.C101_refuted"
   ],
   "note": "Refuted: only the weights of the root move, and of these only the first by the conditional gradient; the others get the difference of the derivatives without dividing by the values, because the values are looked up at the index of the weight (C101_refuted: a weight whose conditional gradient is 1 stays as it is). Proved for all runs: exactly those steps happen, one per instance (C101_gd_partial) or block (C101_bgd_partial, blocks go on across iterations), as long as the weights stay non-negative and the instances possible; the data set is unchanged."
  },
  {
   "property": "C102",
   "status": "partial",
   "theorems": [
    "Gospn.C102_leaves",
    "Gospn.C102_marginal_partial",
    "Gospn.C102_refuted"
   ],
   "note": "Refuted as stated: newMultinom's counts are smoothed by NewCountingMultinomial, so one instance with value 0 and two categories gives probability 2/3 to 0 (`C102_refuted`). Proved: every leaf is estimated from a sub-multiset of the column of its variable (`C102_leaves`); the column can be divided into groups, one per leaf about the variable, such that the marginal is the mean of the smoothed frequencies weighted by the sizes of the groups, within categories * groups / n of the relative frequency (`C102_marginal_partial`). Missing: equality."
  },
  {
   "property": "C103",
   "status": "proved",
   "theorems": [
    "Gospn.C103_positive"
   ],
   "note": "`C103_positive`, in exact arithmetic, for every network that can be the result of Learn (relation Learned), no assumption on the data other than that it can be learned from."
  },
  {
   "property": "C104",
   "status": "partial",
   "theorems": [
    "Gospn.C104_leaves_partial",
    "Gospn.C104_few_refuted",
    "Gospn.C104_order_refuted"
   ],
   "note": "Refuted twice: with fewer instances than components every instance has the value NaN (`C104_few_refuted`), and PartitionQuantiles cuts the values in the order of the instances without sorting them, so the order matters (`C104_order_refuted`). Proved: each Gaussian has the mean and the standard deviation (one half instead of zero) of a consecutive part of a sub-multiset of the column of its variable (`C104_leaves_partial`)."
  },
  {
   "property": "C105",
   "status": "partial",
   "theorems": [
    "Gospn.C105_values_partial",
    "Gospn.C105_first_partial",
    "Gospn.C105_stale",
    "Gospn.C105_refuted"
   ],
   "note": "Refuted for all but the first sum of a region (`C105_stale`, `C105_refuted`): bestDecomp is declared before the loop over the sums and not emptied, while mS starts at 0, so a later sum whose children have values below one gets a decomposition found for an earlier sum and the value one. Proved: the evaluation by StoreInference gives the probability at every node below the sum and changes nothing else, for every order that lists children first (`C105_values_partial`); the first sum with children gets a best decomposition and its value (`C105_first_partial`). Counts of sums are never stored, so the term with the count is log 0 (hypothesis hc, shown for all runs by PoonOk.counts). Exact arithmetic."
  },
  {
   "property": "C106",
   "status": "partial",
   "theorems": [
    "Gospn.C106_prints_partial",
    "Gospn.C106_panics",
    "Gospn.C106_determines_partial",
    "Gospn.C106_refuted"
   ],
   "note": "Proved for all networks without indicators among the leaves: one block per node, root first, distinct names, children and weights in order; printing panics exactly on an indicator or a sum with fewer weights than children; the text determines the network up to leaves with the same two numbers. Refuted beyond that: neither the variable of a leaf nor the probabilities of a multinomial can be told from the text."
  },
  {
   "property": "C107",
   "status": "partial",
   "theorems": [
    "Gospn.C107_mean",
    "Gospn.C107_muSigma",
    "Gospn.C107_stdDev_value",
    "Gospn.C107_uniform_partial",
    "Gospn.C107_refuted",
    "Gospn.C107_empty"
   ],
   "note": "Mean and MuSigma proved for all distributions; StdDev computed in closed form: it depends on the probabilities only through the mean, is right for uniform distributions, and is refuted for every distribution certain of its value over at least two values."
  },
  {
   "property": "C108",
   "status": "partial",
   "theorems": [
    "Gospn.C108_roundtrip_iff",
    "Gospn.C108_one_word",
    "Gospn.C108_refuted",
    "Gospn.C108_blank_refuted"
   ],
   "note": "Proved to hold exactly for non-empty names without blanks; refuted for empty names (those that structure learning creates), which cannot be decoded, and for names with blanks."
  },
  {
   "property": "C109",
   "status": "partial",
   "theorems": [
    "Gospn.C109_value",
    "Gospn.C109_childless",
    "Gospn.C109_panics",
    "Gospn.C109_underflow_refuted",
    "Gospn.C109_counts_refuted"
   ],
   "note": "Exact arithmetic: proved. Floating point: refuted. The code shifts by the greatest weight instead of the greatest value, so one weight above 746 (hard weights are counts) makes every exponential underflow and the result the logarithm of zero, whatever the children say."
  },
  {
   "property": "C110",
   "status": "proved",
   "theorems": [
    "Gospn.C110_selection",
    "Gospn.C110_uniform",
    "Gospn.C110_panics"
   ],
   "note": "For non-negative sizes; the permutation drawn is an argument, uniformity counts permutations."
  },
  {
   "property": "C111",
   "status": "partial",
   "theorems": [
    "Gospn.C111_rgb_partial",
    "Gospn.C111_refuted",
    "Gospn.C111_tone_bytes",
    "Gospn.C111_scale_bytes"
   ],
   "note": "hsv2rgb proved for hues from 0 to below 300 degrees; refuted for every hue from 300 to below 360 (an empty case leaves black); byte ranges of RandTone and RandColorScale proved for all hues. Exact reals."
  },
  {
   "property": "C112",
   "status": "partial",
   "theorems": [
    "Gospn.C112_order",
    "Gospn.C112_greedy_partial",
    "Gospn.C112_minus_one",
    "Gospn.C112_refuted",
    "Gospn.C112_max_refuted"
   ],
   "note": "Proved: the pixels of the left half are filled column by column, each with a value below sys.Max that is most probable given the right half and the pixels filled before. Refuted: choosing pixel by pixel does not find the most probable half (3/10 against 2/5); the value sys.Max is never tried, and a pixel for which no smaller value is possible becomes -1."
  },
  {
   "property": "C113",
   "status": "partial",
   "theorems": [
    "Gospn.C113_recorded_partial",
    "Gospn.C113_sum_refuted",
    "Gospn.C113_fresh",
    "Gospn.C113_products_partial",
    "Gospn.C113_again",
    "Gospn.C113_stale",
    "Gospn.C113_refuted"
   ],
   "note": "Proved: after ComputeScope Sc returns the variables below the node; without it, exactly the variables reached through products alone; asking again changes nothing. Refuted: Sum.Sc of a sum whose scope is not recorded is empty (copy into a nil slice), so a network with a sum at the root has no variables; a product keeps the answer it gave before another child was added."
  },
  {
   "property": "C114",
   "status": "partial",
   "theorems": [
    "Gospn.C114_two_partial",
    "Gospn.C114_zero_refuted",
    "Gospn.C114_negative_refuted",
    "Gospn.C114_chisqr_refuted",
    "Gospn.C114_series_partial",
    "Gospn.C114_series_ends",
    "Gospn.C114_small_refuted",
    "Gospn.C114_four_refuted",
    "Gospn.C114_fraction_partial",
    "Gospn.C114_accuracy_partial"
   ],
   "note": "Two degrees of freedom give the p-value exactly. Up to 600 degrees of freedom, or an even number up to 19998, and every positive value, the loops end and the result is within 1e-8 of the p-value, or is the constant 1e-14 returned when the lower incomplete gamma function comes out as at most 1e-8 (the series is within max(df/2, 3)*1e-12, the continued fraction within 1e-8 relatively). Refuted at zero and near it (1e-14 where the p-value is nearly 1), for negative values, and for Chisqr at zero. Exact arithmetic; math.Gamma is taken to be the gamma function."
  },
  {
   "property": "C115",
   "status": "partial",
   "theorems": [
    "Gospn.C115_file",
    "Gospn.C115_value_partial",
    "Gospn.C115_ranking_partial",
    "Gospn.C115_max_partial",
    "Gospn.C115_count",
    "Gospn.C115_refuted"
   ],
   "note": "Proved for networks that Unmarshal restores (C30) without positive parameters below m >= 1e-6: probabilities and MAP values move by a factor of at most exp(count*1e-6/m), the same evidence has probability zero, instances whose probabilities differ by more than twice that keep their order; in decomposable networks count is the number of variables times twice the height plus one. Refuted without the bound m: an instance of probability 1e-7 is impossible after loading."
  },
  {
   "property": "C116",
   "status": "partial",
   "theorems": [
    "Gospn.C116_new",
    "Gospn.C116_consecutive",
    "Gospn.C116_reset",
    "Gospn.C116_readAll_partial",
    "Gospn.C116_refuted"
   ],
   "note": "Proved: consecutive reads give consecutive rows, Reset starts again, ReadAll on a reader at the first row gives all rows. Refuted: ReadAll after a successful Read of at least one row returns an error for every file. The library npyio is assumed to fill the slice or to return an error."
  },
  {
   "property": "C117",
   "status": "partial",
   "theorems": [
    "Gospn.C117_refresh_partial",
    "Gospn.C117_seed",
    "Gospn.C117_first_partial",
    "Gospn.C117_later_refuted",
    "Gospn.C117_default_refuted",
    "Gospn.C117_parse_draws",
    "Gospn.C117_refuted"
   ],
   "note": "Proved: after RefreshRandom(s) all draws from package sys, and Seed, depend on s and the later calls alone (C117_refresh_partial, C117_seed); the first seeded ParsePartitionedData of a program is determined by file, proportion and seed (C117_first_partial); every split is one for some sequence of draws, so C85 applies (C117_parse_draws). Refuted: from the second call on the seed given to ParsePartitionedData makes no difference at all, for every generator (C117_later_refuted), so that equal calls give different splits (C117_refuted); Partition, PartitionByLabels and a negative seed draw from the default source of math/rand, which RefreshRandom does not touch (C117_default_refuted)."
  },
  {
   "property": "C118",
   "status": "partial",
   "theorems": [
    "Gospn.C118_text_partial",
    "Gospn.C118_stdout_partial",
    "Gospn.C118_refuted",
    "Gospn.C118_refuted_witness"
   ],
   "note": "Proved: the text written is that of the printing calls made while Verbose is set, once and in order, for every history (C118_text_partial); it goes where it should as long as no log file is asked for (C118_stdout_partial). Refuted for every history: SetLogFile creates the file but never changes the output, so the log file stays empty and everything goes to standard output (C118_refuted, C118_refuted_witness)."
  },
  {
   "property": "C119",
   "status": "partial",
   "theorems": [
    "Gospn.C119_text",
    "Gospn.C119_injective",
    "Gospn.C119_accuracy_partial",
    "Gospn.C119_empty_refuted"
   ],
   "note": "Proved: the text and what Save writes, after every history (C119_text); nothing is lost (C119_injective); the accuracy is a share between 0 and 1 if there are predictions (C119_accuracy_partial). Refuted: for an empty score the accuracy is not a number (C119_empty_refuted). Missing: histories with Add, which C47 refutes already, are excluded."
  },
  {
   "property": "C120",
   "status": "proved",
   "theorems": [
    "Gospn.C120_value",
    "Gospn.C120_total"
   ],
   "note": "Ranges over every arithmetic that obeys the standard model (StdFloat) and stores small whole numbers exactly (IntFloat); that Go's float64 with its math library is such an arithmetic is assumed, with the constants given there. Discrete leaves (g ≤ 0) only; the learner is the relation Learned of C37, so termination is not claimed. The height and the largest number of children of a sum are parameters."
  },
  {
   "property": "C121",
   "status": "partial",
   "theorems": [
    "Gospn.C121_frame",
    "Gospn.C121_downloaded",
    "Gospn.C121_kept",
    "Gospn.C121_cached",
    "Gospn.C121_dataset_partial",
    "Gospn.C121_failed_refuted",
    "Gospn.C121_status_refuted",
    "Gospn.C121_cut_refuted",
    "Gospn.C121_override",
    "Gospn.C121_mnist_partial",
    "Gospn.C121_mnist_refuted",
    "Gospn.C121_own_file",
    "Gospn.C121_mnist_own_file",
    "Gospn.C121_mnist_functions_partial"
   ],
   "note": "Proved: a download never changes an existing file unless overriding; after a complete download the data set is the published one, and every later call of any of these functions returns it without the network; the same for MNIST and its four exported functions (C121_mnist_functions_partial), whose files are all different (C121_mnist_own_file). Refuted: when the network cannot be reached the first call panics and leaves an empty file, which later calls take as a data set with no variables and one empty instance; the HTTP status is ignored, so an error page is kept as the data set; a cut off download returns nothing once and afterwards its first rows as if they were all; the second MNIST download's error is ignored; overriding empties the file before asking the network."
  },
  {
   "property": "C122",
   "status": "proved",
   "theorems": [
    "Gospn.C122_classify",
    "Gospn.C122_leader"
   ],
   "note": "For categorical networks learned by learn/gens with a tree shape. The amount is 8(8K+5)εT, with K, ε, T as in C120."
  },
  {
   "property": "C123",
   "status": "proved",
   "theorems": [
    "Gospn.C123_readers",
    "Gospn.C123_folders",
    "Gospn.C123_limit"
   ],
   "note": "The bound on the length of lines is sharp (C123_limit). BufferedPGMFToData is not covered: the order of its rows depends on scheduling."
  },
  {
   "property": "C124",
   "status": "proved",
   "theorems": [
    "Gospn.C124_blind",
    "Gospn.C124_batch"
   ],
   "note": "For every learning function (a function of the variables and the training data) and every float arithmetic. The draws must contain as many different rows as the test set has; the classes given to test rows must be declared ones (others panic, C91). C124_batch: sums over the iterations."
  },
  {
   "property": "C125",
   "status": "proved",
   "theorems": [
    "Gospn.C125_completion",
    "Gospn.C125_test",
    "Gospn.C125_training"
   ],
   "note": "For every float arithmetic, learning function, map order and tie break, panics included. The learning functions are functions of the variables and the training images (for ImgTest also of the number of the image). C125_training says what the training images are."
  },
  {
   "property": "C126",
   "status": "partial",
   "theorems": [
    "Gospn.C126_line_partial",
    "Gospn.C126_odd_refuted",
    "Gospn.C126_test_refuted"
   ],
   "note": "Refuted: for an odd number of rows or columns the middle one is drawn on the wrong side of the line unless all of it is black (C126_odd_refuted); ImgTest draws the line of the left half in all pictures, so those of the upper and lower half are never divided (C126_test_refuted). Proved for even numbers (C126_line_partial)."
  },
  {
   "property": "C127",
   "status": "proved",
   "theorems": [
    "Gospn.C127_storeMAP",
    "Gospn.C127_standard",
    "Gospn.C127_halfImg"
   ],
   "note": "For StoreMAP with any tie breaking; general leaves in C127_storeMAP, the standard model of floating point in C127_standard, image completion in C127_halfImg."
  },
  {
   "property": "C128",
   "status": "proved",
   "theorems": [
    "Gospn.C128_normalize",
    "Gospn.C128_total",
    "Gospn.C128_spn",
    "Gospn.C128_distribution"
   ],
   "note": "C128_normalize and C128_total for learn.Normalize on any vector; C128_spn for the normalisation of NormalizeSPN on non-negative vectors (it is wrong on negative ones, C25_spn_refuted); C128_distribution for the values of a normalised network."
  },
  {
   "property": "C129",
   "status": "proved",
   "theorems": [
    "Gospn.C129_built",
    "Gospn.C129_order",
    "Gospn.C129_pairs",
    "Gospn.C129_acyclic",
    "Gospn.C129_value",
    "Gospn.C129_max_unweighted",
    "Gospn.C129_cycle",
    "Gospn.C129_usable"
   ],
   "note": "C129_built (each node gets the children and weights given to it, in order), C129_order (interleaving does not matter), C129_pairs (AddChildW keeps child and weight together), C129_acyclic (iff no call closes a cycle), C129_value (iff characterisation of when Value returns), C129_max_unweighted, C129_cycle, C129_usable (the combination: a criterion on the program text). AddChild on a leaf is outside the model; a cycle is shown as running out of every amount of fuel."
  },
  {
   "property": "C130",
   "status": "partial",
   "theorems": [
    "Gospn.C130_same_file_partial",
    "Gospn.C130_file",
    "Gospn.C130_jobs",
    "Gospn.C130_test_refuted",
    "Gospn.C130_accepts_partial",
    "Gospn.C130_p_refuted",
    "Gospn.C130_pipeline_partial",
    "Gospn.C130_procs"
   ],
   "note": "Proved: C130_same_file_partial (the file written by -mode=data is the file read by cmpl and class, for every working directory and data set name, with a model of filepath.Abs/Clean), C130_file, C130_pipeline_partial (with C86: the images in the folder are the instances read), C130_jobs (flags are handed on), C130_accepts_partial (what is refused; what lies in (0,1) is accepted). Refuted: C130_p_refuted (every p > 1 is accepted, and the classification then panics or classifies nothing), C130_test_refuted (-mode=test ignores -dataset and runs on digits_x). Links in the file system are not modelled."
  },
  {
   "property": "C131",
   "status": "proved",
   "theorems": [
    "Gospn.C131_gradients",
    "Gospn.C131_cost",
    "Gospn.C131_standard",
    "Gospn.C131_relative"
   ],
   "note": "Proved for any arithmetic with bounded errors per operation (C131_gradients) and for the standard model of floating point (C131_standard), with the relative error in C131_relative and the cost bounded by C131_cost. The restriction to trees and levels is that of C31: on other networks the gradient is wrong already in exact arithmetic. That float64 and Go's math.Exp and math.Log satisfy the standard model is an assumption about the platform."
  },
  {
   "property": "C132",
   "status": "partial",
   "theorems": [
    "Gospn.C132_unnormalised",
    "Gospn.C132_balanced_partial",
    "Gospn.C132_uniform_partial",
    "Gospn.C132_mixture",
    "Gospn.C132_refuted"
   ],
   "note": "Refuted with normalisation (the default): for a proper mixture with weights 3/4 and 1/4 every step lowers the probability of its instance, however small the learning rate (C132_refuted). On mixtures of leaves the exact condition for this is proved (C132_mixture). What holds: without normalisation no value of any node ever falls, on any acyclic graph, in any run (C132_unnormalised); with normalisation a step does not hurt if no sum node favours a child more than the children's values do (C132_balanced_partial), in particular from uniform weights (C132_uniform_partial)."
  },
  {
   "property": "C133",
   "status": "proved",
   "theorems": [
    "Gospn.C133_step",
    "Gospn.C133_normalised"
   ],
   "note": "C133_step: without normalisation, relative error 9(8K+5)εH plus absolute (4e+3)η for every weight whose size and derivative keep below overflow; C133_normalised: shares after Normalize. The numbers fed to math.Exp/Log are only assumed accurate (StdFloat), not Go's actual code for them."
  },
  {
   "property": "C134",
   "status": "partial",
   "theorems": [
    "Gospn.C134_value_calls",
    "Gospn.C134_max_calls",
    "Gospn.C134_argMax_calls",
    "Gospn.C134_refuted",
    "Gospn.C134_order",
    "Gospn.C134_inference_partial",
    "Gospn.C134_store_partial"
   ],
   "note": "Proved for Inference and StoreInference: at most three passes per node and two per link, sorting included (C134_order, C134_inference_partial, C134_store_partial). Refuted for Value, Max and ArgMax, which make one call per path (C134_value_calls, C134_max_calls, C134_argMax_calls): C134_refuted gives for every k a network of 3k+1 nodes with at least 2^k calls. Counted are calls and loop passes; slices, maps and queues are taken to cost the same each time. StoreMAP is not counted."
  },
  {
   "property": "C135",
   "status": "partial",
   "theorems": [
    "Gospn.C135_depth_partial",
    "Gospn.C135_dbscan",
    "Gospn.C135_dbscan_ends",
    "Gospn.C135_endless",
    "Gospn.C135_one_variable",
    "Gospn.C135_refuted"
   ],
   "note": "C135_dbscan and C135_dbscan_ends prove it for kclusters <= 0. C135_depth_partial bounds the depth in both cases, not counting the calls for a cluster that got all instances. C135_endless and C135_refuted: with k-means and a library that puts all rows into one cluster the same call is made for ever. Whether the library does so is outside the repository (an argument of the model)."
  },
  {
   "property": "C136",
   "status": "proved",
   "theorems": [
    "Gospn.C136_dbscan",
    "Gospn.C136_kmeans",
    "Gospn.C136_attained",
    "Gospn.C136_unbounded"
   ],
   "note": "C136_dbscan for kclusters <= 0; C136_kmeans for both, if no sum below the root has a weight 0/m (whether the k-means library leaves a cluster empty is outside the repository). C136_attained: the bound 2nm - 1 is attained, by a network that meets the hypotheses. C136_unbounded: without the condition on the weights there is no bound, even for two variables and two instances."
  },
  {
   "property": "C137",
   "status": "proved",
   "theorems": [
    "Gospn.C137_no_cycle",
    "Gospn.C137_acyclic",
    "Gospn.C137_dbscan",
    "Gospn.C137_kmeans"
   ],
   "note": "C137_no_cycle without any condition; C137_acyclic: a rank exists, if the model has no other nodes than those of the network; C137_dbscan for kclusters <= 0; C137_kmeans for both, if no sum below the root has a weight 0/m (whether the k-means library leaves a cluster empty is outside the repository)."
  },
  {
   "property": "C138",
   "status": "proved",
   "theorems": [
    "Gospn.C138_value",
    "Gospn.C138_classify"
   ],
   "note": "C138_value combines C120 (accuracy in terms of the height and the number of children of sums) with C137 and with the bound on the number of clusters; C138_classify does the same for C122 (classes within 8δ of the most probable). The network is taken to have no cycle among its nodes, which C137_no_cycle proves for the part below the root."
  },
  {
   "property": "C139",
   "status": "partial",
   "theorems": [
    "Gospn.C139_others_partial",
    "Gospn.C139_destroyed",
    "Gospn.C139_refuted"
   ],
   "note": "Refuted: C139_destroyed shows for every network saved that ReadFromFile returns nil and empties the file (it calls os.Create), so that LoadSPN, which returned a copy before, panics; C139_refuted. What holds: no other file is touched, and the result is nil or a panic (C139_others_partial)."
  },
  {
   "property": "C140",
   "status": "proved",
   "theorems": [
    "Gospn.C140_near",
    "Gospn.C140_symmetric",
    "Gospn.C140_triangle",
    "Gospn.C140_not_transitive"
   ],
   "note": "C140_near (what is accepted), C140_symmetric (order and greater eps), C140_triangle (tolerances add up), C140_not_transitive. In exact arithmetic with infinities and NaN."
  },
  {
   "property": "C141",
   "status": "partial",
   "theorems": [
    "Gospn.C141_log_antiLog_partial",
    "Gospn.C141_antiLog_log_partial",
    "Gospn.C141_refuted"
   ],
   "note": "C141_log_antiLog_partial and C141_antiLog_log_partial for exact arithmetic with infinities and NaN (the second with the exact set of numbers for which it holds). C141_refuted: the first fails in every arithmetic in which exp gives the same number twice, as float64 does by underflow."
  },
  {
   "property": "C142",
   "status": "partial",
   "theorems": [
    "Gospn.C142_parts_partial",
    "Gospn.C142_complete_refuted",
    "Gospn.C142_sum_refuted"
   ],
   "note": "Refuted: the root sums over a product with scope {0,2,3} and one with scope {1,2,3}, so the network is not complete (C142_complete_refuted), and the probabilities of the sixteen complete instances sum to 2 (C142_sum_refuted). What holds: no cycle, decomposable, weights and leaves are distributions (C142_parts_partial)."
  },
  {
   "property": "C143",
   "status": "proved",
   "theorems": [
    "Gospn.C143_search",
    "Gospn.C143_all"
   ],
   "note": "All finite graphs and callbacks; the collection is empty when DoBFS is called."
  },
  {
   "property": "C144",
   "status": "proved",
   "theorems": [
    "Gospn.C144_breadthFirst",
    "Gospn.C144_doBFS"
   ],
   "note": "All finite graphs; distances are stated with walks (Spec/Order)."
  },
  {
   "property": "C145",
   "status": "partial",
   "theorems": [
    "Gospn.C145_tree_partial",
    "Gospn.C145_refuted"
   ],
   "note": "Refuted for graphs with shared nodes: searchFunc marks a node when it is given to the stack and not when it is taken, so a child already waiting in the stack is not visited next (C145_refuted). It holds on trees (C145_tree_partial)."
  },
  {
   "property": "C146",
   "status": "partial",
   "theorems": [
    "Gospn.C146_silent_partial",
    "Gospn.C146_refuted"
   ],
   "note": "Proved for networks whose siblings are in order (as C04), without NaN, for every float arithmetic. Refuted for other networks: with an edge bridged by a longer path it prints a difference between 0 and -Inf (C146_refuted)."
  },
  {
   "property": "C147",
   "status": "proved",
   "theorems": [
    "Gospn.C147_counts"
   ],
   "note": "All finite graphs."
  },
  {
   "property": "C148",
   "status": "partial",
   "theorems": [
    "Gospn.C148_recognised_partial",
    "Gospn.C148_only",
    "Gospn.C148_refuted"
   ],
   "note": "Refuted for one name: \">u1\" is missing from the table of type names although \">i1\" is there (C148_refuted). All other names of integer types are recognised with the right sign and size (C148_recognised_partial) and no other string is (C148_only)."
  }
 ]
}