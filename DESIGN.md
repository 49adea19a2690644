# Formal model of gospn: design

Everything below is about the Go source in `/repo` (RenatoGeh/gospn at the pinned commit), read as text.
Nothing of it is compiled or run here. The model and the proofs are Lean 4 (4.33.0) with single Mathlib modules.

## 1. Modelling conventions

* **Graphs.** The Go SPN is a pointer graph: interface values `SPN` used as map keys are node identities.
  The model takes an arbitrary finite type `ι` of allocated nodes with decidable equality and a function giving each node
  its kind (sum with weights / product / leaf), its ordered list of children and its payload. Repeated children and
  shared nodes are allowed. Cycles are allowed wherever the Go code terminates on them; "DAG" is an explicit hypothesis
  (a rank function that strictly decreases along edges).
* **Maps.** `map[K]V` with only look-ups and updates is a partial function `K → Option V`, reading a missing key with the
  one-value form gives Go's zero value explicitly. A map that is iterated over or whose length matters is a duplicate-free list of
  pairs or finite set; the iteration order is universally quantified.
* **Slices.** Lists. Where two slices can share a backing array and the property depends on it (Score.Add) the model has an explicit heap of
  arrays with (array, length, capacity) slice headers.
* **Loops** are folds, structural recursion, or recursion on fuel; when fuel is used a theorem shows that the fuel given is
  always enough (the loop condition is false at the end), so fuel never changes a result.
* **Panics** (index out of range, nil dereference, division by zero, type assertion) are an explicit outcome (`none` / `panic`).
* **Randomness** (`sys.RandIntn`, `rand.Perm`, K-means, …) is an argument: theorems quantify over all choices.
* **Goroutines** are a transition system over explicit atomic steps; theorems quantify over all executions.
* **Floating point.** Two levels. (a) Theorems that compare two computations doing the same operations in the same order
  are proved for an arbitrary type `F` with arbitrary operations (`class GoFloat`, no laws): they hold bit for bit for IEEE-754 as
  well as for anything else. (b) Theorems about the mathematical meaning of numbers use `XR`: real numbers plus `+∞`, `-∞`, `NaN` with IEEE-754 rules for
  the special values and exact real arithmetic for finite values. Rounding, overflow to infinity, underflow and signed zero are outside the model;
  such theorems are about the algorithm in exact arithmetic and say so.
* **Integers** are unbounded unless the property is about wrap-around (region codes use 64-bit arithmetic).

## 2. Trusted base

1. Lean's kernel, and the three standard axioms `propext`, `Classical.choice`, `Quot.sound` (section 5 lists which theorem uses which; no other axiom is used).
2. The reading of the Go source: each definition cites file and lines it models and names its simplifications.
3. External code taken as parameters with the assumed behaviour stated at the theorem: pseudo-random numbers (any value in range),
   `encoding/gob` (returns the values it was given), gonum / go-cluster (K-means returns some assignment in range), chi-square CDF (any function),
   `sync.Mutex`, `sync.Cond`, `sync.WaitGroup` (their documented semantics, in the transition system), the file system and network (not modelled).

## 3. Plan per property

* **C01 Recursive topological orderings respect dependencies.** Model `visit` and `postOrderRec` (fuel = number of nodes, shown sufficient). Prove by induction on the recursion the white-path style invariant: output = new nodes, closed under children, children first. Stack order from the collection model.
* **C02 Iterative topological orderings respect dependencies.** Model the two explicit-stack loops as iterated steps. The claim is false of the code (nodes are marked when pushed): refute with a 3-node DAG by `decide`. `_partial`: exactly-once on every finite graph; children-first on every DAG in which no child of a node is reachable from a later sibling (in particular every tree and every transitively reduced DAG); DFS variant equal to Tarjan when children lists have no duplicates, refuted otherwise.
* **C03 Dynamic-programming inference agrees with recursive evaluation.** Generic arithmetic. Model the loop over the topological order with the Go map default 0, prove it equals the recursion whenever the order is children-first; combine with C02. Refute for leaf roots (returns 0) and for the skip-edge DAG.
* **C04 StoreInference fills the table with node values.** As C03 with the Storer model; frame condition on other tickets and nodes. Cover the error return.
* **C05 InferenceY equals inference on the extended evidence.** As C03 with leaf evaluation switched on the variable.
* **C06 The value of a valid SPN is the marginal probability of the evidence.** Exact arithmetic (`XR`). Linear-space semantics, induction on rank: completeness makes the sum over completions commute with sums, decomposability makes it factor over products.
* **C07 MAP value by dynamic programming equals the recursive MAP value.** Generic arithmetic for the DP part, induction on rank for ArgMax.
* **C08 MAP states extend the evidence and attain the MAP value.** Exact arithmetic; induction on rank for attainment and optimality. Expected violations: Indicator.ArgMax with unset variable, Gaussian with zero deviation; refute with witnesses and keep `_partial` for multinomial leaves.
* **C09 ArgMax returns for every evidence.** Model nil dereference. Refute with zero-probability evidence; `_partial`: returns whenever the MAP value is above minus infinity.
* **C10 Graph searches visit every reachable node exactly once.** Model `searchFunc` with queue or stack; invariant visited = seen ∪ frontier; termination by counting nodes.
* **C11 Storer behaves like a map from (ticket, node, index) to numbers.** Refinement to `(ticket,node,index) → Option value` plus set of live tickets; simulation for every operation; induction on histories.
* **C12 Tickets are unique and name fresh tables.** Invariant over histories. Expected to fail for histories that Reset a ticket never issued; `_partial` under the documented use.
* **C13 Table handles alias the live table only.** Heap model of tables with handles; invariant and simulation.
* **C14 Queue is a first-in first-out queue.** Model data slice, capacity counter and shrinking; refinement to a list. DequeueBack is wrong in the code (also drops the oldest, panics on a singleton): refute, `_partial` for the other operations.
* **C15 Stack is a last-in first-out stack.** As C14.
* **C16 SingleQueue bounds concurrency and runs every job exactly once.** Transition system of callers, workers, mutex, condition variable, wait group; inductive invariants.
* **C17 SingleQueue never loses a wake-up.** Invariant: if somebody waits then n ≤ k + pending signals + woken waiters; progress theorem and termination measure.
* **C18 Log-space addition is exact.** Exact arithmetic over `XR`.
* **C19 Signed log-space addition is exact.** Exact arithmetic over `XR`; case analysis on the sign of the remainder.
* **C20 Log-space products and sums of probabilities are exact.** Exact arithmetic over `XR`; expected violations on zeros (NaN): refute, `_partial` otherwise.
* **C21 Trim removes exactly the given value.** Model the swap loop on lists with index arithmetic; permutation invariant.
* **C22 Union-find maintains the partition.** Array model of parents, ranks and child lists; forest invariant; refinement to the equivalence closure of the unions.
* **C23 UFVarids lists exactly the members of a set.** Child-list forest invariant: the tree of a representative is its class.
* **C24 Independence graphs return the connected components.** Independence test as an arbitrary predicate; equality with reflexive-transitive-symmetric closure; uses C22, C23.
* **C25 Normalising weights yields a probability vector.** Exact arithmetic. `norm` adds the negative minimum (wrong sign): refute for negative weights, `_partial` for non-negative; full theorem for learn.Normalize.
* **C26 NormalizeSPN normalises every reachable sum node once.** Search loop invariant as C10 with weight state.
* **C27 Complete and Decomposable decide validity.** The code tests `!V[S]` and so never descends: refute; `_partial`: a false answer is always right, and the exact verdict is that of the root.
* **C28 ComputeScope computes scopes.** Order from C02; map iteration order universally quantified.
* **C29 Heights are longest paths.** Height by recursion; ComputeHeight is first-visit depth: refute; `_partial`: never more than the height, equal on trees.
* **C30 Marshal and Unmarshal are inverse.** Model index assignment and reconstruction, gob as identity, `%f` as rounding to six decimals. Refute (six decimals; skip-edge DAG; scope of decoded indicators); `_partial`: isomorphism with rounded parameters when the order is children-first.
* **C31 DeriveSPN computes the partial derivatives.** Exact arithmetic; specification via `HasDerivAt` of the root value as a function of one node's value; reverse-mode accumulation over a breadth-first order. Fails on graphs where breadth-first order is not topological: refute; `_partial` for layered graphs.
* **C32 DeriveWeights computes the weight derivatives.** On top of C31.
* **C33 Generative gradient steps follow the gradient.** Weight-state loop with generic arithmetic.
* **C34 Discriminative gradient steps reach every sum node.** The code tests `V[cs]` instead of `!V[cs]`: only the root is updated. Refute, and prove exactly what is updated.
* **C35 Hidden labels are restored after discriminative learning.** Refute for absent or repeated query variables; `_partial` for distinct, present ones.
* **C36 Hard derivative counts count MAP passes.** TraceMAP and DeriveHard loops on complete, decomposable SPNs.
* **C37 Structure learning yields valid SPNs.** Inductive relation 'Learn may return this node' over arbitrary test and clustering outcomes; induction on derivations.
* **C38 DBSCAN clustering of datasets returns a partition.** Union-find based model; the group number is the index of the representative, not a dense number: refute (index panic), `_partial` otherwise.
* **C39 Cluster assignments are turned into a partition of the data.** Model of guessToData over all assignments and iteration orders.
* **C40 Datasets survive conversion to matrices.** Model with explicit iteration orders.
* **C41 Divide splits into balanced chunks.** Model with index arithmetic; panics when 0 < len(D) < n: refute; `_partial` for n ≤ len(D).
* **C42 Partition splits by proportions.** Exact rational arithmetic, rounding half away from zero. Negative counts are possible: refute; `_partial` otherwise.
* **C43 PartitionByLabels keeps instances with their labels.** Left-over instances are taken from the wrong index: refute; `_partial` without left-overs.
* **C44 Label extraction and merging are inverse.** Maps as finite partial functions.
* **C45 Splitting by label is a partition by label.** List model.
* **C46 Identical decides equality of datasets.** Not symmetric, ignores extra data: refute; `_partial`: equal datasets are always reported identical.
* **C47 Scores count correctly.** Refinement to the multiset of (label, prediction) pairs.
* **C48 Adding scores leaves the operands and the result independent.** Heap of arrays with capacities: refute by a history; `_partial` when the capacity is exhausted.
* **C49 Evaluation leaves test data as it was and does not fail.** Division by zero for 2 to 9 instances: refute; `_partial` for other sizes and for instances that contain the class variable.
* **C50 Quantile partition covers the data.** Index arithmetic; empty groups possible: refute; `_partial`: concatenation of groups is always X.
* **C51 Multinomial leaves are proper distributions with a true mode.** Exact arithmetic; tie breaking as arbitrary choice.
* **C52 Distances are metrics.** Hamming by induction; Euclid through Mathlib's inner-product norm or Minkowski.
* **C53 Region encoding is injective.** 64-bit arithmetic.
* **C54 Balanced class counts.** Nat arithmetic.
* **C55 SplitHalf partitions the image.** List/partial-function model with the index tests of each split kind.
* **C56 Discriminative steps follow the conditional likelihood gradient.** The weight derivatives of learn/discriminative.go loop by loop; refute from the second weight on, `_partial` for the first.
* **C57 Copies of datasets are independent.** Copy on maps in memory: fresh addresses, same contents.
* **C58 Shuffling keeps instances with their labels.** Shuffling as an arbitrary sequence of swaps; permutation invariant.
* **C59 EvaluatePosterior predicts a most probable class.** Evaluation loop with scores; posterior comparison through C06.
* **C60 Mean and standard deviation of counts.** Exact arithmetic for means and deviations; bit-exact equality of MuSigma with Mean and StdDev.
* **C61 Completion drawings show every pixel at its place.** Written samples as lists; position of each pixel. Refute the maximum shade of completion drawings.
* **C62 Drawing a state puts every variable at its pixel.** State drawing as a map from positions, any iteration order.
* **C63 Reading npy rows.** Reader as the list of remaining elements; loop invariants.
* **C64 Balanced reading takes the quota of every class.** Quota counters; fuel is the number of remaining rows.
* **C65 Contingency tables and the independence graph of observed data.** Matrices as functions; loop state after k rounds; the graph by C24.
* **C66 Independence test statistics.** Exact arithmetic; `1 - 1/x ≤ log x` with its strict form for the zero case.
* **C67 Gaussian leaves made from data.** Exact arithmetic; the mode variable is never assigned: refute.
* **C68 A Gaussian leaf is a normal distribution.** Mathlib's Gaussian density; refute deviation zero.
* **C69 Generative gradient descent keeps distributions.** Invariant of the loops: stored entries are logarithms, whatever their meaning; normalising a non-negative vector of positive sum gives a probability vector.
* **C70 Generative gradient descent is gradient ascent.** Ascent runs as an inductive relation on networks; one step by C04, C31 and C33. Refute with paths of different lengths.
* **C71 Batch gradient descent is regularised gradient ascent over blocks.** Map of accumulated derivatives as an invariant over blocks; the update is independent of map order because entries are distinct edges; reuse the steps of C69 and C70.
* **C72 Hard gradient descent counts MAP traces.** Counts in the table as an invariant over blocks (C36); both ways of applying them give the same weights. Refute with a weight of zero.
* **C73 Parameters bound to a node are the ones it learns with.** Bindings as a map from keys to a heap of objects; invariance under operations on other nodes by induction over the sequence; unfold the dispatch. Refute for leaves, which look up the embedded Node, and for expectation maximisation.
* **C74 Parameter learning leaves the structure and the data alone.** Track for each procedure which rows of which table it writes; invariants over the loops for any floating point type; iterate the pulling and pushing of query values. Exact condition for the data set to be restored.
* **C75 Hard discriminative learning contrasts MAP traces.** Counts per ticket as for C72 (`HBatch`), one for the traces with the labels and one for those without; `countDiff` entry by entry; then an induction over the instances that carries the blocks so far, stopping at the first network with a weight that is not positive. The refutation inverts the run of the positive theorem on a network of four nodes.
* **C76 Poon-Domingos structure learning gives valid networks.** Invariant of all regions (`RegionOk`): the children of the sums at a rectangle are decompositions into two sides of a cut through it, with weight 1; `candStep` and `usedStep` only pass such decompositions on. Pixels of the two sides are disjoint, and rectangles shrink along edges (rank). For a single instance: an induction along the order of the loops (each rectangle comes after the sides of all its cuts) that every region gets exactly one product, in the sum its `mapIndex` points to; so the chosen sums are the only ones that are reached. The refutation takes draws for which the chosen sum of the root region is not the first.
* **C77 Dennis-Ventura structure learning returns valid networks.** Invariant of the region graph through expandRegionGraph (every partition is a proper split of its region, keys identify partitions although two regions share id 0, every region of more than one variable has a partition or is still to be expanded); post-order by induction on the size of regions; invariant of buildSPN over the regions built so far; scopes of nodes by induction along the network.
* **C78 Value and Max respond to evidence like probabilities.** Locality by induction along the rank of the graph, for each of the three methods. Monotonicity, the bound one and Max <= Value by the same induction on exponentiated values; summing out is the one-variable step of C06.
* **C79 KMode and OldKMeans partition the rows, when they return.** Generic invariant of the reassignment loop (`CentreInv`, `LoopInv`): after `nochange` quiet iterations the last `nochange` rows are with a nearest centre. For KMode the invariant bounds the entries of the centres by the widths of the count tables. Non-termination by evaluating the model on one data set until a state recurs, then induction.
* **C80 KMedoid returns k clusters around rows of the data.** The same loop invariant with: the clusters hold exactly the assigned rows and every medoid is in its own cluster (its distance to itself is 0, so it never moves). Inserting adds at most the distance to the medoid to the total cost, removing takes exactly that away, so every move lowers the cost; well-founded induction on (unassigned, cost, n - nochange).
* **C81 OldKMeansF returns clusters of nearest centroids.** Matrices and assignments as functions (`lmat`, `asg`); the assignment step gives a nearest centre and keeps the old one on ties, the update step gives the means. The mean minimises the squared distance of its cluster (expand the square, the cross terms cancel), so each round that changes something lowers the cost; strong induction on the number of cheaper assignments.
* **C82 OPTICS finds density clusters.** Half of the pointers that are sorted for a core distance are nil, so the core distance is infinite or the call panics; then the order of the rows is 0, 1, …, all distances stay infinite, and `extract` puts every row into the first map. Induction over the rows.
* **C83 Library k-means returns the rows of each label.** Invariant of the filing loop: under each key is the last row so far with this label and key. For keys that are row numbers this is the row itself; for keys `Sc[i]` it is not.
* **C84 Data files are read as written.** Texts as lists of characters. `itoa`/`Atoi`/`Sscanf` round trip by induction on digits; splitting at runs of separators inverts `WritesRow`; the scanner returns the lines up to the first of 65536 characters. The loop that lags one line behind is `mapM` over all lines.
* **C85 Partitioned parsing shares out the rows.** Drawing until m different rows are found gives distinct numbers (counting the different draws); deleting sorted numbers, each shifted by the deletions before it, is a filter (induction with the kept prefix).
* **C86 Folders of PGM images become their dataset.** The marks `b_k - k` are the shifted deletions of C85, so removing them is a filter. Splitting at blanks and dropping what `Atoi` refuses inverts `BlankRow`; hence the written text is literally `dataText` of the images and C84 applies. Permutations of the rows by commuting `Forall₂` with `Perm`. Texts of VarSetToPGM as lines by induction over the pixels from the right, with the distance to the next line break.
* **C87 Folders of PGM images become evidence.** As C86 with the line of labels of C84; the shift by evaluating the model on an image written by VarSetToPGM; labels by induction on the number of classes.
* **C88 Folders of PBM images become their dataset.** Each character followed by a blank is a row with longer separators (`SepText`), so C84 applies; lengths are bounded by twice the text.
* **C89 ParseArff codes every value so that different values of an attribute stay different.** The lines of the header build the list of attributes (fold over an inductive description of the header); the rows are read column by column: reading a file comes down to running each attribute on its column. A column of strings is an invariant on the dictionary (positions in a list without duplicates).
* **C90 ARFFToData writes a data file that ParseData reads as the coded instances.** Splitting the strictly written lines gives back labels and values; the text written is a data file in the sense of C84 whose rows have the last value doubled; C84 then reads it.
* **C91 ImgClassify counts correct classifications.** Model getValue and the loops of ImgClassify over the stored inference model; show by induction over the classes that the running maximum of exp(px - pz) is the first most probable class (exp(px - pz) = P(x,e)/P(e) over exact reals), or stays at -1 when P(e) = 0 because the difference is NaN; count by induction over the test set.
* **C92 Image completion completes the half asked for with a MAP state.** Model halfImg over StoreMAP; show that the criteria on p are the named half of the pixels x + y*w, that the loop over the map keeps exactly the others whatever its order, and use C08 for the completion.
* **C93 Concurrent image jobs write each completion to its own file.** The two functions repeat SingleQueue line by line, so take the transition system of C16/C17 with one caller and attach the files written by each job; exactly-once from C16, injectivity of the file names from that of itoa, and an explicit execution (start all jobs first) for the shared loop variable.
* **C94 Learned networks can be handed to the inference routines, ComputeScope and the serialiser.** Scopes are non-empty and shrink strictly below a product with two children, so a child of a sum cannot be reached through a sibling that is a product; below a product the scopes of siblings are disjoint. A finite copy of the reachable part exists because the graph has finite branching and no cycle; copies keep the shape. Then the theorems of C02, C03, C04, C07, C28, C30 apply.
* **C95 Concurrent evaluation of a classifier gives the score of the sequential evaluation.** Attach to the queue of C16/C17 what each job does, one instance per step; invariant: the predictions registered are, as a multiset, those of the parts of the groups that are done. Wait returns after all jobs have ended (C16_wait), the groups of Divide are a permutation of the data (C41), and a prediction depends on the instance only (C04). A measure for termination; progress from C17. For fewer than ten instances no registration step exists.
* **C96 Learning structure and weights in one call gives a valid network whose weights are distributions.** Compose: C75/C76 with C94 give a layered network with positive weights (NormalizeSPN makes them distributions); copies keep this; C69, C71, C72 show that each learning routine keeps weights non-negative and normalised and changes nothing else (C74); C94 then gives the inference routines. The Gaussians are traced to the columns of the data (dennis_leaves, placed_leaves) and are real under the data condition; with an all-zero column and fewer instances than Gaussians they are NaN, and NaN goes up through complete sums and products to the root.
* **C97 The Gaussian leaves of a learned network describe the data.** Trace every leaf to the column of its variable (dennis_leaves, poon_leaves), rewrite partitionQuantiles as the fits of consecutive groups (C60), and show that the mean of a non-empty group lies between two of its values. If the values are read as counts (statMuSigma), the mean is at most the last position, below every value that is at least the number of instances. Sorting before the cut gives ordered parts; an alternating column shows that learn/dennis does not sort.
* **C98 A drawing of a network shows its nodes and links.** io/output.go:35-239. The two drawing functions are modelled as breadth-first loops over the queue of C14 that emit vertex and edge statements; a ghost map from vertex names to nodes is kept as loop invariant together with the links still to be drawn (in the queue or among the remaining children). DrawGraphTools is related to DrawGraph by a simulation whose ghost is the renaming of vertices. Refutations come from counting paths.
* **C99 Rounding errors are not amplified by evaluation in log space.** spn/sum.go:44-51, spn/product.go:37-54, spn/utils.go:66-101, utils/log.go:111-127. The model functions are generic in the arithmetic. A predicate StdFloat states the standard model of rounding for it; the value of the network in floats is compared with the value of a network of exact reals by induction over the graph, with one lemma per operation (weighted value, log-sum-exp, product). A cost function counts the roundings along the worst induced tree and is bounded by variables times height.
* **C100 Rounding can cost the reported MAP state only a small factor of its probability.** by rank induction: the value of a max node is off by the error of the worst child plus that of one logarithm and one addition (the maximum is 1-Lipschitz in the log), at products errors add up; the state of ArgMax is followed down the float network and its exact probability bounded from below by exp(value - error) at every node, so that with C08's upper bound it is within exp(2E) of the best.
* **C101 Soft discriminative learning follows the conditional gradient of the query variables.** Spec: conditional gradient of the root's value as a derivative of log S(I) - log S(hide Y I) over perturbed valuations; RootRun is a run of steps at the root. Proof: the six tables at the root hold the probabilities of the root and of its children (StoreInference, DeriveSPN with root derivative 1, DeriveWeights), the value of the root is affine in each of its weights; then induction over instances and blocks. Refutation on a root over two indicators.
* **C102 Marginals of learned networks are the frequencies in the data.** Spec: column, relative frequency and smoothed relative frequency of a column. Proof: induction over the relation Learned; a product passes the marginal to the child with the variable, a sum takes the mean weighted by cluster sizes, clusters partition the data (KMeans and DBSCAN partition theorems), restricted data has the same column.
* **C103 A learned network gives no possible instance probability zero.** Induction over Learned: a leaf gives at least 1/(n_leaf + categories), n_leaf at most n; products multiply, sums are convex combinations.
* **C104 Mixtures learned by LearnGauss describe the data.** Leaves by the induction of C102 with the quantile theorem of C50. Refutations on one variable: too few instances for the components; two orders of the same points.
* **C105 Poon-Domingos learning describes an image by the best decomposition of every sum.** Spec: EvaluatesAt (the equations of the network polynomial at a node) and BestOf. Proof: induction over the order of evaluation; an invariant of the loop over the children (the list holds the best so far). Refutation: a list that is not empty and a maximum of log 1 are not changed by values below one; a network of two pixels and two sums.
* **C106 PrintSPN writes a faithful text of the network.** The labels are an invariant over the dependency order (numbers below the counters, so distinct); the loop is a breadth-first search that lists the reachable nodes; block by block the text is read back to build the isomorphism.
* **C107 Mean and StdDev of a multinomial are those of its distribution.** The sums over `zipIdx` are turned into real sums; the sum of squares has a closed form by induction.
* **C108 Variables survive gob encoding.** The scan of each line is followed through skipping blanks, reading a token and requiring the end of the line; the name survives exactly if the token is the whole name.
* **C109 The hard sum is the weighted mean of its children.** The largest weight factors out of every term; an induction over the zipped lists gives the weighted total.
* **C110 RandomComb draws a uniform selection of cells.** The cells in row order are indexed by Fin (u*v); two selections differ by an extension of a partial injection to a permutation, which is a bijection between the permutations giving each.
* **C111 Colours are those of their hue, saturation and value.** The sector is the floor of hue/60; each of the five handled sectors is computed and compared with the textbook formula; the sixth is the refutation.
* **C112 Exact completion finds the most probable half of an image.** The loop over values keeps a running maximum; the spec says greedy in terms of probabilities. The refutations are networks over two pixels.
* **C113 Sc returns the variables of a node.** Sc is a depth-first traversal with the recorded scopes as state; the answer is characterised by paths that go through products only.
* **C114 Chisquare is the p-value of the test.** The spec is the upper tail of Mathlib's gamma measure; df = 2 is the exponential distribution, whose tail is an exponential.
* **C115 A saved network computes the same after loading.** A general perturbation lemma: values move by at most δ per parameter on an induced tree (log-sum-exp and max are 1-Lipschitz); six decimals move a parameter x ≥ m by the factor exp(10⁻⁶/m). The copy comes from C30.
* **C116 An npy file can be read in parts.** The reader is a state machine; Read is C63 at an offset; Reset forgets the position, the only state that calls change.
* **C117 A seed determines the random choices.** A program is a run over three sources of randomness; the proof follows which call reads and writes which source. Runs from two histories are compared (a relational invariant).
* **C118 Logging goes to the log file asked for.** The log is a list of (sink, text); an invariant says that the output is standard output for ever, since SetLogFile assigns to a variable of its own.
* **C119 The text of a score says all about its predictions.** C47 gives the abstract contents of every score; the text is a list of lines, and decimal is injective, so the lines can be read back.
* **C120 A network learned in floating point computes a probability distribution up to rounding.** By induction on Learned, every reachable node is the rounding of a node of an exact network whose weights are shares of instances and whose probabilities are smoothed frequencies, and that network is complete, decomposable and normalised. C99 then bounds Value against the exact network, and C06 says that the exact network is a distribution.
* **C121 Downloaded data sets are the published ones, now and later.** model the files as a map from paths to contents and a download as what the network answers (no connection, bytes cut off at some point, all bytes, with any status); prove a frame theorem, then that the file left by a complete download is the published one and that this is kept by every later call; witnesses for the refutations: no network, an error page, a cut off answer.
* **C122 Classification in floating point picks a class of nearly greatest probability.** from C120 both values ImgClassify compares are within δ of the logarithms of exact probabilities; bound the error of the subtraction and of exp, show that the loop ends with a score no other exceeds (comparisons are exact), and turn that into a bound on the probabilities themselves.
* **C123 Line ends do not matter to the readers.** an inductive relation between lines and texts with either line end; the scanner gives back the lines; every reader uses the text through its lines only.
* **C124 The labels of the test set do not leak into what ImgClassify predicts.** Split the rows by the draws, which do not look at the rows (partitionParsed_drawn): relabelling test rows changes neither the training data nor the test instances without their class. Show by induction that the loop over the test instances returns the number of agreements with a list of predictions computed without the labels (imgPredictions_fold).
* **C125 Completions of images are not told what they are to complete.** Each job reads the half to be completed only to leave it out (knownHalf_spec determines the known half, knownHalf_unique), and its class only to leave it out of the training set (filter_zipIdx_congr).
* **C126 The red line divides what was known from what was completed.** Compare where ImgCmplToPGM puts the line (C61_pgm_partial: row (h+1)/2 of the picture) with the half that halfImg completes (knownHalf_spec: rows below h/2). They agree for even sizes; for odd ones the middle row is on the wrong side.
* **C127 StoreMAP and image completion in floating point find a nearly most probable state.** The search of StoreMAP reaches only nodes of finite value; a tied child attains the computed maximum, so each step loses at most the rounding of one weighted value; the leaves reached set each variable once by decomposability; induction along the search bounds the loss by the cost of C99.
* **C128 Normalising weights in floating point gives distributions up to rounding.** Relative errors as factors between exp(-d) and exp(d): they add up under addition of non-negative numbers, subtraction of the minimum and division. The normalised network stores the network of exact shares in the sense of C99, which is a distribution by C06.
* **C129 A network put together by hand computes what was put together.** Model the three calls as changes of one node (Model/Build); the children and weights of a node are a filterMap of the program (independent spec), by induction over the calls; a call that closes no cycle keeps a rank function; Value on an acyclic network by induction over the rank; on a cycle by descent in the fuel.
* **C130 The command line does the job its flags describe.** Model main as a function from flags to a job (Model/Main) and filepath.Abs/Clean on segments of rooted paths; show that cleaning after appending plain names commutes, so that the path written and the path read clean to the same segments; combine with C86. Proportions above 1 pass the test of main: follow them into ParsePartitionedData, where m = int((1-p)n) is negative or zero.
* **C131 Gradients computed in floating point are accurate.** learn/derive.go:26-140, utils/log.go:130-144. The loop of DeriveSPN is shown to be a fold of a pure step over the table; the step in floats and the step in exact reals are compared entry by entry. The bound for an entry is what its parents can bring plus one for each contribution already added, so that it does not multiply along paths. The exact run is the one of C31 and C32, which gives the partial derivatives.
* **C132 A gradient step does not make its instance less probable.** The step adds a multiple of the children's values to the weights. Without normalisation weights only grow, and values are monotone in non-negative weights (induction along the graph). With normalisation the new average of the children's values is computed in closed form at each sum node; it is compared with the old one, and the induction carries the comparison to the root. A two-leaf mixture violating the condition refutes the general claim.
* **C133 A learning step in floating point moves every weight by what the exact gradient says.** from C131: the stored logarithms are within E of the exact ones; then one exponential, one product and one sum per weight (step_weight), and division by the sum (divSum_near of C128)
* **C134 Evaluating a network takes work in proportion to its size.** spn/utils.go:66-159, spn/topo.go:38-64, spn/sum.go:42-110, spn/product.go:33-83. The functions are modelled a second time with a count next to the result (Model/Work); dropping the count gives the first model. The passes of TopSortTarjan are read off its final state: processed nodes with their children, and nodes given out. Calls of the recursive methods are the paths down (CountsPaths of C98).
* **C135 Structure learning ends.** Model the calls that a call can make (Model/LearnCalls) apart from what they return. Parts of a partition into at least two non-empty parts are smaller than the whole: for variables by C24, for instances by C38. The sum of both sizes is the measure; for k-means count the calls that keep it.
* **C136 Learned networks stay small.** Induction over Learned: a call owns the cells of a table of variables by instances; parts of a partition own disjoint non-empty blocks, and every inner node has at least two children, so one node per part is saved.
* **C137 Learned networks have no cycles and few levels.** Induction over Learned: the derivation is finite, so links can be followed finitely often (Acc); each product has fewer variables in every child and each sum fewer instances.
* **C138 How accurate a learned network is follows from the size of the data.** The length of the longest path is a rank (exists_height), at most n + M - 2 by C137; a sum has at most M children because clusters are not empty; the bound of C120 grows with both.
* **C139 ReadFromFile reads a saved network.** Files that can be empty, SaveSPN and LoadSPN on them, and C30 for what LoadSPN returns before.
* **C140 Near equality of numbers.** Case analysis over the kinds of numbers, the triangle inequality for the chain.
* **C141 AntiLog and Log undo each other.** Case analysis over the kinds of numbers; a function that is not injective has no left inverse.
* **C142 SampleSPN builds a valid network.** Fixed network of 13 nodes; scopes by unfolding `InScope`; the value of every node by `Net.prob_spec`, then the sum over sixteen instances as a polynomial identity.
* **C143 DoBFS visits every reachable node once.** `doBFS` is `searchFunc` (C10) with a callback whose result is 0 or 1; reachability through called nodes is reachability when no call returned false.
* **C144 BreadthFirst visits nodes by distance from the root.** Invariant of the queue: sorted by distance, spread at most one, all nodes up to the distance of the head marked (`ordLoop_distance`).
* **C145 DepthFirst visits nodes in depth-first order.** Witness with four nodes; on trees an invariant of the stack: unvisited children of later nodes lie above (`ordLoop_dfs`).
* **C146 testClassify finds no difference.** From `storeInference_core` (C04): every entry is the value, so no comparison fails; the witness is the network of C04_order_refuted.
* **C147 poon prints the true numbers of nodes.** The count is `countNodes` (C10) through `doBFS_eq`.
* **C148 NewNpyReader recognises every integer type and no other.** The names are finitely many and are gone through one by one; a recognised string is in the table.

## 4. Disagreements between code and property

Every property whose full statement is false of the code or proved only in part. The theorems named are kernel-checked: `refuted` ones prove the negation on a concrete case, the others in the manifest say what holds.

* **C02 Iterative topological orderings respect dependencies.** False of the code as stated: C02_tarjan_order_refuted and C02_dfs_duplicate_refuted give graphs on which the iterative functions list a node before its child, or twice. Proved: exactly-once on every graph, the order when no child is reachable from a later sibling, TarjanFunc for every callback, DFS equal to Tarjan without repeated children. Refutations: `C02_tarjan_order_refuted`, `C02_dfs_duplicate_refuted`.
* **C03 Dynamic-programming inference agrees with recursive evaluation.** Bit for bit, for arbitrary floating-point operations, for every acyclic network in which no child is reachable from a later sibling. False for leaf roots (C03_leaf_root_refuted) and when TopSortTarjan does not list children first (C03_order_refuted). Refutations: `C03_leaf_root_refuted`, `C03_order_refuted`.
* **C04 StoreInference fills the table with node values.** For every reachable storage state and ticket, with the frame. Missing: networks in which TopSortTarjan does not list children first, where it is false (C04_order_refuted). Refutations: `C04_order_refuted`.
* **C05 InferenceY equals inference on the extended evidence.** As C03, for leaves whose variable is the first of their scope. False for leaf roots (C05_leaf_root_refuted). Refutations: `C05_leaf_root_refuted`.
* **C07 MAP value by dynamic programming equals the recursive MAP value.** StoreMAP under the conditions of C04 for every tie breaking; ArgMax for all networks without zero-deviation Gaussian leaves, for which it is false (C07_argMax_refuted). Refutations: `C07_argMax_refuted`.
* **C08 MAP states extend the evidence and attain the MAP value.** Proved for ArgMax and StoreMAP (any tie breaking) on valid networks and evidence of positive MAP probability, with the upper bound over all states that extend the evidence. Not for unobserved indicators of values other than 0 and Gaussians with non-integer mean: C08_indicator_refuted and C08_gaussian_refuted show the claim false there. Probability zero: see C09. Refutations: `C08_indicator_refuted`, `C08_gaussian_refuted`.
* **C09 ArgMax returns for every evidence.** Returns whenever the MAP probability is positive. The claim is false for MAP probability zero: at a sum node ArgMax calls a method of a nil node (C09_zero_probability_refuted, C09_witness). Refutations: `C09_zero_probability_refuted`.
* **C12 Tickets are unique and name fresh tables.** Uniqueness and emptiness are proved for every history. Freshness is false of the code when a ticket is reset before it is issued (C12_fresh_refuted); proved for histories that only reset issued tickets. Refutations: `C12_fresh_refuted`.
* **C14 Queue is a first-in first-out queue.** DequeueBack is wrong in the code (C14_dequeueBack_refuted); all other operations are proved against a FIFO queue for every history, and what DequeueBack does is stated exactly. Refutations: `C14_dequeueBack_refuted`.
* **C20 Log-space products and sums of probabilities are exact.** LogProd and the sums are proved for the inputs stated in the theorems; with all probabilities zero LogSum and LogSumPair give NaN (C20_logSum_refuted, C20_logSumPair_refuted). Refutations: `C20_logSum_refuted`, `C20_logSumPair_refuted`.
* **C25 Normalising weights yields a probability vector.** learn.Normalize is proved for every real vector (C25_normalize, C25_fixed). The normalisation used by NormalizeSPN is proved for vectors without negative entries; for others the claim is false (C25_spn_refuted: the minimum is added, not subtracted, spn/utils.go:267-271). Refutations: `C25_spn_refuted`.
* **C27 Complete and Decomposable decide validity.** Complete and Decomposable examine the root only: proved what they decide and that they accept every valid network; the claim itself is false (C27_refuted), because children are enqueued on the condition !V[S]. Refutations: `C27_refuted`.
* **C28 ComputeScope computes scopes.** Proved for networks without cycles where no child is reachable from a later sibling; false otherwise (C28_order_refuted). Refutations: `C28_order_refuted`.
* **C29 Heights are longest paths.** Height is proved for every DAG. ComputeHeight returns at most the height, and the height when all paths to a node have the same length; false in general (C29_computeHeight_refuted). Refutations: `C29_computeHeight_refuted`.
* **C30 Marshal and Unmarshal are inverse.** For networks without cycles where no child is reachable from a later sibling, the network read back is a copy up to the digits that %f drops, and an exact copy if there are none; copies give the same Value, Max and ArgMax bit for bit. False otherwise: C30_order_refuted (a bridged edge makes the result cyclic), C30_weights_refuted (weight 1e-7 becomes 0). Refutations: `C30_order_refuted`, `C30_weights_refuted`.
* **C31 DeriveSPN computes the partial derivatives.** Proved when every parent is taken before its children (breadth-first search of levelled networks, any search of networks whose inner nodes form a tree). Refuted for queues and for stacks on networks with shared inner nodes at several depths (C31_queue_refuted, C31_stack_refuted). Refutations: `C31_queue_refuted`, `C31_stack_refuted`.
* **C34 Discriminative gradient steps reach every sum node.** Refuted: on every acyclic network only the root changes (C34_refuted, C34_refuted_witness). C34_root_partial: the root is updated. Refutations: `C34_refuted`, `C34_refuted_witness`.
* **C35 Hidden labels are restored after discriminative learning.** C35_restored_iff says exactly when the instance is restored; refuted for absent and repeated query variables (C35_refuted). Refutations: `C35_refuted`.
* **C36 Hard derivative counts count MAP passes.** C36_counts proves the counting on every decomposable network whose childless nodes are leaves, for every tie breaking, bit-exact; C36_returns that it never panics. That the counted positions are the most probable ones (C36_map_trace_partial) needs the sibling order of C02 and is refuted without it (C36_choice_refuted). Refutations: `C36_choice_refuted`.
* **C38 DBSCAN clustering of datasets returns a partition.** Refuted as stated. C38_refuted: DBSCANData panics on two equal instances with mp = 1, because clusters are numbered by representative but only as many as there are clusters are allocated. C38_density_refuted: DBSCAN separates density-linked rows for mp = 2. Proved: the matrix version always returns a partition whose clusters are density-linked, exactly the density classes for mp <= 1 (C38_dbscan_partial); whenever DBSCANData returns, its result is such a partition of the instances (C38_returned_partial). The scan terminates on every input (scan_spec). Refutations: `C38_refuted`, `C38_density_refuted`.
* **C41 Divide splits into balanced chunks.** Divide returns chunks of new maps that contain every instance exactly once with its own label, the first n-1 of size len/n and the last of size len/n + len%n (C41_divide_partial). Missing: sizes differing by at most one, which is false (C41_refuted). C41_empty: fewer instances than chunks. Refutations: `C41_refuted`.
* **C42 Partition splits by proportions.** Proved when no partial sum n*(p1+...+pj) is exactly half-integer (C42_partition_partial) and for every call that returns (C42_returned_partial). Missing: exactly half-integer partial sums, where cascade rounding can give -1 and Partition panics (C42_refuted). Exact arithmetic. Refutations: `C42_refuted`.
* **C43 PartitionByLabels keeps instances with their labels.** The labels of all parts together are the given labels (C43_labels_partial); the full claim holds when all proportions of all classes are whole numbers (C43_exact_partial). Missing: the instances left over by rounding, which are taken by position within the class instead of by index in D, so they get wrong labels (C43_refuted). Exact arithmetic. Refutations: `C43_refuted`.
* **C46 Identical decides equality of datasets.** Proved for datasets of equal size whose instances have the same variables (C46_identical_partial). Missing: other pairs, for which an absent variable counts as 0, extra instances of the second dataset go unnoticed and a shorter second dataset makes it panic (C46_refuted). Refutations: `C46_refuted`.
* **C48 Adding scores leaves the operands and the result independent.** C48_add_partial: full refinement to independent lists for histories in which the first operand of each Add has no spare capacity; C48_call_partial: right at the moment of the call for any history. C48_refuted: with spare capacity two results of Add share an array and a later Register or Add overwrites predictions. Refutations: `C48_refuted`.
* **C49 Evaluation leaves test data as it was and does not fail.** C49_refuted: both evaluations panic for every test set of two to nine instances; otherwise memory effect for every network (C49_*_memory_partial: an instance without the class variable gains it with value 0), and returning with right predictions on networks satisfying C08 (C49_evaluate_partial) or C06 (C59_posterior_partial). Refutations: `C49_refuted`.
* **C50 Quantile partition covers the data.** C50_refuted: for every slice of 18 values and 7 groups the last group is empty and its mean and standard deviation are NaN, so the claim fails. C50_partition_partial: for every m >= 1 the groups are m consecutive blocks that together are X, with exact mean and standard deviation; they are non-empty when X has fewer than 2m values or m(m-1) < 2*len(X). A zero deviation is reported as 1/2. Refutations: `C50_refuted`.
* **C56 Discriminative steps follow the conditional likelihood gradient.** Right for the first weight of the root (C56_first_partial); the others are not divided by the value of the SPN (C56_others), refuted by C56_refuted. Refutations: `C56_refuted`.
* **C59 EvaluatePosterior predicts a most probable class.** Proved for test sets of no, one or at least ten instances containing the class variable and networks whose children are listed in order with an inner root; otherwise see C49_refuted and C04_order_refuted.
* **C61 Completion drawings show every pixel at its place.** C61_refuted: in every non-empty completion drawing with fewer than 256 declared shades the red line has a sample above the declared maximum. C61_pgm_partial and C61_ppm prove everything else: dimensions, red line, and every pixel exactly once at its place and in its colour. Refutations: `C61_refuted`.
* **C67 Gaussian leaves made from data.** Refuted for NewGaussianMode, whose mode variable is never assigned: the leaf is centred on zero. Proved in exact real arithmetic for the other two. Refutations: `C67_mode_refuted`, `C67_mode_refuted_witness`.
* **C68 A Gaussian leaf is a normal distribution.** Proved for positive deviations in exact real arithmetic. Refuted for deviation zero (Value and Max without evidence are the log of zero; ArgMax overwrites observed values); a log-density may be positive. Refutations: `C68_zero_refuted`, `C68_evidence_refuted`, `C68_positive_refuted`.
* **C70 Generative gradient descent is gradient ascent.** Proved where values and derivatives are right (C04, C31); refuted on a network with paths of different lengths to a node: a weight of derivative 1 moves by half the learning rate. Refutations: `C70_ascent_refuted`.
* **C71 Batch gradient descent is regularised gradient ascent over blocks.** That it finishes and keeps distributions is proved on any graph; gradient ascent is proved where values and derivatives are right (C04, C31); a shorter last block is divided by the full batch size; BatchSize 0 panics.
* **C72 Hard gradient descent counts MAP traces.** That it finishes and keeps positive weights and distributions is proved on acyclic decomposable networks with positive weights; MAP traces where no child is reachable from a sibling listed after it (C36). Refuted for a weight of zero: the division by it gives +Inf and normalisation NaN. Refutations: `C72_zero_weight_refuted`.
* **C73 Parameters bound to a node are the ones it learns with.** Proved for sums and products, and for the dispatch on gradient descent. Refuted for leaves, whose method Parameters keys on the embedded Node and so never finds what was bound to the leaf, and for the learning types SoftEM and HardEM, for which gradient descent runs. Refutations: `C73_leaf_refuted`, `C73_em_refuted`.
* **C74 Parameter learning leaves the structure and the data alone.** Proved for the network, for all eight routines and any floating point arithmetic; for the data set exactly when every instance has every query variable and none is listed twice (C74_data_iff); an instance without a query variable has it afterwards, with value 0. That the hard discriminative routines return is not claimed: TraceMAP panics on NaN.
* **C75 Hard discriminative learning contrasts MAP traces.** C75_gd_partial and C75_bgd_partial: over exact reals, for all draws and map orders, both loops are runs of contrastive steps between MAP traces with and without the query variables, one per instance or per block of the repeated data set, and the data set is restored, as long as the steps leave positive weights; conditions: acyclic, decomposable, childless nodes are leaves, no child reachable from a later sibling, instances have every query variable. C75_refuted: the claim about normalisation is false, on a valid network with positive probability vectors one step with learning rate 1 leaves a NaN weight (0/0 at a sum node with one child). Not covered: networks outside these conditions (C36), what happens after a weight is zero or negative. Refutations: `C75_refuted`.
* **C76 Poon-Domingos structure learning gives valid networks.** C76_structure_partial: for every data set, size, resolution, draws and arithmetic, whatever Structure returns is acyclic and decomposable, about pixels of the image only, with all weights 1, and it is complete and about all pixels provided no reachable sum lacks children. C76_one_partial: with one sum per region (m = 1) no reachable sum lacks children, for every non-empty data set and arithmetic. C76_total_partial: in exact arithmetic Structure returns for every data set with at least g images and no empty quantile, for every m, resolution at least 2 dividing width and height, g at least 2. C76_single_partial: the same for one instance, where no reachable sum lacks children for any m (image of more than one block). The full claim is false: C76_refuted (an image of one block and m at least 2: the root can be a sum without children) and C76_resolution_one (with resolution 1 Structure panics on every non-empty data set). Missing: for which data sets of several images and m at least 2 no reachable sum lacks children. Refutations: `C76_refuted`.
* **C79 KMode and OldKMeans partition the rows, when they return.** Proved: no panic, and partition into clusters of nearest centres whenever the loop ends. Refuted: that the loop always ends (8 binary rows, k = 2, a cycle of 16 states) and that the centre is the mode after a removal. KMode and OldKMeans are the same code up to names and are modelled once.
* **C82 OPTICS finds density clusters.** Proved: with no core point, one map with all rows; with a core point, a panic. So the claim about clusters is refuted. The code after a defined core distance is an argument of the model, since it is never reached.
* **C83 Library k-means returns the rows of each label.** Proved for KMeans and KMeansF with the library as an argument; refuted for KMeansData and KMeansFData (rows are lost). Not proved: anything about the labels themselves.
* **C84 Data files are read as written.** Proved for files whose lines all have less than 65536 characters (all three readers). Refuted without that: C84_long_line shows that the rows from the first long line on are silently lost, C84_lost_rows is a concrete file. Panics: C84_short_row, C84_no_rows.
* **C86 Folders of PGM images become their dataset.** Proved for images whose line in the data file has less than 65536 characters, for both functions and every scheduling. Refuted without that: C86_lost_images, C86_large_images. Round trip with VarSetToPGM: C86_written_image (width at most 3120).
* **C87 Folders of PGM images become evidence.** Pixels proved for tight images, refuted otherwise by C87_shifted; labels proved for classes of equal size, refuted otherwise by C87_labels_wrong.
* **C88 Folders of PBM images become their dataset.** Proved for images of at most 32750 characters. Refuted: C88_large_images, and C88_pbmToData_class_lost for the class of PBMToData.
* **C89 ParseArff codes every value so that different values of an attribute stay different.** C89_parseArff_partial proves the claim for all files whose nominal values are declared. C89_undeclared says what happens otherwise: the other values are numbered from 0 again, C89_collision shows that one of them then gets the code of the first label, C89_refuted is a file where this happens. C89_real: the types real and integer are read as classes of one label. C89_blank_line: an empty line adds an instance without values. Refutations: `C89_refuted`.
* **C90 ARFFToData writes a data file that ParseData reads as the coded instances.** C90_arffToData_partial proves the round trip for strictly written files of at most 3119 nominal attributes (a line of the output then fits the scanner). C90_blank_in_labels, C90_undeclared, C90_keywords and C90_blank_line are files for which it fails.
* **C91 ImgClassify counts correct classifications.** Proved for networks meeting the conditions of C04 (root with children, children in topological order), over exact reals, after learning: hits, total and test data (C91_imgClassify_partial); labels outside the classes panic after all the work (C91_label_panics). Missing: networks outside those conditions, floating-point rounding.
* **C92 Image completion completes the half asked for with a MAP state.** Known half proved for every image, size and map order; the completion is a MAP state under the conditions of C08 (C92_halfImg_partial). Missing: those conditions. Other types, or width zero for left and right, panic (C92_panics).
* **C93 Concurrent image jobs write each completion to its own file.** Proved for ImgCompletion for every interleaving (C93_completion, C93_terminates). Refuted for ImgTestParallel, whose jobs use the shared loop variable instead of their own number: for any number of images there is an execution in which all files carry the number of images, so that all images overwrite the same four files (C93_parallel_refuted); what remains is C93_parallel_partial. The four files of a job are written in one step. Refutations: `C93_parallel_refuted`.
* **C95 Concurrent evaluation of a classifier gives the score of the sequential evaluation.** Proved for at least ten instances and, if k <= 0, no more processors than instances: every execution ends, the score has the counts and (up to order) the predictions of EvaluatePosterior, and no existing map changes (C95_same_partial, C95_returns). Refuted: for one to nine instances every execution panics, because len(D)/10 is zero (C95_few_refuted); with k <= 0 and fewer instances than processors Divide panics (C95_cpu_refuted), and without instances G[1] does (C95_empty_refuted). One instance of one job is one step of the model: a job only shares the score with others, and that under a mutex. Refutations: `C95_cpu_refuted`, `C95_empty_refuted`, `C95_few_refuted`.
* **C96 Learning structure and weights in one call gives a valid network whose weights are distributions.** Proved for learn/dennis (C96_dennis_partial) for all complete data from which the Gaussians can be computed, all learning types, batch sizes and parameters with a learning rate that is not negative and lambda < 1/2; for learn/poon on one image (C96_poon_single), on any number of images with one sum per region (C96_poon_many) and on any network of Structure in which every sum has children and every Gaussian is real (C96_poon_partial). Refuted without the data condition: if there are fewer instances than Gaussians and a variable is zero in all of them, the learned network is NaN for every input that observes the variable (C96_zeros_refuted). Exact arithmetic. Refutations: `C96_zeros_refuted`.
* **C97 The Gaussian leaves of a learned network describe the data.** C97_dennis_partial and C97_poon_partial: with at least as many instances as Gaussians and no empty quantile every leaf has the mean and deviation of one of g non-empty consecutive parts of the values, hence a mean within the data and a positive deviation; for learn/poon (which sorts) the parts are quantiles. Refuted otherwise: with fewer instances than Gaussians (learn/dennis, C97_few_refuted) or one Gaussian per pixel (learn/poon, C97_one_refuted) the values are taken for counts, and the mean is a position below every value of the data; learn/dennis does not sort, so that for a variable alternating between a and b all g leaves are the same distribution around (a+b)/2 (C97_order_refuted). Exact arithmetic. Refutations: `C97_few_refuted`, `C97_one_refuted`, `C97_order_refuted`.
* **C98 A drawing of a network shows its nodes and links.** Proved for every acyclic network with a non-leaf root (C98_dot_partial): the file of DrawGraph is the unfolding of the network, with one vertex per path from the root (counted exactly), right labels, edges that stand for the links with their weights, one edge into every vertex but the top one; every node below the root is drawn; if no node is shared, vertices and nodes correspond one to one. C98_tools_partial: the program of DrawGraphTools draws the same graph after merging all vertices of each variable, and nothing else is merged. Refuted: C98_dot_refuted (a shared node is drawn once per path: for every k a network of 3k+1 nodes gets at least 2^k vertices), C98_tools_refuted (two leaves of one variable, as in every mixture, are one vertex), C98_leaf (a network that is one leaf is drawn as variable 1 whatever its variable is, and DrawGraphTools writes a call that lacks an argument). Not modelled: the text of the statements, three-decimal rounding of weights. Refutations: `C98_tools_refuted`, `C98_dot_refuted`.
* **C101 Soft discriminative learning follows the conditional gradient of the query variables.** Refuted: only the weights of the root move, and of these only the first by the conditional gradient; the others get the difference of the derivatives without dividing by the values, because the values are looked up at the index of the weight (C101_refuted: a weight whose conditional gradient is 1 stays as it is). Proved for all runs: exactly those steps happen, one per instance (C101_gd_partial) or block (C101_bgd_partial, blocks go on across iterations), as long as the weights stay non-negative and the instances possible; the data set is unchanged. Refutations: `C101_refuted`.
* **C102 Marginals of learned networks are the frequencies in the data.** Refuted as stated: newMultinom's counts are smoothed by NewCountingMultinomial, so one instance with value 0 and two categories gives probability 2/3 to 0 (`C102_refuted`). Proved: every leaf is estimated from a sub-multiset of the column of its variable (`C102_leaves`); the column can be divided into groups, one per leaf about the variable, such that the marginal is the mean of the smoothed frequencies weighted by the sizes of the groups, within categories * groups / n of the relative frequency (`C102_marginal_partial`). Missing: equality. Refutations: `C102_refuted`.
* **C104 Mixtures learned by LearnGauss describe the data.** Refuted twice: with fewer instances than components every instance has the value NaN (`C104_few_refuted`), and PartitionQuantiles cuts the values in the order of the instances without sorting them, so the order matters (`C104_order_refuted`). Proved: each Gaussian has the mean and the standard deviation (one half instead of zero) of a consecutive part of a sub-multiset of the column of its variable (`C104_leaves_partial`). Refutations: `C104_few_refuted`, `C104_order_refuted`.
* **C105 Poon-Domingos learning describes an image by the best decomposition of every sum.** Refuted for all but the first sum of a region (`C105_stale`, `C105_refuted`): bestDecomp is declared before the loop over the sums and not emptied, while mS starts at 0, so a later sum whose children have values below one gets a decomposition found for an earlier sum and the value one. Proved: the evaluation by StoreInference gives the probability at every node below the sum and changes nothing else, for every order that lists children first (`C105_values_partial`); the first sum with children gets a best decomposition and its value (`C105_first_partial`). Counts of sums are never stored, so the term with the count is log 0 (hypothesis hc, shown for all runs by PoonOk.counts). Exact arithmetic. Refutations: `C105_refuted`.
* **C106 PrintSPN writes a faithful text of the network.** Proved for all networks without indicators among the leaves: one block per node, root first, distinct names, children and weights in order; printing panics exactly on an indicator or a sum with fewer weights than children; the text determines the network up to leaves with the same two numbers. Refuted beyond that: neither the variable of a leaf nor the probabilities of a multinomial can be told from the text. Refutations: `C106_refuted`.
* **C107 Mean and StdDev of a multinomial are those of its distribution.** Mean and MuSigma proved for all distributions; StdDev computed in closed form: it depends on the probabilities only through the mean, is right for uniform distributions, and is refuted for every distribution certain of its value over at least two values. Refutations: `C107_refuted`.
* **C108 Variables survive gob encoding.** Proved to hold exactly for non-empty names without blanks; refuted for empty names (those that structure learning creates), which cannot be decoded, and for names with blanks. Refutations: `C108_refuted`, `C108_blank_refuted`.
* **C109 The hard sum is the weighted mean of its children.** Exact arithmetic: proved. Floating point: refuted. The code shifts by the greatest weight instead of the greatest value, so one weight above 746 (hard weights are counts) makes every exponential underflow and the result the logarithm of zero, whatever the children say. Refutations: `C109_underflow_refuted`, `C109_counts_refuted`.
* **C111 Colours are those of their hue, saturation and value.** hsv2rgb proved for hues from 0 to below 300 degrees; refuted for every hue from 300 to below 360 (an empty case leaves black); byte ranges of RandTone and RandColorScale proved for all hues. Exact reals. Refutations: `C111_refuted`.
* **C112 Exact completion finds the most probable half of an image.** Proved: the pixels of the left half are filled column by column, each with a value below sys.Max that is most probable given the right half and the pixels filled before. Refuted: choosing pixel by pixel does not find the most probable half (3/10 against 2/5); the value sys.Max is never tried, and a pixel for which no smaller value is possible becomes -1. Refutations: `C112_refuted`, `C112_max_refuted`.
* **C113 Sc returns the variables of a node.** Proved: after ComputeScope Sc returns the variables below the node; without it, exactly the variables reached through products alone; asking again changes nothing. Refuted: Sum.Sc of a sum whose scope is not recorded is empty (copy into a nil slice), so a network with a sum at the root has no variables; a product keeps the answer it gave before another child was added. Refutations: `C113_sum_refuted`, `C113_refuted`.
* **C114 Chisquare is the p-value of the test.** Two degrees of freedom give the p-value exactly. Up to 600 degrees of freedom, or an even number up to 19998, and every positive value, the loops end and the result is within 1e-8 of the p-value, or is the constant 1e-14 returned when the lower incomplete gamma function comes out as at most 1e-8 (the series is within max(df/2, 3)*1e-12, the continued fraction within 1e-8 relatively). Refuted at zero and near it (1e-14 where the p-value is nearly 1), for negative values, and for Chisqr at zero. Exact arithmetic; math.Gamma is taken to be the gamma function. Refutations: `C114_zero_refuted`, `C114_negative_refuted`, `C114_chisqr_refuted`, `C114_small_refuted`, `C114_four_refuted`.
* **C115 A saved network computes the same after loading.** Proved for networks that Unmarshal restores (C30) without positive parameters below m >= 1e-6: probabilities and MAP values move by a factor of at most exp(count*1e-6/m), the same evidence has probability zero, instances whose probabilities differ by more than twice that keep their order; in decomposable networks count is the number of variables times twice the height plus one. Refuted without the bound m: an instance of probability 1e-7 is impossible after loading. Refutations: `C115_refuted`.
* **C116 An npy file can be read in parts.** Proved: consecutive reads give consecutive rows, Reset starts again, ReadAll on a reader at the first row gives all rows. Refuted: ReadAll after a successful Read of at least one row returns an error for every file. The library npyio is assumed to fill the slice or to return an error. Refutations: `C116_refuted`.
* **C117 A seed determines the random choices.** Proved: after RefreshRandom(s) all draws from package sys, and Seed, depend on s and the later calls alone (C117_refresh_partial, C117_seed); the first seeded ParsePartitionedData of a program is determined by file, proportion and seed (C117_first_partial); every split is one for some sequence of draws, so C85 applies (C117_parse_draws). Refuted: from the second call on the seed given to ParsePartitionedData makes no difference at all, for every generator (C117_later_refuted), so that equal calls give different splits (C117_refuted); Partition, PartitionByLabels and a negative seed draw from the default source of math/rand, which RefreshRandom does not touch (C117_default_refuted). Refutations: `C117_later_refuted`, `C117_default_refuted`, `C117_refuted`.
* **C118 Logging goes to the log file asked for.** Proved: the text written is that of the printing calls made while Verbose is set, once and in order, for every history (C118_text_partial); it goes where it should as long as no log file is asked for (C118_stdout_partial). Refuted for every history: SetLogFile creates the file but never changes the output, so the log file stays empty and everything goes to standard output (C118_refuted, C118_refuted_witness). Refutations: `C118_refuted`, `C118_refuted_witness`.
* **C119 The text of a score says all about its predictions.** Proved: the text and what Save writes, after every history (C119_text); nothing is lost (C119_injective); the accuracy is a share between 0 and 1 if there are predictions (C119_accuracy_partial). Refuted: for an empty score the accuracy is not a number (C119_empty_refuted). Missing: histories with Add, which C47 refutes already, are excluded. Refutations: `C119_empty_refuted`.
* **C121 Downloaded data sets are the published ones, now and later.** Proved: a download never changes an existing file unless overriding; after a complete download the data set is the published one, and every later call of any of these functions returns it without the network; the same for MNIST and its four exported functions (C121_mnist_functions_partial), whose files are all different (C121_mnist_own_file). Refuted: when the network cannot be reached the first call panics and leaves an empty file, which later calls take as a data set with no variables and one empty instance; the HTTP status is ignored, so an error page is kept as the data set; a cut off download returns nothing once and afterwards its first rows as if they were all; the second MNIST download's error is ignored; overriding empties the file before asking the network. Refutations: `C121_failed_refuted`, `C121_status_refuted`, `C121_cut_refuted`, `C121_mnist_refuted`.
* **C126 The red line divides what was known from what was completed.** Refuted: for an odd number of rows or columns the middle one is drawn on the wrong side of the line unless all of it is black (C126_odd_refuted); ImgTest draws the line of the left half in all pictures, so those of the upper and lower half are never divided (C126_test_refuted). Proved for even numbers (C126_line_partial). Refutations: `C126_odd_refuted`, `C126_test_refuted`.
* **C130 The command line does the job its flags describe.** Proved: C130_same_file_partial (the file written by -mode=data is the file read by cmpl and class, for every working directory and data set name, with a model of filepath.Abs/Clean), C130_file, C130_pipeline_partial (with C86: the images in the folder are the instances read), C130_jobs (flags are handed on), C130_accepts_partial (what is refused; what lies in (0,1) is accepted). Refuted: C130_p_refuted (every p > 1 is accepted, and the classification then panics or classifies nothing), C130_test_refuted (-mode=test ignores -dataset and runs on digits_x). Links in the file system are not modelled. Refutations: `C130_test_refuted`, `C130_p_refuted`.
* **C132 A gradient step does not make its instance less probable.** Refuted with normalisation (the default): for a proper mixture with weights 3/4 and 1/4 every step lowers the probability of its instance, however small the learning rate (C132_refuted). On mixtures of leaves the exact condition for this is proved (C132_mixture). What holds: without normalisation no value of any node ever falls, on any acyclic graph, in any run (C132_unnormalised); with normalisation a step does not hurt if no sum node favours a child more than the children's values do (C132_balanced_partial), in particular from uniform weights (C132_uniform_partial). Refutations: `C132_refuted`.
* **C134 Evaluating a network takes work in proportion to its size.** Proved for Inference and StoreInference: at most three passes per node and two per link, sorting included (C134_order, C134_inference_partial, C134_store_partial). Refuted for Value, Max and ArgMax, which make one call per path (C134_value_calls, C134_max_calls, C134_argMax_calls): C134_refuted gives for every k a network of 3k+1 nodes with at least 2^k calls. Counted are calls and loop passes; slices, maps and queues are taken to cost the same each time. StoreMAP is not counted. Refutations: `C134_refuted`.
* **C135 Structure learning ends.** C135_dbscan and C135_dbscan_ends prove it for kclusters <= 0. C135_depth_partial bounds the depth in both cases, not counting the calls for a cluster that got all instances. C135_endless and C135_refuted: with k-means and a library that puts all rows into one cluster the same call is made for ever. Whether the library does so is outside the repository (an argument of the model). Refutations: `C135_refuted`.
* **C139 ReadFromFile reads a saved network.** Refuted: C139_destroyed shows for every network saved that ReadFromFile returns nil and empties the file (it calls os.Create), so that LoadSPN, which returned a copy before, panics; C139_refuted. What holds: no other file is touched, and the result is nil or a panic (C139_others_partial). Refutations: `C139_refuted`.
* **C141 AntiLog and Log undo each other.** C141_log_antiLog_partial and C141_antiLog_log_partial for exact arithmetic with infinities and NaN (the second with the exact set of numbers for which it holds). C141_refuted: the first fails in every arithmetic in which exp gives the same number twice, as float64 does by underflow. Refutations: `C141_refuted`.
* **C142 SampleSPN builds a valid network.** Refuted: the root sums over a product with scope {0,2,3} and one with scope {1,2,3}, so the network is not complete (C142_complete_refuted), and the probabilities of the sixteen complete instances sum to 2 (C142_sum_refuted). What holds: no cycle, decomposable, weights and leaves are distributions (C142_parts_partial). Refutations: `C142_complete_refuted`, `C142_sum_refuted`.
* **C145 DepthFirst visits nodes in depth-first order.** Refuted for graphs with shared nodes: searchFunc marks a node when it is given to the stack and not when it is taken, so a child already waiting in the stack is not visited next (C145_refuted). It holds on trees (C145_tree_partial). Refutations: `C145_refuted`.
* **C146 testClassify finds no difference.** Proved for networks whose siblings are in order (as C04), without NaN, for every float arithmetic. Refuted for other networks: with an edge bridged by a longer path it prints a difference between 0 and -Inf (C146_refuted). Refutations: `C146_refuted`.
* **C148 NewNpyReader recognises every integer type and no other.** Refuted for one name: ">u1" is missing from the table of type names although ">i1" is there (C148_refuted). All other names of integer types are recognised with the right sign and size (C148_recognised_partial) and no other string is (C148_only). Refutations: `C148_refuted`.

## 5. Theorems and axioms

The axioms are what `#print axioms` reports; a theorem without an entry in brackets depends on `propext`, `Classical.choice` and `Quot.sound`. No other axiom occurs.

* **C01** (proved): `C01_recursive_order`, `C01_recursive_exactly_once`
* **C02** (partial): `C02_iterative_order_partial`, `C02_transitively_reduced_partial`, `C02_tarjanFunc_partial`, `C02_tarjanFunc_true_partial`, `C02_dfs_partial`, `C02_tarjan_order_refuted`, `C02_dfs_duplicate_refuted`
* **C03** (partial): `C03_inference_eq_value_partial`, `C03_leaf_root_refuted`, `C03_order_refuted`
* **C04** (partial): `C04_storeInference_partial`, `C04_order_refuted`
* **C05** (partial): `C05_inferenceY_partial`, `C05_leaf_root_refuted`
* **C06** (proved): `C06_value_marginal_unnormalised`, `C06_value_marginal`
* **C07** (partial): `C07_storeMAP_partial`, `C07_argMax_value_partial`, `C07_argMax_refuted`
* **C08** (partial): `C08_max_upper_bound`, `C08_argMax_partial`, `C08_storeMAP_partial`, `C08_indicator_refuted`, `C08_gaussian_refuted`
* **C09** (partial): `C09_argMax_returns_partial`, `C09_zero_probability_refuted`, `C09_witness`
* **C10** (proved): `C10_search`, `C10_search_all`, `C10_breadth_first_levels`, `C10_countNodes`
* **C11** (proved): `C11_storer_is_plain_map`, `C11_other_tickets_unchanged` [propext, Quot.sound]
* **C12** (partial): `C12_tickets_unique` [propext, Quot.sound], `C12_new_table_empty` [propext], `C12_fresh_partial`, `C12_fresh_refuted`
* **C13** (proved): `C13_handle_is_live`, `C13_handle_detached`, `C13_detached_independent`
* **C14** (partial): `C14_queue_fifo_partial`, `C14_dequeueBack_refuted` [propext], `C14_dequeueBack_singleton_panics` [propext], `C14_dequeueBack_exact` [propext, Quot.sound]
* **C15** (proved): `C15_stack_lifo`
* **C16** (proved): `C16_bound`, `C16_exactly_once`, `C16_wait`
* **C17** (proved): `C17_no_deadlock`, `C17_terminates`
* **C18** (proved): `C18_logSumExp`, `C18_logSumExp_order`, `C18_logSumExpPair`
* **C19** (proved): `C19_logSumLog`
* **C20** (partial): `C20_logProd_partial`, `C20_logSum_partial`, `C20_logSumPair_partial`, `C20_logSum_refuted`, `C20_logSumPair_refuted`
* **C21** (proved): `C21_trim`
* **C22** (proved): `C22_find`, `C22_union`
* **C23** (proved): `C23_varids`
* **C24** (proved): `C24_components`
* **C25** (partial): `C25_normalize`, `C25_fixed`, `C25_spn_partial`, `C25_spn_refuted`
* **C26** (proved): `C26_normalize_spn`
* **C27** (partial): `C27_complete_partial`, `C27_decomposable_partial`, `C27_refuted`
* **C28** (partial): `C28_scope_partial`, `C28_order_refuted`
* **C29** (partial): `C29_height`, `C29_computeHeight_partial`, `C29_computeHeight_refuted`
* **C30** (partial): `C30_copy_partial`, `C30_exact_copy_partial`, `C30_copy_same_results`, `C30_order_refuted`, `C30_weights_refuted`
* **C31** (partial): `C31_deriveSPN_partial`, `C31_after_storeInference_partial`, `C31_queue_refuted`, `C31_stack_refuted`
* **C32** (proved): `C32_deriveWeights`, `C32_deriveWeightsBatch`, `C32_meaning`, `C32_meaning_batch`, `C32_after_deriveSPN_partial`
* **C33** (proved): `C33_apply`, `C33_apply_panics`, `C33_meaning`
* **C34** (partial): `C34_refuted`, `C34_root_partial`, `C34_refuted_witness`
* **C35** (partial): `C35_restored_iff`, `C35_restored_partial`, `C35_hidden` [propext, Quot.sound], `C35_refuted` [propext, Quot.sound]
* **C36** (partial): `C36_counts`, `C36_returns`, `C36_map_trace_partial`, `C36_choice_refuted`
* **C37** (proved): `C37_learn`, `C37_distribution`
* **C38** (partial): `C38_dbscan_partial`, `C38_returned_partial`, `C38_refuted`, `C38_density_refuted`
* **C39** (proved): `C39_groups`, `C39_kmeans`
* **C40** (proved): `C40_matrix`, `C40_complete`, `C40_roundtrip`
* **C41** (partial): `C41_divide_partial`, `C41_refuted`, `C41_empty`
* **C42** (partial): `C42_partition_partial`, `C42_returned_partial`, `C42_refuted`
* **C43** (partial): `C43_labels_partial`, `C43_exact_partial`, `C43_refuted`
* **C44** (proved): `C44_extract`, `C44_merge`, `C44_merge_extract`, `C44_extract_merge`
* **C45** (proved): `C45_split`, `C45_subtractLabel`, `C45_join`, `C45_join_unlabelled`
* **C46** (partial): `C46_identical_partial` [propext, Quot.sound], `C46_label_counts` [propext, Quot.sound], `C46_refuted` [propext]
* **C47** (proved): `C47_counts`, `C47_predictions`, `C47_confusion`
* **C48** (partial): `C48_add_partial`, `C48_refuted`, `C48_call_partial`
* **C49** (partial): `C49_evaluate_memory_partial`, `C49_posterior_memory_partial`, `C49_refuted`, `C49_evaluate_partial`
* **C50** (partial): `C50_partition_partial`, `C50_refuted`
* **C51** (proved): `C51_counting`, `C51_scoped`, `C51_empty`, `C51_multinomial`, `C51_computeMode`, `C51_ties`
* **C52** (proved): `C52_hamming`, `C52_hammingF`, `C52_euclideanF`, `C52_euclidean`
* **C53** (proved): `C53_decode_encode` [propext, Quot.sound], `C53_injective`
* **C54** (proved): `C54_newCounts`
* **C55** (proved): `C55_splitHalf`
* **C56** (partial): `C56_first_partial`, `C56_others`, `C56_refuted`
* **C57** (proved): `C57_copy`, `C57_copy_unlabelled`, `C57_subtractVariable`
* **C58** (proved): `C58_shuffle` [propext, Quot.sound], `C58_shuffle_unlabelled` [propext, Quot.sound]
* **C59** (partial): `C59_posterior_partial`
* **C60** (proved): `C60_muSigma` [none], `C60_mean`, `C60_stdDev`
* **C61** (partial): `C61_pgm_partial`, `C61_ppm`, `C61_refuted`
* **C62** (proved): `C62_statePixels` [propext, Quot.sound]
* **C63** (proved): `C63_read`
* **C64** (proved): `C64_readBalanced`
* **C65** (proved): `C65_contingency`, `C65_graph`
* **C66** (proved): `C66_gTest`, `C66_symmetric`, `C66_independent`, `C66_chiSquareTest`
* **C67** (partial): `C67_raw_partial`, `C67_counts_partial`, `C67_mode_refuted`, `C67_mode_refuted_witness`
* **C68** (partial): `C68_gaussian_partial`, `C68_zero_refuted`, `C68_evidence_refuted`, `C68_positive_refuted`
* **C69** (proved): `C69_normalised`, `C69_unnormalised`, `C69_still_distribution`
* **C70** (partial): `C70_ascent_partial`, `C70_ascent_refuted`
* **C71** (partial): `C71_keeps`, `C71_ascent_partial`, `C71_zero_batch`
* **C72** (partial): `C72_gd_keeps`, `C72_bgd_keeps`, `C72_gd_ascent_partial`, `C72_bgd_ascent_partial`, `C72_zero_weight_refuted`
* **C73** (partial): `C73_bound_partial` [propext], `C73_default`, `C73_unbind` [propext], `C73_leaf_refuted`, `C73_generative_partial`, `C73_em_refuted`, `C73_generative_default`, `C73_discriminative_partial`
* **C74** (partial): `C74_generative`, `C74_discriminative`, `C74_data_partial`, `C74_data_iff`, `C74_gd_returns`, `C74_bgd_returns`
* **C75** (partial): `C75_gd_partial`, `C75_bgd_partial`, `C75_refuted`
* **C76** (partial): `C76_one_partial`, `C76_total_partial`, `C76_structure_partial`, `C76_resolution_one`, `C76_single_partial`, `C76_refuted`
* **C77** (proved): `C77_scopes`, `C77_structure`, `C77_weights`, `C77_empty_cluster`
* **C78** (proved): `C78_scope_only`, `C78_more_evidence`, `C78_sum_out`, `C78_max_le_value`, `C78_gaussian_refuted`
* **C79** (partial): `C79_partition_partial`, `C79_never_returns` [propext, Quot.sound], `C79_mean_not_mode` [propext], `C79_too_many_clusters` [propext, Quot.sound]
* **C80** (proved): `C80_returns`, `C80_too_few_rows`, `C80_not_true_medoids`
* **C81** (proved): `C81_partition`, `C81_returns`, `C81_empty_cluster`, `C81_too_many_clusters` [propext, Quot.sound]
* **C82** (partial): `C82_optics_partial`, `C82_core_panics`
* **C83** (partial): `C83_kmeans_partial`, `C83_kmeansF`, `C83_library_error` [propext, Quot.sound], `C83_data_keysF`, `C83_data_keys`, `C83_data_loses_rows`
* **C84** (partial): `C84_parseData_partial`, `C84_long_line`, `C84_lost_rows`, `C84_short_row`, `C84_no_rows`, `C84_parseDataNL_partial`, `C84_parseEvidence_partial`
* **C85** (proved): `C85_partition`, `C85_size`, `C85_bad_p`
* **C86** (partial): `C86_pgmFToData_partial`, `C86_buffered_partial`, `C86_lost_images`, `C86_large_images`, `C86_no_images`, `C86_written_image`, `C86_no_maximum`
* **C87** (partial): `C87_labels_partial` [propext, Quot.sound], `C87_labels_wrong` [none], `C87_pgmFToEvidence_partial`, `C87_shifted`
* **C88** (partial): `C88_pbmFToData_partial`, `C88_large_images`, `C88_pbmToData_class_lost`, `C88_pbmFToEvidence_partial`, `C88_written_image`
* **C89** (partial): `C89_parseArff_partial`, `C89_undeclared`, `C89_collision`, `C89_blank_line`, `C89_refuted`, `C89_real`
* **C90** (partial): `C90_arffToData_partial`, `C90_blank_in_labels`, `C90_undeclared`, `C90_keywords`, `C90_blank_line`
* **C91** (partial): `C91_imgClassify_partial`, `C91_label_panics`
* **C92** (partial): `C92_halfImg_partial`, `C92_panics`
* **C93** (partial): `C93_types` [propext], `C93_completion`, `C93_terminates`, `C93_parallel_partial`, `C93_parallel_refuted`
* **C94** (proved): `C94_poon_many`, `C94_layered`, `C94_tree`, `C94_routines`, `C94_dennis`, `C94_poon`, `C94_poon_single`, `C94_gens`
* **C95** (partial): `C95_same_partial`, `C95_returns`, `C95_cpu_refuted`, `C95_empty_refuted`, `C95_few_refuted`
* **C96** (partial): `C96_generative`, `C96_dennis_partial`, `C96_hard`, `C96_poon_partial`, `C96_poon_single`, `C96_zeros_refuted`, `C96_poon_many`
* **C97** (partial): `C97_dennis_partial`, `C97_poon_partial`, `C97_few_refuted`, `C97_one_refuted`, `C97_order_refuted`
* **C98** (partial): `C98_dot_partial`, `C98_leaf`, `C98_tools_partial`, `C98_tools_refuted`, `C98_dot_refuted`
* **C99** (proved): `C99_value`, `C99_cost`, `C99_standard`, `C99_inference`
* **C100** (proved): `C100_max`, `C100_argMax`, `C100_standard`
* **C101** (partial): `C101_gd_partial`, `C101_bgd_partial`, `C101_refuted`
* **C102** (partial): `C102_leaves`, `C102_marginal_partial`, `C102_refuted`
* **C103** (proved): `C103_positive`
* **C104** (partial): `C104_leaves_partial`, `C104_few_refuted`, `C104_order_refuted`
* **C105** (partial): `C105_values_partial`, `C105_first_partial`, `C105_stale`, `C105_refuted`
* **C106** (partial): `C106_prints_partial`, `C106_panics`, `C106_determines_partial`, `C106_refuted`
* **C107** (partial): `C107_mean`, `C107_muSigma` [none], `C107_stdDev_value`, `C107_uniform_partial`, `C107_refuted`, `C107_empty`
* **C108** (partial): `C108_roundtrip_iff`, `C108_one_word`, `C108_refuted`, `C108_blank_refuted`
* **C109** (partial): `C109_value`, `C109_childless` [propext], `C109_panics` [propext, Quot.sound], `C109_underflow_refuted`, `C109_counts_refuted`
* **C110** (proved): `C110_selection`, `C110_uniform`, `C110_panics`
* **C111** (partial): `C111_rgb_partial`, `C111_refuted`, `C111_tone_bytes`, `C111_scale_bytes`
* **C112** (partial): `C112_order`, `C112_greedy_partial`, `C112_minus_one`, `C112_refuted`, `C112_max_refuted`
* **C113** (partial): `C113_recorded_partial`, `C113_sum_refuted`, `C113_fresh`, `C113_products_partial`, `C113_again`, `C113_stale`, `C113_refuted`
* **C114** (partial): `C114_two_partial`, `C114_zero_refuted`, `C114_negative_refuted`, `C114_chisqr_refuted`, `C114_series_partial`, `C114_series_ends`, `C114_small_refuted`, `C114_four_refuted`, `C114_fraction_partial`, `C114_accuracy_partial`
* **C115** (partial): `C115_file`, `C115_value_partial`, `C115_ranking_partial`, `C115_max_partial`, `C115_count`, `C115_refuted`
* **C116** (partial): `C116_new` [propext], `C116_consecutive`, `C116_reset` [propext, Quot.sound], `C116_readAll_partial`, `C116_refuted`
* **C117** (partial): `C117_refresh_partial` [propext, Quot.sound], `C117_seed` [propext, Quot.sound], `C117_first_partial` [propext, Quot.sound], `C117_later_refuted` [propext, Quot.sound], `C117_default_refuted` [propext, Quot.sound], `C117_parse_draws` [propext, Quot.sound], `C117_refuted`
* **C118** (partial): `C118_text_partial` [propext], `C118_stdout_partial` [propext], `C118_refuted`, `C118_refuted_witness` [none]
* **C119** (partial): `C119_text`, `C119_injective`, `C119_accuracy_partial`, `C119_empty_refuted`
* **C120** (proved): `C120_value`, `C120_total`
* **C121** (partial): `C121_frame` [propext, Quot.sound], `C121_downloaded` [propext], `C121_kept`, `C121_cached`, `C121_dataset_partial`, `C121_failed_refuted`, `C121_status_refuted`, `C121_cut_refuted`, `C121_override` [propext], `C121_mnist_partial`, `C121_mnist_refuted`, `C121_own_file`, `C121_mnist_own_file`, `C121_mnist_functions_partial`
* **C122** (proved): `C122_classify`, `C122_leader`
* **C123** (proved): `C123_readers`, `C123_folders`, `C123_limit` [propext, Quot.sound]
* **C124** (proved): `C124_blind`, `C124_batch`
* **C125** (proved): `C125_completion`, `C125_test`, `C125_training` [propext, Quot.sound]
* **C126** (partial): `C126_line_partial`, `C126_odd_refuted`, `C126_test_refuted`
* **C127** (proved): `C127_storeMAP`, `C127_standard`, `C127_halfImg`
* **C128** (proved): `C128_normalize`, `C128_total`, `C128_spn`, `C128_distribution`
* **C129** (proved): `C129_built`, `C129_order`, `C129_pairs`, `C129_acyclic`, `C129_value`, `C129_max_unweighted`, `C129_cycle`, `C129_usable`
* **C130** (partial): `C130_same_file_partial`, `C130_file`, `C130_jobs`, `C130_test_refuted`, `C130_accepts_partial`, `C130_p_refuted`, `C130_pipeline_partial`, `C130_procs` [propext, Quot.sound]
* **C131** (proved): `C131_gradients`, `C131_cost`, `C131_standard`, `C131_relative`
* **C132** (partial): `C132_unnormalised`, `C132_balanced_partial`, `C132_uniform_partial`, `C132_mixture`, `C132_refuted`
* **C133** (proved): `C133_step`, `C133_normalised`
* **C134** (partial): `C134_value_calls`, `C134_max_calls`, `C134_argMax_calls`, `C134_refuted`, `C134_order`, `C134_inference_partial`, `C134_store_partial`
* **C135** (partial): `C135_depth_partial`, `C135_dbscan`, `C135_dbscan_ends`, `C135_endless`, `C135_one_variable` [propext], `C135_refuted`
* **C136** (proved): `C136_dbscan`, `C136_kmeans`, `C136_attained`, `C136_unbounded`
* **C137** (proved): `C137_no_cycle`, `C137_acyclic` [propext, Quot.sound], `C137_dbscan`, `C137_kmeans`
* **C138** (proved): `C138_value`, `C138_classify`
* **C139** (partial): `C139_others_partial` [propext, Quot.sound], `C139_destroyed`, `C139_refuted`
* **C140** (proved): `C140_near`, `C140_symmetric`, `C140_triangle`, `C140_not_transitive`
* **C141** (partial): `C141_log_antiLog_partial`, `C141_antiLog_log_partial`, `C141_refuted` [none]
* **C142** (partial): `C142_parts_partial`, `C142_complete_refuted`, `C142_sum_refuted`
* **C143** (proved): `C143_search`, `C143_all`
* **C144** (proved): `C144_breadthFirst`, `C144_doBFS`
* **C145** (partial): `C145_tree_partial`, `C145_refuted`
* **C146** (partial): `C146_silent_partial`, `C146_refuted`
* **C147** (proved): `C147_counts`
* **C148** (partial): `C148_recognised_partial`, `C148_only`, `C148_refuted`

## 6. What is modelled and what is not

Per file of the repository: the functions that a definition of the model covers (its comment cites lines of the function), and the ones outside the model. Simplifications are stated at the definitions. Everything not listed as modelled is unverified.

* `app/image.go` (Model/App, Model/HalfExact, Model/ImgRun, Model/Main, Model/TestUse): modelled: ImgBatchClassify, getValue, testClassify, ImgClassify, halfImg, completeHalfExact, ImgTest, ImgTestParallel, ImgCompletion; not modelled: randVarSet.
* `common/color.go` (Model/Color, Model/Images): modelled: NewColor, hsv2rgb, RandTone, RandColorScale; not modelled: init, DrawColor, DrawColorRGB, Color.String, RandColor.
* `common/equal.go` (Model/Helpers): modelled: ApproxEqual.
* `common/queue.go` (Model/Collections, Model/Topo): modelled: Queue.Enqueue, Queue.Dequeue, Queue.DequeueBack, Queue.Peek, Queue.Get, Queue.Size, Queue.Empty, Queue.Give, Queue.Take, Queue.Shrink, Queue.Reset, Queue.Invert.
* `common/stack.go` (Model/Collections, Model/Topo): modelled: Stack.Push, Stack.Pop, Stack.Peek, Stack.Get, Stack.Size, Stack.Empty, Stack.Give, Stack.Take, Stack.Shrink, Stack.Reset, Stack.Invert.
* `conc/queue.go` (Model/Conc, Model/EvalConc): modelled: NewSingleQueue, SingleQueue.Allowed, SingleQueue.Run, SingleQueue.Wait.
* `data/datasets.go` (Model/Download, Model/Mnist): modelled: upstreamURL, fullPath, exists, getDataset, Caltech, Caltech4Bit, Caltech3Bit, Digits, DigitsX, Olivetti, OlivettiPadded, Olivetti3Bit, OlivettiBig, OlivettiSmall, pullMNIST, MNIST1000, MNIST2000, MNIST3Bits1000, MNIST3Bits2000.
* `data/manipulate.go` (Model/Data, Model/Seeds): modelled: cascadeRounding, copyMap, ExtractLabels, Partition, PartitionByLabels, Split, Copy, Shuffle, Join, SubtractLabel, SubtractVariable, Identical, MergeLabel, Divide; not modelled: copySlice.
* `io/arff.go` (Model/Arff): modelled: ARFFToData, ParseArff.
* `io/http.go` (Model/Download): modelled: DownloadFromURL.
* `io/images.go` (Model/Images): modelled: SplitHalf.
* `io/input.go` (Model/Download, Model/ImgRun, Model/Input, Model/Main, Model/ReadFile, Model/Seeds): modelled: GetDataPath, GetPath, ParseData, ParseDataNL, ParseEvidence, ParsePartitionedData, ReadFromFile.
* `io/npy.go` (Model/Npy, Model/NpyReader): modelled: integerType, isValid, NewNpyReader, new_counts, readBalanced, read, NpyReader.Read, NpyReader.ReadAll, NpyReader.ReadBalanced, NpyReader.Reset; not modelled: NpyReader.Close.
* `io/output.go` (Model/App, Model/Draw, Model/Images): modelled: DrawGraphTools, DrawGraph.
* `io/pbm.go` (Model/Folder, Model/Images): modelled: PBMFToData, PBMToData, PBMFToEvidence, VarSetToPBM, ImgCmplToPPM.
* `io/pgm.go` (Model/Folder, Model/Images, Model/Main): modelled: PGMFToData, BufferedPGMFToData, PGMFToEvidence, VarSetToPGM, ImgCmplToPGM.
* `io/ppm.go` (Model/Images): modelled: VarSetToPPM.
* `io/spn.go` (Model/ReadFile, Model/SpnFile): modelled: SaveSPN, LoadSPN.
* `learn/dennis/dennis.go` (Model/Dennis, Model/LearnGD): modelled: transpose, dataToCluster, buildRegionGraph, expandRegionGraph, clusterToMatrix, partitionScope, buildSPN, Structure, LearnGD; not modelled: transposeF.
* `learn/dennis/graph.go` (Model/Dennis): modelled: newGraph, graph.registerRegion, graph.registerPartition, graph.existsPartition, graph.validateRegion, postorderRec, graph.postorder; not modelled: graph.allScopes.
* `learn/dennis/partition.go`: nothing modelled; not modelled: newPartition, partition.add, partition.translate, partition.Type.
* `learn/dennis/region.go` (Model/Dennis): modelled: newRegion, region.translate; not modelled: region.add, region.Type.
* `learn/dennis/scope.go` (Model/Dennis): modelled: scopeSlice.contains, scope.subsetOf, scope.lenUnion, scope.lenIntersect, scope.minus, scope.equal, scope.similarTo.
* `learn/derive.go` (Model/Derive, Model/Search, Model/Structure): modelled: DeriveSPN, DeriveWeights, DeriveWeightsBatch, Normalize, DeriveApplyWeights, DeriveHard.
* `learn/discriminative.go` (Model/Derive, Model/Learn): modelled: Discriminative, pullValues, pushValues, DiscriminativeGD, DiscriminativeHardGD, DiscriminativeBGD, DiscriminativeHardBGD, applyDGD, storeDGD, applyDGDFrom, applyHDGD.
* `learn/generative.go` (Model/Learn, Model/LearnGD): modelled: Generative, GenerativeGD, GenerativeHardGD, GenerativeBGD, GenerativeHardBGD, applyFastGD, applyFastHGD, applyHGD; not modelled: applyGD.
* `learn/gens/gens.go` (Model/Gens, Model/LearnCalls): modelled: LearnConcurrent, Learn, newMultinom, newGaussMix, newFullyFactorized, indepStep, clusterStep, LearnGaussConcurrent, LearnGauss; not modelled: Binded.
* `learn/parameters/parameters.go` (Model/Learn): modelled: Default, New, Method, Hardness, Bind, Unbind, Exists, Retrieve; not modelled: init.
* `learn/poon/poon.go` (Model/LearnGD, Model/Poon, Model/PoonStruct, Model/TestUse): modelled: newRegion, Encode, Decode, createSum, createRegion, createUnitRegion, createRegions, region.compMap, existsDecomp, storeDecomp, storeProd, extractProd, compUnitRegions, mapInference, maxThroughData, Structure, Test, LearnGD; not modelled: getRegionType, linkRegions, conRegions, connectRegions, equalsDecomp, BindedGD.
* `learn/variable.go` (Model/Gens, Model/Matrix, Model/VariableGob): modelled: Variable.GobEncode, Variable.GobDecode, ExtractInstance, CompleteDataToMatrix, DataToMatrix, CompleteDataToMatrixF, DataToMatrixF, MatrixToData, ReflectScope, DataToVarData; not modelled: init, CopyScope.
* `main.go` (Model/Main): modelled: convertData, main.
* `score/score.go` (Model/EvalConc, Model/Evaluate, Model/Score, Model/ScoreText): modelled: NewScore, S.Register, S.String, S.Evaluate, S.EvaluatePosterior, S.EvaluatePosteriorConc, S.ConfusionMatrix, S.Merge, Add, S.Save, S.Clear; not modelled: S.Hits, S.Misses, S.Total, copyExcept.
* `spn/gaussian.go` (Model/Gauss, Model/Search, Model/Serial, Model/Spn): modelled: NewGaussianParams, NewGaussianRaw, NewGaussian, NewGaussianMode, Gaussian.Type, zeroSigma, Gaussian.Value, Gaussian.Max, Gaussian.ArgMax, Gaussian.Sc, Gaussian.GobEncode, Gaussian.GobDecode; not modelled: NewGaussianFit, Gaussian.Params, Gaussian.SubType.
* `spn/indicator.go` (Model/Search, Model/Serial, Model/Spn): modelled: Indicator.Type, Indicator.Value, Indicator.Max, Indicator.ArgMax, Indicator.Sc, Indicator.GobEncode, Indicator.GobDecode; not modelled: NewIndicator.
* `spn/multinom.go` (Model/Multinom, Model/Print, Model/Search, Model/Serial, Model/Spn): modelled: computeMode, NewMultinomial, NewCountingMultinomial, NewScopedCountingMultinomial, NewEmptyMultinomial, Multinomial.Type, Multinomial.Value, Multinomial.Max, Multinomial.ArgMax, Multinomial.Mean, Multinomial.StdDev, Multinomial.MuSigma, Multinomial.GobEncode, Multinomial.GobDecode; not modelled: Multinomial.Pr, Multinomial.SubType.
* `spn/node.go` (Model/Learn, Model/Sc, Model/Search, Model/Spn, Model/Structure): modelled: Node.Ch, Node.Sc, Node.Type, Node.Height, Node.Parameters; not modelled: Node.rawSc, Node.setRawSc, Node.Value, Node.Compute, Node.Max, Node.ArgMax, Node.SubType, Node.AddChild.
* `spn/print.go` (Model/Print): modelled: PrintSPN.
* `spn/product.go` (Model/Build, Model/Learn, Model/Sc, Model/Search, Model/Serial, Model/Spn, Model/Work): modelled: NewProduct, Product.Type, Product.Sc, Product.Value, Product.Compute, Product.Max, Product.ArgMax, Product.AddChild, Product.Parameters, Product.GobEncode, Product.GobDecode.
* `spn/search.go` (Model/Search): modelled: searchFunc, BreadthFirst, DepthFirst, CountNodes.
* `spn/serial.go` (Model/ReadFile, Model/Serial): modelled: init, decodeSPN, Marshal, Unmarshal; not modelled: RegisterGobType, encodeSPN.
* `spn/storer.go` (Model/Storer): modelled: NewStorer, Storer.NewTicket, Storer.Table, Storer.Value, StorerTable.Value, Storer.Entry, StorerTable.Entry, Storer.Single, Storer.Store, StorerTable.Store, Storer.StoreSingle, Storer.ExistsSPN, StorerTable.ExistsSPN, Storer.Exists, StorerTable.Exists, Storer.Delete, Storer.Reset, Storer.ResetTickets, Storer.Purge; not modelled: StorerTable.Single, StorerTable.StoreSingle.
* `spn/sum.go` (Model/Build, Model/Draw, Model/Learn, Model/Sc, Model/Search, Model/Serial, Model/Spn, Model/Structure, Model/SumHard, Model/Work): modelled: NewSum, Sum.AddWeight, Sum.AddChildW, Sum.Sc, Sum.Value, Sum.Compute, Sum.ComputeHard, Sum.Max, Sum.ArgMax, Sum.Type, Sum.AddChild, Sum.Parameters, Sum.GobEncode, Sum.GobDecode; not modelled: Sum.Weights.
* `spn/tester.go`: nothing modelled; not modelled: graphTest.Add, graphTest.Type.
* `spn/topo.go` (Model/Collections, Model/Topo, Model/Work): modelled: visit, TopSortTarjanRec, TopSortTarjan, TopSortTarjanFunc, TopSortDFS, postOrderRec, PostOrder.
* `spn/utils.go` (Model/Collections, Model/Derive, Model/PoonStruct, Model/Sc, Model/Search, Model/Spn, Model/Structure, Model/Work): modelled: InferenceY, Inference, StoreInference, StoreMAP, norm, NormalizeSPN, ComputeHeight, ComputeScope, Complete, Decomposable, TraceMAP.
* `sys/gc.go`: nothing modelled; not modelled: Free, ForceFree.
* `sys/print.go` (Model/SysLog): modelled: SetLogFile, Printf, Println; not modelled: LogFile.
* `sys/rand.go` (Model/RandComb, Model/Seeds): modelled: RefreshRandom, RandIntn, RandFloat64, RandNormFloat64, Seed, RandomComb; not modelled: init.
* `sys/time.go`: nothing modelled; not modelled: StartTimer, StopTimer, MeasureTime.
* `sys/vars.go`: nothing modelled; not modelled: init.
* `test/init.go` (Model/TestInit): modelled: SampleSPN, DoBFS.
* `utils/cluster/cluster.go` (Model/Matrix, Model/Optics): modelled: copyMatrixF, guessToData; not modelled: copyMatrix, toCluster, toClusterF, copyMap.
* `utils/cluster/dbscan.go` (Model/Matrix): modelled: dbscanInternal, DBSCAN, DBSCANData.
* `utils/cluster/kmeans.go` (Model/Cluster, Model/Matrix, Model/Optics): modelled: kMeansInsert, kMeansRemove, KMeansMuesliF, KMeansMuesli, KMeansDataI, KMeans, KMeansData, OldKMeans, KMeansF, KMeansFData, OldKMeansF; not modelled: kmeansMuesli, KMeansI.
* `utils/cluster/kmedoid.go` (Model/Cluster): modelled: kMedoidInsert, kMedoidRemove, KMedoid.
* `utils/cluster/kmode.go` (Model/Cluster): modelled: kModeInsert, kModeRemove, KMode.
* `utils/cluster/metrics/euclid.go` (Model/Matrix): modelled: Euclidean, EuclideanF.
* `utils/cluster/metrics/hamming.go` (Model/Matrix): modelled: Hamming, HammingF.
* `utils/cluster/optics.go` (Model/Optics): modelled: getNeighbors, getCoreDist, expand, extract, OPTICS; not modelled: object.get, qObj.enqueue, qObj.dequeue, qObj.peek, qObj.get, qObj.size, qObj.empty, max, objDists.Len, objDists.Swap, objDists.Less, pQueue.Len, pQueue.Less, pQueue.Swap, pQueue.Push, pQueue.Pop, pQueue.update, seedsUpdate.
* `utils/concat.go`: nothing modelled; not modelled: StringConcat.
* `utils/indep/chisq.go` (Model/Chisq, Model/Indep): modelled: ChiSquare, lgamma, ugamma, Chisquare, Chisqr, ChiSquareTest.
* `utils/indep/gtest.go` (Model/Indep): modelled: GTest.
* `utils/indep/indgraph.go` (Model/Indep, Model/UnionFind): modelled: NewIndepGraph, NewUFIndepGraph.
* `utils/log.go` (Model/Float, Model/Helpers, Model/Log): modelled: init, LogSumLog, LogSum, LogProd, AntiLog, LogSumPair, Log, Trim, LogSumExp, LogSumExpPair; not modelled: Inf.
* `utils/stats.go` (Model/Stats): modelled: Mean, StdDev, MuSigma, PartitionQuantiles.
* `utils/unionfind.go` (Model/UnionFind): modelled: MakeSet, Find, Union, UFVarids.
* `utils/vardata.go`: nothing modelled; not modelled: NewVarData.

Tests (`*_test.go`), constants, type declarations and package documentation are not modelled beyond what the functions use.
