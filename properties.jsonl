{"id": "C01", "title": "Recursive topological orderings respect dependencies", "statement": "For every SPN graph without cycles, TopSortTarjanRec and PostOrder called with a queue return a collection in which every node reachable from the root occurs exactly once, nothing else occurs, and every node comes after all of its children; called with a stack, taking from the collection yields exactly the reverse of that order. Both functions return the same order.", "quantifier": "every finite node graph (shared nodes, repeated children, any shape), every root, queue or stack as the collection", "why_tests_cant": "the number of DAG shapes is unbounded; the ordering depends on which nodes are shared and in which order edges are listed, so a finite test suite samples a few shapes only", "anchors": ["spn/topo.go:visit", "spn/topo.go:TopSortTarjanRec", "spn/topo.go:postOrderRec", "spn/topo.go:PostOrder"]}
{"id": "C02", "title": "Iterative topological orderings respect dependencies", "statement": "For every SPN graph without cycles, TopSortTarjan, TopSortTarjanFunc (with a callback that always returns true) and TopSortDFS return every reachable node exactly once, with every node after all of its children; all three return the same order.", "quantifier": "every finite node graph, every root", "why_tests_cant": "the violation only shows on graphs with a particular combination of sharing and edge order; tests on trees and on layered graphs pass", "anchors": ["spn/topo.go:TopSortTarjan", "spn/topo.go:TopSortTarjanFunc", "spn/topo.go:TopSortDFS"]}
{"id": "C03", "title": "Dynamic-programming inference agrees with recursive evaluation", "statement": "For every SPN S and every evidence I, Inference(S, I) returns exactly the number S.Value(I) returns (same floating-point operations in the same order, so the same bits), and one panics only if the other does.", "quantifier": "every SPN DAG, every node of it as root, every evidence map, every floating-point arithmetic", "why_tests_cant": "tests compare a handful of networks; equality must hold for every graph shape, weight and evidence", "anchors": ["spn/utils.go:Inference", "spn/sum.go:Sum.Value", "spn/product.go:Product.Value", "spn/topo.go:TopSortTarjan"]}
{"id": "C04", "title": "StoreInference fills the table with node values", "statement": "After StoreInference(S, I, tk, storage) succeeds it has returned S and the ticket used, and for every node n reachable from S the entry (ticket, n, 0) holds exactly n.Value(I); no entry of any other ticket has changed, and entries of nodes that are not reachable from S have not changed.", "quantifier": "every SPN DAG, every evidence, every previous content of the storage, fresh or existing ticket", "why_tests_cant": "depends on all graph shapes and on all earlier histories of the storage object", "anchors": ["spn/utils.go:StoreInference", "spn/storer.go:Storer"]}
{"id": "C05", "title": "InferenceY equals inference on the extended evidence", "statement": "InferenceY(S, I, Y, y) returns exactly the value of S on the evidence obtained from I by setting variable Y to y (overriding any value I gives to Y), and I itself is not modified.", "quantifier": "every SPN DAG, every evidence map, every variable Y (whether or not it occurs in S or I), every value y", "why_tests_cant": "must hold for every network, evidence and variable; a test fixes one of each", "anchors": ["spn/utils.go:InferenceY"]}
{"id": "C06", "title": "The value of a valid SPN is the marginal probability of the evidence", "statement": "For every complete and decomposable SPN whose sum weights are non-negative and sum to one at every sum node and whose leaves are discrete distributions over a finite domain, exp(S.Value(I)) equals the sum, over all ways of completing the evidence I to a full assignment of the variables of S, of exp(S.Value(completion)); with empty evidence the value is exactly probability one.", "quantifier": "every valid SPN DAG, every partial evidence, in exact arithmetic", "why_tests_cant": "an exponential-size sum over completions for every network; no test can enumerate networks and evidence", "anchors": ["spn/sum.go:Sum.Value", "spn/product.go:Product.Value", "spn/multinom.go:Multinomial.Value", "spn/indicator.go:Indicator.Value", "README.md"]}
{"id": "C07", "title": "MAP value by dynamic programming equals the recursive MAP value", "statement": "StoreMAP(S, I, tk, storage) stores at (ticket, n, 0), for every node n reachable from S, exactly n.Max(I); and S.ArgMax(I) returns as its second component exactly S.Max(I).", "quantifier": "every SPN DAG, every evidence, every arithmetic, every outcome of random tie breaking", "why_tests_cant": "depends on every graph shape and on random tie breaking, which tests do not control", "anchors": ["spn/utils.go:StoreMAP", "spn/sum.go:Sum.Max", "spn/sum.go:Sum.ArgMax", "spn/product.go:Product.Max", "spn/product.go:Product.ArgMax"]}
{"id": "C08", "title": "MAP states extend the evidence and attain the MAP value", "statement": "For every complete and decomposable SPN, the state returned by ArgMax or StoreMAP assigns every variable of the scope, agrees with the evidence on every variable of the scope that the evidence sets, and evaluating Max on that state gives the same value as Max on the evidence; no completion of the evidence has a larger Max.", "quantifier": "every complete and decomposable SPN, every evidence, every random tie breaking", "why_tests_cant": "an optimality claim over all completions and all random choices", "anchors": ["spn/utils.go:StoreMAP", "spn/sum.go:Sum.ArgMax", "spn/product.go:Product.ArgMax", "spn/indicator.go:Indicator.ArgMax", "spn/multinom.go:Multinomial.ArgMax", "spn/gaussian.go:Gaussian.ArgMax"]}
{"id": "C09", "title": "ArgMax returns for every evidence", "statement": "For every SPN whose sum nodes have at least one child and one weight per child and every evidence within the domains of the leaves, ArgMax returns a state and a value and does not panic, including for evidence of probability zero.", "quantifier": "every SPN, every evidence", "why_tests_cant": "the failing evidence has probability zero and is network specific", "anchors": ["spn/sum.go:Sum.ArgMax"]}
{"id": "C10", "title": "Graph searches visit every reachable node exactly once", "statement": "BreadthFirst(G, f) and DepthFirst(G, f) with f returning 0 call f exactly once on every node reachable from G and on no other; a positive result stops the search at once; a negative result at a node means its outgoing edges are not followed from that node. CountNodes returns the numbers of reachable sum, product and other nodes.", "quantifier": "every finite graph (cycles included), every root, every callback", "why_tests_cant": "unbounded family of graphs and callbacks", "anchors": ["spn/search.go:BreadthFirst", "spn/search.go:DepthFirst", "spn/search.go:CountNodes"]}
{"id": "C11", "title": "Storer behaves like a map from (ticket, node, index) to numbers", "statement": "After any sequence of Storer operations, Entry, Single, Value, Exists and ExistsSPN return exactly what a plain map from (ticket, node, index) to numbers, updated by the same Store, Delete, Reset, ResetTickets and Purge calls, would give; Store on a ticket that has no table returns false and changes nothing; operations on one ticket never change what is read through another.", "quantifier": "every history of Storer operations", "why_tests_cant": "histories are unbounded", "anchors": ["spn/storer.go:Storer", "spn/storer.go:StorerTable"]}
{"id": "C12", "title": "Tickets are unique and name fresh tables", "statement": "NewTicket never returns a ticket that currently names a table, the table it names is empty, and in a history without Purge no two calls of NewTicket return the same ticket.", "quantifier": "every history of Storer operations, including Reset and Delete with arbitrary arguments", "why_tests_cant": "depends on the whole history of the object", "anchors": ["spn/storer.go:Storer.NewTicket", "spn/storer.go:Storer.Reset", "spn/storer.go:Storer.Purge"]}
{"id": "C13", "title": "Table handles alias the live table only", "statement": "A table handle obtained from Storer.Table(k) reads and writes the same entries as Storer operations on k until k is reset, deleted or purged; after that, writes through the old handle are not visible through the Storer and Storer writes are not visible through the handle.", "quantifier": "every interleaving of operations through handles and through the Storer", "why_tests_cant": "aliasing depends on the whole history", "anchors": ["spn/storer.go:Storer.Table", "spn/storer.go:Storer.Reset", "spn/storer.go:Storer.Delete", "spn/storer.go:StorerTable.Store"]}
{"id": "C14", "title": "Queue is a first-in first-out queue", "statement": "After any sequence of operations a Queue answers Size, Empty, Get, Peek, Dequeue and Take exactly as the list of elements enqueued and not yet removed, oldest first; Enqueue and Give add at the back, DequeueBack removes and returns only the newest element; Reset empties it.", "quantifier": "every history of queue operations on every element type", "why_tests_cant": "histories are unbounded, and capacity bookkeeping depends on them", "anchors": ["common/queue.go:Queue"]}
{"id": "C15", "title": "Stack is a last-in first-out stack", "statement": "After any sequence of operations a Stack answers Size, Empty, Get, Peek, Pop and Take exactly as the list of elements pushed and not yet popped, newest first; Push and Give add on top; Reset empties it.", "quantifier": "every history of stack operations on every element type", "why_tests_cant": "histories are unbounded, and capacity bookkeeping depends on them", "anchors": ["common/stack.go:Stack"]}
{"id": "C16", "title": "SingleQueue bounds concurrency and runs every job exactly once", "statement": "With a SingleQueue for n > 0 processes, at every moment at most n submitted functions are running; every function passed to Run is executed exactly once with the id given; when Wait returns, every function whose Run call had returned before Wait was called has finished.", "quantifier": "every number of callers and jobs, every interleaving of goroutines", "why_tests_cant": "the number of schedules is unbounded and the scheduler is not under the control of a test", "anchors": ["conc/queue.go:SingleQueue", "conc/queue.go:SingleQueue.Run", "conc/queue.go:SingleQueue.Wait"]}
{"id": "C17", "title": "SingleQueue never loses a wake-up", "statement": "If every submitted function terminates, then no call of Run blocks forever: in every reachable state with unfinished work some goroutine can take a step, and every execution ends with all Run calls returned and all jobs finished.", "quantifier": "every number of callers and jobs, every interleaving of goroutines", "why_tests_cant": "a lost wake-up shows only under rare schedules", "anchors": ["conc/queue.go:SingleQueue.Run", "conc/queue.go:SingleQueue.Wait"]}
{"id": "C18", "title": "Log-space addition is exact", "statement": "In exact arithmetic LogSumExp of a non-empty slice of log-probabilities (finite or minus infinity) is the logarithm of the sum of their exponentials, minus infinity exactly if all of them are; LogSumExpPair gives the same for two numbers; both are independent of the order of their arguments.", "quantifier": "every slice length and all values", "why_tests_cant": "infinitely many inputs including infinities", "anchors": ["utils/log.go:LogSumExp", "utils/log.go:LogSumExpPair"]}
{"id": "C19", "title": "Signed log-space addition is exact", "statement": "LogSumLog on values v and signs s in {-1, 0, 1} returns a pair (l, sign) with sign*exp(l) equal to the sum of s[i]*exp(v[i]) in exact arithmetic.", "quantifier": "every slice length, all values and signs", "why_tests_cant": "cancellation cases are a measure-zero set of an infinite domain", "anchors": ["utils/log.go:LogSumLog"]}
{"id": "C20", "title": "Log-space products and sums of probabilities are exact", "statement": "For probabilities p >= 0, exp(LogProd(p...)) is their product and exp(LogSum(p...)) and exp(LogSumPair(p1, p2)) are their sums in exact arithmetic, also when some or all of them are zero.", "quantifier": "every list of non-negative numbers", "why_tests_cant": "zeros and orders of arguments form an infinite domain", "anchors": ["utils/log.go:LogSum", "utils/log.go:LogProd", "utils/log.go:LogSumPair"]}
{"id": "C21", "title": "Trim removes exactly the given value", "statement": "Trim(a, c) returns a slice with exactly the elements of a that differ from c, each as often as in a, and the backing array still holds a permutation of the original elements.", "quantifier": "every slice and every value c", "why_tests_cant": "unbounded slices with any number of occurrences", "anchors": ["utils/log.go:Trim"]}
{"id": "C22", "title": "Union-find maintains the partition", "statement": "After any sequence of MakeSet, Find and Union operations, Find(x) and Find(y) return the same representative exactly if x and y have been connected by the unions performed; Find changes no membership; Union returns nil exactly if its arguments were already connected.", "quantifier": "every number of elements and every sequence of operations", "why_tests_cant": "histories are unbounded; path compression and ranks make the concrete structure depend on the history", "anchors": ["utils/unionfind.go:MakeSet", "utils/unionfind.go:Find", "utils/unionfind.go:Union"]}
{"id": "C23", "title": "UFVarids lists exactly the members of a set", "statement": "After any sequence of union-find operations, UFVarids called on a representative returns the ids of exactly the elements of its set, each exactly once.", "quantifier": "every number of elements and every sequence of operations", "why_tests_cant": "depends on the child lists accumulated over the entire history", "anchors": ["utils/unionfind.go:UFVarids"]}
{"id": "C24", "title": "Independence graphs return the connected components", "statement": "For any outcome of the pairwise independence tests, NewUFIndepGraph and NewIndepGraph return the connected components of the graph linking each pair of variables that the test declares dependent: each variable id occurs in exactly one set, and two variables are in the same set exactly if a chain of dependent pairs links them. The two constructors return the same partition.", "quantifier": "every number of variables, every outcome of the tests", "why_tests_cant": "all dependence relations on all numbers of variables", "anchors": ["utils/indep/indgraph.go:NewIndepGraph", "utils/indep/indgraph.go:NewUFIndepGraph"]}
{"id": "C25", "title": "Normalising weights yields a probability vector", "statement": "learn.Normalize and the normalisation of sum weights by NormalizeSPN turn every weight vector with a positive sum after shifting by a negative minimum into non-negative weights of sum one (exact arithmetic), and do not change a vector that is already such.", "quantifier": "every weight vector of every length, negative entries included", "why_tests_cant": "infinitely many vectors", "anchors": ["learn/derive.go:Normalize", "spn/utils.go:norm", "spn/utils.go:NormalizeSPN"]}
{"id": "C26", "title": "NormalizeSPN normalises every reachable sum node once", "statement": "NormalizeSPN(S) replaces the weights of every sum node reachable from S by their normalised version, exactly once each, and changes neither other nodes nor any edge.", "quantifier": "every finite graph", "why_tests_cant": "all graphs with sharing", "anchors": ["spn/utils.go:NormalizeSPN"]}
{"id": "C27", "title": "Complete and Decomposable decide validity", "statement": "Complete(S) returns true exactly if at every sum node reachable from S all children have the same scope; Decomposable(S) returns true exactly if at every reachable product node the children have pairwise disjoint scopes.", "quantifier": "every SPN DAG", "why_tests_cant": "the defect may sit at any depth of an unbounded family of networks", "anchors": ["spn/utils.go:Complete", "spn/utils.go:Decomposable", "spn/utils.go:ComputeScope"]}
{"id": "C28", "title": "ComputeScope computes scopes", "statement": "After ComputeScope(S), the scope recorded at every node with children reachable from S is, without duplicates, exactly the set of variables of the leaves below it, whatever the iteration order of Go maps; and that is what ComputeScope(S) returns.", "quantifier": "every SPN DAG, every map iteration order", "why_tests_cant": "graph shapes and map orders are unbounded", "anchors": ["spn/utils.go:ComputeScope"]}
{"id": "C29", "title": "Heights are longest paths", "statement": "S.Height() and ComputeHeight(S) both return the number of edges on a longest path from S to a leaf.", "quantifier": "every SPN DAG", "why_tests_cant": "unbounded family of graphs", "anchors": ["spn/node.go:Node.Height", "spn/utils.go:ComputeHeight"]}
{"id": "C30", "title": "Marshal and Unmarshal are inverse", "statement": "Unmarshal(Marshal(S)) returns an SPN with the same graph (same node types, same order of children, same sharing) and the same parameters as S, so that every inference gives the same value.", "quantifier": "every SPN DAG and all parameters", "why_tests_cant": "all graph shapes and all parameter values", "anchors": ["spn/serial.go:Marshal", "spn/serial.go:Unmarshal", "spn/sum.go:Sum.GobEncode", "spn/multinom.go:Multinomial.GobEncode"]}
{"id": "C31", "title": "DeriveSPN computes the partial derivatives", "statement": "After StoreInference and DeriveSPN with a fresh ticket, the entry of every node n reachable from S is the logarithm of the partial derivative of the value of S with respect to the value of n.", "quantifier": "every SPN DAG, every evidence, exact arithmetic, queue or stack as search collection", "why_tests_cant": "derivatives of every network at every point", "anchors": ["learn/derive.go:DeriveSPN"]}
{"id": "C32", "title": "DeriveWeights computes the weight derivatives", "statement": "DeriveWeights stores, for each sum node n reachable from S and each child position j, the logarithm of the partial derivative of the value of S with respect to weight j of n; DeriveWeightsBatch adds that derivative to what the table already holds.", "quantifier": "every SPN DAG, every evidence, exact arithmetic", "why_tests_cant": "derivatives of every network at every point", "anchors": ["learn/derive.go:DeriveWeights", "learn/derive.go:DeriveWeightsBatch"]}
{"id": "C33", "title": "Generative gradient steps follow the gradient", "statement": "DeriveApplyWeights adds to each weight of each reachable sum node exactly the learning rate times the weight's partial derivative as stored, each sum node exactly once, then (if asked) normalises each weight vector; nothing else changes.", "quantifier": "every graph, every table content, every learning rate", "why_tests_cant": "all graphs with sharing and all parameter values", "anchors": ["learn/derive.go:DeriveApplyWeights", "learn/generative.go"]}
{"id": "C34", "title": "Discriminative gradient steps reach every sum node", "statement": "A discriminative gradient step updates the weights of every sum node reachable from the root.", "quantifier": "every SPN with sum nodes below the root", "why_tests_cant": "must hold at all depths of all networks", "anchors": ["learn/discriminative.go:applyDGD"]}
{"id": "C35", "title": "Hidden labels are restored after discriminative learning", "statement": "Discriminative learning takes the query variables Y out of each instance and puts them back: afterwards every instance of the dataset is what it was before.", "quantifier": "every instance and every list of query variables, present or not, repeated or not", "why_tests_cant": "all combinations of instances and query lists", "anchors": ["learn/discriminative.go:pullValues", "learn/discriminative.go:pushValues"]}
{"id": "C36", "title": "Hard derivative counts count MAP passes", "statement": "For a complete and decomposable SPN, each call of DeriveHard adds exactly one to exactly one child position of each sum node on the MAP trace, and nothing elsewhere.", "quantifier": "every complete and decomposable SPN, every evidence, every tie breaking", "why_tests_cant": "random tie breaking and unbounded networks", "anchors": ["learn/derive.go:DeriveHard", "spn/utils.go:TraceMAP"]}
{"id": "C37", "title": "Structure learning yields valid SPNs", "statement": "Every SPN that gens.Learn returns is complete, decomposable, has exactly the variables it was given as scope, has non-negative sum weights that sum to one, and leaf distributions that sum to one, for every outcome of the independence tests and of clustering.", "quantifier": "every dataset, every scope, every outcome of independence tests and clusterings that partition the data", "why_tests_cant": "clustering is random and the recursion depth unbounded", "anchors": ["learn/gens/gens.go:Learn", "learn/gens/gens.go:indepStep", "learn/gens/gens.go:clusterStep", "learn/gens/gens.go:newFullyFactorized"]}
{"id": "C38", "title": "DBSCAN clustering of datasets returns a partition", "statement": "DBSCANData(D, eps, mp) returns, for every dataset, clusters that together contain every instance exactly once, unchanged, two instances being together exactly if the density relation links them.", "quantifier": "every dataset, every eps and mp", "why_tests_cant": "all datasets; depends on representatives chosen by union-find", "anchors": ["utils/cluster/dbscan.go:DBSCANData", "utils/cluster/dbscan.go:dbscanInternal"]}
{"id": "C39", "title": "Cluster assignments are turned into a partition of the data", "statement": "Given any assignment of the n rows to k groups, the conversion back to datasets puts every instance, with exactly its original variables and values, in exactly its group, preserving order.", "quantifier": "every dataset, every assignment, every map iteration order", "why_tests_cant": "all datasets and assignments", "anchors": ["utils/cluster/kmeans.go:KMeansDataI", "utils/cluster/cluster.go:guessToData"]}
{"id": "C40", "title": "Datasets survive conversion to matrices", "statement": "For a dataset whose instances all have the same variables, DataToMatrix returns a matrix and an index map such that row i, column u holds the value of variable S[u] in instance i, every variable has exactly one column; and MatrixToData(CompleteDataToMatrix(D)) = D for datasets on variables 0..m-1.", "quantifier": "every dataset, every map iteration order", "why_tests_cant": "map iteration order is random", "anchors": ["learn/variable.go:DataToMatrix", "learn/variable.go:DataToMatrixF", "learn/variable.go:CompleteDataToMatrix", "learn/variable.go:MatrixToData"]}
{"id": "C41", "title": "Divide splits into balanced chunks", "statement": "Divide(D, L, n) returns n chunks whose sizes differ by at most one, that together contain every instance exactly once with its own label.", "quantifier": "every dataset and label list, every n >= 1", "why_tests_cant": "all lengths and divisors", "anchors": ["data/manipulate.go:Divide"]}
{"id": "C42", "title": "Partition splits by proportions", "statement": "Partition(D, p) for proportions p >= 0 with sum one returns len(p) parts made of new maps that together contain every instance exactly once, the first j parts together containing n*(p1+...+pj) instances up to rounding by at most one half (exact arithmetic).", "quantifier": "every dataset, every proportion vector, every random permutation", "why_tests_cant": "all proportion vectors including exact halves; random permutation", "anchors": ["data/manipulate.go:Partition", "data/manipulate.go:cascadeRounding"]}
{"id": "C43", "title": "PartitionByLabels keeps instances with their labels", "statement": "Every instance in the output of PartitionByLabels(D, L, c, p) carries the label it had in the input, and together the parts contain every instance exactly once; if all proportions of all classes are whole numbers, each part has exactly its proportion of each class.", "quantifier": "every dataset, labels and proportions, every random permutation", "why_tests_cant": "all datasets and permutations", "anchors": ["data/manipulate.go:PartitionByLabels"]}
{"id": "C44", "title": "Label extraction and merging are inverse", "statement": "If the label variable has the largest id of every instance (the documented requirement), ExtractLabels(D) returns the values of that variable and the instances without it, and MergeLabel of the result gives back D; if V.Varid is larger than all ids, ExtractLabels(MergeLabel(D, L, V)) gives back (D, L). The input is not modified and the results are new maps.", "quantifier": "every dataset with non-negative variable ids, every label list, every map iteration order", "why_tests_cant": "all datasets", "anchors": ["data/manipulate.go:ExtractLabels", "data/manipulate.go:MergeLabel"]}
{"id": "C45", "title": "Splitting by label is a partition by label", "statement": "Split(D, c, L) puts each instance, in order, into the list of its label; SubtractLabel separates exactly the instances with the given label from the others, preserving order; Join concatenates.", "quantifier": "every dataset and labels", "why_tests_cant": "all datasets", "anchors": ["data/manipulate.go:Split", "data/manipulate.go:SubtractLabel", "data/manipulate.go:Join"]}
{"id": "C46", "title": "Identical decides equality of datasets", "statement": "Identical(D, E, L, M) returns true exactly if the two datasets have the same instances in the same order and the same labels.", "quantifier": "every pair of datasets", "why_tests_cant": "all pairs", "anchors": ["data/manipulate.go:Identical"]}
{"id": "C47", "title": "Scores count correctly", "statement": "After any sequence of Register, Merge and Clear calls the hits, misses and total of a Score are exactly the numbers of registered predictions that were right, wrong and all; the confusion matrix has in row e, column c the number of predictions c made for label e, its entries sum to the total and its diagonal to the hits.", "quantifier": "every history of score operations", "why_tests_cant": "histories are unbounded", "anchors": ["score/score.go:Score"]}
{"id": "C48", "title": "Adding scores leaves the operands and the result independent", "statement": "Add(t) returns a new score with the sums of both, leaves the operands as they were, and later operations on the operands do not change the result.", "quantifier": "every history of score operations before and after the call", "why_tests_cant": "slice aliasing depends on capacities and therefore on the history", "anchors": ["score/score.go:Score.Add"]}
{"id": "C49", "title": "Evaluation leaves test data as it was and does not fail", "statement": "Evaluate and EvaluatePosterior return for every test set, and afterwards every test instance is what it was before.", "quantifier": "every test set of every size", "why_tests_cant": "sizes and contents are unbounded", "anchors": ["score/score.go:Score.Evaluate", "score/score.go:Score.EvaluatePosterior"]}
{"id": "C50", "title": "Quantile partition covers the data", "statement": "PartitionQuantiles(X, m) returns m pairs of mean and standard deviation of m consecutive non-empty groups that together are exactly X, for every m between 1 and the number of values.", "quantifier": "every slice and every m", "why_tests_cant": "all lengths and divisors", "anchors": ["utils/stats.go:PartitionQuantiles"]}
{"id": "C51", "title": "Multinomial leaves are proper distributions with a true mode", "statement": "NewCountingMultinomial gives strictly positive probabilities (count+1)/(total+categories) that sum to one; NewEmptyMultinomial is uniform; the mode any constructor records is a category of maximal probability, whatever the random tie breaking.", "quantifier": "every count vector, every tie breaking", "why_tests_cant": "all count vectors and random choices", "anchors": ["spn/multinom.go:NewMultinomial", "spn/multinom.go:NewCountingMultinomial", "spn/multinom.go:NewEmptyMultinomial", "spn/multinom.go:computeMode"]}
{"id": "C52", "title": "Distances are metrics", "statement": "HammingDistance and EuclideanDistance on vectors of equal length are metrics: non-negative, zero exactly for equal vectors, symmetric, and satisfying the triangle inequality (exact arithmetic).", "quantifier": "all vectors of all lengths", "why_tests_cant": "infinitely many triples", "anchors": ["utils/cluster/metrics"]}
{"id": "C53", "title": "Region encoding is injective", "statement": "For rectangles within the image, Decode(Encode(x1, y1, x2, y2)) gives back the coordinates, so different rectangles have different codes.", "quantifier": "every image size whose codes fit in 64 bits and every rectangle", "why_tests_cant": "all sizes and coordinates, wrap-around included", "anchors": ["learn/poon/poon.go:Encode", "learn/poon/poon.go:Decode"]}
{"id": "C54", "title": "Balanced class counts", "statement": "The per-class quotas used when reading balanced batches from a npy file sum to the number of instances requested and differ by at most one.", "quantifier": "every number of instances and classes", "why_tests_cant": "all pairs of numbers", "anchors": ["io/npy.go:new_counts"]}
{"id": "C55", "title": "SplitHalf partitions the image", "statement": "SplitHalf returns two evidence maps with disjoint variables that together are the image, for every kind of split and every image size.", "quantifier": "every width, height and image", "why_tests_cant": "all sizes, odd ones included", "anchors": ["io/images.go:SplitHalf"]}
{"id": "C56", "title": "Discriminative steps follow the conditional likelihood gradient", "statement": "A discriminative gradient step moves every weight it updates by the learning rate times dS/dw(y,x)/S(y,x) - dS/dw(x)/S(x), divided by the batch size, less the regularisation term.", "quantifier": "every SPN, every weight index, every stored table content", "why_tests_cant": "real-valued gradients at all indices of all networks", "anchors": ["learn/discriminative.go:applyDGD", "learn/discriminative.go:storeDGD"]}
{"id": "C57", "title": "Copies of datasets are independent", "statement": "Copy(D, L) and SubtractVariable(D, v) return new maps, none of them shared with each other or with D: the copy has the same instances (without v for SubtractVariable) in the same order and the same labels, and the maps of D are as they were.", "quantifier": "every dataset, with and without labels, every variable, every map iteration order, every state of memory", "why_tests_cant": "whether a returned map is shared with the input is only visible after a later write; map iteration order is random", "anchors": ["data/manipulate.go:Copy", "data/manipulate.go:SubtractVariable", "data/manipulate.go:copyMap"]}
{"id": "C58", "title": "Shuffling keeps instances with their labels", "statement": "After Shuffle(D, L) the slice D is a permutation of what it was, L is permuted in the same way, so that the pairs of instance and label are the same as before, and no instance has changed.", "quantifier": "every dataset, with and without labels, every sequence of swaps that rand.Shuffle makes", "why_tests_cant": "the order is random; a test sees few of the n! permutations", "anchors": ["data/manipulate.go:Shuffle"]}
{"id": "C59", "title": "EvaluatePosterior predicts a most probable class", "statement": "For every instance, EvaluatePosterior registers a class between 0 and c - 1 whose probability given the rest of the instance is the greatest among these classes; when the rest of the instance has probability zero it registers some class and does not fail.", "quantifier": "every valid discrete network, every test set and every set of labels", "why_tests_cant": "networks, test sets and parameters are unbounded", "anchors": ["score/score.go:Score.EvaluatePosterior"]}
{"id": "C60", "title": "Mean and standard deviation of counts", "statement": "Mean(c), StdDev(c) and MuSigma(c) are the mean and the standard deviation of a position drawn with probability proportional to its count; MuSigma agrees with the other two exactly.", "quantifier": "every slice of non-negative counts that are not all zero", "why_tests_cant": "all lengths and counts", "anchors": ["utils/stats.go:Mean", "utils/stats.go:StdDev", "utils/stats.go:MuSigma"]}
{"id": "C61", "title": "Completion drawings show every pixel at its place", "statement": "ImgCmplToPGM and ImgCmplToPPM write a valid image: one red row or column through the middle and, around it, every pixel of the image exactly once at its place, in the colour of the original where the original has it and of the completion otherwise, with no sample above the declared maximum.", "quantifier": "every original, completion, kind of split, width and height", "why_tests_cant": "all sizes, odd ones included", "anchors": ["io/pgm.go:ImgCmplToPGM", "io/pbm.go:ImgCmplToPPM"]}
{"id": "C62", "title": "Drawing a state puts every variable at its pixel", "statement": "VarSetToPGM, VarSetToPBM and VarSetToPPM write, whatever the iteration order of the map, the value of variable i as sample i for every state with the variables 0 to n-1.", "quantifier": "every state and every iteration order", "why_tests_cant": "iteration orders cannot be enumerated", "anchors": ["io/pgm.go:VarSetToPGM", "io/pbm.go:VarSetToPBM", "io/ppm.go:VarSetToPPM"]}
{"id": "C63", "title": "Reading npy rows", "statement": "Read(n) and ReadAll of an npy reader return for each row, in file order, the map from column to element for all but the last column, and the last column as label, or an error if the file has too few elements.", "quantifier": "every number of rows and columns and every content", "why_tests_cant": "contents are unbounded", "anchors": ["io/npy.go:read", "io/npy.go:NpyReader.Read", "io/npy.go:NpyReader.ReadAll"]}
{"id": "C64", "title": "Balanced reading takes the quota of every class", "statement": "ReadBalanced(n, c) returns n rows of the file in file order, of which every class has its quota (n/c or one more), whenever the file has that many rows of every class, and an error otherwise, for labels from 0 to c-1.", "quantifier": "every file, every n and c", "why_tests_cant": "contents and orders are unbounded", "anchors": ["io/npy.go:readBalanced", "io/npy.go:NpyReader.ReadBalanced"]}
{"id": "C65", "title": "Contingency tables and the independence graph of observed data", "statement": "For two variables observed over the same rows, the contingency table the independence graph builds holds in cell (i, j) the number of rows with values i and j, and in its last row and column the totals; the groups of the graph built on a dataset are the classes of variables connected by pairs the test calls dependent.", "quantifier": "all numbers of categories, all columns of equal length with values in range, every significance level", "why_tests_cant": "the data are unbounded", "anchors": ["utils/indep/indgraph.go:NewUFIndepGraph", "utils/indep/indgraph.go:NewIndepGraph"]}
{"id": "C66", "title": "Independence test statistics", "statement": "The statistic GTest and ChiSquareTest compute from the contingency table of two observed variables is non-negative and zero exactly when the observed joint frequencies are the products of the marginal frequencies; GTest does not depend on the order of the two variables and calls exactly independent observations independent at every level up to one.", "quantifier": "all numbers of categories and all tables of observed data", "why_tests_cant": "the tables are unbounded, and zero-exactly-when is an inequality over all of them", "anchors": ["utils/indep/gtest.go:GTest", "utils/indep/chisq.go:ChiSquareTest"]}
{"id": "C67", "title": "Gaussian leaves made from data", "statement": "NewGaussianRaw gives a leaf with the mean and standard deviation of its values, NewGaussian a leaf with the mean and standard deviation of the value distributed as the counts, NewGaussianMode one centred on the most frequent value.", "quantifier": "every list of values or counts", "why_tests_cant": "the lists are unbounded", "anchors": ["spn/gaussian.go:NewGaussianRaw", "spn/gaussian.go:NewGaussian", "spn/gaussian.go:NewGaussianMode"]}
{"id": "C68", "title": "A Gaussian leaf is a normal distribution", "statement": "Value of a Gaussian leaf is the log-density of the normal distribution of its mean and deviation for an observed variable and the log of its integral (zero) for an unobserved one; Max is the greatest log-density, and ArgMax an integer of greatest density that keeps observed values.", "quantifier": "every mean, every deviation, every evidence", "why_tests_cant": "means and deviations are a continuum", "anchors": ["spn/gaussian.go:Gaussian.Value", "spn/gaussian.go:Gaussian.Max", "spn/gaussian.go:Gaussian.ArgMax"]}
{"id": "C69", "title": "Generative gradient descent keeps distributions", "statement": "GenerativeGD with a non-negative learning rate finishes; with normalisation every sum node keeps a probability vector as its weights, without it weights stay non-negative; it changes nothing but weights of sum nodes below the root, so a valid network is still a distribution afterwards.", "quantifier": "every network (shared nodes and cycles included), every data set on which leaves have values, every number of iterations, either container", "why_tests_cant": "networks, data sets and iteration counts are unbounded", "anchors": ["learn/generative.go:GenerativeGD"]}
{"id": "C70", "title": "Generative gradient descent is gradient ascent", "statement": "GenerativeGD takes, for every instance in turn and as many times over the data set as P.Iterations says, a step of the learning rate along the gradient of the probability of the instance with respect to all weights at their current values.", "quantifier": "every network, data set, learning rate and number of iterations", "why_tests_cant": "derivatives are defined over a continuum; networks are unbounded", "anchors": ["learn/generative.go:GenerativeGD"]}
{"id": "C71", "title": "Batch gradient descent is regularised gradient ascent over blocks", "statement": "GenerativeBGD cuts the data set into blocks of BatchSize instances and takes one step of L2-regularised gradient ascent per block, along the average of the gradients of its instances; it finishes, changes nothing but weights of sum nodes below the root and keeps probability vectors probability vectors.", "quantifier": "every network, data set, batch size, learning rate, regularisation constant below one half, number of iterations, and order of ranging over Go maps", "why_tests_cant": "derivatives are defined over a continuum; data sets, block boundaries and map orders are unbounded", "anchors": ["learn/generative.go:GenerativeBGD", "learn/generative.go:applyFastGD"]}
{"id": "C72", "title": "Hard gradient descent counts MAP traces", "statement": "GenerativeHardGD and GenerativeHardBGD finish; for every instance (or block of BatchSize instances) they add to each weight the learning rate times the number of MAP traces going through its edge, divided by the weight and the batch size, and subtract the regularisation; nothing but weights of sum nodes changes, positive weights stay positive and probability vectors stay probability vectors.", "quantifier": "every network, data set, batch size, learning rate, regularisation constant below one half, number of iterations, random choice between equally probable children, and order of ranging over Go maps", "why_tests_cant": "data sets, networks, random choices and map orders are unbounded", "anchors": ["learn/generative.go:GenerativeHardGD", "learn/generative.go:GenerativeHardBGD", "learn/generative.go:applyHGD", "learn/generative.go:applyFastHGD"]}
{"id": "C73", "title": "Parameters bound to a node are the ones it learns with", "statement": "After parameters.Bind(n, P), n.Parameters() returns P until n is bound to something else or unbound, whatever happens to other nodes; a node without parameters gets Default ones, which it keeps. Generative(S, D) runs the routine that the parameters bound to S name: gradient descent or expectation maximisation, hard or soft, in batches if BatchSize exceeds one, with their learning rate, regularisation, number of iterations and normalisation. Discriminative(S, D, Y) does likewise.", "quantifier": "every network, node, binding, parameters, sequence of Bind, Unbind and Parameters calls on other nodes, and data set", "why_tests_cant": "the sequences of calls, the bindings and the parameter values are unbounded", "anchors": ["learn/parameters/parameters.go:Bind", "learn/parameters/parameters.go:Retrieve", "spn/node.go:Parameters", "spn/sum.go:Parameters", "learn/generative.go:Generative", "learn/discriminative.go:Discriminative"]}
{"id": "C74", "title": "Parameter learning leaves the structure and the data alone", "statement": "When GenerativeGD, GenerativeBGD, GenerativeHardGD, GenerativeHardBGD, DiscriminativeGD, DiscriminativeBGD, DiscriminativeHardGD or DiscriminativeHardBGD return, the network has the same nodes, children and leaves as before, sum nodes have as many weights as before, and sum nodes that are not below S have the weights they had; the data set holds the instances it held, although the discriminative routines take the query values out of them while they work. DiscriminativeGD and DiscriminativeBGD do return.", "quantifier": "every network, data set, list of query variables, batch size, learning rate, regularisation, number of iterations, random choice, order of ranging over Go maps, and floating point arithmetic (also with NaN or infinite weights)", "why_tests_cant": "networks, data sets, random choices and map orders are unbounded, and the claim is for every floating point outcome", "anchors": ["learn/generative.go:GenerativeGD", "learn/generative.go:GenerativeBGD", "learn/generative.go:GenerativeHardGD", "learn/generative.go:GenerativeHardBGD", "learn/discriminative.go:DiscriminativeGD", "learn/discriminative.go:DiscriminativeBGD", "learn/discriminative.go:DiscriminativeHardGD", "learn/discriminative.go:DiscriminativeHardBGD", "learn/discriminative.go:pullValues", "learn/discriminative.go:pushValues"]}
{"id": "C75", "title": "Hard discriminative learning contrasts MAP traces", "statement": "DiscriminativeHardGD takes, for every instance of every iteration in turn, one step that raises the weights on the edges of a most probable trace of the instance with its labels and lowers those on the edges of a most probable trace of the instance without them: a weight w whose edge is on delta more traces of the first kind than of the second becomes w + eta*delta/w - 2*lambda*w, weights with delta = 0 stay. DiscriminativeHardBGD does so once per block of BatchSize instances of the data set repeated Iterations times, with delta summed over the block and divided by BatchSize. With normalisation the weights of the sum nodes met by a trace are probability vectors afterwards.", "quantifier": "every network, data set, list of query variables, learning rate, regularisation constant, batch size, number of iterations, order of ranging over maps and random tie break", "why_tests_cant": "The effect of a step depends on which of several tied traces is drawn, on the order of ranging over the maps of counts, and on the weights left by all earlier steps; examples cover one draw of one order, and weights that reach zero only after many steps are not seen.", "anchors": ["learn/discriminative.go:DiscriminativeHardGD", "learn/discriminative.go:DiscriminativeHardBGD", "learn/discriminative.go:applyHDGD", "learn/discriminative.go:pullValues", "learn/derive.go:DeriveHard"]}
{"id": "C76", "title": "Poon-Domingos structure learning gives valid networks", "statement": "What poon.Structure returns is a network without cycles that is decomposable (each product has two children, about the two sides of a cut through a rectangle of pixels), complete, and whose variables are the pixels of the image, all of them: no sum that can be reached from the root lacks children.", "quantifier": "every data set, image width and height, number of sums and Gaussians per region, resolution, sequence of random draws, and floating point arithmetic", "why_tests_cant": "the regions grow with the fourth power of the image size and the network depends on every random draw; whether some reachable sum is left without children shows for some draws only", "anchors": ["learn/poon/poon.go:Structure", "learn/poon/poon.go:createRegions", "learn/poon/poon.go:compMap", "learn/poon/poon.go:compUnitRegions", "learn/poon/poon.go:mapInference", "learn/poon/poon.go:maxThroughData"]}
{"id": "C77", "title": "Dennis-Ventura structure learning returns valid networks", "statement": "For complete, non-empty data over at least two variables, dennis.Structure(D, sc, k, m, g, t) returns, and the network has no cycle, no sum or product without children, is complete and decomposable, has exactly the variables of the data, and its weights are distributions, whatever the clusters, thresholds, draws and map orders; this rests on 2-means (from a library) putting at least one variable into each cluster. If it leaves a cluster empty, the network contains a cycle.", "quantifier": "every non-empty complete data set over n >= 2 variables, every k (k-means, a single cluster or DBSCAN), every m, g >= 1, every threshold, map order, random draw and every labelling by the clustering library without empty clusters", "why_tests_cant": "The region graph is shared between recursive expansions for several clusters, and regions of earlier expansions are reused when similar; whether every region gets a partition and no partition is lost (the root and the first region share an id) depends on all expansions. Tests run one data set with one random seed.", "anchors": ["learn/dennis/dennis.go:Structure", "learn/dennis/dennis.go:buildRegionGraph", "learn/dennis/dennis.go:expandRegionGraph", "learn/dennis/dennis.go:buildSPN", "learn/dennis/graph.go:postorder", "learn/dennis/scope.go:similarTo", "learn/dennis/region.go:translate"]}
{"id": "C78", "title": "Value and Max respond to evidence like probabilities", "statement": "Value, Max and ArgMax of a node depend only on the evidence about variables in its scope (bit for bit), and the state ArgMax returns sets only such variables. With discrete leaves and non-negative weights, setting a further variable never raises exp(Value); the probabilities over all values of an unset variable of a valid network add up to the probability without it; with weights that are distributions no probability exceeds one; and Max(I) <= Value(I).", "quantifier": "every network without cycles, node, evidence, extension of the evidence and unset variable", "why_tests_cant": "The claims compare two or more calls on exponentially many pieces of evidence over networks of any shape; a test compares a few pairs on one network.", "anchors": ["spn/sum.go:Value", "spn/product.go:Value", "spn/multinomial.go:Value", "spn/indicator.go:Value", "spn/sum.go:Max", "spn/sum.go:ArgMax", "spn/product.go:ArgMax"]}
{"id": "C79", "title": "KMode and OldKMeans partition the rows, when they return", "statement": "For rectangular data of non-negative integers, KMode(k, data) and OldKMeans(k, data) never panic, and if they return, every row is in exactly one of the k maps under its own number, in the cluster of a centre with the fewest differing positions. The full claim, that they always return, is false: after a removal the new centre is found by comparing counts with values, so the centre need not be the mode and the reassignment can run through the same states forever; and with more clusters than rows the initial draw never ends.", "quantifier": "every rectangular data set of non-negative integers, every 1 <= k, every initial draw of k different rows", "why_tests_cant": "Whether the loop of reassignments ends depends on the whole sequence of states; a test sees a run that ends, or hangs. The data on which it does not end are rare.", "anchors": ["utils/cluster/kmode.go:KMode", "utils/cluster/kmode.go:kModeInsert", "utils/cluster/kmode.go:kModeRemove", "utils/cluster/kmeans.go:OldKMeans", "utils/cluster/kmeans.go:kMeansInsert", "utils/cluster/kmeans.go:kMeansRemove"]}
{"id": "C80", "title": "KMedoid returns k clusters around rows of the data", "statement": "If the data have at least k different rows, KMedoid(k, data) never panics and always returns: every row is in exactly one of the k maps under its own number, no map is empty, and there is one row of each cluster (its medoid) such that every row is in the cluster of a medoid nearest to it. If there are data but fewer than k different rows, it panics. The medoids need not be the rows with the least total distance to their clusters.", "quantifier": "every rectangular data set, every k >= 1, every order of the random draws and every map order", "why_tests_cant": "Termination of the reassignment needs a measure that decreases along every run (the total distance to the medoids); a test only sees runs that end.", "anchors": ["utils/cluster/kmedoid.go:KMedoid", "utils/cluster/kmedoid.go:kMedoidInsert", "utils/cluster/kmedoid.go:kMedoidRemove"]}
{"id": "C81", "title": "OldKMeansF returns clusters of nearest centroids", "statement": "If OldKMeansF(k, D, F) returns, every row is in exactly one of the k maps under its own number, whatever the distance F. With F = EuclideanF and 1 <= k <= len(D) it always returns (in exact arithmetic), and every row is at least as near to the centroid of its own cluster as to the centroids of the others. Clusters may end up empty. With k > len(D) or no rows it panics.", "quantifier": "every matrix with rows of equal length and finite entries, every k, every draw of k different rows; for the partition, every distance and arithmetic", "why_tests_cant": "Lloyd's iteration ends because the total squared distance decreases and there are finitely many assignments; a test sees single runs.", "anchors": ["utils/cluster/kmeans.go:OldKMeansF", "utils/cluster/metrics/euclidean.go:EuclideanF"]}
{"id": "C82", "title": "OPTICS finds density clusters", "statement": "OPTICS(data, eps, mp) returns the noise in its first map and the rows of each dense region in a map of its own. (In the code this fails: if no row has mp other rows within distance eps, exactly one map with all rows under their numbers is returned; as soon as one row has, the call panics. So no call ever returns a cluster.)", "quantifier": "every rectangular integer matrix, every eps and mp, every arithmetic with the IEEE comparisons of infinity, every behaviour of the code after the core distance", "why_tests_cant": "A test on sparse data passes, and a test with one dense region shows one panic; that no input whatsoever yields a cluster needs a proof over all of them.", "anchors": ["utils/cluster/optics.go:OPTICS", "utils/cluster/optics.go:getCoreDist", "utils/cluster/optics.go:getNeighbors", "utils/cluster/optics.go:extract"]}
{"id": "C83", "title": "Library k-means returns the rows of each label", "statement": "KMeans(k, data) and KMeansF(k, data, sc) return k maps; map c holds exactly the rows that the library labelled c, each under its row number, and KMeansF ignores sc. KMeansData and KMeansFData return all rows of the dataset too. (The last part fails: they file row i under the variable of column i, or 0, so every key is 0 or a variable, and rows overwrite one another.)", "quantifier": "every matrix, every labelling by the library with labels 0..k-1, every map order, every arithmetic", "why_tests_cant": "Holds for all labellings; a test with as many rows as variables does not notice the overwritten rows.", "anchors": ["utils/cluster/kmeans.go:KMeans", "utils/cluster/kmeans.go:KMeansF", "utils/cluster/kmeans.go:KMeansMuesli", "utils/cluster/kmeans.go:KMeansMuesliF", "utils/cluster/kmeans.go:KMeansData", "utils/cluster/kmeans.go:KMeansFData"]}
{"id": "C84", "title": "Data files are read as written", "statement": "ParseData returns the declared variables and, for each line of values, the instance in which variable j has the j-th value; ParseDataNL returns the last column as labels instead, and ParseEvidence the labels of its first line too. Values may be separated by commas, blanks or tabs in any number. A line with too few values, or a file without rows, panics. (In the code the first sentence fails for long lines: a line of 65536 or more characters, and every line after it, is silently ignored.)", "quantifier": "every set of variables with distinct numbers, every non-empty list of rows, every choice of separators, all values of 64 bits", "why_tests_cant": "Formats, separators and line lengths are unbounded; a test of a few small files never meets the silent loss of rows after a long line.", "anchors": ["io/input.go:ParseData", "io/input.go:ParseDataNL", "io/input.go:ParseEvidence"]}
{"id": "C85", "title": "Partitioned parsing shares out the rows", "statement": "ParsePartitionedData(file, p, seed) splits the rows of the file: int((1-p)*n) different rows become the test set, without their class value, which is returned as their label at the same position; all other rows become the training set, unchanged and in the order of the file. No row is in both sets or in none. For p in [0,1] the size of the test set is the integer part of (1-p)*n, and at most n; a negative size panics.", "quantifier": "every data file, every p, every sequence of random draws that contains enough different rows", "why_tests_cant": "The split is random: a test sees a few splits, the claim is about all of them.", "anchors": ["io/input.go:ParsePartitionedData"]}
{"id": "C86", "title": "Folders of PGM images become their dataset", "statement": "PGMFToData on a folder with one subfolder of PGM images per class returns width, height and maximum, and writes a file from which ParseData reads exactly the images: a variable with max+1 values for each pixel, the class as the last variable, and one instance per image. The folder 'compiled' and plain files are skipped, blanks and line breaks between pixels do not matter. BufferedPGMFToData gives the same instances in an order that depends on scheduling. Images that VarSetToPGM wrote are such images. A folder without images panics. (In the code this fails for big images: if the values of an image take 65536 characters or more, this image and all after it are lost, and for 32768 or more pixels the file cannot be read at all.)", "quantifier": "every folder listing, every number of classes and images, every PGM text, every scheduling", "why_tests_cant": "Folders, images and schedules are unbounded, and the loss is silent: tests with small images pass.", "anchors": ["io/pgm.go:PGMFToData", "io/pgm.go:BufferedPGMFToData", "io/pgm.go:VarSetToPGM", "io/input.go:ParseData"]}
{"id": "C87", "title": "Folders of PGM images become evidence", "statement": "PGMFToEvidence writes a file from which ParseEvidence reads the pixels of each image and, as labels, the number of the first image of each class. (In the code the pixels are right only for images with single blanks between the values and none at the ends of lines, since every other blank becomes a pixel 0: images that VarSetToPGM wrote are read wrongly. The labels are the size of each class times its number, which is right only if all classes have the same size.)", "quantifier": "every folder listing, every number of classes and images, every PGM text", "why_tests_cant": "A test with tight images and classes of equal size passes; the claim is about all folders.", "anchors": ["io/pgm.go:PGMFToEvidence", "io/input.go:ParseEvidence"]}
{"id": "C88", "title": "Folders of PBM images become their dataset", "statement": "PBMFToData, PBMToData and PBMFToEvidence write files from which ParseData and ParseEvidence read exactly the bits of the images and their classes. Images that VarSetToPBM wrote are such images. (In the code, for PBMToData the class is lost: it is not written unless positive, and then there is no variable for it. For 32768 or more pixels the file of PBMFToData cannot be read.)", "quantifier": "every folder listing, every number of classes and images, every PBM text, every class", "why_tests_cant": "Folders and images are unbounded; that no class whatsoever reaches the dataset is a claim about all of them.", "anchors": ["io/pbm.go:PBMFToData", "io/pbm.go:PBMToData", "io/pbm.go:PBMFToEvidence", "io/pbm.go:VarSetToPBM", "io/input.go:ParseData"]}
{"id": "C89", "title": "ParseArff codes every value so that different values of an attribute stay different", "statement": "For every ARFF file ParseArff returns the name of the relation, one variable for each attribute in order with its name, and one instance for each line of data that gives a value to each attribute and to nothing else. Numbers are kept and the categories of a numeric attribute end just above the largest; the strings of a string attribute get the different codes 0 up to the number of categories; the values of a nominal attribute get the positions of the labels in the definition. Comments, case of keywords, blanks and the kind of separator make no difference. (Fails for values of nominal attributes that are not declared, which includes attributes of the types real and integer; and an empty line adds an instance without values.)", "quantifier": "every relation name, list of attributes, table of values, placement of comments and blanks, every case of the keywords", "why_tests_cant": "The possible headers, tables and layouts are unbounded, and a collision of codes needs a particular mixture of declared and undeclared values; the repository has no test of it.", "anchors": ["io/arff.go:ParseArff"]}
{"id": "C90", "title": "ARFFToData writes a data file that ParseData reads as the coded instances", "statement": "For every strictly written ARFF file of nominal attributes with declared values, ParseData applied to the output of ARFFToData returns a variable for each attribute with as many categories as labels, and for each line the positions of its values. (Fails when there is a blank after a comma in a definition, a keyword in upper case, a trailing empty line, or a value that is not declared.)", "quantifier": "every list of nominal attributes, every table of declared values, every line that is ignored", "why_tests_cant": "A round trip through two text formats over unbounded files; the last value of a line is written twice, which shows only when the file is read back.", "anchors": ["io/arff.go:ARFFToData", "io/input.go:ParseData"]}
{"id": "C91", "title": "ImgClassify counts correct classifications", "statement": "`ImgClassify` returns how many test images it classified correctly and how many there are. For a valid discrete network and labels that are classes, the class it finds for an image is the first one of greatest probability given the pixels, the first number is the number of images whose label is the class found, the second the number of test images, and the test images are left as they were. An image whose pixels have probability zero under the network is never counted as correct. A label outside the classes panics.", "quantifier": "every valid discrete network, test set, class variable and list of labels", "why_tests_cant": "The result depends on the network learned and on numerical comparisons in log space for every class of every test image; tests use one dataset and cannot tell which of several equally probable classes or what happens for images of probability zero.", "anchors": ["app/image.go:ImgClassify", "app/image.go:getValue"]}
{"id": "C92", "title": "Image completion completes the half asked for with a MAP state", "statement": "For an image of w by h pixels (pixel in column x and row y is variable x + y*w) `halfImg` keeps exactly the pixels outside the half named (rows below h/2 are the top, columns below w/2 the left half) with their values, and returns as completion a most probable assignment, given the pixels kept, of exactly the network's other variables.", "quantifier": "every image size, image, half, valid network, map iteration order and tie breaking", "why_tests_cant": "A test fixes one image and one network; that the halves are complementary for odd sizes and the completion is a maximum over exponentially many images needs proof.", "anchors": ["app/image.go:halfImg"]}
{"id": "C93", "title": "Concurrent image jobs write each completion to its own file", "statement": "`ImgCompletion` and `ImgTestParallel` complete every image in a separate goroutine, at most `concurrents` at a time, and write the completions of image id to files with number id: when they return, each image has its own four files, and no file has been overwritten by another image.", "quantifier": "every number of images, number of concurrent jobs and interleaving", "why_tests_cant": "The value of a loop variable captured by goroutines depends on scheduling; a test that happens to see the right file names says nothing about other schedules.", "anchors": ["app/image.go:ImgCompletion", "app/image.go:ImgTestParallel"]}
{"id": "C94", "title": "Learned networks can be handed to the inference routines, ComputeScope and the serialiser", "statement": "A valid network (acyclic, complete, decomposable, only leaves without children) in which no sum has a sum as a child and every product has at least two children has no edge that is bridged by a longer path; nor has a tree. This is the condition under which the iterative topological order lists children first, so on such a network with an inner node as root, and on every finite copy of it: TopSortTarjan lists every node once and after its children, Inference equals Value for all evidence, StoreInference and StoreMAP store the Value and Max of every node whatever the storage was used for before, ComputeScope finds the scope of every node, and what Marshal writes Unmarshal reads back as a copy (up to six decimals). dennis.Structure returns such a network for all complete data; so does poon.Structure for one image, and for several images if no sum is left without children; gens.Learn and gens.LearnGauss return trees whose inner nodes all have children.", "quantifier": "every network, evidence, storage history, ticket and random tie breaking; for dennis every complete data set, cluster counts, similarity threshold and random draws in any arithmetic; for poon every image, size, resolution and draw; for gens every data set, scope and outcome of the independence tests and clusterings", "why_tests_cant": "The routines silently give wrong values on graphs with a bridged edge (C03, C04, C30). Whether structure learning can ever build such a graph is a question about all data sets and all random draws.", "anchors": ["learn/dennis/dennis.go:Structure", "learn/poon/poon.go:Structure", "learn/gens/gens.go:Learn", "learn/gens/gens.go:LearnGauss", "spn/topo.go:TopSortTarjan", "spn/utils.go:Inference", "spn/utils.go:StoreInference", "spn/utils.go:StoreMAP", "spn/utils.go:ComputeScope", "spn/serial.go:Marshal"]}
{"id": "C95", "title": "Concurrent evaluation of a classifier gives the score of the sequential evaluation", "statement": "`S.EvaluatePosteriorConc(D, L, N, classVar, k)` can be used instead of `EvaluatePosterior`: whatever the number k of jobs (k <= 0: the number of processors) and the interleaving of the goroutines, it returns, and then the score has the hits, misses and total that `EvaluatePosterior` gives, and the same predictions up to order; the data set is left as it was.", "quantifier": "every network on which inference is right, data set with labels, number of jobs, number of processors and interleaving", "why_tests_cant": "Lost updates and deadlocks depend on scheduling, and the number of processors on the machine; the division by zero in the progress message only shows for data sets below ten instances.", "anchors": ["score/score.go:EvaluatePosteriorConc", "data/manipulate.go:Divide", "conc/queue.go:Run"]}
{"id": "C96", "title": "Learning structure and weights in one call gives a valid network whose weights are distributions", "statement": "LearnGD of learn/dennis and learn/poon returns a network that is complete and decomposable, alternates sums and products, has exactly the variables of the data, whose weights are not negative and, if normalisation is asked for, sum to one at every sum node, and on which evaluation, most probable explanation, scope computation and serialisation are right. It does so for every learning type, batch size and number of iterations, every learning rate that is not negative and every regularisation constant below one half.", "quantifier": "every complete data set over at least two variables (learn/dennis) or every image of more than one block (learn/poon), every outcome of clustering and of the random draws, every order of ranging over maps, all parameters", "why_tests_cant": "The result is the product of two long randomised phases whose invariants have to meet: what the structure phase leaves must be what the weight updates need. A test sees one seed and one data set and cannot tell that no seed breaks a weight vector.", "anchors": ["dennis.go:LearnGD", "poon.go:LearnGD", "dennis.go:Structure", "poon.go:Structure", "generative.go:Generative", "utils.go:NormalizeSPN"]}
{"id": "C97", "title": "The Gaussian leaves of a learned network describe the data", "statement": "Every leaf that dennis.Structure or poon.Structure makes for a variable is a normal distribution whose mean lies within the values the data has for that variable and whose deviation is positive. With g Gaussians per variable the leaves are those of g quantiles: the values are cut into g parts that are not empty, what is in a part is not larger than what is in a later one, and each leaf has the mean of its part and the deviation of its part (one half if all values are equal).", "quantifier": "every data set, variable, number of Gaussians, and every outcome of clustering and of the random draws", "why_tests_cant": "The means come out of statistics over runs of the data whose meaning differs with the number of instances; the network evaluates without error either way, so only a statement about all data sets shows when a leaf is about the wrong thing.", "anchors": ["dennis.go:Structure", "poon.go:createUnitRegion", "stat.go:PartitionQuantiles", "stat.go:MuSigma", "graph.go:translateRegionGraph"]}
{"id": "C98", "title": "A drawing of a network shows its nodes and links", "statement": "DrawGraph(filename, s) writes a Graphviz file that is a picture of the network s: one vertex for each node below s, labelled + for a sum, \u00d7 for a product and with the variable for a leaf, and one edge for each link from a node to a child, labelled with the weight where the node is a sum. DrawGraphTools(filename, s) writes a Python program that draws the same picture.", "quantifier": "every network without cycles whose sums have one non-negative weight per child, of any size and with any sharing of nodes, every arithmetic in which -1 >= 0 is false", "why_tests_cant": "A test draws one small network, usually a tree, and compares the text. Whether vertices and nodes correspond one to one for every shape of network, in particular when nodes are shared or leaves have the same variable, is a statement about all graphs.", "anchors": ["io/output.go:DrawGraph", "io/output.go:DrawGraphTools"]}
{"id": "C99", "title": "Rounding errors are not amplified by evaluation in log space", "statement": "S.Value(I) and Inference(S, I) on a valid discrete network whose numbers are stored as floats return a number close to the logarithm of the exact probability of the evidence: the error is at most (8K + 5) \u00b7 \u03b5 \u00b7 s \u00b7 (2h + 1), where K bounds the number of children of a sum, s is the number of variables, h the height and \u03b5 the error of one operation on the numbers that occur. It does not depend on the number of nodes or on how small the probability is. The result is minus infinity exactly if the probability is zero.", "quantifier": "every network without cycles, of any size and sharing, evidence, and every arithmetic that follows the standard model of rounding (relative error u, underflow \u03b7, exact on infinities and comparisons)", "why_tests_cant": "A test compares a few values with a tolerance. That the error of the log-sum-exp of a deep shared graph stays proportional to the number of variables times the height, for all weights and all evidence including evidence of probability zero, is a statement about all networks and about all roundings.", "anchors": ["spn/sum.go:Value", "spn/product.go:Value", "spn/utils.go:Inference", "utils/log.go:LogSumExp"]}
{"id": "C100", "title": "Rounding can cost the reported MAP state only a small factor of its probability", "statement": "With numbers stored and computed as floats, S.Max(I) on a valid network is within 3\u00b7\u03b5\u00b7T of its exact value, whatever the number of children of the sums, where \u03b5 bounds the error of one operation on the numbers that occur and T is the number of variables times twice the height plus one; it is minus infinity exactly if the exact value is. If it is not, S.ArgMax(I) returns that number together with a complete state that agrees with the evidence, whose exact MAP value is within 3\u00b7\u03b5\u00b7T of the number, and no state that agrees with the evidence has an exact value larger by more than 6\u00b7\u03b5\u00b7T. This holds also if the mode recorded in a multinomial is not the exact mode because two probabilities round to the same float.", "quantifier": "every acyclic, complete and decomposable network with non-negative weights and discrete leaves, every evidence within the domains, every arithmetic satisfying the standard model of floating point with gradual underflow, every number of children and every depth with 3\u00b7\u03b5\u00b7T at most 1", "why_tests_cant": "a test compares with a state found by the same rounded arithmetic on a small network; whether a wrong branch chosen because of rounding at some depth can make the reported state much less probable than the best one is a statement about all networks and all roundings", "anchors": ["spn/sum.go:Max", "spn/sum.go:ArgMax", "spn/product.go:Max", "spn/product.go:ArgMax", "spn/multinom.go:ArgMax", "spn/indicator.go:ArgMax"]}
{"id": "C101", "title": "Soft discriminative learning follows the conditional gradient of the query variables", "statement": "DiscriminativeGD moves, for every instance in turn and once per iteration over the data set, every weight a of every sum node by eta times the partial derivative of log S(x, y) - log S(x) with respect to that weight at the current weights, less 2 * lambda * a (x the instance without the query variables y), and then normalises the weights if asked. DiscriminativeBGD does the same per block of b instances with the derivatives summed and divided by b. The data set is the same afterwards.", "quantifier": "every network with a sum node as root, every data set, every list of query variables, every learning rate, regularisation constant, batch size and number of iterations", "why_tests_cant": "The steps depend on every earlier one through the weights, and on six tables per instance that are reset in between; a test can compare a few weights on a small network with an expected number, but not establish that the change is the gradient for every network, instance and iteration, nor notice that only the root moves when the root is all there is.", "anchors": ["learn/discriminative.go:DiscriminativeGD", "learn/discriminative.go:DiscriminativeBGD", "learn/discriminative.go:applyDGD", "learn/discriminative.go:storeDGD", "learn/discriminative.go:applyDGDFrom"]}
{"id": "C102", "title": "Marginals of learned networks are the frequencies in the data", "statement": "In the network that gens.Learn returns, the probability of every category of every variable is the share of the instances of the training data that have it, and every leaf is estimated from values that its variable has in the training data, each used at most as often as it occurs.", "quantifier": "every data set whose instances have the same variables, every scope with at least one category per variable, every significance level, number of clusters and DBSCAN parameters", "why_tests_cant": "The structure depends on the outcome of independence tests and clustering at every level, so a test sees the marginals of a few structures only; that weights, cluster sizes, restricted data and counts combine to the frequencies of the whole data set is a claim about all of them.", "anchors": ["learn/gens/gens.go:Learn", "learn/gens/gens.go:newMultinom", "learn/gens/gens.go:newFullyFactorized", "learn/gens/gens.go:indepStep", "learn/gens/gens.go:clusterStep", "spn/multinom.go:NewCountingMultinomial"]}
{"id": "C103", "title": "A learned network gives no possible instance probability zero", "statement": "In the network that gens.Learn returns, every instance, complete or not, whose values are categories of their variables has a probability of at least the product over the set variables of 1/(n + number of categories), n being the number of training instances; so its log-likelihood is finite, whether or not the combination was seen in training.", "quantifier": "every data set, scope, significance level, number of clusters and DBSCAN parameters; every instance with values within the categories", "why_tests_cant": "The bound concerns combinations that do not occur in the data and all structures that learning can come up with; there are exponentially many combinations and tests use a few of those that do occur.", "anchors": ["learn/gens/gens.go:Learn", "learn/gens/gens.go:newMultinom", "learn/gens/gens.go:newFullyFactorized", "spn/multinom.go:NewCountingMultinomial", "spn/multinom.go:Value"]}
{"id": "C104", "title": "Mixtures learned by LearnGauss describe the data", "statement": "Every leaf of the network that gens.LearnGauss returns is a normal distribution with the mean and standard deviation of a quantile of the values that its variable has in (a part of) the training data, the probability of every instance is a number, and the order of the training instances does not matter for the mixture of a single variable.", "quantifier": "every data set with the same variables in every instance, every scope, every number of Gaussians per variable, significance level, number of clusters and DBSCAN parameters", "why_tests_cant": "Whether a quantile is empty depends on how many instances end up in a cluster, which depends on the data; and a test with instances that happen to be sorted, or with as many instances as components, does not show the difference.", "anchors": ["learn/gens/gens.go:LearnGauss", "learn/gens/gens.go:newGaussMix", "learn/gens/gens.go:newFullyFactorized", "utils/stats.go:PartitionQuantiles"]}
{"id": "C105", "title": "Poon-Domingos learning describes an image by the best decomposition of every sum", "statement": "While poon.Structure works on an image, the table of values holds, after the evaluation of a sum with children, the log-probability of the image at every node below it under the network built so far; and the decomposition that it remembers for the sum is the one of largest value among the children of that sum and, if it is not in the network yet, the candidate; and the value kept for the sum is the value of that decomposition.", "quantifier": "every state of the network while it grows, every image, every number of sums per region, all random draws", "why_tests_cant": "The choice is made inside a loop over the sums of a region whose variables carry over from one sum to the next; what goes wrong shows neither as a panic nor as an invalid network, and only in regions where two sums have children already.", "anchors": ["learn/poon/poon.go:compMap", "spn/utils.go:StoreInference"]}
{"id": "C106", "title": "PrintSPN writes a faithful text of the network", "statement": "spn.PrintSPN writes one block for every node below the root and for no other, the root first, each node under a name of its own whose letter tells sums, products and leaves apart; the block of a sum lists its children's names with their weights in order, that of a product its children's names, that of a leaf its two numbers. Two networks with the same text are the same network.", "quantifier": "every network, shared nodes included, and every root", "why_tests_cant": "Tests print a few small networks; that names never collide, that shared nodes are printed once and that the text identifies the network is a claim about all graphs.", "anchors": ["spn/print.go:PrintSPN", "spn/topsort.go:TopSortTarjanFunc"]}
{"id": "C107", "title": "Mean and StdDev of a multinomial are those of its distribution", "statement": "Multinomial.Mean returns the mean of the distribution, Multinomial.StdDev its standard deviation, and Multinomial.MuSigma both.", "quantifier": "every list of probabilities", "why_tests_cant": "The standard deviation happens to be right for uniform distributions, which is what a test is likely to try.", "anchors": ["spn/multinom.go:Mean", "spn/multinom.go:StdDev", "spn/multinom.go:MuSigma"]}
{"id": "C108", "title": "Variables survive gob encoding", "statement": "Decoding what Variable.GobEncode wrote with Variable.GobDecode gives back the variable: its id, its number of categories and its name.", "quantifier": "every variable with 64-bit id and categories and every name", "why_tests_cant": "Tests encode variables with one-word names; which of the infinitely many names survive is decided by how fmt scans blanks and line ends.", "anchors": ["learn/variable.go:GobEncode", "learn/variable.go:GobDecode"]}
{"id": "C109", "title": "The hard sum is the weighted mean of its children", "statement": "Sum.ComputeHard(cv, scount) returns the logarithm of the weights times the children's probabilities, added up and divided by scount, however the weights and values are scaled.", "quantifier": "every sum node, all non-negative weights, all log-probabilities including those of impossible events, every positive constant", "why_tests_cant": "The code rescales by the largest weight; that this cancels for all weights and values is algebra over the reals, not a finite check.", "anchors": ["spn/sum.go:ComputeHard"]}
{"id": "C110", "title": "RandomComb draws a uniform selection of cells", "statement": "sys.RandomComb(u, v, m) returns m different cells of the u by v grid, and every such selection in every order is equally likely if every permutation is.", "quantifier": "all grid sizes, all m up to u*v, every permutation drawn", "why_tests_cant": "Uniformity is a statement about all permutations at once; samples can only suggest it.", "anchors": ["sys/rand.go:RandomComb"]}
{"id": "C111", "title": "Colours are those of their hue, saturation and value", "statement": "hsv2rgb returns the red, green and blue components of a colour given by hue, saturation and value; RandTone and RandColorScale return components from 0 to 255.", "quantifier": "every hue from 0 to 360 degrees, all saturations and values from 0 to 1, all numbers drawn", "why_tests_cant": "A test tries a few hues; one of the six sectors being wrong shows up only if it is tried.", "anchors": ["common/color.go:hsv2rgb", "common/color.go:RandTone", "common/color.go:RandColorScale"]}
{"id": "C112", "title": "Exact completion finds the most probable half of an image", "statement": "completeHalfExact fills in the left half of an image with the most probable values given the right half, each between 0 and sys.Max, the maximum pixel value.", "quantifier": "every network, every image size, every evidence, every sys.Max", "why_tests_cant": "Most probable refers to all completions of all images; a test compares a few with a guess, and the boundary of the values and greedy choices show only on chosen networks.", "anchors": ["app/image.go:completeHalfExact"]}
{"id": "C113", "title": "Sc returns the variables of a node", "statement": "For every node, Sc returns the variables of the leaves below it, whether or not ComputeScope has been called, and however the network has been changed since.", "quantifier": "every acyclic network, every node, every recorded scope", "why_tests_cant": "What Sc returns depends on what was asked before and on what changed since; tests look at a fresh small network.", "anchors": ["spn/sum.go:Sc", "spn/product.go:Sc", "spn/node.go:Sc"]}
{"id": "C114", "title": "Chisquare is the p-value of the test", "statement": "Chisquare(df, cv) is the probability that a chi-square variable with df degrees of freedom is at least cv, and Chisqr(df, cv) the same.", "quantifier": "all degrees of freedom, all real statistics", "why_tests_cant": "The value is an improper integral; a table of a few quantiles says nothing about the remaining arguments, in particular the borders.", "anchors": ["utils/indep/chisq.go:Chisquare", "utils/indep/chisq.go:Chisqr"]}
{"id": "C115", "title": "A saved network computes the same after loading", "statement": "After SaveSPN(name, S) without error, LoadSPN(name) returns a network that gives every evidence the probability and the MAP value that S gives, up to the precision of the file; evidence that was possible stays possible, and rankings of instances that were clear stay.", "quantifier": "every network that the format can hold, all parameters, every evidence, every disk", "why_tests_cant": "The effect of writing six decimals adds up over the network; a test compares a few values of one network with a tolerance it chose.", "anchors": ["io/spn.go:SaveSPN", "io/spn.go:LoadSPN", "spn/serial.go:Marshal", "spn/serial.go:Unmarshal"]}
{"id": "C116", "title": "An npy file can be read in parts", "statement": "On an NpyReader, consecutive calls of Read return consecutive rows, Reset starts again from the first row whatever happened before, and ReadAll returns all rows that are left.", "quantifier": "every file of integers, every sequence of calls with or without errors", "why_tests_cant": "The result of a call depends on the whole history of the reader; tests try one or two calls.", "anchors": ["io/npy.go:NewNpyReader", "io/npy.go:Read", "io/npy.go:ReadAll", "io/npy.go:ReadBalanced", "io/npy.go:Reset"]}
{"id": "C117", "title": "A seed determines the random choices", "statement": "After RefreshRandom(s) the choices that follow are determined by s and the later calls, whatever was drawn before; Seed reports s. ParsePartitionedData with a seed that is not negative splits a file in a way determined by the file, the proportion and the seed, each time it is called. Partition and PartitionByLabels are reproducible in the same way.", "quantifier": "every generator, every state of the program before, every sequence of seeding, drawing and partitioning calls", "why_tests_cant": "Reproducibility is a statement about pairs of executions with different histories; a test runs one history, in which the first call of each kind is the only one.", "anchors": ["sys/rand.go:RefreshRandom", "sys/rand.go:RandIntn", "sys/rand.go:Seed", "io/input.go:ParsePartitionedData", "data/manipulate.go:Partition", "data/manipulate.go:PartitionByLabels"]}
{"id": "C118", "title": "Logging goes to the log file asked for", "statement": "With Verbose set, what Printf and Println print goes to the log file last set by SetLogFile, to standard output if none was set or the empty name was given; each text once and in order. With Verbose unset they print nothing.", "quantifier": "every sequence of SetLogFile (with or without an error), changes of Verbose, Printf and Println", "why_tests_cant": "Which sink receives a text depends on the whole history of calls, including those that failed.", "anchors": ["sys/print.go:SetLogFile", "sys/print.go:LogFile", "sys/print.go:Printf", "sys/print.go:Println"]}
{"id": "C119", "title": "The text of a score says all about its predictions", "statement": "String lists the numbers of right, wrong and all predictions, the accuracy, which is a share between 0 and 1, and every wrong prediction in order; scores with the same text have the same counts and the same wrong predictions. Save writes that text.", "quantifier": "every history of NewScore, Register, Merge and Clear over any number of scores, all integer classes", "why_tests_cant": "That no two different scores share a text ranges over all pairs of histories, and slices are shared between scores after Merge.", "anchors": ["score/score.go:S.String", "score/score.go:S.Save"]}
{"id": "C120", "title": "A network learned in floating point computes a probability distribution up to rounding", "statement": "For a network that the Gens structure learner returns with discrete leaves, there is one probability distribution over the complete instances of the scope such that Value returns, for every evidence, the logarithm of the probability of the evidence up to (8K+5)*eps*T, where K bounds the children of a sum, T is the number of variables times twice the height plus one, and eps is a rounding error of the arithmetic. The probabilities it gives to all complete instances add up to one up to that factor.", "quantifier": "every data set, scope, arithmetic obeying the standard model of rounding in which small whole numbers are exact, choice made by clustering, independence tests and map order, evidence in the categories", "why_tests_cant": "The sum ranges over exponentially many instances, and the error bound over all arithmetics, structures and evidence.", "anchors": ["learn/gens/gens.go:Learn", "spn/sum.go:Sum.Value", "spn/product.go:Product.Value", "spn/multinom.go:NewCountingMultinomial", "utils/log.go:LogSumExp"]}
{"id": "C121", "title": "Downloaded data sets are the published ones, now and later", "statement": "The functions that give a named data set (Digits, Olivetti, Caltech, the MNIST pulls and so on) return the data set published upstream when it can be downloaded, and no data set when it cannot. Once a data set has been downloaded, every later call returns the same data without asking the network. No file that existed before is changed, unless overriding was asked for.", "quantifier": "all file systems, all answers of the network (none, error status, cut off, complete), all URLs and paths, and all sequences of later calls of these functions", "why_tests_cant": "Unit tests would need the network, and see one answer of one server at one time; what a failed or cut off download leaves behind for later calls, for all answers and all later calls, is outside any finite set of runs.", "anchors": ["io/http.go:DownloadFromURL", "data/datasets.go:getDataset", "data/datasets.go:Digits", "data/datasets.go:pullMNIST"]}
{"id": "C122", "title": "Classification in floating point picks a class of nearly greatest probability", "statement": "When ImgClassify is run in float64 with a network learned in float64, the class it gives each test instance is one whose probability given the instance, under the distribution that the learned network stands for, is within a small stated amount of the greatest; so a class that leads by more than that amount is always the one found. The returned counts are the number of instances whose label is that class and the number of instances.", "quantifier": "all learned tree networks, all categorical scopes and data, all class variables, all test instances and labels, and all arithmetics with the stated rounding errors", "why_tests_cant": "Rounding errors depend on every value in the network; tests compare a few predictions with expected labels and cannot bound how far the chosen class can be from the best one.", "anchors": ["app/image.go:ImgClassify", "spn/storer.go:StoreInference", "spn/sum.go:Value", "learn/gens/gens.go:Learn"]}
{"id": "C123", "title": "Line ends do not matter to the readers", "statement": "A text file read by ParseData, ParseDataNL, ParsePartitionedData, ParseEvidence, ParseArff, ARFFToData, or an image read by PGMFToData, PBMFToData and the evidence versions, gives the same result whether its lines end with a newline or with a carriage return and a newline, and whether the last line is ended or not, as long as lines are shorter than 65535 characters.", "quantifier": "all texts with such lines, all folders of such files, all mixtures of line ends", "why_tests_cant": "All texts and all mixtures of line ends; a stray carriage return would end up in the last value of every row only on files of one platform.", "anchors": ["io/input.go:ParseData", "io/input.go:ParseEvidence", "io/arff.go:ParseArff", "io/pgm.go:PGMFToData", "io/pbm.go:PBMFToData"]}
{"id": "C124", "title": "The labels of the test set do not leak into what ImgClassify predicts", "statement": "For a data file and the random numbers drawn for the partition, there is one list of predictions that serves every file differing from the given one only in the classes of the rows that end up in the test set: ImgClassify learns from the same training data, makes the same predictions, and returns the number of them that are the class written in the file, and the size of the test set. ImgBatchClassify returns the sums over its iterations.", "quantifier": "all learning functions, data files, proportions, draws, relabellings of the test rows and numbers of iterations", "why_tests_cant": "It compares the run on one file with the runs on all files that carry other labels; a test sees one labelling, for which a classifier that peeks looks merely good.", "anchors": ["app/image.go:ImgClassify", "app/image.go:ImgBatchClassify", "io/input.go:ParsePartitionedData"]}
{"id": "C125", "title": "Completions of images are not told what they are to complete", "statement": "The picture that ImgCompletion draws of image number id, with one half completed, depends only on the images of other classes and on the other half of that image: whatever stands in the half to be completed, and in the other images of its class, the picture is the same. In ImgTest and ImgTestParallel, which learn from all other images, the picture does not depend on the half to be completed.", "quantifier": "all learning functions, data sets, labels, image numbers, halves, sizes, orders of the maps and tie breaks", "why_tests_cant": "Independence of hidden pixels compares runs on all pairs of data sets; a test with one data set cannot tell a completion that peeks from a good one.", "anchors": ["app/image.go:ImgCompletion", "app/image.go:ImgTest", "app/image.go:ImgTestParallel", "app/image.go:halfImg"]}
{"id": "C126", "title": "The red line divides what was known from what was completed", "statement": "In the pictures of ImgCompletion, ImgTest and ImgTestParallel the red row or column stands between the half that was completed (drawn in green) and the half that was known (drawn in grey).", "quantifier": "all images, halves, widths and heights", "why_tests_cant": "Sizes in use are mostly even, and for those the pictures are right; the claim is about all sizes, halves and contents.", "anchors": ["app/image.go:ImgCompletion", "app/image.go:ImgTest", "app/image.go:ImgTestParallel", "io/pgm.go:ImgCmplToPGM"]}
{"id": "C127", "title": "StoreMAP and image completion in floating point find a nearly most probable state", "statement": "Let the arithmetic satisfy the standard model of floating point (relative error u, absolute error eta, correct comparisons) and let the network store, up to relative errors eps, a complete and decomposable network whose leaves are multinomials or indicators of the value 0 (or of a known variable). If 3*eps*T <= 1, where T is the number of variables times twice the depth plus one, and the exact MAP value is not zero, StoreMAP returns, for every storage and every way of breaking ties, a state that sets exactly the network's variables, agrees with the evidence, and is exceeded in exact probability by no state by a factor of more than exp(6*eps*T). Consequently halfImg completes an image with a state of that quality given the known half.", "quantifier": "all stored networks, evidences, storages reachable by a client, tickets, tie-breaking draws, images and halves", "why_tests_cant": "An error bound over all networks and all tie-breaking draws cannot be sampled; and a test cannot tell a state that is slightly less probable than the best one from a correct one.", "anchors": ["spn/utils.go:StoreMAP", "app/image.go:halfImg"]}
{"id": "C128", "title": "Normalising weights in floating point gives distributions up to rounding", "statement": "Let additions and divisions have relative error u (no overflow, no share of the total below the smallest normal number). learn.Normalize on n numbers, of any sign, returns non-negative weights each of which is its exact share of the total (after the shift that removes negative entries) up to a factor exp(2u(n+3)), so that they add up to one up to that factor; the normalisation of NormalizeSPN does so for non-negative numbers up to exp(2u(n+1)). Consequently, after NormalizeSPN a complete and decomposable network with non-negative weights computes, for every evidence, the logarithm of its probability under one fixed distribution (the one with the exact shares as weights) up to the error bound of C99; with no evidence it returns zero up to that bound.", "quantifier": "all weight vectors, all networks, all evidences, all arithmetics with the stated errors", "why_tests_cant": "Tests see sums such as 0.9999999999999999 and compare with a tolerance picked by hand; they cannot show that the error never grows with the network or the data.", "anchors": ["learn/derive.go:Normalize", "spn/utils.go:norm", "spn/utils.go:NormalizeSPN"]}
{"id": "C129", "title": "A network put together by hand computes what was put together", "statement": "Starting from the nodes that NewSum, NewProduct and the leaf constructors return, every sum and product ends up with exactly the children and weights that AddChild, AddWeight and AddChildW gave to it, in the order of the calls; calls for different nodes can be interleaved in any way without a difference. A sum that is fed with AddChildW only has each child paired with the weight it was given with. The network has no cycle exactly if no call made a node a child of one of its descendants, and then Value returns exactly if every sum below has a child and no fewer weights than children (and every leaf below has a value for the evidence): surplus weights do no harm, a child without a weight makes Value and Max panic for every evidence, and Value never returns on a network with a cycle.", "quantifier": "for all node sets, all programs of AddChild/AddWeight/AddChildW calls, all evidence, all floating-point arithmetics", "why_tests_cant": "The claims are about all programs of calls and all interleavings; a test runs one program, and the reason why a forgotten weight or a cycle shows up only at evaluation needs an argument over all networks.", "anchors": ["spn/sum.go:NewSum", "spn/sum.go:AddWeight", "spn/sum.go:AddChildW", "spn/sum.go:AddChild", "spn/product.go:NewProduct", "spn/product.go:AddChild", "spn/sum.go:Value", "spn/sum.go:Max"]}
{"id": "C130", "title": "The command line does the job its flags describe", "statement": "The command accepts a proportion -p exactly if it is in the range (0, 1) and a number of -iterations exactly if it is positive, and otherwise stops with a message. With accepted flags, -mode=data converts the images in data/DATASET and the modes cmpl and class then work on those images: the file written is the file read, whatever the working directory and the data set are called; the learner gets the -clusters, -pval, -eps and -mp asked for, and every mode other than data runs its job on the data set given by -dataset.", "quantifier": "for all flags, working directories, data set names and folders of images", "why_tests_cant": "The claims are about all combinations of flags and all paths; a test runs one command in one folder.", "anchors": ["main.go:main", "main.go:convertData", "io/input.go:GetDataPath", "io/pgm.go:BufferedPGMFToData", "app/image.go:ImgBatchClassify", "learn/gens/gens.go:Binded"]}
{"id": "C131", "title": "Gradients computed in floating point are accurate", "statement": "Let a network be stored in floating point, with sums of at most K children, weights and probabilities that are zero or not extremely small, s variables, height h and at most D edges into any node, whose inner nodes form a tree or (with a queue) levels. Call StoreInference, DeriveSPN and DeriveWeights in turn with new tickets. Although every addition, logarithm and exponential is rounded, every stored derivative, with respect to the value of a node or to a weight of a sum, is the partial derivative of the exact network up to a relative error of at most 2(8K+5)eps(s(2h+1)+hD), where eps is the error of one operation on the range needed, as long as half of this is at most one; a stored derivative is minus infinity exactly if the partial derivative is zero. In particular errors grow in proportion to the size of the network in these terms and not exponentially with its depth or with the number of paths.", "quantifier": "for all networks with non-negative weights and indicator or multinomial leaves whose inner nodes form a tree or levels, all evidence, all storages, both kinds of search, and every arithmetic that rounds like IEEE floating point", "why_tests_cant": "Tests compare gradients on a few small networks with a tolerance; whether errors can build up over paths, over many parents that add to one entry, or over deep networks, needs an analysis over all networks.", "anchors": ["learn/derive.go:DeriveSPN", "learn/derive.go:DeriveWeights", "utils/log.go:LogSumExpPair", "spn/utils.go:StoreInference"]}
{"id": "C132", "title": "A gradient step does not make its instance less probable", "statement": "A step of `GenerativeGD` with a learning rate that is not negative, taken on an instance, does not lower the probability the network gives this instance: gradient ascent climbs.", "quantifier": "Every network on which values and derivatives are exact, every choice of non-negative weights, every instance, every learning rate, either kind of search, with and without normalisation.", "why_tests_cant": "Whether a step climbs depends on real-valued weights, leaf values and the learning rate together; a test sees one step on one network, and networks on which every step descends look no different from others.", "anchors": ["learn/generative.go:GenerativeGD", "learn/derive.go:DeriveApplyWeights", "learn/derive.go:Normalize"]}
{"id": "C133", "title": "A learning step in floating point moves every weight by what the exact gradient says", "statement": "Evaluating an instance, deriving the network and applying the weight derivatives (StoreInference, DeriveSPN, DeriveApplyWeights), all in rounded arithmetic, completes and changes the weights of sum nodes only. Without normalisation each weight becomes its exact value plus the learning rate times the exact partial derivative of the root's value with respect to it, up to a relative error proportional to the unit roundoff times the size of the network and an absolute error from underflow. With normalisation, the default, the new weights of a sum node are the exact shares of those exact moved weights up to a relative error of the same kind, provided none of them is so small that it underflows.", "quantifier": "for every decomposable acyclic network whose nodes have a scope, stored in any arithmetic whose operations are rounded with relative error u and absolute error eta below overflow, every instance, every learning rate, every earlier use of the storage and both search orders", "why_tests_cant": "A test compares a few weights after a step with a tolerance chosen by its author; that the error cannot build up beyond a stated bound over deep networks, small probabilities and logarithms is a statement about all of them.", "anchors": ["learn/derive.go:DeriveApplyWeights", "learn/derive.go:DeriveSPN", "spn/utils.go:StoreInference", "learn/derive.go:Normalize"]}
{"id": "C134", "title": "Evaluating a network takes work in proportion to its size", "statement": "Networks share nodes, so the number of paths through a network can be exponential in its size. Evaluating a network, finding its maximum and finding a MAP state should nevertheless take a number of steps in proportion to the number of nodes and links below the root.", "quantifier": "for every network (acyclic for the methods that call themselves), root, evidence, storage and arithmetic", "why_tests_cant": "A test can time a few networks; that no network takes longer, or that a family of networks takes exponentially long, is a statement about all sizes.", "anchors": ["spn/utils.go:Inference", "spn/utils.go:StoreInference", "spn/topo.go:TopSortTarjan", "spn/sum.go:Value", "spn/sum.go:Max", "spn/sum.go:ArgMax", "spn/product.go:Value"]}
{"id": "C135", "title": "Structure learning ends", "statement": "Learn, LearnGauss and their concurrent variants come to an end: however the independence tests turn out and in whatever order maps are gone through, nested calls are at most as deep as there are variables plus instances, because each call goes on either with fewer variables or with fewer instances. With DBSCAN this needs only that all instances have the same variables and values that float64 can hold. With k-means it needs that no cluster is given all instances; if the library does this while the variables are found dependent, the call repeats itself with the same arguments without end.", "quantifier": "all scopes and data sets, all outcomes of the independence tests and of the k-means library, all map orders, all nested calls", "why_tests_cant": "A run that does not end is no test result; tests see a few data sets for which the tests of independence and the clustering turn out one way.", "anchors": ["learn/gens/gens.go:Learn", "learn/gens/gens.go:LearnGauss", "learn/gens/gens.go:indepStep", "learn/gens/gens.go:clusterStep"]}
{"id": "C136", "title": "Learned networks stay small", "statement": "The network that Learn returns for n variables and m instances has at most 2nm - 1 nodes, and the one that LearnGauss with g Gaussians per variable returns at most (g + 2)nm - 1, whatever the independence tests and the clustering decide. With DBSCAN this holds whenever all instances have the same variables and values that float64 can hold; with k-means it holds if no sum has a weight of zero, the sign of an empty cluster. The first bound is attained.", "quantifier": "all scopes and data sets, all outcomes of the tests and of clustering, all map orders, all networks that can be returned", "why_tests_cant": "Tests build a few networks; that no data set leads to a network that grows faster than the data is a statement about all of them.", "anchors": ["learn/gens/gens.go:Learn", "learn/gens/gens.go:LearnGauss", "learn/gens/gens.go:newFullyFactorized"]}
{"id": "C137", "title": "Learned networks have no cycles and few levels", "statement": "The network that Learn or LearnGauss returns has no cycle, whatever the independence tests and the clustering decided, so that evaluating it ends. No path from its root has more than n + m - 2 links for n variables and m instances, or n + m - 1 with Gaussian mixtures: with DBSCAN whenever all instances have the same variables and values that float64 can hold, with k-means if no sum has a weight of zero.", "quantifier": "all scopes and data sets, all outcomes of the tests and of clustering, all map orders, all networks that can be returned, all paths", "why_tests_cant": "Tests look at a few networks; the number of levels bounds the stack of the recursive methods and the rounding error for every data set.", "anchors": ["learn/gens/gens.go:Learn", "learn/gens/gens.go:LearnGauss", "learn/gens/gens.go:indepStep", "learn/gens/gens.go:clusterStep"]}
{"id": "C138", "title": "How accurate a learned network is follows from the size of the data", "statement": "For a network that Learn returns in floating point arithmetic, with DBSCAN or such that no sum has a weight of zero, there is a probability distribution on the complete instances, positive everywhere, such that Value returns the logarithm of the probability of any evidence up to an error that is bounded by the number n of variables, the number M of instances and the number of categories alone: (8M + 5)\u00b7\u03b5\u00b7T with T = n(2(n + M - 2) + 1), where \u03b5 is the rounding error of numbers of the size of the values, whatever structure was learned. If the network is a tree, ImgClassify gives each test instance a class whose conditional probability is at most eight times this error below the greatest.", "quantifier": "all data sets, all outcomes of tests and clustering, all learned networks, all evidence, all arithmetics that round as IEEE 754 does", "why_tests_cant": "Tests compare a few values with a tolerance; here the tolerance is computed from the size of the data and holds for every structure that can be learned from data of this size.", "anchors": ["learn/gens/gens.go:Learn", "spn/sum.go:Sum.Value", "spn/product.go:Product.Value", "utils/log.go:LogSumExp", "app/image.go:ImgClassify"]}
{"id": "C139", "title": "ReadFromFile reads a saved network", "statement": "ReadFromFile returns the network that was saved to a file, and leaves the file as it is.", "quantifier": "all networks, all files", "why_tests_cant": "A test that calls it on a file it has just written sees nil; that the file is emptied, for every network and every file, shows only when the file is looked at afterwards.", "anchors": ["io/input.go:ReadFromFile", "io/spn.go:SaveSPN", "io/spn.go:LoadSPN"]}
{"id": "C140", "title": "Near equality of numbers", "statement": "ApproxEqual(a, b, eps) is true exactly if a and b are finite and either equal or less than eps apart, or the same infinity; it is never true of NaN. It does not depend on the order of a and b, a greater eps accepts more, and tolerances add up along a chain of comparisons; but it is not transitive for any positive eps.", "quantifier": "all numbers including infinities and NaN, all finite tolerances", "why_tests_cant": "Tests compare a few pairs; that special values never slip through and that tolerances add up is a statement about all numbers.", "anchors": ["common/equal.go:ApproxEqual"]}
{"id": "C141", "title": "AntiLog and Log undo each other", "statement": "As documented, Log(AntiLog(l)) = l for every l and AntiLog(Log(p)) = p for every p from zero to infinity; for negative p the result is NaN. (In floating point arithmetic the first fails, because different numbers have the same exponential.)", "quantifier": "all numbers including infinities and NaN; all floating point arithmetics", "why_tests_cant": "Tests try a few numbers; the range in which the two functions are inverse is a statement about all of them.", "anchors": ["utils/log.go:AntiLog", "utils/log.go:Log"]}
{"id": "C142", "title": "SampleSPN builds a valid network", "statement": "The network returned by test.SampleSPN is a valid sum-product network: it has no cycle, it is complete and decomposable, its weights and leaves are distributions, and so the probabilities it gives to the complete instances of its four binary variables sum to 1.", "quantifier": "the one network that SampleSPN builds; all sixteen complete instances and all nodes", "why_tests_cant": "The tests in learn use this network as a fixture and print values without checking them; no test looks at the scopes, and single values do not show whether all of them form a distribution.", "anchors": ["test/init.go:SampleSPN", "spn/sum.go:Value", "spn/product.go:Value"]}
{"id": "C143", "title": "DoBFS visits every reachable node once", "statement": "test.DoBFS returns for every graph, callback and collection (nil, queue or stack); it calls the callback on distinct nodes reachable from the root, stops after the first call that returns false, and if none does it has called the callback on every reachable node exactly once.", "quantifier": "all finite graphs (shared children and cycles included), all callbacks with state, all three collections, all roots", "why_tests_cant": "The tests in learn only print from the callback, on one graph of 13 nodes; termination and completeness over all graphs and all callbacks with side effects cannot be enumerated.", "anchors": ["test/init.go:DoBFS"]}
{"id": "C144", "title": "BreadthFirst visits nodes by distance from the root", "statement": "spn.BreadthFirst, and test.DoBFS with no collection or a queue, call the callback on the reachable nodes in the order of their distance (number of edges on a shortest path) from the root, if the callback never stops the search or skips a branch.", "quantifier": "all finite graphs, shared nodes and cycles included, all roots, all callbacks with state that return 0 (true)", "why_tests_cant": "The order has to be right for every graph; graphs with shortcuts between levels are unbounded in number.", "anchors": ["spn/search.go:BreadthFirst", "test/init.go:DoBFS"]}
{"id": "C145", "title": "DepthFirst visits nodes in depth-first order", "statement": "spn.DepthFirst calls the callback in depth-first order: every node after the first is a child of the latest visited node that still has an unvisited child.", "quantifier": "all finite graphs, all roots, all callbacks with state that return 0", "why_tests_cant": "The order has to be right for every graph; a test on a tree passes although graphs with shared nodes fail.", "anchors": ["spn/search.go:DepthFirst", "spn/search.go:searchFunc"]}
{"id": "C146", "title": "testClassify finds no difference", "statement": "testClassify of package app, which stores the values of all nodes with StoreInference and compares each with the node's Value, prints no difference, empties the table of its ticket and leaves the entries of other tickets as they are.", "quantifier": "all acyclic networks, all instances, all storages and tickets with a table, all float arithmetics in which no value of the network is NaN", "why_tests_cant": "Two evaluation orders have to agree on every node of every network; a test looks at single networks, and the function itself only prints.", "anchors": ["app/image.go:testClassify", "spn/utils.go:StoreInference"]}
{"id": "C147", "title": "poon prints the true numbers of nodes", "statement": "The numbers of sums, products and leaves that poon.Test and poon.LearnGD print are the numbers of such nodes reachable from the root, each node counted once.", "quantifier": "all finite graphs, shared nodes included, all node types", "why_tests_cant": "Shared nodes can be counted twice only in graphs of certain shapes; the numbers are only printed, so no test sees them.", "anchors": ["learn/poon/poon.go:Test", "learn/poon/poon.go:LearnGD", "test/init.go:DoBFS"]}
{"id": "C148", "title": "NewNpyReader recognises every integer type and no other", "statement": "The type name of a .npy header is recognised exactly if it names an integer type (byte order, u or i, number of bytes; or uint/int with the number of bits), and the class found tells the sign and the size, so that elements are read with the right width.", "quantifier": "all strings as type names", "why_tests_cant": "There are infinitely many strings to refuse; tests read one or two files whose types are written by numpy.", "anchors": ["io/npy.go:isValid", "io/npy.go:integerType", "io/npy.go:NewNpyReader"]}
