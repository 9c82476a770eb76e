{"id": "C01", "title": "group_by partitions the data", "statement": "Calling group_by on a vector or dataset assigns every element to exactly one group: the indices reported for a key are exactly the positions whose grouper value equals that key, each listed once and in increasing order, and every position 0..n-1 appears under exactly one key.", "quantifier": "every input sequence of every length and every grouper function into any ordered key type", "why_tests_cant": "tests enumerate a few datasets and groupers; the claim is about all sequences and all key functions", "anchors": ["include/albatross/src/indexing/group_by.hpp: IndexerBuilder::build, GroupByBase::indexers"]}
{"id": "C02", "title": "groups, counts and combine lose nothing", "statement": "The groups() of a group_by hold, for every key, exactly the elements with that key in input order (features and targets staying paired); counts() gives the group sizes, which sum to the number of elements; and concatenating all groups (combine) yields a permutation of the input.", "quantifier": "every dataset and grouper function", "why_tests_cant": "needs all sizes and all key collisions patterns", "anchors": ["include/albatross/src/indexing/group_by.hpp: GroupByBase::groups, counts, get_group, combine", "include/albatross/src/core/dataset.hpp: subset, concatenate_datasets"]}
{"id": "C03", "title": "leave-one-out and k-fold groupers", "statement": "Grouping with LeaveOneOutGrouper gives n singleton groups keyed 0..n-1; KFoldGrouper(k) with k>0 puts position i in group i mod k, so it produces min(n,k) non-empty groups whose sizes differ by at most one. KFoldGrouper(0) on non-empty data is a division by zero.", "quantifier": "every n and every k", "why_tests_cant": "sizes are unbounded", "anchors": ["include/albatross/src/indexing/group_by.hpp: IndexerBuilder<LeaveOneOutGrouper>, IndexerBuilder<KFoldGrouper>"]}
{"id": "C04", "title": "cross-validation folds split the data", "statement": "For any group indexer whose groups partition 0..n-1, each produced fold has the group as its test set and exactly the complement as its training set (disjoint, jointly exhaustive, features and targets paired); converting the folds back to an indexer returns the original indexer.", "quantifier": "every dataset, every partition into groups", "why_tests_cant": "all partitions of all sizes", "anchors": ["include/albatross/src/evaluation/folds.hpp: create_fold, folds_from_group_indexer, group_indexer_from_folds"]}
{"id": "C05", "title": "cross-validated predictions come back in dataset order", "statement": "When per-group held-out predictions are stitched together, element i of the output is the prediction made for element i of the dataset, for mean and marginal predictions, whatever the grouping.", "quantifier": "every partition of 0..n-1 into groups and every per-group prediction of matching size", "why_tests_cant": "index arithmetic over arbitrary interleavings of groups", "anchors": ["include/albatross/src/evaluation/cross_validation_utils.hpp: concatenate_mean_predictions, concatenate_marginal_predictions, dataset_size_from_indexer"]}
{"id": "C06", "title": "indices_complement", "statement": "indices_complement(indices, n) returns, sorted and without repeats, exactly those numbers below n that are not in indices; together they cover 0..n-1 and taking the complement twice gives back the sorted distinct in-range part of indices.", "quantifier": "every list of indices (with duplicates, out of range) and every n", "why_tests_cant": "unbounded lists", "anchors": ["include/albatross/src/indexing/subset.hpp: indices_complement, vector_set_difference, set_difference"]}
{"id": "C07", "title": "subset and set_subset", "statement": "subset(v, idx) succeeds exactly when every index is in range (in a debug build anything else is an assertion failure, in an NDEBUG build it is an out-of-bounds read) and then its k-th element is v[idx[k]]; subset of a subset composes indices; set_subset(from, idx, to) followed by subset(to, idx) returns from when idx has no repeats, and leaves all other entries of to alone.", "quantifier": "every vector, matrix and index list", "why_tests_cant": "all sizes and index patterns", "anchors": ["include/albatross/src/indexing/subset.hpp: subset, subset_rows, subset_cols, symmetric_subset, set_subset"]}
{"id": "C08", "title": "set_subset on a diagonal matrix checks its bounds", "statement": "set_subset for diagonal matrices rejects (asserts on) any index that is not below the number of diagonal entries.", "quantifier": "every diagonal matrix, index list", "why_tests_cant": "the failing index lies between n and n*n, which nobody samples; out-of-range writes may go unnoticed", "anchors": ["include/albatross/src/indexing/subset.hpp: set_subset(DiagonalMatrix)"]}
{"id": "C09", "title": "deduplicate", "statement": "deduplicate(dataset) keeps one row per distinct feature: the last occurrence, with its own target, rows staying in their original relative order; a dataset without repeated features is returned unchanged apart from metadata, which is dropped.", "quantifier": "every dataset with any pattern of repeated features", "why_tests_cant": "all repetition patterns", "anchors": ["include/albatross/src/core/dataset.hpp: deduplicate"]}
{"id": "C10", "title": "align_datasets", "statement": "After align_datasets(x, y), the two datasets have the same size and row k of x equals row k of y under the comparison; every matching pair appears exactly once in lexicographic order; when features are unique on each side every common feature appears exactly once, in x order; with no match both are empty.", "quantifier": "every pair of datasets and every comparison predicate", "why_tests_cant": "all sizes and match patterns", "anchors": ["include/albatross/src/core/dataset.hpp: align_datasets"]}
{"id": "C11", "title": "map set-algebra", "statement": "map_union, map_intersect, map_difference, map_symmetric_difference, map_join and the key-set versions produce the pointwise set-algebra result on keys (values from the side documented: union keeps the left value, join the right), as properly ordered maps.", "quantifier": "every pair of maps", "why_tests_cant": "single-pass merge over arbitrary interleavings of keys", "anchors": ["include/albatross/src/utils/map_utils.hpp: detail::map_merge, map_union, map_intersect, map_difference, map_symmetric_difference, map_join, map_join_strict"]}
{"id": "C12", "title": "map_subset", "statement": "map_subset(m, keys) and map_subset_sorted(m, sorted keys) return exactly the entries of m whose key is in keys; map_subset_sorted asserts when its keys are not sorted.", "quantifier": "every map, every key set or sorted key vector (repeats allowed)", "why_tests_cant": "arbitrary interleavings", "anchors": ["include/albatross/src/utils/map_utils.hpp: detail::map_subset_sequence, map_subset, map_subset_sorted"]}
{"id": "C13", "title": "minimum spanning forest (Kruskal)", "statement": "minimum_spanning_forest(graph) returns a sub-list of the graph's edges that is acyclic, connects exactly the pairs of vertices the graph connects, and has total cost no larger than any other such set of edges.", "quantifier": "every finite graph (parallel edges, self loops, disconnected) whose edge endpoints are in its vertex set", "why_tests_cant": "optimality over all edge subsets of all graphs", "anchors": ["include/albatross/src/graph/minimum_spanning_tree.hpp: KruskalAlgoRunner, minimum_spanning_forest"]}
{"id": "C14", "title": "maximum spanning forest", "statement": "maximum_spanning_forest(graph) returns an acyclic, spanning set of the graph's edges with their original costs and the largest possible total cost.", "quantifier": "every finite graph", "why_tests_cant": "optimality over all edge subsets", "anchors": ["include/albatross/src/graph/minimum_spanning_tree.hpp: maximum_spanning_forest"]}
{"id": "C15", "title": "maximum/minimum spanning tree (Prim)", "statement": "maximum_spanning_tree(graph) of a connected graph returns vertices-1 edges of the graph forming a tree that spans every vertex with maximal total cost; minimum_spanning_tree the same with minimal cost.", "quantifier": "every connected finite graph", "why_tests_cant": "optimality over all spanning trees; the failure needs a self loop with the largest cost", "anchors": ["include/albatross/src/graph/minimum_spanning_tree.hpp: maximum_spanning_tree, minimum_spanning_tree"]}
{"id": "C16", "title": "sampling without replacement", "statement": "randint_without_replacement(n, low, high) returns n distinct integers in [low, high] in increasing order for n <= high-low+1, whatever the generator delivers, and random_without_replacement returns n elements at distinct positions.", "quantifier": "every n, low, high and every sequence of generator outputs in range for which the call returns", "why_tests_cant": "all random streams", "anchors": ["include/albatross/src/utils/random_utils.hpp: randint_without_replacement, random_without_replacement"]}
{"id": "C17", "title": "thread-pool apply equals serial apply", "statement": "apply and apply_map with a thread pool return exactly the serial result, in input (key) order, however the pool schedules the tasks; if some tasks throw, the exception raised is the one of the first failing input.", "quantifier": "every input, every pure function, every schedule (order in which tasks run and finish)", "why_tests_cant": "schedules cannot be enumerated", "anchors": ["include/albatross/src/utils/async_utils.hpp: apply, apply_map, should_serial_apply", "include/albatross/src/indexing/apply.hpp"]}
{"id": "C18", "title": "threaded cross-covariance equals serial", "statement": "The cross covariance matrix computed with any number of threads is entry by entry the covariance function of the corresponding features; the column blocks handed to the threads cover every column exactly once.", "quantifier": "every pair of feature vectors, every covariance function, every thread count", "why_tests_cant": "all sizes and thread counts", "anchors": ["include/albatross/src/covariance_functions/callers.hpp: compute_covariance_matrix"]}
{"id": "C19", "title": "threaded symmetric covariance equals serial", "statement": "For a symmetric covariance function the (single argument) covariance matrix computed with any number of threads equals the serial one: entry (i,j) is the covariance of features i and j; the triangular work partition covers every row/column exactly once. For an asymmetric callable both results are symmetric matrices, the serial one mirroring the values below the diagonal and the threaded one those above.", "quantifier": "every feature vector, covariance function, thread count", "why_tests_cant": "all sizes and thread counts", "anchors": ["include/albatross/src/covariance_functions/callers.hpp: compute_covariance_matrix, partition_triangular"]}
{"id": "C20", "title": "sums and products of covariance functions", "statement": "For types where both sides are defined the sum/product evaluates to the sum/product of the two values, otherwise to the defined side; sums and products of symmetric positive semi-definite covariance functions are symmetric positive semi-definite, so every covariance matrix built from them is.", "quantifier": "every pair of covariance functions, every list of features", "why_tests_cant": "positive semi-definiteness quantifies over all point sets", "anchors": ["include/albatross/src/covariance_functions/covariance_function.hpp: SumOfCovarianceFunctions, ProductOfCovarianceFunctions"]}
{"id": "C21", "title": "covariance of composite feature types", "statement": "Calling a covariance function with linear combinations is bilinear in the coefficients, with variants dispatches on the held alternatives, with the arguments swapped gives the same value, and measurement wrappers are transparent unless the function distinguishes measurements.", "quantifier": "every covariance function, every nesting of values", "why_tests_cant": "unbounded nesting and list lengths", "anchors": ["include/albatross/src/covariance_functions/callers.hpp: DirectCaller, SymmetricCaller, MeasurementForwarder, LinearCombinationCaller, VariantForwarder"]}
{"id": "C22", "title": "provided covariance functions are positive semi-definite", "statement": "Constant, polynomial, independent noise, nugget and (real-valued features) squared exponential covariance functions are symmetric and positive semi-definite for every parameter value, and bounded by their value at zero distance.", "quantifier": "every finite set of features, every parameter value", "why_tests_cant": "quantifies over all finite point sets and real weights", "anchors": ["include/albatross/src/covariance_functions/radial.hpp", "include/albatross/src/covariance_functions/polynomials.hpp", "include/albatross/src/covariance_functions/noise.hpp", "include/albatross/src/covariance_functions/nugget.hpp"]}
{"id": "C23", "title": "tunable parameters round trip", "statement": "set_tunable_params_values(p, get_tunable_parameters(p).values) returns p when p's tunable values are within their bounds; the names/values/bounds vectors line up with the non-fixed parameters in key order; fixed parameters are never changed.", "quantifier": "every parameter store with any mix of priors", "why_tests_cant": "all stores", "anchors": ["include/albatross/src/core/parameters.hpp: get_tunable_parameters, set_tunable_params_values"]}
{"id": "C24", "title": "setting tunable parameters keeps them in bounds", "statement": "After set_tunable_params_values with bounds enforced, every tunable parameter lies within its prior's bounds (given lower <= upper) whatever vector was passed, entry k going to the k-th tunable parameter; a vector of the wrong length trips the size assertion without reading out of bounds.", "quantifier": "every parameter store and every vector of doubles", "why_tests_cant": "all vectors incl. wrong lengths", "anchors": ["include/albatross/src/core/parameters.hpp: set_tunable_params_values, ensure_value_within_bounds, params_are_valid"]}
{"id": "C25", "title": "set_param then get_params on composed models", "statement": "After setting parameter k to v on a sum, product or Gaussian process, get_params reports v for k and every other parameter unchanged.", "quantifier": "every composition of parameter holders and every key", "why_tests_cant": "needs name clashes between sub-components", "anchors": ["include/albatross/src/covariance_functions/covariance_function.hpp: get_params, set_param", "include/albatross/src/core/parameter_handling_mixin.hpp: set_param_if_exists_in_any", "include/albatross/src/models/gp.hpp: get_params, set_param"]}
{"id": "C26", "title": "set_params_if_exists", "statement": "set_params_if_exists changes exactly the parameters present in both stores and returns true iff the input is non-empty and all of its keys exist; set_param on a missing key asserts and changes nothing.", "quantifier": "every pair of stores", "why_tests_cant": "all stores", "anchors": ["include/albatross/src/core/parameters.hpp: modify_param, set_param, set_params_if_exists"]}
{"id": "C27", "title": "GP prediction is Gaussian conditioning", "statement": "A fitted Gaussian process predicts mean m(x*)+k*ᵀ(K+R)⁻¹(y-m) and covariance k**-k*ᵀ(K+R)⁻¹k*; the marginal prediction is the diagonal of the joint one and all three prediction forms share the same mean; the joint covariance is positive semi-definite and never exceeds the prior.", "quantifier": "every training set, every prediction set, every covariance", "why_tests_cant": "all matrices", "anchors": ["include/albatross/src/models/gp.hpp: Fit, gp_mean_prediction, gp_marginal_prediction, gp_joint_prediction, _fit_impl, _predict_impl"]}
{"id": "C28", "title": "updating a GP equals refitting", "statement": "Fitting on data A and then updating with data B gives the same predictions as fitting once on A and B together.", "quantifier": "every pair of datasets, every covariance function", "why_tests_cant": "all data; the failure needs a measurement-only noise term", "anchors": ["include/albatross/src/models/gp.hpp: _update_impl"]}
{"id": "C29", "title": "a GP rebuilt from its prediction reproduces it", "statement": "fit_from_prediction(features, prediction) yields a model whose joint prediction at those features is the given mean and covariance.", "quantifier": "every feature set with invertible prior and every joint prediction", "why_tests_cant": "all matrices", "anchors": ["include/albatross/src/models/gp.hpp: gp_fit_from_prediction", "include/albatross/src/covariance_functions/representations.hpp: ExplainedCovariance"]}
{"id": "C30", "title": "closed-form leave-one-out equals refitting", "statement": "The held-out mean and covariance computed from the full inverse equal the conditional distribution of the held-out group given all the others, for every group.", "quantifier": "every positive definite covariance, every target vector, every group", "why_tests_cant": "all matrices and groups", "anchors": ["include/albatross/src/evaluation/cross_validation_utils.hpp: held_out_prediction, leave_one_out_conditional, leave_one_group_out_conditional", "include/albatross/src/models/gp.hpp: gp_cross_validated_predictions"]}
{"id": "C31", "title": "block symmetric solve", "statement": "BlockSymmetric.solve(rhs) is the solution of the full block system [[A,B],[Bᵀ,C]] x = rhs when A and the Schur complement are invertible, whichever constructor was used.", "quantifier": "every size and every block matrix", "why_tests_cant": "all matrices", "anchors": ["include/albatross/src/linalg/block_symmetric.hpp: BlockSymmetric"]}
{"id": "C32", "title": "LDLT square roots and determinants", "statement": "For a decomposition of a positive definite matrix, sqrt_product/sqrt_transpose/sqrt_solve/sqrt_transpose_solve act as one consistent square root R with R Rᵀ = A, log_determinant is log det A, inverse_diagonal and inverse_blocks are the diagonal and diagonal blocks of A⁻¹.", "quantifier": "every positive definite matrix with its pivoted LDLT factors", "why_tests_cant": "all matrices", "anchors": ["include/albatross/src/eigen/serializable_ldlt.hpp"]}
{"id": "C33", "title": "block diagonal operations", "statement": "BlockDiagonal/BlockDiagonalLDLT rows, cols, toDense, diagonal, product, difference, solve, sqrt_solve and log_determinant agree with the dense block diagonal matrix, serially and with any thread schedule.", "quantifier": "every list of square blocks", "why_tests_cant": "all block structures", "anchors": ["include/albatross/src/linalg/block_diagonal.hpp"]}
{"id": "C34", "title": "conditional Gaussian model", "statement": "Conditioning a joint prior on noisy truths of a subset of its indices gives the Gaussian conditional distribution for any requested indices; mean, marginal and joint forms agree.", "quantifier": "every prior, index set and truth", "why_tests_cant": "all matrices", "anchors": ["include/albatross/src/models/conditional_gaussian.hpp"]}
{"id": "C35", "title": "sparse GP equals its low-rank model", "statement": "Sparse GP fit/predict equals exact Gaussian conditioning under the prior covariance Q_ff + blockdiag(K_ff - Q_ff) + R; with inducing points equal to a superset of the training features' span it equals the dense GP.", "quantifier": "every data set, grouping and inducing set with invertible K_uu", "why_tests_cant": "all matrices", "anchors": ["include/albatross/src/models/sparse_gp.hpp: compute_internal_components, _fit_impl, _predict_impl"]}
{"id": "C36", "title": "sparse GP updates equal batch fits", "statement": "Updating a sparse GP group by group gives the same predictions as fitting all groups at once, in any order.", "quantifier": "every sequence of updates", "why_tests_cant": "all histories of updates", "anchors": ["include/albatross/src/models/sparse_gp.hpp: update_in_place, _update_impl"]}
{"id": "C37", "title": "mean functions are honoured by sparse and dense GPs", "statement": "A GP with mean function m fitted on targets y predicts m(x*) plus the zero-mean GP's prediction for y-m, so shifting both the mean function and the targets by the same amount shifts predictions by that amount.", "quantifier": "every mean function, dataset", "why_tests_cant": "needs non-zero mean functions and all data", "anchors": ["include/albatross/src/models/sparse_gp.hpp: compute_internal_components, fit_from_prediction", "include/albatross/src/models/gp.hpp: _fit_impl", "include/albatross/src/covariance_functions/mean_function.hpp"]}
{"id": "C38", "title": "sparse GP log likelihood", "statement": "The sparse GP log likelihood equals the Gaussian log density of the targets under covariance Q_ff + A.", "quantifier": "every dataset", "why_tests_cant": "all matrices", "anchors": ["include/albatross/src/models/sparse_gp.hpp: log_likelihood"]}
{"id": "C39", "title": "GP log likelihood accounts for measurement variance", "statement": "log_likelihood(dataset) is the Gaussian log density of the targets under the covariance used for fitting, i.e. prior covariance plus target variances.", "quantifier": "every dataset with target variances", "why_tests_cant": "needs non-zero target variances", "anchors": ["include/albatross/src/models/gp.hpp: log_likelihood"]}
{"id": "C40", "title": "likelihood functions agree", "statement": "The negative log likelihood of a deviation under a dense covariance, its LDLT, a diagonal covariance and sums of univariate ones agree whenever they describe the same Gaussian.", "quantifier": "every deviation and covariance", "why_tests_cant": "all matrices", "anchors": ["include/albatross/src/evaluation/likelihood.hpp"]}
{"id": "C41", "title": "differential entropy", "statement": "differential_entropy(cov) is the entropy of a Gaussian with that covariance: (k(1+log 2π)+log det cov)/2.", "quantifier": "every covariance", "why_tests_cant": "needs size > 1 and non-unit determinant", "anchors": ["include/albatross/src/evaluation/differential_entropy.hpp"]}
{"id": "C42", "title": "prior log densities", "statement": "Each prior's log_pdf is the logarithm of the normalised density it is named after on its support.", "quantifier": "every parameter of the prior and every x", "why_tests_cant": "needs sigma != 1 or a numerical integral", "anchors": ["include/albatross/src/core/priors.hpp"]}
{"id": "C43", "title": "distribution arithmetic", "statement": "Sums, differences, scalings, affine transforms, subsets and marginals of Marginal/JointDistributions match those of independent Gaussians: marginal of the transformed joint equals the transformed marginal form, subset commutes with marginal, covariance M Σ Mᵀ.", "quantifier": "every distribution, matrix, index list", "why_tests_cant": "all sizes", "anchors": ["include/albatross/src/core/distribution.hpp", "include/albatross/src/core/transformed_distribution.hpp"]}
{"id": "C44", "title": "RANSAC result contract", "statement": "ransac either reports invalid arguments, or an exceeded failure budget, or no consensus, or success; on success the best iteration's candidates, inliers and outliers partition the groups, the consensus has at least min_consensus_size groups, inliers satisfy the threshold, and no recorded iteration with a large enough consensus had a smaller consensus metric. It terminates for every random stream.", "quantifier": "every dataset grouping, metric functions, random stream, iteration limits", "why_tests_cant": "all random histories", "anchors": ["include/albatross/src/models/ransac.hpp: ransac, RansacIteration, RansacOutput"]}
{"id": "C45", "title": "RansacOutput equality", "statement": "Two RansacOutput values compare equal iff return codes, best iterations and iteration lists are equal.", "quantifier": "every pair of outputs", "why_tests_cant": "needs outputs that differ only in one member", "anchors": ["include/albatross/src/models/ransac.hpp: RansacOutput::operator=="]}
{"id": "C46", "title": "ensemble sampler invariants", "statement": "Every state of the ensemble sampler keeps the number of walkers, every walker's stored log probability is finite and equals the objective at its parameters, rejected walkers are unchanged, and the chain has max_iterations+1 states.", "quantifier": "every objective, random stream, number of iterations", "why_tests_cant": "all random histories", "anchors": ["include/albatross/src/samplers/ensemble.hpp: stretch_move_step, ensemble_sampler, split_indices, random_complement"]}
{"id": "C47", "title": "sampler initial states", "statement": "initial_params_from_jitter returns at least 2*dim+1 and at least the requested number of states, the first being the unperturbed parameters; ensure_finite_initial_state returns as many states as it was given, all with finite log probability.", "quantifier": "every parameter vector, jitter stream, objective", "why_tests_cant": "all streams", "anchors": ["include/albatross/src/samplers/initialization.hpp: initial_params_from_jitter, ensure_finite_initial_state"]}
{"id": "C48", "title": "sampler CSV restart", "statement": "Writing sampler states with the CSV callback and reading the file back for initialisation restores exactly the parameter sets of the last iteration written.", "quantifier": "every history of iterations", "why_tests_cant": "all histories", "anchors": ["include/albatross/src/samplers/callbacks.hpp: CsvWritingCallback, write_ensemble_sampler_state", "include/albatross/src/samplers/initialization.hpp: initial_params_from_csv"]}
{"id": "C49", "title": "uniform KS statistic", "statement": "uniform_ks_test(samples) equals the supremum over x of |empirical CDF(x) - x| for samples in [0,1], does not depend on sample order, lies in [0,1], and is 0 for no samples.", "quantifier": "every finite list of samples in [0,1]", "why_tests_cant": "supremum over a continuum and all lists", "anchors": ["include/albatross/src/stats/ks_test.hpp"]}
{"id": "C50", "title": "chi squared CDF and incomplete gamma range", "statement": "chi_squared_cdf is NaN for NaN or negative arguments, 1 for zero degrees of freedom or infinite argument, 0 near zero; the series branch of the incomplete gamma function returns a value in [0,1].", "quantifier": "every argument", "why_tests_cant": "continuum of arguments", "anchors": ["include/albatross/src/stats/chi_squared.hpp", "include/albatross/src/stats/incomplete_gamma.hpp"]}
{"id": "C51", "title": "greedy tuner never makes things worse", "statement": "greedy_tune returns parameters whose objective is the smallest of all the evaluations made, in particular no larger than at the starting point, and returns the starting parameters when nothing better (or only NaN) was found.", "quantifier": "every objective (even NaN valued), every store, every number of iterations", "why_tests_cant": "all objectives", "anchors": ["include/albatross/src/tune/greedy_tuner.hpp: greedy_tune"]}
{"id": "C52", "title": "greedy tuner queries stay in range", "statement": "All values queried for a parameter lie between its bounds, on both sides of the current value.", "quantifier": "every bound pair, value and number of queries", "why_tests_cant": "needs n=1", "anchors": ["include/albatross/src/tune/greedy_tuner.hpp: query_ratios, get_queries"]}
{"id": "C53", "title": "finite difference gradients at bounds", "statement": "compute_gradient reports the one-sided difference quotient pointing into the feasible region when a parameter sits on a bound, so a descent direction at a bound is not hidden.", "quantifier": "every objective and parameter store", "why_tests_cant": "needs a parameter exactly at a bound", "anchors": ["include/albatross/src/tune/finite_difference.hpp: compute_gradient", "include/albatross/src/core/parameters.hpp: set_tunable_params_values"]}
{"id": "C54", "title": "vector tuner starts from the given vector", "statement": "A GenericTuner constructed from a vector of doubles starts optimising at exactly that vector and reports its answer in the same order.", "quantifier": "every initial vector of every length", "why_tests_cant": "fails only for more than ten entries", "anchors": ["include/albatross/src/tune/tune.hpp: uninformative_params, GenericTuner"]}
{"id": "C55", "title": "Chebyshev polynomials", "statement": "chebyshev_t/u evaluate the Chebyshev polynomials of the first/second kind: T_n(cos θ)=cos nθ, U_n(cos θ) sin θ = sin (n+1)θ, and column k of the design matrix is the degree-k polynomial at the inputs.", "quantifier": "every degree n, every real x", "why_tests_cant": "all degrees and a continuum of arguments", "anchors": ["include/albatross/src/polynomial/chebyshev.hpp"]}
{"id": "C56", "title": "length scale derivation inverts process noise", "statement": "The squared exponential and exponential covariance functions derived from a reference distance, prior sigma and process noise reproduce that process noise at the reference distance whenever 0 < noise < sigma; Newton iterates stay inside their bracket.", "quantifier": "every admissible real triple", "why_tests_cant": "continuum", "anchors": ["include/albatross/src/covariance_functions/radial.hpp: derive_squared_exponential_length_scale, derive_exponential_length_scale, newton_solve, process_noise_equivalent"]}
{"id": "C57", "title": "sparse matrices survive serialisation", "statement": "Saving a sparse matrix and loading it back gives the same matrix.", "quantifier": "every sparse matrix", "why_tests_cant": "tests use one random matrix; all shapes and patterns needed", "anchors": ["include/albatross/src/cereal/eigen.hpp: save/load SparseMatrix"]}
{"id": "C58", "title": "dense matrices and triangular factors survive serialisation", "statement": "Saving and loading a dense matrix (any shape, including empty) gives the same matrix; saving the lower triangle of a square matrix and loading it restores size and lower triangle.", "quantifier": "every matrix of every size", "why_tests_cant": "all sizes (size is inferred by a square root)", "anchors": ["include/albatross/src/cereal/eigen.hpp: save, load, save_lower_triangle, load_lower_triangle"]}
{"id": "C59", "title": "compression round trip and error detection", "statement": "decompress(compress(s)) = s, and maybe_decompress returns true only if the whole expected output has been written; unknown or mismatched sizes are reported as failure.", "quantifier": "every byte string, every compressor meeting the zstd contract", "why_tests_cant": "all strings, malformed inputs", "anchors": ["include/albatross/src/utils/compress.hpp"]}
{"id": "C60", "title": "multivariate normal draws have the requested covariance", "statement": "draw_mvn maps standard normal draws through a matrix S with S Sᵀ equal to the covariance that was decomposed; antithetic samples come in pairs symmetric about the mean and there are at least num_samples of them.", "quantifier": "every positive definite matrix, incl. those whose pivoting permutes rows", "why_tests_cant": "needs pivot permutations that are not involutions and statistical tests", "anchors": ["include/albatross/src/evaluation/prediction_metrics.hpp: draw_mvn, antithetic_sample"]}
{"id": "C61", "title": "energy score weights are consistent", "statement": "Both terms of the weighted energy score use the same weighted norm, so scaling coordinates and inverse-scaling weights leaves the score unchanged and the score of a point mass at the truth is zero.", "quantifier": "every weight vector and samples", "why_tests_cant": "needs non-unit weights", "anchors": ["include/albatross/src/evaluation/prediction_metrics.hpp: mean_err_norms, pairwise_errors_paired, energy_score"]}
{"id": "C62", "title": "least squares solves the normal equations", "statement": "A fitted least squares model's coefficients minimise the residual sum of squares, the prediction is the dot product of feature row and coefficients, and LinearRegression fits slope and intercept exactly when data are on a line.", "quantifier": "every design matrix and target vector", "why_tests_cant": "optimality over all coefficient vectors", "anchors": ["include/albatross/src/models/least_squares.hpp"]}
{"id": "C63", "title": "null model parameters", "statement": "A NullModel constructed with a parameter store reports those parameters; it predicts zero mean and variance 1e4 everywhere.", "quantifier": "every parameter store, features", "why_tests_cant": "needs a null model with parameters", "anchors": ["include/albatross/src/models/null_model.hpp", "include/albatross/src/core/parameter_handling_mixin.hpp"]}
{"id": "C64", "title": "CSV output is rectangular", "statement": "write_to_csv writes one header line and one line per feature, all with the same number of fields in the same column order (sorted union of all row keys), missing entries being empty; fields parse back to the row maps when they contain no separators.", "quantifier": "every dataset and prediction", "why_tests_cant": "heterogeneous rows", "anchors": ["include/albatross/src/utils/csv_utils.hpp: get_column_names, write_row, write_header, write_to_csv"]}
{"id": "C65", "title": "linear transforms of features", "statement": "The features M*xs built from a matrix (dense or sparse) have covariance M K Mᵀ and cross covariance M K_xy under every covariance function, and sum/difference/mean have the expected coefficients.", "quantifier": "every matrix, features, covariance function", "why_tests_cant": "all matrices", "anchors": ["include/albatross/src/core/linear_combination.hpp", "include/albatross/src/covariance_functions/callers.hpp: LinearCombinationCaller"]}
{"id": "C66", "title": "mean functions compose and cancel", "statement": "Adding and then removing a mean function is the identity; sums and products of mean functions evaluate pointwise; a zero mean changes nothing.", "quantifier": "every mean function, features, targets", "why_tests_cant": "all functions", "anchors": ["include/albatross/src/covariance_functions/mean_function.hpp"]}
{"id": "C67", "title": "integer casts", "statement": "to_size/to_index/to_double round trip exactly on the accepted ranges and assert outside of them.", "quantifier": "every 64 bit input", "why_tests_cant": "2^64 inputs", "anchors": ["include/albatross/src/details/typecast.hpp"]}
{"id": "C68", "title": "regression metrics", "statement": "RMSE, standard deviation, CRPS and variogram scores are non-negative, zero for perfect predictions where claimed, and invariant under common shifts/permutations.", "quantifier": "every prediction, truth", "why_tests_cant": "all vectors", "anchors": ["include/albatross/src/evaluation/prediction_metrics.hpp"]}
{"id": "C69", "title": "grouped block products", "statement": "block_sum, block_accumulate, block_product, block_inner_product, block_diag_solve and block_subtract equal the dense operations on the stacked blocks.", "quantifier": "every set of keyed blocks", "why_tests_cant": "all block structures", "anchors": ["include/albatross/src/linalg/block_utils.hpp"]}
{"id": "C70", "title": "unique values", "statement": "unique_values returns the set of values, unique_value succeeds exactly when all elements are equal, filter keeps exactly the elements satisfying the predicate in order.", "quantifier": "every vector and predicate", "why_tests_cant": "all vectors", "anchors": ["include/albatross/src/indexing/unique.hpp", "include/albatross/src/indexing/filter.hpp"]}
{"id": "C71", "title": "linspace", "statement": "linspace(a,b,n) has n equally spaced values from a to b inclusive.", "quantifier": "every a,b and n", "why_tests_cant": "n = 1 and n = 0 are edge cases", "anchors": ["include/albatross/src/utils/vector_utils.hpp: linspace"]}
{"id": "C72", "title": "null priors and parameter log likelihood", "statement": "The prior log likelihood of a store is the sum over its parameters and parameters without prior contribute zero; a parameter is valid iff it is within its prior's bounds.", "quantifier": "every store", "why_tests_cant": "all stores", "anchors": ["include/albatross/src/core/parameters.hpp: parameter_prior_log_likelihood, params_are_valid", "include/albatross/src/core/priors.hpp"]}
{"id": "C73", "title": "concatenating datasets", "statement": "Concatenating datasets keeps all rows in order with features and targets paired; reading row i of the result reads row i of the first dataset or row i - n of the second.", "quantifier": "every list of valid datasets", "why_tests_cant": "all sizes", "anchors": ["include/albatross/src/core/dataset.hpp: concatenate_datasets", "include/albatross/src/core/concatenate.hpp: concatenate", "include/albatross/src/core/distribution.hpp: concatenate_marginals"]}
{"id": "C74", "title": "No call outlives a pooled apply", "statement": "When apply or apply_map with a thread pool returns or throws, none of the calls it issued is still queued or running, so a function that captures the caller's locals by reference never touches them afterwards.", "quantifier": "every vector or map of inputs, every function (returning or throwing), every schedule of the pool", "why_tests_cant": "depends on the schedule and on which calls throw; a test that passes proves nothing about other interleavings", "anchors": ["include/albatross/src/utils/async_utils.hpp: apply, apply_map", "include/albatross/src/covariance_functions/callers.hpp: compute_covariance_matrix"]}
{"id": "C75", "title": "scaling terms with measurements", "statement": "A covariance function multiplied by a scaling term scales both arguments whether or not they are wrapped as measurements: k(x, y) times f(x) times f(y) for x and y plain, x wrapped, y wrapped or both, so predictions with measurement noise and sparse models see the same scaled process as the training covariance.", "quantifier": "every scaling function, covariance function and pair of features", "why_tests_cant": "the existing tests only compare predictions of plain features; the claim is over all features and wrappings", "anchors": ["include/albatross/src/covariance_functions/scaling_function.hpp: ScalingTerm, ProductOfCovarianceFunctions", "include/albatross/src/core/fit_model.hpp: predict_with_measurement_noise", "include/albatross/src/models/sparse_gp.hpp: compute_internal_components"]}
{"id": "C76", "title": "rebasing a sparse GP keeps the predictions at the new inducing points", "statement": "rebase_inducing_points(fit, z) (fit_from_prediction) yields a fit whose joint prediction at z is the joint prediction the fit was made from.", "quantifier": "every fit, set of new inducing points and mean function", "why_tests_cant": "all matrices and mean functions; the tests use zero mean functions and tolerances above the nugget", "anchors": ["include/albatross/src/models/sparse_gp.hpp: fit_from_prediction, rebase_inducing_points"]}
{"id": "C77", "title": "sparse GP setters store their argument", "statement": "After set_inducing_point_strategy(s) the model uses s, after set_grouper_function(g) it uses g, and nothing else changes.", "quantifier": "every model, strategy and grouping function", "why_tests_cant": "the setter is a template that is not instantiated by the tests", "anchors": ["include/albatross/src/models/sparse_gp.hpp: set_inducing_point_strategy, set_grouper_function"]}
{"id": "C78", "title": "A RANSAC model is fitted to its consensus", "statement": "After a successful search, fitting a Ransac model fits the wrapped model to a dataset whose rows are exactly the rows of the training data whose group is a candidate or an inlier of the best iteration, each once and with its own target; after any other return code no model is fitted, and the recorded output is that of the search.", "quantifier": "every dataset, grouping function, metric functions, random stream, limits", "why_tests_cant": "all groupings and all random histories", "anchors": ["include/albatross/src/models/ransac.hpp: Ransac::_fit_impl", "include/albatross/src/indexing/subset.hpp: indices_from_groups"]}
{"id": "C79", "title": "Gauss-Legendre tables are a quadrature rule", "statement": "The fifty tabulated Gauss-Legendre points lie strictly inside (-1,1), are distinct and symmetric with equal positive weights, and integrate every polynomial of degree at most 99 over [-1,1] up to 1e-32 times the sum of the absolute coefficients; the affine rescaling used by the incomplete gamma quadrature integrates polynomials over [lb,ub] with the corresponding error, and the recursion computes exactly the rescaled sum.", "quantifier": "every polynomial of degree < 100, every finite interval, every shape parameter", "why_tests_cant": "a single mistyped digit in one of a hundred 32-digit constants is invisible at test tolerances; all polynomials", "anchors": ["include/albatross/src/stats/gauss_legendre.hpp", "include/albatross/src/stats/incomplete_gamma.hpp: incomplete_gamma_quadrature_recursive"]}
{"id": "C80", "title": "tuner objective evaluates the clamped parameters and never reports NaN", "statement": "The objective handed to the optimizer evaluates the user's objective at the store in which every tunable parameter holds its vector entry (on the natural scale, moved to the nearest bound when outside) and all fixed parameters are untouched; it does not trip its validity assertion, never reports NaN (NaN becomes infinity), and its gradient has one entry per tunable parameter, in store order.  For model tuning the value is the aggregate over all datasets of the metric of the model with exactly those parameters; mean_aggregator is the mean.", "quantifier": "every parameter store without NaN and reversed bounds, every vector, every objective (also NaN valued), every list of datasets", "why_tests_cant": "all vectors, including those the optimizer proposes outside of the bounds", "anchors": ["include/albatross/src/tune/tune.hpp: GenericTuner::tune, ModelTuner::tune", "include/albatross/src/tune/tuning_metrics.hpp: mean_aggregator"]}
{"id": "C81", "title": "state space grid of radial covariance functions", "statement": "For every non-empty vector of inputs the grid chosen by _ssr_impl has at least three equally spaced points running from the smallest to the largest input, neighbouring points are at most a tenth (squared exponential) or a twentieth (exponential) of the length scale apart, and every input is close to a grid point.", "quantifier": "every non-empty input vector and positive length scale", "why_tests_cant": "continuum of inputs; the off-by-one between points and gaps only shows for short ranges", "anchors": ["include/albatross/src/covariance_functions/radial.hpp: SquaredExponential::_ssr_impl, Exponential::_ssr_impl"]}
{"id": "C82", "title": "principal square root and Wasserstein distance of joint distributions", "statement": "For positive semidefinite input principal_sqrt returns the positive semidefinite matrix whose square is the input. wasserstein_2 of two joint distributions with positive semidefinite covariances is the least expected squared distance between x and y over all joint covariances with the given marginals; it is non-negative, zero exactly for equal distributions, symmetric, equal to the squared distance of the means for equal covariances, and its square root satisfies the triangle inequality. principal_sqrt clamps only negative eigenvalues that are small compared with the positive ones.", "quantifier": "every dimension, every pair or triple of distributions with positive semidefinite covariance (also singular), every eigen decomposition meeting the contract of the eigen solver", "why_tests_cant": "the tests draw a few random covariances; optimality over all couplings and the triangle inequality range over a continuum", "anchors": ["include/albatross/src/evaluation/prediction_metrics.hpp: distance::detail::principal_sqrt", "include/albatross/src/evaluation/prediction_metrics.hpp: distance::wasserstein_2"]}
{"id": "C83", "title": "distance metrics and distance matrix", "statement": "The Euclidean distance of doubles and of vectors is a metric. The radial distance is a pseudo-metric, zero exactly between vectors of equal norm. The angular distance of two non-zero vectors is the angle between them in radians: exactly when the cosine is not within 1e-16 of 1 or -1, and up to 3e-8 otherwise; it is symmetric, does not depend on the lengths, lies between 0 and pi, satisfies the triangle inequality, and is NaN when a vector is zero. The distance matrix is symmetric and entry (i, j) is the metric of features i and j.", "quantifier": "every dimension, all vectors, every list of features and every metric", "why_tests_cant": "the laws range over all pairs and triples of real vectors; rounding of nearly parallel vectors to a zero angle breaks the triangle inequality only at angles no test samples", "anchors": ["include/albatross/src/covariance_functions/distance_metrics.hpp: EuclideanDistance", "include/albatross/src/covariance_functions/distance_metrics.hpp: RadialDistance", "include/albatross/src/covariance_functions/distance_metrics.hpp: AngularDistance", "include/albatross/src/covariance_functions/distance_metrics.hpp: distance_matrix"]}
{"id": "C84", "title": "stacking matrices and truncated solve", "statement": "vertical_stack puts blocks of equal width below each other in the given order: row i of a block is the row of the output after all the rows of the blocks before it. A block of another width is rejected (undefined behaviour without assertions), an empty list is undefined behaviour. truncated_psd_solve with a positive threshold solves A x = b exactly when every eigenvalue reaches the threshold, returns the least squares solution of smallest length when the other eigenvalues are zero, has a residual of at most threshold times the length of a solution for any positive semidefinite A and b in its range, and does not depend on the choice of eigenvectors.", "quantifier": "every list of matrices; every size, matrix, right hand side, threshold and eigen decomposition meeting the contract", "why_tests_cant": "tests use one matrix; optimality and independence of the eigenvectors range over all vectors and decompositions", "anchors": ["include/albatross/src/utils/eigen_utils.hpp: vertical_stack", "include/albatross/src/utils/eigen_utils.hpp: truncated_psd_solve"]}
{"id": "C85", "title": "converting vectors and datasets to and from variants", "statement": "Converting a vector to variants yields one variant per element in order, whatever the output held before; extracting a type returns exactly the values of that type in order, so converting and extracting is the identity, another type extracts nothing, widening a variant changes nothing that can be extracted, and the counts over all types add up. Extracting from a dataset keeps each value with its own target and variance and drops the metadata.", "quantifier": "every list of alternative types, every vector and dataset", "why_tests_cant": "tests use two or three alternatives and short vectors; alignment of targets must hold for every pattern of types", "anchors": ["include/albatross/src/utils/variant_utils.hpp: set_variants", "include/albatross/src/utils/variant_utils.hpp: to_variant_vector", "include/albatross/src/utils/variant_utils.hpp: extract_from_variants"]}
{"id": "C86", "title": "forms of a prediction and measurement noise", "statement": "A prediction offers the joint form when the model implements it, the marginal form when it implements marginal or joint, the mean when it implements any; an implemented form is used directly, and if the implementations agree all forms agree (in particular for Gaussian processes). Predicting no features gives an empty prediction without calling the model. For a Gaussian process with covariance k + measurement_only(noise), predict_with_measurement_noise has the mean of predict and the covariance of predict plus the covariance of the noise.", "quantifier": "every combination of implemented forms, every list of features, every fit, signal and noise covariance", "why_tests_cant": "the fallbacks are selected at compile time by traits; agreement must hold for every model and input", "anchors": ["include/albatross/src/core/prediction.hpp: MeanPredictor, MarginalPredictor, JointPredictor, Prediction", "include/albatross/src/core/fit_model.hpp: predict_with_measurement_noise"]}
{"id": "C87", "title": "GP RANSAC strategy scores and fits exactly the groups it is given", "statement": "With the GP strategy the inlier metric of a group is the metric of the conditional distribution of that group given the candidate groups, the consensus metric is that of the prior restricted to the members, feature counting counts them, the chi squared validity check accepts exactly below its threshold and unknown groups throw. The final fit is the model fitted to exactly the rows of the consensus. The strategy should see the same predictions as fitting and predicting with the model itself.", "quantifier": "every Gaussian process, dataset, grouping and metric, every set of candidate groups", "why_tests_cant": "tests use one dataset with unique features; agreement with the model fails only when a feature is repeated", "anchors": ["include/albatross/src/models/ransac_gp.hpp: get_gp_ransac_functions, GaussianProcessRansacStrategy", "include/albatross/src/models/ransac.hpp: get_generic_ransac_functions"]}
{"id": "C88", "title": "cross-validated scores hold out exactly the scored rows", "statement": "Cross-validated scores are one per group in key order; each compares the prediction of the group's features by the model fitted to exactly the other rows, in their order, with the group's own targets. Leave one out gives one score per row in dataset order; a grouping function one per distinct value. Scoring folds directly gives the same and predictions of the wrong size are rejected.", "quantifier": "every dataset, model, metric, grouping function and partition into groups", "why_tests_cant": "a misaligned target or a leaked row changes scores by small amounts on well behaved data", "anchors": ["include/albatross/src/evaluation/cross_validation.hpp: CrossValidation::scores", "include/albatross/src/evaluation/cross_validation_utils.hpp: cross_validated_scores", "include/albatross/src/evaluation/folds.hpp: folds_from_group_indexer"]}
{"id": "C89", "title": "leave-one-out model metrics", "statement": "LeaveOneOutLikelihood is minus the sum over the rows of the log density of the target under the held out prediction with the target's variance added, minus the log prior of the parameters; LeaveOneGroupOutLikelihood the same over groups with joint densities; sizes that do not match are rejected. LeaveOneOutRMSE is the root mean square of the leave one out errors.", "quantifier": "every dataset, every model with joint or marginal predictions, every grouping", "why_tests_cant": "tests only compare metrics of different models; a mean of absolute errors passes every such comparison", "anchors": ["include/albatross/src/evaluation/model_metrics.hpp: LeaveOneOutLikelihood, LeaveOneGroupOutLikelihood, LeaveOneOutRMSE", "include/albatross/src/evaluation/prediction_metrics.hpp: negative_log_likelihood, root_mean_square_error"]}
{"id": "C90", "title": "SuiteSparse structures survive serialisation", "statement": "A cholmod_sparse, cholmod_dense, cholmod_common or SerializableSPQR that is saved and loaded again is the one that was saved: dimensions, types, index arrays, column counts, values, settings, factors and permutations agree, for text and binary archives, and saving or loading one never touches memory that does not belong to it.", "quantifier": "every well formed structure, every structure loaded into, both kinds of archive, every build", "why_tests_cant": "tests serialise one decomposition of real matrices whose R factor was never asked for, so complex values, missing arrays and the cached factor are never exercised", "anchors": ["include/albatross/src/cereal/suitesparse.hpp: encode_array, decode_array, save, load", "include/albatross/src/cereal/serializable_spqr.hpp: SerializableSPQR::save, load", "include/albatross/src/eigen/serializable_spqr.hpp: SerializableSPQR"]}
{"id": "C91", "title": "Variants, priors and parameters survive an archive; a bad index is caught only by an assertion and the saved type name is never checked", "statement": "Saving and loading a variant gives back the alternative and the value it held, in both versions of the format, whatever the variant loaded over held before; hence every prior, parameter and parameter store survives. An index outside the alternatives stops a debug build and leaves the target silently unchanged otherwise. The type name that is saved has no influence on loading, so reordering the alternatives makes an archive load as the wrong type.", "quantifier": "all lists of alternatives, all values, both format versions, text and binary archives, all builds; all priors, parameters and stores; all out of range indices", "why_tests_cant": "Tests check a handful of variants; the wrong type after reordering alternatives and the silent behaviour without assertions need archives and builds the tests do not produce.", "anchors": ["include/albatross/src/cereal/variant.hpp:28", "include/albatross/src/cereal/variant.hpp:65", "include/albatross/src/cereal/variant.hpp:79", "include/albatross/src/cereal/priors.hpp:18", "include/albatross/src/cereal/parameters.hpp:18"]}
{"id": "C92", "title": "Distributions, datasets, representations, fits and RANSAC records survive an archive; LDLT norm, sparse fit rank, model configuration and single threads do not", "statement": "Distributions, datasets, linear combinations, permutations, diagonal matrices, block matrices, explained covariances, direct inverses, fits of Gaussian processes and least squares, and RANSAC records survive saving and loading whatever is overwritten. An LDLT keeps its factors but takes the norm behind rcond from the object loaded over. The fit of a sparse Gaussian process has format version 0, so its numerical rank becomes -1 both in the loaded and in the saved object. A model restores parameters and insights only, and aborts on unknown parameters in debug builds; a thread pool of one thread comes back as none; metrics save nothing.", "quantifier": "all matrices that fit a string, all feature types that survive, all objects loaded over, text and binary archives, all builds", "why_tests_cant": "The existing serialisation tests load into default objects and compare with operator==, which does not look at the norm, at the object that was saved, or at configuration outside the parameters.", "anchors": ["include/albatross/src/cereal/gp.hpp:28", "include/albatross/src/cereal/gp.hpp:38", "include/albatross/src/cereal/model.hpp:20", "include/albatross/src/cereal/serializable_ldlt.hpp:18", "include/albatross/src/cereal/ransac.hpp:26", "include/albatross/src/cereal/ThreadPool.hpp:22"]}
{"id": "C93", "title": "The incomplete gamma function is accurate", "statement": "incomplete_gamma(a, z) is the regularised lower incomplete gamma integral, and chi_squared_cdf(x, dof) the chi squared probability, to a stated absolute error: 1e-6 for a below 10 and from 20 on, 3e-6 between 15 and 20, 7e-5 between 10 and 15. For a below 10: the continued fraction with its exact tails equals the integral; cutting it at 54 levels, clamping the denominator and returning one early cost at most 3e-12 exp(z) for z up to 12 and at most 1e-6 everywhere; the value is never below the integral and never above one. From 10 on: the bounds of integration leave out at most 5e-8, and the hundred rounded nodes and weights integrate the density between them to the stated error.", "quantifier": "all real a >= 1/2 and z >= 0; never below: all a in [eps, 10) and z >= eps; the exact fraction for all a > 0, z > 0; an infinite argument for a >= 10", "why_tests_cant": "The error bound ranges over a continuum of shapes and arguments; tests compare a grid of values.", "anchors": ["include/albatross/src/stats/incomplete_gamma.hpp:36-89", "include/albatross/src/stats/incomplete_gamma.hpp:33-34", "include/albatross/src/stats/incomplete_gamma.hpp:91-156", "include/albatross/src/stats/chi_squared.hpp:29-67"]}
{"id": "C94", "title": "Prior bounds agree with the support of the prior density", "statement": "A value has a finite prior log density if and only if it is within the prior's bounds, so a clamped parameter always has a finite log likelihood.", "quantifier": "all priors with finite, ordered parameters and every real value", "why_tests_cant": "The mismatch appears only at particular values: log normal at or below zero, positive below machine epsilon, positive Gaussian with a mean above ten standard deviations.", "anchors": ["include/albatross/src/core/priors.hpp:28-199", "include/albatross/src/core/parameters.hpp:54-58", "include/albatross/src/core/parameters.hpp:156-169"]}
{"id": "C95", "title": "RANSAC entry points: codes, defaults, constructors and the fitted model", "statement": "The name printed for a RANSAC return code is one to one with the code; a default output never counts as success; the RANSAC model's fit holds a fitted inner model exactly when the search succeeded, that fit is the inner model fitted to the selected groups, and predicting through a failed fit stops on the assertion; the short constructor taking only sizes and the short free function run the same search.", "quantifier": "every set of RANSAC functions, every random stream, every configuration, every dataset", "why_tests_cant": "the tests use one configuration that succeeds at once, so the different number of failed candidates the two short forms allow never shows", "anchors": ["include/albatross/src/models/ransac.hpp:59-90", "include/albatross/src/models/ransac.hpp:133-152", "include/albatross/src/models/ransac.hpp:260-276", "include/albatross/src/models/ransac.hpp:327-360", "include/albatross/src/models/ransac.hpp:383-421", "include/albatross/src/models/ransac.hpp:427-504", "include/albatross/src/models/ransac.hpp:508-524"]}
{"id": "C96", "title": "Composed covariance functions: call traces, state space representations and uniform inducing points", "statement": "The call trace of a composed covariance function lists every function in the composition exactly once, parents first, indented by depth and marked with its operator, with its own name and value, so the structure can be read back; the state space representation of a composition is that of its parts one after the other; uniformly spaced inducing points run from the smallest to the largest feature inclusive.", "quantifier": "every composition of sums, products and scaled products, every pair of argument types and values, every list of features", "why_tests_cant": "the tests print a trace without checking it and only concatenate the representations of two plain leaves; names carried by an object, small leaf values and scaled products are never exercised", "anchors": ["include/albatross/src/covariance_functions/call_trace.hpp:18-49", "include/albatross/src/covariance_functions/call_trace.hpp:101-215", "include/albatross/src/covariance_functions/covariance_function.hpp:170-175", "include/albatross/src/covariance_functions/covariance_function.hpp:226-233", "include/albatross/src/covariance_functions/covariance_function.hpp:296-319", "include/albatross/src/covariance_functions/covariance_function.hpp:391-414", "include/albatross/src/covariance_functions/scaling_function.hpp:117-232", "include/albatross/src/models/sparse_gp.hpp:34-47"]}
{"id": "C97", "title": "Operations on groupings return what their names say", "statement": "For a grouping, min and max return the entry with the extreme value (the smallest key among ties) whenever < orders the values; first_value and last_value belong to the smallest and largest key; all, any, sum and mean are those of the values; index_apply, apply and filter act on each group; combine of doubles or vectors appends the values in key order; with(other) pairs each group with the elements of the other container at the same places, with(map) with the entry of its key. Empty groupings, size mismatches and missing keys behave as stated.", "quantifier": "for all maps, key and value types, grouping functions, element lists, joined vectors or maps and both builds", "why_tests_cant": "The claims range over all groupings, all tie patterns and all mismatches; tests sample a few small maps and never exercise NaN, empty groupings or surplus elements.", "anchors": ["include/albatross/src/indexing/group_by.hpp:112-145", "include/albatross/src/indexing/group_by.hpp:192-223", "include/albatross/src/indexing/group_by.hpp:252-307", "include/albatross/src/indexing/group_by.hpp:472-557"]}
{"id": "C98", "title": "cross-validated predictions are those of refitting", "statement": "cross_validate().predict(dataset, groups) gives, per group, the prediction of the group's features by the model fitted to exactly the other rows, as mean, marginal or joint distribution whenever the model can predict that kind; a model's own cross_validated_predictions gives the same; mean() and marginal() are in dataset order; get<T> gives every kind as vector, map or Grouped.", "quantifier": "every model, dataset, partition into groups and kind of prediction", "why_tests_cant": "tests compare a few data sets with small noise; the two ways of computing differ by the noise of the observations, and a template that does not compile is only noticed when used", "anchors": ["include/albatross/src/evaluation/cross_validation.hpp: Prediction<CrossValidation>", "include/albatross/src/evaluation/cross_validation_utils.hpp: get_predict_types", "include/albatross/src/models/gp.hpp: GaussianProcessRegression::cross_validated_predictions"]}
{"id": "C99", "title": "Random matrices and vectors have the structure and law they are asked for", "statement": "random_fill draws each entry once; random_covariance_matrix returns a symmetric matrix whose eigenvalues are the drawn values; random_multivariate_normal returns samples of the normal law with the given mean and covariance, for every covariance; random_sparse_matrix returns a matrix with the asked number of entries at different positions and values in the given range.", "quantifier": "all sizes, engine outputs, distributions, means, covariances and fills", "why_tests_cant": "the law of a sample and termination of the loop that looks for a free position cannot be established from finitely many runs", "anchors": ["include/albatross/src/utils/random_utils.hpp:71-183"]}
{"id": "C100", "title": "The maximum likelihood callback keeps the first best state and reports every improvement", "statement": "Over a whole sampling run MaximumLikelihoodTrackingCallback ends with the greatest log likelihood seen and the parameters of the first state that has it, leaves both untouched if no state beats the starting value, never takes a NaN, and writes exactly one block of text per improvement, in order, holding the iteration, the likelihood and the parameters of that state.", "quantifier": "every set of parameters, every starting value, every sequence of iterations and walkers whose improving states have one entry per non-fixed parameter, both builds", "why_tests_cant": "Tests run one short chain; the claim is about every history, including ties, NaN and infinite likelihoods, and about parameters set repeatedly on an already updated store.", "anchors": ["include/albatross/src/samplers/callbacks.hpp:52-78", "include/albatross/src/core/parameters.hpp:171-195"]}
{"id": "C101", "title": "Printed parameters can be read back", "statement": "pretty_params writes one braced initialiser from which the names and the values of the parameters can be read back in exactly one way; pretty_priors determines names and priors; pretty_param_details writes one aligned line per parameter with its value, validity, prior and bounds.", "quantifier": "every set of parameters", "why_tests_cant": "No test reads the text back; that the text determines the parameters is a statement about all pairs of parameter sets.", "anchors": ["include/albatross/src/core/parameters.hpp:69-115", "include/albatross/src/core/priors.hpp:46-184"]}
{"id": "C102", "title": "Priors and parameters compare equal only if they are the same", "statement": "operator== of priors, parameters and parameter stores holds exactly between equal objects, and operator!= is its opposite.", "quantifier": "every pair of priors, parameters and stores", "why_tests_cant": "Tests compare a handful of priors with round numbers; the comparison of uniform priors goes through six printed digits, which only shows for bounds that differ further down.", "anchors": ["include/albatross/src/core/priors.hpp:38-41", "include/albatross/src/core/priors.hpp:83-184", "include/albatross/src/core/priors.hpp:244-246", "include/albatross/src/core/parameters.hpp:44-52"]}
{"id": "C103", "title": "Printed eigen directions are the extreme eigenpairs, in order, with their largest coefficients first", "statement": "print_small_eigen_directions (print_large_eigen_directions) writes the smallest and the largest eigenvalue of the matrix, then the count smallest (largest) eigenvalues in ascending (descending) order; below each one come exactly those coefficients of a unit eigenvector whose absolute value exceeds the threshold, largest first, each next to the feature of its row. The printed vectors are orthonormal and any eigenvector orthogonal to all of them has an eigenvalue that comes after all printed ones.", "quantifier": "For every symmetric real matrix with at least one row, every list with a feature for each row, every count up to the number of rows, every threshold, both builds, and every eigen solver and sort that keep the promises of Eigen and of the standard (ties in any order).", "why_tests_cant": "Tests print a few matrices and look at the text. They do not show that no eigenvalue is skipped, in particular with repeated eigenvalues, for every size and for every order in which std::sort may leave ties.", "anchors": ["include/albatross/src/linalg/print_eigen_directions.hpp:22-77", "include/albatross/src/linalg/print_eigen_directions.hpp:81-107"]}
{"id": "C104", "title": "Conditional setters change what exists, only the first holder, and say so", "statement": "On an object whose parts do not share parameter names, set_param_value_if_exists and set_param_values_if_exists change the values of the named parameters that exist and nothing else and report whether all of them existed. set_param_if_exists_in_any changes the first of the given objects that has the parameter, no other object, and returns whether there was one; the set_param functions of sums, products and Gaussian processes are this function on their parts. set_params with unknown names aborts a debug build; a release build behaves as set_params_if_exists and drops them silently.", "quantifier": "For every object built from stores, declared parameters, wrappers, sums, products, Gaussian processes and sparse Gaussian processes without shared names, every list of such objects, every name and input map, both builds.", "why_tests_cant": "Tests try a few objects with names present or absent; that nothing else changes, for every nesting and every list of objects, needs an argument over all of them.", "anchors": ["include/albatross/src/core/parameter_handling_mixin.hpp:136-197", "include/albatross/src/models/gp.hpp:261-268", "include/albatross/src/models/sparse_gp.hpp:297-308"]}
{"id": "C105", "title": "A pool made for n threads has n threads, also after saving, and the sparse QR gets the same number", "statement": "make_shared_thread_pool(n) gives a pool for which get_thread_count is n, for n = 0 the number of hardware threads and at least one; it is null exactly for n = 1; apply runs serially exactly when the count is one; saving and loading keeps the count; SPQR_set_threads passes the count on.", "quantifier": "For all n and all values of hardware_concurrency (below 2^31 for the QR).", "why_tests_cant": "Tests build pools of up to 32 threads on one machine; machines that report zero threads and the number the QR ends up with are not observed.", "anchors": ["include/albatross/src/utils/async_utils.hpp:192-229", "include/albatross/src/linalg/spqr_utils.hpp:102-117", "include/albatross/src/cereal/ThreadPool.hpp:22-40"]}
{"id": "C106", "title": "The pivot threshold of the sparse QR is tighter than SuiteSparseQR's and follows the scale of the matrix", "statement": "SPQR_pivot_threshold is below SuiteSparseQR's default threshold and is multiplied by s when the matrix is; a zero matrix counts as one of norm one and columns whose norm is NaN are passed over.", "quantifier": "For all numbers of rows, all column norms, all limits and coefficients.", "why_tests_cant": "The test checks two identity matrices, which have scale one; it cannot show how the threshold depends on the scale.", "anchors": ["include/albatross/src/linalg/spqr_utils.hpp:38-100", "include/albatross/src/linalg/spqr_utils.hpp:119-125"]}
{"id": "C107", "title": "Printing an object writes to the stream it is given, and only there", "statement": "operator<< for edges, graphs, distributions, datasets, measurements, RANSAC iterations and RANSAC outputs appends the printed text to the stream on its left and leaves every other stream unchanged.", "quantifier": "For all streams, all contents of the streams before, all objects and both build types.", "why_tests_cant": "The tests print to std::cout, where writing to the wrong stream cannot be seen, and most operators are never called by a test.", "anchors": ["include/albatross/src/graph/minimum_spanning_tree.hpp:269-283", "include/albatross/src/core/distribution.hpp:286-304", "include/albatross/src/core/dataset.hpp:191-213", "include/albatross/src/covariance_functions/measurement.hpp:31-34", "include/albatross/src/models/ransac.hpp:526-564"]}
{"id": "C108", "title": "The call trace is printed as an aligned table with one line per call", "statement": "print_call_trace writes to std::cout two heading lines and then one line per call of the trace in order; the first column is two characters wider than the longest value, so the function names of all lines start in the same column, and for every trace of a covariance function the headings do as well.", "quantifier": "For all covariance function trees, all arguments and all traces.", "why_tests_cant": "The test only prints the trace and never looks at the text.", "anchors": ["include/albatross/src/covariance_functions/call_trace.hpp:51-71"]}
{"id": "C109", "title": "Every value of a serialised feature becomes a column of the CSV", "statement": "to_map gives, for every value stored in the XML form of a feature, the column whose name is the path of the value joined with dots, holding that value, and no other columns; the row of a dataset keeps these columns.", "quantifier": "For all XML trees in which no element has both text and element children, of any depth.", "why_tests_cant": "The test flattens one feature with three non-empty members whose names differ and have no dots.", "anchors": ["include/albatross/src/utils/csv_utils.hpp:63-126", "include/albatross/src/utils/csv_utils.hpp:128-139"]}
{"id": "C110", "title": "A tuning run stays within the priors, returns the best parameters seen and says why it stopped", "statement": "The default optimizers have one coordinate per parameter that is not fixed with the bounds of its prior, and accept the present values as start. Every run of the tuner evaluates the objective only at stores with the same names, priors and fixed values whose values are within their bounds, returns such a store, the one with the smallest objective if NLopt reports the best vector it saw, and prints every evaluation and the reason of the termination. A ModelTuner does the same with the parameters of its model.", "quantifier": "For all parameter stores with ordered bounds and values within them, all objectives, all behaviours of NLopt (any number of evaluations, each depending on the answers so far, with and without gradients), both build types.", "why_tests_cant": "Tests run a few tuners to convergence with one algorithm each; the behaviour of NLopt on other problems and other ends of a run are not covered.", "anchors": ["include/albatross/src/tune/tune.hpp:21-110", "include/albatross/src/tune/tune.hpp:112-177", "include/albatross/src/tune/tune.hpp:257-301"]}
{"id": "C111", "title": "A prediction is that of the fit it was made from", "statement": "For any model, any program that creates, copies, updates, moves and destroys fitted models and makes predictions from them: a prediction that was made from a fitted model, with or without measurement noise, evaluates to what the model says for the fit it had at that moment; updating a fitted model makes a new one and leaves the old one alone, updating in place turns it into the one that update would make.", "quantifier": "for all models (fit, update and predict functions, and whatever their moves leave behind), all programs of any length, all features", "why_tests_cant": "Life times are a matter of whole programs; a dangling reference to a dead temporary usually still reads the old values in a test, and tests evaluate predictions in the expression that makes them.", "anchors": ["include/albatross/src/core/fit_model.hpp:18-117", "include/albatross/src/core/prediction.hpp:115-236", "include/albatross/src/core/declarations.hpp:58-60"]}
{"id": "C112", "title": "Models that compare equal are the same model", "statement": "If operator== says that two models of the same type are equal, they have the same configuration: the same parameter values in every part, the same name and insights, and the same other members (strategy, configuration, grouper); comparison is an equivalence relation.", "quantifier": "for all Gaussian processes with arbitrarily nested mean and covariance functions, all RANSAC models, all sparse Gaussian processes", "why_tests_cant": "Tests compare a model with a saved and loaded copy; that different models compare equal only shows for members and parameters which the comparison does not see.", "anchors": ["include/albatross/src/core/model.hpp:109-125", "include/albatross/src/core/fit_model.hpp:108-110", "include/albatross/src/models/gp.hpp:155-275", "include/albatross/src/models/ransac.hpp:452-457"]}
{"id": "C113", "title": "Provided functions compute with the parameters they show", "statement": "A covariance or mean function that comes with the library, any sum or product of such functions, and a Gaussian process made of them compute the textbook formula of the parameter values that get_params shows; after set_param or set_params they compute with the new values and otherwise as before. Default constructed objects hold valid parameters with finite prior log likelihood, and whatever finite values the parameters have the covariance is positive semi-definite.", "quantifier": "All types built from SquaredExponential, Exponential, Matern32, Matern52, Constant, Polynomial of any order, IndependentNoise, Nugget, LinearMean and ZeroMean by sums and products, all finite parameter values, all pairs of doubles, all names and new values, both build modes.", "why_tests_cant": "The unit tests evaluate a few fixed compositions with fixed parameters; the tree of sums and products, the order of the polynomial and the values are unbounded, and a composition that uses a name twice looks fine in get_params.", "anchors": ["include/albatross/src/covariance_functions/radial.hpp:132", "include/albatross/src/covariance_functions/polynomials.hpp:31", "include/albatross/src/covariance_functions/noise.hpp:20", "include/albatross/src/covariance_functions/nugget.hpp:32", "include/albatross/src/covariance_functions/mean_function.hpp:145", "include/albatross/src/core/parameter_handling_mixin.hpp:204"]}
{"id": "C114", "title": "Map operations are right for keys of two types and for any comparator", "statement": "For maps with different key types and a comparator object that orders the keys of both types, map_difference, map_symmetric_difference, map_union, map_intersect, map_subset and map_subset_sorted return a map with exactly the entries their comments say, map_difference_keys and map_intersect_keys the keys in order, and map_join a map with the comparator of its second argument; also when the comparator has a state, as long as both maps have the same.", "quantifier": "all comparator types, states, key types, conversions of keys, maps in order and merge functions", "why_tests_cant": "The tests use std::less and std::greater, which have no state, and keys of one type; result maps are made with a default comparator, so entries are lost only for comparators with a state.", "anchors": ["include/albatross/src/utils/map_utils.hpp:113-161", "include/albatross/src/utils/map_utils.hpp:190-270", "include/albatross/src/utils/map_utils.hpp:283-331", "include/albatross/src/utils/map_utils.hpp:393-434", "include/albatross/src/utils/map_utils.hpp:484-506", "include/albatross/src/utils/map_utils.hpp:598-645"]}
{"id": "C115", "title": "A model predicts the textbook posterior for the parameters it was given or tuned to", "statement": "For every Gaussian process whose mean and covariance functions are made from the provided functions, with any of them only for measurements: after set_params, fitting and predicting gives exactly the textbook posterior for the named values set, and for the values shown before where none was set; its covariance is positive semi-definite and never above the prior. Tuning it with the likelihood of the process and then fitting and predicting gives the posterior at parameters within their bounds that make the measurements, with the variances of their targets, most probable among all the parameters tried.", "quantifier": "all sums and products of provided functions, parameters, data, prediction points, and optimizers that report their best point", "why_tests_cant": "Tests check single functions, parameter stores and predictions separately; whether the values in the store are the ones in the kernel that reaches the linear algebra is a statement about all compositions, and the likelihood used for tuning ignores the variances of the targets, which no test varies.", "anchors": ["include/albatross/src/models/gp.hpp:170-463", "include/albatross/src/models/gp.hpp:542-550", "include/albatross/src/covariance_functions/measurement.hpp:71-108", "include/albatross/src/core/parameter_handling_mixin.hpp:103-111", "include/albatross/src/tune/tune.hpp:257-301"]}
{"id": "C116", "title": "A sparse model uses the inducing points and predicts the sparse posterior for the parameters it was given", "statement": "For every sparse Gaussian process a factory makes from provided functions, any grouping function and either inducing point strategy: the model shows the functions' parameters and two nuggets of 1e-8; after set_params, the inducing points cover the training points with a grid for the length scales just set (or evenly with the number asked for), and fitting and predicting gives exactly the posterior of the sparse prior for the named values set, and for the values shown before where none was set; its covariance is positive semi-definite and never above the prior; the log likelihood is the log density of the targets under that prior plus the log density of the parameters.", "quantifier": "all sums and products of provided functions, parameters, nuggets, groupings, strategies, data and prediction points", "why_tests_cant": "Tests compare sparse and dense predictions at a few parameter values; that the grid follows the length scale set last, that both nuggets reach the right matrix, and that the mean function is removed from the targets are statements about all models.", "anchors": ["include/albatross/src/models/sparse_gp.hpp:34-70", "include/albatross/src/models/sparse_gp.hpp:245-308", "include/albatross/src/models/sparse_gp.hpp:381-404", "include/albatross/src/models/sparse_gp.hpp:512-603", "include/albatross/src/models/sparse_gp.hpp:733-792", "include/albatross/src/covariance_functions/radial.hpp:158-168"]}
{"id": "C117", "title": "The likelihood, CRPS and variogram scores are proper, also for a truth measured with noise", "statement": "No prediction has a smaller expected score than the distribution the measured truth comes from. For the negative log likelihood of joint and marginal predictions this holds for every law with finite second moments, and only the right mean and covariance (variances) reach the minimum; for the continuous ranked probability score of a normal prediction it holds for every normal truth, a certain one included, and only the right mean and standard deviation reach it; for the variogram score (both orders, non-negative weights) it holds for every normal truth, a prediction reaches it exactly if it expects the right |X_i - X_j|^p for every pair that has a weight, and a common shift of the predicted means is never noticed. With a measured truth only the sum of the predicted covariance and that of the measurement matters, and the energy score with weights up to one is never negative.", "quantifier": "all sizes, predictions, true laws, noise variances, weights and builds; for the variogram score, standard deviations of a difference that are positive but below 1e-16 are excepted", "why_tests_cant": "Propriety compares expected values over all outcomes for all pairs of distributions; a test sees a few outcomes for a few predictions, and a score that rewards overconfidence a little passes every example.", "anchors": ["include/albatross/src/evaluation/prediction_metrics.hpp:112-128", "include/albatross/src/evaluation/prediction_metrics.hpp:349-364", "include/albatross/src/evaluation/prediction_metrics.hpp:426-435", "include/albatross/src/evaluation/prediction_metrics.hpp:465-520", "include/albatross/src/evaluation/likelihood.hpp:21-85"]}
{"id": "C118", "title": "A Gaussian process predicts as well as can be and states its own error", "statement": "If process values and targets have the mean and covariance the model assumes, the errors of the predicted means have expectation zero, are uncorrelated with every target and have exactly the predicted covariance; no estimate linear in the targets has a smaller expected squared error for any combination of process values. If they are jointly normal the errors are normal and independent of the targets, no estimate at all (linear or not) does better, and only the prediction itself does as well. More training data never enlarge the predicted covariance.", "quantifier": "all covariance and mean functions, training sets, variances, prediction sets, joint laws with those moments, combinations, estimates and nested training sets", "why_tests_cant": "Calibration and optimality are statements about expectations over all data sets and about all competing estimates; a test sees one data set and compares with at most a few others.", "anchors": ["include/albatross/src/models/gp.hpp:82-116", "include/albatross/src/models/gp.hpp:286-325"]}
{"id": "C119", "title": "The chi squared score is a probability and RANSAC's candidate check keeps its error rate", "statement": "chi_squared_cdf(x, n) is the probability that the squared Mahalanobis distance of an n dimensional normal vector from its mean is at most x, to within 7e-5 (1e-6 unless 20 <= n < 40). If the truth comes from the predicted distribution with the measurement variances added, chi_squared_cdf(prediction, truth) is always a number and uniformly distributed on the unit interval to that accuracy; so ChiSquaredIsValidCandidateMetric accepts a right prediction with the probability of its threshold and rejects one in a thousand by default. A prediction that states too small a covariance is accepted with at most, one that states too large a covariance with at least that probability. The same holds for what a Gaussian process predicts from random training data, scored against independently measured process values.", "quantifier": "all sizes from one on, positive definite covariances, means, variances, thresholds in the unit interval, probability spaces and builds", "why_tests_cant": "The law of the score is a statement about all outcomes at once; a test compares a few values of the distribution function with a table and cannot see whether the whole chain from prediction to decision keeps its error rate in every dimension.", "anchors": ["include/albatross/src/stats/chi_squared.hpp:29-81", "include/albatross/src/evaluation/prediction_metrics.hpp:136-145", "include/albatross/src/models/ransac_gp.hpp:18", "include/albatross/src/models/ransac_gp.hpp:84-106"]}
{"id": "C120", "title": "The ensemble sampler leaves its target distribution invariant", "statement": "Let the objective be, up to a constant, the logarithm of a probability density: finite where the density is positive and not finite elsewhere. If the walkers are independent samples of this density and the draws are independent and uniform, then stretch_move_step returns with probability one, uses three draws per walker, and the walkers are afterwards again independent samples of the density. Started from such walkers ensemble_sampler returns with probability one, and the walkers of every state of the chain are independent samples of the density.", "quantifier": "all dimensions, measurable densities, numbers of walkers (two and more for a step, three and more for a chain), numbers of splits from two on, stretches above one, iterations, callbacks and builds", "why_tests_cant": "Invariance is an equality of distributions. A test runs one chain and compares a few moments with wide tolerances, which a wrong exponent of the stretch factor, a partner from the same split or a wrong acceptance rule can meet.", "anchors": ["include/albatross/src/samplers/ensemble.hpp:18-22", "include/albatross/src/samplers/ensemble.hpp:44-123", "include/albatross/src/samplers/ensemble.hpp:125-165"]}
{"id": "C121", "title": "Random subsets are uniform and independent", "statement": "Let the random engine deliver independent outputs, each uniform on K values, and let the integer distribution be fair (each value of its range is taken by the same number of the K outputs). Then after any number L of outputs all lists of j subsets of size n are equally likely to be the results of j successive calls of randint_without_replacement; as L grows the probability that the calls return tends to one, and the probability that their results lie in given families of subsets tends to the product of the fractions of subsets in the families. In particular j successive samples of size n by random_without_replacement from N elements, g of them good, are all contaminated with probability tending to (1 - C(g,n)/C(N,n))^j.", "quantifier": "all ranges below the largest size, all n up to the size of the range (including those for which the complement is drawn), all fair distributions, numbers of calls and outputs, families of subsets, vectors and predicates", "why_tests_cant": "Uniformity is a statement about all output sequences of the engine. A test sees a few seeds; a bias between the two branches, a subset that can not be drawn or a dependence between calls shows only in frequencies.", "anchors": ["include/albatross/src/utils/random_utils.hpp:20-69", "include/albatross/src/models/ransac.hpp:197-199"]}
{"id": "C122", "title": "RANSAC finds the good groups with the textbook probability", "statement": "Let some groups be good, and let the supplied functions tell them apart when they are given good groups: a sample of good groups is accepted, its fit puts exactly the good groups within the threshold, they are enough for a consensus, and the consensus metric of all good groups is less than (or the other is NaN) that of any consensus with another group. With a fair random engine the probability that ransac succeeds with exactly the good groups as its consensus tends, as outputs become available, to ((q+s)^N - s^N) * sum over e below max(1, max_failed_candidates) of C(N+e-1, e) r^e, where N is the number of iterations, q = C(g,n)/C(G,n) the probability of a sample of good groups, s that of an accepted sample with another group and r that of a rejected one. If all samples are accepted this is 1 - (1-q)^N, so N >= log(1-p)/log(1-q) iterations give probability p.", "quantifier": "all groups without duplicates, supplied functions that separate, thresholds, valid sample and consensus sizes, numbers of iterations and failed candidates, fair distributions", "why_tests_cant": "The statement is about the frequency of success over all output sequences. The engine of ransac has a fixed seed, so a test sees one run per data set; an iteration too few, a failed candidate that uses up an iteration or a best that is not replaced changes the probability but often not that run.", "anchors": ["include/albatross/src/models/ransac.hpp:172-258", "include/albatross/src/utils/random_utils.hpp:20-69"]}
{"id": "C123", "title": "Cross-validated chi squared scores of the right model", "statement": "Let the targets of a dataset have the normal law that a Gaussian process with its measurement covariance gives them. Then the error of each group of the held-out predictions is normal with mean zero and exactly the covariance that the specialised cross validation states for that group, whatever the targets. The chi squared scores of the groups are numbers and each is uniformly distributed on the unit interval to within 7e-5, whether folds or a dataset with groups are scored.", "quantifier": "all processes with symmetric covariance, valid datasets with a positive definite observation covariance, partitions into nonempty groups across which measuring adds no covariance, laws of the targets as stated, thresholds", "why_tests_cant": "A wrong calibration shows only in the frequencies of scores over many random datasets; a single score of a single dataset is plausible whatever covariance it was computed with, and adding a variance twice makes the scores look good.", "anchors": ["include/albatross/src/evaluation/prediction_metrics.hpp:136-145", "include/albatross/src/evaluation/cross_validation.hpp:295-330", "include/albatross/src/models/gp.hpp:487-505"]}
{"id": "C124", "title": "Scores of batches predicted one after the other add up to the log density of the data", "statement": "Score every batch of data with the joint negative log likelihood of the prediction with measurement noise of a Gaussian process fitted to all the batches before it. If no measurements in different batches share an error, no score fails and the scores add up to minus the log density of all the targets (starting from a fit of other data: minus the conditional log density). So the sum depends neither on the order of the data nor on how it is cut into batches, empty ones included. Without target variances log_likelihood of all the data is the prior of the parameters minus the sum.", "quantifier": "all processes with symmetric covariance, valid datasets, numbers and sizes of batches, orders of the rows, target values and variances with a positive definite covariance of all the targets; every factorisation of positive definite matrices", "why_tests_cant": "A test compares one split of one dataset within a tolerance; that the sum is the same for all splits and orders ties fitting, predicting, scoring and the likelihood together, and a factor or a missing cross term in one of them can cancel in a single comparison.", "anchors": ["include/albatross/src/core/fit_model.hpp:54-62", "include/albatross/src/evaluation/prediction_metrics.hpp:112-119", "include/albatross/src/core/dataset.hpp:139-146", "include/albatross/src/models/gp.hpp:442-451"]}
{"id": "C125", "title": "The process the data come from has the best expected likelihood and cross validated score", "statement": "Let the targets have the means and the covariances of the measurements of a Gaussian process. Then this process has the smallest expected negative log likelihood among all Gaussian processes, and the smallest expected cross validated joint negative log likelihood for every group and every grouping of the rows. Another process reaches the smallest expected total only if it agrees on the means and on all covariances of the measurements, so that tuning by cross validation tells models apart exactly as the likelihood does.", "quantifier": "all pairs of processes with symmetric covariance, valid datasets, groupings of the rows, laws of the targets with these means and covariances (normal or not), log priors; every factorisation of positive definite matrices; likelihood and closed form without target variances, scoring by refitting with any target variances", "why_tests_cant": "An expected value over all targets and a comparison with all other models cannot be sampled; a test that tunes one model on one data set cannot tell a biased objective from noise.", "anchors": ["include/albatross/src/models/gp.hpp:442-451", "include/albatross/src/evaluation/model_metrics.hpp:59-72", "include/albatross/src/evaluation/cross_validation.hpp:295-330", "include/albatross/src/evaluation/prediction_metrics.hpp:112-119"]}
{"id": "C126", "title": "The process the data come from has the smallest expected root mean square errors", "statement": "Let the targets have the normal law of the measurements of a Gaussian process. Then this process has the smallest expected root mean square error of every group in every cross validation, by its own closed form, by refitting or fold by fold, and the smallest expected LeaveOneOutRMSE. No predictor at all that knows only the other rows does better, and only the predictions of this process do as well. LeaveOneOutRMSE is reached exactly by the processes with the same means and the same covariances up to one factor for each row, so the scale of a process cannot be told by this score.", "quantifier": "all pairs of processes with symmetric covariance, valid datasets with any target variances, groupings of the rows into groups that are not empty, all measurable predictors with integrable values, normal laws of the targets; every factorisation of positive definite matrices", "why_tests_cant": "An expected value over all targets and a comparison with all other predictors cannot be sampled; a test cannot see that a score is blind to a parameter for all data.", "anchors": ["include/albatross/src/evaluation/model_metrics.hpp:95-106", "include/albatross/src/evaluation/prediction_metrics.hpp:56-71", "include/albatross/src/evaluation/cross_validation.hpp:295-330", "include/albatross/src/models/gp.hpp:453-520"]}
{"id": "C127", "title": "Which covariance functions go with which distances", "statement": "Exponential, SquaredExponential, Matern32 and Matern52 are positive semi-definite with EuclideanDistance and RadialDistance in every dimension, and their assertions never fire. Exponential of the angle is positive semi-definite; SquaredExponential, Matern32 and Matern52 of the angle are not, for any length scale and any sigma, which is what the static_asserts refuse. Exponential<AngularDistance> as coded is symmetric with sigma squared on the diagonal and positive semi-definite, for vectors that are not zero.", "quantifier": "all dimensions, all inner product spaces for the first part and the angles, all length scales, sigmas, finite sets of points and weights, both builds", "why_tests_cant": "Positive semi-definiteness is a statement about all finite sets of points; a test samples a few matrices, and the violation found needs angles of 1e-8.", "anchors": ["include/albatross/src/covariance_functions/radial.hpp:25-33", "include/albatross/src/covariance_functions/radial.hpp:133-141", "include/albatross/src/covariance_functions/radial.hpp:191-198", "include/albatross/src/covariance_functions/radial.hpp:276-284", "include/albatross/src/covariance_functions/radial.hpp:421-427", "include/albatross/src/covariance_functions/radial.hpp:491-497", "include/albatross/src/covariance_functions/distance_metrics.hpp:30-90"]}
{"id": "C128", "title": "A sparse Gaussian process is close to the dense one when its inducing points explain the variances", "statement": "If the inducing points leave at most epsilon of the variances at the training and prediction points unexplained and every target has noise of at least s, then the means of the sparse and the dense model differ by at most epsilon |y| / s (sqrt n + n sqrt(k / s)) and the variances by at most epsilon (2 sqrt n sqrt(k / s) + n k / s). One inducing point alone leaves at least as much as all. On the grid of StateSpaceInducingPointStrategy at most 1.125 % of the variance is left for the squared exponential and 7.5 % for the exponential, plus the nugget, anywhere between the inputs.", "quantifier": "all positive semi-definite covariance functions, groupings, inducing points, features, targets, variances and prediction points, all QR and LDLT routines that factor; for the grid all length scales, sigmas and inputs whose grid has at most 2^53 points", "why_tests_cant": "The approximation error depends on all features, noise levels and inducing points; a test sees single datasets.", "anchors": ["include/albatross/src/models/sparse_gp.hpp:49-70", "include/albatross/src/models/sparse_gp.hpp:381-520", "include/albatross/src/covariance_functions/radial.hpp:158-168", "include/albatross/src/covariance_functions/radial.hpp:257-267"]}
{"id": "C129", "title": "Type traits decide what their names say", "statement": "is_in_variant, variant_any, variant_all and is_sub_variant hold exactly for the variants their names describe, so set_variant takes a value exactly if the variant to set can hold all it can hold. The element type of concatenated vectors holds exactly what the two element types hold. A merge function of a map operation is used if it can be called, with the key if it takes one, and otherwise refused with an explanation; can_project_key tells whether a projection can be called. An implementation of a covariance is reported as invalid if it can be called but is not constant, changes its arguments or does not return double. Covariances and means of variants are valid as the comments of the traits say.", "quantifier": "all types built from classes, vectors, measurements, linear combinations and variants of any number of alternatives; all merge functions; all base validities of covariance functions", "why_tests_cant": "The traits recurse over the alternatives; tests name a few types and never a variant within a variant or a function that cannot be called.", "anchors": ["include/albatross/src/details/traits.hpp:88-188", "include/albatross/src/details/traits.hpp:199-304", "include/albatross/src/covariance_functions/traits.hpp:25-54", "include/albatross/src/covariance_functions/traits.hpp:78-82", "include/albatross/src/covariance_functions/traits.hpp:113-241", "include/albatross/src/core/concatenate.hpp:20-142", "include/albatross/src/utils/variant_utils.hpp:26-54", "include/albatross/src/utils/map_utils.hpp:405-531"]}
{"id": "C130", "title": "The temperature example predicts the process it describes", "statement": "The program of the temperature example reads every thin-th row of its input, a station with its temperature; setting the parameters puts each value into the covariance function that has that name, and all of them are valid; the covariance of two stations is the elevation scaled constant, plus noise shared by equal positions, plus the product of the exponential of the great-circle angle and the squared exponential of the difference in radius; the predictions are the conditional distribution of that process given the temperatures read: at a station that was measured its temperature, with no variance, elsewhere a variance between that of the noise and the prior one. Predictions of measurements are the same, as no term is noise of the measurements only.", "quantifier": "all input and prediction files, all values of thin, all stations away from the centre of the earth, all parameters with positive length scales, any exact decomposition", "why_tests_cant": "The example is a program that no test runs; the statement is about all inputs, and the rounding of small angles only shows with stations closer than a few metres.", "anchors": ["examples/temperature_example/temperature_example_utils.h:27-114", "examples/temperature_example/temperature_example_utils.h:121-136", "examples/temperature_example/temperature_example.cc:29-93", "include/albatross/src/covariance_functions/scaling_function.hpp:59-180"]}
{"id": "C131", "title": "The examples on the line write the predictions of the process they describe", "statement": "The grid has as many equally spaced points as asked for, from low to high; sinc is the continuous extension of sin x / x; training data that are written to the input file and read again have the same rows with every number rounded to six decimals; each mode predicts with the model it names: the written mean and variance are the posterior of the function plus the variance of the measurement errors, for all training data; and inspecting the constant gives the conditional distribution of the constant given the observations. Refuted: a grid of one point is not a number, an empty training set cannot be read back, two equal inputs (also after rounding) make the matrix singular, and the parametric mode without tuning predicts 10 sinc(x - 3) whatever the data.", "quantifier": "all training data, grids, file contents, modes, and any exact decomposition of positive definite matrices", "why_tests_cant": "The examples are programs no test runs, and the statements are about every training set.", "anchors": ["examples/example_utils.h:22-170", "examples/sinc_example_utils.h:22-37", "examples/sinc_example.cc:35-99", "examples/inspection.cc:42-57", "include/albatross/src/covariance_functions/polynomials.hpp:31-61"]}
{"id": "C132", "title": "The log likelihood of a sparse model is near the dense log density", "statement": "For noise of at least s in every target and inducing points that leave at most eps of every training variance unexplained, the log likelihood of the sparse model is within eps / 2 (n |y|^2 / s^2 + n^2 / s) of the log density of the targets under the covariance the dense model is fitted with, plus the priors; with a single group it is equal to it whatever the inducing points; on state space grids eps is r sigma^2 plus the nugget. Refuted: nearness to what the dense model's log_likelihood returns, which leaves out the variances of the targets: the two can be log(2) / 2 apart however little the inducing points leave.", "quantifier": "all positive semidefinite covariance functions, groups, inducing points, training data and routines that meet their specification", "why_tests_cant": "Tests compare a few data sets up to a tolerance; the bound is about every data set and shows how the distance depends on noise, size and inducing points.", "anchors": ["include/albatross/src/models/sparse_gp.hpp:538-603", "include/albatross/src/models/gp.hpp:442-451"]}
{"id": "C133", "title": "Nuggets keep covariance matrices positive definite in doubles", "statement": "In rounded arithmetic the nugget keeps the covariance matrix of distinct features positive definite. Proved when the nugget is more than n times the errors of the entries, the rounding of the sum included; in particular for the nugget of 1e-8 of the sparse model with m inducing points of variance at most b, if the entries are accurate to sixteen units of rounding and m b is at most five million. Refuted for the default of the covariance function Nugget: its parameter is a standard deviation of 1e-8, so 1e-16 is added, which is lost in every sum with a variance of one or more; Constant() + Nugget() with default parameters gives a singular matrix although it is positive definite in exact arithmetic. Without a nugget a covariance matrix in doubles need not even be positive semidefinite.", "quantifier": "every rounding to nearest, every positive semidefinite covariance function, all features, all errors of the mathematics library within the bound", "why_tests_cant": "Tests look at some matrices; whether the nugget is lost depends on every variance and on the rounding.", "anchors": ["include/albatross/src/covariance_functions/nugget.hpp:16-48", "include/albatross/src/covariance_functions/covariance_function.hpp:266-274", "include/albatross/src/covariance_functions/polynomials.hpp:56-86", "include/albatross/src/models/sparse_gp.hpp:20", "include/albatross/src/models/sparse_gp.hpp:673-677"]}
{"id": "C134", "title": "Grids, angles and symmetry in doubles", "statement": "In rounded arithmetic linspace starts with a, does not decrease, has n doubles within 2 i units of rounding (of the largest number plus three spacings) of the regular grid, and ends with b; angular_distance calls acos only with arguments strictly between -1 and 1; covariance functions are exactly symmetric. Refuted: four points from 1 to 2 end before 2 and four points from 2 to 3 end beyond 3; polynomial covariance functions are not symmetric.", "quantifier": "every rounding to nearest, all doubles, all compositions of covariance functions by sums and products, any functions exp, pow and sqrt", "why_tests_cant": "Tests compare with tolerances or look at grids that happen to be exact.", "anchors": ["include/albatross/src/utils/vector_utils.hpp:24-33", "include/albatross/src/covariance_functions/distance_metrics.hpp:18", "include/albatross/src/covariance_functions/distance_metrics.hpp:36-38", "include/albatross/src/covariance_functions/distance_metrics.hpp:64-77", "include/albatross/src/covariance_functions/radial.hpp:25-33", "include/albatross/src/covariance_functions/polynomials.hpp:78-86"]}
{"id": "C135", "title": "Accuracy of covariances computed in doubles", "statement": "In rounded arithmetic, with exp, pow and sqrt accurate to two units of rounding, a composed covariance function of two doubles returns its exact value up to a fixed number of roundings relative to the variances of its terms: sixteen units of rounding of the variance for each radial function, whatever the features and length scale are. So the covariance of m inducing points with the default nugget of the sparse model is positive definite in doubles when m times the variance is at most five million, even when inducing points coincide, and a nugget term larger than n times the roundings keeps the covariance of n distinct features positive definite.", "quantifier": "every rounding to nearest, all functions exp, pow and sqrt of that accuracy, all compositions of the covariance functions, all doubles, any number of points", "why_tests_cant": "Tests compare a few values with loose tolerances and decompose a few small matrices; the errors of far and of nearly equal features differ.", "anchors": ["include/albatross/src/covariance_functions/radial.hpp:25-33", "include/albatross/src/covariance_functions/radial.hpp:191-198", "include/albatross/src/covariance_functions/radial.hpp:289-297", "include/albatross/src/covariance_functions/radial.hpp:461-470", "include/albatross/src/covariance_functions/polynomials.hpp:78-86", "include/albatross/src/covariance_functions/covariance_function.hpp:266-274", "include/albatross/src/covariance_functions/covariance_function.hpp:357-368", "include/albatross/src/models/sparse_gp.hpp:676-677"]}
{"id": "C136", "title": "Accuracy of metrics computed in doubles", "statement": "In rounded arithmetic, in whatever order Eigen adds, the root mean square error of n predictions is the exact one up to n + 5 roundings relative to itself. The standard deviation is the exact one up to n + 6 roundings relative to itself, plus 3/2 times the error of the mean. Refuted: the second error is small relative to the standard deviation, and the standard deviation of equal numbers is zero: that of three times the double next to 0.1 is positive.", "quantifier": "every rounding to nearest, every order of summation, all vectors of doubles of at most 2^53 entries, every pow accurate to two units of rounding", "why_tests_cant": "Tests compare a few values with tolerances; the order of summation depends on the machine.", "anchors": ["include/albatross/src/evaluation/prediction_metrics.hpp:56-61", "include/albatross/src/evaluation/prediction_metrics.hpp:73-91"]}
{"id": "C137", "title": "Predicted variances in doubles", "statement": "In rounded arithmetic the variance that gp_marginal_prediction returns is the exact one up to the errors of the solution of the linear system and n + 2 roundings. From one observation it is within thirteen units of rounding of the prior variance of the exact one, and at the observed feature it is not negative. Refuted: it is never negative; with the linear covariance function, an observation of the feature 5 and noise below 2^-49, the variance predicted for the feature 11 is negative, although it is positive in exact arithmetic.", "quantifier": "every rounding to nearest, every order of summation, all covariances, any number of training features (for the general bound)", "why_tests_cant": "Tests use noise that is large enough to hide the cancellation.", "anchors": ["include/albatross/src/models/gp.hpp:61-69", "include/albatross/src/models/gp.hpp:94-99"]}
{"id": "C138", "title": "The sparse example", "statement": "The example fits a sparse model with a covariance function that contains noise (variance 0.01) and a squared exponential, leave one out groups and k >= 2 uniform inducing points. Its predictions are the posterior in which targets are related through the inducing points only; every predicted variance is at most 0.01 + 5.7^2, and at least 0.01 at every place that is not an inducing point. For any sparse model, at a training point that is an inducing point the predicted variance is at most the target's variance and three nuggets, and the squared distance of the mean from the target is at most that times y (Q + A)^-1 y. Refuted: no predicted variance is below the variance of the noise; the smallest and largest training points are always inducing points.", "quantifier": "all training data, targets, grids, numbers of inducing points from 2 to 2^53 + 1, both builds, all decompositions that meet their specification", "why_tests_cant": "The variance is wrong at a few places only, and tests of sparse models use measurement noise rather than noise of the process.", "anchors": ["examples/sparse_example.cc:52-94", "examples/example_utils.h:144-170", "include/albatross/src/models/sparse_gp.hpp:34-47", "include/albatross/src/models/sparse_gp.hpp:381-404", "include/albatross/src/models/sparse_gp.hpp:480-510", "include/albatross/src/indexing/group_by.hpp:389-404"]}
{"id": "C139", "title": "The numbers of a call trace", "statement": "In a call trace, the line of a single function shows its value up to half a unit of the sixth decimal and the line of a composed function up to half a unit of the sixth significant digit. The number shown for a sum is the sum of the two numbers below it, and for a product (also with a scaling term on either side) their product, up to the errors of the three lines. The example prints exactly the table for (constant + squared exponential) * linear_scalar at 1 and 0: 40400 from 10100 and 4.000000, 10100 from 10000.000000 and 100.000000. Refuted: the number shown for a product is the product of the numbers below it up to a relative error of one in a hundred thousand.", "quantifier": "all composed covariance functions, features of basic types and values; both builds and any earlier output for the example", "why_tests_cant": "The traces are only printed for people; no test reads the numbers, and small factors that show as zero are rare.", "anchors": ["examples/call_trace_example.cc:17-41", "include/albatross/src/covariance_functions/call_trace.hpp:20-212", "include/albatross/src/covariance_functions/scaling_function.hpp:58-107", "include/albatross/src/covariance_functions/polynomials.hpp:18-62", "include/albatross/src/covariance_functions/radial.hpp:130-190"]}
{"id": "C140", "title": "What the sampler of a model samples", "statement": "The objective of a model's ensemble sampler is, for every vector of the right length, the log likelihood of the model whose tunable parameters are the values of the vector moved to the bounds of their priors, so within the bounds it is the log posterior up to a constant. Refuted: outside the bounds it is not finite, so that walkers stay within the support of the priors and the target is the posterior. Whenever a parameter has a finite bound at which the density does not vanish (for a log scale prior, the lower one), every density whose logarithm the objective is has an infinite integral. In the mode test_gp of the sampler example this holds for all measurements, although the posterior over the allowed standard deviations is proper from two measurements on, and a walker can move to a negative standard deviation.", "quantifier": "all models with separate parameter names, log likelihoods, priors, vectors, dimensions; all measurements in the example", "why_tests_cant": "The tests sample smooth targets from a start inside the bounds for a few hundred iterations; whether the target has a finite integral cannot be seen from a chain, and the CSV output shows the parameters after they were moved to their bounds.", "anchors": ["include/albatross/src/samplers/ensemble.hpp:167-186", "include/albatross/src/core/parameter_handling_mixin.hpp:266-271", "include/albatross/src/core/parameters.hpp:156-195", "include/albatross/src/models/gp.hpp:442-451", "examples/sampler_example.cc:35-128"]}
{"id": "C141", "title": "The condition number of a block diagonal decomposition", "statement": "The largest L1 norm of the blocks, as each decomposition stores it from the lower triangle, is the norm of the whole block diagonal matrix induced by the sum of absolute values. rcond() of the decomposition of positive definite blocks with at least one row is a positive number that is at least the true reciprocal condition number of the whole matrix and at most one; without rows it is infinity.", "quantifier": "all numbers and sizes of blocks, also empty ones; all positive definite blocks; every right hand side of norm one at which the estimate of the norm of the inverse may end; both builds", "why_tests_cant": "A test compares a few matrices with a dense estimate; both are estimates, and the bound on the error has to hold for all matrices.", "anchors": ["include/albatross/src/linalg/block_diagonal.hpp:220-229", "include/albatross/src/eigen/serializable_ldlt.hpp:50-53"]}
{"id": "C142", "title": "Predicted means in doubles", "statement": "Computed in doubles, with the products added in any order, the mean predicted for a feature differs from the exact one by the errors of the cross covariances, the information and the mean function and n + 2 roundings, relative to the sum of the absolute terms. Where every observation is uncorrelated or carries no information, and after an observation of exactly the mean function, it is exactly the mean function. An observation of the opposite sign gives the opposite mean. From one observation the error is at most eight units of rounding of the absolute terms; without noise the observation itself is predicted, up to an error that is small relative to it.", "quantifier": "all numbers of observations; all doubles without overflow and underflow; all orders of adding; all roundings to a nearest double", "why_tests_cant": "Tests compare with a tolerance such as 1e-6 on data of moderate size; they do not show what the error depends on, nor that it is not relative to the result.", "anchors": ["include/albatross/src/models/gp.hpp:82-85", "include/albatross/src/models/gp.hpp:286-294", "include/albatross/src/models/gp.hpp:363-364", "include/albatross/src/covariance_functions/mean_function.hpp:86-107"]}
{"id": "C143", "title": "Predicted covariances in doubles", "statement": "Computed in doubles, with the products added in any order, every entry of the covariance of a joint prediction differs from the exact one by the errors of the solution for the cross covariances and n + 2 roundings, relative to the prior covariance and the explained terms. Its variances are those of the marginal prediction: exactly so from one observation or when the products are added in the same order, and up to the roundings otherwise. The covariance is symmetric.", "quantifier": "all numbers of observations and predicted features; all doubles without overflow and underflow; all orders of adding; all roundings to a nearest double", "why_tests_cant": "Tests compare with a tolerance; whether two triangles computed by different operations agree to the last bit depends on the numbers.", "anchors": ["include/albatross/src/models/gp.hpp:87-113", "include/albatross/src/models/gp.hpp:61-70"]}
{"id": "C144", "title": "Noise and the training covariance in doubles", "statement": "The training covariance of a fit computed in doubles has the covariances off the diagonal unchanged, and on the diagonal the sum of covariance and target variance up to one rounding. It is positive definite whenever the target variances are positive, as it is in exact arithmetic.", "quantifier": "all numbers of observations; all semidefinite covariances with computed values of any given accuracy; all target variances; all roundings to a nearest double", "why_tests_cant": "Tests use noise that is far above the rounding errors; how small it may be depends on the number of observations and on the accuracy of the covariances.", "anchors": ["include/albatross/src/models/gp.hpp:61-70"]}
{"id": "C145", "title": "The likelihood of independent deviations in doubles", "statement": "Computed in doubles, the negative log likelihood of n independent deviations differs from that of normal distributions by n + 9 roundings of the sum of the absolute terms and half a unit per deviation. A deviation and its opposite have exactly the same likelihood, and larger deviations never have a smaller negative log likelihood. The error is small relative to the likelihood.", "quantifier": "all numbers of deviations; all deviations and positive variances without overflow and underflow; every logarithm accurate to two units of rounding (any logarithm for the symmetry and the order); all roundings to a nearest double", "why_tests_cant": "Tests compare a few likelihoods with a tolerance; the order of all likelihoods and an error bound for all numbers of deviations are out of their reach.", "anchors": ["include/albatross/src/stats/gaussian.hpp:19-23", "include/albatross/src/evaluation/likelihood.hpp:21-24", "include/albatross/src/evaluation/likelihood.hpp:73-86"]}
{"id": "C146", "title": "Solutions computed in doubles satisfy their equations", "statement": "With the computed factors of an LDLT decomposition with nonzero pivots, forward substitution, division by the pivots and backward substitution in doubles each leave a residual that is small relative to the absolute terms of the row. What solve() returns satisfies the equations of the product of the factors up to an error relative to the product of the absolute factors and the absolute solution, for a million unknowns below 1e-9.", "quantifier": "all numbers of unknowns n with (1 + 2^-53)^(n+1) < 2; all unit lower triangular factors, pivots above the tolerance of Eigen, permutations and right hand sides, without overflow and underflow; all orders of adding within a row; all roundings to a nearest double", "why_tests_cant": "Tests solve a few well conditioned systems with a tolerance; the bound has to hold whatever the condition and the order of the additions.", "anchors": ["include/albatross/src/models/gp.hpp:69", "include/albatross/src/eigen/serializable_ldlt.hpp:100-109"]}
