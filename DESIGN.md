# Formal model of albatross in Lean 4: design and trusted base

Source: `/repo` (swift-nav/albatross, C++ headers under `include/albatross/src`), read as text.
Nothing was compiled or run. All proofs are Lean 4.33.0 + Mathlib, in `lean/Verif/`: `X.lean` is the
model, `XProps.lean` the property theorems about it. `properties.jsonl` has the statements,
`MANIFEST.json` the theorems per property, `seeded/LOG.jsonl` the faults tried on the model.

## Conventions of the model

* **Outcomes.** A C++ call is a total Lean function into `Except Fault α`, with
  `Fault = assertFail | thrown | ub | diverges` (`diverges`: the loop never ends). `ub` is undefined
  behaviour (out-of-bounds access, dereferencing `end()`, division by integer zero). It is a distinct
  outcome, so a theorem "returns `ok`" also says "no undefined behaviour".
* **Assertions.** `ALBATROSS_ASSERT` (details/error_handling.hpp 37-45) only checks without `NDEBUG`.
  Functions that use it take a `Build` argument (`debug | ndebug`); the expression itself is evaluated
  in both builds.
* **`std::map<K,V>`** is an association list with strictly increasing keys. The ordering is an
  invariant proved for every operation, and results are specified through the lookup function
  `K → Option V`. **`std::set<K>`** is a strictly increasing list. **`std::vector`** is `List`.
* **`double`.** Algebraic identities are over `ℝ` (or an arbitrary ordered field/ordered type).
  Rounding is not modelled, except in `Serialize.lean` (sizes through a rounded square root),
  `CovMatrix.lean` (hypothesis on computed fractions) and `RoundedCode.lean`, where the covariance
  functions, nuggets, `linspace` and the branches of `angular_distance` are computed with any rounding to
  nearest (`Rounding.lean`: 53 bits, unbounded exponent). Where NaN or infinity decides a branch the type
  is `Dbl = nan | ninf | fin ℝ | pinf`.
* **Eigen.** Matrices are Mathlib `Matrix`; `LDLT`, QR, the eigen solver are characterised by their
  contracts (the factors satisfy `A = Pᵀ L D Lᵀ P`, …). These contracts appear as explicit
  hypotheses or structure fields, never as axioms, and are shown to be satisfiable.
* **Random generators** are arbitrary streams; a theorem about them holds for every stream.
* **Thread pools** are arbitrary schedules (permutations of task completions).
* **Overload resolution and SFINAE** are transcribed as data (which overloads exist) and the caller
  chains as decision functions. Template errors are not outcomes.

## Trusted base

* Lean's kernel, and the standard axioms `propext`, `Classical.choice`, `Quot.sound`.
  No other axiom, no `sorry`, `native_decide`, `bv_decide`, `implemented_by` or `unsafe`.
* The transcription of the C++ to Lean. Each definition cites file and lines; simplifications are said
  in the comment of the definition.
* The contracts named above and below for Eigen, zstd, base64, cereal archives, the standard library
  containers and algorithms, NLopt (an arbitrary function) and the ThreadPool (absent submodule).

### Axioms

`#print axioms` of all theorems listed in the manifest:

| axioms | theorems |
|---|---|
| `Classical.choice`, `Quot.sound`, `propext` | 904 |
| `Quot.sound`, `propext` | 55 |
| `propext` | 22 |
| none | 5 |

## What the code does against its stated property

Found while proving. Each has a theorem with a concrete witness (suffix `_false`, `_violated`,
`_violates`, … in the manifest) and, where something remains, a `_partial` theorem.

* C08 diagonal `set_subset` asserts against `size()` = n², so out-of-range indices pass.
* C15 Prim loses a tree edge to a self loop of extremal cost.
* C20, C75 products and scaling terms skip a factor for pairs of types one factor does not define;
  a measurement on one side is not scaled.
* C24 a NaN passes the bounds enforcement; a short vector is read past its end before the assertion.
* C25 names shared between components are set in only one of them.
* C28 a GP update does not wrap features as measurements. C39 `log_likelihood` ignores target variances.
* C37, C76 the sparse GP removes the mean function from an unused copy; rebasing adds it twice.
* C41 differential entropy has its parentheses wrong. C42 several prior densities are not normalised.
* C44 rejection sampling need not end. C45 `RansacOutput::operator==` compares `best` with itself.
  The six-argument `Ransac` constructor passes `max_failed_candidates = 0`; reaching that number
  discards the best iteration.
* C48 six decimals are kept in the sampler file. C50 `incomplete_gamma(a, inf)` is NaN in the series branch.
* C51 ties move the greedy tuner off its start. C52 `query_ratios(1)` returns a logarithm and infinite
  bounds become ±1e8. C53 the gradient vanishes at upper bounds. C54 more than ten entries are reordered;
  the Eigen overload takes the address of the first element of an empty vector.
* C57 sparse matrices are saved with rows and columns exchanged and half of the bytes.
* C60 draws use P where Pᵀ is needed. C61 weights enter squared in one of two terms. C68 negative
  variogram weights are accepted.
* C63 `NullModel` hides the inherited parameters. C64 no header without features; only the columns of
  the first data set. C65 sizes are not checked in sparse products.
* C71 `linspace` with n = 1 ignores the end. C74 an exception leaves tasks running. C77 a setter assigns
  its argument to itself. C81 the grid is coarser than its comment says. C82 negative eigenvalues are all
  clamped when none is positive. C83 the angular distance breaks the triangle inequality near 0.
* C87 repeated features share their noise in the GP RANSAC strategy. C89 `LeaveOneOutRMSE` is the mean
  absolute error.
* Smaller: `vertical_stack` of nothing is UB; `extract_from_variants` and `deduplicate` drop metadata;
  `JointDistribution` only asserts rows; decompression errors are silent under `NDEBUG`; maps holding NaN
  compare unequal to themselves; the sampler needs three finite states; negative Chebyshev degrees
  write out of range under `NDEBUG`.

## Headers

Modelled: core (concatenate, dataset, distribution, fit_model, linear_combination, model,
parameter_handling_mixin, parameter_macros, parameters, prediction, priors, transformed_distribution),
covariance_functions (all but call_trace), details (error_handling, typecast), eigen/serializable_ldlt,
evaluation (all), graph, indexing (all), linalg (block_*, qr_utils, spqr_utils), models (all),
polynomial, samplers, stats, tune, utils, eigen/serializable_spqr and everything under cereal/.
Traits headers are modelled only through the decisions they cause (C21, C66, C86).

Not modelled: `ThreadPool` (absent), method_inspection_macros, unused, declarations, print_eigen_directions (prints).

## Not expressible / not attempted

* Floating-point rounding error bounds other than C133-C137, statistical quality of random numbers, optimiser (NLopt)
  convergence, SuiteSparse internals: outside the model (stated where they matter).

## Properties

### C01 group_by partitions the data (proved)

* Model / theorems: Indexing / IndexingProps
* Modelled: `IndexerBuilder::build` as the loop that inserts index i into the entry of key(x_i) of a sorted map
* Proof: induction over the input with the invariant `i in idx(k) iff key(x_i) = k`, strict order of keys and of each index list
* Left out: copies and moves of the grouped object

### C02 groups, counts and combine lose nothing (proved)

* Model / theorems: Indexing / IndexingProps, RemainingProps
* Modelled: `groups`, `counts`, `get_group`, `first_group`, `combine`, dataset versions
* Proof: from C01; `List.Perm` for `combine`; filters for groups
* Left out: the lambda adaptors (`apply`, `index_apply`) are in C70/C17

### C03 leave-one-out and k-fold groupers (proved)

* Model / theorems: Indexing / IndexingProps
* Modelled: `LeaveOneOut` and `KFold` groupers
* Proof: invariant of C01 plus arithmetic on `i % k`
* Left out: nothing beyond the conventions above.

### C04 cross-validation folds split the data (proved)

* Model / theorems: Folds / FoldsProps
* Modelled: `create_fold`, `folds_from_group_indexer`, `group_indexer_from_folds`
* Proof: complement of sorted index lists
* Left out: nothing beyond the conventions above.

### C05 cross-validated predictions come back in dataset order (proved)

* Model / theorems: Folds / FoldsProps
* Modelled: `concatenate_mean_predictions`, `concatenate_marginal_predictions`, the scatter loops of `cross_validation.hpp`
* Proof: loop invariant: an entry written is the prediction of the fold that owns it
* Left out: joint predictions (deleted in the code)

### C06 indices_complement (proved)

* Model / theorems: Indexing / IndexingProps
* Modelled: `set_difference` on sorted ranges, `indices_complement`, `vector_set_difference`
* Proof: induction on the merge
* Left out: nothing beyond the conventions above.

### C07 subset and set_subset (proved)

* Model / theorems: Indexing / IndexingProps, RemainingProps
* Modelled: `subset` (vectors, matrices, rows), `symmetric_subset`, `set_subset` with the out-of-range outcome of each build
* Proof: induction on the index list
* Left out: signed index types (their extra `>= 0` assertion); `subset_cols` is `subset_rows` transposed

### C08 set_subset on a diagonal matrix checks its bounds (partial)

* Model / theorems: Indexing / IndexingProps
* Modelled: the diagonal overload of `set_subset`
* Proof: counterexample: the assertion compares with `size()` = n*n; the part that holds by the C07 lemma
* Left out: nothing beyond the conventions above.
* Note: The stated property is false for the code (C08_diagonal_bounds_violated); C08_diagonal_partial is the part that holds.

### C09 deduplicate (proved)

* Model / theorems: Indexing / DatasetProps
* Modelled: `deduplicate`
* Proof: invariant of the scan with the `seen` set
* Left out: nothing beyond the conventions above.

### C10 align_datasets (proved)

* Model / theorems: Indexing / DatasetProps
* Modelled: `align_datasets`
* Proof: the double loop equals a list comprehension
* Left out: nothing beyond the conventions above.

### C11 map set-algebra (proved)

* Model / theorems: MapUtils / MapUtilsProps, RemainingProps
* Modelled: `map_merge` state machine, `map_union/intersect/difference/symmetric_difference/keys/join/join_strict/at_or`
* Proof: induction on the merge; specification by lookup functions
* Left out: iterator categories, move semantics

### C12 map_subset (proved)

* Model / theorems: MapUtils / MapUtilsProps
* Modelled: `map_subset` and its sorted-sequence version
* Proof: the same
* Left out: nothing beyond the conventions above.

### C13 minimum spanning forest (Kruskal) (proved)

* Model / theorems: Graph, GraphSpec / KruskalProps
* Modelled: Kruskal with the tree-id table
* Proof: invariant: the table is connectivity of the edges so far; result is a spanning forest
* Left out: allocation

### C14 maximum spanning forest (proved)

* Model / theorems: Graph, GraphSpec / KruskalProps
* Modelled: the same, costs in any linear order
* Proof: exchange argument: minimal (maximal) total cost over all spanning forests
* Left out: nothing beyond the conventions above.

### C15 maximum/minimum spanning tree (Prim) (partial)

* Model / theorems: Graph, GraphSpec / PrimProps
* Modelled: Prim with a priority queue
* Proof: cut property; a self loop of extremal cost is a counterexample
* Left out: nothing beyond the conventions above.
* Note: The stated property is false for the code when a self loop has the extremal cost (C15_self_loop_breaks_tree); the partial theorems cover every other connected graph.

### C16 sampling without replacement (proved)

* Model / theorems: Random / RandomProps
* Modelled: `random_without_replacement`, `randint_without_replacement`
* Proof: invariant of the rejection loop over an arbitrary engine stream
* Left out: distribution of the numbers

### C17 thread-pool apply equals serial apply (proved)

* Model / theorems: Async / AsyncProps
* Modelled: `apply`, `apply_map`, `async_apply` serial and pooled
* Proof: a pool is an arbitrary order of completion; results do not depend on it
* Left out: data races inside user functions; the pool (submodule absent) is a contract

### C18 threaded cross-covariance equals serial (proved)

* Model / theorems: CovMatrix / CovMatrixProps
* Modelled: `compute_covariance_matrix` (symmetric and cross, serial, pooled)
* Proof: pointwise value of every entry
* Left out: nothing beyond the conventions above.

### C19 threaded symmetric covariance equals serial (proved)

* Model / theorems: CovMatrix / CovMatrixProps
* Modelled: `partition_triangular`, `block_start_indices`, `block_index`
* Proof: arithmetic, covering lemma: every entry is in exactly one block
* Left out: rounding enters through an explicit hypothesis on the computed fractions

### C20 sums and products of covariance functions (partial)

* Model / theorems: Kernels, Psd / CovComposeProps
* Modelled: sum, product, scaling of covariance functions
* Proof: PSD closure (Schur product theorem is proved), counterexample for mixed types
* Left out: nothing beyond the conventions above.
* Note: Values, symmetry, sums and linear combinations proved in full. Products: positive semi-definiteness is false of the code for features of different types (C20_product_mixed_types_not_psd); C20_product_psd_partial covers factors defined on the same pairs.

### C21 covariance of composite feature types (proved)

* Model / theorems: Callers / CallersProps
* Modelled: the caller chain of `callers.hpp` (direct, symmetric, linear combinations, measurements, variants)
* Proof: case analysis on which overloads exist
* Left out: overload resolution itself is transcribed as data

### C22 provided covariance functions are positive semi-definite (proved)

* Model / theorems: Kernels, Radial, Psd / KernelsProps
* Modelled: constant, polynomial, noise, nugget, squared exponential, exponential, Matern
* Proof: PSD by explicit feature maps, Fourier/mixture representations and Schur products
* Left out: nothing beyond the conventions above.

### C23 tunable parameters round trip (proved)

* Model / theorems: Parameters / ParametersProps, HandlersProps
* Modelled: `get_tunable_parameters`, `set_tunable_params_values`
* Proof: induction over the store
* Left out: libm `exp`/`log` as functions with the inverse law at stored values as a hypothesis

### C24 setting tunable parameters keeps them in bounds (partial)

* Model / theorems: Parameters / ParametersProps
* Modelled: the same with bounds enforcement and wrong lengths
* Proof: induction; counterexamples for NaN and short vectors
* Left out: nothing beyond the conventions above.
* Note: False of the code for NaN entries (C24_nan_escapes_bounds) and for vectors that are too short, which read out of bounds before the assertion (C24_too_short_reads_out_of_bounds); everything else proved.

### C25 set_param then get_params on composed models (partial)

* Model / theorems: Parameters / HandlersProps, RemainingProps
* Modelled: the tree of parameter handlers: base store, sums/products, GP (mean, covariance), sparse GP, RANSAC
* Proof: structural induction over handlers without shared names; counterexamples with shared names
* Left out: nothing beyond the conventions above.
* Note: False of the code when two parts share a parameter name (C25_shared_name_violates, C25_shared_name_set_params_changes_others); proved for all objects without shared names.

### C26 set_params_if_exists (proved)

* Model / theorems: Parameters / ParametersProps, RemainingProps
* Modelled: `set_param(s)`, `set_param_value(s)`, `set_param_prior`, the `_if_exists` versions
* Proof: lookup equations of sorted maps
* Left out: nothing beyond the conventions above.

### C27 GP prediction is Gaussian conditioning (proved)

* Model / theorems: Gp / GpProps
* Modelled: `gp_mean_prediction`, `gp_marginal_prediction`, `gp_joint_prediction`, `_fit_impl`
* Proof: Schur complement equals the Gaussian conditional (specified independently by `IsGaussianConditional`)
* Left out: rounding; LDLT by contract

### C28 updating a GP equals refitting (partial)

* Model / theorems: Gp / GpProps
* Modelled: `_update_impl`
* Proof: block matrix inversion; counterexample with measurement-only noise
* Left out: nothing beyond the conventions above.
* Note: False of the code when the covariance has measurement-only noise (C28_false): _update_impl does not wrap the features in Measurement. C28_update_is_conditioning says what the update computes in general; C28_update_eq_refit_partial proves the property when the wrapper has no effect.

### C29 a GP rebuilt from its prediction reproduces it (proved)

* Model / theorems: Gp / GpProps
* Modelled: `fit_from_prediction`
* Proof: algebra with the inverse prior covariance
* Left out: nothing beyond the conventions above.

### C30 closed-form leave-one-out equals refitting (proved)

* Model / theorems: HeldOut / HeldOutProps
* Modelled: `held_out_predictions`, leave-one-out formulas, grouped version
* Proof: block inverse: the inverse restricted to a group
* Left out: nothing beyond the conventions above.

### C31 block symmetric solve (proved)

* Model / theorems: LinAlg / LinAlgProps
* Modelled: `BlockSymmetric`: solve, products, `ExplainedCovariance`, `DirectInverse`
* Proof: Schur complement
* Left out: nothing beyond the conventions above.

### C32 LDLT square roots and determinants (proved)

* Model / theorems: LinAlg / LinAlgProps
* Modelled: `SerializableLDLT`: `sqrt_solve`, `sqrt_transpose`, `inverse_diagonal`, `inverse_blocks`, `log_determinant`, `diagonal_sqrt` …
* Proof: algebra from the contract `A = P^T L D L^T P`; existence of such factors proved
* Left out: zero pivots are treated as the code does

### C33 block diagonal operations (proved)

* Model / theorems: BlockDiagonal / BlockDiagonalProps
* Modelled: `BlockDiagonal(LDLT)` operations
* Proof: dense equivalence
* Left out: `rcond`

### C34 conditional Gaussian model (proved)

* Model / theorems: Conditional / ConditionalProps
* Modelled: `ConditionalGaussian`
* Proof: selection lemmas plus C27
* Left out: nothing beyond the conventions above.

### C35 sparse GP equals its low-rank model (proved)

* Model / theorems: SparseGp / SparseGpProps
* Modelled: `SparseGaussianProcessRegression` fit and predictions (FITC/PITC)
* Proof: Woodbury and QR contracts against the dense model with covariance Q + blockdiag
* Left out: SuiteSparse internals

### C36 sparse GP updates equal batch fits (proved)

* Model / theorems: SparseGp / SparseGpProps
* Modelled: `_update_impl`
* Proof: equality of normal equations
* Left out: nothing beyond the conventions above.

### C37 mean functions are honoured by sparse and dense GPs (partial)

* Model / theorems: Gp, SparseGp / GpProps, SparseGpProps
* Modelled: mean function removal in both models
* Proof: algebra; counterexample for the sparse model
* Left out: nothing beyond the conventions above.
* Note: Dense model: proved (fit, update, shift). Sparse model: false, the mean function is removed from a copy that is not used (C37_sparse_false); proved what the code computes and the case of a mean that is zero at the training features.

### C38 sparse GP log likelihood (proved)

* Model / theorems: SparseGp / SparseGpProps
* Modelled: `log_likelihood` of the sparse model
* Proof: matrix determinant lemma
* Left out: nothing beyond the conventions above.

### C39 GP log likelihood accounts for measurement variance (partial)

* Model / theorems: Gp / GpProps
* Modelled: `log_likelihood` of the dense model
* Proof: algebra; counterexample: target variances are ignored
* Left out: nothing beyond the conventions above.
* Note: False of the code with non-zero target variances (C39_false); C39_code_value gives the value computed in general.

### C40 likelihood functions agree (proved)

* Model / theorems: Likelihood / LikelihoodProps
* Modelled: `negative_log_likelihood` (univariate, diagonal, dense), `log_sum`
* Proof: equality with the log density of Mathlib's Gaussian
* Left out: nothing beyond the conventions above.

### C41 differential entropy (partial)

* Model / theorems: Likelihood / LikelihoodProps
* Modelled: `differential_entropy`
* Proof: exact value of the code; counterexample
* Left out: nothing beyond the conventions above.
* Note: False of the code unless the dimension is 1 or det = 1 (C41_false, C41_entropy_partial).

### C42 prior log densities (partial)

* Model / theorems: Parameters, Likelihood / PriorsProps
* Modelled: `log_pdf` of all priors
* Proof: equality with densities; counterexamples
* Left out: nothing beyond the conventions above.
* Note: Uniform and improper priors proved. False of the code for Gaussian, positive Gaussian (constant) and log normal (shape) priors; exact deviation proved.

### C43 distribution arithmetic (proved)

* Model / theorems: Distribution / DistributionProps
* Modelled: arithmetic of marginal and joint distributions
* Proof: laws of linear images of Gaussian vectors (Mathlib `multivariateGaussian`)
* Left out: metadata

### C44 RANSAC result contract (partial)

* Model / theorems: Ransac / RansacProps
* Modelled: `ransac` and its helpers
* Proof: loop invariants over arbitrary engine outputs
* Left out: probability of success
* Note: The result contract is proved for every engine output list; every fair stream terminates (C44_terminates_partial), but termination for every stream is false: a constant stream makes the rejection sampling of random_without_replacement run forever (C44_terminates_false).

### C45 RansacOutput equality (partial)

* Model / theorems: Ransac / RansacProps
* Modelled: `RansacOutput::operator==`
* Proof: case analysis; counterexample
* Left out: nothing beyond the conventions above.
* Note: RansacOutput::operator== compares best with itself, so outputs differing only in best compare equal (C45_false). The comparison is characterised exactly, and agrees with memberwise comparison for outputs of runs with the same functions and minimal consensus size.

### C46 ensemble sampler invariants (proved)

* Model / theorems: Sampler / SamplerProps
* Modelled: `ensemble_sampler`, stretch moves
* Proof: invariants over iterations
* Left out: statistical correctness

### C47 sampler initial states (proved)

* Model / theorems: Sampler / SamplerProps
* Modelled: `initial_params_from_*`, jitter loop
* Proof: invariant with the attempt bound
* Left out: nothing beyond the conventions above.

### C48 sampler CSV restart (partial)

* Model / theorems: SamplerCsv, Csv / SamplerCsvProps, RemainingProps
* Modelled: CSV callback and `initial_params_from_csv`
* Proof: writer/reader round trip by induction over lines
* Left out: `std::to_string`/`stod` on the texts written
* Note: The file stores six decimals, so values come back rounded (C48_false shows the exact claim fails); exact for values of at most six decimals within bounds. Doubles are exact reals; stod is modelled on the texts to_string writes.

### C49 uniform KS statistic (proved)

* Model / theorems: Stats / StatsProps
* Modelled: `uniform_ks_test`
* Proof: supremum over the intervals between order statistics
* Left out: nothing beyond the conventions above.

### C50 chi squared CDF and incomplete gamma range (partial)

* Model / theorems: Stats / StatsProps, QuadratureRangeProps
* Modelled: `incomplete_gamma`, `chi_squared_cdf`
* Proof: branch analysis; monotone partial sums; the excess over one of the quadrature by integer bounds of all fifty terms, compared by the kernel
* Left out: the size of the quadrature error in general
* Note: All special cases, the range of the series branch for finite z, of chi_squared_cdf below 20 degrees of freedom, non-negativity of the quadrature branch. False at z = +inf for the series (NaN) and for the upper limit of the quadrature branch: chi_squared_cdf(576, 288) exceeds 1 (C50_chi_squared_exceeds_one, C50_quadrature_range_false).

### C51 greedy tuner never makes things worse (partial)

* Model / theorems: Tune / TuneProps
* Modelled: `greedy_tune`
* Proof: invariant: best so far is the least of all evaluations
* Left out: nothing beyond the conventions above.
* Note: The smallest value of all evaluations and not worse than the start are proved for every objective, NaN included; that the start is returned when nothing strictly better is found is false for ties (C51_tie_false) and proved for objectives where every other evaluation is strictly worse or NaN.

### C52 greedy tuner queries stay in range (partial)

* Model / theorems: Tune / TuneProps
* Modelled: `get_queries`, `query_ratios`
* Proof: real analysis of the spacing
* Left out: nothing beyond the conventions above.
* Note: Proved for values strictly inside finite bounds and queries away from n=1; false for a single query (C52_single_query_false: ratio is the logarithm) and for values beyond the 1e8 replacement of infinite bounds (C52_large_value_false).

### C53 finite difference gradients at bounds (partial)

* Model / theorems: Tune / TuneProps
* Modelled: `compute_value_and_gradient`
* Proof: algebra; counterexample at upper bounds
* Left out: nothing beyond the conventions above.
* Note: Forward differences proved for every parameter whose step stays within bounds (in particular lower bounds); false at upper bounds (C53_upper_bound_false): the step is clamped back and the gradient is zero.

### C54 vector tuner starts from the given vector (partial)

* Model / theorems: Tune / TuneProps, RemainingProps
* Modelled: vector and Eigen overloads of the tuner
* Proof: the string order of the generated names
* Left out: NLopt (arbitrary function)
* Note: Proved for at most ten entries; for any length the tuner starts at a rearrangement; false for eleven entries (C54_false) since keys sort as text.

### C55 Chebyshev polynomials (proved)

* Model / theorems: Chebyshev / ChebyshevProps
* Modelled: `chebyshev_t`, `chebyshev_u`, `chebyshev_phi_t/u`
* Proof: Mathlib's Chebyshev polynomials
* Left out: nothing beyond the conventions above.

### C56 length scale derivation inverts process noise (proved)

* Model / theorems: Radial / RadialProps
* Modelled: `derive_*_length_scale`, `process_noise_equivalent`, `newton_solve`
* Proof: calculus; iteration invariant
* Left out: libm

### C57 sparse matrices survive serialisation (partial)

* Model / theorems: Serialize / SerializeProps
* Modelled: cereal save/load of sparse matrices
* Proof: explicit bytes; counterexamples
* Left out: nothing beyond the conventions above.
* Note: False: triplets are saved with row and column exchanged and only nnz*sizeof(double) of the nnz*16 bytes are kept; C57_lost shows no matrix with a nonzero entry survives, C57_square_loaded what is loaded instead, C57_rectangular that loading may be out of range; the case without stored entries holds.

### C58 dense matrices and triangular factors survive serialisation (proved)

* Model / theorems: Serialize / SerializeProps
* Modelled: cereal save/load of dense matrices, LDLT sizes
* Proof: round trip under codec contracts
* Left out: zstd, base64, gzip by contract

### C59 compression round trip and error detection (proved)

* Model / theorems: Serialize / SerializeProps
* Modelled: `compress`/`decompress` wrappers
* Proof: loop invariant over chunks
* Left out: zstd by contract

### C60 multivariate normal draws have the requested covariance (partial)

* Model / theorems: Metrics / MetricsProps
* Modelled: `sample_from`, antithetic draws of the energy score
* Proof: linear images of standard normals; counterexample for the permutation
* Left out: nothing beyond the conventions above.
* Note: The draws are mean + (P L sqrt(D)) z, normal with covariance P L D L^T P^T; this is the requested covariance when the pivoting permutation is an involution, and C60_covariance_false shows it is not in general (the code multiplies by transpositionsP() where its transpose is needed). Antithetic pairs and their number are proved in full.

### C61 energy score weights are consistent (partial)

* Model / theorems: Metrics / MetricsProps
* Modelled: energy score
* Proof: algebra; counterexamples
* Left out: nothing beyond the conventions above.
* Note: The two terms use different norms (weights enter squared in one): C61_same_norm_false, C61_scaling_false and C61_assertion_false are counterexamples. Consistency is proved for unit weights, and the score of a point mass at the truth is zero for all weights.

### C62 least squares solves the normal equations (proved)

* Model / theorems: SimpleModels / SimpleModelsProps
* Modelled: `LeastSquares`, `LinearRegression`
* Proof: normal equations from the QR contract
* Left out: nothing beyond the conventions above.

### C63 null model parameters (partial)

* Model / theorems: SimpleModels / SimpleModelsProps, RemainingProps
* Modelled: `NullModel`
* Proof: computation; counterexample
* Left out: nothing beyond the conventions above.
* Note: The prediction half holds for every model and feature list. The parameter half is false (C63_parameters_false): NullModel declares a private params_ hiding the inherited one, so get_params reports none of the constructor's parameters.

### C64 CSV output is rectangular (partial)

* Model / theorems: Csv / CsvProps
* Modelled: `to_map`, `write_to_csv`, headers and rows
* Proof: induction over rows
* Left out: number formatting is a parameter
* Note: Proved for every dataset with at least one feature; for an empty dataset no header is written (C64_empty_false) and the several-datasets overload uses the first dataset's columns only (C64_datasets_false). Number formatting and the column map of a feature (an XML archive in the code) are parameters.

### C65 linear transforms of features (proved)

* Model / theorems: LinComb / LinCombProps
* Modelled: `linear_combination.hpp`, sparse/dense transforms of features
* Proof: matrix algebra
* Left out: nothing beyond the conventions above.

### C66 mean functions compose and cancel (proved)

* Model / theorems: MeanFunctions / MeanFunctionsProps
* Modelled: mean functions, sums, products, callers
* Proof: case analysis
* Left out: nothing beyond the conventions above.

### C67 integer casts (proved)

* Model / theorems: Utils / UtilsProps
* Modelled: `cast::to_size/to_index/to_double`
* Proof: 64-bit arithmetic
* Left out: nothing beyond the conventions above.

### C68 regression metrics (proved)

* Model / theorems: Metrics, GaussAbs / ScoreProps
* Modelled: RMSE, standard deviation, CRPS, variogram score
* Proof: integrals of the folded normal
* Left out: nothing beyond the conventions above.

### C69 grouped block products (proved)

* Model / theorems: BlockUtils / BlockUtilsProps, RemainingProps
* Modelled: `block_sum/accumulate/product/inner_product/diag_solve/subtract`
* Proof: dense equivalence on sigma-indexed matrices
* Left out: nothing beyond the conventions above.

### C70 unique values (proved)

* Model / theorems: Utils / UtilsProps
* Modelled: `unique_values`, `filter`, `apply`, `all`, `any`, `vector_contains`
* Proof: induction
* Left out: nothing beyond the conventions above.

### C71 linspace (partial)

* Model / theorems: Utils / UtilsProps
* Modelled: `linspace`
* Proof: arithmetic
* Left out: rounding of the repeated addition
* Note: Proved for n >= 2 (n <= 2^53+1) over the reals extended by infinities and NaN. As stated for every n it is false: n = 1 returns only a (C71_linspace_false), n = 0 asserts in debug and returns nothing under NDEBUG. Rounding of the repeated addition is not modelled.

### C72 null priors and parameter log likelihood (proved)

* Model / theorems: Parameters / ParametersProps, RemainingProps
* Modelled: `params_are_valid`, constructors of bounded priors
* Proof: case analysis
* Left out: nothing beyond the conventions above.

### C73 concatenating datasets (proved)

* Model / theorems: Indexing / DatasetProps
* Modelled: `concatenate_datasets`, `concatenate`
* Proof: list lemmas
* Left out: nothing beyond the conventions above.

### C74 No call outlives a pooled apply (partial)

* Model / theorems: Async / AsyncProps
* Modelled: the futures of pooled calls when one throws
* Proof: schedule semantics; counterexample
* Left out: nothing beyond the conventions above.
* Note: False of the code when a call throws (C74_exception_leaves_tasks_running); proved for normal return.

### C75 scaling terms with measurements (partial)

* Model / theorems: Parameters, Callers / CovComposeProps
* Modelled: `ScalingTerm` with `Measurement`
* Proof: overload table; counterexample
* Left out: nothing beyond the conventions above.
* Note: False of the code when exactly one feature is wrapped (C75_measurement_not_scaled); the partial theorems cover all other cases.

### C76 rebasing a sparse GP keeps the predictions at the new inducing points (partial)

* Model / theorems: SparseGp / SparseGpProps
* Modelled: `fit_from_prediction`, `rebase_inducing_points`
* Proof: algebra; counterexample with a mean function
* Left out: nothing beyond the conventions above.
* Note: False with a mean function (added twice, C76_false); proved with zero mean up to the default nugget 1e-8 which the code adds; C76_code_value states what is computed in general.

### C77 sparse GP setters store their argument (partial)

* Model / theorems: SparseGp / SparseGpProps
* Modelled: setters
* Proof: computation; counterexample
* Left out: nothing beyond the conventions above.
* Note: set_inducing_point_strategy assigns its argument to itself (C77_inducing_false); set_grouper_function proved.

### C78 A RANSAC model is fitted to its consensus (proved)

* Model / theorems: Ransac / RansacProps
* Modelled: `Ransac::_fit_impl`
* Proof: from C44 and C07
* Left out: nothing beyond the conventions above.

### C79 Gauss-Legendre tables are a quadrature rule (proved)

* Model / theorems: Stats / StatsProps
* Modelled: the fifty points and weights
* Proof: moments by exact integer arithmetic in the kernel, linearity
* Left out: the decimals are the model's doubles

### C80 tuner objective evaluates the clamped parameters and never reports NaN (proved)

* Model / theorems: Tune / TuneProps
* Modelled: `param_wrapped_objective`, aggregators
* Proof: from C24, C53
* Left out: NLopt

### C81 state space grid of radial covariance functions (partial)

* Model / theorems: Radial, Utils / UtilsProps
* Modelled: `_ssr_impl` grids
* Proof: arithmetic; counterexample
* Left out: nothing beyond the conventions above.
* Note: Range, number of points, regular spacing of at most 1.5 nominal spacings, and every input within 0.75 nominal spacings of a grid point are proved; the nominal spacing of the source comment is refuted (C81_density_false). Empty inputs are UB, a zero length scale asserts or is UB.

### C82 principal square root and Wasserstein distance of joint distributions (partial)

* Model / theorems: Metrics, Bures, NormalSpec / WassersteinProps
* Modelled: `principal_sqrt`, `wasserstein_2`
* Proof: spectral theorem; optimal coupling by duality
* Left out: eigen solver by contract
* Note: Everything is proved for positive semidefinite covariances and exact arithmetic. The last sentence is false: without a positive eigenvalue all negative eigenvalues are clamped (C82_only_small_negative_clamped_false); C82_negative_reported_partial is the case with a positive eigenvalue.

### C83 distance metrics and distance matrix (partial)

* Model / theorems: Distances / DistancesProps
* Modelled: the three metrics and `distance_matrix`
* Proof: Mathlib angles; counterexample near angle 0
* Left out: nothing beyond the conventions above.
* Note: The exact triangle inequality of the angular distance is false (C83_angular_triangle_false): angles of 1e-8 are rounded to 0, angles of 2e-8 are not. Proved with a slack of 9e-8. Rounding of doubles is not modelled.

### C84 stacking matrices and truncated solve (proved)

* Model / theorems: EigenUtils / EigenUtilsProps
* Modelled: `vertical_stack`, `truncated_psd_solve`
* Proof: induction; spectral calculus
* Left out: eigen solver by contract

### C85 converting vectors and datasets to and from variants (proved)

* Model / theorems: VariantUtils / VariantUtilsProps
* Modelled: `variant_utils.hpp`
* Proof: induction
* Left out: nothing beyond the conventions above.

### C86 forms of a prediction and measurement noise (proved)

* Model / theorems: Prediction / PredictionProps
* Modelled: `prediction.hpp`, `predict_with_measurement_noise`
* Proof: table of implemented forms; algebra
* Left out: nothing beyond the conventions above.

### C87 GP RANSAC strategy scores and fits exactly the groups it is given (partial)

* Model / theorems: RansacGp / RansacGpProps, RemainingProps
* Modelled: `ransac_gp.hpp` metrics and strategy
* Proof: C34 selections; chi squared of C50
* Left out: lambdas capturing metrics by reference
* Note: proved for datasets without repeated features; with a repeated feature the strategy explains the noise of one observation with another (C87_matches_model_false)

### C88 cross-validated scores hold out exactly the scored rows (partial)

* Model / theorems: ModelMetrics, CrossValidation / ModelMetricsProps, CrossValidationProps
* Modelled: `cross_validated_scores`, `CrossValidation::scores`
* Proof: C04 plus scatter of C05; counterexample for Gaussian processes, whose closed form adds the noise
* Left out: nothing beyond the conventions above.
* Note: per group, leave one out, grouped and fold versions for every model that is refitted (C88_scores_partial). Models with their own cross_validated_predictions are scored differently with a dataset than with its folds: for Gaussian processes C89_gp_scores against C88_gp_fold_scores, different by C88_gp_false

### C89 leave-one-out model metrics (partial)

* Model / theorems: ModelMetrics, CrossValidation / ModelMetricsProps, CrossValidationProps
* Modelled: `model_metrics.hpp`
* Proof: C40, C88, C98; counterexamples for the RMSE and for Gaussian processes
* Left out: nothing beyond the conventions above.
* Note: the likelihood metrics are proved for refitted models; for Gaussian processes the variance of a target is counted twice (C89_gp_likelihood, C89_gp_likelihood_false); LeaveOneOutRMSE is the mean absolute error (C89_rmse_false, C89_rmse_partial)

### C90 SuiteSparse structures survive serialisation (partial)

* Model / theorems: Archive, SuiteSparse / SuiteSparseProps
* Modelled: the save and load functions member by member over a model of named archives; `malloc`, zstd and base64 by contract; the numbers of `cholmod_common` by name
* Proof: execution of the readers on what was written, induction over the lists of names and methods; counterexamples with witnesses
* Left out: integer widths of the members of `cholmod_common` (all numbers are reals); freeing of memory
* Note: Dense matrices, the settings of CHOLMOD, real sparse matrices and decompositions whose R factor is not cached are proved to round trip. The full claim is refuted: complex sparse matrices overflow the block allocated for their values, matrices without values or counts do not load from text archives, counts of the target survive, a cached R factor comes back as a different matrix, and saving an empty decomposition or one without column permutation reads through null.

### C91 Variants, priors and parameters survive an archive; a bad index is caught only by an assertion and the saved type name is never checked (partial)

* Model / theorems: Archive, Objects, VariantSerialProps
* Modelled: `save`/`load`/`load_variant` of variants, `serialize` of priors, `PriorContainer`, `Parameter`, `ParameterStore`; cereal's own containers
* Proof: induction over the statements of a `serialize` function, over elements of containers, and over the alternatives still to be tried; each alternative only has to survive itself
* Left out: cereal's encoding of numbers and strings (assumed faithful); the version is passed as a parameter
* Note: round trips proved for every variant, prior, parameter and store; the claim that the saved type is checked is refuted with a witness

### C92 Distributions, datasets, representations, fits and RANSAC records survive an archive; LDLT norm, sparse fit rank, model configuration and single threads do not (partial)

* Model / theorems: Archive, Objects, ObjectsProps
* Modelled: `serialize`, `save` and `load` of the remaining headers under cereal/ and the Eigen types of cereal/eigen.hpp lines 72-122, as lists of statements run in both directions; saving returns the object after saving because cereal casts `const` away
* Proof: one lemma about lists of statements that keep their members; LDLT through C58, parameters through C25 and C91
* Left out: features are any type that survives; covariance representations other than LDLT are required to survive; RANSAC strategies save only their functors and are not modelled separately
* Note: round trips proved; refuted with witnesses for the LDLT norm, the numerical rank of sparse fits, the configuration of models and pools of one thread; _partial theorems say exactly what survives

### C93 The incomplete gamma function is accurate (proved)

* Model / theorems: Stats / IncompleteGammaProps, IncompleteGammaWhole, IncompleteGammaTail, IncompleteGammaWholeProps, BoxPolynomials, QuadratureTable, QuadratureKernel, QuadratureError, GammaDensity, QuadratureAccuracy, QuadratureAccuracyProps
* Modelled: `incomplete_gamma_continuous_fraction`, `incomplete_gamma_quadrature`, `incomplete_gamma`, `chi_squared_cdf`
* Proof: integral as Kummer series, contiguous relations give the exact tails, error recursion up the fraction (z at most 12); for every z the fraction as a quotient of continuants, a closed form of its distance from the exact one and a sign argument (value never below the integral); between 12 and 34 the denominator is a polynomial in a and z bounded below on five boxes by comparing coefficients, read off as digits of one large number in the kernel; beyond, the upper tail; for a of 10 or more the Peano kernel of the rule of order 9, 14 and 19 bounded on every cell between nodes by exact integer arithmetic in the kernel, so that the error of the rule is the kernel's bound times the integral of a derivative of the density, which orthogonality of Laguerre polynomials bounds; Chernoff bounds for the mass outside the bounds of integration
* Left out: shapes below 1/2, rounding

### C94 Prior bounds agree with the support of the prior density (partial)

* Model / theorems: Parameters / PriorBoundsProps
* Modelled: `lower_bound`, `upper_bound`, `log_pdf`, `ensure_value_within_bounds`
* Proof: case analysis over priors; explicit counterexamples
* Left out: rounding
* Note: In bounds implies finite density for all but the log normal prior (C94_log_normal_false); the converse holds for uniform and non-negative priors and fails for positive (C94_positive_gap_false) and positive Gaussian (C94_positive_gaussian_false).

### C95 RANSAC entry points: codes, defaults, constructors and the fitted model (partial)

* Model / theorems: RansacModel, RansacModelProps
* Modelled: the return codes and their names, the configuration, the short and long free functions, the generic strategy, the model's constructors, name, search and fit, and prediction through the fit
* Proof: unfolding over the search proved in C33 and its companions; the failing short form by a concrete rejected candidate
* Left out: the streaming operators; the serialised form is in C92
* Note: The short constructor sets max_failed_candidates to 0 while the short free function allows max_iterations of them, so the two differ (C95_short_forms_false); they agree when no candidate is rejected (C95_short_forms_agree_partial). The streaming operators are not modelled.

### C96 Composed covariance functions: call traces, state space representations and uniform inducing points (partial)

* Model / theorems: CovTree, CovTreeProps
* Modelled: the composition tree with names, default names, callers and state space representations; CallAndValue, append_child_call_trace and get_trace on character lists; std::to_string of a double; UniformlySpacedInducingPoints
* Proof: induction on the tree; unique reading of a depth-annotated listing by induction with a continuation; the failing cases by concrete compositions
* Left out: the column layout of print_call_trace, stream formatting of composite values (a parameter), the variant types concatenate builds
* Note: Composite lines show the name of a default constructed composition (C96_trace_names_false), leaf values are printed with six decimals so a variance of 1e-8 shows as zero (C96_small_values_false), and products with scaling terms define no state space representation so their points are silently left out of a sum (C96_scaled_ssr, C96_ssr_false), as is the constant (C96_constant_left_out). Printing of the table is not modelled.

### C97 Operations on groupings return what their names say (proved)

* Model / theorems: GroupedOps, GroupedOpsProps
* Modelled: Every reduction of Grouped, index_apply, combine of doubles and of Eigen vectors (with the uninitialised memory as a parameter), GroupByBase::with in both forms, keys, size, apply, filter.
* Proof: Induction over the map in key order; with(other) through the positions of each key.
* Left out: Overflow and rounding of double sums; the overloads taking a thread pool (C40); void index_apply.

### C98 cross-validated predictions are those of refitting (partial)

* Model / theorems: CrossValidation / CrossValidationProps
* Modelled: `Prediction<CrossValidation>`, `CrossValidation::scores`, `get_predict_types`, the overloads of `GaussianProcessRegression`
* Proof: C04, C05, C30 with the others listed in dataset order
* Left out: template deduction beyond which overloads exist
* Note: proved: which overload is used, refitting per group, order of mean() and marginal(), scores; for Gaussian processes the means agree and the closed form's covariance is the refitted one plus measurement noise and target variance (C98_gp_closed_form), so distributions differ (C98_gp_joints_false); get for a map of joint distributions does not compile (C98_get_false, C98_get_partial)

### C99 Random matrices and vectors have the structure and law they are asked for (partial)

* Model / theorems: RandomMatrix, RandomMatrixProps
* Modelled: `random_fill`, `gaussian_fill`, `random_covariance_matrix`, `random_multivariate_normal`, `random_sparse_matrix`; Eigen's unblocked `LLT`
* Proof: loop invariants for the Cholesky loop (positive pivots by a kernel vector of the leading block) and for the set of taken positions; the law through affine images of normal vectors
* Left out: the Householder decomposition (any orthogonal Q), the standard library's distributions beyond their law or range, the blocked form of `LLT`
* Note: Proved: random_fill (C99_random_fill), random_covariance_matrix for any orthogonal Q (characteristic polynomial, definiteness), Eigen's Cholesky loop for every positive definite matrix, the normal law of the samples when the covariance is positive definite, the size checks, the structure of every sparse matrix returned, and that a fill in [0, 1] can always finish. False of the code and refuted with witnesses: a singular covariance (the decomposition stops and info() is not looked at, so the samples have another law), a fill above one (the call never returns), a matrix without rows or columns (undefined behaviour).

### C100 The maximum likelihood callback keeps the first best state and reports every improvement (proved)

* Model / theorems: MlCallback, MlCallbackProps
* Modelled: the callback, its loop and a whole run as a fold over iterations
* Proof: invariant: the callback would take a state exactly if it is a record among the states so far, and setting parameters on the updated store is the same as on the original one; induction over all visited states
* Left out: null stream pointers; formatting flags already set on the caller's stream

### C101 Printed parameters can be read back (partial)

* Model / theorems: NumberText, NumberTextProps, PrettyParams, PrettyParamsProps
* Modelled: `%e` and `%g` text of doubles digit by digit, `pretty_params`, `pretty_priors`, `pretty_param_details`, `get_name`
* Proof: the specification is a grammar of braced initialisers and a reader of decimal numbers; error bound of rounding to significant digits from the integer logarithm; uniqueness by cutting at characters that cannot occur
* Left out: the sign of zero; names longer than an int; bytes above 127 are characters
* Note: False of the code in two ways: a name with a quotation mark makes one parameter print like two (C101_quote_false), and 13 significant digits do not separate neighbouring doubles (C101_precision_false). For names that can stand in a string literal C101_params_partial gives the unique reading with relative error at most 5e-13, exact for values of at most 13 digits; C101_priors_partial the same for priors with 5e-6. C101_details covers the aligned details; on an empty set they dereference the end of the map (C101_details_empty), which the tuner never does (C101_details_invalid).

### C102 Priors and parameters compare equal only if they are the same (partial)

* Model / theorems: PrettyParams, PrettyParamsProps
* Modelled: `get_name`, the comparison operators of every prior, of `PriorContainer`, of `Parameter` and of stores
* Proof: the printed name determines the kind and the printed numbers (cut at brackets and commas); printed numbers determine the number up to half a unit of the sixth digit
* Left out: `operator==` of mapbox's variant beyond comparing the alternative; the sign of zero
* Note: False of the code: uniform and log scale uniform priors are compared by a name with six digits, so different bounds compare equal although a value is valid for one and invalid for the other (C102_uniform_false); != of containers compares names even for Gaussian priors, so two priors can be neither equal nor unequal (C102_not_equal_false). C102_equal_partial: equal priors have the same kind and numbers within 5e-6, and are the same if compared by number or of at most six digits; C102_reflexive, C102_symmetric, C102_transitive, C102_never_both, C102_parameters, C102_stores and C102_stores_exact hold for all.

### C103 Printed eigen directions are the extreme eigenpairs, in order, with their largest coefficients first (proved)

* Model / theorems: EigenDirections, EigenDirectionsProps
* Modelled: `_print_eigen_directions` and its two callers as functions to the text or a fault; the eigen solver and the two sorts are parameters
* Proof: solver assumed to return an orthonormal basis of eigenvectors of the symmetric matrix with the lower triangle of its argument, sorts to permute and order (such tools exist: `eigenTools_exist`); every eigenvector has a non zero coefficient on some basis vector with the same value, hence is printed or comes later; the text follows by induction on the loops
* Left out: rounding in the solver; stream state other than the default

### C104 Conditional setters change what exists, only the first holder, and say so (proved)

* Model / theorems: AnySetter, AnySetterProps
* Modelled: the conditional setters for objects and the variadic setter over a list of objects
* Proof: by C25 and C26 for one object, by induction over the list; the inlined setters of composed objects are shown equal to the variadic one
* Left out: aliasing of the objects handed over

### C105 A pool made for n threads has n threads, also after saving, and the sparse QR gets the same number (partial)

* Model / theorems: QrSetup, QrSetupProps
* Modelled: pools as thread counts, `make_shared_thread_pool`, `get_thread_count`, `SPQR_set_threads`
* Proof: case analysis
* Left out: the thread pool library; MKL initialisation
* Note: C105_count, C105_serial and C105_saved hold in full. C105_spqr_threads_partial needs n other than 1: for one thread there is no pool and SPQR_set_threads leaves the thread count of the QR as it was (C105_spqr_threads_false). Counts from 2^31 on are changed by the cast to int (C105_cast).

### C106 The pivot threshold of the sparse QR is tighter than SuiteSparseQR's and follows the scale of the matrix (partial)

* Model / theorems: QrSetup, QrSetupProps
* Modelled: `SPQR_pivot_threshold` on the list of column norms, and what `SPQR_create` sets
* Proof: the maximum by induction over the columns, then arithmetic
* Left out: rounding; the factorisation itself (see C49)
* Note: C106_large, C106_zero, C106_nan, C106_scales_partial and C106_tighter_partial (a factor of 200) cover matrices with at least 300 rows and columns. Below, the threshold is 1e-15 whatever the matrix (C106_small), so the claim is false: for a small multiple of the identity the threshold exceeds SuiteSparseQR's default and every column, so that the matrix counts as zero (C106_small_false).

### C107 Printing an object writes to the stream it is given, and only there (partial)

* Model / theorems: Printing, PrintingProps
* Modelled: The seven stream operators over a state that holds the text of every stream; std::cout is stream 0
* Proof: The exact text is given by separate definitions and every other stream is shown unchanged; for Graph and JointDistribution the given stream is shown untouched and std::cout changed
* Left out: The text of features and keys (a parameter), Eigen's IOFormat beyond the default, stream flags and failing streams
* Note: False for Graph and JointDistribution (C107_graph_false, C107_joint_false): their operators ignore the stream on the left and write to std::cout. Proved for the other types, with the exact text appended.

### C108 The call trace is printed as an aligned table with one line per call (proved)

* Model / theorems: Printing, PrintingProps
* Modelled: print of CallTrace: the width of the value column, padding and the lines
* Proof: The text is given line by line; alignment is shown from the lengths
* Left out: abi::__cxa_demangle (names are those of the tree)

### C109 Every value of a serialised feature becomes a column of the CSV (partial)

* Model / theorems: XmlFlatten, XmlFlattenProps
* Modelled: flatten_xml_serialization and to_map on the parsed tree, to_map of a double
* Proof: Mutual induction over the tree and its lists of children: a lookup is the last non-empty value with that dotted name
* Left out: The XML archive of cereal and the rapidxml parser (the parsed tree is the input)
* Note: False for empty values, which have no column (C109_empty_false), for names with dots, where the later value overwrites the earlier (C109_collision_false), and for members called target, prediction etc. (C109_target_false). Exact contents of the map proved for all trees (C109_lookup); the claim holds when values are not empty and dotted names differ, for which names without dots and different sibling names are enough (C109_dotted_injective).

### C110 A tuning run stays within the priors, returns the best parameters seen and says why it stopped (partial)

* Model / theorems: TuneRun, TuneRunProps
* Modelled: to_string of results, default_optimizer, default_gradient_optimizer, run_optimizer, GenericTuner::tune for parameter stores with everything it prints, ModelTuner; NLopt is an arbitrary interactive process (a tree of questions and answers)
* Proof: Induction over the process with an invariant on the evaluations; monotonicity of the logarithm for the start
* Left out: The algorithms of NLopt, exceptions thrown by the objective, stream format flags set by the caller, the overloads for vectors (C54)
* Note: False for runs that end with a failure code such as roundoff limited: the C++ interface of NLopt throws and the best parameters are lost (C110_failure_false). Proved for all other runs. Parameters outside of their bounds and a tuner whose model was replaced by one with another number of parameters stop in an assertion or in NLopt.

### C111 A prediction is that of the fit it was made from (partial)

* Model / theorems: FitLifetime, FitLifetimeProps
* Modelled: Fitted models as objects with life times, predictions as owning or referring objects, overload resolution by value category, programs as lists of statements; model and fit are arbitrary types
* Proof: Induction over programs of a frame invariant: objects that are not touched keep their state, dead ones stay dead, predictions stay what they are
* Left out: What the move constructors leave behind is an arbitrary function; exceptions and threads
* Note: False as stated: predict_with_measurement_noise on a temporary, and predict on a const temporary, return a prediction that refers to the dead temporary, so every later use is undefined behaviour (C111_temporary_false); predictions of a named fitted model follow later changes of it (C111_named_false). Proved: predictions evaluated where they are made, from rvalues and from temporaries are right for ever; the others as long as nothing touches the fitted model; updates.

### C112 Models that compare equal are the same model (partial)

* Model / theorems: ModelEquality, ModelEqualityProps
* Modelled: Comparison of models by parameters, name and insights; the object structure of Gaussian processes, RANSAC models; default names
* Proof: Structural induction over the composed object: equal maps of parameters give equal values in every part when names are separate
* Left out: Comparison of the fits themselves is a parameter
* Note: False as stated: strategy and configuration of a Ransac do not count (C112_ransac_false), nor does the inducing point strategy of a sparse Gaussian process (C112_sparse_false), nor a parameter hidden by another of the same name (C112_shared_false); a model with a NaN parameter differs from itself. Proved: the exact meaning of the comparison, symmetry, transitivity, reflexivity without NaN, and that all values agree where no two parts share a name.

### C113 Provided functions compute with the parameters they show (partial)

* Model / theorems: ProvidedFunctions, ProvidedFunctionsProps
* Modelled: The constructors with their names, defaults and priors, and the calls as readings of the members an object holds, for the four radial functions, Constant, Polynomial, IndependentNoise, Nugget, LinearMean, ZeroMean, sums and products.
* Proof: Induction over the type of the function against a textbook formula over an environment of named values; setting goes through C25 and the fact that setting a parameter keeps the type of an object at every level; positive semi-definiteness by induction from C22 and the closure properties.
* Left out: Other feature types and distance metrics (C20, C22, C65), functions that accept only one of the two sides' types (C20), infinite or NaN parameters in a call, rounding.
* Note: False when a name occurs twice: the sum of two constants goes on showing the value of the right one after set_param has changed the left one (C113_shared_false). Proved for objects without a shared name; positive semi-definiteness, defaults and constructors without that restriction. Features are doubles with EuclideanDistance; infinite and NaN parameters are not modelled in a call.

### C114 Map operations are right for keys of two types and for any comparator (partial)

* Model / theorems: MapCompare / MapCompareProps
* Modelled: every operation of map_utils.hpp with comparator objects and two key types; a comparison of keys is total and cannot throw
* Proof: the merge as a list of callback calls, shown to be in order and to be the right calls; insertion into a map ordered by another comparator; concrete comparators
* Left out: comparators that throw (an empty std::function)
* Note: Full claim false. C114_state_false: the result is made with a default comparator, and entries are lost although both maps have the same state; C114_requery_false: the result does not work together with the map it comes from; C114_conversion_false: a one to one conversion of keys is not enough. The _partial theorems hold when the default comparator tells apart what the map's comparator does and a converted key is the same key for the comparator.

### C115 A model predicts the textbook posterior for the parameters it was given or tuned to (partial)

* Model / theorems: WholeModel / WholeModelProps
* Modelled: set_params on a whole model, then fit and joint prediction, and a whole tuning run with the negative log likelihood as objective; doubles as features, exact arithmetic, Eigen's LDLT by contract
* Proof: composition of C25 (setting), C113 (functions compute with what they show), C22 (positive semi-definite), C27 (posterior), C39 (what the likelihood is) and C110 (tuning runs); a concrete measurement with a variance for the negation
* Left out: infinite and NaN parameters in calls; products with measurement_only functions
* Note: Full claim false. C115_variance_false: with variances the tuner prefers the worse parameters. C115_predict_partial and C115_tune_partial prove the rest for models without a name used twice (C113_shared_false shows what happens otherwise); C115_invertible says when the covariance is invertible.

### C116 A sparse model uses the inducing points and predicts the sparse posterior for the parameters it was given (partial)

* Model / theorems: SparseWhole / SparseWholeProps
* Modelled: the factories and initialize_params, both inducing point strategies on the covariance object as set, set_params, fit, joint prediction and log likelihood; doubles as features and inducing points, exact arithmetic, Eigen's LDLT and QR by contract
* Proof: composition of C25 (setting), C113 (functions compute with what they show), C81 and C96 (inducing points), C35 (sparse posterior) and C38 (likelihood); a constant mean for the negation
* Left out: infinite and NaN parameters in calls; products with measurement_only functions; update and rebase (C36)
* Note: Full claim false. C116_mean_false: with a mean function that is not zero at the training points the targets are not centred, the prediction is that for targets with the mean added once more (C116_code_value). C116_predict_partial proves the rest for models without a name used twice; C116_factory for what the factories make.

### C117 The likelihood, CRPS and variogram scores are proper, also for a truth measured with noise (proved)

* Model / theorems: ProperScores / LogScore, ProperScoresProps
* Modelled: the overloads of the variogram and the energy score for a truth with a covariance; the scores themselves as for C40, C61, C68
* Proof: `log det T + n <= log det S + tr(S^-1 T)` by the spectral theorem, expected quadratic forms, convolution of normal laws, strict convexity of the mean absolute value, and the decomposition of a mean square about a constant
* Left out: propriety of the energy score, whose expectation over the generator is not modelled

### C118 A Gaussian process predicts as well as can be and states its own error (proved)

* Model / theorems: Gp / GpProps, LogScore, OptimalProps
* Modelled: as for C27: `_fit_impl`, `gp_joint_prediction` over the reals
* Proof: the block-triangular map from values and targets to errors and targets; the Pythagorean identity for uncorrelated errors; independence of uncorrelated jointly normal vectors; completing the square for nested training sets
* Left out: rounding; the sparse model, whose predictions are optimal only for its own approximation

### C119 The chi squared score is a probability and RANSAC's candidate check keeps its error rate (proved)

* Model / theorems: Stats, RansacGp / ChiSquaredLaw, ChiSquaredLawProps
* Modelled: as for C50, C87 and C93: the chi squared functions, the metrics and the candidate check
* Proof: density of independent normal variables, integration over spheres, whitening with the Cholesky factor, the probability integral transform, the accuracy of the incomplete gamma function (C93), monotony of inverses, and C118 for Gaussian processes
* Left out: rounding; conditional candidates of a running RANSAC, whose subsets depend on the data

### C120 The ensemble sampler leaves its target distribution invariant (proved)

* Model / theorems: Sampler / StretchLaw, StretchWalkers, StretchWalkersProps
* Modelled: as for C46: the step, the loop and the start from parameter vectors
* Proof: detailed balance: the substitution x -> c + z (x - c) multiplies volumes by z^d, z -> 1/z is a substitution of the uniform draw with factor 1/z; acceptance integrates to the smaller of the two flows; coordinates that coincide have probability zero; one walker moves while the others are fixed (marginal integrals); induction over the moves with an infinite sequence of independent draws; the code's run equals the sequence of moves (refinement over splits, walkers and iterations)
* Left out: rounding; engines with finitely many outputs; ergodicity, that is convergence from other starting points

### C121 Random subsets are uniform and independent (proved)

* Model / theorems: Random, Ransac / RandomLaw, RandomLawProps
* Modelled: as for C16: the rejection loop on a set, the branch that draws the complement and shifts it, the sampling of elements, with the outputs that are left over
* Proof: the code is a draw loop whose result is kept or complemented (refinement); the number of output sequences that yield given subsets obeys a recursion that depends on the sizes only (induction over calls and outputs); the recursion divided by K^L converges by an affine contraction, to one over the binomial coefficient; events are disjoint unions of lists of subsets
* Left out: distributions that use several outputs for one value; engines that are not uniform

### C122 RANSAC finds the good groups with the textbook probability (proved)

* Model / theorems: Ransac, Random / RansacLaw, RansacLawProps
* Modelled: as for C44 and C16: the whole loop with its sampler and the outputs of the engine
* Proof: samples are sets of positions (refinement); events after given samples; one step of the loop splits an event by the sample drawn, and C121 gives the limit for each list of samples; induction over the iterations and failures that are left, with what is known of the best iteration as invariant; the recursion is solved by a negative binomial sum
* Left out: the fixed seed of the engine; supplied functions with state

### C123 Cross-validated chi squared scores of the right model (partial)

* Model / theorems: CrossValidation, HeldOut, RansacGp, CvLaw / CvLawProps
* Modelled: the metric ChiSquaredCdf; the rest as for C98 and C119
* Proof: the closed form is an affine function of the targets, so its error is normal and its covariance is the inverse of a block of the inverse covariance; C98 for what is scored, C119 for the law of the score of a normal deviation; a numerical bound of the chi squared density for the counterexample
* Left out: the joint law of the scores of different groups
* Note: The uniform law is false of the code for scoring a dataset with the Gaussian process's own cross validation: the variances of the targets count twice (C123_closed_form_false); C123_closed_form_partial shows that the scores are then stochastically too small, and uniform for groups without target variances. Proved in full: C123_errors; C123_uniform for scoring folds and for models without specialised cross validation, if measuring adds nothing but the target variances; C123_measuring_noise: otherwise these scores are too large.

### C124 Scores of batches predicted one after the other add up to the log density of the data (proved)

* Model / theorems: EvidenceProps
* Modelled: predicting with measurement noise and scoring (Prediction, ModelMetrics), one batch after the other with concatenate_datasets; fits and predictions as for C27
* Proof: the prediction is the conditional law (C27), the chain rule of normal densities, induction over the batches; densities do not change when rows are permuted, which a bijection of positions from a permutation of lists shows
* Left out: updating instead of fitting again (C28)

### C125 The process the data come from has the best expected likelihood and cross validated score (partial)

* Model / theorems: TrueModel, TrueModelProps
* Modelled: log_likelihood (Gp), cross validated scores with the joint negative log likelihood (CrossValidation, ModelMetrics), LeaveOneOutLikelihood
* Proof: errors of held out rows are linear in the targets; the covariance of the error of any linear predictor exceeds that of the conditional one by a positive semidefinite matrix; the log score inequality with its equality case; equal weights and covariances of all groups give equal inverse covariances
* Left out: laws of the tuned parameters
* Note: False with target variances, which log_likelihood ignores and the closed form of cross validation counts twice: C125_likelihood_variance_false (a process of variance two beats the true one of variance one), C125_leave_one_out_variance_false (a process of variance zero beats the true one). C125_likelihood_best says which processes are best then. C125_cross_validation (refitting, any variances) needs that measuring adds nothing but the errors of the targets.

### C126 The process the data come from has the smallest expected root mean square errors (proved)

* Model / theorems: RmseTruth, RmseTruthProps
* Modelled: RootMeanSquareError of mean predictions and LeaveOneOutRMSE on top of the model of cross validation (CrossValidation)
* Proof: The error of the process the targets come from is normal with mean zero and independent of the other rows; any other predictor adds something independent, which cannot make the error smaller on average because the law is symmetric; equality forces the added part to vanish because the error comes near to zero with positive probability
* Left out: Exact arithmetic

### C127 Which covariance functions go with which distances (partial)

* Model / theorems: KernelMetrics, DistanceKernels, KernelMetricsProps
* Modelled: exponential_covariance on any double with its assertion, the four radial functions on the three metrics of distance_metrics.hpp
* Proof: The square root is a mixture of 1 - exp(-s / x^2), so square roots of squared distances moved by a constant are variograms and their exponentials are positive semi-definite; the Matern functions are mixtures of these. The arc sine of a positive semi-definite function is one, being a mixture of Gaussian integrals, and the angle is pi/2 minus the arc sine of the cosine. Functions flat at zero and falling at pi have a negative form on four points of a circle
* Left out: Exact arithmetic; the static_asserts themselves are compile time checks and only justified, not modelled
* Note: The last claim is false of the code: C127_angular_false gives, for every length scale and sigma, three unit vectors with a negative quadratic form, because angular_distance rounds an angle of 1e-8 to zero and does not round 2e-8. C127_angular_partial bounds the violation by sigma^2 3e-8 / l times the squared sum of the absolute weights and shows there is none when no angle is rounded. A zero vector gives NaN or stops a debug build (C127_angular_zero). Everything else is proved.

### C128 A sparse Gaussian process is close to the dense one when its inducing points explain the variances (proved)

* Model / theorems: SparseCloseProps
* Modelled: Nothing new: the sparse model (SparseGp), the dense model (Gp) and the grids (Utils)
* Proof: Unexplained covariance is positive semi-definite, so bounded by what is left of the variances; the difference of the two covariance matrices of the targets and of the cross covariances is then small, and solutions are bounded by the noise. Cauchy-Schwarz for one inducing point, the distance to the next grid point (C81) for the numbers
* Left out: Exact arithmetic

### C129 Type traits decide what their names say (partial)

* Model / theorems: Traits, TraitsProps
* Modelled: Types as a tree (classes, wrapped types, variants), the specialisations of the traits as functions on types, overloads as choices between outcomes; a compile error inside a trait is an outcome of its own
* Proof: Induction over the alternatives; the decisions of the other traits by cases; the false claims by concrete types
* Left out: Implicit conversions between types, cv-qualifiers and references of types, is_invocable and the traits of groupers
* Note: False of the code in four places, each with a witness: alternatives which are variants end the recursion of variant_any and variant_all, so a variant of a variant is a sub variant of everything (C129_variants_false, C129_set_variant_false); map_union_traits has no definition for functions that cannot be called, so the explanation of map_union is never reached (C129_merge_false); can_project_key is always true (C129_project_key_false); two variants with the same alternatives in another order have a valid covariance but not for the caller that unpacks variants (C129_variant_caller_false). The other statements are proved without restriction or for variants without variants among their alternatives.

### C130 The temperature example predicts the process it describes (partial)

* Model / theorems: TemperatureExample, TemperatureExampleProps
* Modelled: Station, its equality, the elevation scaling, the reading loop with its counter, the composed covariance function as a Caller, the model as an object with parameters, the calls that set them, fit and marginal prediction
* Proof: the composed value by C20 and C75, the angle by C83 and C127, a lower bound of the quadratic form by the noise minus the rounding of angles, conditioning by C27; the parameters by evaluation of the setters
* Left out: parsing of columns, command line, overflow of the row counter
* Note: C130_scaling, C130_parameters, C130_reading: the parts. C130_covariance: what is computed is the described covariance, up to 3e-8/l of its spatial term because small angles are rounded to zero (exactly if they are not). C130_psd, C130_posdef, C130_prediction: the described covariance is one; the matrix of distinct stations is positive definite and the predictions are conditional distributions. C130_example: the whole program with its tuned values and at most 100000 stations. The claim is false in two places: an empty file and thin = 0 are undefined behaviour (C130_reading_false); predict_with_measurement_noise scales only one of the two stations of a covariance, so the predicted measurement at a measured station is not its temperature (C130_measured_false; the example calls predict).

### C131 The examples on the line write the predictions of the process they describe (partial)

* Model / theorems: SincExample, SincExampleProps
* Modelled: Grid, true function, csv input, the three modes as constructed and their predictions with measurement noise, inspection of the constant
* Proof: Fold to map for the grid; Mathlib's sinc; C64 and the round trip of std::to_string for the file; C27 and C20 for predictions and inspection
* Left out: Random training data, tuning, printing; the csv reading library is specified, not modelled
* Note: The grid needs two points, the file a row, and the predictions distinct inputs: the claims without these conditions are refuted by C131_grid_false, C131_file_false, C131_rounding_false with C131_prediction_false, and C131_parametric_false.

### C132 The log likelihood of a sparse model is near the dense log density (partial)

* Model / theorems: SparseLikelihoodProps
* Modelled: SparseGp.logLikelihood and Gp.logLikelihood over the reals
* Proof: C38 for the value; log det T - log det S <= tr S^-1 (T - S) and bounds of inverses for the distance; C128 for the state space grid
* Left out: Rounding
* Note: Proved against the dense log density. The comparison with the dense model's log_likelihood is refuted by C132_dense_false.

### C133 Nuggets keep covariance matrices positive definite in doubles (partial)

* Model / theorems: Rounding, RoundedCode, RoundedCodeProps
* Modelled: The covariance functions, their sum, the nuggets in rounded arithmetic with any rounding to nearest
* Proof: Neighbouring doubles of a number for lost and kept sums; quadratic forms with bounded errors for positive definiteness
* Left out: Overflow, underflow, NaN, fused operations; errors of exp, pow and sqrt are a hypothesis
* Note: False for the default Nugget, which is lost in sums with variances of at least one (C133_nugget_lost, C133_nugget_false), and without a nugget (C133_semidefinite_false). C133_nugget_partial and C133_inducing_nugget prove it for nuggets above the errors.

### C134 Grids, angles and symmetry in doubles (partial)

* Model / theorems: Rounding, RoundedCode, RoundedCodeProps
* Modelled: linspace, the branches of angular_distance, the covariance functions of doubles in rounded arithmetic
* Proof: Induction over the loop with the error of each addition; spacing of doubles next to one; induction over the composition
* Left out: Overflow, underflow, NaN, fused operations; acos itself
* Note: The last point is refuted by C134_last_false, the symmetry of polynomials by C134_symmetric_false; the rest is proved (C134_grid_partial, C134_angular, C134_symmetric_partial).

### C135 Accuracy of covariances computed in doubles (proved)

* Model / theorems: Rounding, RoundedCode, RoundedErrors, RoundedErrorsProps
* Modelled: The covariance functions of doubles, their sums and products, the inducing nugget in rounded arithmetic
* Proof: Error calculus (Close) by induction over the composition; mean value theorem for the relative error of the arguments of exp; errors smaller than the nugget leave the quadratic form positive
* Left out: Overflow, underflow, NaN, fused operations; the code of exp, pow and sqrt; the decomposition itself

### C136 Accuracy of metrics computed in doubles (partial)

* Model / theorems: Rounding, RoundedErrors, RoundedStats, RoundedStatsProps
* Modelled: root_mean_square_error and standard_deviation in rounded arithmetic, sums as trees of additions
* Proof: Error calculus (Close) by induction over the tree of additions and over the loop; the tie between two doubles is resolved either way
* Left out: Overflow, underflow, NaN, fused operations
* Note: The standard deviation of equal numbers is refuted by C136_constant_false; the rest is proved (C136_rmse, C136_standard_deviation_partial).

### C137 Predicted variances in doubles (partial)

* Model / theorems: Rounding, RoundedErrors, RoundedStats, RoundedStatsProps
* Modelled: The variance of gp_marginal_prediction and the fit of one observation in rounded arithmetic
* Proof: Error calculus (Close), the reciprocal of a rounded number, monotonicity of rounding; concrete doubles for the refutation
* Left out: Overflow, underflow, NaN, fused operations; Eigen's decomposition of more than one training feature
* Note: That variances are not negative is refuted by C137_negative_false; the rest is proved (C137_marginal, C137_one_partial, C137_observed).

### C138 The sparse example (partial)

* Model / theorems: SparseExample, SparseExampleProps
* Modelled: The model as constructed, the leave one out groups, the inducing points, fitting, predicting on the grid, reading the file
* Proof: Conditional distribution of C35; noise is left after any positive semi-definite part is explained; Cauchy-Schwarz in the inverse covariance
* Left out: Random training data, tuning, flags, what is printed; floating point
* Note: That no variance is below the noise is refuted by C138_floor_false; it is proved where it holds (C138_floor, C138_predictions_partial), with what happens at inducing points (C138_at_inducing), the grouping (C138_groups), the constructed model (C138_model), the true function (C138_truth) and reading the file (C138_example).

### C139 The numbers of a call trace (partial)

* Model / theorems: TraceExample, TraceExampleProps
* Modelled: The functions of the example with their default parameters, the trace and the printed table with the text of every number
* Proof: Digits of the decimal texts are read back; values of sums and products from the callers; the text is computed
* Left out: Rounding of the values before they are written; features other than basic types in the arithmetic
* Note: The relative claim for products is refuted by C139_product_multiplies_false; with the errors of the three lines it is C139_product_multiplies_partial. Sums (C139_sum_adds_up), single lines (C139_shown) and the text of the example (C139_example) are proved. Values are real numbers, rounded only where they are written.

### C140 What the sampler of a model samples (partial)

* Model / theorems: SamplerExample, SamplerExampleProps
* Modelled: The objective of a model's sampler with the parameters set on a copy of the object, the model and data of the mode test_gp
* Proof: The parameters set are a function of the clamped vector; Fubini along the bounded coordinate; the Gaussian density of independent noise in closed form
* Left out: The log likelihood of the other modes in closed form; rounding; tuning before sampling is C80 and C110
* Note: That the objective is not finite outside the bounds is refuted by C140_posterior_false and C140_leaves_false; what it is there and within the bounds is C140_objective_partial. C140_improper is for any model and number of parameters, C140_posterior_proper shows that the posterior itself is proper. The likelihood is over the real numbers.

### C141 The condition number of a block diagonal decomposition (proved)

* Model / theorems: BlockRcond, BlockRcondProps
* Modelled: The stored norm of a block, the loop over the blocks and Eigen's helper with the solve of the block decomposition
* Proof: Columns of the block diagonal matrix are those of the blocks; the largest column sum is the induced norm; the solve of C33 gives the estimate
* Left out: Rounding; which right hand side the estimate ends at

### C142 Predicted means in doubles (partial)

* Model / theorems: RoundedMean, RoundedMeanProps
* Modelled: Removing and adding the mean function, the product of cross covariances and information, and the fit of one observation, each operation rounded
* Proof: The error calculus of C135 and the sums of C136; exact values of three divisions and products for the counterexamples
* Left out: Overflow, underflow, fused multiplication and addition; the decomposition of more than one observation
* Note: The last part is false of the code: with a constant covariance of sigma = 7 and an observation of 1 without noise the mean predicted for the observed feature is the double below 1 (C142_interpolates_false), and with a mean function of 1 an observation of 2^-60 is predicted as 0 (C142_cancels_false). The error of the information of more than one observation is a hypothesis: Eigen's LDLT is not modelled in doubles.

### C143 Predicted covariances in doubles (partial)

* Model / theorems: RoundedJoint, RoundedJointProps
* Modelled: The covariance of gp_joint_prediction and the fit of one observation, each operation rounded
* Proof: Each entry is a predicted variance of C137 with one column of each matrix; a symmetric training covariance makes the exact explained covariance symmetric; exact values of one division and one product for the counterexample
* Left out: Overflow, underflow, fused multiplication and addition; the decomposition of more than one observation
* Note: The last part is false of the code: with the linear covariance function and one observation of the feature 5 the covariances predicted between the features 5 and 11 are 0 in one triangle and -2^-47 in the other (C143_symmetric_false); they agree up to the errors of the entries (C143_symmetric_partial). The error of the solution for more than one observation is a hypothesis: Eigen's LDLT is not modelled in doubles.

### C144 Noise and the training covariance in doubles (partial)

* Model / theorems: RoundedTrain, RoundedTrainProps
* Modelled: The sum of the covariances and the diagonal of target variances, rounded
* Proof: The error of the quadratic form is at most the error of the entries times the squared sum of the absolute coefficients, which is at most n times the sum of squares; absorption of small terms for the counterexample
* Left out: Overflow, underflow; target covariances that are not diagonal
* Note: The last part is false of the code: two observations of one feature of variance 1 have a singular training covariance in doubles for every noise variance below 2^-53 (C144_definite_false). C144_definite_partial says which noise is enough: more than the relative error of the entries times the number of observations and the largest covariance.

### C145 The likelihood of independent deviations in doubles (partial)

* Model / theorems: RoundedLikelihood, RoundedLikelihoodProps
* Modelled: M_PI, the logarithm of the normal density and the loop over the deviations, each operation rounded
* Proof: The error calculus of C135; an error of the argument of the logarithm is an absolute error of its value; monotone rounding for the order; the irrationality of pi for the counterexample
* Left out: Overflow, underflow; the likelihood by a decomposition
* Note: The last part is false of the code: at a variance near 1 / (2 pi) the likelihood of a deviation of zero is computed as 0 although it is not (C145_relative_false). The likelihood by an LDLT decomposition is not modelled in doubles.

### C146 Solutions computed in doubles satisfy their equations (proved)

* Model / theorems: RoundedSolve, RoundedSolveProps
* Modelled: Forward and backward substitution, the division by the pivots with its tolerance and the permutations of Eigen's LDLT, each operation rounded and each row added in any order
* Proof: Each row is a rounded sum (C136), so no induction is needed for the residuals; they are put together with the absolute factors
* Left out: The factorisation; overflow, underflow, fused multiplication and addition
