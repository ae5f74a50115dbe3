{"id": "C01", "title": "inverse_transform never leaves the search space", "statement": "Whenever Space.inverse_transform returns, every returned point has one component per dimension and every component is a legal value of its dimension (numeric components between the bounds, categorical components one of the categories), whatever numbers are passed in and however the intermediate arithmetic is rounded.", "quantifier": "every space built from valid dimensions (any mix, any prior, base, transform), every transformed matrix, every rounding behaviour of the floating point operations before the final clip", "why_tests_cant": "The matrix comes from an acquisition optimiser and can hold any float; membership depends on the clip happening after all rounding, which sampling a few matrices cannot show.", "anchors": ["skopt/space/space.py:Space.inverse_transform", "skopt/space/space.py:Real.inverse_transform", "skopt/space/space.py:Integer.inverse_transform", "skopt/space/space.py:Categorical.inverse_transform"]}
{"id": "C02", "title": "transform / inverse_transform round trip", "statement": "For points inside the space, Space.inverse_transform(Space.transform(X)) gives back X, for any mixture of real, integer and categorical dimensions and any supported transform.", "quantifier": "every valid space, every non-empty list of points inside it (exact real arithmetic)", "why_tests_cant": "The column offsets depend on every earlier dimension's encoded width; the number of combinations of dimension kinds, transforms, bases and category counts is unbounded.", "anchors": ["skopt/space/space.py:Space.transform", "skopt/space/space.py:Space.inverse_transform", "skopt/space/transformers.py:Normalize", "skopt/space/transformers.py:LogN", "skopt/space/transformers.py:CategoricalEncoder", "skopt/space/transformers.py:LabelEncoder"]}
{"id": "C03", "title": "shape and layout of the transformed matrix", "statement": "Space.transform returns one row per point, each row has Space.transformed_n_dims entries, Space.transformed_bounds has the same number of entries, and the block of dimension j starts after the blocks of the earlier dimensions.", "quantifier": "every valid space, every list of points inside it", "why_tests_cant": "Holds for every combination of encoded widths; a test fixes one combination.", "anchors": ["skopt/space/space.py:Space.transform", "skopt/space/space.py:Space.transformed_n_dims", "skopt/space/space.py:Space.transformed_bounds", "skopt/space/space.py:Categorical.transformed_size"]}
{"id": "C04", "title": "transformed points respect transformed_bounds", "statement": "Every coordinate of a transformed in-space point lies inside the corresponding entry of Space.transformed_bounds, so that clipping a candidate to transformed_bounds (as the optimizer does) never changes the image of a legal point.", "quantifier": "every valid space, every point inside it", "why_tests_cant": "Needs every prior/base/transform combination and every point; the violating combinations (log-uniform with a base other than 10, log-uniform integers, label-encoded categories) are not the ones tested.", "anchors": ["skopt/space/space.py:Real.transformed_bounds", "skopt/space/space.py:Integer.transformed_bounds", "skopt/space/space.py:Categorical.transformed_bounds", "skopt/optimizer/optimizer.py:Optimizer._tell"]}
{"id": "C05", "title": "random samples are inside the space", "statement": "Space.rvs(n) returns exactly n points, each with one component per dimension, each component inside its dimension, whatever the random generator returns.", "quantifier": "every space of valid dimensions (Integer bounds that are integers, a dtype that can represent the bounds, distinct categories), every n, every sequence of raw draws", "why_tests_cant": "Tests draw finitely many seeds; raw draws at the rounding edges (slightly above the inclusive upper end) are never hit.", "anchors": ["skopt/space/space.py:Space.rvs", "skopt/space/space.py:Dimension.rvs", "skopt/space/space.py:Categorical.rvs"]}
{"id": "C06", "title": "Space.distance is a metric on the space", "statement": "On points of the space, distance is zero exactly for equal points, symmetric, non-negative and satisfies the triangle inequality; a point with a component outside its dimension is rejected with an error.", "quantifier": "every valid space, all pairs / triples of points", "why_tests_cant": "Metric laws quantify over all triples of points.", "anchors": ["skopt/space/space.py:Space.distance", "skopt/space/space.py:Real.distance", "skopt/space/space.py:Integer.distance", "skopt/space/space.py:Categorical.distance"]}
{"id": "C07", "title": "a point is accepted by tell exactly when it belongs to the space", "statement": "The input check used by tell accepts a single point iff it has one component per dimension and every component is legal, and accepts a batch iff that holds for every point of the batch.", "quantifier": "every space, every point or batch of points", "why_tests_cant": "Membership is computed by zipping components with dimensions, so wrong lengths are an unbounded class of inputs.", "anchors": ["skopt/utils.py:check_x_in_space", "skopt/space/space.py:Space.__contains__"]}
{"id": "C08", "title": "initial point generators leave the space's transforms as they found them", "statement": "After InitialPointGenerator.generate returns, every dimension has the transform it had before the call, for every generator.", "quantifier": "every generator and option, every space and every assignment of transforms to dimensions", "why_tests_cant": "Generators switch all dimensions to 'normalize' and back; restoring must be right for all mixtures of transforms.", "anchors": ["skopt/sampler/sobol.py:Sobol.generate", "skopt/sampler/lhs.py:Lhs.generate", "skopt/sampler/halton.py:Halton.generate", "skopt/sampler/hammersly.py:Hammersly.generate", "skopt/sampler/grid.py:Grid.generate", "skopt/space/space.py:Space.set_transformer", "skopt/space/space.py:Space.get_transformer"]}
{"id": "C09", "title": "equal spaces are interchangeable", "statement": "If two spaces compare equal they have the same number of dimensions of the same kinds, and equality is reflexive and symmetric.", "quantifier": "all pairs of spaces", "why_tests_cant": "Equality zips the two dimension lists and uses an asymmetric tolerance, which only special pairs reveal.", "anchors": ["skopt/space/space.py:Space.__eq__", "skopt/space/space.py:Real.__eq__", "skopt/space/space.py:Integer.__eq__", "skopt/space/space.py:Categorical.__eq__"]}
{"id": "C10", "title": "dimension kind inferred from a bounds tuple", "statement": "A list/tuple specification becomes a Real, Integer or Categorical dimension exactly as documented: two integers give Integer, two numbers with at least one float give Real, a third prior argument keeps the numeric kind of the bounds, everything else is Categorical, and an empty specification is rejected.", "quantifier": "every specification list of numbers and strings", "why_tests_cant": "The decision table is over unbounded lengths and mixtures of types; some mixtures (an int low bound, float high bound and a prior) are mis-classified.", "anchors": ["skopt/space/space.py:check_dimension"]}
{"id": "C11", "title": "lookup of dimensions by name or index", "statement": "space[name] returns the unique dimension carrying that name together with its index, space[i] returns the i-th dimension, and an unknown key is reported as absent, for spaces whose names are distinct.", "quantifier": "every space with distinct names, every key", "why_tests_cant": "Name clashes with default names and negative indices are input-dependent.", "anchors": ["skopt/space/space.py:Space.__getitem__", "skopt/space/space.py:Space.dimension_names"]}
{"id": "C12", "title": "point_asdict and point_aslist are mutually inverse", "statement": "Converting a point to a dict keyed by parameter name and back gives the original point, and each name is bound to the component of its own dimension in sorted-name order.", "quantifier": "every search space dict, every point of matching length", "why_tests_cant": "Alignment relies on sorting names in two different functions.", "anchors": ["skopt/utils.py:point_asdict", "skopt/utils.py:point_aslist", "skopt/utils.py:dimensions_aslist"]}
{"id": "C13", "title": "use_named_args passes every component under its dimension's name", "statement": "The wrapped objective is called exactly once with a dict mapping each dimension name to the component at that dimension's position, and a point of wrong length is rejected without calling the objective.", "quantifier": "every list of named dimensions, every point", "why_tests_cant": "Quantifies over all lengths and all name assignments.", "anchors": ["skopt/utils.py:use_named_args"]}
{"id": "C14", "title": "Normalize is an order isomorphism onto the unit interval", "statement": "Normalize maps its interval into [0,1] with endpoints to endpoints, preserves order, is inverted exactly by inverse_transform, and raises ValueError for values outside the interval (beyond the tolerance).", "quantifier": "all low < high, all values", "why_tests_cant": "Universal over reals, including boundary/tolerance behaviour.", "anchors": ["skopt/space/transformers.py:Normalize.transform", "skopt/space/transformers.py:Normalize.inverse_transform"]}
{"id": "C15", "title": "a pipeline of invertible transformers is invertible", "statement": "If every stage of a Pipeline inverts its own transform on the values that reach it, the pipeline's inverse_transform inverts its transform; stages are undone in reverse order.", "quantifier": "every list of transformers, every input", "why_tests_cant": "Induction over the number of stages.", "anchors": ["skopt/space/transformers.py:Pipeline"]}
{"id": "C16", "title": "one-hot encoding is faithful and robustly decodable", "statement": "The one-hot encoding of distinct categories gives one column per category (one column for one or two categories), distinct categories get distinct rows, decoding always returns one of the categories, and decoding is unchanged by perturbing every entry by less than one half.", "quantifier": "every list of distinct categories, every row of numbers", "why_tests_cant": "Unbounded number of categories and arbitrary real perturbations.", "anchors": ["skopt/space/transformers.py:CategoricalEncoder"]}
{"id": "C17", "title": "label encoding is a bijection onto 0..n-1", "statement": "LabelEncoder numbers n distinct categories by 0..n-1 without gaps, in sorted order if all are numbers or all are strings; transform maps every batch of categories to their numbers, and inverse_transform inverts it even for labels perturbed by less than one half.", "quantifier": "every list of categories", "why_tests_cant": "Unbounded category lists; type coercion of mixed lists breaks it.", "anchors": ["skopt/space/transformers.py:LabelEncoder"]}
{"id": "C18", "title": "prime sieve is correct", "statement": "The list of bases used by the Halton generator consists of exactly the primes up to the threshold in increasing order.", "quantifier": "every threshold", "why_tests_cant": "A sieve error shows only at particular thresholds; correctness is about all of them.", "anchors": ["skopt/sampler/halton.py:_create_primes"]}
{"id": "C19", "title": "van der Corput samples are the radical inverse", "statement": "The i-th one-dimensional sample in base b is the radical inverse of i, lies in [0,1), and different indices give different samples.", "quantifier": "every base >= 2, every list of indices", "why_tests_cant": "Unbounded indices and bases.", "anchors": ["skopt/sampler/halton.py:_van_der_corput_samples"]}
{"id": "C20", "title": "van der Corput / Halton coordinates are stratified", "statement": "Among any b^k consecutive indices, every interval [j/b^k,(j+1)/b^k) contains exactly one sample of the base-b coordinate.", "quantifier": "every base, every k, every starting index", "why_tests_cant": "Low-discrepancy is a statement about all block sizes and offsets.", "anchors": ["skopt/sampler/halton.py:_van_der_corput_samples", "skopt/sampler/halton.py:Halton.generate"]}
{"id": "C21", "title": "Halton and Hammersly produce n distinct points of the space", "statement": "Halton.generate and Hammersly.generate terminate, return exactly n_samples points of the space, and the underlying unit-cube points are pairwise distinct.", "quantifier": "every number of dimensions and samples, every admissible skip", "why_tests_cant": "Termination of the prime search and distinctness hold for all dimensions.", "anchors": ["skopt/sampler/halton.py:Halton.generate", "skopt/sampler/hammersly.py:Hammersly.generate"]}
{"id": "C22", "title": "Latin hypercube: one sample per stratum in every dimension", "statement": "For every dimension, each of the n equal strata of [0,1) contains exactly one of the n unit-cube samples, for classic and centered designs and for every optimisation criterion.", "quantifier": "every n, every number of dimensions, every outcome of the random generator, every criterion", "why_tests_cant": "Randomised algorithm; must hold for all random outcomes and survive the optimisation loop.", "anchors": ["skopt/sampler/lhs.py:Lhs._lhs_normalized", "skopt/sampler/lhs.py:Lhs.generate", "skopt/sampler/lhs.py:_random_permute_matrix"]}
{"id": "C23", "title": "Latin hypercube criterion keeps the best candidate", "statement": "With criterion maximin the returned design has the largest minimum pairwise distance of all candidate designs drawn (correlation and ratio: the smallest score).", "quantifier": "every number of iterations, every sequence of candidate designs", "why_tests_cant": "Argmax over an unbounded random sequence.", "anchors": ["skopt/sampler/lhs.py:Lhs.generate"]}
{"id": "C24", "title": "Sobol coordinates are stratified", "statement": "For each of the 40 supported dimensions and every k <= 30, the first 2^k points of the unscrambled sequence hit every interval [j/2^k,(j+1)/2^k) exactly once in every coordinate; all coordinates lie in [0,1).", "quantifier": "every k, every number of dimensions up to 40", "why_tests_cant": "2^30 points cannot be enumerated in a test; depends on the triangular structure of the direction numbers.", "anchors": ["skopt/sampler/sobol.py:Sobol.init", "skopt/sampler/sobol.py:Sobol._sobol", "skopt/sampler/sobol.py:_bit_lo0"]}
{"id": "C25", "title": "Sobol output does not depend on earlier calls", "statement": "The point returned for a given seed depends only on the seed and the number of dimensions, not on the generator's history; in particular generate gives the same design whatever was generated before on the same instance.", "quantifier": "every history of calls, every seed", "why_tests_cant": "The generator keeps incremental state (last point and last seed) with several restart branches.", "anchors": ["skopt/sampler/sobol.py:Sobol._sobol", "skopt/sampler/sobol.py:Sobol.generate"]}
{"id": "C26", "title": "random shift keeps samples in the unit cube", "statement": "The randomising shift maps unit-cube samples into [0,1) and preserves all pairwise differences modulo 1.", "quantifier": "every sample matrix, every shift vector", "why_tests_cant": "Quantifies over all real shifts.", "anchors": ["skopt/sampler/sobol.py:_random_shift"]}
{"id": "C27", "title": "Grid returns exactly n_samples points of the space", "statement": "Grid.generate returns exactly n_samples points, all inside the space, for every border setting.", "quantifier": "every n_samples, every number of dimensions, every border/append option", "why_tests_cant": "Counts depend on integer square roots and products; one-dimensional spaces are short of points.", "anchors": ["skopt/sampler/grid.py:Grid.generate"]}
{"id": "C28", "title": "Grid border options mean what they say", "statement": "border='include' uses grid lines at 0 and 1, border='exclude' uses no coordinate at 0 or 1, border='only' uses points with a coordinate at 0 or 1; the grid is the full cartesian product without repetition.", "quantifier": "every order and number of dimensions", "why_tests_cant": "Full product over unbounded dimension counts; 'only' is wrong in the code.", "anchors": ["skopt/sampler/grid.py:_quadrature_combine", "skopt/sampler/grid.py:_create_uniform_grid_include_border", "skopt/sampler/grid.py:_create_uniform_grid_exclude_border", "skopt/sampler/grid.py:_create_uniform_grid_only_border"]}
{"id": "C29", "title": "tell records exactly the history it was given", "statement": "After any sequence of successful tell calls the recorded points and values are the concatenation of the told points and values in order, and points and values stay aligned.", "quantifier": "every sequence of single and batch tells (mixed with asks)", "why_tests_cant": "An invariant over arbitrarily long operation sequences.", "anchors": ["skopt/optimizer/optimizer.py:Optimizer.tell", "skopt/optimizer/optimizer.py:Optimizer._tell", "skopt/optimizer/optimizer.py:Optimizer._check_y_is_valid"]}
{"id": "C30", "title": "the result reports the first best observation", "statement": "The result's fun is the minimum of all recorded values, x is the point at the first position attaining it, and x_iters / func_vals are the complete history.", "quantifier": "every history of observations", "why_tests_cant": "Argmin over arbitrary histories, including ties and NaN.", "anchors": ["skopt/utils.py:create_result", "skopt/optimizer/optimizer.py:Optimizer.get_result"]}
{"id": "C31", "title": "initial design phase", "statement": "Until n_initial_points values have been told, ask returns the designed (or random) initial points - with a generator exactly the designed points in order, the k-th ask after k tells returning design point k - and never a model suggestion; from then on ask returns a model suggestion, or fails if no model was fitted.", "quantifier": "every interleaving of ask, tell, batch tell with and without fit", "why_tests_cant": "Counter arithmetic across interleavings.", "anchors": ["skopt/optimizer/optimizer.py:Optimizer._ask", "skopt/optimizer/optimizer.py:Optimizer._tell", "skopt/optimizer/optimizer.py:Optimizer.__init__"]}
{"id": "C32", "title": "ask is repeatable until something is told", "statement": "In the designed and in the model phase, repeated single asks without a tell in between return the same point; ask never changes the recorded history, the models or the model suggestion.", "quantifier": "every state reachable by any sequence of operations", "why_tests_cant": "Quantifies over reachable states.", "anchors": ["skopt/optimizer/optimizer.py:Optimizer.ask", "skopt/optimizer/optimizer.py:Optimizer._ask"]}
{"id": "C33", "title": "suggested points are inside the space", "statement": "Every point returned by ask, single or batch, is a point of the search space, for any surrogate model and any acquisition optimiser behaviour. Every point at which a minimisation evaluates the objective is one of the given starting points or a point of the search space, also if the call ends with an exception.", "quantifier": "every reachable state, every surrogate and acquisition behaviour, every random stream", "why_tests_cant": "Surrogate and acquisition outputs are arbitrary floats.", "anchors": ["skopt/optimizer/optimizer.py:Optimizer.ask", "skopt/optimizer/optimizer.py:Optimizer._tell", "skopt/space/space.py:Space.inverse_transform", "skopt/space/space.py:Space.rvs"]}
{"id": "C34", "title": "batch ask returns n points, is isolated and cached", "statement": "ask(n_points=n) returns exactly n points, leaves history, models, gains and suggestion untouched, and repeating the identical call before the next tell returns the identical batch; a tell invalidates the cached batch. A call for no points or with an unknown strategy raises ValueError and changes nothing.", "quantifier": "every reachable state, every n and strategy", "why_tests_cant": "The lies are told to a copy; isolation is a frame property over all fields and histories.", "anchors": ["skopt/optimizer/optimizer.py:Optimizer.ask", "skopt/optimizer/optimizer.py:Optimizer.copy"]}
{"id": "C35", "title": "constant liar tells a constant lie", "statement": "While a batch is built, every lie told to the copy equals the minimum (cl_min), mean (cl_mean) or maximum (cl_max) of the truly observed objective values.", "quantifier": "every history, every batch size", "why_tests_cant": "Lies are computed from a history that already contains lies; per-second mode mixes times into them.", "anchors": ["skopt/optimizer/optimizer.py:Optimizer.ask"]}
{"id": "C36", "title": "bounded model queue", "statement": "With model_queue_size=k the optimizer never keeps more than k surrogate models and keeps the most recently fitted ones in order; without a limit it keeps one model per fitting tell.", "quantifier": "every k, every operation sequence", "why_tests_cant": "Invariant over unbounded sequences; k=0 is a crash.", "anchors": ["skopt/optimizer/optimizer.py:Optimizer._tell", "skopt/optimizer/optimizer.py:Optimizer.__init__"]}
{"id": "C37", "title": "a rejected tell changes nothing", "statement": "If tell raises because the point or the value is invalid, the optimizer's history, counters, cache, models and suggestion are exactly as before the call.", "quantifier": "every state, every invalid input", "why_tests_cant": "Needs every raise site to precede every mutation.", "anchors": ["skopt/optimizer/optimizer.py:Optimizer.tell", "skopt/optimizer/optimizer.py:Optimizer._check_y_is_valid", "skopt/utils.py:check_x_in_space"]}
{"id": "C38", "title": "copy preserves the observable state and is independent", "statement": "copy() yields an optimizer with the same history, remaining initial points and initial design as the original, and operations on the copy never change the original.", "quantifier": "every reachable state, every operation sequence on the copy", "why_tests_cant": "Frame property over all histories.", "anchors": ["skopt/optimizer/optimizer.py:Optimizer.copy"]}
{"id": "C39", "title": "batch tell equals one-by-one tell", "statement": "Telling a batch leaves the same history, the same remaining initial budget and the same result optimum as telling the points one by one.", "quantifier": "every batch, every state", "why_tests_cant": "Unbounded batches.", "anchors": ["skopt/optimizer/optimizer.py:Optimizer._tell"]}
{"id": "C40", "title": "a returned result is a stable record", "statement": "A result object returned by tell keeps describing the history at the time of that tell: its x_iters and func_vals stay the same length and aligned after later tells.", "quantifier": "every later sequence of tells", "why_tests_cant": "Aliasing between the result and the optimizer only shows after later operations.", "anchors": ["skopt/utils.py:create_result", "skopt/optimizer/optimizer.py:Optimizer._tell"]}
{"id": "C41", "title": "per-second mode compares objective values only", "statement": "With EIps/PIps the incumbent handed to the acquisition function and the reported optimum are the best observed objective values, independent of the recorded times.", "quantifier": "every history of (value, time) pairs", "why_tests_cant": "Incumbent is computed on a two-column array; wrong only for particular magnitudes of times.", "anchors": ["skopt/optimizer/optimizer.py:Optimizer._tell", "skopt/utils.py:create_result"]}
{"id": "C42", "title": "exact evaluation budget", "statement": "Without an early stop, a minimize call evaluates the objective exactly n_calls times, evaluating the x0 points (when no y0 is given) first and in order, and the result contains exactly the provided plus evaluated observations.", "quantifier": "every n_calls, n_initial_points, x0, y0 and objective", "why_tests_cant": "Budget arithmetic over all combinations of options.", "anchors": ["skopt/optimizer/base.py:base_minimize"]}
{"id": "C43", "title": "callbacks can stop and observe every step", "statement": "After each told step all callbacks are invoked once, in order, with the result so far; the run stops right after the first step at which some callback returned a true value, and the objective is not evaluated again.", "quantifier": "every list of callbacks and every decision pattern", "why_tests_cant": "All decision sequences.", "anchors": ["skopt/optimizer/base.py:base_minimize", "skopt/utils.py:eval_callbacks"]}
{"id": "C44", "title": "invalid minimize calls never evaluate the objective", "statement": "If the call is rejected because of its budget or the form of x0, the objective has not been evaluated; a call that returns always returns a result with at least one observation.", "quantifier": "every combination of arguments", "why_tests_cant": "Covers all argument combinations.", "anchors": ["skopt/optimizer/base.py:base_minimize"]}
{"id": "C45", "title": "dummy_minimize honours its budget with starting points", "statement": "dummy_minimize evaluates exactly n_calls points for every documented form of x0.", "quantifier": "every n_calls, number of dimensions and form of x0", "why_tests_cant": "The single-point form of x0 is measured by the wrong length.", "anchors": ["skopt/optimizer/dummy.py:dummy_minimize", "skopt/optimizer/base.py:base_minimize"]}
{"id": "C46", "title": "minimize does not modify its arguments", "statement": "A minimize call leaves the caller's callback list and dimension objects unchanged.", "quantifier": "every call, every option", "why_tests_cant": "Aliasing: the effect is only visible to the caller afterwards.", "anchors": ["skopt/callbacks.py:check_callback", "skopt/optimizer/base.py:base_minimize", "skopt/utils.py:normalize_dimensions"]}
{"id": "C47", "title": "DeltaYStopper criterion", "statement": "DeltaYStopper stops exactly when at least n_best values were observed and the n_best smallest of them differ pairwise by less than delta.", "quantifier": "every history of values, every n_best >= 1, every delta", "why_tests_cant": "Universal over histories.", "anchors": ["skopt/callbacks.py:DeltaYStopper"]}
{"id": "C48", "title": "HollowIterationsStopper criterion", "statement": "HollowIterationsStopper stops exactly when more than n values were observed and the best value improved by at most the threshold during the last n of them.", "quantifier": "every history, n and threshold", "why_tests_cant": "Universal over histories, off-by-one sensitive.", "anchors": ["skopt/callbacks.py:HollowIterationsStopper"]}
{"id": "C49", "title": "ThresholdStopper and DeltaXStopper criteria", "statement": "ThresholdStopper stops exactly when some observed value is at most the threshold (and then stays stopped); DeltaXStopper stops exactly when the last two points are closer than delta.", "quantifier": "every history", "why_tests_cant": "Universal over histories.", "anchors": ["skopt/callbacks.py:ThresholdStopper", "skopt/callbacks.py:DeltaXStopper"]}
{"id": "C50", "title": "DeadlineStopper keeps the budget", "statement": "If no iteration takes longer than the longest earlier one (and the first fits in the budget), the run never exceeds the total time.", "quantifier": "every sequence of iteration times", "why_tests_cant": "Timing sequences are unbounded.", "anchors": ["skopt/callbacks.py:DeadlineStopper"]}
{"id": "C51", "title": "BayesSearchCV evaluates n_iter candidates per subspace", "statement": "For each subspace exactly n_iter candidates are evaluated (fewer only if a callback asks to stop), in batches of at most n_points, and every observation told to the optimizer is the negated mean test score of the candidate it is paired with.", "quantifier": "every n_iter >= 1, n_points >= 1, number of subspaces and score sequence", "why_tests_cant": "Loop arithmetic and pairing over all sizes.", "anchors": ["skopt/searchcv.py:BayesSearchCV._run_search", "skopt/searchcv.py:BayesSearchCV._step"]}
{"id": "C52", "title": "BayesSearchCV.total_iterations is the number of evaluated candidates", "statement": "total_iterations equals the number of candidates fit will evaluate, for every documented form of search_spaces.", "quantifier": "every search_spaces form", "why_tests_cant": "A dict search space is iterated over its keys.", "anchors": ["skopt/searchcv.py:BayesSearchCV.total_iterations"]}
{"id": "C53", "title": "acquisition values have the right range and meaning", "statement": "Expected improvement is non-negative, non-increasing in the predicted mean, and equals the expectation of the clipped improvement under the predicted normal distribution; probability of improvement lies in [0,1] and is the probability of improving; LCB is the mean minus kappa standard deviations.", "quantifier": "every mean, positive std, incumbent and xi", "why_tests_cant": "Analytic identity over all reals.", "anchors": ["skopt/acquisition.py:gaussian_ei", "skopt/acquisition.py:gaussian_pi", "skopt/acquisition.py:gaussian_lcb"]}
{"id": "C54", "title": "acquisition gradients are the derivatives of the acquisition values", "statement": "The gradient returned by LCB, PI, EI and the per-second variants is the derivative of the returned value along any differentiable mean and standard deviation.", "quantifier": "every differentiable mean/std, every point with positive std", "why_tests_cant": "Finite differences only sample points.", "anchors": ["skopt/acquisition.py:gaussian_lcb", "skopt/acquisition.py:gaussian_pi", "skopt/acquisition.py:gaussian_ei", "skopt/acquisition.py:_gaussian_acquisition"]}
{"id": "C55", "title": "kernel gradients are the derivatives of the kernels", "statement": "gradient_x of RBF, Matern 1/2, 3/2 and 5/2, rational quadratic, exp-sine-squared, dot product, constant, white and their sums, products and powers is the gradient of the kernel with respect to the query point.", "quantifier": "every kernel expression, length scale, query point and training point (away from non-differentiable points)", "why_tests_cant": "Structural induction over kernel expressions and all real points.", "anchors": ["skopt/learning/gaussian_process/kernels.py"]}
{"id": "C56", "title": "Hamming kernel is a correlation kernel", "statement": "The Hamming kernel is symmetric, has unit diagonal, values in (0,1], equals 1 only for equal points, is positive semidefinite, and its hyperparameter gradient is the derivative with respect to the log length scale.", "quantifier": "every length scale, all points", "why_tests_cant": "Positive definiteness is about all finite point sets.", "anchors": ["skopt/learning/gaussian_process/kernels.py:HammingKernel"]}
{"id": "C57", "title": "GP predictions are noise free after fit and have non-negative variance", "statement": "After fit with estimated Gaussian noise, the kernel used for prediction has the white-noise level removed; predicted variances are never negative; the std gradient is the derivative of the std for stationary kernels.", "quantifier": "every kernel expression, every training set", "why_tests_cant": "Structural induction over kernel trees.", "anchors": ["skopt/learning/gaussian_process/gpr.py"]}
{"id": "C58", "title": "forest standard deviation follows the law of total variance", "statement": "The predicted variance of a forest is the mean of the per-tree leaf variances (each at least min_variance) plus the variance of the tree means, is never negative, and is zero only if all trees agree and have zero leaf variance.", "quantifier": "every number of trees and predictions", "why_tests_cant": "Algebraic identity over arbitrary lists.", "anchors": ["skopt/learning/forest.py:_return_std"]}
{"id": "C59", "title": "Branin and small benchmark optima", "statement": "The Branin function is bounded below by its value at the three documented minimisers, and the small benchmark functions (bench1 to bench5) have the documented global minimum at the documented place.", "quantifier": "all real inputs", "why_tests_cant": "Global minimum over a continuum.", "anchors": ["skopt/benchmarks.py:branin", "skopt/benchmarks.py:bench1", "skopt/benchmarks.py:bench2", "skopt/benchmarks.py:bench3", "skopt/benchmarks.py:bench4", "skopt/benchmarks.py:bench5"]}
{"id": "C60", "title": "hedge probabilities form a distribution", "statement": "The gp_hedge selection probabilities are positive, sum to one, prefer larger gains and are unchanged by shifting all gains.", "quantifier": "every gain vector and every eta >= 0", "why_tests_cant": "Universal over reals.", "anchors": ["skopt/optimizer/optimizer.py:Optimizer._tell"]}
{"id": "C61", "title": "convergence trace", "statement": "The convergence trace plotted for a result is the running minimum of the objective values: non-increasing, and its last value is the reported optimum.", "quantifier": "every history", "why_tests_cant": "Universal over histories.", "anchors": ["skopt/plots.py:plot_convergence"]}
{"id": "C62", "title": "clipping a suggestion changes nothing when candidates are in the transformed box", "statement": "The final clip of the acquisition maximiser to the space's transformed bounds leaves every transformed member of the space unchanged, so that the suggested point is the point the acquisition function preferred.", "quantifier": "every space, every member point, every estimator kind", "why_tests_cant": "Needs a dimension with log-uniform prior and an identity transform together with a non-GP estimator; the symptom is only a bad search.", "anchors": ["skopt/optimizer/optimizer.py:Optimizer._tell", "skopt/space/space.py:Integer.transformed_bounds", "skopt/space/space.py:Real.transformed_bounds"]}
{"id": "C63", "title": "constructor validates its configuration", "statement": "Optimizer construction passes its argument checks exactly when acq_func is one of the six documented names, the number of initial points is not negative, base_estimator is a documented name, a regressor or None, acq_optimizer is 'auto', 'lbfgs' or 'sampling', and 'lbfgs' is asked for only when the surrogate really provides gradients; every other combination raises ValueError. An accepted optimizer uses L-BFGS exactly when the surrogate provides gradients and sampling was not asked for; on a purely categorical space 'auto' means sampling.", "quantifier": "every argument combination", "why_tests_cant": "Combinatorial cross product of options, estimators and capabilities.", "anchors": ["skopt/optimizer/optimizer.py:Optimizer.__init__", "skopt/utils.py:has_gradients", "skopt/utils.py:cook_estimator"]}
{"id": "C64", "title": "search candidates belong to their subspace", "statement": "Every candidate that BayesSearchCV evaluates assigns a value to exactly the parameters of the subspace it is drawn from, each value within the dimension given for that very parameter.", "quantifier": "every list of search spaces, every optimizer behaviour", "why_tests_cant": "The parameter order goes through sorting by name in three different places; universal over dicts.", "anchors": ["skopt/searchcv.py:BayesSearchCV._step", "skopt/searchcv.py:BayesSearchCV._make_optimizer", "skopt/utils.py:point_asdict", "skopt/utils.py:dimensions_aslist"]}
{"id": "C65", "title": "a stop request ends the search", "statement": "When a callback of BayesSearchCV.fit returns true, no further candidates are evaluated.", "quantifier": "every callback, every list of search spaces", "why_tests_cant": "Needs several subspaces and arbitrary callbacks.", "anchors": ["skopt/searchcv.py:BayesSearchCV._run_search"]}
{"id": "C66", "title": "optimizer_results_ has one faithful entry per subspace", "statement": "After fit, optimizer_results_ has one entry per subspace, which lists the points and scores evaluated in this subspace.", "quantifier": "every list of search spaces and iteration numbers", "why_tests_cant": "Edge case n_iter = 0 interacts with Python's function-scoped variables.", "anchors": ["skopt/searchcv.py:BayesSearchCV._run_search"]}
{"id": "C67", "title": "Encoding and decoding a batch equals doing it point by point", "statement": "transform(X) is the list of the encodings transform([x]) of the single points x in X, and inverse_transform(Xt) is the list of the decodings of the single rows: the result for one point never depends on which other points are in the same batch.", "quantifier": "for every space, every batch length and every batch of members of the space (transform) or of numeric rows (inverse_transform)", "why_tests_cant": "The dependency would only show for particular combinations of points within a batch; tests use a handful of fixed batches, mostly of homogeneous type.", "anchors": ["skopt/space/space.py: Space.transform, Space.inverse_transform, Real/Integer/Categorical.transform, inverse_transform", "skopt/space/transformers.py: Normalize, LabelEncoder, CategoricalEncoder, Pipeline"]}
{"id": "C68", "title": "The ask/tell interface never raises on valid input", "statement": "Once an optimizer was constructed without an exception, telling a point of the space (or a non-empty batch of them) with finite values - with the per-second criteria: values and positive times - returns a result, ask(), ask(n_points) and update_next() return, and get_result() returns once something was told, whatever was asked and told before, as long as the surrogate, the acquisition and scipy do not raise themselves.", "quantifier": "for every space with an encoding that fits its bounds, every acquisition function, every setting of the sizes that can work, and every sequence of tell (single and batch), ask(), ask(n_points, strategy), update_next() and get_result() calls", "why_tests_cant": "Whether some reachable state makes the fit block raise (an empty queue, gains of the wrong length, an undecodable candidate) depends on the whole history of calls; tests run a few short loops.", "anchors": ["skopt/optimizer/optimizer.py: Optimizer.tell, Optimizer._tell, Optimizer.ask, Optimizer._ask, Optimizer.copy, Optimizer.update_next, Optimizer.get_result", "skopt/utils.py: create_result, check_x_in_space", "skopt/space/space.py: Space.rvs, Space.transform, Space.inverse_transform, Space.distance"]}
{"id": "C70", "title": "quantile regression surrogate", "statement": "With a list of quantiles that contains 0.16, 0.5 and 0.84, in any order, GradientBoostingQuantileRegressor.predict returns the median prediction as mean and half the distance of the 84% and 16% predictions as standard deviation, never negative; return_quantiles gives one column per requested quantile; array-like quantiles are accepted.", "quantifier": "every list of quantiles, every fitted family of regressors, every batch of rows", "why_tests_cant": "Nothing forces separately fitted quantiles to be ordered, so small tests never see a crossing; the order of the quantiles is arbitrary.", "anchors": ["skopt/learning/gbrt.py:GradientBoostingQuantileRegressor.predict"]}
{"id": "C71", "title": "plot helpers show the right points", "statement": "For plots, points of the space are mapped to numbers coordinate by coordinate, categories to their position in the dimension, and categorical dimensions are flagged; the sampled values along a dimension are distinct, ordered, within the dimension and include both ends.", "quantifier": "every space with distinct categories, all point lists; every number of categories and points", "why_tests_cant": "Index arithmetic over arbitrary sizes.", "anchors": ["skopt/plots.py:_map_categories", "skopt/plots.py:_evenly_sample"]}
{"id": "C72", "title": "the default Gaussian process fits the encoded space", "statement": "When the optimizer builds its own Gaussian process (base_estimator='GP'), the kernel has exactly one length scale per column of the matrix the surrogate is fitted on.", "quantifier": "every list of dimensions (as objects or as tuples), every acquisition function and other constructor arguments", "why_tests_cant": "Depends on three separate normalisation steps that act in place or on copies; only unusual combinations (per-second acquisition with tuple dimensions) differ.", "anchors": ["skopt/utils.py:cook_estimator", "skopt/utils.py:normalize_dimensions", "skopt/optimizer/optimizer.py:Optimizer.__init__"]}
{"id": "C74", "title": "expected_minimum returns a point of the space with the smallest prediction found", "statement": "expected_minimum(result) returns a point of the search space together with the last surrogate's prediction there, and this prediction is not larger than the prediction at the best point observed (result.x) nor at any of the random starting points. expected_minimum_random_sampling returns the sample with the smallest prediction, which is a point of the space, and that prediction.", "quantifier": "all spaces, surrogates, minimisers, numbers and outcomes of random draws, histories", "why_tests_cant": "Depends on the surrogate's shape over a continuum and on all outcomes of the random draws; a test sees one surrogate and one seed.", "anchors": ["skopt/utils.py: expected_minimum, expected_minimum_random_sampling", "skopt/space/space.py: Space.rvs, Space.transform, Space.bounds, Space.is_partly_categorical"]}
{"id": "C73", "title": "partial_dependence is the mean prediction with the chosen coordinates replaced", "statement": "partial_dependence(space, model, i) returns, for every value x on the axis of dimension i, the mean over the sample points of the model's predictions at the point with coordinate i set to x (to the category of index x for categorical dimensions); with j given, the value at (x, y) is the mean with coordinate j set to x and coordinate i set to y. The axis values are values of the dimension.", "quantifier": "all spaces with any mixture of encodings, models, samples, dimensions i and j, numbers of points", "why_tests_cant": "One-hot encodings map one coordinate to several columns; an off-by-one in the column bookkeeping shows only for particular orders of dimensions, and pictures are not compared pixel by pixel.", "anchors": ["skopt/plots.py: partial_dependence, partial_dependence_1D, partial_dependence_2D, _evenly_sample"]}
{"id": "C69", "title": "the suggestion has the largest expected improvement among the candidates", "statement": "With acq_optimizer='sampling' and acq_func 'EI' ('PI', 'LCB'), after a tell that fits a surrogate the point returned by the next ask() is one of the sampled candidates, and among the candidates at which the surrogate predicts a positive standard deviation none has a larger expectation of the improvement beyond xi (larger probability of improvement, smaller lower confidence bound) over the smallest objective value observed so far, under the normal distribution with the predicted mean and standard deviation. (In the per-second modes the claim fails: times enter the incumbent.)", "quantifier": "all spaces of valid dimensions with correct transformed bounds, all surrogates, all sequences of candidate draws, all observation histories of plain numbers, all xi and kappa", "why_tests_cant": "A test can only compare with the same formula the code uses, at one random candidate set; the statement is about an expectation (an integral) and about every candidate set, surrogate and history at once.", "anchors": ["skopt/optimizer/optimizer.py: Optimizer._tell", "skopt/acquisition.py: _gaussian_acquisition, gaussian_ei, gaussian_pi, gaussian_lcb"]}
{"id": "C75", "title": "Random samples follow the prior of the dimension", "statement": "A random sample of a dimension has the distribution the user asked for: Real(low, high) is uniform on the interval; with prior \"log-uniform\" the logarithm is uniform; Integer(low, high) takes each integer with equal probability; Categorical takes each category with its prior probability; the coordinates of a sample of a space are independent. This must not depend on which transform the surrogate model has chosen.", "quantifier": "all bounds, bases above 1, both transforms, all subintervals / integers / categories, all lists of dimensions", "why_tests_cant": "A distribution cannot be observed from finitely many samples; only a derivation of the law of the decoded draw settles it, for every transform.", "anchors": ["skopt/space/space.py: Dimension.rvs, Real.set_transformer, Integer.set_transformer, Categorical.set_transformer, Categorical.rvs, Space.rvs"]}
{"id": "C76", "title": "A well-posed minimisation completes and reports the best point", "statement": "Calling gp_minimize, forest_minimize, gbrt_minimize or dummy_minimize with valid dimensions, valid settings and an objective that returns a finite number (with a per-second criterion: a number and a positive time) on every point of the space raises no exception: it returns a result, every evaluated point is a member of the space, the reported (x, fun) is the first best of the listed observations, and unless a callback asks to stop the objective is evaluated exactly n_calls times.", "quantifier": "all spaces, objectives, starting points x0/y0, budgets, seeds and callbacks meeting the documented requirements; all numbers of calls", "why_tests_cant": "Tests run a few objectives on a few spaces with a few seeds; that no combination leads to an exception half way through the budget is a statement about all runs.", "anchors": ["skopt/optimizer/base.py: base_minimize", "skopt/optimizer/gp.py: gp_minimize", "skopt/optimizer/forest.py: forest_minimize", "skopt/optimizer/gbrt.py: gbrt_minimize", "skopt/optimizer/dummy.py: dummy_minimize"]}
{"id": "C77", "title": "Senseless settings are refused before anything is evaluated", "statement": "gp_minimize, forest_minimize and gbrt_minimize raise, without having evaluated the objective or called a callback, when the acquisition function is not one of the six known names, the acquisition optimizer is not \"auto\", \"lbfgs\" or \"sampling\", the base estimator is neither a known name nor a regressor, or L-BFGS is asked for a surrogate without gradients.", "quantifier": "all objectives, spaces, budgets, starting points, callbacks, seeds and all strings as settings", "why_tests_cant": "The strings that must be refused are infinitely many, and 'nothing was evaluated' must hold whatever the other arguments are.", "anchors": ["skopt/optimizer/gp.py: gp_minimize", "skopt/optimizer/forest.py: forest_minimize", "skopt/optimizer/gbrt.py: gbrt_minimize", "skopt/optimizer/base.py: base_minimize", "skopt/optimizer/optimizer.py: Optimizer.__init__"]}
{"id": "C78", "title": "Matrix plots and histograms show the right data in the right panel", "statement": "plot_evaluations and plot_objective draw a triangular matrix of panels. The panel in row r and column c shows the r-th and c-th plotted dimension (those chosen by the user, by default all that are not constant): histograms of the evaluated coordinates, scatter plots of the evaluated points with the best one marked, partial dependence curves and contours; each axis carries the limits, scale, category names and label of its dimension. The marked point is the best observation, the given list, or a point with the lowest prediction found. plot_objective_2D shows the contour for the two named dimensions, the first on the horizontal axis, with the evaluated and the marked points at their coordinates. plot_histogram shows one bar per occurring category with its number of occurrences, or a histogram of the values with the given number of bins.", "quantifier": "all spaces, evaluated points of the space, choices of dimensions, labels, numbers of bins, and surrogates", "why_tests_cant": "Image comparison tests can only check single figures; mixing up indices of the space with indices of the plotted dimensions only shows on particular combinations of constant, categorical and selected dimensions.", "anchors": ["skopt/plots.py: plot_evaluations", "skopt/plots.py: plot_objective", "skopt/plots.py: plot_objective_2D", "skopt/plots.py: plot_histogram", "skopt/plots.py: _format_scatter_plot_axes", "skopt/plots.py: _evaluate_min_params"]}
{"id": "C79", "title": "Listed surrogates and the observations they were fitted to; plot_gaussian_process", "statement": "When points are told one by one (the first call may be a batch), the k-th of the M surrogates listed in the result was fitted to exactly the first N-M+1+k of the N observations; the last one to all. plot_gaussian_process shows one of these surrogates together with the observations it was fitted to: the last one by default, the k-th with n_calls=k; the curve is the predicted mean with a band of 1.96 standard deviations, the acquisition curve is the acquisition function of the run for the best shown observation, and the next point maximises the shown acquisition value on the grid.", "quantifier": "all sequences of ask/tell, all spaces, surrogates and settings of the plot", "why_tests_cant": "The relation between list positions and history lengths is an invariant over arbitrarily long runs; an off-by-one in the plotted observations does not make any test fail.", "anchors": ["skopt/optimizer/optimizer.py: Optimizer._tell", "skopt/plots.py: plot_gaussian_process", "skopt/optimizer/base.py: base_minimize"]}
{"id": "C82", "title": "What the verbose output and the timer report", "statement": "Every callback of a minimisation is invoked once for all starting points together and once for every other evaluation, and the result it is shown last is the returned one. With verbose=True the console reports every evaluation of the objective in turn: its number, whether it takes place at a provided point, at a random point or at a point chosen with a surrogate, how long it took, the value just obtained and the smallest value so far. TimerCallback.iter_time has one entry per invocation, the non-negative time passed since the previous one; the entries add up to no more than the total time.", "quantifier": "all objectives, spaces, settings, budgets, seeds, callbacks and clock readings", "why_tests_cant": "The numbering and the descriptions depend on budget, number of starting points and given values; tests look at a single run and never at the printed text.", "anchors": ["skopt/callbacks.py: VerboseCallback", "skopt/callbacks.py: TimerCallback", "skopt/optimizer/base.py: base_minimize", "skopt/utils.py: eval_callbacks"]}
{"id": "C83", "title": "Checkpoints hold everything evaluated so far and can be resumed from", "statement": "Whenever a callback is invoked during a minimisation, the result it is shown contains exactly the starting points and all points evaluated so far with the values returned by the objective. So if the run is interrupted by an exception anywhere, the file written by CheckpointSaver holds all completed evaluations, but for those made since the last invocation of the callbacks. Calling the same function with x0=res.x_iters, y0=res.func_vals continues: nothing stored is evaluated again, and the new result starts with the stored record. If the starting points are members of the space and all values are finite, the resumed call does return, and its best value is not worse than the stored one.", "quantifier": "all objectives, spaces, settings, budgets, starting points, callbacks, also calls that raise at an arbitrary moment", "why_tests_cant": "The moment at which a run is interrupted is arbitrary; the relation between evaluations and stored record is an invariant of the whole run.", "anchors": ["skopt/callbacks.py: CheckpointSaver", "skopt/optimizer/base.py: base_minimize", "skopt/utils.py: eval_callbacks", "skopt/optimizer/optimizer.py: Optimizer.tell"]}
{"id": "C80", "title": "dump and load give the result back and leave the original alone", "statement": "skopt.load(file) after skopt.dump(res, file) gives an object that looks the same as res did when it was dumped, including shared and cyclic references, whatever happened to res since. With store_objective=False the only difference is that the objective is missing from res.specs['args']; the caller's own result keeps it. Neither function changes any existing object, also when it raises. Dumping without the objective works whatever the objective is.", "quantifier": "all object graphs (with sharing and cycles), results and objectives", "why_tests_cant": "Object graphs are unbounded and aliasing (a shallow copy deleting the objective from the caller's result) only shows when the caller looks at the original afterwards.", "anchors": ["skopt/utils.py: dump", "skopt/utils.py: load"]}
{"id": "C81", "title": "Initial point generators are chosen by name with the given parameters", "statement": "A documented generator name ('sobol', 'halton', 'hammersly', 'lhs', 'grid'), in upper or lower case, gives a generator of that class whose parameters are the given ones and otherwise the documented defaults; 'random' and None give none; a generator object is used itself; every other string or object, and every unknown parameter, is refused with ValueError.", "quantifier": "all strings, objects and parameter dictionaries", "why_tests_cant": "The strings and parameter names that must be refused are infinitely many.", "anchors": ["skopt/utils.py: cook_initial_point_generator", "skopt/sampler/base.py: InitialPointGenerator.set_params"]}
{"id": "C84", "title": "Hartmann benchmark optimum", "statement": "The six-dimensional Hartmann function has the documented value -3.32237 at the documented point and falls below it nowhere. It has exactly one global minimiser, which agrees with the documented point up to 0.002 in every coordinate.", "quantifier": "all points of six real coordinates", "why_tests_cant": "Global minimum over a six-dimensional continuum with several local minima.", "anchors": ["skopt/benchmarks.py:hart6"]}
{"id": "C85", "title": "Fitting the quantile regression surrogate", "statement": "GradientBoostingQuantileRegressor.fit fits one regressor per quantile, in order, with quantile loss at that quantile, the parameters of the base estimator, and the same randomness for all; it is reproducible with a seed, refuses base estimators of another type or loss, and leaves the base estimator it was given as it was.", "quantifier": "every list of quantiles, base estimator, seed and training data", "why_tests_cant": "Whether generator state is shared between the clones, or leaks into objects of the user, does not show in the predictions of a single test.", "anchors": ["skopt/learning/gbrt.py:GradientBoostingQuantileRegressor.fit"]}
{"id": "C86", "title": "Arithmetic with kernels", "statement": "An expression built from kernels and numbers with +, * and ** gives a kernel whose covariance is the same arithmetic of the covariances, and whose gradient is available wherever it is differentiable.", "quantifier": "every expression, however nested, every pair of points", "why_tests_cant": "Structural induction over expressions; numbers may be on either side of any operator.", "anchors": ["skopt/learning/gaussian_process/kernels.py:Kernel.__add__", "skopt/learning/gaussian_process/kernels.py:Kernel.__radd__", "skopt/learning/gaussian_process/kernels.py:Kernel.__mul__", "skopt/learning/gaussian_process/kernels.py:Kernel.__rmul__", "skopt/learning/gaussian_process/kernels.py:Kernel.__pow__"]}
{"id": "C87", "title": "gp_hedge credits each acquisition function with what later surrogates predict for its proposals", "statement": "The gain kept for each of the three acquisition functions of gp_hedge is zero minus the sum, over all fits but the last, of the value that the next surrogate predicts for the proposal of that acquisition function. Asking (for one or several points), refreshing the suggestion and reading the result do not change the gains. Hence an acquisition function whose proposals turned out lower in total is drawn with larger probability.", "quantifier": "every sequence of method calls on a new gp_hedge optimizer in which every tell returns; every surrogate, every random state, with and without a limit on the number of kept surrogates", "why_tests_cant": "The gains depend on the whole history of fits and are not visible in suggestions directly; tests look at one or two iterations.", "anchors": ["skopt/optimizer/optimizer.py:Optimizer._tell", "skopt/optimizer/optimizer.py:Optimizer.copy", "skopt/optimizer/optimizer.py:Optimizer.ask"]}
{"id": "C88", "title": "L-BFGS never makes the suggestion worse than the sampled candidates", "statement": "With acq_optimizer=\"lbfgs\" the suggestion decodes the result of that run of the local minimiser which reached the smallest acquisition value among the runs from the n_restarts_optimizer best sampled candidates; no sampled candidate has a smaller acquisition value.", "quantifier": "every space, surrogate, acquisition function, history and random state with at least one restart, a local minimiser that never goes up and sampled acquisition values without NaN", "why_tests_cant": "The local minimiser and the samples are random; tests can only compare a few runs.", "anchors": ["skopt/optimizer/optimizer.py:Optimizer._tell"]}
{"id": "C89", "title": "set_transformer sets the transforms it is told, or changes nothing", "statement": "Space.set_transformer raises exactly when a name is missing from the list or is not documented for its kind of dimension. When it returns, get_transformer gives back the names, every dimension encodes points with the transformation it was told and is otherwise unchanged, and setting the names get_transformer returned before restores the space. set_transformer_by_type does this to the dimensions of the given type and leaves the others alone. When either raises, the space is as it was.", "quantifier": "for all spaces of consistent dimensions, all single names and lists of names, and all type predicates", "why_tests_cant": "A test tries a few name lists on one or two spaces; whether a refused call can leave a space whose reported transform and actual encoding disagree depends on the order of assignment and check on every path.", "anchors": ["skopt/space/space.py: Real.set_transformer, Integer.set_transformer, Categorical.set_transformer, Space.set_transformer, Space.set_transformer_by_type, Space.get_transformer"]}
{"id": "C90", "title": "Space.from_yaml builds the space the file describes", "statement": "Space.from_yaml returns a space with exactly one dimension per entry of the section used (the named one, else the first, else the list itself), in the order of the file, each made by the class named (in any capitalisation) from the entry's values under lower-cased names; it raises when an entry does not name a dimension class or its values are refused.", "quantifier": "for all parsed files, sections, entries and constructors", "why_tests_cant": "The test suite reads one well-formed file; what happens to misspelt class names, other capitalisations and other sections concerns all files.", "anchors": ["skopt/space/space.py: Space.from_yaml"]}
{"id": "C91", "title": "A failed third-party call costs one `tell` only", "statement": "If fitting the surrogate or searching for the next point raises in the middle of `Optimizer.tell` (a numerical failure, an interruption), the observation is on record all the same, and as soon as the calls work again every further `tell` with a member of the space returns, and so does `ask()` after the first `tell` that has fitted a surrogate.", "quantifier": "every valid space, every acquisition function, every sequence of valid calls during which the third-party calls behave arbitrarily, followed by every sequence of valid calls during which they keep their promises", "why_tests_cant": "A test injects one failure at one place; the claim is about every place and number of failures and every later use, and the state a failed call leaves behind is not visible in its own outcome.", "anchors": ["skopt/optimizer/optimizer.py: Optimizer.tell, Optimizer._tell, Optimizer.ask"]}
{"id": "C92", "title": "The convergence and regret figures show every argument, the true minimum and the labels", "statement": "plot_convergence(*args, true_minimum=...) and plot_regret(...) draw, for each argument in turn, in its own colour and under its own label: for one result the curve of the smallest value (cumulative regret) after n calls for n = 1..number of calls; for a list of results one transparent unlabelled curve each and the labelled curve of the averages. A given true minimum is drawn as a horizontal line (plot_convergence) or used as the reference of the regret (plot_regret; default: the smallest value of all results shown). The legend is displayed whenever something is labelled.", "quantifier": "all non-empty sequences of arguments (results, lists of results, with or without labels), all recorded values, all true minima", "why_tests_cant": "The test-suite only checks that the functions do not raise; which curves, labels and lines end up in the figure for which combination of arguments cannot be enumerated.", "anchors": ["skopt/plots.py: plot_convergence, plot_regret"]}
{"id": "C93", "title": "Optimizer.run is n rounds of ask and tell", "statement": "run(func, n_iter=n) evaluates the objective exactly n times, each time at the point ask() suggests, all of them inside the space, and records the values; it is indistinguishable from n rounds of ask and tell by hand. Running m iterations and then n more is the same as running m + n. If the objective raises, the exception reaches the caller, the rounds completed before are on record, the failing round leaves no trace, and outside the random initial phase the next ask suggests the very point at which the objective failed, so the run can be resumed.", "quantifier": "every optimizer state, every space and configuration, every objective (raising or returning anything), every number of iterations", "why_tests_cant": "Tests run a few iterations of one objective that never fails; equality of split and whole runs, the state left by an exception in an arbitrary round, and completion for every n concern all histories.", "anchors": ["skopt/optimizer/optimizer.py: Optimizer.run, Optimizer.ask, Optimizer.tell, Optimizer.get_result"]}
{"id": "C94", "title": "The round trip through a space survives rounding", "statement": "In floating-point arithmetic, inverse_transform(transform(X)) still returns every Integer and Categorical coordinate exactly, whatever the prior and the transform, and every Real coordinate within a stated number of rounding errors and inside its bounds; two different points of a space without transformed Real dimensions never get the same encoding. In double precision this covers integer bounds up to 2^48 (2^32 for log-uniform priors) and up to 2^48 categories.", "quantifier": "every arithmetic with monotone operations and relative rounding error at most u per operation, in particular round-to-nearest binary arithmetic of every precision from 10 bits; every space of legal dimensions small in comparison with 1/u; every batch of points", "why_tests_cant": "A test checks a handful of values of a handful of spaces with one precision; whether some integer among millions is moved by a rounding error in (x - low) / (high - low) * (high - low) + low or in base ** (log10 x / log10 base) cannot be settled by sampling.", "anchors": ["skopt/space/transformers.py: Normalize.transform, Normalize.inverse_transform, LogN.transform, LogN.inverse_transform, CategoricalEncoder, LabelEncoder, Pipeline", "skopt/space/space.py: Space.transform, Space.inverse_transform, Real.inverse_transform, Integer.inverse_transform, Categorical.inverse_transform"]}
{"id": "C95", "title": "The best candidate of BayesSearchCV and optimizer_results_ agree", "statement": "After BayesSearchCV.fit, the candidate scikit-learn reports as best_params_ (the first with the highest mean test score among the candidates of all subspaces) is the x of one of the entries of optimizer_results_, whose fun is minus best_score_; no entry has a smaller fun, and entries of earlier subspaces have greater ones. Within each subspace the entry describes the first best candidate of that subspace.", "quantifier": "every search specification with positive iteration numbers, every estimator behaviour and batch size, every assignment of finite scores to candidates (also depending on the order of evaluation), every stopping behaviour of callbacks", "why_tests_cant": "Two independently maintained records of the same search must agree for every sequence of scores, including ties across batches and subspaces; tests compare best_score_ with a threshold on one dataset.", "anchors": ["skopt/searchcv.py: BayesSearchCV._run_search, BayesSearchCV._step, BayesSearchCV.optimizer_results_", "skopt/utils.py: create_result"]}
{"id": "C96", "title": "The minimize functions are Optimizer.run with callbacks", "statement": "A call of base_minimize (to which gp_minimize, forest_minimize, gbrt_minimize and dummy_minimize hand over) evaluates the objective at the same points and returns or raises the same as constructing an Optimizer with the same settings, telling it the starting points with their values, and calling run(func, remaining calls). Callbacks see the results of run(func, 1), run(func, 2), … and can only cut the run short: stopping after k rounds gives exactly run(func, k).", "quantifier": "every space, settings, starting points and given or evaluated values, every objective (noisy, stateful or raising), every list of callbacks (stateful, stopping or raising), every behaviour of third-party calls", "why_tests_cant": "Equality of two program paths for all objectives and callbacks, including every way of failing; tests compare final values of a few seeded runs.", "anchors": ["skopt/optimizer/base.py: base_minimize", "skopt/optimizer/optimizer.py: Optimizer.run, Optimizer.tell, Optimizer.ask, Optimizer.__init__", "skopt/utils.py: eval_callbacks", "skopt/callbacks.py: check_callback"]}
{"id": "C97", "title": "Halton and Hammersly designs fill boxes evenly", "statement": "Cut a space of uniform Real dimensions into equal boxes, dimension d into a power of the d-th prime many parts. Whatever number of points Halton.generate is asked for, and whatever the skip, every box holds the proportional number of points, rounded down or up (so no two boxes differ by more than one point). With Hammersly, whose last coordinate may be cut into any number q of parts, a design of c·P·q points puts exactly c points into each of the P·q boxes. With user-supplied bases this holds when they are pairwise coprime.", "quantifier": "every number of dimensions, every bounds, every number of points, every admissible skip, every partition into powers of the bases, every box", "why_tests_cant": "Joint equidistribution over all boxes of all partitions, for unboundedly many points and dimensions; tests look at the first few points.", "anchors": ["skopt/sampler/halton.py: Halton.generate, _van_der_corput_samples, _create_primes", "skopt/sampler/hammersly.py: Hammersly.generate"]}
{"id": "C98", "title": "Sobol designs fill boxes of the first two coordinates evenly", "statement": "For Sobol(skip, randomize=False).generate on uniform Real dimensions: cut the first dimension into 2^a and the second into 2^b equal parts; for every number of points the generator can hand out and every admissible skip, every box holds the proportional number of points, rounded down or up – with 2^(a+b) points exactly one. Each of the up to forty dimensions on its own is filled evenly in the same sense.", "quantifier": "every skip the constructor accepts, every number of points within the budget of the generator (below 2^30), every a + b ≤ 30, every box, every bounds, two to forty dimensions", "why_tests_cant": "Joint equidistribution for all box shapes and up to a billion points; tests look at a handful of points.", "anchors": ["skopt/sampler/sobol.py: Sobol.generate, Sobol._sobol, Sobol.init, Sobol.__init__"]}
{"id": "C99", "title": "The uncertainty of the Gaussian process is that of the best linear predictor and shrinks with data", "statement": "The variance that GaussianProcessRegressor.predict returns is the smallest mean squared error of all linear predictors from the observations. Hence: the standard deviation after fitting is never larger than the one returned before fitting (in units of the spread of the targets); at an observed point it is at most the standard deviation of the noise, and the mean differs from the observed value by exactly the noise variance times the dual coefficient, so without noise the surrogate passes through the data with no uncertainty; and with the same kernel further observations never increase the uncertainty at any point.", "quantifier": "every kernel, every set of training points and noise levels with an invertible covariance factor, every point, every larger set of observations", "why_tests_cant": "An optimality statement over all linear predictors and a comparison of two fits for all data sets; tests evaluate a few fits.", "anchors": ["skopt/learning/gaussian_process/gpr.py: GaussianProcessRegressor.fit, GaussianProcessRegressor.predict"]}
{"id": "C100", "title": "The kernels are covariance functions: fitting finds a Cholesky factor and variances are never negative", "statement": "For every kernel expression built from the kernels of skopt.learning.gaussian_process.kernels with sums, products and natural powers and valid hyperparameters: predict(X, return_cov=True) returns a positive semidefinite matrix before and after fitting; the covariance of the training points plus any positive alpha or noise has a Cholesky factor, so fit cannot fail for lack of positive definiteness; and the predicted variances are not negative, so that the code's replacement of negative variances by zero only ever corrects rounding.", "quantifier": "every kernel expression, all valid hyperparameters, every finite set of training and test points, every noise, every number of dimensions", "why_tests_cant": "Positive semidefiniteness is a statement about all finite point sets at once; tests look at a few random matrices.", "anchors": ["skopt/learning/gaussian_process/kernels.py: RBF, Matern, RationalQuadratic, ExpSineSquared, ConstantKernel, WhiteKernel, DotProduct, HammingKernel, Sum, Product, Exponentiation", "skopt/learning/gaussian_process/gpr.py: GaussianProcessRegressor.fit, GaussianProcessRegressor.predict"]}
{"id": "C101", "title": "Units, names, bases of logarithms and spellings do not matter", "statement": "Describe the same search space in other words: other dimension names, another unit or zero for a uniform Real, another unit, power or base of the logarithm for a log-uniform one, another first number for an Integer, other spellings of categories. Make the same calls (constructor, ask, ask(n), tell, get_result, or a whole minimize run) with points, objective, callbacks and starting points carried over and the same random state. Then every suggestion, evaluation, result and error is the same, carried over.", "quantifier": "all spaces, all changes of description, all call sequences and whole runs, all surrogates, acquisition functions, generators, objectives, callbacks, random states", "why_tests_cant": "Relates two runs for all histories and all changes of unit; a test compares one pair of short runs.", "anchors": ["skopt/space/space.py: Real, Integer, Categorical, Space", "skopt/space/transformers.py: Normalize, LogN, CategoricalEncoder, LabelEncoder", "skopt/optimizer/optimizer.py: Optimizer", "skopt/optimizer/base.py: base_minimize"]}
{"id": "C102", "title": "Grid gives full factorial designs", "statement": "Grid with use_full_layout=True evaluates every point of the largest full factorial design that fits into n points, and fills up from the next larger or the border design; with use_full_layout=False the n points are distinct points of the next larger full design. No point occurs twice.", "quantifier": "all numbers of points, all boxes of Real dimensions, all border settings, all shuffles", "why_tests_cant": "A full design for every n and every shuffle of the leftover points; a test looks at one n and one seed.", "anchors": ["skopt/sampler/grid.py: Grid.generate, _create_uniform_grid_exclude_border, _create_uniform_grid_include_border, _create_uniform_grid_only_border, _quadrature_combine"]}
{"id": "C103", "title": "Constructors of dimensions accept exactly what is documented", "statement": "Real, Integer and Categorical can be constructed exactly from sensible arguments (lower bound below upper bound, prior, transform, name and dtype among the documented ones, at least one category, probabilities that add up to one); they keep what they are given, and everything else raises ValueError.", "quantifier": "all bounds (including NaN), priors, transforms, names, dtypes, categories, prior vectors", "why_tests_cant": "A statement about all argument combinations, accepted and refused; tests sample a few of each.", "anchors": ["skopt/space/space.py: Real.__init__, Integer.__init__, Categorical.__init__, Dimension.name, Real.set_transformer, Integer.set_transformer, Categorical.set_transformer"]}
{"id": "C104", "title": "repr of a dimension or space can be evaluated to an equal one", "statement": "eval(repr(d)) is a dimension equal to d, and has the same attributes; eval(repr(space)) is an equal space.", "quantifier": "all dimensions and spaces", "why_tests_cant": "A round trip for all dimensions; tests evaluate a handful of small ones.", "anchors": ["skopt/space/space.py: Real.__repr__, Integer.__repr__, Categorical.__repr__, Space.__repr__"]}
{"id": "C105", "title": "Sobol designs fill boxes of any number of coordinates evenly", "statement": "For Sobol(skip, randomize=False).generate on up to forty uniform Real dimensions: cut every dimension r into 2^(k_r) equal parts, and let t be the sum, over the dimensions that are cut, of the degree less one of the polynomial of that dimension (1, 1, 2, 3, 3, 4, 4, six times 5, six times 6, 18 times 7, three times 8). Whenever sum k_r + t is at most 30, every 2^(sum k_r + t) consecutive points from a multiple of that number on put exactly 2^t points into every box, and for any number of points the generator can hand out every box holds the proportional number of points up to 2^t.", "quantifier": "every skip the constructor accepts, every number of points within the budget of the generator, every choice of the k_r, every box, all bounds, one to forty dimensions", "why_tests_cant": "Equidistribution for all shapes of boxes in forty dimensions and up to a billion points depends on every entry of the tables; tests look at a few points in few dimensions.", "anchors": ["skopt/sampler/sobol.py: Sobol.generate, Sobol._sobol, Sobol.init, Sobol.__init__"]}
{"id": "C106", "title": "Unit and zero point of the objective do not change the search", "statement": "Telling an optimizer the values a*y + c (a > 0) instead of y, e.g. degrees Fahrenheit instead of Celsius, leads to the same suggestions (single and batch), the same exceptions, the same best point, and converted values in the results, given the same random state.", "quantifier": "every sequence of ask/tell/get_result/update_next calls with finite values, every search space, every choice of hyperparameters by scikit-learn, every surrogate whose predictions are converted with the values it is fitted to, every a > 0 and c", "why_tests_cant": "Two whole optimisation histories have to agree, for all histories and all conversions; tests compare a few runs, and floats make even these inexact.", "anchors": ["skopt/optimizer/optimizer.py: Optimizer.ask, tell, _tell, _ask, get_result", "skopt/acquisition.py: _gaussian_acquisition, gaussian_lcb, gaussian_ei, gaussian_pi", "skopt/learning/gaussian_process/gpr.py: GaussianProcessRegressor.fit, predict", "skopt/learning/forest.py: _return_std", "skopt/learning/gbrt.py: predict"]}
{"id": "C107", "title": "The number passed as noise is the variance of the noise", "statement": "A noise level v passed to gp_minimize or GaussianProcessRegressor is taken as the variance of the noise of the objective's values: mean and standard deviation predicted at every point are those of Gaussian regression of the values with noise of variance v, and noise_ reports v.", "quantifier": "every number of points and dimensions, every kernel without a white kernel of its own, every choice of its hyperparameters, all values, every v", "why_tests_cant": "Whether predictions belong to a noise variance is a statement about all points, values and kernels; tests compare with noise estimated by the same code or look at noise-free data, where the unit of the noise does not show.", "anchors": ["skopt/learning/gaussian_process/gpr.py: GaussianProcessRegressor.fit, predict", "skopt/optimizer/gp.py: gp_minimize (noise)", "skopt/utils.py: cook_estimator"]}
{"id": "C108", "title": "Random search comes arbitrarily close to the optimum with probability tending to one", "statement": "With n calls, dummy_minimize fails to report a value of at most c at most with the probability that n independent samples of the space all miss the points where the objective is at most c; the same holds for the n random initial points of every other minimize function, however the search goes on. Samples have a positive probability to fall near any point of the space that the priors do not rule out. So for a continuous objective the reported value comes within any distance of its minimum with probability tending to one as n grows, and on spaces without Real dimensions the minimum itself is reported with probability tending to one.", "quantifier": "every space whose dimensions encode and decode (Real, Integer with either prior, Categorical), every objective that returns finite numbers, every number of calls, every level c, all callbacks that neither raise nor stop, runs without starting points; draws independent with the distributions the code asks scipy for", "why_tests_cant": "The claim is about the probability over all random streams and about all numbers of calls; a test runs finitely many seeds on finitely many objectives.", "anchors": ["skopt/optimizer/dummy.py: dummy_minimize", "skopt/optimizer/base.py: base_minimize", "skopt/optimizer/optimizer.py: Optimizer._ask, tell, _tell", "skopt/space/space.py: Space.rvs, Dimension.rvs, Categorical.rvs"]}
{"id": "C109", "title": "The order of the observations does not matter for the Gaussian process", "statement": "A GaussianProcessRegressor fitted to the same observations in another order, with the same kernel hyperparameters, gives the same answer to every call of predict: the same means, standard deviations, covariances and gradients, and the same exceptions.", "quantifier": "every number of observations, every permutation, every kernel, observations with individual noise levels, with and without normalisation of the values, all points, all combinations of return_* flags; real arithmetic", "why_tests_cant": "There are n! orders of n observations, for every kernel and every data set.", "anchors": ["skopt/learning/gaussian_process/gpr.py: GaussianProcessRegressor.predict, fit", "skopt/learning/gaussian_process/kernels.py: gradient_x"]}
{"id": "C110", "title": "Far away from all observations the Gaussian process knows nothing", "statement": "With a kernel whose covariances vanish at large distances - RBF, Matern with nu 0.5, 1.5 or 2.5, RationalQuadratic, sums of these and white noise, products of these with bounded kernels such as ConstantKernel - the predicted mean goes back to the average of the observed values (zero without normalize_y) as a coordinate of the point grows, and the predicted standard deviation to that of the prior times that of the observed values.", "quantifier": "every number of observations and coordinates, every such kernel with length scales other than zero, every tolerance; real arithmetic", "why_tests_cant": "It is a statement about limits, for every data set and every kernel.", "anchors": ["skopt/learning/gaussian_process/gpr.py: GaussianProcessRegressor.predict", "skopt/learning/gaussian_process/kernels.py: RBF, Matern, RationalQuadratic, Sum, Product, Exponentiation"]}
{"id": "C111", "title": "The predicted mean is a weighted sum of the observed values", "statement": "For given positions, kernel hyperparameters and noise levels, the mean a GaussianProcessRegressor predicts at a point is a sum of the observed values with weights that do not depend on these values, and so is the gradient of the mean; standard deviations and covariances depend on the values only through their overall unit (not at all without normalize_y). With normalize_y the weights add up to one: identical values are predicted everywhere, and raising all values raises every prediction by as much. The prediction for a combination of two data sets at the same positions is that combination of the predictions.", "quantifier": "every number of observations, all positions, kernels, noise levels and observed values, all points and combinations of return_* flags; real arithmetic", "why_tests_cant": "A test fixes the values; the claim is that one set of weights works for all values.", "anchors": ["skopt/learning/gaussian_process/gpr.py: GaussianProcessRegressor.predict, fit"]}
{"id": "C112", "title": "The warning about repeated points is right", "statement": "Optimizer.ask() warns that the objective has been evaluated at the suggested point before exactly when that point is among the points told so far.", "quantifier": "every space, surrogate, acquisition function and history", "why_tests_cant": "Whether a suggestion is a repetition depends on history, surrogate and random numbers; a test sees single suggestions.", "anchors": ["skopt/optimizer/optimizer.py: Optimizer._ask", "skopt/space/space.py: Space.distance"]}
{"id": "C113", "title": "The balance warning of the Sobol generator is right", "statement": "Sobol.generate warns exactly when the number of points asked for is not a power of two; if it does not warn, the points are balanced: with the first dimension cut into 2^a and the second into 2^b equal parts (at most as many boxes as points), every box holds the same number of points.", "quantifier": "every accepted skip, every number of points, every history of calls of the generator, all spaces", "why_tests_cant": "Balance is a property of all boxes for every number of points; the history of the generator is part of the state.", "anchors": ["skopt/sampler/sobol.py: Sobol.generate, Sobol.__init__"]}
{"id": "C114", "title": "The unit of time does not change the search in the per-second modes", "statement": "With acq_func 'EIps' or 'PIps', telling run times in minutes instead of seconds leads to the same suggestions, given the same random state.", "quantifier": "every history, every surrogate of value and time whose predictions follow the data, every unit", "why_tests_cant": "Two whole optimisation histories have to agree, for all histories and units.", "anchors": ["skopt/optimizer/optimizer.py: Optimizer._tell", "skopt/acquisition.py: _gaussian_acquisition"]}
{"id": "C115", "title": "Every region of the space gets its fair share of a Halton, Hammersly or Sobol design", "statement": "The number of points of a Halton, Hammersly or Sobol design that lie in a box of the space is the number of points times the share the box has of the space, up to an error that grows only with a power of the logarithm of the number of points; in particular the share of the points tends to the share of the space, uniformly in all boxes and skips.", "quantifier": "every box of the space, every number of dimensions and points, every skip, pairwise coprime bases", "why_tests_cant": "The claim is about all boxes and the limit of infinitely many points (low discrepancy); a test checks a few boxes.", "anchors": ["skopt/sampler/halton.py: Halton.generate", "skopt/sampler/hammersly.py: Hammersly.generate", "skopt/sampler/sobol.py: Sobol.generate"]}
{"id": "C116", "title": "A search with Halton initial points comes arbitrarily close to the optimum, whatever the luck", "statement": "A minimisation that begins with generated initial points evaluates each of them and reports a value no larger than the best of them. Consequently, on a space of uniform Real dimensions, for every point near which the objective exceeds f only by little and for every epsilon, there is a number N such that every run with initial_point_generator='halton' and at least N initial points reports at most f + epsilon: with any surrogate, acquisition function, budget and state of the random generator.", "quantifier": "every number of uniform Real dimensions, every objective that is continuous at the optimum, every epsilon, every surrogate, acquisition function and random state, all sufficiently large numbers of initial points", "why_tests_cant": "It is a statement about the limit of infinitely many initial points and about all objectives; a test runs a few objectives with a few points.", "anchors": ["skopt/optimizer/base.py: base_minimize", "skopt/optimizer/optimizer.py: Optimizer.__init__, Optimizer._ask, Optimizer._tell", "skopt/sampler/halton.py: Halton.generate"]}
{"id": "C117", "title": "Drawing among the acquisition functions as gp_hedge does is nearly as good as knowing the best one beforehand", "statement": "With acq_func='gp_hedge' every fit makes three proposals and draws one of them. The drawn one becomes the next suggestion, and the probabilities used for the draw are the softmax (with factor eta) of the gains earned so far, this fit's judgement included. As a consequence, whatever the surrogates predict, the expected total of the predicted values of the drawn proposals exceeds the total of each single acquisition function by at most log(3)/eta + eta (b-a)^2/8 per fit, if the predictions lie between a and b.", "quantifier": "every space, every sequence of calls whose tells return, every surrogate (adversarial ones included), every eta > 0 and every range of the predictions", "why_tests_cant": "It is an inequality between expectations over all random draws and all sequences of predictions; a test sees single draws of single sequences.", "anchors": ["skopt/optimizer/optimizer.py: Optimizer._tell, Optimizer.__init__"]}
{"id": "C118", "title": "With EI or PI and a noise-free surrogate the search does not repeat itself, and it exhausts a finite space", "statement": "With acq_func='EI' or 'PI' and acq_optimizer='sampling', if the surrogate is certain of the values at the points it was fitted on and uncertain elsewhere (as a Gaussian process without noise is), ask() after a fitting tell() returns a point that has not been observed, unless all the sampled candidates have been. Hence a run over a space of Integer and Categorical dimensions whose candidate samples contain the whole space evaluates every point of the space and reports the global minimum, provided n_calls is at least n_initial_points plus the number of points.", "quantifier": "every objective, every such space and surrogate, every state reached by successful calls, every budget large enough, with or without a generator of initial points", "why_tests_cant": "That no point is ever repeated and none is left out is a statement about all states of the search and all objectives; a test runs one small space with one objective and cannot tell a search that happens to find the optimum from one that must.", "anchors": ["skopt/optimizer/optimizer.py: Optimizer._tell, Optimizer._ask", "skopt/optimizer/base.py: base_minimize", "skopt/acquisition.py: gaussian_ei, gaussian_pi", "skopt/learning/gaussian_process/gpr.py: GaussianProcessRegressor.predict"]}
{"id": "C119", "title": "Parallel suggestions repeat neither each other nor the past", "statement": "With acq_func='EI' or 'PI', acq_optimizer='sampling' and a surrogate that takes the observations to be free of noise, once n_initial_points observations have been told, ask() returns a point that has not been told, and ask(n_points=n) returns n different points none of which has been told, with every strategy and whatever was called before - as long as the sampled candidates contain enough different points.", "quantifier": "every space with a proper encoding, every such surrogate, every sequence of tell (single and batch), ask(), ask(n_points), update_next() and get_result(), every n and strategy", "why_tests_cant": "Evaluating the same point twice in parallel wastes a worker; that it never happens depends on the copy, the lies, the cache and the search together and on every history, of which a test sees a handful.", "anchors": ["skopt/optimizer/optimizer.py: Optimizer.ask, Optimizer.copy, Optimizer._tell, Optimizer.update_next", "skopt/acquisition.py: gaussian_ei, gaussian_pi"]}
{"id": "C120", "title": "A minimisation does not depend on what was minimised before with the same Space and generator", "statement": "Calling gp_minimize, forest_minimize, gbrt_minimize or dummy_minimize with a fixed random_state gives the same evaluations, the same results shown to the callbacks and the same returned value whether it is the first use of the Space object and of the initial point generator object, or other minimisations - with other objectives, settings and seeds, completed, interrupted or refused - were run with these objects before.", "quantifier": "every finite sequence of earlier calls of the minimize functions, every objective, every setting and seed, every space with legal transforms", "why_tests_cant": "A script that compares optimisers on one Space object relies on the runs not influencing each other; a test fixes one order of two runs, while the influence passes through state that only some settings touch.", "anchors": ["skopt/optimizer/base.py: base_minimize", "skopt/optimizer/optimizer.py: Optimizer.__init__", "skopt/utils.py: normalize_dimensions", "skopt/sampler/sobol.py: Sobol.generate", "skopt/space/space.py: Space.set_transformer"]}
{"id": "C121", "title": "The predictions of the Gaussian process are the conditional distribution given the observations", "statement": "If the objective is a sample of the Gaussian process of the surrogate (kernel, mean and spread as fitted) and is observed with independent normal noise of the fitted variances, then given the observed values the objective at any point is normally distributed with the mean and standard deviation that predict returns: credible intervals have the stated probability, no estimate computed from the data has a smaller mean squared error than the predicted mean, expected improvement is the conditional expectation of the improvement over any incumbent computed from the data, and for several points the joint distribution is the one given by return_cov.", "quantifier": "every kernel, every training set and noise level for which the covariance factorises, every point or list of points, every event, estimate or incumbent that is a measurable function of the data; normalisation constants fixed", "why_tests_cant": "A statement about probabilities over all objectives; simulation can only estimate a few of them.", "anchors": ["skopt/learning/gaussian_process/gpr.py: GaussianProcessRegressor.predict, GaussianProcessRegressor.fit", "skopt/acquisition.py: gaussian_ei"]}
{"id": "C122", "title": "One step ahead no rule beats EI or PI, and the suggestion of LCB is nearly the best candidate", "statement": "If the objective is a sample of the Gaussian process of the surrogate, then among all rules that choose one of the candidates from the observed values, the suggestion of acq_func='EI' has the largest expected improvement over the incumbent (by more than xi) and the suggestion of 'PI' the largest probability of such an improvement. With 'LCB' the value at the suggestion exceeds the smallest value at the candidates by at most 2*kappa predicted standard deviations, except with probability at most (number of candidates) * P(|N(0,1)| > kappa).", "quantifier": "every kernel, training set and noise, every list of candidates, every measurable rule, every incumbent that is a measurable function of the observed values, every xi and kappa", "why_tests_cant": "Quantifies over all decision rules and all sampled objectives; a test compares a few rules on a few objectives.", "anchors": ["skopt/acquisition.py: _gaussian_acquisition, gaussian_ei, gaussian_pi, gaussian_lcb", "skopt/optimizer/optimizer.py: Optimizer._tell", "skopt/learning/gaussian_process/gpr.py: GaussianProcessRegressor.predict"]}
{"id": "C123", "title": "Fitting a BayesSearchCV again gives the same search", "statement": "A call of BayesSearchCV.fit does not depend on earlier completed fits with the same search space objects: fitting again with the same data and seed evaluates the same candidates in the same order and gives the same optimizer_results_, and so does a fit that was preceded by fits on other data or with other settings (if one of these used a Gaussian process, the later fit must use one too). All that a completed fit changes in the caller's search spaces: dimensions without a name get the name of their parameter, and a Gaussian process sets their transform to 'normalize'.", "quantifier": "every search space (dict or list, with or without iteration counts), every number of earlier fits with arbitrary data, seeds, batch sizes and callbacks", "why_tests_cant": "fit writes into the Dimension objects of the caller, so the second fit starts from other objects than the first; a test compares two fits for one space and estimator, not all histories of fits.", "anchors": ["skopt/searchcv.py: BayesSearchCV._make_optimizer, BayesSearchCV._run_search, BayesSearchCV.fit", "skopt/optimizer/optimizer.py: Optimizer.__init__, Optimizer.copy", "skopt/utils.py: dimensions_aslist, point_asdict"]}
{"id": "C124", "title": "A generated initial design is evaluated as designed, with and without starting points", "statement": "A minimize call with initial_point_generator given evaluates, after the starting points, the n_initial_points points of a design that the generator made for this number of points, all of them and in order, before any suggestion of the surrogate. Starting points x0 come in addition to the design and do not change it.", "quantifier": "every generator, space, number of initial points, number of starting points with given or evaluated values, every objective and callbacks, interrupted or completed runs", "why_tests_cant": "Tests look at the number of evaluations, not at which points of which design were evaluated for every combination of generator and starting points; that a shortened Latin hypercube loses its stratification is invisible in a count.", "anchors": ["skopt/optimizer/base.py: base_minimize", "skopt/optimizer/optimizer.py: Optimizer.__init__, Optimizer._ask, Optimizer._tell", "skopt/sampler/lhs.py: Lhs.generate"]}
{"id": "C125", "title": "If the kernel bounds the objective, predictions are never far off and a search with LCB has no regret", "statement": "If the objective (after the normalisation that the surrogate applies) is bounded by B in the kernel of the surrogate, as every finite combination of kernel functions is, and is observed without error, then at every point the predicted mean is within B predicted standard deviations of the true value. With acq_func=\"LCB\", kappa at least B and fixed kernel parameters, the value at each suggestion exceeds the value at any of the candidates of that step by at most 2*kappa predicted standard deviations, and the mean of the squared excesses tends to zero as the search goes on, at a rate that depends on the kernel and not on the objective or on how candidates are drawn; a point that is always among the candidates is matched up to eps within a number of evaluations known beforehand.", "quantifier": "every kernel built from those of the package (no periodic kernel in more than one dimension), every number and position of initial points, every sequence of candidate lists, every objective bounded by the kernel, every number of evaluations", "why_tests_cant": "A regret bound quantifies over all objectives and over runs of any length; a test runs one objective for a few dozen steps and cannot tell slow convergence from none.", "anchors": ["skopt/learning/gaussian_process/gpr.py: GaussianProcessRegressor.predict", "skopt/acquisition.py: gaussian_lcb, _gaussian_acquisition", "skopt/optimizer/optimizer.py: Optimizer._tell", "skopt/learning/gaussian_process/kernels.py"]}
{"id": "C126", "title": "Repeating an evaluation is the same as averaging it", "statement": "If some points have been evaluated several times, the Gaussian process that sees every single evaluation predicts, at every point, the same mean, standard deviation and covariance as one that sees each point once with the average of its values and with the noise divided by the number of evaluations. With a noise level per observation the average is weighted by the inverse noise and the inverse noises add up.", "quantifier": "every kernel, every number of points and repetitions, every values and positive noise levels, every query point; the normalisation of the values is kept fixed", "why_tests_cant": "A statement about all data sets with repetitions and all kernels; tests that repeat an evaluation check only that no error is raised.", "anchors": ["skopt/learning/gaussian_process/gpr.py: GaussianProcessRegressor.fit, GaussianProcessRegressor.predict"]}
{"id": "C127", "title": "kappa and xi trade exploitation for exploration", "statement": "For the same surrogate and the same candidates: a larger kappa (LCB) or a larger xi or a better incumbent (EI, PI) never makes the suggestion less uncertain; for LCB with kappa >= 0 and for EI it also never makes the predicted mean of the suggestion smaller. kappa=\"inf\" suggests one of the most uncertain candidates.", "quantifier": "every list of candidates, every predicted means and non-negative standard deviations, every incumbent, every pair of kappa or xi values", "why_tests_cant": "The order has to hold for all predictions and all pairs of parameter values, and for EI rests on how two curves of expected improvement can cross; a test compares a few values.", "anchors": ["skopt/acquisition.py: gaussian_lcb, gaussian_ei, gaussian_pi, _gaussian_acquisition", "skopt/optimizer/optimizer.py: Optimizer._tell"]}
{"id": "C128", "title": "Forests never predict beyond what has been observed", "statement": "At every point a random forest or extra trees surrogate predicts a mean between the smallest and the largest observed value, and a variance of at most (max - mean)(mean - min) plus min_variance. With min_variance=0 its standard deviation is at most half the range of the observed values, and observations that all agree are predicted with certainty. So, with the best observation as incumbent and xi >= 0, the probability of improvement is nowhere above one half, the expected improvement nowhere above a quarter of the range, and the lower confidence bound nowhere below min - (sqrt(1+kappa^2)-1)/2*(max-min).", "quantifier": "every forest grown with the mse criterion (any number of trees, with or without bootstrap), every observed values, every list of query points, every xi >= 0 and kappa", "why_tests_cant": "A bound over all data sets, all forests that can be grown from them and all query points; tests look at predictions on one data set.", "anchors": ["skopt/learning/forest.py: _return_std, RandomForestRegressor.predict, ExtraTreesRegressor.predict", "skopt/acquisition.py: gaussian_ei, gaussian_pi, gaussian_lcb"]}
{"id": "C129", "title": "Fitting can be put off", "statement": "Telling observations one by one with fit=False and only the last one with fit=True leaves the optimizer in exactly the state, and returns exactly the result, of telling all of them in one batch: same history, surrogates, suggestion, gains of gp_hedge and state of the random numbers. tell(..., fit=False) itself draws no random numbers and changes no surrogate, gain or suggestion, whatever it is given and whether or not it raises; past the initial points, ask() gives the same answer after it as before.", "quantifier": "every space, configuration and state of an optimizer, every sequence of observations that tell accepts as a batch, with or without recorded times, with or without the final fit", "why_tests_cant": "An equality of whole optimizer states for every history; tests compare a few attributes on one run.", "anchors": ["skopt/optimizer/optimizer.py: Optimizer.tell, Optimizer._tell, Optimizer._ask"]}
{"id": "C130", "title": "The per-second modes weigh improvement against time", "statement": "With acq_func='EIps' ('PIps') the candidate with the largest expected improvement (number of successes) per second is suggested, where value and logarithm of the time have the predicted normal distributions and are independent. In particular, of two candidates with the same predicted value the one with the smaller expected time is preferred.", "quantifier": "every prediction of values and of times, every incumbent, xi and kappa, every pair of candidates", "why_tests_cant": "Expectations over a product of two distributions and a comparison for all predictions; tests compare a handful of numbers with a formula that may itself be wrong.", "anchors": ["skopt/acquisition.py: _gaussian_acquisition"]}
{"id": "C131", "title": "With LCB a repeated suggestion certifies the optimum", "statement": "With acq_func='LCB' and sampled candidates, if the objective stays within kappa predicted standard deviations of the predicted mean and the surrogate is certain of what it has seen: when ask() returns a point that has already been evaluated, no candidate has a smaller value; and over a finite space of Integer and Categorical dimensions, n_initial_points plus the number of points evaluations suffice to report the global minimum. More generally the suggestion is worse than any candidate by at most 2*kappa times its predicted standard deviation.", "quantifier": "every space, surrogate and objective with these properties, every history of observations, every random stream whose samples cover the space, every patient callback", "why_tests_cant": "Quantifies over objectives and histories; a test sees one search and cannot know that a better candidate does not exist.", "anchors": ["skopt/optimizer/optimizer.py: Optimizer.tell, Optimizer._tell, Optimizer.ask", "skopt/optimizer/base.py: base_minimize", "skopt/acquisition.py: gaussian_lcb", "skopt/learning/gaussian_process/gpr.py: GaussianProcessRegressor.predict"]}
{"id": "C132", "title": "A minimisation with stoppers ends with the first step that meets a criterion, or uses its whole budget", "statement": "When a minimize function with a list of ThresholdStopper, DeltaYStopper, HollowIterationsStopper and DeltaXStopper as callbacks returns, the documented condition of none of them was met by what had been observed after any earlier step, and either one of them is met by the final record or the objective has been evaluated exactly n_calls times. In particular a well-posed call with ThresholdStopper(t) returns a value of at most t unless all n_calls evaluations have been made.", "quantifier": "every list of stoppers with any parameters, every objective, space, surrogate, budget, set of starting points and random stream", "why_tests_cant": "The claim is about all steps of all runs: a stopper test applies the criterion to a few hand-made results, not to the sequence of records a run produces.", "anchors": ["skopt/callbacks.py: EarlyStopper, ThresholdStopper, DeltaYStopper, HollowIterationsStopper, DeltaXStopper", "skopt/optimizer/base.py: base_minimize", "skopt/utils.py: eval_callbacks"]}
{"id": "C133", "title": "A Latin hypercube design without criterion is an unbiased sample of the space", "statement": "Lhs(lhs_type='classic', criterion=None).generate gives every region of a space of uniform Real dimensions its fair share: averaged over the random numbers, the fraction of the returned points in a box equals the box's share of the volume, and the mean of any integrable function over the returned points equals its mean over the space. Centred designs do not have this property.", "quantifier": "every number of points, every number of uniform Real dimensions with any bounds, every box and every integrable function, the average being over all permutations and all uniform random matrices", "why_tests_cant": "An expected value over a continuous random matrix and all permutations cannot be observed; a statistical test can only fail to notice a small bias.", "anchors": ["skopt/sampler/lhs.py: Lhs.generate, Lhs._lhs_normalized, _random_permute_matrix"]}
{"id": "C134", "title": "Latin hypercube designs estimate the effects of single parameters with an error of order 1/n", "statement": "If the objective is a sum of effects of the single coordinates, its mean over the n points of a Latin hypercube design differs from its mean over the space by at most the sum of the changes the effects can make within one n-th of their range; for effects with Lipschitz constants L_j the error is at most sum(L_j * range_j) / n. This holds for every random outcome. For objectives with interactions it can fail for every n.", "quantifier": "every design type and criterion, every random outcome, every n >= 1, every space of uniform Real dimensions, every sum of integrable effects", "why_tests_cant": "A bound for all random outcomes and all objectives of a class; a test sees the error of single designs for single objectives.", "anchors": ["skopt/sampler/lhs.py: Lhs.generate, Lhs._lhs_normalized"]}
{"id": "C135", "title": "How close a search with a space-filling initial design comes to the optimum", "statement": "If the objective rises from its best point by at most L_r per unit in coordinate r, then a minimisation whose initial points come from a Halton generator with at least prod(p_r^k_r) points (p_r the r-th prime) reports a value at most sum(L_r * range_r / p_r^k_r) above the optimum, whatever the surrogate model proposes afterwards; with a Sobol generator and at least 2^(k_1+...+k_d+t) points the error is at most sum(L_r * range_r / 2^k_r). A full grid of n points in two dimensions comes within range_r/(floor(sqrt n)+1) of every point in each coordinate. Latin hypercube designs promise nothing of the kind: with any number of points they can leave a corner of the square without a point within half of its side.", "quantifier": "every space of uniform Real dimensions, every objective with such rates, every surrogate, acquisition function and random state, every number of points that satisfies the stated inequality", "why_tests_cant": "A guarantee over all objectives of a class and all models; a test observes single runs.", "anchors": ["skopt/sampler/halton.py: Halton.generate", "skopt/sampler/sobol.py: Sobol.generate", "skopt/sampler/grid.py: Grid.generate", "skopt/sampler/lhs.py: Lhs.generate", "skopt/optimizer/base.py: base_minimize", "skopt/optimizer/optimizer.py: Optimizer"]}
{"id": "C136", "title": "The random shift of Sobol designs makes them unbiased and at most doubles their spacing", "statement": "Sobol(skip, randomize=True).generate, the default: every single returned point is uniformly distributed over a space of uniform Real dimensions, so the mean of any integrable function over the points is an unbiased estimate of its mean over the space; and for every value of the shift the points still come within 2*range_r/2^k_r of every point of the space in every coordinate once there are at least 2^(k_1+...+k_d+t) of them, so a minimisation that starts with them reports a value at most sum(L_r * 2 * range_r / 2^k_r) above the optimum. Without the shift the first point of a new generator is always the lower corner.", "quantifier": "every power-of-two skip, every number of points the generator can hand out, up to forty uniform Real dimensions with any bounds, every integrable function; every shift from [0,1)^d, every objective with rates L_r, every surrogate and acquisition function", "why_tests_cant": "The distribution of the points and a bound for all shifts and objectives cannot be observed in single runs.", "anchors": ["skopt/sampler/sobol.py: Sobol.generate, _random_shift", "skopt/optimizer/base.py: base_minimize"]}
{"id": "C137", "title": "Pure exploration does not look at the objective values", "statement": "With acq_func='LCB' and kappa='inf', a surrogate whose uncertainty does not depend on the values observed (a Gaussian process with fixed hyperparameters, also with normalize_y=True) and acq_optimizer='sampling', the points searched are determined by the seed and the space: any sequence of tell, ask, ask(n, strategy), update_next and get_result calls and the same sequence with any other finite values told give the same points, the same exceptions and results with the same x_iters, and two minimisations of any two objectives evaluate the same points in the same order. With a finite kappa the points do depend on the values.", "quantifier": "every pair of objectives (also stateful ones), every space, seed, number and order of calls, batch size and liar strategy, initial point generator and starting points, every fixed kernel", "why_tests_cant": "A statement about all pairs of objectives and all call sequences.", "anchors": ["skopt/acquisition.py: gaussian_lcb", "skopt/optimizer/optimizer.py: Optimizer.tell, _tell, ask, copy", "skopt/optimizer/base.py: base_minimize", "skopt/learning/gaussian_process/gpr.py: GaussianProcessRegressor.predict"]}
{"id": "C138", "title": "The order and the direction of the parameters do not matter for the Gaussian process", "statement": "List the parameters of a search space in another order, count some of them downwards (-x instead of x for Real and Integer, 1/x for a log-uniform Real), and tell the Gaussian process the same observations in the new description, with the length scales of its kernel in the new order. Then the covariance matrix, and with it every likelihood, is the same, fit removes the same noise, and predict gives the same means, standard deviations and covariances at corresponding points, with gradients transformed by the chain rule. More generally encoded coordinates may be permuted, shifted, rescaled and reflected as long as the kernel's length scales can follow.", "quantifier": "every space of normalized dimensions, every permutation and choice of directions, every kernel built from the kernels of skopt.learning.gaussian_process.kernels with sums, products and powers, every number of observations, values, noise settings and normalize_y, all query points and all flags of predict", "why_tests_cant": "A statement about all permutations and reflections of all spaces and all kernels; a test compares a handful.", "anchors": ["skopt/space/space.py: Real, Integer, Space.transform", "skopt/space/transformers.py: Normalize, LogN", "skopt/learning/gaussian_process/kernels.py: gradient_x", "skopt/learning/gaussian_process/gpr.py: GaussianProcessRegressor.fit, predict"]}
{"id": "C139", "title": "A suggestion made from n random candidates is among the best fraction q of the space except with probability (1-q)^n", "statement": "Each tell that fits a surrogate samples n_points candidates from the space and suggests the one its acquisition function rates best (or, with acq_optimizer='lbfgs', the result of a minimisation started from the best of them). When a sample of the space belongs with probability q to the points rated at least as good as some value v, the suggestion is rated worse than v with probability exactly (1-q)^n with acq_optimizer='sampling', and with at most this probability with 'lbfgs' (for the place the suggestion is decoded from), hence at most exp(-qn). With acq_func='EI' and the default of 10000 candidates: if a thousandth of the space promises an expected improvement of at least e over the best value observed, so does the suggestion, except with probability below 1/20000. With acq_func='LCB', if the objective stays within kappa predicted standard deviations of the predicted mean, its value at the suggestion exceeds v by at most 2*kappa predicted standard deviations, except with the probability that n samples of the space all have values above v.", "quantifier": "every space whose encoding can be undone, every mixture of Real, Integer and Categorical dimensions and priors, every optimizer state and observation for which the tell returns, every acquisition function that rates points one by one, every threshold, every number of candidates, every surrogate that predicts point by point", "why_tests_cant": "A statement about a probability over all random candidates, for all surrogates and spaces; a test sees single suggestions and cannot tell a search over all candidates from one over some of them.", "anchors": ["skopt/optimizer/optimizer.py: Optimizer._tell", "skopt/space/space.py: Space.rvs, Space.transform, Space.inverse_transform", "skopt/acquisition.py: gaussian_ei, _gaussian_acquisition"]}
{"id": "C140", "title": "Starting points never hurt: the result is no worse than the best of them and the search still finds the optimum", "statement": "The value reported by a minimisation is at most the value of every point it evaluated and at most every value given with y0, whether or not a callback stopped the run. With x0 it is therefore at most the value of the best starting point, even if a callback stops the run at the first opportunity. With k starting points and an initial point generator the points number k+1, ..., n+k of the design for n+k points count as well; for the Halton generator in a space of uniform Real dimensions and every eps > 0 there is a number N, depending on k, such that every run with k starting points and at least N initial points reports at most the minimum of a continuous objective plus eps.", "quantifier": "every space, surrogate, acquisition function and behaviour of the random generators for which a well-posed minimisation is defined, every objective that returns on the space, every number of starting points with or without values, every callback that does not raise", "why_tests_cant": "Quantifies over all objectives, starting points and runs; the convergence statement is about all sufficiently large designs.", "anchors": ["skopt/optimizer/base.py: base_minimize", "skopt/optimizer/optimizer.py: Optimizer.__init__, Optimizer.tell", "skopt/sampler/halton.py: Halton.generate", "skopt/utils.py: create_result"]}
{"id": "C141", "title": "A Latin hypercube design finds the best value of any single parameter", "statement": "In every Latin hypercube design of n points (any type, any criterion, any random outcome) every value x of a uniform Real parameter has a point whose parameter is within range/n of x, and every value of a uniform Integer or a Categorical parameter with m values occurs if n > 2(m-1). Hence a minimisation that begins with n such points reports at most c if the objective is at most c whenever this one parameter has a certain value, whatever the others are; for a Real parameter, if the objective exceeds v by at most L times the distance of the parameter from x, it reports at most v + L*range/n. This holds in any number of dimensions, unlike the bounds for grids and low-discrepancy designs.", "quantifier": "every space with parameters of all kinds, every number of points, type, criterion and random outcome, every objective, surrogate and acquisition function", "why_tests_cant": "Universal over designs, random outcomes and objectives; a test sees one design at a time.", "anchors": ["skopt/sampler/lhs.py: Lhs.generate, Lhs._lhs_normalized", "skopt/space/transformers.py: Normalize.inverse_transform, LabelEncoder", "skopt/space/space.py: Integer, Categorical, Real", "skopt/optimizer/base.py: base_minimize"]}
{"id": "C142", "title": "Initial designs use the values of an Integer or Categorical parameter equally often", "statement": "In Latin hypercube, Halton and Sobol designs any two values of a uniform Integer or a Categorical parameter occur equally often, up to a constant that does not depend on the number of points; in particular a Latin hypercube design with as many points as values uses every value.", "quantifier": "every space, every number of points, every random outcome", "why_tests_cant": "A statement about frequencies for all numbers of points and all outcomes.", "anchors": ["skopt/sampler/lhs.py: Lhs.generate", "skopt/sampler/halton.py: Halton.generate", "skopt/sampler/sobol.py: Sobol.generate", "skopt/space/transformers.py: Normalize.inverse_transform"]}
{"id": "C143", "title": "The gradient that L-BFGS gets is the gradient of the acquisition function of the Gaussian process", "statement": "With acq_optimizer='lbfgs' the local search gets from gaussian_acquisition_1D a value and a gradient computed from the surrogate's predictions and their gradients. For a Gaussian process with constant prior variance - in particular the default surrogate, whatever the data and fitted hyperparameters - the gradient consists of the partial derivatives of the value, for LCB, EI, PI and for the versions per second with a second Gaussian process for the time, at every point where the standard deviations exceed 1e-8. Predictions with gradients are available exactly for the kernels with gradients.", "quantifier": "every Gaussian process with constant prior variance and differentiable kernel, every number of observations and dimensions, every point with standard deviation above 1e-8, every acquisition function and option", "why_tests_cant": "A derivative is a limit; tests compare finite differences at a few points for a few models.", "anchors": ["skopt/acquisition.py: gaussian_acquisition_1D, _gaussian_acquisition, gaussian_lcb, gaussian_pi, gaussian_ei", "skopt/learning/gaussian_process/gpr.py: GaussianProcessRegressor.predict", "skopt/learning/gaussian_process/kernels.py: gradient_x", "skopt/utils.py: cook_estimator"]}
{"id": "C144", "title": "Rounding does not spoil the low-discrepancy designs", "statement": "In floating-point arithmetic the points of Sobol (without random shift) and Halton over uniform Real dimensions are those of exact arithmetic up to a few units of rounding relative to the larger bound of each dimension: at most 8 units for Sobol, and 6 log2(skip + n_samples) + 17 units for Halton. Inside the unit cube the Sobol numbers and the Halton numbers in base two are computed without any rounding error, and Halton numbers in other bases stay in [0, 1), distinct and in the same order as the exact ones as long as (4 k + 2) b n is below 2^53, where b is the base, n the largest index and k its number of digits.", "quantifier": "every precision of at least 30 bits (Sobol) or 40 bits (Halton), in particular double precision; every uniform Real space of up to 40 dimensions (Sobol) or any number (Halton); every number of points for which the largest base times the largest index is at most 2^p (Halton) or skip + n < 2^30 (Sobol); every skip", "why_tests_cant": "Rounding errors depend on every digit of every index; a test would have to compare with exact rational arithmetic for all indices and bounds.", "anchors": ["skopt/sampler/sobol.py: Sobol.generate, Sobol._sobol", "skopt/sampler/halton.py: Halton.generate, _van_der_corput_samples", "skopt/space/transformers.py: Normalize.inverse_transform", "skopt/space/space.py: Real.inverse_transform, Space.inverse_transform"]}
{"id": "C145", "title": "The search runs to the end in floating-point arithmetic", "statement": "With floating-point rounding in every step of encoding, decoding, sampling, clipping and comparing points: on a space of valid dimensions (Real; Real with a logarithmic prior and bounds and base between 2^-1000 and 2^1000; Integer with bounds up to 2^48, or up to 2^32 and a base up to ten with a logarithmic prior; Categorical with up to 2^48 categories), with a transform other than 'identity' or 'string' for categories unless the surrogate is a Gaussian process, no documented call of the ask-tell interface raises, and gp_minimize, forest_minimize, gbrt_minimize, dummy_minimize and base_minimize with sane settings and a total objective return a result: every evaluated point is a member of the space, the reported optimum is the first best of the listed observations, and without a stopping callback the objective is evaluated exactly n_calls times.", "quantifier": "every arithmetic with the error bounds of floating point (in particular correctly rounded double precision); every such space; every sequence of tell, ask, ask(n_points), update_next and get_result; all acquisition functions and optimizers, starting points, budgets, callbacks and third-party results that keep their promises; with a surrogate also every generator of initial points that returns points of the space", "why_tests_cant": "The tolerance checks of the inverse transforms raise when rounding carries a value just outside [0, 1] or beyond the last category; whether that can happen depends on bounds, base, prior and on every bit of the value, and a run applies the transforms to arbitrarily many values nobody chose.", "anchors": ["skopt/optimizer/optimizer.py: Optimizer.__init__, Optimizer.ask, Optimizer.tell, Optimizer._tell, Optimizer.update_next, Optimizer.get_result, Optimizer.copy", "skopt/optimizer/base.py: base_minimize", "skopt/optimizer/gp.py: gp_minimize", "skopt/optimizer/forest.py: forest_minimize", "skopt/optimizer/gbrt.py: gbrt_minimize", "skopt/optimizer/dummy.py: dummy_minimize", "skopt/space/space.py: Space.transform, Space.inverse_transform, Space.rvs, Space.distance", "skopt/space/transformers.py: Normalize, LogN, CategoricalEncoder, LabelEncoder"]}
{"id": "C146", "title": "The generators of initial points deliver in floating-point arithmetic", "statement": "With floating-point rounding in every step, Sobol (with or without random shift), Halton, Hammersly, Lhs (classic or centered; criterion maximin, ratio or none) and, in two or more dimensions and within its size limit, Grid return exactly the requested number of points, every one a member of the space of possibly mixed Real (also log-uniform), Integer and Categorical dimensions, and leave the dimensions as they were: no rounding error carries a coordinate beyond the unit interval or makes the mapping into the space raise. A Latin hypercube is still one after rounding: in every dimension one sample per stratum [k/n, (k+1)/n], up to 7/2^p. Hence gp_minimize with any of these generators as initial_point_generator completes in double precision (in the sense of C145).", "quantifier": "every valid mixed space whose dimensions are within the precision (as in C145); every number of points n >= 1 within the limits of the code and of the precision (Sobol: indices below 2^30, at most 40 dimensions; Halton and Hammersly: (4 digits + 2) b (skip + n) < 2^p for every base b; Lhs: n <= 2^p); every random outcome; binary arithmetic of every precision p >= 10 (Sobol: p >= 30; Grid: every arithmetic with the error bounds of floating point)", "why_tests_cant": "Edges such as i * (1/n), the sum of an edge and a fraction of its stratum, or the last radical inverse can be rounded up past 1 for particular n; then the tolerance check of the inverse transform raises. A test tries a handful of n and bounds.", "anchors": ["skopt/sampler/sobol.py: Sobol.generate", "skopt/sampler/halton.py: Halton.generate, _van_der_corput_samples", "skopt/sampler/hammersly.py: Hammersly.generate", "skopt/sampler/lhs.py: Lhs.generate, Lhs._lhs_normalized", "skopt/sampler/grid.py: Grid.generate, _create_uniform_grid_exclude_border, _create_uniform_grid_include_border, _create_uniform_grid_only_border", "skopt/space/space.py: Space.inverse_transform"]}
{"id": "C147", "title": "Rounding never makes the draw of gp_hedge fail", "statement": "Whatever the gains, the probabilities gp_hedge computes in floating point lie in [0, 1] and sum to one up to a few rounding errors, so that in double precision numpy's multinomial accepts them and the draw that picks the next suggestion never raises; a larger gain never gets a smaller probability, and the largest gain gets at least its share of 1/n up to rounding.", "quantifier": "every non-empty list of gains (for the acceptance by numpy: the three of gp_hedge); every eta (for the order: every eta >= 0); every exp with exp(0) = 1 and no negative result (for the order: also monotone), in particular one that rounds small results to zero; binary arithmetic of every precision p >= 1 (acceptance: p >= 53); every sequence of calls of a gp_hedge optimizer whose tells return", "why_tests_cant": "RandomState.multinomial raises as soon as the probabilities sum to more than one by 1e-12; whether rounding, or exponentials that overflow or vanish, can ever cause this for some gains is a question about all triples of floats, of which a test sees a handful.", "anchors": ["skopt/optimizer/optimizer.py: Optimizer._tell (gp_hedge branch), Optimizer.tell"]}
{"id": "C148", "title": "Distances and the warning about repeated points survive rounding", "statement": "In floating-point arithmetic Space.distance of two points of the space is exactly symmetric, non-negative and zero for equal points only, and equals the exact distance up to one rounding per component and one more (so the triangle inequality holds up to that factor). Hence, once the surrogate makes the suggestions, Optimizer.ask() warns about every suggestion that has been told before; it warns only if a recorded point is at most 1e-8 away, up to these roundings; with Integer and Categorical dimensions only, it warns exactly for repetitions.", "quantifier": "every space, also mixed; all points of it; every history and state of the optimizer; binary arithmetic of every precision p >= 1 with rounding to nearest, ties to even", "why_tests_cant": "Symmetry and 'zero only for equal points' could fail for particular pairs of floats by rounding (as a + b - b = a does); tests compare a few points with integer coordinates.", "anchors": ["skopt/space/space.py: Space.distance, Real.distance, Integer.distance, Categorical.distance", "skopt/optimizer/optimizer.py: Optimizer._ask"]}
{"id": "C149", "title": "Rounding and the uncertainty of forests", "statement": "In floating-point arithmetic RandomForestRegressor and ExtraTreesRegressor.predict(X, return_std=True) report the mean and the standard deviation of the mixture of the trees (C58), up to an error that is small relative to the uncertainty: the standard deviation is never NaN, never below the square root of min_variance, and is zero only where the trees agree.", "quantifier": "every forest, every number of trees and every leaf; binary arithmetic of every precision p >= 1 with rounding to nearest, ties to even", "why_tests_cant": "The variance is computed as the difference of two large numbers, so whether it survives depends on the size of the objective; tests use objectives of moderate size where the cancellation is invisible.", "anchors": ["skopt/learning/forest.py: _return_std, RandomForestRegressor.predict, ExtraTreesRegressor.predict"]}
{"id": "C150", "title": "Ranking candidates by LCB and PI with rounding", "statement": "In floating-point arithmetic gaussian_lcb and gaussian_pi rank candidates as in exact arithmetic: a candidate with a smaller mean and a larger uncertainty never gets the worse LCB; the candidate with the smallest computed LCB has the smallest exact LCB (with kappa='inf': the largest uncertainty); PI lies in [0, 1], is on the correct side of 1/2, and for equal uncertainty does not increase with the mean.", "quantifier": "all predictions (means and standard deviations), all kappa >= 0 and 'inf', all y_opt and xi; any number of candidates; binary arithmetic of every precision p >= 1 with rounding to nearest, ties to even; any increasing cdf with value 1/2 at 0", "why_tests_cant": "Whether rounding reverses the order of two candidates depends on the particular floats; tests compare a few values with a tolerance.", "anchors": ["skopt/acquisition.py: gaussian_lcb, gaussian_pi"]}
{"id": "C151", "title": "Expected improvement and probability of improvement with rounding", "statement": "In floating-point arithmetic gaussian_ei returns the expectation of the improvement below y_opt - xi under the predicted normal distribution, and gaussian_pi its probability, up to an error proportional to the size of the numbers involved; so the candidate with the largest computed EI has, up to that error, the largest expected improvement. EI is zero where the surrogate is certain and positive everywhere else, and a positive xi makes it strictly smaller.", "quantifier": "all predictions, y_opt and xi; any number of candidates; binary arithmetic of every precision p >= 1 with rounding to nearest, ties to even; norm.cdf and norm.pdf with any relative error eps", "why_tests_cant": "The formula adds a negative and a positive term of nearly equal size far from the optimum, so its accuracy has to be shown for all arguments; tests compare a handful of values.", "anchors": ["skopt/acquisition.py: gaussian_ei, gaussian_pi"]}
{"id": "C152", "title": "Improvement per second with rounding", "statement": "In floating-point arithmetic the value minimised for acq_func='EIps' ('PIps') is minus the expected improvement (the probability of improvement) times the expectation of one over the evaluation time (log-normal prediction of the time model), up to the error of EI (PI) and a relative error that grows with the size of the exponent only. Rounding never reverses the ranking of two candidates one of which has at least the improvement of the other and at most its predicted time, with the same uncertainty about the time.", "quantifier": "all predictions of the model of the objective and of the time model, all y_opt and xi; binary arithmetic of every precision p >= 1 with rounding to nearest, ties to even; norm.cdf, norm.pdf and np.exp with any relative error eps <= 1; for the ranking, np.exp monotone and not negative", "why_tests_cant": "The error of the exponent is amplified by the exponential; how much has to be bounded for all predictions, tests look at a few.", "anchors": ["skopt/acquisition.py: _gaussian_acquisition, gaussian_ei"]}
{"id": "C153", "title": "The mean lie with rounding", "statement": "In floating-point arithmetic the lies that ask(n_points, strategy='cl_mean') tells the copy stay close to the mean of the observed values: constant over the batch and between the smallest and the largest observed value, up to a stated rounding error that grows with the number of rounds.", "quantifier": "all recorded values, all batch sizes, every surrogate; binary arithmetic of every precision p >= 1 with rounding to nearest, ties to even", "why_tests_cant": "Every lie is recomputed from a history that holds the earlier lies, so rounding errors feed back; whether they add up or explode over a long batch cannot be seen from a few batches.", "anchors": ["skopt/optimizer/optimizer.py: Optimizer.ask"]}
{"id": "C154", "title": "Averaging the trees of a forest keeps order, sign and range", "statement": "In floating-point arithmetic the prediction of a random forest or extra trees surrogate is not larger at a candidate where no tree predicts more, is never negative if no tree predicts a negative value, and lies between the smallest and the largest prediction of a tree, the last up to a stated rounding error.", "quantifier": "all numbers of trees up to 2^p, all predictions of the trees; binary arithmetic of every precision p >= 1 with rounding to nearest, ties to even", "why_tests_cant": "Rounding errors of the sum depend on all predictions; that they never turn around an order or a sign is a statement about all of them.", "anchors": ["skopt/learning/forest.py: RandomForestRegressor.predict, ExtraTreesRegressor.predict"]}
{"id": "C155", "title": "The stoppers with rounding", "statement": "In floating-point arithmetic DeltaYStopper asks to stop exactly when the n_best smallest observed values truly differ by less than delta, HollowIterationsStopper exactly when the best value truly improved by at most the threshold, DeltaXStopper exactly when the last two points are truly closer than delta, and DeadlineStopper exactly when one more iteration as long as the longest does not fit into the limit; each up to a stated rounding error, which for the first can only delay the stop and for the second only hasten it.", "quantifier": "all histories, thresholds, numbers of iterations and durations; binary arithmetic of every precision p >= 1 with rounding to nearest, ties to even", "why_tests_cant": "Which side of a threshold a rounded difference falls on depends on the exact values; tests use values where nothing is rounded.", "anchors": ["skopt/callbacks.py: DeltaXStopper, DeltaYStopper, HollowIterationsStopper, DeadlineStopper"]}
{"id": "C156", "title": "The uncertainty of the quantile regression surrogate with rounding", "statement": "In floating-point arithmetic the standard deviation that GradientBoostingQuantileRegressor.predict(X, return_std=True) reports has a relative error of at most the unit roundoff with respect to half the difference of the two predicted quantiles, is positive, zero or negative exactly when the quantiles are in order, equal or crossed, and ranks candidates as the true differences do.", "quantifier": "all pairs of predicted quantiles; binary arithmetic of every precision p >= 1 with rounding to nearest, ties to even", "why_tests_cant": "Differences of nearly equal numbers are where rounding usually does most harm; that it does none here for any pair cannot be tested.", "anchors": ["skopt/learning/gbrt.py: GradientBoostingQuantileRegressor.predict"]}
