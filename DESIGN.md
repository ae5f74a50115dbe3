# Design of the model and the proofs

Source under study: scikit-optimize in `/repo` (Python, read as text only).
Lean project: `/verif/lean` (Lean 4.33, Mathlib modules imported one by one).

## 1. How the code is modelled

* **Functions, not effects.** Each Python function is a small total Lean function. A Python
  exception is a value: functions return `Except PyErr α`, methods that mutate an object return the
  new state together with an `Except` value (so that "what is left behind when it raises" is visible).
* **Arithmetic is a parameter.** `Arith F` (Verif/Basic.lean) is the record of the
  floating point primitives the code uses (`+ - * / log10 **`, rounding to the nearest
  integer, int→float). The space/optimizer model is written once over an arbitrary linearly ordered
  carrier `F` and an arbitrary `A : Arith F`.
  * Order-type properties (membership, bounds, history, …) are proved for **every** `A`, i.e. for
    every rounding behaviour of the arithmetic (NaN excluded from `F`; NaN objective values
    are a separate constructor of `Flt`).
  * Algebraic properties (round trips, metric laws) are proved for `exact : Arith ℝ` (real numbers).
* **Randomness, surrogate models, the acquisition optimiser, the objective, callbacks and clocks**
  are parameters (arbitrary functions). Nothing is assumed about them unless a theorem says so.
* **Python values** appearing in points are `Val F` (number, string, other object, sequence);
  Python `==` on bool/int/float is equality of `num`.
* **Aliasing** is modelled with explicit references only where it matters (result objects sharing
  the optimizer's lists, dimension objects shared with the caller, the caller's callback list).

Layout of `/verif/lean/Verif`:

* `Basic.lean` – errors, arithmetic record, numpy-style list helpers.
* `Model/*.lean` – the code, function by function, with file/line citations.
* `Spec/*.lean` – small independent specifications (no model helpers).
* `Lemmas/*.lean` – helper lemmas.
* `Props/*.lean` – the property theorems (named in `MANIFEST.json`) with an `example` beside each
  showing non-trivial satisfaction of the hypotheses.

## 2. Plan per property

| id | modelled | proof |
|----|----------|-------|
| C01 | Transformers, Real/Integer/Categorical, Space.inverse_transform with running offset | induction over the dimension list; clip lemmas for every `Arith`; negation for non-integer Integer bounds and narrow dtypes |
| C02 | same + Space.transform | per-dimension left inverse over ℝ, then induction over dimensions (offset arithmetic); negations for duplicate / mixed-type categories |
| C03 | Space.transform, transformed_n_dims, transformed_bounds | induction over dimensions |
| C04 | transformed_bounds | per-dimension proof for the good combinations, negations with witnesses for the bad ones |
| C05 | rvs with raw draws as parameter | from C01 |
| C06 | distance | per-dimension metric, sum over zipped lists |
| C07 | check_x_in_space, `__contains__` | refinement to the independent predicate `InSpace` |
| C08 | set/get_transformer, `generate` wrappers | restoring law by induction over dimensions |
| C09 | `__eq__` | reflexivity; negations (prefix, asymmetry) with witnesses |
| C10 | check_dimension | decision table equal to a specification; negation for (int, float, prior) |
| C11 | `__getitem__`, dimension_names | refinement to lookup spec |
| C12 | point_asdict, point_aslist | round trip over sorted association lists |
| C13 | use_named_args | refinement, call log |
| C14–C17 | Normalize, Pipeline, CategoricalEncoder (with LabelBinarizer), LabelEncoder | real analysis / induction on stages / argmax lemmas |
| C18 | `_create_primes` on lists/functions | loop invariant of the odd sieve ⇒ list of primes |
| C19, C20 | `_van_der_corput_samples` over ℚ | equals digit-reversal spec; bijection mod b^k |
| C21 | Halton/Hammersly.generate | count, prime-search termination, injectivity from base 2 |
| C22, C23 | Lhs | permutations as parameters; invariant of the selection loop |
| C24, C25 | Sobol over ℕ with xor | Gray-code induction, triangular direction matrix checked in the kernel for all 40 rows; state invariant |
| C26 | `_random_shift` over ℝ | `Int.fract` |
| C27, C28 | Grid | counting, cartesian product; negations (1-D shortage, border='only') |
| C29–C41 | Optimizer state machine | invariants by induction over operation sequences; simulation; frame lemmas; negations where false |
| C42–C46 | base_minimize, dummy_minimize | loop semantics with an evaluation trace |
| C47–C50 | callbacks | decision logic against order-theoretic spec |
| C51, C52 | BayesSearchCV loops | loop arithmetic |
| C53, C54 | acquisition over ℝ | Gaussian integrals, `HasDerivAt` |
| C55 | kernels' values and `gradient_x` over ℝ, with the axis bookkeeping of products | structural induction over the kernel expression with `HasFDerivAt`; refutations for nested products and the kink of Matern 1/2 |
| C56 | HammingKernel | finite sums and products; positive semidefiniteness by induction over the coordinates (each coordinate contributes a convex combination of the all-ones and the equality matrix) |
| C57 | GaussianProcessRegressor.predict/fit, over ℝ with the inverse as a parameter | matrix identities, chain rule; refuted for linear kernels and second fits |
| C58 | `_return_std` | finite-sum identity |
| C59 | branin | completing the bound |
| C60 | softmax | exp positivity |
| C61 | plot_convergence | running minimum |
| C62 | transformed_bounds, np.clip | membership in box; refuted for Integer log-uniform identity and label categories |
| C63 | mkConfig | accept-iff decision logic |
| C64 | bayesSearch | sorted keys are the same permutation on both sides |
| C65 | searchAll | per-subspace invariant; refuted for several subspaces |
| C66 | searchAll | loop invariant; refuted for subspaces without iterations |
| C67 | the column-wise transform/inverse_transform of the model (Model/Space, Model/Transformers) | every stage is shown elementwise on the values that occur, then the column/row transposition is shown to commute with picking one row; refuted for mixed-type categories, where numpy turns the column into strings |
| C68 | tell, ask, fit block, encoders as for C29–C33; third-party calls promise to succeed inside the transformed bounds | invariant over the sequence of calls (everything on record is a member with a number, hedge bookkeeping has length 3, a suggestion exists once the initial phase is over); refutations for dummy + generator and for a model queue of size 0 |
| C69 | the last part of `_tell` with the acquisition functions of Model/Acquisition | argmin over candidates composed with monotone transformations (exp of the negative log time, scaling); refuted for the per-second modes |
| C70 | Model/Learning.lean: the three forms of predict and the position lookup; the fitted regressors are a parameter | lookup lemma for any position; refutations with crossing quantiles and with an array of quantiles |
| C71 | Model/Plots.lean: catIndex, mapCategories, evenlySampleCat, linspaceReal | induction over dimensions and points; natural-number division lemmas |
| C72 | the constructor with cook_estimator and normalize_dimensions (Model/Estimators) | column count of the built space against the length scales of the built kernel; refuted for per-second functions with dimensions given as tuples |
| C73 | Model/Plots.lean: `partial_dependence_1D/2D` over an abstract fitted predictor, grid from `_evenly_sample` | loops equal means over substituted samples; substitution in the transformed row is substitution of the coordinate (offset arithmetic as in C03); refuted for negative indices and Integer axes |
| C74 | `expected_minimum` (minimiser as parameter) and `expected_minimum_random_sampling` | bounds invariant of the clipped minimiser, argmin of NumPy with NaN; refuted for Integer and for categories |
| C75 | rvs of each dimension as a function of the raw uniform draw, over ℝ with Lebesgue measure | laws by pushing the uniform measure through the inverse transform; product measures for independence; refuted for normalised Integer and Categorical |
| C76 | the four `*_minimize` functions down to third-party calls | liveness invariant (`Ready`, `Live`) of C68 carried through the loop of C42; third-party calls are assumed to succeed |
| C77 | argument checks of the `*_minimize` functions in the order in which the code makes them | decision logic; the call log is empty when the settings are refused; refuted for `gbrt_minimize(acq_optimizer=…)` |
| C78 | Model/PairPlots.lean: what is drawn into which panel (calls on Matplotlib axes as data) | per-panel equality with a specification of the figure; refuted for shifted categorical dimensions and log bins |
| C79 | the list of models kept by `_tell` and `plot_gaussian_process` | invariant: the k-th model was fitted to a prefix; refuted for `n_calls` and the sign of the LCB curve |
| C80 | `dump`/`load` over a heap with references; copy and pickle are isomorphic copies | the written graph is isomorphic to the original; frame lemma for everything reachable from the original |
| C81 | `cook_initial_point_generator` and `set_params` | decision table; refuted for unknown parameters |
| C82 | VerboseCallback, TimerCallback inside `base_minimize`, with an arbitrary clock | transcript as a function of the evaluation trace, by induction over calls; refuted with starting points |
| C83 | CheckpointSaver inside `base_minimize`; the file is an abstract cell | simulation of the resumed run by the uninterrupted one; refuted for the per-second modes |
| C84 | `hart6` over ℝ | interval bounds on the exponentials at the documented point; the values of the four exponents are cut into boxes, on each of which a convex combination of them bounds the function (a verified checker, run by the kernel); strict midpoint convexity near the documented point makes the minimiser unique |
| C85 | `GradientBoostingQuantileRegressor.fit` with objects and their attributes | loop over quantiles with clones and seeds; refuted: the base estimator passed in is changed |
| C86 | the operators of the kernel mixin | the value of the expression is the expression of the values, by induction; refuted for gradients |
| C87 | the gains of `gp_hedge` over tells | invariant over operation sequences: gains equal minus the folded predictions |
| C88 | the L-BFGS branch of `_tell` | minimum over restarts, none of which is worse than its start |
| C89 | `set_transformer` on mutable dimension objects | frame and success conditions; refuted for calls that raise half-way |
| C90 | `from_yaml` on parsed documents | the loop equals the description; refuted for unknown class names |
| C91 | operation sequences in which third-party calls may raise | the state left behind by a failed `tell` still satisfies the liveness invariant; refuted for `gp_hedge` |
| C92 | `plot_convergence`, `plot_regret` as lists of drawing calls | running minima and sums against a specification; refuted for a true minimum of zero, labels, no arguments |
| C93 | `Opt.run` (the loop over `ask`, the objective and `tell`, then `get_result`); the objective is an arbitrary function with a state which may raise | induction on the number of iterations for the refinement to `runOps` and for the splitting law; completion from the liveness invariant; refuted for `n = 0` on a fresh optimizer |
| C94 | transform and inverse over an arithmetic of which only the standard model of rounding is assumed (`FloatLike`); `binArith p` is round-to-nearest-even with `p` bits | forward error analysis of each transformer; clipping and rounding absorb errors below one half; refuted for `Integer(-2**53, 2**53)` |
| C95 | `bayesSearch` as in C51 with `createResult`; scikit-learn's selection is specified (`FirstGreatest`) | each entry is what `get_result` of its optimizer returns, so its `x` is the first least of the negated scores; refuted for NaN scores |
| C96 | `baseMinimize` (trace of evaluations and callback invocations) and `Opt.run` | simulation by induction over the number of remaining calls |
| C97 | `Halton.unit`/`Hammersly.unit`/`generate` in exact arithmetic; `InCell`, `boxCount`, `spaceBoxCount` are a separate specification | a stratum is a residue class modulo b^k, a box one residue class (Chinese remainder theorem); counting residues in a window; affine map from the cube to the space |
| C98 | `Sobol.generate` in exact arithmetic with the direction numbers of the code; boxes as in C97 | the second coordinate is xor-linear in the first with Pascal's triangle modulo two as matrix, whose square submatrices are invertible (induction); counting over aligned blocks |
| C99 | `Gp.rawVar`, `Gp.std`, `Gp.mean`, `Gp.predict`, `predictPrior`; `predictorError` is a separate specification without matrix inverses | complete the square; particular weights give the consequences |
| C100 | kernel values over ℝ (Model/Kernels), `Gp.predict`, `predictPrior`; `Kernel.Valid` says which hyperparameters are meant. | Closure of covariance functions under sums, products (Schur), exponentials, limits and mixtures; squared-exponential from features, rational quadratic and Matérn kernels as mixtures of it (Gamma integral; √s as an arctan integral, then repeated integration for nu = 3/2, 5/2); periodic kernel from cosine features; posterior as a Schur complement. Refuted for the periodic kernel in two dimensions. |
| C101 | `Optimizer`, `base_minimize` and the transformers as before; `Dim.sampler` (Model/Sampler) names the distribution scipy is asked for; the changes of description are listed in Spec/Units (`UnitChange`). | A relation between two optimizers (same encoded points, same model, relabelled raw points) preserved by every call; the encodings of the two descriptions agree on corresponding values (exact real arithmetic). Refuted for the base of the logarithm without normalization, for odd shifts of Integer and for respellings that change the alphabetical order. |
| C102 | `Grid.generate` as modelled for C28 (shuffles as arbitrary permutations). | The design built by the code is computed as lists of products of equally spaced values; the selected points are a sublist up to permutation. The values per dimension are the integer square root of n whatever the dimension, so the claim is proved for two dimensions and refuted for three; repeated points are refuted for border='include'. |
| C103 | The constructors with unchecked arguments (Model/DimInit): strings, types and other objects as `dtype`, NaN bounds, names that are not strings. The checks of the label encoders and of `rv_discrete` are parameters. | Case analysis over the arguments; refuted for NaN bounds, log-uniform ranges with negative bounds, Integer ranges without integers and Categorical priors with transform='normalize'. |
| C104 | The text as a data type that says which arguments are printed, abbreviated as the code does (`ReprText`), and its evaluation by the constructors (Model/DimInit). That repr of numbers, strings and lists can be evaluated is assumed. | Round trip by cases and induction over the dimensions. Refuted for what is not printed (base of the logarithm) and what is abbreviated (more than seven categories, more than 31 dimensions). |
| C105 | `Sobol.generate` in exact arithmetic with the tables of the code; boxes as in C97 | Sobol's theorem: the digits of the direction numbers satisfy recurrences given by pairwise coprime polynomials over the field with two elements (Lemmas/SobolAlgebra, generic); coprimality by Euclid's algorithm, whose soundness is proved; independent rows give equal fibres; counting over aligned blocks. |
| C106 | whole optimizer of Model/Optimizer in exact arithmetic with the acquisition functions of Model/Acquisition and the Gaussian process of Model/GaussianProcess put in for the third-party calls | simulation: states whose recorded values are converted and whose models are related (predictions converted, or flat) stay so under every call; EI and PI depend on differences only, LCB is converted; gains of gp_hedge all move by the same amount, which the softmax ignores; lies are converted. Refutation for a change of unit with PI by evaluating two sessions. |
| C107 | fit (kernel with the noise added and removed) and predict of Model/GaussianProcess; the normalisation of the targets as a shift and a divisor | independent formula for regression of the raw values with a given noise variance; matrix algebra shows that the code uses the variance v + alpha times the square of the divisor of the targets. Refutation: with normalize_y=True, as gp_minimize sets it, two values two away from their mean and noise=1 give predictions of noise of variance four. |
| C108 | base_minimize and dummy_minimize of Model/Minimize, ask and tell of Model/Optimizer, rvs of Model/Space with the distributions of Model/Sampling; the generator state is arbitrary, it is only required to deliver the numbers in question | induction over the calls: during the random phase every suggestion is the decoded next draw, tell records its value and leaves the generator alone, so the result is at most the best of them; product measures bound the probability that all miss; continuity of the decoding gives every neighbourhood positive probability |
| C109 | predict of Model/GaussianProcess with the kernels of Model/Kernels; scikit-learn's fit is specified by what it promises (mean and standard deviation of the values, a factor of the covariance matrix, dual coefficients) | the covariance matrix of the reordered data is the reindexed matrix, so is its inverse; every sum over the observations is reindexed; whether a kernel's gradient raises does not depend on the training point |
| C110 | predict of Model/GaussianProcess, kernel values of Model/Kernels | the scaled distance grows at least as the distance divided by the largest length scale; exponentials beat powers; induction over the kernel for sums, products and powers; mean and variance are finite sums of vanishing terms |
| C111 | predict of Model/GaussianProcess; scikit-learn's fit is specified by what it promises (mean and standard deviation of the values, a factor of the covariance matrix, dual coefficients) | the unit of the values cancels between dual coefficients and prediction; the subtracted mean is itself a weighted sum; sums are regrouped |
| C112 | the branch of _ask that computes the smallest distance and compares it with 1e-8 (Model/AskWarning), Space.distance | the fold of min is the smallest element; distances are sums of component distances (C06); distances of discrete points are integers |
| C113 | the test on num_generated + n_samples (Sobol.warns in Model/Sobol) and Sobol.generate | n & (n-1) = 0 exactly for zero and powers of two; num_generated counts the points of all calls that returned; balance from C98 |
| C114 | logarithms of the times in tell, the incumbent np.min(self.yi) over both columns, EIps and PIps | a change of unit multiplies all acquisition values by one factor; a session in which the mixed incumbent changes the suggestion |
| C115 | the generators as for C97, C98 and C105; boxes with arbitrary corners | every interval with ends among the multiples of b^-m is made up of at most 2(b-1)m+1 strata; boxes of strata hold their share by C97/C105; boxes with arbitrary corners are enclosed between two such boxes |
| C116 | base_minimize with a generator of initial points; the generator is Halton.generate of the model | induction over the loop: the k-th ask of the initial phase returns the k-th point of the design; with C115 every box of positive size holds a point of every sufficiently large design |
| C117 | the gains, the probabilities, the draw and the update of the gains inside Optimizer._tell; the draw itself (RandomState.multinomial) is a parameter | induction over the calls gives the gains at every moment as totals of the past; the bound is the regret bound of exponential weights: the logarithm of the sum of the weights as potential and Hoeffding's lemma (from Mathlib) for each round |
| C118 | the search for the next point in Optimizer._tell, ask, the loop of base_minimize, the values of gaussian_ei and gaussian_pi, predict of the Gaussian process | EI and PI are zero where the surrogate is certain and negative (as minimised) elsewhere, so the smallest value belongs to a new point; encodings of different points differ (C02, C67); the number of points left plus the initial points left decreases with every evaluation; for the Gaussian process the variance is the value of a positive definite form (C99) |
| C119 | ask(n_points) with the constant liar, copy, the cache of batches, update_next, _tell | every suggestion handed out stems from a fit on all points told and all points suggested before in the batch (C118's argument for one fit); invariant over all sequences of calls for the stored suggestion and the cached batch |
| C120 | the shared objects (dimensions with their transforms, generator state) as passed from one call of base_minimize to the next | induction over the earlier calls: the dimensions are as at the start or normalized, the generator is the one at the start after some calls; the constructor gives the same optimizer on such objects, and the run depends on nothing else; refuted for a search without Gaussian process after one with, and for Sobol with skip |
| C121 | the regressor refitted to random observations of a Gaussian process (Mathlib's IsGaussianProcess); predict as in C57 | the prediction is an affine function of the observations; the residual is uncorrelated with them, hence independent since everything is jointly Gaussian; its variance is the predicted one; Fubini turns independence into the conditional statement |
| C122 | predict at the candidates, _gaussian_acquisition and np.argmin composed as in Optimizer._tell; the data are random as in C121 | by C121 the average over any rule is the average of the acquisition value at the chosen candidate, which argmin makes largest for every data set; for LCB the bands of all candidates hold at once by the union bound; refuted for candidates with standard deviation zero |
| C123 | bayesSearch on the dimensions that earlier fits left in the search space (spacesAfter); scores, surrogates and random state are parameters | every fit leaves each dimension d as normalized(d) (GP only) with the key as name if it had none; the optimizers built from such dimensions are the same, since the constructor normalizes and names them anyway; induction over the earlier fits; the assumptions on the initial point generator (it restores transforms, ignores names) proved for Sobol |
| C124 | baseMinimize with the generator as parameter; the refutation with the model of Lhs.generate | invariant of the loop: with k observations on record the number of initial points left is that of the design minus k, so that ask returns design point k; tell of the starting points moves k by their number; the budget theorem C42 turns positions into an initial segment |
| C125 | the fitted regressor with its predictions, gaussianAcquisition with LCB and the choice of the first smallest value; a session of such steps of any length; the kernel parameters do not change during the session | the prediction error is a weighted sum of objective values, which the kernel bound turns into the variance of the best linear predictor (C99); averaging the observations in a group of close points bounds the variance by the diameter of the group plus noise over the number of visits; counting visits gives a harmonic sum; compactness and continuity of the kernels give the groups |
| C126 | the fitted regressor with noise in the covariance, its mean, standard deviation and covariance predictions (Model/Gp.lean) | the weights of the large system are the weights of the small one split in proportion to the inverse noise; the linear system has one solution, so this determines every prediction |
| C127 | gaussianAcquisition over the predictions at the candidates and the choice of the first smallest value | LCB and PI: adding the two optimality conditions; EI: where the expected improvements of two candidates agree, that of the more uncertain one falls more slowly in xi, so they cross at most once |
| C128 | the forest wrapper of Model/Learning.lean; that a leaf predicts the average and has the variance of some of the observed values is what scikit-learn promises | the squares of numbers in an interval lie below a chord; averaging over leaf and trees gives the Bhatia-Davis bound on the variance of the mixture, from which the rest follows |
| C129 | tell, _tell and ask of Model/Optimizer.lean | acceptance of a batch is acceptance of each of its observations; induction over the observations told without a fit |
| C130 | _gaussian_acquisition of Model/Acquisition.lean; the specification is an integral over the product of the two predictive distributions | the integral of a product over a product measure, the moment generating function of the normal distribution; the preference of the uncertain time by evaluating the criterion |
| C131 | tell, ask and base_minimize of Model/, gaussian_lcb of Model/Acquisition.lean; the surrogate is a parameter with the predicted band and certainty at the data as assumptions, which are proved for Gaussian processes fitted without noise to kernel-bounded objectives | the lower confidence bound is below the objective everywhere and equals it at observed points; a measure that decreases with every new point unless an optimum is on record |
| C132 | base_minimize of Model/Minimize.lean with the criteria of Model/Callbacks.lean as callbacks | the results shown to callbacks are the beginnings of the final record (C83), the criteria mean what they say (C47, C48, C49), a step is followed by another unless a callback stops (C43) |
| C133 | Lhs.generate of Model/Lhs.lean in exact arithmetic; numpy's random numbers as product Lebesgue measure on the matrix and the counting average over permutations | closed form of the design, the law of a row computed on products of measurable sets (every stratum is equally likely, the strata add up), uniqueness of product measures, linearity of the expectation |
| C134 | Lhs.generate of Model/Lhs.lean in exact arithmetic | every column has one entry in each stratum (C22); the integral is split at the strata and compared with the entry of the stratum; a diagonal design with objective x*y shows that additivity is needed |
| C135 | the samplers and base_minimize as in C116, C104, C105 and C102, in exact arithmetic | the elementary boxes of the designs (C104, C105) and the grid lines (C102) put a design point next to the optimum; the run evaluates all design points and reports the minimum of what it evaluated |
| C136 | Sobol.generate of Model/Sobol.lean in exact arithmetic; rng.rand(1, d) as product Lebesgue measure | fract(a + u) preserves the uniform law (split at the wrap-around), product measures; a whole shifted cell lies within two cell widths of every coordinate, and C105 puts a point into it |
| C137 | Optimizer sessions and base_minimize of Model/Optimizer.lean and Model/Minimize.lean; the Gaussian process of Model/Gp.lean with the normalisation of the targets as in C106 | simulation: the two optimizers differ in the values and surrogates only, whose standard deviations are proportional; argmin of a scaled list is the same index |
| C138 | Space.transform (Model/Space.lean), the kernels with their gradients (Model/Kernels.lean), fit and predict (Model/GaussianProcess.lean) | structural induction over kernels: value, diagonal, nested calls and gradients are equivariant; the covariance matrices are equal, so factor products, inverses and dual coefficients are; encoding column by column |
| C139 | tell with its fit block (Model/Optimizer.lean), Space.rvs, transform and inverse_transform (Model/Space.lean), gaussian_ei (Model/Acquisition.lean), the laws of the draws (Model/Sampling.lean); the candidates' numbers are independent draws of these laws | the event that the suggestion is rated worse than v equals, up to the encoding round trip, the product over the candidates of the events that each one is; product measure; 1-q <= exp(-q); L-BFGS through the sorted starting points |
| C140 | base_minimize with starting points and callbacks (Model/Minimize.lean), Optimizer (Model/Optimizer.lean), Halton (Model/Halton.lean) | from C76 (the result is the first best of its record) and C42 (the record is everything given and evaluated); the design points by C124; the Halton statement by the discrepancy bound C115 with k points to spare |
| C141 | Lhs.generate (Model/Lhs.lean), the dimensions and their normalised inverse transforms (Model/Space.lean), base_minimize (Model/Minimize.lean) | every column of the unit matrix has one entry per stratum (C22); the normalised inverse rounds to the nearest of m equidistant points, so more than 2(m-1) strata leave no value out; the searches from C116_design |
| C142 | Lhs, Halton and Sobol generators and the normalised inverse transforms of Integer and Categorical | false: the generators work on the normalised scale, whose inverse rounds to the nearest of m equidistant points, so the two outer values get half the share of the inner ones. Proved instead: the exact shares n/(m-1) and n/(2(m-1)) up to 2 for Latin hypercubes and for Halton and Sobol designs of b^k and 2^k points. Refuted: for Integer(l, l+2), every K and every Latin hypercube design of more than 4(K+4) points; and a design of three points over three values that misses one |
| C143 | predict with gradients (Model/GaussianProcess.lean), gradient_x of the kernels (Model/Kernels.lean), the acquisition functions with gradient (Model/Acquisition.lean) | chain rule: C57 (gradients of mean and standard deviation), C55 (kernel gradients) and C54 (acquisition functions) |
| C144 | the generators of Model/Sobol.lean and Model/Halton.lean run in the rounded arithmetic of Model/BinaryFloat.lean | induction over the digits with an error invariant for the van der Corput loop; exactness of dyadic fractions for Sobol and base two; an error bound for the affine map and the clipping |
| C145 | the same model as in C68 and C76, over an arbitrary arithmetic with relative and absolute error bounds (Spec/Rounding.lean) and over correctly rounded binary numbers (Model/BinaryFloat.lean) | the rounded round-trip bounds of C94 show that encoding, decoding and sampling succeed and stay in the space; the invariants of C68 and C76 are then replayed over any arithmetic with these four facts (Lemmas/Rounded*.lean) |
| C146 | the generators as in C20 to C28 over correctly rounded binary numbers (Model/BinaryFloat.lean) | each design is shown to lie in the closed unit cube after rounding (for Latin hypercubes: the rounded edges are increasing and end at one, and adding at most the rounded width of a stratum to its lower edge never rounds past one); then decoding succeeds and stays in the space by the bounds of C94 and C145 |
| C147 | hedgeProbs and choose over correctly rounded binary numbers (Model/BinaryFloat.lean); the check made by numpy's multinomial is a specification (AcceptedProbs); numpy.exp is a parameter | the largest gain contributes exactly 1 to the sum, so the division is by a number of at least 1; the rounded sum is within one rounding per summand of the exact sum and no smaller than any summand; monotonicity of rounding gives the order |
| C148 | Space.distance and the warning of _ask as in C06 and C112, over correctly rounded binary numbers (Model/BinaryFloat.lean) | rounding commutes with negation and absolute value, so every component distance is the rounded exact one; the accumulated sum is within one rounding per component of the sum and at least every component (lemmas of C147) |
| C149 | the prediction and the variance before the root at one row, in any arithmetic (Model/ForestFloat.lean), linked to the model of C58 in exact arithmetic by C149_exact | absolute error by induction over the trees (one factor 1 + 2^-p per addition), cancellation bounded by the second moment; the cut-off at zero gives non-negativity in any arithmetic; witnesses with objectives near 2^30 for what is false |
| C150 | LCB and PI of one candidate in any arithmetic (Model/AcquisitionFloat.lean), linked to the model of all candidates in exact arithmetic by C150_exact | monotonicity of rounding for the comparisons, error analysis of three roundings for the choice; a tie of candidates with different exact bounds as witness of what is false |
| C151 | EI and PI of one candidate in any arithmetic (Model/AcquisitionFloat.lean), linked to the model of all candidates by C150_exact and C151_exact; reference is the integral of Spec/Acquisition.lean | error analysis: EI as a function of the scaled improvement with the improvement held fixed has derivative zero at the true value, so the rounding of the quotient costs 2 s / 2^p only (mean value theorem); EI is 1-Lipschitz in the improvement; the remaining five roundings are relative |
| C152 | the factor exp(-mu + 0.5 std^2) and the product in any arithmetic (Model/AcquisitionFloat.lean), linked to the model of all candidates by C152_exact; reference are the integrals of Spec/Acquisition.lean | the exponent is within 5/2^p (|mu| + std^2/2) of the exact one, the exponential turns this into a factor; product of two nearly known numbers; C151 for EI |
| C153 | the batch loop of Optimizer.ask as modelled for C35, run in binary arithmetic; reference is the real mean of the recorded values | the loop appends lies that are computed means of history and earlier lies; strong induction over the rounds: the mean of history and earlier lies is off by no more than the worst earlier lie, and computing it adds one rounding factor |
| C154 | forestMeanAt (Model/ForestFloat.lean) in binary arithmetic, linked to the model of the forest by C149_exact | rounding is monotone, so sums and quotients keep order; comparison with trees that all predict 0; the error bound of C149 for the range; doubles of doubles are doubles for two trees |
| C155 | the criteria of C47, C48 and C50 (Model/Callbacks.lean) run in binary arithmetic; reference are the same criteria with true differences and sums | rounding is monotone and leaves the threshold alone, so a difference cannot be rounded across it, only onto it; relative error bounds for the other direction and for the sum of the durations |
| C156 | gbrtStdAt (Model/GbrtFloat.lean), linked to the model of predict by C156_exact | halving is exact, so only the difference is rounded; relative error below one keeps signs; rounding is monotone |

## 3. Trusted base

**Logic.** Lean's kernel. Every theorem named in `MANIFEST.json` depends on at most `propext`,
`Classical.choice` and `Quot.sound` (checked with `#print axioms`, also by `vcheck`). No axioms of our own,
no `sorry`, no `native_decide`.

**Reading of the source.** Every model definition cites the file and lines it was read from. The translation
from Python to Lean is by hand and is part of the trusted base.

**Library calls given their documented meaning** (written out as definitions):
numpy `clip`, `round` (half to even), `argmin`/`argmax` (first optimum; NaN wins in `argmin`), `unique`,
`array` type promotion of mixed rows, `hstack`, `linspace`, `searchsorted`, `min`/`max`/`mean`, `allclose`;
scikit-learn `LabelBinarizer`, `clone`, `MultiOutputRegressor`, `has_fit_parameter`-like attribute tests; the
formulas of the scikit-learn kernels' `__call__`; scipy `norm.cdf`/`pdf` as the standard Gaussian distribution
function and density; sklearn's forest prediction as the mean of the trees' predictions.

**Calls that are parameters** (arbitrary functions; what a theorem assumes of them is in its hypotheses):

| parameter | where | assumed |
|---|---|---|
| float arithmetic `Arith F` | space, optimizer, callbacks | nothing, or `MonoArith` (rounding is monotone), or exact reals – as stated by the theorem |
| random draws | rvs, LHS, Halton, minimize | nothing, except in C68 that enough of them are delivered |
| surrogate `fit` / `predict` | optimizer | nothing; in C68 that they succeed (`Reliable`) |
| acquisition value, L-BFGS | optimizer | nothing in C33; in C68 that they succeed and stay in the bounds |
| initial point generators | optimizer | nothing, or that they restore the transforms (proved for the bundled ones, C08) |
| objective, callbacks, clocks | minimize, callbacks | nothing |
| sklearn cross validation | searchcv | reports one score per candidate in order (`Faithful`) |
| fitted trees, fitted quantile regressors | learning | C58: leaf moments are those of the training values in the leaf |
| Cholesky factor and inverse | GP | they are what their names say (`Fitted`): `K⁻¹` is the inverse, `alpha = K⁻¹ y` |
| SciPy distributions | C75 | `uniform`, `randint`, `rv_discrete` have the distribution they are named after, and draws for different dimensions are independent |
| surrogate gradients | C54 | they are the derivatives of the predictions (proved for GPs in C57) |

**Model and code, known simplifications.** Strings are compared by equality only; numpy dtypes appear as
conversion functions of a dimension; warnings, printing and timing are left out; `Real`, `Integer`, `Categorical`
objects are values, and sharing of dimension objects with the caller is represented where it is observable
(`Shared`, C46); a NaN is only representable as an objective value (`Flt.nan`), not inside a point.

## 4. What is modelled and what is not

Modelled, function by function:

* `skopt/space/transformers.py` – all transformers.
* `skopt/space/space.py` – `check_dimension`, `Real`, `Integer`, `Categorical`, `Space` (constructor checks,
  transforms, bounds, membership, distance, equality, `rvs`, lookup, (set|get)_transformer, `from_yaml` after parsing).
* `skopt/sampler/*.py` – Halton, Hammersly, LHS, Sobol, Grid, the wrappers around `generate`.
* `skopt/optimizer/optimizer.py` – the whole class (`__init__`, `copy`, `ask`, `_ask`, `tell`, `_tell`, `run`,
  `update_next`, `get_result`, `_check_y_is_valid`).
* `skopt/optimizer/base.py`, `dummy.py`, `gp.py`, `forest.py`, `gbrt.py` (the construction of default estimators only
  up to their class and kernel).
* `skopt/callbacks.py` – everything (the checkpoint file is the result last written to it).
* `skopt/acquisition.py` – values and gradients.
* `skopt/searchcv.py` – construction of the optimizers, `total_iterations`, `_run_search`, `_step`.
* `skopt/learning/forest.py`, `gbrt.py`, `gaussian_process/kernels.py`, `gaussian_process/gpr.py`.
* `skopt/utils.py` – everything (`dump`/`load` over a model of the heap in which deepcopy and joblib make isomorphic copies); `skopt/benchmarks.py` – `branin`, `hart6`, `bench1`, `bench2`, `bench3`, `bench5`.
* `skopt/plots.py` – the helpers that compute what is drawn, and the data and axis settings given to matplotlib by
  `plot_convergence`, `plot_regret`, `plot_gaussian_process`, `plot_evaluations`, `plot_objective` and `plot_histogram`.

Not modelled: drawing with matplotlib, the file format of joblib, threads, warnings, internals of scikit-learn estimators (hyperparameter search of the GP in particular), L-BFGS, numpy's
random streams, YAML parsing itself, `noise_models`, `skopt/space` deprecations.

## 5. Findings (code bugs and disagreements)

Each line of this table is a theorem: the property as stated is false of the code, with a concrete witness.

| theorem | what it shows |
|---|---|
| `C01_refuted_categorical_identity` | With the `identity` transform a categorical dimension passes any entry through. |
| `C01_refuted_integer_narrow_dtype` | `Integer(0, 300, dtype='int8')` is accepted, and 200 decodes to -56. |
| `C01_refuted_integer_with_float_bounds` | `Integer(0.4, 0.6)` is accepted, but every decoded value (0 or 1) is outside the bounds. |
| `C01_refuted_real_narrow_dtype` | `Real(0, 0.1, dtype='float32')` is accepted; clipping happens in double precision and the conversion to single precision afterwards moves the upper bound outside. |
| `C02_refuted_boolean_strings` | C02 is false for booleans encoded as strings: the string encoder decodes with `bool(text)`, which is true for every non-empty text, so `False` is encoded as "False" and comes back as `True` (`Categorical([False, True], transform="string")`, transformers.py:50-82). |
| `C02_refuted_duplicate_categories` | C02 is false with repeated categories: `Categorical(['a','a','b','c'])` with the default one-hot encoding is accepted, but `transformed_size` counts the repetition and the encoder does not, so the next dimension is decoded from the wrong columns: 'y' comes back as 'x'. |
| `C02_refuted_mixed_type_categories` | C02 is false for categories mixing numbers and strings: numpy turns the decoded list into an array of strings as soon as one of the points has a string there. |
| `C02_refuted_string_beside_number` | C02 is false when a string-valued transform sits beside a numeric dimension: `np.hstack` turns the whole matrix into strings and decoding the numeric column raises. |
| `C03_refuted_duplicate_categories` | C03 is false with repeated categories: the matrix has fewer columns than announced. |
| `C04_refuted_categorical_identity` | C04 fails for numeric categories with the `identity` transform. |
| `C04_refuted_categorical_label` | C04 fails for `Categorical([...], transform='label')` with more than two categories. |
| `C04_refuted_integer_log_uniform` | C04 fails for `Integer(1, 1000, prior='log-uniform')`: the point 1 is transformed to 0, outside the reported bounds (1, 1000); clipping to the reported bounds (as the optimizer does before decoding) turns it into 10. |
| `C04_refuted_real_log_uniform_base` | C04 fails for `Real(1, 8, prior='log-uniform', base=2)`: the reported bounds are base-10 logarithms, so 8 ↦ 3 is outside. |
| `C07_refuted_empty_point` | The empty list is accepted although it is no point of a one-dimensional space. |
| `C07_refuted_integer_accepts_fraction` | "Every component is legal" fails for Integer dimensions: 2.5 is accepted by `Integer(0, 5)`. |
| `C07_refuted_tuple_categories` | If the categories are tuples, a legal point is read as a batch and rejected. |
| `C09_refuted_prefix` | Equality compares only the common prefix: a 1-dimensional space equals a 2-dimensional one. |
| `C09_refuted_same_points` | Equal spaces need not have the same points: `Integer(0, 100000) == Integer(0, 100001)`. |
| `C09_refuted_symmetry` | Equality is not symmetric (the tolerance of `np.allclose` scales with the second argument). |
| `C10_refuted_mixed_bounds_with_prior` | C10 fails for mixed bounds with a prior: `(0, 1.5, "uniform")` becomes an `Integer`, although `(0, 1.5)` is a `Real`. |
| `C10_refuted_numpy_bounds_with_prior` | C10 fails for numpy integers: bounds that give an `Integer` dimension are taken as categories as soon as a prior is added; the same happens with a float base. |
| `C11_refuted_default_names` | The names reported for unnamed dimensions cannot be looked up: `dimension_names` contains "X_0" but `space["X_0"]` is `(None, None)`. |
| `C14_refuted_tolerance_round_trip` | The tolerances of the two directions do not match: on an interval narrower than 1, a value accepted by `transform` (within the tolerance) can have an image that `inverse_transform` rejects. |
| `C17_refuted_mixed_batch` | Encoding the batch `['a', 1]` with the categories `[None, 'a', 1]` raises `KeyError`: without `None` in the batch, numpy makes the number 1 the string '1', which is not a category. |
| `C21_refuted_half_negative_range` | **C21 is false for a skip range with one negative end**: `np.max(min_skip, max_skip)` takes `max_skip` as the axis and raises. |
| `C21_refuted_hammersly_bases` | **C21 is false for more user-supplied bases than dimensions** (and Hammersly uses one base less than there are dimensions, so a list that suits Halton is refused by Hammersly). |
| `C21_refuted_negative_skip` | **C21 is false for negative skips**, which the constructor accepts: with `min_skip = max_skip = -1` in one dimension the first and the third unit-cube point coincide (the loop body runs once even for the index -1). |
| `C21_refuted_zero_max_skip` | The case `min_skip < 0`, `max_skip = 0`: zero is an axis that `np.max` accepts for a number, so the negative `min_skip` is used, and points coincide again. |
| `C23_refuted_correlation` | **C23 is false for `correlation`**: entries equal to 1 are left out of the comparison, so a design with two identical columns replaces a design whose largest off-diagonal correlation is 0.4. |
| `C23_refuted_first_design_never_compared` | **C23 is false if the design drawn first counts as a candidate**: with one iteration the code draws two designs; the first one has the larger smallest distance (0.95 against 0.05), but the second one is returned. |
| `C24_refuted_k_30` | **C24 is false for `k = 30`**: the last of the first `2^30` points cannot be generated, in any number of dimensions, although 30 direction numbers are available. |
| `C25_refuted_dimension_change` | **C25 is false for single points after a change of dimension**: `init` clears the last point but not the last seed, so a generator that has produced seeds 0 … 3 in one dimension gives the all-zero vector for seed 4 in two dimensions. |
| `C25_refuted_skip_budget` | **C25 is false with a skip when the lifetime budget is used up**: the second identical call raises `ValueError`. |
| `C25_refuted_skip_changed` | **C25 is false for `generate` when the skip is changed in between** (`set_params(skip=8)` between a one-dimensional and a two-dimensional call): the first point differs from that of a new generator with skip 8. |
| `C27_refuted_one_dimension` | **C27 is false in one dimension**: five points are asked for, four are returned; ten are asked for, seven are returned. |
| `C28_refuted_border_only` | **C28 is false for `border='only'`**: the code builds the layout *without* border points; none of the four points below has a coordinate at 0 or 1. |
| `C28_refuted_only_one_dimension` | **C28 is false in one dimension** for the appended border points: 1/2 is not on the border. |
| `C29_refuted_length_mismatch` | **C29 is false for batches of different lengths**: two points with one value are accepted, `tell` returns, and from then on points and values are out of step. |
| `C29_refuted_list_of_points_with_scalar` | **C29 is false for a list of points with a scalar value**: it is accepted, and the list of points is recorded as if it were one point. |
| `C29_refuted_per_second_array` | **C29 is false in the per-second modes for points given as numpy arrays**: `tell` returns a result but the observation is dropped. |
| `C30_refuted_nan` | **C30 is false with NaN on record**: the reported optimum is NaN although 0 was observed. |
| `C31_refuted_short_design` | **C31 is false when the generator delivers fewer points than requested** (as `Grid` does in one dimension, `C27_refuted_one_dimension`): with three points requested and two delivered, the first `ask` returns the *last* design point, which is then asked for again at the end. |
| `C33_refuted_fractional_bounds` | **C33 is false for fractional integer bounds**: `Integer(0.4, 0.6)` is accepted, and the random points suggested are outside. |
| `C35_refuted_per_second` | **C35 is false in the per-second modes**: with the single observation (value 5, time 1) on record as (5, -3) – the logarithm of the example world – `cl_min` claims the objective value -3, the logarithm of the time, and `cl_mean` claims the mean of value and logarithm. |
| `C36_refuted_size_zero` | **C36 needs `k ≥ 1`**: with `model_queue_size = 0`, which the constructor accepts, the first fitting `tell` raises `IndexError` after having recorded the observation. |
| `C37_refuted_nan` | **C37 is false for NaN**: `tell` raises because the value is invalid, but the NaN stays on record and every later `tell` raises as well. |
| `C37_refuted_too_many_values` | **C37 is false for one point with two values**: `tell` raises (an `IndexError` while packing the result), but two values and one point stay on record. |
| `C38_refuted_sobol_skip` | **C38 is false with a stateful generator**: the copy runs the generator of the original again. With `Sobol(skip=2)` and two initial points the constructor returns, but every copy – and with it every batch `ask` – raises `ValueError`. |
| `C40_refuted_x_iters_grow` | **C40 is false**: after one more `tell`, the `x_iters` of the earlier result has two entries, its `func_vals` one. |
| `C41_refuted_incumbent_mixes_times` | **C41 is false for the incumbent**: the `y_opt` handed to the acquisition function is the minimum of *all* recorded numbers, log-times included; with values 5 and 2 and log-times -3 and -1 it is -3. |
| `C42_refuted_negative_initial_points` | **C42 is false for a negative number of initial points**: `n_calls = 0` with two starting points and `n_initial_points = -2` is accepted, and the objective is evaluated twice. |
| `C44_refuted_outside_space` | **C44 is false for starting points outside the space**: `Real(0, 10)` with `x0 = [[11]]`; the objective is evaluated at 11, then the call raises `ValueError`. |
| `C45_refuted_single_point` | **C45 is false for a single starting point** `x0 = [3, 4]`, the first documented form: with an initial point generator a run of three calls evaluates the starting point and one more, then raises. |
| `C45_refuted_single_point_many_dims` | **C45 is false for a single starting point in a space with more dimensions than calls**: one call in a space of three dimensions raises `ValueError` (`Expected n_initial_points >= 0`). |
| `C45_refuted_too_many_points` | **C45 is false for more starting points than calls**: `n_calls = 1` with two starting points is accepted and evaluates both. |
| `C46_refuted_gp` | **C46 is false with a Gaussian process**: the caller's dimension objects are switched to the `normalize` transform. |
| `C46_refuted_verbose` | **C46 is false with `verbose=True`**: the `VerboseCallback` stays behind in the caller's list, and a second call with the same list reports twice. |
| `C48_refuted_nan` | **C48 fails with NaN.** After one NaN value the stopper never asks to stop again, for every arithmetic, every threshold and every continuation of the history. |
| `C52_refuted_single_dict` | **C52 is false for a single dict**: one subspace with two parameters and three iterations evaluates three candidates, but `total_iterations` is six. |
| `C53_refuted_ei_zero_std` | Mean 1 and standard deviation 0 against an incumbent of 3: the improvement is 2 for certain (`xi = 0`), but the value is 0. |
| `C53_refuted_pi_zero_std` | The same for the probability: improvement is certain, but the value is 0. |
| `C55_refuted_matern_half_kink` | At a training point the Matérn kernel with `nu = 1/2` has no gradient, but the code returns one. |
| `C55_refuted_matern_half_product` | The gradient of a constant times a Matérn kernel with `nu = 1/2` raises ValueError in two dimensions. |
| `C55_refuted_three_factors` | The gradient of a product of three kernels raises ValueError: the inner product adds a second axis to a point that already has one. |
| `C57_refuted_linear_std_gradient` | With a linear kernel the returned gradient of the standard deviation has even the wrong sign: with a noisy observation at one, the standard deviation at one grows at rate `√(1/2)`, the code returns `-√(1/2)`. |
| `C57_refuted_second_fit` | `fit` changes the attribute `kernel`, so a second `fit` of the same object adds a second white kernel and removes only one of them: the prior variance used for prediction then contains noise. |
| `C57_refuted_std_gradient_alone` | Asking for the gradient of the standard deviation but not for that of the mean returns neither, without an error. |
| `C62_refuted_integer_log_uniform` | **C62 is false for `Integer(low, high, prior='log-uniform')` with a surrogate that is not a GP** (identity transform), whenever `high ≤ 10 ** low`, e.g. `Integer(3, 1000, 'log-uniform')`: whatever the surrogate, the acquisition function and its optimizer prefer, the suggestion is always the upper bound. |
| `C63_refuted_auto_on_categories` | The documentation promises that "auto" chooses sampling on a categorical space; for a Gaussian process object with a kernel of one's own it chooses L-BFGS. |
| `C63_refuted_categorical_per_second` | On a categorical space with a per-second acquisition function, "auto" chooses L-BFGS although the kernel of the default Gaussian process is then a Hamming kernel, which has no gradient. |
| `C63_refuted_dummy_per_second` | A multi-output regressor around `None` counts as an estimator: with the name "dummy" and a per-second acquisition function the optimizer will try to fit it. |
| `C63_refuted_other_regressor` | Every regressor of another class counts as providing gradients, whether it does or not. |
| `C63_refuted_trees_per_second` | With a per-second acquisition function the trees are hidden inside a multi-output regressor, and the check takes it for an estimator with gradients: "lbfgs" is accepted, and even chosen by "auto", for a random forest. |
| `C65_refuted_two_subspaces` | **C65 is false for several subspaces**: with a callback that asks to stop at once, the second subspace is searched nevertheless. |
| `C66_refuted_first_without_iterations` | **C66 is false for a first subspace without iterations**: such a search never returns; it ends in `UnboundLocalError` although `(space, 0)` is accepted by the constructor. |
| `C66_refuted_stale_result` | **C66 is false for a subspace without iterations (stale entry).** In every search that returns, the entry of such a subspace repeats the entry of the subspace before it. |
| `C67_refuted_mixed` | **C67 is false for categories that mix numbers and strings**: the number 1 is encoded as a number alone, but as a string when some other point of the batch has a string. |
| `C68_refuted_dummy_with_generator` | Without a surrogate ("dummy") but with generated initial points, `ask()` raises `IndexError` as soon as the initial points are used up, instead of going on sampling at random. |
| `C68_refuted_identity_categorical` | A categorical dimension of numbers with the `identity` transform and a surrogate (not a Gaussian process) that provides gradients: L-BFGS searches between the categories (0 and 1), the suggestion 0.5 is no category, and `ask` raises `RuntimeError`. |
| `C68_refuted_queue_size_zero` | A model queue of size 0 is accepted by the constructor, and the first `tell` that fits raises `IndexError`. |
| `C69_refuted_per_second_incumbent` | **C69 is false in the per-second modes**: the incumbent handed to the acquisition function is the smallest of all recorded numbers, values and logarithms of times mixed. With one observation, value 5 and log-time -3, the suggestion minimises the acquisition function for the incumbent -3, not for the smallest observed value 5. |
| `C70_refuted_array_quantiles` | `quantiles` is documented as array-like, but with a numpy array every prediction of a mean raises AttributeError. |
| `C70_refuted_negative_std` | Regressors are fitted separately for each quantile; where they cross, the predicted standard deviation is negative. |
| `C72_refuted_per_second` | For dimensions given as tuples and lists and a per-second acquisition function, the kernel is made for the normalized space but the surrogate is fitted on the one-hot encoded one: two length scales, four columns. |
| `C73_refuted_integer_axis` | **C73 is false for `Integer` dimensions**: the axis of `Integer(0, 1)` with three points contains 0.5, which is not a value of the dimension, and the model is evaluated there (unless the samples are an array of integers, see `C73_refuted_integer_samples`). |
| `C73_refuted_integer_samples` | **C73 is false for spaces of `Integer` dimensions with the identity transform** (the default): the encoded samples are an array of integers, and a number with a fraction loses it when it is put in. For `Integer(0, 1)`, three points and a model that predicts the number itself, the values returned for 0, 1/2 and 1 are 0, 0 and 1: the second one is not the prediction at 1/2. |
| `C73_refuted_negative_index` | **C73 is false for negative indices**, which Python accepts everywhere else: for the last dimension given as `-1` the slice `dim_locs[-1]:dim_locs[0]` is empty, nothing is replaced, and the curve is flat. |
| `C74_refuted_categorical` | **C74 is false for spaces with categories**: the random samples do not include the best point observed. For every space with a categorical dimension (of the kind for which the encoding is invertible), every best point and every outcome of the 100000 draws that misses it, there is a surrogate for which `expected_minimum` returns a larger value than the prediction at the best point. |
| `C74_refuted_integer` | **C74 is false for `Integer` dimensions**: on `Integer(0, 5)` the minimiser (a sound one) returns 2.5, which is not a point of the space. |
| `C75_refuted_categorical_normalize` | **C75 is false for `Categorical` with the normalizing transform**, witness: with two categories each is drawn with probability one half, although the prior may say that one of them never occurs. |
| `C75_refuted_categorical_prior_ignored` | **C75 is false for `Categorical` with the normalizing transform** (the one a Gaussian process surrogate sets): the prior has no influence on the samples. |
| `C75_refuted_integer_normalize` | **C75 is false for `Integer` with the normalizing transform** (the one a Gaussian process surrogate sets): a sample of `Integer(0, 2)` is 0 with probability 1/4 and 1 with probability 1/2, not 1/3 each. |
| `C75_refuted_integer_normalize_bounds` | **C75 is false for `Integer` with the normalizing transform, in general**: with three or more integers the bounds are too rare. |
| `C76_refuted_dummy_with_generator` | `base_minimize` with `base_estimator="dummy"`, an initial point generator and fewer initial points than calls raises `IndexError` as soon as the generated points are used up; with as many initial points as calls it returns. |
| `C76_refuted_identity_category` | `forest_minimize` over a real parameter and a categorical one with `transform="identity"`: encoding turns all columns into strings, so after one evaluation the search for the next point raises `TypeError`, even when all libraries do their part. Over the real parameter alone the same call returns. |
| `C77_refuted_gbrt_acq_optimizer` | **C77 is false of `gbrt_minimize`.** Its parameter `acq_optimizer` (gbrt.py:12) is never looked at: "sampling" is passed to `base_minimize` in its place (gbrt.py:186). An unknown value is accepted and the run completes. |
| `C78_refuted_constant_dimension` | **C78 fails with a constant dimension.** `Categorical(["a"])` is left out of the plot, but `plot_evaluations` asks whether the first dimension *of the space* is categorical when it draws the first dimension *of the plot*, and raises `AttributeError` because `Real(1, 10)` has no categories. |
| `C78_refuted_number_of_bins` | **C78 refuted (number of bins).** The parameter `bins` is documented as the number of bins of the histogram. For a log-uniform dimension it is the number of edges, so the histogram has one bin less, in every arithmetic and for every number: `np.logspace(…, bins)` should be `np.logspace(…, bins + 1)` (plots.py:834 and 1246). |
| `C78_refuted_selection` | **C78 fails for a selection.** Asked for the categorical dimension only, `plot_evaluations` draws its histogram as if it were numeric: 20 bins, with the three categories as the range. |
| `C79_refuted_categorical` | **C79 refuted (categorical dimensions).** `plot_gaussian_process` never returns for a space of one categorical dimension with the label or string transform: the encoded grid is a Python list, which has no `reshape` (plots.py:177). With the one-hot transform of three categories it does not fail there, but the three rows of three numbers are handed to the model as nine rows of one number. |
| `C79_refuted_earlier_view` | **C79 refuted (earlier view).** Four observations with `n_initial_points = 2`; `plot_gaussian_process(res, n_calls=1)` shows the second surrogate, which was fitted to three observations (and, in this world, could not have been fitted to two), but only two observations, without the one that the surrogate had learnt last. By `C79_earlier_view` this is so for every run and every `n_calls ≥ 0`: `n_random = len(res.x_iters) - len(res.models)` is one less than the number of observations of the first surrogate (plots.py:187-200). |
| `C79_refuted_kappa` | **C79 refuted (parameters of the acquisition function).** A run of `gp_minimize(…, acq_func="LCB", kappa=k)` with any `k`: the plot shows the criterion with `kappa = 1.96`, because `plot_gaussian_process` looks for "acq_func_kwargs" among the arguments of `base_minimize`, where `xi` and `kappa` are stored under their own names (plots.py:181, base.py:210). For `kappa = 5` the criterion of the run at 0 is 5 in this sign convention, and 1.96 is shown. |
| `C79_refuted_lcb_sign` | **C79 refuted (sign of LCB).** With `acq_func="LCB"` the curve labelled "LCB(x)" is minus the lower confidence bound: the values are negated because expected improvement and probability of improvement come negated from `_gaussian_acquisition`, but the lower confidence bound does not (plots.py:235-243, acquisition.py:43-58). Here the lower confidence bounds at 0 and 4 are -1.96 and 2.04, and 1.96 and -2.04 are shown. |
| `C80_refuted_unserializable` | **C80 is false for objectives that cannot be copied**: `store_objective=False` is documented as the way to store results whose objective cannot be serialised, but the whole result is deep-copied before the objective is deleted from the copy; if the objective is an object holding a lock, an open file or a generator, `TypeError` is raised although everything else could have been stored. |
| `C81_refuted_random_parameters` | **C81 is false for "random"**: parameters given together with "random" are ignored silently. |
| `C81_refuted_unknown_parameter` | **C81 is false for unknown parameters**: `set_params` sets any attribute, so a misspelt parameter (`critereon`) is accepted silently and the generator keeps its default. |
| `C82_refuted_given_values` | **C82 is false when values are given**: with `x0` and `y0` the callbacks run once before the first evaluation, and that is reported as iteration 1 at a random point. The four evaluations of the call are reported as iterations 2 to 5 – of `n_calls = 4`. |
| `C82_refuted_random_label` | **C82 is false with starting points, the descriptions**: `n_random` passed to `VerboseCallback` already includes the starting points, which are then added again. In a call with one starting point and two random points, iteration 4 is announced as an "Evaluating function at random point" although the result of iteration 3 lists a surrogate and the point was chosen with it. |
| `C82_refuted_starting_points` | **C82 is false with several starting points, the numbers**: they are evaluated before the callbacks run for the first time. In a call with two starting points and four evaluations only three iterations are reported, the value of the first evaluation is never shown, the first value shown is that of the second evaluation as "Iteration No: 1", the third evaluation is reported as iteration 2 "at provided point", and at the end a fourth iteration is announced that never takes place. Likewise `iter_time` of a `TimerCallback` has three entries instead of four. |
| `C83_refuted_per_second` | **C83 is false in the per-second modes**: `res.func_vals` of a checkpoint does not contain the times, so a call resumed with `x0 = res.x_iters, y0 = res.func_vals` raises `TypeError` – also with the very settings under which the checkpoint was written. |
| `C85_refuted_base_changed` | `fit` changes the object passed as `base_estimator`: its `random_state` is overwritten by a generator. |
| `C85_refuted_base_seed_ignored` | The seed of the base estimator does not make the fit reproducible: without a seed of its own the regressor uses the global generator, so that the outcome depends on the state of the latter. |
| `C86_refuted_gradient` | `2 * rbf * 3` is a kernel with a differentiable covariance, but its `gradient_x` raises ValueError. |
| `C89_refuted_failed_change` | C89 is false when the call is refused: `Space.set_transformer('label')` on a space with a `Categorical` and a normalized `Real(0, 10)` raises `ValueError`, but the categorical dimension has been switched to label encoding and the real dimension now reports the transform `'label'`. Its `transformed_bounds` is then (0, 10) although points are still encoded into [0, 1] (10 ↦ 1), and the list returned by `get_transformer` is refused by `set_transformer`, so that every later call of an initial point generator on this space, which saves and restores the transforms this way, raises. |
| `C90_refuted_documented_example` | The file shown in the documentation of `from_yaml` is refused: there the keys `low` and `high` stand in the same column as the class name, so YAML reads one mapping `{Integer: null, low: -5, high: 5}` and `option[key].items()` raises `AttributeError`, whatever the constructors do. |
| `C90_refuted_unknown_class` | C90 is false for a misspelt class: a file with a `Real` and a `Float` entry is accepted and the `Float` entry is silently dropped, so the search runs over fewer dimensions than the file lists. |
| `C91_refuted_gp_hedge` | **C91 refuted for `acq_func="gp_hedge"`, the default.** `self.next_xs_ = []` is executed before the proposals are computed (optimizer.py:556); if computing them fails, the next fit hands the empty list to `np.vstack` (optimizer.py:541), which raises `ValueError` before `next_xs_` is set again. After one failed search (here the second `tell`), however well the third-party calls work from then on, every `tell` that fits raises. |
| `C92_refuted_legend` | **C92 is false for labels other than the last**: the legend is drawn only if the variable `name` left over from the loop, i.e. the label of the last argument, is set (plots.py:103, 355). With a labelled result followed by an unlabelled one the label is never displayed. |
| `C92_refuted_no_arguments` | **C92 is false without arguments**: `plot_convergence()` and `plot_regret(true_minimum=…)` raise `UnboundLocalError` at the test for the legend instead of returning the empty axes. |
| `C92_refuted_zero` | **C92 is false for a true minimum of zero**, the most common one (`bench1`, sphere, …): `if true_minimum:` (plots.py:98) takes 0 for "not given", so `plot_convergence(res, true_minimum=0)` draws no line and no legend, while any other number is drawn. |
| `C93_refuted_zero` | **C93 is false for `n = 0` on a fresh optimizer**: `run(func, 0)` raises `ValueError` (the smallest of no values) instead of returning an empty result. |
| `C94_refuted_wide` | **C94 is false of wide ranges.** `Space([Integer(-2**53, 2**53, transform="normalize")])` encodes the points `[0]` and `[1]`, both of which it contains, by the same number: `1 - (-2**53)` is rounded to `2**53`. No round trip can return both, and the model is told the two evaluations were made at the same place. (Real run: with `s = Space([Integer(-2**53, 2**53, transform="normalize")])`, `s.inverse_transform(s.transform([[1]]))` is `[[0]]`.) |
| `C95_refuted_nan` | **C95 is false when a candidate cannot be scored.** With `error_score=np.nan` a candidate whose fit fails gets the score NaN; `np.argmin` prefers NaN to every number, so the entry of `optimizer_results_` reports the failed candidate – here the second of three – with `fun = nan` as the best, although the others have scores 0 and 2. |
| `C100_refuted_periodic` | The periodic kernel is no covariance function of points with two coordinates, where it is a function of their distance: for the origin and two points of the unit circle with distance one and a half the matrix has no Cholesky factor, even with up to a quarter added to the diagonal, so that fitting raises `LinAlgError`. |
| `C101_refuted_category_order` | Respelling categories matters for a Gaussian process if the alphabetical order changes, because categories are encoded by their alphabetical position (`np.unique`, transformers.py:175). From the same draw, `Categorical(["low", "medium"])` gives `"low"`, and `Categorical(["small", "medium"])` gives `"medium"`. |
| `C101_refuted_integer_shift` | Counting an `Integer` from another number matters if the numbers differ by an odd number: halfway between two values the code rounds to the even one (`np.round`). From the same draw in the middle, `Integer(0, 1)` gives the lower value and `Integer(1, 2)` the upper one. |
| `C101_refuted_log_base` | The base of the logarithm matters for surrogates that do not normalize the space (all but Gaussian processes): encoded values are logarithms to the given base, but suggestions are clipped to decimal logarithms of the bounds (space.py:366-374). `Real(1, 1024, prior="log-uniform", base=2)` is never searched above 16 after the initial points, whatever the surrogate and the acquisition function prefer; with `base=10` suggestions above 16 occur. |
| `C102_refuted_distinct` | With `border='include'` the missing points come from the border again (grid.py:148-163): for five points in two dimensions one corner is evaluated twice. |
| `C102_refuted_three_dimensions` | In three dimensions `use_full_layout=True` does not give a full factorial design: for nine points the code takes `⌊√9⌋ = 3` values per dimension, hence 27 points, and keeps nine random ones (grid.py:124-146). For some shuffle all nine have the same first coordinate, although a full design with 2·2·2 points fits. |
| `C103_refuted_log_bounds` | A log-uniform `Real` or `Integer` with a negative lower bound is accepted, although the logarithms of its bounds do not exist (space.py:254-259, 312). |
| `C103_refuted_nan` | NaN is accepted as a bound: `nan <= low` is false (space.py:254). |
| `C103_refuted_no_integer` | `Integer` accepts bounds between which there is no integer (space.py:439-456). |
| `C103_refuted_prior` | With `transform="normalize"` nobody looks at the prior of a `Categorical` (space.py:653-659): a prior that does not add up to one, which is refused otherwise, is accepted. |
| `C104_refuted_base` | The base of the logarithm is not shown: `Real(1, 8, "log-uniform", base=2)` is rebuilt with base 10, and the encoded values differ (those of the original are logarithms to base 2). |
| `C104_refuted_many_categories` | Eight categories are abbreviated: the evaluated text has seven, one of them the object `Ellipsis`. |
| `C104_refuted_many_dimensions` | A space of 32 dimensions is abbreviated, and the text cannot be evaluated. |
| `C104_refuted_raises` | `repr` raises `TypeError` if the prior has more than seven entries and is a tuple or an array (space.py:673). |
| `C106_refuted_per_second` | **C106 refuted for the per-second modes.** The incumbent is the minimum over values and logarithms of times together (`np.min(self.yi)`, optimizer.py:558, flattens the two columns), so the zero point of the objective matters: there is a surrogate whose predictions follow the data exactly, and told the value 1 taking 1 s the optimizer next asks for "b", told the value −1 taking 1 s for "a". |
| `C106_refuted_unit` | PI demands an improvement by `xi = 0.01`, whatever the unit: there is a surrogate whose predictions are exactly proportional to the values told, and told 1 the optimizer next asks for "a", told 100 for "b". |
| `C106_refuted_unit_EI` | **C106 refuted for EI, the acquisition function of `forest_minimize` and `gbrt_minimize`.** EI also demands an improvement by `xi = 0.01`, whatever the unit: there is a surrogate whose predictions are exactly proportional to the values told, and told 1 the optimizer next asks for "a", told 0.01 (the same value in a unit a hundred times as large) for "b". |
| `C107_refuted_known_noise` | The documentation of `gp_minimize` says about a number passed as `noise`: "If the variance is known before-hand, this can be set directly to the variance of the noise." For the surrogate that `gp_minimize` makes for one categorical parameter, `noise=1` and the values 2 and -2 the predictions are not those of regression with noise of variance one, whatever the scale `c` of the covariance of the process: noise of variance four is assumed. |
| `C112_refuted_initial_phase` | **C112 is false in the initial phase**: the point 5 has been evaluated, `ask` suggests it again without warning. |
| `C112_refuted_short_range` | **C112 is false for `Real` dimensions**: in `Real(0, 1e-9)`, after two evaluations at 0, the suggested point 5e-10 has not been evaluated, but `ask` says it has: distances are absolute, whatever the range. |
| `C113_refuted_later_calls` | **C113 is false from the second call on**: every call starts the sequence again, but points of earlier calls are counted. After three points five are handed out without a warning although three of them are below 4 and two are not; after one point four are handed out with a warning although there is one in every quarter. |
| `C114_refuted_time_unit` | For the same reason the unit of time matters: told the value 1 taking 1 time unit the optimizer next asks for "b", told the value 1 taking 10 units of a tenth for "a". |
| `C120_refuted_gp_before` | **C120 is false for a search without Gaussian process after one with**: the first search leaves the dimensions of the caller's `Space` normalized, and the second – same arguments, same seed – samples other points. |
| `C120_refuted_sobol_skip` | **C120 is false with `Sobol(skip=2)`**: of two identical calls with the same generator object the first returns, the second raises `ValueError` before it evaluates anything. |
| `C122_refuted_certain` | **C122 is false of candidates about which the surrogate is certain**: a line with random slope is observed without noise, after which it is known everywhere. Going from the candidate one to the candidate two is an improvement whenever the slope is negative, but EI and PI are zero for both and the first is suggested. |
| `C124_refuted_starts` | **C124 is false with starting points**: the points evaluated are not a design of the requested size. With `n_initial_points=2` and the Latin hypercube generator the initial points of a search over `Real(0, 6)` are 3/2 and 9/2, one in each half, as a Latin hypercube of two points must have. With the starting point 0 in addition, the two initial points are 3 and 5, the last two of a hypercube of three points: both are in the upper half. |
| `C130_refuted_expected_time` | **C130 is false of the expected time**: two candidates with the same predictions of the value. Evaluating the first takes one second for certain, evaluating the second takes `exp 2` seconds on average; but the second is preferred (in both modes, for every incumbent, `xi` and `kappa`). |
| `C132_refuted_nan` | **C132 is false if a value is NaN**: `HollowIterationsStopper(1, 0)` does not stop a run although the best number observed has not improved for three evaluations. |
| `C138_refuted_direction` | **C138 is false for gradients of the exponential kernel**: at an observed point `gradient_x` returns -1 (kernels.py:110-129), whatever the direction of the coordinate. Counted upwards the mean is said to fall to the right of the observation, counted downwards it is said to fall to the left. |
| `C138_refuted_linear` | **C138 is false for the linear kernel**: with `DotProduct`, a parameter counted downwards in the unit interval gives other predictions. The value 1, observed with noise variance 9/16 at the encoded point 1, is predicted to be 16/25 there; counted downwards, the point is 0 and the prediction is 0. |
| `C142_refuted_each_once` | **C142, refuted for as many points as values.** A Latin hypercube design of three points over `Integer(0, 2)` need not use every value: with the offsets 0.9, 0.5 and 0.5 in the three strata the value 0 is missing. |
| `C142_refuted_integer` | **C142, refuted.** In every Latin hypercube design of more than `4 (K + 4)` points over `Integer(l, l + 2)` – alone or with other parameters, for every random outcome – the value `l + 1` occurs over `K` times more often than the value `l`: the normalised scale is rounded to the nearest integer, and the values at the ends are nearest for half as long. |
| `C149_refuted_disagreement` | **C149 is false of disagreeing trees.** Two trees with pure leaves predicting `2 ** 30` and `2 ** 30 + 1` in doubles: the variance of a forest of the two is 1/4, but the reported standard deviation is 0, so the acquisition functions take the point for perfectly known. |
| `C149_refuted_floor` | **C149 is false of `min_variance`.** One tree predicting `2 ** 30` and `min_variance = 1` in doubles: the reported standard deviation is 0, although every smaller variance of a leaf is replaced by `min_variance` and so, in exact arithmetic, the reported standard deviation is at least 1 (C58): `1 + 2 ** 60` is rounded to `2 ** 60`. |
| `C150_refuted_tie` | **C150 is false of close candidates.** In doubles with `kappa = 1`, two candidates with predicted mean `-2 ** 60` and deviations 1 and 100 get the same lower confidence bound: the exploration bonus is rounded away, and which of the two is chosen is decided by their order. |
| `C151_refuted_xi` | **C151 is false of `xi`.** `xi` is subtracted from the best value before anything else, so with objective values of size `2 ** 60` it has no effect in doubles: at every candidate and whatever `norm.cdf` and `norm.pdf` are, expected improvement with `xi = 1` is expected improvement with `xi = 0`, although the expectations differ. |
| `C153_refuted_constant` | **C153 is false of constancy.** In doubles, with the value `2 ** 53 - 2` on record twice, `cl_mean` first lies `2 ** 53 - 2`; in the next round, with this lie on record, it lies `2 ** 53 - 3`, which is smaller than every value on record. |
| `C154_refuted_range` | **C154 is false of the range of three trees.** In doubles, three trees that all predict `2 ** 53 - 2` give a forest that predicts `2 ** 53 - 3`. |
| `C155_refuted_deltaY` | **C155 is false of `delta` itself.** In doubles, `DeltaYStopper(delta=1, n_best=2)` does not ask to stop at the values `1` and `2 ** -60`, which differ by less than 1: the difference is rounded to 1. |
| `C155_refuted_hollow` | **C155 is false of the threshold itself.** In doubles, `HollowIterationsStopper(1, threshold=1)` asks to stop after the values `1` and `-2 ** -60`, although the last evaluation improved the best value by more than 1. |

Observations made while reading that are reflected in the model (or in a restriction of a theorem) but are not theorems:

* `Real(log-uniform)` with a lower bound ≤ 0 is accepted.
* `Integer.__eq__` ignores prior and transform, `Real.__eq__` ignores the base.
* Halton uses `np.max(min_skip, max_skip)` where the maximum of the two is meant; a list of primes that is too short
  is silently discarded.
* A failed Sobol initialisation (41 dimensions) leaves the generator believing it is initialised.
* When `generate` raises, the transforms of the caller's space stay `normalize`.
* `Optimizer.copy` does not pass on `n_jobs` (for `model_queue_size` see `C38_queue_size_dropped`), shares the dimension objects, and fits
  a surrogate even if the original was told with `fit=False`.
* `model_queue_size` is type-checked only after the initial points have been drawn.
* `minimize`: `x0=[]` raises `IndexError`; a tuple of points raises `ValueError`.
* `DeadlineStopper` ignores the time between its two clock readings.
* `BayesSearchCV`: `np.array(v).item()` raises for categories that are tuples; all optimizers share one random state.
* The per-second factor in `acquisition.py` is E[1/t] for a log-normal t, not 1/E[t] as the comment says.
* `Kernel.__add__`, `__radd__`, `__mul__`, `__rmul__` (kernels.py:25-43) test `isinstance(b, Kernel)` with skopt's own class: a kernel of scikit-learn is taken for a number and wrapped in `ConstantKernel`.  (Read off the code; what scikit-learn then does is not modelled.)
* `Optimizer.copy()` without argument gives the copy NumPy's global generator, also if the original was seeded (optimizer.py:307-333): `ask` on the copy of a seeded optimizer is not reproducible.
* `transformers.py:262, 275` use `np.int`, which NumPy removed in version 1.24; the model is that of the older versions the package was written for.
