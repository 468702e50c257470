{"id": "C01", "title": "Pareto filter is exact", "statement": "is_pareto_efficient(F) flags index i iff no point of F dominates F[i] (componentwise <=, and different) and no earlier index holds the same objective vector; with return_mask=False it returns exactly those indices in increasing order.", "quantifier": "every finite array of objective vectors of any length and any number of objectives, including ties and duplicates", "why_tests_cant": "The loop shrinks the array while moving a cursor; a test samples a few fronts, the claim needs an invariant over every array and every position of the cursor.", "anchors": ["bayes_optim/utils/utils.py:is_pareto_efficient"]}
{"id": "C02", "title": "Non-domination mask for maximisation is exact", "statement": "is_non_dominated(Y, deduplicate=True) is True at i iff no row of Y dominates row i under maximisation and no earlier row equals row i; with deduplicate=False the second condition is dropped.", "quantifier": "every finite set of outcome vectors of any size and dimension", "why_tests_cant": "Quantifies over all point sets; ties are measure-zero for random tests.", "anchors": ["bayes_optim/utils/multi_objective/pareto.py:is_non_dominated"]}
{"id": "C03", "title": "Non-dominated sorting yields the true ranks", "statement": "fast_non_dominated_sort returns fronts that partition all indices, and index i is in front k iff the longest strict-domination chain ending in i has k predecessors; in particular front 0 is exactly the non-dominated set, and each later front is non-dominated after the earlier fronts are removed.", "quantifier": "every finite set of objective vectors, any number of objectives", "why_tests_cant": "Counter-decrement algorithm; correctness needs an invariant relating the counters to the set of already emitted points.", "anchors": ["bayes_optim/utils/multi_objective/pareto.py:fast_non_dominated_sort"]}
{"id": "C04", "title": "Two-objective front extraction keeps only non-dominated points", "statement": "non_dominated_set_2d returns indices of exactly the non-dominated points of the input, for both the minimisation and the maximisation flag.", "quantifier": "every finite set of 2-D points", "why_tests_cant": "Depends on tie behaviour of the sort; ties practically never occur in random tests.", "anchors": ["bayes_optim/utils/multi_objective/pareto.py:non_dominated_set_2d"]}
{"id": "C05", "title": "2-D non-dominated cells partition the improvement region", "statement": "For two maximised objectives, the hypercells reported by FastNondominatedPartitioning are pairwise disjoint (up to boundaries) and their union is exactly the set of outcome vectors above the reference point that are not dominated by an observed outcome.", "quantifier": "every Pareto set, every reference point, every outcome vector in the plane", "why_tests_cant": "A continuum of outcome vectors and unbounded fronts; a test can only probe finitely many.", "anchors": ["bayes_optim/utils/multi_objective/box_decompositions/utils.py:compute_non_dominated_hypercell_bounds_2d", "bayes_optim/utils/multi_objective/box_decompositions/non_dominated.py:FastNondominatedPartitioning"]}
{"id": "C06", "title": "2-D dominated cells partition the dominated region and sum to the hypervolume", "statement": "compute_dominated_hypercell_bounds_2d yields disjoint cells whose union is exactly the region above the reference point dominated by the front; the sum of cell areas is the hypervolume.", "quantifier": "every sorted 2-D front and reference point", "why_tests_cant": "Same continuum argument; floating-point tests compare a handful of known volumes.", "anchors": ["bayes_optim/utils/multi_objective/box_decompositions/utils.py:compute_dominated_hypercell_bounds_2d"]}
{"id": "C07", "title": "Local upper bounds characterise the non-dominated region in any dimension", "statement": "After FastPartitioning has processed any sequence of outcome vectors, a vector below the (minimisation) reference point is strictly below some local upper bound iff no processed vector weakly dominates it.", "quantifier": "every number of objectives m, every sequence of points, every query vector", "why_tests_cant": "Invariant over an unbounded sequence of incremental updates.", "anchors": ["bayes_optim/utils/multi_objective/box_decompositions/utils.py:compute_local_upper_bounds", "bayes_optim/utils/multi_objective/box_decompositions/utils.py:update_local_upper_bounds_incremental"]}
{"id": "C08", "title": "Exact hypervolume in two objectives", "statement": "HyperVolume(ref).compute(front) equals the area of the union of the boxes spanned by the front points and the reference point; points not better than the reference contribute nothing and point order does not matter.", "quantifier": "every finite multiset of 2-D points (dominated points and duplicates included) and every reference point", "why_tests_cant": "All point sets and permutations; a test knows only a few areas.", "anchors": ["bayes_optim/utils/multi_objective/hypervolume.py:HyperVolume.compute", "bayes_optim/utils/multi_objective/hypervolume.py:HyperVolume._hv_recursive"]}
{"id": "C09", "title": "Reflection repair always lands in the box and fixes interior points", "statement": "handle_box_constraint(x, lb, ub) returns coordinates in [lb, ub] whenever both bounds are finite and lb < ub, returns x unchanged in coordinates already inside [lb, ub], is idempotent, is invariant under reflection at a bound and under translation by twice the width, and leaves coordinates with an infinite bound untouched.", "quantifier": "every real x (arbitrarily far outside), every finite interval", "why_tests_cant": "Unbounded real inputs; off-by-one in the parity of the reflection shows only on some cells.", "anchors": ["bayes_optim/utils/utils.py:handle_box_constraint", "bayes_optim/surrogate/gaussian_process/boundary_handling.py:boundary_handling"]}
{"id": "C10", "title": "Evaluation budget", "statement": "opt.run() stops as soon as eval_count >= max_FEs: when run returns because of the budget, eval_count lies in [max_FEs, max_FEs + b - 1] where b is the size of the last batch, so with one point per iteration exactly max_FEs evaluations are made; eval_count always equals the number of points evaluated through non-warm tell calls.", "quantifier": "every objective, every sequence of batches proposed by ask, every budget", "why_tests_cant": "Loop over unbounded histories whose batch sizes depend on the model and on failures.", "anchors": ["bayes_optim/_base.py:BaseOptimizer.run", "bayes_optim/_base.py:BaseOptimizer.check_stop", "bayes_optim/base.py:BaseBO.tell"]}
{"id": "C11", "title": "Incumbent is the best recorded point", "statement": "After any history of tell calls, xopt (and recommend()) returns a recorded point whose objective value is the best (min or max according to minimize) among all recorded finite values, and the earliest such point on ties.", "quantifier": "every history of ask/tell calls, both optimisation directions", "why_tests_cant": "All histories.", "anchors": ["bayes_optim/_base.py:BaseOptimizer.xopt", "bayes_optim/_base.py:BaseOptimizer.recommend"]}
{"id": "C12", "title": "Convergence history is monotone and complete", "statement": "hist_f has one entry per completed non-warm tell, entry k is the best objective value among everything recorded up to that call, hence the history is monotone in the optimisation direction; iter_count equals its length.", "quantifier": "every history of tell calls including warm starts and calls that raise", "why_tests_cant": "Invariant over unbounded histories.", "anchors": ["bayes_optim/base.py:BaseBO.tell"]}
{"id": "C13", "title": "Every finite observation is recorded once, nothing else", "statement": "After any history, opt.data lists, in the order told, exactly the points told with a finite objective value paired with that value; NaN and infinite values never enter the data.", "quantifier": "every history of tell calls with arbitrary mixtures of finite, NaN and infinite values", "why_tests_cant": "All histories and failure patterns.", "anchors": ["bayes_optim/base.py:BaseBO.tell", "bayes_optim/base.py:BaseBO.post_eval_check"]}
{"id": "C14", "title": "ask honours the request size, the search space and fixed values", "statement": "ask(n, fixed) either raises AskEmptyError or returns between 1 and n points; every returned point has the full dimension, carries exactly the fixed values in the fixed coordinates and lies in the search space in the free coordinates.", "quantifier": "every model/acquisition behaviour, every sampler outcome, every n and fixed dictionary", "why_tests_cant": "The candidates come from stochastic optimisers and samplers: all outcomes must be covered.", "anchors": ["bayes_optim/base.py:BaseBO.ask", "bayes_optim/base.py:BaseBO.create_DoE", "bayes_optim/utils/utils.py:fillin_fixed_value"]}
{"id": "C15", "title": "Noiseless optimiser never re-proposes evaluated points", "statement": "For BO/ParallelBO every point returned by ask differs from every recorded point and from the other points of the same batch.", "quantifier": "every history and every candidate list", "why_tests_cant": "All histories; in-batch collisions depend on randomness.", "anchors": ["bayes_optim/bayes_opt.py:BO.pre_eval_check", "bayes_optim/base.py:BaseBO.ask", "bayes_optim/base.py:BaseBO.create_DoE"]}
{"id": "C16", "title": "Target value stops the run exactly when reached", "statement": "check_stop reports 'ftarget' iff the incumbent objective value is better than ftarget in the optimisation direction.", "quantifier": "every objective value and target, minimisation and maximisation", "why_tests_cant": "Universally quantified comparison in both directions.", "anchors": ["bayes_optim/_base.py:BaseOptimizer.check_stop", "bayes_optim/_base.py:BaseOptimizer._compare"]}
{"id": "C17", "title": "Samples belong to the search space", "statement": "Every point returned by search_space.sample(N) (no constraints) has one value per variable, in the variable order of the space, and each value is accepted by `in` on that variable.", "quantifier": "every mixed search space (real with any monotone scale, integer with step, categorical, bool, subset), every N, every random outcome", "why_tests_cant": "All random outcomes and all space shapes.", "anchors": ["bayes_optim/search_space/search_space.py:SearchSpace._sample", "bayes_optim/search_space/variable.py:Real.sample", "bayes_optim/search_space/variable.py:Integer.sample"]}
{"id": "C18", "title": "Constrained samples are feasible", "statement": "search_space.sample(N, h, g) returns at most N points and each satisfies |h(x)| <= tol for all equality and g(x) <= 0 for all inequality constraints.", "quantifier": "every pair of constraint functions, every sampler outcome", "why_tests_cant": "Depends on random walks; must hold on every outcome.", "anchors": ["bayes_optim/search_space/search_space.py:SearchSpace.sample", "bayes_optim/search_space/samplers.py:SCMC"]}
{"id": "C19", "title": "Rounding to a precision stays in bounds, is idempotent and does not touch its argument", "statement": "round(x) lies within the variable's bounds for every x, round(round(x)) = round(x), values without precision are returned unchanged, and if the bounds are representable the result is a multiple of 10^-precision.", "quantifier": "every real x, every precision and bounds", "why_tests_cant": "All reals and half-way cases.", "anchors": ["bayes_optim/search_space/variable.py:Real.round", "bayes_optim/search_space/search_space.py:SearchSpace.round"]}
{"id": "C20", "title": "Scale transforms invert each other on the domain", "statement": "For each scale (linear, log, log10, logit, bilog), to_linear_scale(transform(x)) = x for every x in the domain and transform is strictly increasing, so bounds map to bounds.", "quantifier": "every real in the domain of the transform", "why_tests_cant": "A continuum.", "anchors": ["bayes_optim/search_space/variable.py:TRANS", "bayes_optim/search_space/variable.py:INV_TRANS", "bayes_optim/search_space/variable.py:bilog"]}
{"id": "C21", "title": "Variable names of a space are unique", "statement": "After construction, addition, multiplication or concatenation all variable names in a search space are distinct and names that were already unique are kept.", "quantifier": "every list of variable names", "why_tests_cant": "Renaming can collide with existing names only for particular name patterns.", "anchors": ["bayes_optim/search_space/search_space.py:SearchSpace._check_data"]}
{"id": "C22", "title": "Type index sets partition the coordinates", "statement": "real_id, integer_id, discrete_id, ordinal_id, bool_id, subset_id are pairwise disjoint and together enumerate every coordinate exactly once; categorical_id is the union of the last four and categorical_mask agrees with categorical_id.", "quantifier": "every search space", "why_tests_cant": "All spaces.", "anchors": ["bayes_optim/search_space/search_space.py:SearchSpace._set_index"]}
{"id": "C23", "title": "Space algebra", "statement": "(A + B).data is A's variables then B's; len(A * N) = max(1,N)*len(A); A - B keeps, in order, exactly the variables of A whose name is not in B; filter(keys) and filter(keys, invert=True) split A; in-place variants agree with the pure ones.", "quantifier": "every pair of spaces and every multiplier", "why_tests_cant": "All spaces and multipliers.", "anchors": ["bayes_optim/search_space/search_space.py:SearchSpace.__add__", "bayes_optim/search_space/search_space.py:SearchSpace.__mul__", "bayes_optim/search_space/search_space.py:SearchSpace.__imul__", "bayes_optim/search_space/search_space.py:SearchSpace.__sub__", "bayes_optim/search_space/search_space.py:SearchSpace.filter"]}
{"id": "C24", "title": "Condition-tree surgery", "statement": "Node.remove(names, invert=True) keeps exactly the nodes all of whose ancestors and themselves are listed; Node.remove(names) drops exactly the listed nodes with their subtrees; deepcopy returns an equal tree.", "quantifier": "every finite tree and every set of names", "why_tests_cant": "Structural recursion over all trees.", "anchors": ["bayes_optim/search_space/node.py:Node.remove", "bayes_optim/search_space/node.py:Node.deepcopy"]}
{"id": "C25", "title": "Condition paths enumerate the tree", "statement": "Node.get_all_path maps each sequence of conditions to exactly the leaves reached from the root through these conditions, in pre-order, and has no other entry; get_all_name lists all names in pre-order.", "quantifier": "every finite tree", "why_tests_cant": "All trees.", "anchors": ["bayes_optim/search_space/node.py:Node.get_all_path", "bayes_optim/search_space/node.py:Node.get_all_name"]}
{"id": "C26", "title": "Solutions concatenate row-wise with their metadata", "statement": "For solutions a, b over the same variables, (a + b) has the rows of a followed by the rows of b, and fitness, n_eval and index of each row travel with it.", "quantifier": "every pair of solution sets, including different column orders of the same names", "why_tests_cant": "All sizes and column permutations.", "anchors": ["bayes_optim/solution.py:Solution.__add__"]}
{"id": "C27", "title": "Dictionary export/import of solutions round-trips", "statement": "Solution.from_dict(s.to_dict(orient='index')) has the same rows and variable names as s.", "quantifier": "every solution set", "why_tests_cant": "All shapes and values.", "anchors": ["bayes_optim/solution.py:Solution.to_dict", "bayes_optim/solution.py:Solution.from_dict"]}
{"id": "C28", "title": "unique keeps first occurrences in order", "statement": "s.unique() contains each distinct row of s exactly once, at the place of its first occurrence, with its metadata.", "quantifier": "every solution set", "why_tests_cant": "All multisets of rows.", "anchors": ["bayes_optim/solution.py:Solution.unique"]}
{"id": "C29", "title": "Constrained random walk never leaves the space", "statement": "At every step of the SCMC sampler every chain position satisfies the variable bounds (real, integer) or belongs to the level list (categorical).", "quantifier": "every proposal noise, every acceptance pattern, every number of steps", "why_tests_cant": "Unbounded Markov chain histories.", "anchors": ["bayes_optim/search_space/samplers.py:SCMC"]}
{"id": "C30", "title": "Restarted acquisition optimiser returns its best feasible restart", "statement": "argmax_restart returns ([], []) iff no restart produced a feasible point; otherwise the returned point is one of the feasible restart results with the largest value; it performs at most n_restart restarts, and stops early when the budget is exhausted or wait_iter feasible restarts brought no improvement.", "quantifier": "every sequence of restart outcomes", "why_tests_cant": "All outcome sequences of a stochastic inner optimiser.", "anchors": ["bayes_optim/acquisition/optim/__init__.py:argmax_restart"]}
{"id": "C31", "title": "MIES keeps its population valid and its best-so-far monotone", "statement": "Throughout MIES.optimize every individual stays in the search space, the best-so-far value never gets worse and eval_count = mu + lambda * generations.", "quantifier": "every random mutation/recombination outcome and objective", "why_tests_cant": "Unbounded stochastic runs.", "anchors": ["bayes_optim/acquisition/optim/mies.py:MIES"]}
{"id": "C32", "title": "(1+1)-CMA-ES is elitist and bounded", "statement": "Each asked point lies in the box; the parent's penalised value never gets worse; xopt is updated only by feasible improvements after the first evaluation.", "quantifier": "every mutation noise and objective/constraint values", "why_tests_cant": "Unbounded stochastic runs.", "anchors": ["bayes_optim/acquisition/optim/one_plus_one_cma_es.py:OnePlusOne_CMA"]}
{"id": "C33", "title": "Cholesky factor and its inverse stay consistent", "statement": "After every covariance update of OnePlusOne_Cholesky_CMA, A_inv is the inverse of A, and A*A^T equals ca*A*A^T + cb*pc*pc^T of the previous state.", "quantifier": "every dimension, every path vector, every number of updates", "why_tests_cant": "Invariant over unbounded update sequences in exact arithmetic.", "anchors": ["bayes_optim/acquisition/optim/one_plus_one_cma_es.py:OnePlusOne_Cholesky_CMA"]}
{"id": "C34", "title": "Dynamic penalty separates feasible from infeasible", "statement": "dynamic_penalty(x) = 0 iff every |h_i(x)| <= epsilon and every g_j(x) <= 0 (for t, C > 0); otherwise it is positive when minimising and negative when maximising, and its magnitude does not decrease with t.", "quantifier": "every constraint value vector and iteration number", "why_tests_cant": "All reals.", "anchors": ["bayes_optim/utils/utils.py:dynamic_penalty"]}
{"id": "C35", "title": "Annealing schedules hit the end temperature", "statement": "AnnealingBO with schedule 'exp' or 'linear' and t0 > tf > 0 has temperature t0 before the first iteration, tf after max_iter iterations, and a strictly decreasing sequence in between.", "quantifier": "every t0, tf, budget, DoE size and batch size", "why_tests_cant": "All parameters and iteration counts.", "anchors": ["bayes_optim/bayes_opt.py:AnnealingBO"]}
{"id": "C36", "title": "Acquisition values are direction-consistent", "statement": "For every acquisition function, minimising f and maximising -f rank candidates identically, and constructing the documented functions with default parameters succeeds.", "quantifier": "every predicted mean, standard deviation and plugin", "why_tests_cant": "All reals, both directions.", "anchors": ["bayes_optim/acquisition/acquisition_fun.py:UCB", "bayes_optim/acquisition/acquisition_fun.py:PI", "bayes_optim/acquisition/acquisition_fun.py:EI"]}
{"id": "C37", "title": "Fixed-variable wrapper evaluates the full point", "statement": "partial_argument(f, names, fixed)(x) calls f on the point that agrees with x on the free coordinates (in order) and with fixed on the fixed ones, for single points and for batches.", "quantifier": "every name list, fixed dictionary, point and batch size", "why_tests_cant": "All masks and batch sizes.", "anchors": ["bayes_optim/utils/utils.py:partial_argument", "bayes_optim/utils/utils.py:fillin_fixed_value"]}
{"id": "C38", "title": "save/load round-trip", "statement": "opt.save(f) leaves opt observably unchanged, even when serialisation fails, and load(f) returns an optimiser with the same data, counters, history and logger configuration.", "quantifier": "every optimiser state, every crash point of the serialiser", "why_tests_cant": "Crash points inside save.", "anchors": ["bayes_optim/base.py:BaseBO.save", "bayes_optim/base.py:BaseBO.load", "bayes_optim/utils/logger.py:dump_logger"]}
{"id": "C39", "title": "Daemon pid-file protocol", "statement": "start refuses when the recorded process is alive, stop is a no-op when nothing runs, and status reports running iff the pid-file names a live process.", "quantifier": "every pid-file content and process table", "why_tests_cant": "All file contents and process states.", "anchors": ["bayes_optim/utils/_daemon.py:Daemon"]}
{"id": "C40", "title": "Conditional optimiser visits every sub-space and stores complete points", "statement": "ConditionalBO.ask first proposes from each unconditional sub-space once; tell records for each point the value given for every active variable.", "quantifier": "every number of sub-spaces, every history, every value (including 0 and False)", "why_tests_cant": "All histories and values.", "anchors": ["bayes_optim/extension.py:ConditionalBO"]}
{"id": "C41", "title": "Trend basis sizes", "statement": "constant, linear and quadratic trends produce 1, n+1 and (n+1)(n+2)/2 regression columns, the quadratic columns being 1, x_i and x_i*x_j for i<=j once each.", "quantifier": "every dimension n and every sample", "why_tests_cant": "All dimensions.", "anchors": ["bayes_optim/surrogate/gaussian_process/trend.py"]}
{"id": "C42", "title": "PCA-BO search box contains the transformed domain", "statement": "Every point of the original box is mapped by PCA-BO's linear transformation into the box used for the acquisition search.", "quantifier": "every box, every orthonormal projection and centre", "why_tests_cant": "A continuum of points and projections.", "anchors": ["bayes_optim/extension.py:PCABO._compute_bounds"]}
{"id": "C43", "title": "Multi-objective evaluation keeps points and objectives aligned", "statement": "MOBO.evaluate(X)[i] = (f_1(X[i]), ..., f_m(X[i])), and xopt after any history is the set of recorded points not dominated by any recorded point.", "quantifier": "every batch, number of objectives and history", "why_tests_cant": "All histories.", "anchors": ["bayes_optim/mobo.py:MOBO.evaluate", "bayes_optim/mobo.py:MOBO.xopt"]}
{"id": "C44", "title": "Random-forest encoding and aggregation", "statement": "One-hot encoding is injective on the levels, width is the number of levels; the predicted mean is the mean of the trees and the predicted variance is non-negative and zero iff all trees agree.", "quantifier": "every level set and every list of tree predictions", "why_tests_cant": "All inputs.", "anchors": ["bayes_optim/surrogate/random_forest.py:RandomForest"]}
{"id": "C45", "title": "Search-space specification from a dictionary", "statement": "SearchSpace.from_dict builds, per entry, N variables of the declared type, range, default, step and conditions, without modifying the input, and rejects unknown types.", "quantifier": "every specification dictionary", "why_tests_cant": "All combinations of optional keys.", "anchors": ["bayes_optim/search_space/search_space.py:SearchSpace.from_dict"]}
{"id": "C46", "title": "Equality and hashing agree", "statement": "Equal variables have equal hashes, so set-based operations on spaces agree with equality.", "quantifier": "every pair of variables", "why_tests_cant": "All pairs.", "anchors": ["bayes_optim/search_space/variable.py:Variable.__eq__", "bayes_optim/search_space/variable.py:Real.__hash__"]}
{"id": "C47", "title": "Minimiser front end reports every trial point once", "statement": "fmin's last result lists all evaluated points, grouped by iteration, the first group being the initial design.", "quantifier": "every budget, batch size and DoE size", "why_tests_cant": "All histories.", "anchors": ["bayes_optim/__init__.py:fmin"]}
{"id": "C48", "title": "Warm start counts no evaluations", "statement": "Passing warm_data records the given points, leaves eval_count, iter_count and hist_f at zero, and the budget of the subsequent run is the full max_FEs.", "quantifier": "every warm data set and budget", "why_tests_cant": "All histories.", "anchors": ["bayes_optim/base.py:BaseBO.warm_data", "bayes_optim/base.py:BaseBO.tell"]}
{"id": "C49", "title": "Analytic expected hypervolume improvement factorises over cells", "statement": "The EHVI value equals the sum over non-dominated cells of the product over objectives of (psi difference + nu) and is permutation invariant in the cells.", "quantifier": "every number of cells and objectives", "why_tests_cant": "All sizes.", "anchors": ["bayes_optim/multi_objective/analytic.py:ExpectedHypervolumeImprovement.forward"]}
{"id": "C50", "title": "Proportional selection returns valid, distinct indices", "statement": "proportional_selection(perf, N) returns N indices in range; without replacement they are distinct; with unequal performances it never selects the worst one with positive random draw.", "quantifier": "every performance vector, N and random outcome", "why_tests_cant": "All random outcomes.", "anchors": ["bayes_optim/utils/utils.py:proportional_selection"]}
{"id": "C51", "title": "Evaluation counter of recorded points", "statement": "The n_eval of every row of opt.data is the number of times that point was evaluated (1 after one tell).", "quantifier": "every history of tell calls, both evaluation types", "why_tests_cant": "All histories.", "anchors": ["bayes_optim/base.py:BaseBO.tell", "bayes_optim/base.py:BaseBO._set_aux_vars"]}
{"id": "C52", "title": "Labels of recorded points", "statement": "Labels given to tell stay attached to their points, and the labels in opt.data identify the rows.", "quantifier": "every history of tell calls with or without labels", "why_tests_cant": "All histories.", "anchors": ["bayes_optim/base.py:BaseBO.tell", "bayes_optim/solution.py:Solution.__new__"]}
{"id": "C53", "title": "Data file mirrors the data", "statement": "When data_file is given, its content is the rows of opt.data in order.", "quantifier": "every history of tell calls, including calls that raise", "why_tests_cant": "All histories and failure points.", "anchors": ["bayes_optim/base.py:BaseBO.tell", "bayes_optim/solution.py:Solution.to_csv"]}
{"id": "C54", "title": "Flat objective detection", "statement": "tell raises FlatFitnessError exactly when more than five finite values are recorded and their standard deviation is at most 1e-8; the points are recorded nevertheless.", "quantifier": "every history and every batch of values", "why_tests_cant": "All value lists.", "anchors": ["bayes_optim/base.py:BaseBO.update_model", "bayes_optim/base.py:BaseBO.tell"]}
{"id": "C55", "title": "Seeding makes sampling reproducible", "statement": "Seeding the generator before a run makes the sampled points a function of the seed, and successive sample(N) calls on the same space draw new points.", "quantifier": "every space, seed, generator and number of calls", "why_tests_cant": "All spaces and all generator states.", "anchors": ["bayes_optim/search_space/search_space.py:SearchSpace.random_seed", "bayes_optim/search_space/search_space.py:SearchSpace._sample", "bayes_optim/search_space/search_space.py:SearchSpace.__getitem__"]}
{"id": "C56", "title": "Levels of categorical variables", "statement": "The levels of a categorical variable are the distinct given values in the order of first occurrence; a Subset variable ranges over exactly the non-empty sub-collections of its values, each once.", "quantifier": "every list of values", "why_tests_cant": "All lists.", "anchors": ["bayes_optim/search_space/variable.py:_Discrete.__init__", "bayes_optim/search_space/variable.py:Subset.__init__"]}
{"id": "C57", "title": "Condition trees survive the dictionary form", "statement": "Rebuilding a condition tree from its dictionary gives the same tree, and re-applying the structure of a space (as slicing and filtering do) does not change it.", "quantifier": "every condition tree and every space with conditions", "why_tests_cant": "All trees.", "anchors": ["bayes_optim/search_space/node.py:Node.from_dict", "bayes_optim/search_space/node.py:Node.to_dict", "bayes_optim/search_space/search_space.py:SearchSpace._set_structure"]}
{"id": "C58", "title": "Unconditional sub-spaces hold exactly the active variables", "statement": "SearchSpace.get_unconditional_subspace has one entry per combination of one root-to-leaf path per condition tree; the entry holds the unconditional variables and exactly the conditional variables that are active under its conditions.", "quantifier": "every space with conditions, every set iteration order", "why_tests_cant": "All trees and combinations of trees.", "anchors": ["bayes_optim/search_space/search_space.py:SearchSpace.get_unconditional_subspace", "bayes_optim/search_space/node.py:Node.get_all_path"]}
{"id": "C59", "title": "fmin reports the best point and the true counts", "statement": "fmin returns a point it evaluated or was given, with its value, such that no recorded value is smaller; the reported numbers of iterations and of function evaluations are the true ones.", "quantifier": "every objective, every x0/y0, every run", "why_tests_cant": "All objectives and run lengths.", "anchors": ["bayes_optim/__init__.py:fmin"]}
{"id": "C60", "title": "Solutions imported from dictionaries keep values under their names", "statement": "Solution.from_dict on a list of dictionaries with the same keys gives one row per dictionary, with the value of each key in the column of that key, whatever the order of the keys in each dictionary.", "quantifier": "every non-empty list of dictionaries with the same keys", "why_tests_cant": "All dictionaries and key orders.", "anchors": ["bayes_optim/solution.py:Solution.from_dict"]}
{"id": "C61", "title": "Label-keyed export keeps every row", "statement": "to_dict(orient='index', with_index=True) maps the label of every row to that row.", "quantifier": "every solution set", "why_tests_cant": "All solution sets, including those with repeated labels.", "anchors": ["bayes_optim/solution.py:Solution.to_dict"]}
{"id": "C62", "title": "Repeating a solution", "statement": "s * n is a set of n rows equal to the point, with its fitness and evaluation counter.", "quantifier": "every single solution and every n \u2265 1", "why_tests_cant": "All points and counts.", "anchors": ["bayes_optim/solution.py:Solution.__mul__"]}
{"id": "C63", "title": "Inner evolution strategy terminates within its budget", "statement": "MIES.optimize() returns after finitely many generations whatever random numbers are drawn, and the number of objective evaluations it makes exceeds max_eval by at most one generation of offspring.", "quantifier": "every search space, budget, population sizes, objective and random outcome", "why_tests_cant": "Termination and overshoot for every random outcome and every objective; a test runs one seed.", "anchors": ["bayes_optim/acquisition/optim/mies.py:MIES.optimize", "bayes_optim/acquisition/optim/mies.py:MIES.stop"]}
{"id": "C64", "title": "The (1+1)-CMA-ES respects its budgets", "statement": "OnePlusOne_CMA.run() terminates for every outcome of the mutations; it makes at most max_FEs evaluations when restarts are off and at most max_FEs + 2 otherwise, and it restarts at most n_restart times.", "quantifier": "every objective, budget, number of restarts, mutation noise and outcome of the stagnation tests", "why_tests_cant": "All schedules of stagnations and restarts; the interesting ones need rare stagnation patterns.", "anchors": ["bayes_optim/acquisition/optim/one_plus_one_cma_es.py:OnePlusOne_CMA.run", "bayes_optim/acquisition/optim/one_plus_one_cma_es.py:OnePlusOne_CMA.check_stop", "bayes_optim/acquisition/optim/one_plus_one_cma_es.py:OnePlusOne_CMA.restart"]}
{"id": "C65", "title": "Both variants of the (1+1)-CMA-ES adapt the same covariance", "statement": "Fed with the same steps and success rates, OnePlusOne_Cholesky_CMA represents exactly the covariance matrix that OnePlusOne_CMA stores, and that matrix stays symmetric positive definite.", "quantifier": "every dimension, admissible learning rates, and every sequence of steps and success rates", "why_tests_cant": "Equality of two implementations after unboundedly many updates; a test compares a few runs up to tolerance.", "anchors": ["bayes_optim/acquisition/optim/one_plus_one_cma_es.py:OnePlusOne_CMA._update_covariance", "bayes_optim/acquisition/optim/one_plus_one_cma_es.py:OnePlusOne_Cholesky_CMA._update_covariance"]}
{"id": "C66", "title": "Aggregated surrogates predict the weighted sum", "statement": "SurrogateAggregation(surrogates, weights=w).predict(X, eval_MSE=True) returns the weighted sum of the surrogates' means and the sum of their variances weighted by the squared weights, for every aggregation the constructor accepts; the variance is never negative.", "quantifier": "every number of surrogates, every weight vector, every prediction", "why_tests_cant": "All weights and predictions; both aggregation names.", "anchors": ["bayes_optim/surrogate/random_forest.py:SurrogateAggregation"]}
{"id": "C67", "title": "At most one daemon", "statement": "Whatever sequence of start and stop requests, normal exits, crashes and pid reuse occurs, at most one daemon process runs for a pid-file, and while it runs the pid-file names it, is_running reports it, and a further start is refused.", "quantifier": "every finite history of start, stop, exit, crash and foreign-process events", "why_tests_cant": "Histories and interleavings of several processes.", "anchors": ["bayes_optim/utils/_daemon.py:Daemon.start", "bayes_optim/utils/_daemon.py:Daemon.daemonize", "bayes_optim/utils/_daemon.py:Daemon.stop"]}
{"id": "C68", "title": "The log goes where the constructor was told", "statement": "An optimiser constructed with verbose and log_file logs to the console exactly if verbose is set and to exactly the given files, without changing the logging of any other optimiser.", "quantifier": "every logger name, set of log files and state of the logging registry", "why_tests_cant": "All registry states, including names already in use.", "anchors": ["bayes_optim/utils/logger.py:get_logger", "bayes_optim/_base.py:BaseOptimizer.__init__"]}
{"id": "C69", "title": "Hypervolume in any number of objectives", "statement": "Hypervolume(ref).compute(Y) returns the Lebesgue measure of the set of vectors that are at least as good as the reference point and weakly dominated by a row of Y, for any number of objectives; in particular the value does not depend on the order of the rows and adding a row never lowers it.", "quantifier": "every number of objectives and every finite list of rows", "why_tests_cant": "A dimension sweep with cached areas, bounds and skip marks: errors need special ties between rows and particular row orders.", "anchors": ["bayes_optim/utils/multi_objective/hypervolume.py:Hypervolume.compute", "bayes_optim/utils/multi_objective/hypervolume.py:Hypervolume._hv_recursive", "bayes_optim/utils/multi_objective/hypervolume.py:MultiList"]}
{"id": "C70", "title": "FastNondominatedPartitioning is exact for any number of objectives and any history of updates", "statement": "After any sequence of constructor and update() calls with outcomes of m >= 2 maximised objectives, pareto_Y holds exactly the outcomes that are better than the reference point and that no outcome dominates, each once, and every vector that is better than the reference point in all objectives and not equal to or dominated by an outcome seen so far lies in exactly one of the cells reported by get_hypercell_bounds(), any other vector in none (cells open below, closed above).", "quantifier": "every m >= 2, every sequence of batches of outcomes, every reference point, every treatment of ties by argsort, every vector", "why_tests_cant": "A continuum of vectors, unbounded histories and dimensions; special branches for two objectives, for an empty front and for incremental updates.", "anchors": ["bayes_optim/utils/multi_objective/box_decompositions/box_decomposition.py:FastPartitioning.update", "bayes_optim/utils/multi_objective/box_decompositions/non_dominated.py:FastNondominatedPartitioning", "bayes_optim/utils/multi_objective/box_decompositions/utils.py:get_partition_bounds"]}
{"id": "C71", "title": "NondominatedPartitioning is exact for any number of objectives and any history of updates", "statement": "After any sequence of constructor and update() calls, NondominatedPartitioning terminates and, with alpha = 0 (the default), every vector better than the reference point and not equal to or dominated by an outcome lies in exactly one cell of get_hypercell_bounds(), any other vector in none. With alpha > 0 no vector lies in two cells and only vectors of that region are covered.", "quantifier": "every number of objectives, every sequence of batches, every reference point and alpha, every treatment of ties by argsort and argmax, every vector", "why_tests_cant": "A data dependent stack of cells, a continuum of vectors, unbounded fronts.", "anchors": ["bayes_optim/utils/multi_objective/box_decompositions/non_dominated.py:NondominatedPartitioning", "bayes_optim/utils/multi_objective/box_decompositions/box_decomposition.py:BoxDecomposition.update"]}
{"id": "C72", "title": "compute_hypervolume of the partitionings is the hypervolume", "statement": "compute_hypervolume() of FastNondominatedPartitioning and of NondominatedPartitioning with alpha = 0 returns the Lebesgue measure of the region dominated by the outcomes and bounded by the reference point; with alpha > 0 the value of NondominatedPartitioning is never below it.", "quantifier": "every number of objectives, every sequence of batches, every reference point", "why_tests_cant": "A measure of a union of boxes, for all fronts; tests compare a few known volumes.", "anchors": ["bayes_optim/utils/multi_objective/box_decompositions/non_dominated.py:NondominatedPartitioning.compute_hypervolume", "bayes_optim/utils/multi_objective/box_decompositions/non_dominated.py:FastNondominatedPartitioning.compute_hypervolume"]}
{"id": "C73", "title": "Acquisition values are the expectations they are named after", "statement": "For a normal predictive law with the surrogate's mean and variance, EI returns E[max(improvement over the plugin, 0)], MGFI returns E[exp(t(improvement - 1)); improvement >= 0] with t cut off at 22.36, and EpsilonPI returns the probability that the outcome is not worse than the plugin by more than epsilon*|mean|, for minimisation and for maximisation.", "quantifier": "every mean, variance, plugin, parameter and both directions", "why_tests_cant": "A continuum of inputs, and the claim equates a closed formula with an integral.", "anchors": ["bayes_optim/acquisition/acquisition_fun.py:EI.__call__", "bayes_optim/acquisition/acquisition_fun.py:MGFI.__call__", "bayes_optim/acquisition/acquisition_fun.py:EpsilonPI.__call__"]}
{"id": "C74", "title": "A better prediction is not ranked lower", "statement": "Of two candidates with the same predicted uncertainty, the acquisition function does not give the one with the better predicted mean the lower value.", "quantifier": "every acquisition function, parameter, pair of predictions and both directions", "why_tests_cant": "All pairs of reals.", "anchors": ["bayes_optim/acquisition/acquisition_fun.py:UCB.__call__", "bayes_optim/acquisition/acquisition_fun.py:EI.__call__", "bayes_optim/acquisition/acquisition_fun.py:EpsilonPI.__call__", "bayes_optim/acquisition/acquisition_fun.py:MGFI.__call__"]}
{"id": "C75", "title": "Uncertainty is rewarded", "statement": "At the same predicted mean, a larger predicted variance never lowers EI or UCB.", "quantifier": "every mean, pair of variances, plugin and both directions", "why_tests_cant": "All pairs of reals, including those on both sides of the cut-off for small variances.", "anchors": ["bayes_optim/acquisition/acquisition_fun.py:EI.__call__", "bayes_optim/acquisition/acquisition_fun.py:UCB.__call__"]}
{"id": "C76", "title": "Acquisition gradients are derivatives of the returned values", "statement": "With return_dx=True the second result of every acquisition function is, coordinate by coordinate, the derivative of the first, given that the surrogate's gradients are the derivatives of its predictions, wherever the variance is positive and the value has no kink.", "quantifier": "every differentiable mean and variance, every point, parameter and both directions", "why_tests_cant": "A derivative is a statement about all nearby points.", "anchors": ["bayes_optim/acquisition/acquisition_fun.py:AcquisitionFunction._gradient", "bayes_optim/acquisition/acquisition_fun.py:EI.__call__", "bayes_optim/acquisition/acquisition_fun.py:MGFI.__call__"]}
{"id": "C77", "title": "The user's acquisition parameters are used", "statement": "The acquisition function optimised by ask has the parameters given as acquisition_par, and otherwise the defaults with the best standardised observation as plugin.", "quantifier": "every acquisition function, parameter dictionary and set of observations", "why_tests_cant": "All dictionaries and data.", "anchors": ["bayes_optim/base.py:BaseBO.arg_max_acquisition", "bayes_optim/base.py:BaseBO._create_acquisition", "bayes_optim/bayes_opt.py:BO._create_acquisition"]}
{"id": "C78", "title": "Batch strategies can always build their acquisition functions", "statement": "For every documented acquisition function, ParallelBO can be constructed and, whatever random numbers are drawn, builds one acquisition function with a valid parameter for each point of the batch.", "quantifier": "every acquisition function, parameter dictionary, batch size and sequence of random numbers", "why_tests_cant": "All random draws.", "anchors": ["bayes_optim/bayes_opt.py:ParallelBO.__init__", "bayes_optim/bayes_opt.py:ParallelBO._batch_arg_max_acquisition"]}
{"id": "C79", "title": "Acquisition functions evaluate arrays row by row", "statement": "An acquisition function called on an array of points returns the values it has at the rows, in order.", "quantifier": "every acquisition function and every number of rows", "why_tests_cant": "All sizes.", "anchors": ["bayes_optim/acquisition/acquisition_fun.py:AcquisitionFunction.check_X", "bayes_optim/acquisition/acquisition_fun.py:UCB.__call__", "bayes_optim/acquisition/acquisition_fun.py:EI.__call__"]}
{"id": "C80", "title": "The analytic EHVI is the expected gain in hypervolume", "statement": "For any history of outcomes given to the partitioning, the EHVI acquisition value at a point equals the expectation of the increase in hypervolume of one further outcome whose objectives are independent normals with the surrogate's means and variances; an approximate partitioning only underestimates it; and the constructor accepts every partitioning built with the same reference point.", "quantifier": "every number of objectives, history of outcomes, reference point, mean and variance vector", "why_tests_cant": "An integral over a continuum of outcomes, for every front.", "anchors": ["bayes_optim/multi_objective/analytic.py:EHVI", "bayes_optim/utils/multi_objective/box_decompositions/non_dominated.py:NondominatedPartitioning"]}
{"id": "C81", "title": "EHVI of several points is the EHVI of each", "statement": "Calling the EHVI acquisition on an array of points returns the value at each of the points.", "quantifier": "every number of points and cells", "why_tests_cant": "Depends on the number of cells, which changes with every front.", "anchors": ["bayes_optim/multi_objective/analytic.py:EHVI.forward"]}
{"id": "C82", "title": "Multi-objective evaluation and iteration counts", "statement": "After any sequence of calls of MOBO.tell, eval_count is the number of points told outside warm starts times the number of objectives, and iter_count and the length of hist_f are the number of such calls that returned.", "quantifier": "every sequence of calls, batch size and number of objectives", "why_tests_cant": "All histories.", "anchors": ["bayes_optim/mobo.py:BaseMOBO.tell"]}
{"id": "C83", "title": "Failed multi-objective evaluations are dropped and the run goes on", "statement": "When an objective value is nan or infinite, MOBO.tell drops that point, records the others and returns.", "quantifier": "every batch of outcomes and every position of a failed value", "why_tests_cant": "All failure patterns.", "anchors": ["bayes_optim/mobo.py:BaseMOBO.tell", "bayes_optim/base.py:BaseBO.post_eval_check"]}
{"id": "C84", "title": "The reference point is not better than recorded outcomes", "statement": "The reference point used for the hypervolume and for EHVI is, in every objective, not better than any recorded outcome, so that every non-dominated point counts.", "quantifier": "every data set and every choice of directions", "why_tests_cant": "All data sets.", "anchors": ["bayes_optim/mobo.py:BaseMOBO.ref_point", "bayes_optim/mobo.py:BaseMOBO.y"]}
{"id": "C85", "title": "Reduced coordinates survive the round trip", "statement": "For a fitted PCA-BO map with orthonormal components, mapping a reduced point to the original space and back returns it; an original point is recovered exactly when it is the image of a reduced point; and when no component is dropped every original point is recovered.", "quantifier": "every dimension, every fitted map and every point", "why_tests_cant": "Identities over all real matrices and points.", "anchors": ["bayes_optim/extension.py:LinearTransform.transform", "bayes_optim/extension.py:LinearTransform.inverse_transform"]}
{"id": "C86", "title": "PCA-BO weights rank the data", "statement": "The weights by which PCA-BO scales the data before the decomposition are not negative, sum to one, are equal for equal objective values and strictly larger for better ones, for minimisation and maximisation.", "quantifier": "every list of at least two objective values, including ties", "why_tests_cant": "All lists and all tie patterns.", "anchors": ["bayes_optim/extension.py:LinearTransform.fit"]}
{"id": "C87", "title": "The penalised acquisition is faithful inside and a distance outside", "statement": "In PCA-BO a reduced point whose image lies in the search space has the value of the acquisition function, any other has minus the distance of its image to the search space with the gradient of that value, and so a point outside is never preferred to a point inside.", "quantifier": "every fitted map, box, acquisition function and point", "why_tests_cant": "All maps and all real points.", "anchors": ["bayes_optim/extension.py:penalized_acquisition"]}
{"id": "C88", "title": "PCA-BO proposes points of the search space", "statement": "Every point returned by PCABO.ask lies in the search space the optimizer was created with.", "quantifier": "every history of at least two told points and every outcome of the inner optimisation", "why_tests_cant": "All histories and all results of a stochastic inner search.", "anchors": ["bayes_optim/extension.py:PCABO.ask", "bayes_optim/extension.py:PCABO._compute_bounds", "bayes_optim/extension.py:penalized_acquisition"]}
{"id": "C89", "title": "Correlations are normalised, bounded and decreasing", "statement": "Every correlation function of the Gaussian process is one for equal points, lies between zero and one, depends on the absolute coordinate differences only and does not grow when they grow.", "quantifier": "every correlation function, positive parameter vector, dimension and pair of points", "why_tests_cant": "All real points and parameters in any dimension.", "anchors": ["bayes_optim/surrogate/gaussian_process/kernel.py:matern", "bayes_optim/surrogate/gaussian_process/kernel.py:absolute_exponential", "bayes_optim/surrogate/gaussian_process/kernel.py:squared_exponential", "bayes_optim/surrogate/gaussian_process/kernel.py:generalized_exponential", "bayes_optim/surrogate/gaussian_process/kernel.py:cubic"]}
{"id": "C90", "title": "Fitted matrices are correlation matrices", "statement": "For any samples, also repeated ones, the correlation matrix built for the Matern (nu 0.5, 1.5, 2.5), squared, absolute and generalised (exponent at most two) exponential correlations is symmetric, has ones on the diagonal and is positive semidefinite; with a positive noise variance the matrix that is factorised is positive definite.", "quantifier": "every number of samples, dimension and positive parameter vector", "why_tests_cant": "Positive semidefiniteness is a statement about all configurations of points and all linear combinations.", "anchors": ["bayes_optim/surrogate/gaussian_process/gpr.py:GaussianProcess.correlation_matrix", "bayes_optim/surrogate/gaussian_process/gpr.py:l1_cross_distances", "bayes_optim/surrogate/gaussian_process/kernel.py:matern"]}
{"id": "C91", "title": "Every offered correlation is a valid covariance", "statement": "Every correlation function the constructor accepts, with every parameter within its documented range, gives positive semidefinite matrices for all samples.", "quantifier": "every correlation name, positive parameter vector and sample", "why_tests_cant": "All point configurations.", "anchors": ["bayes_optim/surrogate/gaussian_process/gpr.py:GaussianProcess._correlation_types", "bayes_optim/surrogate/gaussian_process/kernel.py:cubic", "bayes_optim/surrogate/gaussian_process/kernel.py:generalized_exponential"]}
{"id": "C92", "title": "A single correlation parameter works in any dimension", "statement": "Every correlation function accepts the documented isotropic parameter vector in any dimension, and its value equals that of the anisotropic form with the parameter repeated.", "quantifier": "every correlation function, dimension, parameter and pair of points", "why_tests_cant": "All dimensions and reals.", "anchors": ["bayes_optim/surrogate/gaussian_process/kernel.py:matern", "bayes_optim/surrogate/gaussian_process/kernel.py:generalized_exponential", "bayes_optim/surrogate/gaussian_process/kernel.py:cubic"]}
{"id": "C93", "title": "Correlation gradients are derivatives", "statement": "The array returned by corr_dx holds the derivatives of the correlations between a point and the samples in each coordinate of the point, and that of corr_Hessian the second derivatives.", "quantifier": "every correlation function, positive parameter vector, sample and point", "why_tests_cant": "A derivative is a statement about all nearby points.", "anchors": ["bayes_optim/surrogate/gaussian_process/gpr.py:GaussianProcess.corr_dx", "bayes_optim/surrogate/gaussian_process/gpr.py:GaussianProcess.corr_Hessian"]}
{"id": "C94", "title": "Parameter gradients of the correlation matrix are derivatives", "statement": "Entry [i, j, k] of corr_grad_theta is the derivative of entry [i, j] of the correlation matrix in the k-th parameter.", "quantifier": "every correlation function, positive parameter vector and sample", "why_tests_cant": "A derivative is a statement about all nearby parameters.", "anchors": ["bayes_optim/surrogate/gaussian_process/gpr.py:GaussianProcess.corr_grad_theta"]}
{"id": "C95", "title": "Without noise the Gaussian-process prediction is the best linear unbiased prediction and its error is reported correctly", "statement": "Fit a GaussianProcess with nugget 0 and predict with eval_MSE=True. For every process with the given correlation, the prediction is unbiased whatever the trend coefficients are, the returned MSE is the expected squared difference to the true value, and no other linear unbiased predictor (no affine one, if the trend is given) has a smaller expected squared difference.", "quantifier": "all sample sets, correlations, trends, observations, points, and all square-integrable processes with these first two moments", "why_tests_cant": "It is a statement about expectations under every process law and about all competing predictors.", "anchors": ["bayes_optim/surrogate/gaussian_process/gpr.py:GaussianProcess.predict", "bayes_optim/surrogate/gaussian_process/gpr.py:GaussianProcess._compute_aux_var", "bayes_optim/surrogate/gaussian_process/gpr.py:GaussianProcess.compute_beta_gamma"]}
{"id": "C96", "title": "With noisy observations the prediction is still the best one and its error is reported correctly", "statement": "Fit a GaussianProcess with a positive nugget (the default) and predict with eval_MSE=True. For every process observed with noise of that variance, the prediction is unbiased, the returned MSE is its expected squared error, and no linear unbiased predictor does better.", "quantifier": "all sample sets, correlations, variances, noise levels, observations and points", "why_tests_cant": "It is a statement about expectations under every process law and about all competing predictors.", "anchors": ["bayes_optim/surrogate/gaussian_process/gpr.py:GaussianProcess.predict", "bayes_optim/surrogate/gaussian_process/gpr.py:GaussianProcess.log_likelihood_concentrated"]}
{"id": "C97", "title": "Without noise the Gaussian process interpolates its data", "statement": "After fitting with nugget 0, predicting at any training point returns exactly the observation made there with MSE zero.", "quantifier": "all correlation functions and parameters, all trends (estimated or fixed), all sample sets for which the fit succeeds, all observations", "why_tests_cant": "Must hold for every data set; a test can look at a few only and cannot tell rounding from a wrong formula.", "anchors": ["bayes_optim/surrogate/gaussian_process/gpr.py:GaussianProcess.predict", "bayes_optim/surrogate/gaussian_process/gpr.py:GaussianProcess.correlation_matrix"]}
{"id": "C98", "title": "The predicted error is never negative and, with a known trend, never exceeds the process variance", "statement": "For every valid correlation function, noise-free fit and query point, the MSE is nonnegative before the code's cut-off at zero (so the cut-off only removes rounding errors), and with a fixed trend it is at most sigma2.", "quantifier": "all query points, sample sets, valid correlations and parameters, trends and observations", "why_tests_cant": "Ranges over all points and all sample sets.", "anchors": ["bayes_optim/surrogate/gaussian_process/gpr.py:GaussianProcess.predict"]}
{"id": "C99", "title": "More data never make the Gaussian process less certain", "statement": "With fixed hyper-parameters and nugget 0, if the samples of one model are among those of another, the MSE that the second returns is at most that of the first, at every point and whatever was observed.", "quantifier": "all pairs of nested sample sets, correlations, trends, observations and query points", "why_tests_cant": "It relates two models of unbounded size at every point of a continuum.", "anchors": ["bayes_optim/surrogate/gaussian_process/gpr.py:GaussianProcess.predict", "bayes_optim/surrogate/gaussian_process/gpr.py:GaussianProcess.update"]}
{"id": "C100", "title": "gradient() returns the derivatives of what predict() returns", "statement": "At every point, gradient(x) is the vector of partial derivatives of the predicted mean and of the predicted MSE (where it is positive).", "quantifier": "all points, sample sets, trends, parameters, observations, and the correlations for which gradients are offered", "why_tests_cant": "A derivative is a limit over a continuum of points; finite differences only sample it.", "anchors": ["bayes_optim/surrogate/gaussian_process/gpr.py:GaussianProcess.gradient", "bayes_optim/surrogate/gaussian_process/gpr.py:GaussianProcess.corr_dx"]}
{"id": "C101", "title": "The likelihood that hyper-parameters are chosen by is the maximal Gaussian likelihood", "statement": "For given correlation parameters, log_likelihood_concentrated returns, up to a constant that depends only on the numbers of samples and trend coefficients, the largest Gaussian log likelihood of the data over everything that is 'concentrated out': the process variance (when it is not a parameter) and the trend coefficients (when they are estimated).", "quantifier": "all data sets, correlation matrices, trends, noise levels and estimation modes for which a value is returned", "why_tests_cant": "It is a statement about a maximum over a continuum, for data sets of every size.", "anchors": ["bayes_optim/surrogate/gaussian_process/gpr.py:GaussianProcess.log_likelihood_concentrated"]}
{"id": "C102", "title": "Valid hyper-parameters are not rejected", "statement": "Whenever the correlation matrix is positive definite and the data are not fitted exactly by the trend, log_likelihood_concentrated returns a finite value.", "quantifier": "all data sets, in every unit of measurement, and all correlation parameters", "why_tests_cant": "Rejection depends on the scale of the observations, which tests fix.", "anchors": ["bayes_optim/surrogate/gaussian_process/gpr.py:GaussianProcess.log_likelihood_concentrated"]}
{"id": "C103", "title": "The gradient of the likelihood is its derivative", "statement": "log_likelihood_concentrated(..., eval_grad=True) returns the partial derivatives of the value it returns.", "quantifier": "all data sets, trends (given or estimated), estimation modes, parameters and the correlations for which gradients are offered", "why_tests_cant": "A derivative is a limit over a continuum of parameters, for matrices of every size.", "anchors": ["bayes_optim/surrogate/gaussian_process/gpr.py:GaussianProcess.log_likelihood_concentrated", "bayes_optim/surrogate/gaussian_process/gpr.py:GaussianProcess.corr_grad_theta"]}
{"id": "C104", "title": "The optimiser of the hyper-parameters receives the gradient of its objective", "statement": "The gradient that _optimize_hyperparameter hands to L-BFGS-B together with each objective value is the gradient of the objective in the variables that L-BFGS-B changes (the decimal logarithms of the parameters).", "quantifier": "all likelihood functions, parameter vectors and components", "why_tests_cant": "A derivative is a limit over a continuum; the optimiser merely converges more slowly, so that results look plausible.", "anchors": ["bayes_optim/surrogate/gaussian_process/gpr.py:GaussianProcess._optimize_hyperparameter"]}
{"id": "C105", "title": "The restarted hyper-parameter search returns the best parameters it met", "statement": "Of all local searches that the restart loop performs, the parameters with the best final likelihood are used, and the loop ends exactly when its documented limits (number of restarts, evaluations, searches without improvement) are reached.", "quantifier": "all numbers of restarts, budgets, patience settings and results of the local searches", "why_tests_cant": "The local searches start at random points; the loop must keep the best for every sequence of results.", "anchors": ["bayes_optim/surrogate/gaussian_process/gpr.py:GaussianProcess._optimize_hyperparameter"]}
{"id": "C106", "title": "fit() ends", "statement": "GaussianProcess.fit returns for all valid data: the loop that raises the nugget after an infinite likelihood is left after finitely many rounds.", "quantifier": "all data sets in every unit of measurement, trends, correlations and search results", "why_tests_cant": "Non-termination cannot be observed by a test, and whether it occurs depends on the scale of the data.", "anchors": ["bayes_optim/surrogate/gaussian_process/gpr.py:GaussianProcess.fit", "bayes_optim/surrogate/gaussian_process/gpr.py:GaussianProcess._optimize_hyperparameter"]}
{"id": "C107", "title": "Fitting a model again is like fitting a new one", "statement": "The settings under which fit(X, y) works do not depend on which data the same object was fitted to before.", "quantifier": "all histories of fits and data sets", "why_tests_cant": "It ranges over all histories of calls on one object.", "anchors": ["bayes_optim/surrogate/gaussian_process/gpr.py:GaussianProcess.fit"]}
{"id": "C108", "title": "The restricted likelihood is the likelihood of the error contrasts", "statement": "log_likelihood_restricted returns the Gaussian log density of a complete set of orthonormal contrasts of the observations, in which the unknown trend cancels (of the observations themselves if the trend is given).", "quantifier": "all data sets, correlation matrices, trends, variances and noise levels for which a value is returned", "why_tests_cant": "It equates two formulas for matrices of every size.", "anchors": ["bayes_optim/surrogate/gaussian_process/gpr.py:GaussianProcess.log_likelihood_restricted"]}
{"id": "C109", "title": "The gradient of the restricted likelihood is its derivative", "statement": "log_likelihood_restricted(..., eval_grad=True) returns the partial derivatives of the value it returns.", "quantifier": "all data sets, trends, variances, noise levels and correlation parameters", "why_tests_cant": "A derivative is a limit over a continuum of parameters, for matrices of every size.", "anchors": ["bayes_optim/surrogate/gaussian_process/gpr.py:GaussianProcess.log_likelihood_restricted"]}
{"id": "C110", "title": "The covariance adaptation keeps a valid search distribution", "statement": "For every dimension the recombination weights and learning rates of cma_es are proper, and after every number of generations the step size is positive, the covariance matrix is symmetric and positive definite, and offspring are drawn from (a recent version of) it.", "quantifier": "all dimensions, numbers of generations, random numbers, objectives and rankings", "why_tests_cant": "Degeneration of the matrix would show only after many generations of particular draws.", "anchors": ["bayes_optim/surrogate/gaussian_process/cma_es.py:cma_es.__init__", "bayes_optim/surrogate/gaussian_process/cma_es.py:cma_es.mutation", "bayes_optim/surrogate/gaussian_process/cma_es.py:cma_es.update", "bayes_optim/surrogate/gaussian_process/cma_es.py:cma_es.updateBD"]}
{"id": "C111", "title": "The covariance adaptation evaluates only points of its box", "statement": "Every point that cma_es evaluates or returns lies between the bounds.", "quantifier": "all bounds (in either order), start points in the box, random numbers and generations", "why_tests_cant": "The draws are unbounded random vectors.", "anchors": ["bayes_optim/surrogate/gaussian_process/cma_es.py:cma_es.constraint_handling", "bayes_optim/surrogate/gaussian_process/cma_es.py:cma_es.optimize", "bayes_optim/surrogate/gaussian_process/boundary_handling.py:boundary_handling"]}
{"id": "C112", "title": "The covariance adaptation reports the best point it evaluated", "statement": "After every generation xopt is an evaluated point, fopt is its value, no evaluated point is better, and evalcount is the number of evaluations.", "quantifier": "all objectives, random numbers, rankings with ties and numbers of generations", "why_tests_cant": "It ranges over all runs.", "anchors": ["bayes_optim/surrogate/gaussian_process/cma_es.py:cma_es.optimize", "bayes_optim/surrogate/gaussian_process/cma_es.py:cma_es.evaluation"]}
{"id": "C113", "title": "The covariance adaptation stops", "statement": "cma_es.optimize ends when the evaluation budget is used up or the target is reached.", "quantifier": "all objectives, budgets, targets and random numbers", "why_tests_cant": "Non-termination cannot be observed by a test.", "anchors": ["bayes_optim/surrogate/gaussian_process/cma_es.py:cma_es.optimize", "bayes_optim/surrogate/gaussian_process/cma_es.py:cma_es.check_stop_criteria"]}
{"id": "C114", "title": "The CMA option maximises the likelihood", "statement": "With optimizer='CMA' the parameters found have the largest likelihood of those tried.", "quantifier": "all likelihood functions, random numbers and numbers of generations", "why_tests_cant": "The result is a valid parameter vector in every case; only the comparison with all points tried shows the direction.", "anchors": ["bayes_optim/surrogate/gaussian_process/gpr.py:GaussianProcess._optimize_hyperparameter", "bayes_optim/surrogate/gaussian_process/cma_es.py:cma_es.__init__"]}
{"id": "C115", "title": "Gradients of the wrapped scikit-learn regressor", "statement": "GaussianProcessSklearn.gradient(X) returns, for every objective and every row of X, the partial derivatives of the mean and of the variance that predict returns there, after any history of fit and gradient calls.", "quantifier": "all training outcomes, histories of calls, numbers of variables, objectives and rows, all points (training points included)", "why_tests_cant": "Finite differences at sample points do not reach training points, stale caches or the degenerate shapes; the claim is about all real inputs.", "anchors": ["bayes_optim/surrogate/gaussian_process/__init__.py:GaussianProcessSklearn.gradient", "bayes_optim/surrogate/gaussian_process/__init__.py:GaussianProcessSklearn.kernel_dx", "bayes_optim/surrogate/gaussian_process/__init__.py:GaussianProcessSklearn.predict"]}
{"id": "C116", "title": "Fitting the wrapped scikit-learn regressor", "statement": "After a call of GaussianProcessSklearn.fit that returns, objective i is predicted by the regressor trained on column i, with a variance that is never smaller than the fitted noise; a call that raises leaves the previous model in place.", "quantifier": "all data, numbers of objectives, training routines that may raise, and points", "why_tests_cant": "The lower bound of the variance needs the kernel to be positive semidefinite for every set of points; the second half ranges over the points at which training raises.", "anchors": ["bayes_optim/surrogate/gaussian_process/__init__.py:GaussianProcessSklearn.fit", "bayes_optim/surrogate/gaussian_process/__init__.py:GaussianProcessSklearn._check_dims", "bayes_optim/surrogate/gaussian_process/__init__.py:GaussianProcessSklearn.predict"]}
{"id": "C117", "title": "The attributes of a search space agree with its variables after every edit", "statement": "After any sequence of item assignments, pop, remove, +=, -=, *= and renaming, the names, types, bounds and per-type index arrays of a search space are those of its current variables, its class is the one for spaces of their common type (so sampling works), and pop and remove take out exactly the addressed variable.", "quantifier": "every list of variables and every finite history of editing calls, including calls that raise", "why_tests_cant": "The attributes are cached and refreshed by some of the methods only; tests use a few short edit sequences.", "anchors": ["bayes_optim/search_space/search_space.py:SearchSpace._set_data", "bayes_optim/search_space/search_space.py:SearchSpace.__setitem__", "bayes_optim/search_space/search_space.py:SearchSpace.pop", "bayes_optim/search_space/search_space.py:SearchSpace.remove", "bayes_optim/search_space/search_space.py:SearchSpace.__set_type"]}
{"id": "C118", "title": "A list or dictionary is in a search space iff it is a point of it", "statement": "`item in space` holds for a list exactly when it has one entry per variable and every entry belongs to its variable (in the bounds and whole for an integer variable, one of the levels for a categorical one), and for a dictionary exactly when its keys are the variable names and every value belongs to the variable named.", "quantifier": "every space and every list or dictionary of numbers, strings and tuples", "why_tests_cant": "Membership ranges over all values and all spaces; tests try some members.", "anchors": ["bayes_optim/search_space/search_space.py:SearchSpace.__contains__", "bayes_optim/search_space/variable.py:Real.__contains__", "bayes_optim/search_space/variable.py:Integer.__contains__", "bayes_optim/search_space/variable.py:Discrete.__contains__"]}
{"id": "C119", "title": "Rows keep their fitness, evaluation count and label under indexing", "statement": "Indexing a solution set \u2014 by a row position, by any chain of slices, by a list of positions, or by a column \u2014 gives the rows (columns) asked for, each row with its own fitness, evaluation count and label. This fails for the position -1: x[-1] has the last row but no fitness, count and label, and x[:, -1] has no column at all.", "quantifier": "every solution set that is a view of stored attributes, every row/column position other than -1, every chain of slices with every start, stop and positive step, every list of positions", "why_tests_cant": "Indices, slices with negative or overlong bounds, and chains of slices are unbounded; the failure is at a single position.", "anchors": ["bayes_optim/solution.py:Solution.__getitem__", "bayes_optim/solution.py:Solution.__array_finalize__"]}
{"id": "C120", "title": "Setting the fitness of a slice sets it in the whole; a selection or a copy is separate", "statement": "Setting the fitness of a slice of a slice ... of x sets the fitness of exactly these rows of x, leaves every other row and every other attribute as it is; setting the fitness of a selection by a list leaves x as it is. A copy should behave like a selection, but it shares the attributes: setting the fitness of a copy changes the original.", "quantifier": "every solution set, every chain of slices, every list of positions, every list of values of the right length", "why_tests_cant": "Sharing shows only when the alias is written through and the original read; which rows alias depends on the whole chain of slices.", "anchors": ["bayes_optim/solution.py:Solution.__getitem__", "bayes_optim/solution.py:Solution.__setattr__", "bayes_optim/solution.py:Solution.__array_finalize__"]}
{"id": "C121", "title": "A CSV export holds exactly the solutions written", "statement": "After any history of to_csv calls on one file, reading the file back line by line and cell by cell gives exactly the label, values, evaluation count and fitness of every solution written since the last call that does not append, in order; in particular the optimiser's data file holds one line per observation told. A call that raises leaves the file as it was. This fails when a value contains the delimiter (two different solutions give the same file), and exporting one row taken out of a set with several objectives raises.", "quantifier": "every history of calls with every combination of append, header, index and attribute, every solution set, every text representation without delimiter and newline", "why_tests_cant": "Histories of appends and cell contents are unbounded; ambiguity shows only for particular values.", "anchors": ["bayes_optim/solution.py:Solution.to_csv", "bayes_optim/base.py:BaseOptimizer.tell"]}
{"id": "C122", "title": "Dictionaries of columns keep every value", "statement": "to_dict(orient='var') gives under every variable name its values in the order of the rows, and with_index=True under every variable name and label the value of that row. Names or labels that occur twice lose values; labels repeat as soon as two sets are added.", "quantifier": "every solution set with distinct names (and distinct labels), every variable and row", "why_tests_cant": "Sizes are unbounded and the loss depends on coincidences of labels.", "anchors": ["bayes_optim/solution.py:Solution.to_dict"]}
{"id": "C123", "title": "Every row of the constrained sampler follows the Metropolis rule on its own", "statement": "In the constrained sampler the log probabilities carried along are those of the current rows after any number of steps, and a row takes a proposed coordinate iff its random number is at most the ratio of the densities of the two points; an uphill move is always taken. This fails when another row improves by more than about 710 in log probability: then every row takes its proposal, also a feasible row whose proposal violates the constraints.", "quantifier": "every log posterior, table of rows, proposal, random numbers and number of steps", "why_tests_cant": "Overflow in one row changes the acceptance of others only for particular batches; the cache must agree over every history of acceptances.", "anchors": ["bayes_optim/search_space/samplers.py:SCMC._metropolis_hastings", "bayes_optim/search_space/samplers.py:SCMC._log_posterior"]}
{"id": "C124", "title": "The acceptance rule of the constrained sampler is in detailed balance and keeps feasible points", "statement": "With a uniform random number the density of a point times the probability of taking the move to another is symmetric in the two points; in the last stage a feasible point is left for one that violates a constraint by more than the tolerance with probability at most 2^K Phi(-8); the scale goes down strictly from 10 to an eighth of the tolerance.", "quantifier": "every pair of log probabilities, every list of constraints, every pair of points, every tolerance below 80", "why_tests_cant": "These are statements about probabilities, not about outcomes of single draws.", "anchors": ["bayes_optim/search_space/samplers.py:SCMC._metropolis_hastings", "bayes_optim/search_space/samplers.py:SCMC._log_posterior", "bayes_optim/search_space/samplers.py:SCMC.__init__"]}
{"id": "C125", "title": "The objective handed to the gradient-based search is the acquisition function with a penalty", "statement": "Every call returns the negated acquisition value and gradient, plus - with constraints - (10+k)/2 times the violation in the k-th call and its central differences. The penalty vanishes exactly at feasible points (equalities up to a tenth), so value and gradient are exact in the interior of the feasible region, and the value reported for a point accepted as feasible is the acquisition value. The central differences are within M d^2/6 of the partial derivatives. But the objective is not a function of the point: at an infeasible point every later call returns a larger value.", "quantifier": "every acquisition function, constraint functions, run of calls, and point", "why_tests_cant": "Runs are unbounded and the penalty changes with every call; exactness concerns all points.", "anchors": ["bayes_optim/acquisition/optim/__init__.py:Penalized", "bayes_optim/acquisition/optim/__init__.py:finite_difference"]}
{"id": "C126", "title": "Typed spaces have one variable per pair of bounds, with its own name and options", "statement": "Constructing a space of one type (real, integer, ordinal, discrete, subset) from a list of bounds creates exactly one variable per entry, in the given order, all of that type, each with its own bounds, name and options; a single name is numbered when there are several variables, a single option value counts for all of them, and a wrong number of names or option values raises instead of building a space.", "quantifier": "every list of bounds, every name argument, every combination of optional arguments given as one value or as a list, every variable type, and any rule for which single variables are accepted", "why_tests_cant": "the arguments are overloaded (a tuple may mean one value or one per variable, a string is iterable), so tests sample a few shapes of an unbounded set of argument shapes", "anchors": ["bayes_optim/search_space/search_space.py: SearchSpace._ready_args, RealSpace, SubsetSpace, IntegerSpace, OrdinalSpace, DiscreteSpace, BoolSpace"]}
{"id": "C127", "title": "The acquisition search is configured to fit the space, the model and the constraints", "statement": "Without a named optimiser, every optimiser object searches its acquisition function with the method that suits its space, model and constraints (gradients for real spaces with a differentiable single-objective model and no constraints, a (1+1)-CMA-ES for other real spaces, a mixed-integer strategy otherwise), also when variables are fixed, and gradients of the acquisition function are computed exactly when that method uses them. Budgets are the numbers given, as integers, or the documented defaults; a named optimiser that does not exist or does not fit is rejected or replaced by one that works.", "quantifier": "every search space, model, number of objectives, set of constraints, set of fixed variables and every dictionary of options, numbers given as numbers or text", "why_tests_cant": "the configuration depends on six independent features and on texts that are evaluated; tests exercise the few combinations in the examples", "anchors": ["bayes_optim/base.py: BaseBO._set_internal_optimization, __set_argmax, arg_max_acquisition", "bayes_optim/acquisition/optim/option.py", "bayes_optim/acquisition/optim/__init__.py: argmax_restart", "bayes_optim/utils/utils.py: arg_to_int"]}
{"id": "C128", "title": "The user's constraint functions receive the candidate itself", "statement": "A constraint function given by the user is called exactly on the candidate in question, as a list or as a dictionary from the variable names to its values as chosen by eval_type, with fixed variables filled in; for several candidates its values come in the order of the candidates, and an exception of the function is passed on.", "quantifier": "every constraint function, list of names, candidate or batch of candidates of any values (numbers, words, subsets), every set of fixed variables", "why_tests_cant": "numpy's conversion of nested lists depends on the lengths of tuples among the values, so only special data show the difference", "anchors": ["bayes_optim/utils/utils.py: func_with_list_arg, partial_argument", "bayes_optim/base.py: BaseBO._set_internal_optimization, __set_argmax"]}
{"id": "C129", "title": "Batch strategies give one candidate per criterion, with valid parameters", "statement": "A batch strategy asked for n points builds n acquisition functions, each in the user's direction with a freshly drawn, valid parameter (the strategy with several criteria alternates between them), and returns one candidate and one value for each, in that order, for every outcome of the random numbers and of the searches.", "quantifier": "every batch size, every sequence of normal random numbers, every outcome of the inner searches, both directions", "why_tests_cant": "parameters are drawn at random from unbounded distributions; a test sees a few draws", "anchors": ["bayes_optim/extension.py: MultiAcquisitionBO", "bayes_optim/bayes_opt.py: SelfAdaptiveBO, ParallelBO._batch_arg_max_acquisition"]}
{"id": "C130", "title": "Hessian() returns the second derivatives of the predicted mean", "statement": "For a fitted Gaussian process, Hessian(x) is the symmetric matrix of second partial derivatives of the mean that predict() returns, at every point x, for every offered correlation and trend.", "quantifier": "every correlation, trend, set of samples and observations, fitted state and point, samples included", "why_tests_cant": "finite differences at sampled points cannot establish a derivative everywhere; the failures sit at single points (the samples)", "anchors": ["bayes_optim/surrogate/gaussian_process/gpr.py: GaussianProcess.Hessian, corr_Hessian", "bayes_optim/surrogate/gaussian_process/trend.py: Hessian"]}
{"id": "C131", "title": "Accuracy scores are standardised and leave their arguments alone", "statement": "SMSE is the mean squared error in units of the variance of the targets: never negative, zero exactly for perfect predictions, one for the constant prediction of the mean and more for any other constant, and independent of the units. MSLL is the average log loss of the predicted normal distributions less that of the normal distribution with the mean and variance of the training targets: zero for that trivial prediction, lower for predictions closer to the targets, least for variances equal to the squared errors, independent of the units. Neither changes its arguments.", "quantifier": "every list of targets that are not all equal, predictions, variances and changes of units", "why_tests_cant": "the scores are compared across data sets, so their normalisation must hold for all data; a test has a few numbers", "anchors": ["bayes_optim/surrogate/gaussian_process/utils.py: SMSE, MSLL"]}
{"id": "C132", "title": "Meaningless settings of a Gaussian process are rejected, documented ones work", "statement": "A Gaussian process built with documented settings (correlation, likelihood, trend, optimiser, bounds) can be fitted to every data set with enough samples; settings without a meaning (starting points outside the bounds, negative noise, unknown names) raise when it is built or fitted.", "quantifier": "every combination of settings, number of samples and number of features", "why_tests_cant": "the settings combine; most combinations are never tried by a test, and several documented ones raise only inside fit", "anchors": ["bayes_optim/surrogate/gaussian_process/gpr.py: GaussianProcess.__init__, _check_params, fit"]}
{"id": "C133", "title": "The hyper-parameter search starts, stays and ends within the given bounds", "statement": "The correlation parameters set by fit are as many as the bounds and lie between them; the process variance lies in its range and the share of the process in the variance strictly between zero and one. The search starts within its box when the given starting point does, and the result of one fit is a valid start for the next.", "quantifier": "every setting that passes the checks, every scale of the observations, every result of a bounded search, every random start", "why_tests_cant": "the parameters are slices of a vector on a logarithmic scale whose layout depends on the settings; a wrong slice gives plausible numbers", "anchors": ["bayes_optim/surrogate/gaussian_process/gpr.py: GaussianProcess._optimize_hyperparameter, fit"]}
{"id": "C134", "title": "prior_cov() is the covariance of the process before any data", "statement": "prior_cov(X1, X2) has as entry [i, j] the process variance times the correlation of X1[i] and X2[j], or that correlation itself with corr=True; with X2 left out the matrix is symmetric, has the variance on its diagonal and gives no linear combination a negative variance.", "quantifier": "every correlation, parameters, sets of points (lists or arrays), one or several targets", "why_tests_cant": "the claim is about all pairs of points and all linear combinations; the failures depend on the type and value of the second argument", "anchors": ["bayes_optim/surrogate/gaussian_process/gpr.py: GaussianProcess.prior_cov"]}
{"id": "C135", "title": "Every sampling method of the CMA-ES draws the announced number of offspring with the announced symmetry", "statement": "Each of the sampling methods 1 to 8 of the CMA-ES produces lambda offspring per generation; the mirrored methods produce them in pairs that are symmetric about the mean, the orthogonal methods in orthogonal groups, and the derandomised methods make use of every random number once.", "quantifier": "every method, dimension, population size and sequence of random draws", "why_tests_cant": "the numbers drawn vary with the generation and with parity of the population size; symmetry must hold for all random draws", "anchors": ["bayes_optim/surrogate/gaussian_process/cma_es.py: cma_es.mutation"]}
{"id": "C136", "title": "The (1+1)-CMA-ES stops when it no longer makes progress", "statement": "With a positive tolerance and an objective that is bounded on the box, run() returns after a number of steps that depends only on the dimension, the tolerance and the range of the objective, whatever is drawn, with or without restarts and without an evaluation budget.", "quantifier": "every bounded objective, penalty, tolerance, number of restarts, dimension and sequence of random draws", "why_tests_cant": "termination without a budget is a statement about infinitely long executions", "anchors": ["bayes_optim/acquisition/optim/one_plus_one_cma_es.py: OnePlusOne_CMA.run, check_stop, restart, tell"]}
{"id": "C137", "title": "The step size of the (1+1)-CMA-ES follows the success rule and stays in its range", "statement": "In every state of every run the success rate lies in [0, 1] and the step size is positive and in [1e-8, 1e8]; a success raises the rate and a failure lowers it, and the step size grows exactly when the rate exceeds its target and shrinks exactly when it is below, unless it is reset.", "quantifier": "every history of successes and failures, every objective, penalty and failure of the factorisation", "why_tests_cant": "an invariant over unboundedly long histories with real-valued state", "anchors": ["bayes_optim/acquisition/optim/one_plus_one_cma_es.py: OnePlusOne_CMA._update_step_size, _handle_exception, check_stop"]}
{"id": "C138", "title": "The restarts of the acquisition search are different searches", "statement": "Each restart of the maximisation of an acquisition function searches anew from its own random numbers, which come from the generator the user has seeded, so that more restarts can find better points.", "quantifier": "every objective, box, budget, number of restarts, generator and state of the generator", "why_tests_cant": "the claim compares all executions that differ in the state of the generator; one run with one seed cannot show that the seed is ignored", "anchors": ["bayes_optim/acquisition/optim/__init__.py: argmax_restart", "bayes_optim/acquisition/optim/one_plus_one_cma_es.py: OnePlusOne_CMA.__init__, random_seed"]}
{"id": "C139", "title": "PCA-BO records what it is told", "statement": "After any sequence of tell() calls, the stored data of PCA-BO are the told points with finite values in the order told, each call counts its points and itself once, xopt is the best of the stored points, the labels of the records are distinct and follow the order of evaluation, hist_f has one entry per call, points may be given as dictionaries and warm-start data may be given to the constructor.", "quantifier": "every history of tell() calls with any mix of finite and failed evaluations, any outcome of the PCA fit, any error raised half way", "why_tests_cant": "an invariant over unboundedly long histories, including calls that raise after part of their updates", "anchors": ["bayes_optim/extension.py: PCABO.tell, PCABO.xopt, PCABO.__init__", "bayes_optim/_base.py: BaseOptimizer.__init__"]}
{"id": "C140", "title": "Counts, budgets and seeds given to the constructor are used as given, meaningless ones are rejected", "statement": "DoE_size, max_FEs, n_point and random_seed given to the constructor are used as given when they are meaningful and rejected with an error when they are not; the number of points per proposal and of parallel jobs is at least one.", "quantifier": "every integer, float, None, bool or text given as one of these arguments and every dimension", "why_tests_cant": "the arguments range over all numbers; errors show at boundary values (zero, negative, fractional) that tests do not try", "anchors": ["bayes_optim/_base.py: BaseOptimizer.__init__, random_seed", "bayes_optim/base.py: BaseBO.__init__, DoE_size, ask"]}
{"id": "C141", "title": "Evaluation in parallel gives the same results as one after the other", "statement": "The values returned by evaluate() are those of the points in the order proposed, in parallel as in sequence, whatever order the tasks finish in; a run with parallel evaluation records the same observations as a sequential run; a user's own parallel function must return one value per point or the run stops with an error.", "quantifier": "every objective, list of points, number of jobs, order in which the tasks finish and number of steps", "why_tests_cant": "the claim is over all schedules of concurrent tasks; a test sees one schedule", "anchors": ["bayes_optim/_base.py: BaseOptimizer.evaluate, BaseOptimizer.run", "bayes_optim/base.py: BaseBO.step"]}
{"id": "C142", "title": "A multi-objective optimiser that accepts its arguments can propose points", "statement": "MOBO and MOBO_qEHVI check that there are at least two objectives with one direction each; with every surrogate, space and constraints they accept, each model-based proposal runs a search suited to several objectives and returns the number of points asked for.", "quantifier": "every space, surrogate with or without gradient, constraints, options, number of points, fixed variables and expected-improvement values", "why_tests_cant": "the combinations of space, surrogate, constraints and options are unbounded, and the tests name the optimiser explicitly", "anchors": ["bayes_optim/mobo.py: BaseMOBO.__init__, _check_obj_fun, _check_minimize, MOBO._create_acquisition, MOBO_qEHVI", "bayes_optim/base.py: BaseBO._set_internal_optimization, arg_max_acquisition", "bayes_optim/acquisition/optim/__init__.py: Penalized.__call__"]}
{"id": "C143", "title": "The conditional optimiser records what it is told", "statement": "After any sequence of tell() calls the data of ConditionalBO are the told points with finite values in the order told, every sub-optimiser holds those of its own proposals, every evaluation is counted once unless it is a warm start, hist_f has the best value so far for each call, and a failed evaluation is dropped without an error.", "quantifier": "every history of tell() calls, any assignment of points to sub-spaces, any mix of finite and failed evaluations, calls that raise", "why_tests_cant": "an invariant over unboundedly long histories of a composite state, including calls that raise after part of their updates", "anchors": ["bayes_optim/extension.py: ConditionalBO.tell", "bayes_optim/base.py: BaseBO.tell, update_model, post_eval_check"]}
{"id": "C144", "title": "The acquisition search and ask() stay in the search space, all parts together", "statement": "Every restart of the acquisition search returns, whichever of its three optimisers is used, and gives a point of the space of the variables that are not fixed; and whenever ask() returns, it gives between one and the requested number of points, each a point of the search space that carries the fixed values.", "quantifier": "every space, every acquisition function, all random numbers, every choice of optimiser, restarts, budget, constraints, fixed values, recorded data and number of points", "why_tests_cant": "the statement composes five components (sampler, random walk, MIES, (1+1)-CMA-ES, duplicate filter) whose inputs and random outcomes are unbounded", "anchors": ["bayes_optim/base.py: BaseBO.ask, create_DoE, arg_max_acquisition, _argmax_restart", "bayes_optim/acquisition/optim/__init__.py: argmax_restart", "bayes_optim/acquisition/optim/mies.py: MIES", "bayes_optim/acquisition/optim/one_plus_one_cma_es.py: OnePlusOne_CMA", "bayes_optim/search_space/search_space.py: SearchSpace.sample"]}
{"id": "C145", "title": "Points proposed under constraints satisfy them", "statement": "Every point that ask() returns satisfies the user's inequality constraints, and the equality constraints up to the tolerance of the component that found it, also when variables are fixed and real variables have a precision.", "quantifier": "every pair of constraint functions, every space, fixed values, data and random outcome", "why_tests_cant": "constraint functions and random outcomes are unbounded; tests use one constraint and continuous variables", "anchors": ["bayes_optim/base.py: BaseBO.ask, create_DoE", "bayes_optim/acquisition/optim/__init__.py: argmax_restart", "bayes_optim/search_space/search_space.py: SearchSpace.sample, round"]}
{"id": "C146", "title": "A whole run evaluates proper points, keeps its budget and returns the best of them", "statement": "In every run, at every moment, each point given to the objective lies in the search space, respects the constraints and differs from the points evaluated in earlier steps; the counter is the number of calls; with budget m the run ends, without a target only after m calls, and never makes more than m - 1 calls plus one batch (m calls if points are proposed one at a time and the design fits); the solution returned is a point that was evaluated, with its value, and no finite value seen is better.", "quantifier": "every space, objective (also noisy or failing), constraints, random outcomes, surrogate failures and number of steps", "why_tests_cant": "it is a statement about all executions of the loop with all its components; a test runs one seed for a few steps", "anchors": ["bayes_optim/_base.py: BaseOptimizer.run, check_stop, xopt", "bayes_optim/base.py: BaseBO.step, ask, evaluate, tell"]}
{"id": "C147", "title": "Samples are uniform over the space", "statement": "sample(N) with uniformly distributed draws returns N independent points whose coordinates are independent and uniform: a real variable lies in any part of its range with the probability of that part's share on the variable's scale, a value of an integer, ordinal, discrete, boolean or subset variable has the same probability as any other value of that variable, and different variables do not determine each other.", "quantifier": "all variables, ranges, scales, precisions, steps, level lists, spaces, numbers of points, parts of the ranges, seeds", "why_tests_cant": "A probability over a continuum of draws; a test sees a finite sample and a statistical tolerance, not the measure of the set of draws.", "anchors": ["bayes_optim/search_space/search_space.py:SearchSpace.sample", "bayes_optim/search_space/search_space.py:RealSpace._sample", "bayes_optim/search_space/search_space.py:_DiscreteSpace._sample", "bayes_optim/search_space/variable.py:_Discrete.sample"]}
{"id": "C148", "title": "Prediction in batches equals prediction in one go", "statement": "GaussianProcess.predict(X, batch_size=b) returns, for every positive integer b, the same predictions as predict(X), for every set of points and number of targets.", "quantifier": "all lists of points, numbers of targets, batch sizes of any type, with and without the mean squared error", "why_tests_cant": "The claim ranges over all pairs of a number of points and a batch size; a test with one point and one target passes.", "anchors": ["bayes_optim/surrogate/gaussian_process/gpr.py:GaussianProcess.predict"]}
{"id": "C149", "title": "The noisy optimiser proposes an initial design and full batches", "statement": "NoisyBO.ask() returns as many points as asked for, all in the search space and with the fixed values: before any data a random design, afterwards the maximisers of the acquisition functions, with random points in place of searches that found nothing. Points already evaluated may be proposed again.", "quantifier": "all search spaces, requests, fixed values, recorded data, outcomes of the acquisition searches and of the sampler", "why_tests_cant": "It ranges over all outcomes of the inner searches and samplers, in particular the rare one in which a search fails.", "anchors": ["bayes_optim/bayes_opt.py:NoisyBO.pre_eval_check", "bayes_optim/base.py:BaseBO.ask", "bayes_optim/base.py:BaseBO.create_DoE", "bayes_optim/solution.py:Solution.__add__"]}
{"id": "C150", "title": "A stopped run can be continued with a larger budget", "statement": "After a run has stopped, or an optimiser saved at that point has been loaded, assigning a larger max_FEs or another ftarget and calling run() again continues the optimisation: check_stop() always answers whether the run is due to stop under the current settings, and nothing but the settings and the recorded data decides it.", "quantifier": "all histories of tell and check_stop calls with arbitrary assignments to max_FEs, ftarget and minimize between them, including calls that raise", "why_tests_cant": "The answer depends on every earlier call under every earlier setting; a test that stops once and never changes a setting cannot see it.", "anchors": ["bayes_optim/_base.py:BaseOptimizer.check_stop", "bayes_optim/_base.py:BaseOptimizer.run"]}
{"id": "C151", "title": "An optimiser given another search space works on that space", "statement": "After opt.search_space = s, for any sequence of such assignments, the optimiser behaves as one constructed with s: its dimension, names and index attributes describe s, and the size of the initial design, the settings of the acquisition search and the form in which constraints receive their argument are those for s.", "quantifier": "all sequences of search spaces, constructor arguments, options of the acquisition search and types of variables", "why_tests_cant": "The stale values depend on every pair of an old and a new space and on the options; a test that replaces a space by a similar one cannot see them.", "anchors": ["bayes_optim/_base.py:BaseOptimizer.search_space", "bayes_optim/base.py:BaseBO._set_internal_optimization", "bayes_optim/base.py:BaseBO.DoE_size"]}
{"id": "C152", "title": "Every run ends with the best point", "statement": "run() ends for every search space, with or without an evaluation budget or a target. When the space holds no further point to evaluate, run() returns the best point found so far.", "quantifier": "all search spaces, settings of the stopping conditions (also none), batch sizes, objectives and behaviours of the random generator, the surrogate and the acquisition search", "why_tests_cant": "That a loop ends concerns runs of every length; a test sees one finite run and cannot tell a long run from an endless one.", "anchors": ["bayes_optim/_base.py:BaseOptimizer.run", "bayes_optim/_base.py:BaseOptimizer.check_stop", "bayes_optim/base.py:BaseBO.pre_eval_check", "bayes_optim/base.py:BaseBO.ask"]}
{"id": "C153", "title": "The units of the objective do not matter", "statement": "Measuring the objective, and the target with it, in other units or from another zero does not change a run: the same points are proposed and evaluated in the same order, the run ends at the same step, and the same point is returned.", "quantifier": "all objectives, positive scale factors and offsets, surrogates, acquisition functions and their parameters, searches, random behaviours, stopping conditions and numbers of steps", "why_tests_cant": "It compares two runs for every objective and every change of units; a test compares finitely many pairs of runs and cannot show that no absolute threshold on the values is met elsewhere.", "anchors": ["bayes_optim/base.py:BaseBO.update_model", "bayes_optim/base.py:BaseBO.tell", "bayes_optim/_base.py:BaseOptimizer.run", "bayes_optim/_base.py:BaseOptimizer.check_stop", "bayes_optim/bayes_opt.py:BO._create_acquisition"]}
{"id": "C154", "title": "Maximising f is minimising -f", "statement": "A run that maximises an objective evaluates the same points, ends at the same step and returns the same point as a run that minimises its negation, the target being negated too.", "quantifier": "all objectives, targets, surrogates that treat the two directions alike, acquisition functions, searches, random behaviours and numbers of steps", "why_tests_cant": "It relates two runs of every length for every objective; a test compares a few pairs of runs.", "anchors": ["bayes_optim/base.py:BaseBO.update_model", "bayes_optim/base.py:BaseBO.xopt", "bayes_optim/_base.py:BaseOptimizer.run", "bayes_optim/_base.py:BaseOptimizer.check_stop", "bayes_optim/bayes_opt.py:BO._create_acquisition"]}
{"id": "C155", "title": "The proposed point is the best the acquisition search has seen", "statement": "When ask() proposes a point with a fitted model, the point maximises the acquisition function among all the points the acquisition search has evaluated, over all its restarts. The search reports the evaluations it makes and stays within its evaluation budget.", "quantifier": "all acquisition functions, search spaces, numbers of restarts, budgets, and all random outcomes of the (1+1)-CMA-ES and of MIES", "why_tests_cant": "It concerns every point that a randomised search of arbitrary length evaluates, under every budget left by the earlier restarts; a test observes single searches.", "anchors": ["bayes_optim/acquisition/optim/__init__.py:argmax_restart", "bayes_optim/acquisition/optim/one_plus_one_cma_es.py:OnePlusOne_CMA.run", "bayes_optim/acquisition/optim/mies.py:MIES.optimize", "bayes_optim/base.py:BaseBO.ask"]}
{"id": "C156", "title": "The surrogate learns exactly what was observed", "statement": "Before every proposal the surrogate is fitted to all successful evaluations of the run so far, each point with its own value (standardised). What a run proposes, and when it ends, depends on the past only through the surrogate fitted to these data: two surrogates that behave alike on them lead to the same run.", "quantifier": "all surrogates, acquisition functions, objectives, searches, random behaviours and numbers of steps", "why_tests_cant": "It compares the runs under any two surrogates that agree on the data of one of them, after every number of steps; a test fixes the surrogate.", "anchors": ["bayes_optim/base.py:BaseBO.update_model", "bayes_optim/base.py:BaseBO.tell", "bayes_optim/base.py:BaseBO.ask", "bayes_optim/_base.py:BaseOptimizer.run"]}
{"id": "C157", "title": "Every step maximises the expected improvement", "statement": "In a run with the acquisition function EI that proposes one point per step, every step after the initial design evaluates, among all the points its acquisition search has looked at, one with the largest expected improvement on the best value observed so far, the value at a point being distributed as the surrogate fitted to all observations predicts.", "quantifier": "all objectives, surrogates, search spaces, directions, numbers of steps and random outcomes of the search", "why_tests_cant": "It is a statement about integrals for every prediction of every surrogate, in every step of runs of any length; a test sees one trajectory.", "anchors": ["bayes_optim/base.py:BaseBO.ask", "bayes_optim/base.py:BaseBO.arg_max_acquisition", "bayes_optim/bayes_opt.py:BO._create_acquisition", "bayes_optim/acquisition/acquisition_fun.py:EI", "bayes_optim/acquisition/optim/__init__.py:argmax_restart"]}
{"id": "C158", "title": "Every point of a batch maximises its own criterion", "statement": "In a run of ParallelBO with MGFI, every step after the initial design evaluates n_point points; each of them has, among all the points its acquisition search has looked at, the largest moment-generating function of the improvement on the best value observed so far, for the temperature drawn for it, the value at a point being distributed as the surrogate fitted to all observations predicts.", "quantifier": "all objectives, surrogates, search spaces, directions, batch sizes, temperatures drawn, numbers of steps and random outcomes of the searches", "why_tests_cant": "It is a statement about integrals for every prediction of every surrogate and every temperature drawn, in every step of runs of any length; a test sees one trajectory.", "anchors": ["bayes_optim/bayes_opt.py:ParallelBO._batch_arg_max_acquisition", "bayes_optim/base.py:BaseBO.ask", "bayes_optim/acquisition/acquisition_fun.py:MGFI", "bayes_optim/acquisition/optim/__init__.py:argmax_restart"]}
{"id": "C159", "title": "With a Gaussian process without noise, a step proposes a new point", "statement": "In a run of BO with EI whose surrogate is a Gaussian process without noise, the surrogate predicts at every point evaluated so far the value observed there, without error, and expects no improvement there; so whenever the acquisition search has looked at a point where the prediction is not certain, the point evaluated next is a new one and not one that was evaluated before.", "quantifier": "all objectives, correlation functions and parameters, trends, search spaces of real variables, directions, numbers of steps and random outcomes of the searches", "why_tests_cant": "It combines interpolation for every data set and every correlation function with the integral that defines the expected improvement and with the result of a search, in every step of runs of any length.", "anchors": ["bayes_optim/bayes_opt.py:BO", "bayes_optim/base.py:BaseBO.ask", "bayes_optim/surrogate/gaussian_process/gpr.py:GaussianProcess.predict", "bayes_optim/acquisition/acquisition_fun.py:EI", "bayes_optim/acquisition/optim/__init__.py:argmax_restart"]}
{"id": "C160", "title": "Small discrete spaces are searched exhaustively", "statement": "For a space without real variables that has D points and an objective with finite values: a run in which more than (D-1) times the largest batch has been evaluated has evaluated every point of the space (one at a time: as soon as D evaluations are made), and if the objective is deterministic and the run returns with such a budget, the point it returns is a global optimum of the space.", "quantifier": "all discrete search spaces, objectives, directions, surrogates, acquisition functions, batch sizes and random outcomes", "why_tests_cant": "It is a counting statement over all spaces and all trajectories; a test sees one small space and one seed.", "anchors": ["bayes_optim/bayes_opt.py:BO.pre_eval_check", "bayes_optim/base.py:BaseBO.ask", "bayes_optim/base.py:BaseBO.tell", "bayes_optim/_base.py:BaseOptimizer.run"]}
{"id": "C161", "title": "A run with annealing cools as scheduled", "statement": "In a run of AnnealingBO the initial design and the first search use the temperature t0, and every search after that uses a temperature cooled once more as the schedule says (a constant factor for 'exp', a constant decrement for 'linear'). The batch of the k-th search consists of points that maximise, each over the points its own search looked at, the moment-generating function of the improvement at a temperature drawn around the k-th temperature of the schedule. If every batch is full and max_FEs is the initial design plus N batches, the temperature stays above tf as long as the run goes on and is exactly tf when it stops.", "quantifier": "all objectives, surrogates, search spaces, directions, batch sizes, temperatures t0 > tf > 0, schedules 'exp' and 'linear', numbers of steps and random outcomes", "why_tests_cant": "The temperature is hidden state that is changed by a callback once per search; that it is neither changed by the initial design nor twice nor after the last step is a statement about runs of every length.", "anchors": ["bayes_optim/bayes_opt.py:AnnealingBO", "bayes_optim/bayes_opt.py:ParallelBO._batch_arg_max_acquisition", "bayes_optim/base.py:BaseBO.arg_max_acquisition", "bayes_optim/base.py:BaseBO.ask"]}
{"id": "C162", "title": "Without noise the prediction is the posterior distribution", "statement": "For a Gaussian process observed without noise whose trend coefficients are given, the normal law with the mean and the error that predict returns at a point is the conditional law of the value of the process there, given all observations. If the coefficients are estimated, the prediction error is normal with mean zero and the reported error as variance, whatever the coefficients are, and independent of all combinations of the observations that the trend cancels out of; so the value is within c reported standard deviations of the prediction with exactly the probability that a standard normal number is within c of zero.", "quantifier": "all correlation matrices that can be factorised, all trends, variances, samples, points, observations and Gaussian processes with these moments", "why_tests_cant": "The claim is about conditional laws; a test sees single numbers and cannot tell a calibrated error from one that is too small.", "anchors": ["bayes_optim/surrogate/gaussian_process/gpr.py:GaussianProcess.predict", "bayes_optim/surrogate/gaussian_process/gpr.py:GaussianProcess._compute_aux_var", "bayes_optim/surrogate/gaussian_process/gpr.py:GaussianProcess.compute_beta_gamma"]}
{"id": "C163", "title": "Acquisition values are conditional expectations given the data", "statement": "With a Gaussian process observed without noise as surrogate, the best observed value as plugin and given trend coefficients, the value of EI at a point is the conditional expectation, given all observations, of the improvement that an evaluation there would bring on the best observation; the value of MGFI is the conditional expectation of exp(t (improvement - 1)) on the event of an improvement.", "quantifier": "all processes, samples, points, directions and temperatures, almost all outcomes", "why_tests_cant": "It combines the prediction, the plugin and the closed formula into a statement about a conditional expectation over all data sets; single numbers can only be compared with the same formula.", "anchors": ["bayes_optim/acquisition/acquisition_fun.py:EI", "bayes_optim/acquisition/acquisition_fun.py:MGFI", "bayes_optim/surrogate/gaussian_process/gpr.py:GaussianProcess.predict"]}
{"id": "C164", "title": "Sampling under constraints draws from the intended distribution", "statement": "The random walk behind `SearchSpace.sample` with constraints keeps the distribution its penalty defines: a sample that follows it before the walk follows it after any number of steps, and a sample that starts elsewhere comes as close to it as one likes when the number of steps grows. In particular, with a constraint that excludes nothing the samples are uniform.", "quantifier": "all spaces, penalties, numbers of samples and steps, starting samples and stages of the schedule; the random numbers are independent draws with the laws the code asks for", "why_tests_cant": "A test sees finitely many samples from one seed; the claim is about the probability of every point under all random numbers and any number of steps.", "anchors": ["bayes_optim/search_space/samplers.py:SCMC._metropolis_hastings", "bayes_optim/search_space/samplers.py:SCMC._rproposal", "bayes_optim/search_space/samplers.py:SCMC._rproposal_discrete", "bayes_optim/search_space/samplers.py:SCMC._rproposal_integer"]}
{"id": "C165", "title": "The evolution strategy never stops exploring", "statement": "In every generation of the mixed-integer evolution strategy the mutation strengths are legal: step sizes are not negative, the parameter of the geometric draws lies strictly between 0 and 1, the mutation probability lies in (0, 1], so that no draw raises.  From every individual, every point of the space can be the next offspring.", "quantifier": "all mixed spaces with proper bounds, objectives, sizes, selection schemes, random numbers and numbers of generations; all target points", "why_tests_cant": "A test runs a few generations with a few seeds; that a strength never becomes illegal, or that no part of the space is ever cut off, concerns all runs.", "anchors": ["bayes_optim/acquisition/optim/mies.py: MIES.recombine, MIES.mutate, MIES._mutate_r, MIES._mutate_i, MIES._mutate_d, MIES.select, MIES.optimize", "bayes_optim/utils/utils.py: handle_box_constraint"]}
{"id": "C166", "title": "The evolution strategy draws its mutations from the laws of mixed-integer evolution strategies", "statement": "The step size of a real variable is the inherited one times a log-normal factor whose logarithm has mean 0 and variance 1/(2n) for one variable, 1/(2n) + 1/(2 sqrt n) for n variables; so is the strength of an integer variable, capped at 1.  Given its strength s, an integer variable moves by a symmetric random number with mean absolute value s/n.  The log-odds of the probability to redraw a categorical variable move by a normal number with variance 1/(2n).", "quantifier": "all spaces, individuals with legal strengths and all probability spaces with the draws the code makes (standard normal and geometric numbers, independent)", "why_tests_cant": "A statistical test with finitely many samples cannot establish a distribution, and only for the parameters it samples.", "anchors": ["bayes_optim/acquisition/optim/mies.py: MIES._set_hyperparameter, MIES._mutate_r, MIES._mutate_i, MIES._mutate_d"]}
{"id": "C167", "title": "On an objective without information the CMA-ES does not drift", "statement": "If the objective is constant, so that the ranking of the offspring carries no information, then a generation of the covariance matrix adaptation does not move the search on average: the expected mean of the distribution is the previous mean, the path that controls the step size keeps second moments given by the identity matrix, and the expected covariance matrix is the previous one whenever it gives the second moments of its path (otherwise it moves towards them at a known rate).", "quantifier": "every dimension, population size of at least two, state with an up-to-date decomposition, ranking that does not depend on the random numbers, random paths uncorrelated with the noise, and noise with mean 0, variance 1 and no correlation", "why_tests_cant": "Expectations range over a continuous distribution of all samples; a test sees single draws, and a wrong normalisation of the weights or paths shows up as a slow drift only.", "anchors": ["bayes_optim/surrogate/gaussian_process/cma_es.py: cma_es.__init__ (weights, mueff, cc, cs), mutation, update, optimize"]}
{"id": "C168", "title": "The CMA-ES uses the order of the objective values only", "statement": "Replacing the objective by a strictly increasing function of it changes nothing in the course of the CMA-ES (means, step sizes, matrices, evaluated points, best point, flags), only the reported best value. The order in which the offspring of a generation were drawn has no influence if their values differ. For a convex objective the new mean is at least as good as the average of the offspring.", "quantifier": "every objective, strictly increasing function, box, population, number of generations, random numbers, and permutation of the draws; every convex objective", "why_tests_cant": "The claim compares two runs for every objective and every transformation; tests compare a few.", "anchors": ["bayes_optim/surrogate/gaussian_process/cma_es.py: optimize, mutation, evaluation, update, check_stop_criteria"]}
{"id": "C169", "title": "Gaussian processes do not influence each other", "statement": "What a trained GaussianProcess predicts depends on the arguments it was constructed with and on the data of its last fit, not on other models of the same program: training or constructing another GaussianProcess changes none of its predictions, also when both were given the same trend object.", "quantifier": "All programs that construct and train any number of Gaussian processes in any order, all trend objects (basis expansions) with given or estimated coefficients, all data sets, all query points.", "why_tests_cant": "A test trains one or two models in one order; the influence of one model on another depends on which trend objects are shared and on the order of construction and training.", "anchors": ["bayes_optim/surrogate/gaussian_process/gpr.py: GaussianProcess.__init__, fit, predict, compute_beta_gamma", "bayes_optim/surrogate/gaussian_process/trend.py: BasisExpansionTrend"]}
{"id": "C170", "title": "The covariance matrix adaptation does not depend on the origin, the unit and the order of the variables", "statement": "Shift the origin of the search space and list the variables in another order, converting the bounds, the starting point and the objective accordingly: with the corresponding random numbers the covariance matrix adaptation (CMA-ES) is after every number of generations in the same state, converted to the new coordinates. It reports the same best point, the same value and the same number of evaluations. The same holds for another unit of length, when the initial step size is converted too.", "quantifier": "Every objective, box, starting point, initial step size, target and budget, every population of at least two, every shift, unit and order of the variables, every sequence of random numbers, every ranking and eigenvalue routine, and every number of generations.", "why_tests_cant": "A test fixes one seed; with another order of variables the generator gives its numbers to other variables, so two runs of the program cannot be compared directly. The limits on the step size are met only after long runs or with unusual units.", "anchors": ["bayes_optim/surrogate/gaussian_process/cma_es.py: optimize, mutation, constraint_handling, update, updateBD, check_stop_criteria, reset_state"]}
{"id": "C171", "title": "Rounding and rescaling a design converts the real columns and leaves the argument alone", "statement": "SearchSpace.round and SearchSpace.to_linear_scale return a design in which each value of a real variable is rounded to its precision and clipped to its bounds, respectively mapped back from its scale, and each other value is as before; the design given by the caller is not modified, so that repeated calls with the same design return the same result.", "quantifier": "Every search space of real, discrete or mixed variables, every design given as a list, a list of rows, or an array of one or two dimensions with elements of any type, all values.", "why_tests_cant": "Whether the argument is overwritten depends on the class of the space, the type of the argument, its number of dimensions and its element type; a test covers a few combinations, and one that compares only the returned value does not notice.", "anchors": ["bayes_optim/search_space/search_space.py: SearchSpace.round, SearchSpace.to_linear_scale, RealSpace.round, RealSpace.to_linear_scale, _DiscreteSpace.round, _DiscreteSpace.to_linear_scale"]}
{"id": "C172", "title": "A run of the (1+1)-Cholesky-CMA-ES ends, stays in the box and reports the best point it evaluated", "statement": "OnePlusOne_Cholesky_CMA.run, started at a point of the box, evaluates points of the box only, ends once the budget is used up, keeps step size and success rate in their ranges, never computes with NaN, and returns a point whose value is the reported one and which, without constraints, is at least as good as every point it has evaluated, restarts included.", "quantifier": "Every objective, box, precision, starting point, target, tolerances, budget, number of restarts, admissible learning rates, and every sequence of random numbers and number of passes of the loop; no component (points, step size, matrices, stopping tests, restarts) is left open.", "why_tests_cant": "The interplay shows only in long runs: the first restart follows stagnation, and what it does depends on step size, matrices, flags and counters left by all steps before.", "anchors": ["bayes_optim/acquisition/optim/one_plus_one_cma_es.py: OnePlusOne_CMA.run, step, ask, tell, check_stop, restart, x, evaluate, _update_step_size, _handle_exception; OnePlusOne_Cholesky_CMA._update_covariance, _init_covariance"]}
{"id": "C173", "title": "The (1+1)-Cholesky-CMA-ES does not depend on the origin and the order of the variables", "statement": "List the variables in another order, and, if they have no precision, shift the origin, converting bounds, starting point, objective and constraints accordingly: with the corresponding random numbers OnePlusOne_Cholesky_CMA is after every pass of its loop in the same state, converted to the new coordinates, so that it returns the corresponding point with the same value after the same number of evaluations, restarts included. As long as no proposed point leaves the box and there are no restarts, the same holds for a rotation or reflection of the space.", "quantifier": "Every objective, constraints, box, precision (order only), starting point, parameters, number of restarts, every order, shift, rotation and reflection, every sequence of random numbers, and every number of passes.", "why_tests_cant": "A test fixes one seed; with another order of variables the generator gives its numbers to other variables, so two runs of the program cannot be compared directly.", "anchors": ["bayes_optim/acquisition/optim/one_plus_one_cma_es.py: OnePlusOne_CMA.run, ask, tell, restart, check_stop; OnePlusOne_Cholesky_CMA._update_covariance", "bayes_optim/utils.py: handle_box_constraint"]}
{"id": "C174", "title": "The (1+1)-CMA-ES depends on the order of the objective values only", "statement": "If the objective and the target are transformed by a strictly increasing function (or by a strictly decreasing one while minimisation and maximisation are exchanged), then with the same random numbers a run of the (1+1)-Cholesky-CMA-ES proposes the same points, restarts and stops in the same passes and reports the same point.", "quantifier": "every dimension, box, starting point, objective without constraints, transformation of the values, sequence of random numbers, number of restarts and number of passes", "why_tests_cant": "the invariance concerns all pairs of runs over all transformations; the one way to break it is a stopping test on value differences, which shows only in particular long runs", "anchors": ["bayes_optim/acquisition/optim/one_plus_one_cma_es.py: OnePlusOne_CMA.run, step, tell, check_stop, restart", "bayes_optim/acquisition/optim/one_plus_one_cma_es.py: OnePlusOne_Cholesky_CMA"]}
{"id": "C175", "title": "The evolution strategy for mixed spaces ends exactly when the evaluation limit is passed or the search has stagnated", "statement": "Running the mixed-integer evolution strategy on legal arguments never raises; it makes one generation after the other, ends after the first generation after which the evaluation limit is passed or the search has stagnated and not before, and in every state the reported optimum is an evaluated point of the space that no evaluated point beats, with evaluations counted exactly. (Stagnation, as the code tests it, means that the first offspring and the one at a quarter of the generation have the same value, or that the first offspring of the generations remembered have the same value up to 1e-5; the first test also fires in a generation that improves the best point, and with one parent it always fires after one generation.)", "quantifier": "every mixed space with proper bounds, every objective with penalty, every number of parents and offspring, elitism, minimisation or maximisation, evaluation limit, initial sample and all random numbers, after any number of passes of the loop", "why_tests_cant": "the number of generations is unbounded and the stopping tests depend on the whole history through a ring buffer; tests see only a few random runs", "anchors": ["bayes_optim/acquisition/optim/mies.py:MIES.optimize", "bayes_optim/acquisition/optim/mies.py:MIES.stop", "bayes_optim/acquisition/optim/mies.py:MIES.__init__"]}
{"id": "C176", "title": "The evolution strategy for mixed spaces depends on the order of the objective values only", "statement": "Replacing the objective (with its penalty) by an increasing function of it leaves a run of the mixed-integer evolution strategy unchanged: the same points are proposed in the same order, the run ends in the same generation, raises if and only if the original does, and returns the same point with the transformed value.", "quantifier": "every strictly increasing transformation, every configuration of the strategy, initial sample and random numbers, after any number of passes", "why_tests_cant": "the claim compares two runs of unbounded length over all transformations; a test fixes one transformation and one seed", "anchors": ["bayes_optim/acquisition/optim/mies.py:MIES.optimize", "bayes_optim/acquisition/optim/mies.py:MIES.stop", "bayes_optim/acquisition/optim/mies.py:MIES.select"]}
{"id": "C177", "title": "The Gaussian process does not depend on how the data are written down", "statement": "Reordering the observations, numbering the variables differently and measuring them in other units, in the opposite direction or from another origin does not change the Gaussian process: with the same correlation parameters expressed in the new units (and, if they are given, the trend coefficients of the same trend), the model returns the same mean and mean squared error at every point, and the likelihood and the variance estimates that the parameter search compares are the same; a fit that fails in one form fails in the other.", "quantifier": "every number of observations and variables, every permutation of both, all non-zero units (negative ones included) and origins, all five correlation functions, one or several parameters, constant, linear and quadratic trends with given or estimated coefficients, all three estimation modes, all observations and points, all exact factorisation routines", "why_tests_cant": "A test compares two orderings of one data set within a tolerance; that no ordering, unit or trend changes the result needs the uniqueness of the best predictor.", "anchors": ["bayes_optim/surrogate/gaussian_process/gpr.py: GaussianProcess.predict, log_likelihood_concentrated, _compute_aux_var, correlation_matrix", "bayes_optim/surrogate/gaussian_process/kernel.py: matern, absolute_exponential, squared_exponential, generalized_exponential, cubic", "bayes_optim/surrogate/gaussian_process/trend.py: constant_trend, linear_trend, quadratic_trend"]}
{"id": "C178", "title": "The multi-objective criterion rewards better predictions and falls with more data", "statement": "The analytic expected hypervolume improvement is at least as large for a prediction that is at least as good in all objectives (same variances); it never grows when further outcomes are recorded; it depends on the non-dominated outcomes only (not on order, grouping, repetitions or dominated outcomes); and it is positive for every prediction, so that candidates can always be ranked.", "quantifier": "every number of objectives, every reference point, every history of outcomes given to the exact partitioning in any batches, every mean and variance, both precisions, all sorting and argmax routines", "why_tests_cant": "Tests compare the criterion at a few predictions for a few fronts; monotonicity concerns all pairs of predictions and all pairs of histories.", "anchors": ["bayes_optim/multi_objective/analytic.py: ExpectedHypervolumeImprovement.forward", "bayes_optim/utils/multi_objective/box_decompositions/non_dominated.py: NondominatedPartitioning"]}
{"id": "C179", "title": "The mixed-integer evolution strategy does not depend on how the variables are described", "statement": "Describe a mixed search space in other terms: real variables without precision in other units and from other origins, integer variables with whole bounds from other origins, the levels of categorical variables under other names; translate the objective and the initial sample accordingly and use the same random numbers. Then MIES.optimize evaluates the same points in the new terms in the same order, finds the same values, ends in the same pass for the same reason, reports the same point, and raises in the same pass. With fractional bounds of an integer variable this fails: counted from another origin the strategy evaluates other points.", "quantifier": "all lists of variables and all translations of them, all objectives and penalties, initial samples, random numbers, population sizes, selection modes, argsort implementations and numbers of passes", "why_tests_cant": "a test compares two runs on one space; that no absolute magnitude, sign or name enters any of the operators in any generation is a statement about all spaces and all random numbers", "anchors": ["bayes_optim/acquisition/optim/mies.py: MIES.__init__, recombine, select, mutate, _mutate_r, _mutate_i, _mutate_d, stop, optimize; bayes_optim/utils/utils.py: handle_box_constraint"]}
{"id": "C180", "title": "An optimisation does not depend on the units, origins and level names in which the variables are written", "statement": "Writing a real variable in another unit from another origin, an integer variable from another origin or the levels of a categorical variable under other names changes nothing but the way the points are written: ask proposes the same points, run() evaluates the same points in the same order, stops for the same reason after the same number of steps and returns the same point.  The code does not keep this: ask throws a candidate away as a duplicate when np.isclose with its absolute default tolerances finds it equal to a recorded point, so in a space whose ranges are tiny (0 to 1e-8 metres) or far from the origin (a timestamp in seconds) every point counts as a duplicate of every other; the first ask for two or more points then raises, and no ask succeeds once a point has been recorded, while the same space in nanometres works.", "quantifier": "every space of real, integer, ordinal, categorical and Boolean variables, every re-description of it, every state of the optimiser, every outcome of the acquisition search, sampler, surrogate and objective, every number of steps", "why_tests_cant": "a test runs in one or two descriptions of one space; the claim ranges over all re-descriptions and whole runs, and the failure appears only for ranges that the bundled tests never use", "anchors": ["bayes_optim/bayes_opt.py:BO.pre_eval_check", "bayes_optim/base.py:BaseBO.ask", "bayes_optim/base.py:BaseBO.run", "bayes_optim/base.py:BaseBO.create_DoE"]}
{"id": "C181", "title": "The order and grouping of the observations do not matter", "statement": "Two optimisers that were told the same observations - in whatever order, in one call of tell or in many, under whatever labels - go on alike: ask proposes the same points, run() evaluates the same points in the same order, stops after the same number of steps for the same reason and returns a point of the same value, the same point if only one point has that value. The Gaussian process learns the same from the same data in another order: it can be fitted or not, has the same variance and gives the same predictions and gradients everywhere. Among points of exactly equal value the one that was told first is reported.", "quantifier": "all spaces, data, histories of tell calls, orders and groupings, acquisition functions, batch sizes, correlation functions, trends, parameter searches that depend on the likelihood alone, random numbers, objectives and numbers of steps; constraint functions do not raise", "why_tests_cant": "a test permutes one data set; that neither the stopping rule, the duplicate check, the standardisation, the incumbent, the surrogate, nor any acquisition value depends on the order is a statement about all histories, and a dependence shows up only in later proposals", "anchors": ["bayes_optim/base.py: BaseBO.ask, tell, run, update_model, _create_acquisition, check_stop, xopt", "bayes_optim/bayes_opt.py: BO.pre_eval_check", "bayes_optim/surrogate/gaussian_process/gpr.py: GaussianProcess.fit, predict, gradient, log_likelihood_concentrated"]}
{"id": "C182", "title": "Optimisers of one program do not influence each other", "statement": "When a program uses several optimisers, what one of them shows (whether its constructor returns, the points it proposes, the outcomes of tell, its state) depends on the calls made for that optimiser only, not on which other optimisers exist, what they are asked and told, or how the calls interleave.", "quantifier": "all programs (sequences of constructor, ask and tell calls for any number of BO, ParallelBO and AnnealingBO objects), interleavings, arguments, surrogates, searches and random outcomes", "why_tests_cant": "Influence through a shared default argument or a shared object shows only in particular combinations and orders of calls; a test runs finitely many programs and cannot show that no other program has a channel.", "anchors": ["bayes_optim/bayes_opt.py:ParallelBO.__init__", "bayes_optim/bayes_opt.py:AnnealingBO", "bayes_optim/base.py:BaseBO.__init__", "bayes_optim/base.py:BaseBO.ask", "bayes_optim/base.py:BaseBO.update_model"]}
{"id": "C183", "title": "A multi-objective optimisation does not depend on how the objectives are written down", "statement": "Writing the objectives of MOBO in other units or from another zero, or listing them in another order, leaves the whole run unchanged: the same points are evaluated and the reported front consists of the same points, with the outcomes rewritten. Minimising an objective and maximising its negative give the same front. Telling the same observations in another order changes neither the values the surrogates are fitted to nor the reference point nor the outcomes on the front.", "quantifier": "all numbers of objectives, directions, objective functions, positive units and zeros, permutations of the objectives, proposals made from the transformed values and the reference point, budgets, numbers of steps, recorded data and orders of it", "why_tests_cant": "Compares two infinite families of runs; a test sees one pair of runs of one problem in one unit, where scaling by the observed range, the threshold on tiny ranges and the reference point happen to agree.", "anchors": ["bayes_optim/mobo.py: MOBO.xopt, MOBO.y, MOBO.ref_point, MOBO.tell", "bayes_optim/_base.py: run", "bayes_optim/utils/multi_objective/pareto.py: is_non_dominated"]}
{"id": "C184", "title": "A program that saves the optimiser after every step survives crashes", "statement": "A program that runs the loop 'while not check_stop(): step(); save(file)' and, started again after a crash, loads the file and continues, survives a crash at any instant: it can always go on, at most one step is lost, the optimiser is always one that the uninterrupted run has after some step, the program ends as the uninterrupted run does, and the data file holds every evaluation once.", "quantifier": "all crash points (within a step, between the write of the data file and the save, at every instant of the save), any number of crashes and restarts, all learners, spaces, settings, objectives and lawful serialisers", "why_tests_cant": "Crashes can strike at any instant and repeatedly; a test kills one process at one moment.", "anchors": ["bayes_optim/base.py: BaseBO.save, BaseBO.load, BaseBO.step, BaseBO.tell", "bayes_optim/_base.py: run, check_stop"]}
{"id": "C185", "title": "A whole multi-objective run keeps its budget and returns the Pareto front of what it evaluated", "statement": "A multi-objective run from a new optimiser counts every evaluation of every objective: eval_count is the number of evaluated points times the number of objectives, however the run ends. With max_FEs it exceeds the budget by less than one batch of points, and it ends after at most max_FEs steps if every step proposes a point. If it returns, the budget is used up, all evaluated points had finite objectives, and what it returns are evaluated points with their outcomes that form the Pareto front of everything evaluated in the whole run, up to the rounding of the scaled objectives to single precision: every evaluated outcome is matched or beaten by a returned one up to a rounding error relative to the spread of each objective, and no evaluated outcome beats a returned one in all objectives by more than that; if rounding keeps the values apart, each outcome that no evaluated point dominates is returned exactly once and no other one is. It raises only if a step cannot propose points, an objective is not finite at an evaluated point, or max_FEs is not positive.", "quantifier": "every number of objectives, directions, objective functions, batch sizes, budgets and proposal strategies that may depend on everything recorded; every number of steps", "why_tests_cant": "the front is that of a whole history of adaptively chosen points, and the counts and the ending depend on every step of it; tests see single histories", "anchors": ["bayes_optim/mobo.py: MOBO.tell, MOBO.xopt, MOBO.evaluate", "bayes_optim/_base.py: BaseOptimizer.run, BaseOptimizer.check_stop", "bayes_optim/base.py: BaseBO.step, BaseBO.post_eval_check"]}
{"id": "C186", "title": "Several workers can share one optimiser", "statement": "Any number of workers that share one optimiser through check_stop, ask and tell, calling it one at a time in any order, may deliver results late, out of order or never (a worker can be lost with its points). At every moment the recorded data are exactly the finite results delivered, each once and in the order of delivery, eval_count is the number of points delivered, and the incumbent is the best of them. Every point handed out has been delivered, was lost with its worker or is under evaluation. With max_FEs the evaluations, those under way included, exceed the budget by less than one batch for each worker, and the number of times points are handed out is bounded, so the work ends. Without noise, no point is evaluated twice.", "quantifier": "every number of workers, batch size and budget, every interleaving of their calls, every pattern of lost workers, failed values and failed model fits, whatever the search proposes", "why_tests_cant": "the interleavings are unboundedly many; a test runs one", "anchors": ["bayes_optim/base.py: BaseBO.ask, BaseBO.tell", "bayes_optim/_base.py: BaseOptimizer.check_stop", "bayes_optim/bayes_opt.py: BO.pre_eval_check"]}
{"id": "C187", "title": "A run created with a seed can be repeated, and the seed is the one given to the optimiser", "statement": "Two runs of the same optimiser with the same seed, the same deterministic objective and the same data give the same initial design, the same data and the same end, on every machine and whatever was drawn from numpy's global generator before. The seed given as `random_seed` to the optimiser (or as `seed` to fmin) suffices for that. Later proposals draw fresh numbers: asking again does not repeat the earlier draws.", "quantifier": "all spaces and fixed values, all seeds of space and optimiser, all generators and operating system entropies, all earlier draws, all recorded data, all surrogates and objectives, runs of any length", "why_tests_cant": "A test runs one seed on one machine; that two runs agree for every earlier use of the global generator and every source of entropy is a statement about pairs of executions.", "anchors": ["bayes_optim/search_space/search_space.py:SearchSpace.__init__", "bayes_optim/search_space/search_space.py:SearchSpace.random_seed", "bayes_optim/search_space/search_space.py:SearchSpace.filter", "bayes_optim/search_space/search_space.py:SearchSpace.sample", "bayes_optim/base.py:BaseBO.create_DoE", "bayes_optim/base.py:BaseBO.arg_max_acquisition", "bayes_optim/_base.py:BaseOptimizer.random_seed", "bayes_optim/bayes_opt.py:ParallelBO._batch_arg_max_acquisition", "bayes_optim/__init__.py:fmin"]}
{"id": "C188", "title": "A whole run of the conditional optimiser keeps its budget, tries every sub-space and returns the best point", "statement": "run() of ConditionalBO ends, calls the objective less than a batch more often than max_FEs allows, evaluates every unconditional sub-space before any second choice if the budget allows it, records exactly the evaluations that gave a finite value, and returns a recorded point that no recorded point beats.", "quantifier": "all numbers of sub-spaces, batch sizes, budgets and targets, both directions, all proposals of the sub-optimisers, all random choices, all objectives including failing ones, all failures of training, runs of any length", "why_tests_cant": "The bound on the evaluations and the exploration of all sub-spaces are about every run of a loop around several optimisers, with failures at any step.", "anchors": ["bayes_optim/extension.py:ConditionalBO.ask", "bayes_optim/extension.py:ConditionalBO.tell", "bayes_optim/extension.py:ConditionalBO.select_subspace", "bayes_optim/_base.py:BaseOptimizer.run", "bayes_optim/_base.py:BaseOptimizer.check_stop", "bayes_optim/base.py:BaseBO.step"]}
{"id": "C189", "title": "A whole run of PCA-BO keeps its budget, ends and returns the best point", "statement": "run() of PCABO calls the objective less than a batch more often than max_FEs allows and ends, also when evaluations fail; it records exactly the finite values, in the original coordinates, however it ends; if it returns, it returns a point at which the objective was called and no call gave a better value; it raises only if proposing or training does or if nothing was allowed to be evaluated.", "quantifier": "all budgets, targets and directions, all batch sizes, all points proposed, all objectives including failing ones, all failures of the numerical fit, runs of any length", "why_tests_cant": "The claims are about every run of an unbounded loop with failures at any step, and about the state that an exception leaves behind.", "anchors": ["bayes_optim/extension.py:PCABO.ask", "bayes_optim/extension.py:PCABO.tell", "bayes_optim/extension.py:PCABO.xopt", "bayes_optim/extension.py:LinearTransform.fit", "bayes_optim/_base.py:BaseOptimizer.run", "bayes_optim/_base.py:BaseOptimizer.check_stop"]}
{"id": "C190", "title": "The random forest predicts within the range of the observations, in their unit, whatever the levels are called", "statement": "A prediction of the random forest lies between the smallest and the largest observation it was fitted to, and its reported variance is at most that of predictions at these two; predictions follow the unit and origin of the observations; renaming the levels of categorical variables changes nothing.", "quantifier": "all trees that can result from fitting (any splits, any bootstrap samples), all observations, all rows of the space, all orders of the threads, all units, all renamings", "why_tests_cant": "The trees depend on random bootstrap samples and on a library; the bound must hold for every tree that can come out of it and for every query.", "anchors": ["bayes_optim/surrogate/random_forest.py:RandomForest.fit", "bayes_optim/surrogate/random_forest.py:RandomForest.predict", "bayes_optim/surrogate/random_forest.py:RandomForest._check_X"]}
{"id": "C191", "title": "A program that goes on after exceptions loses only the interrupted batch", "statement": "Let a program call step() until check_stop() returns True, catching the exceptions of step(). Whatever raises (the proposal, the objective at some calls and not at others, the surrogate model), the recorded data are exactly the points with finite values of the batches in which the objective did not raise, in order and each once; eval_count counts exactly the evaluations of these batches; the objective is called at most max_FEs - 1 + q times plus q for every batch in which it raised (q the largest batch); and the program stops as soon as the completed batches reach the budget. A tell() that raises leaves the optimiser as it was, so that it can be repeated.", "quantifier": "every sequence of proposed batches, every pattern of exceptions and non-finite values of the objective, every outcome of the surrogate, every state and every call of tell", "why_tests_cant": "The pattern of failures is arbitrary and unbounded; tests try one exception at one place.", "anchors": ["bayes_optim/_base.py:BaseOptimizer.evaluate", "bayes_optim/_base.py:BaseOptimizer.check_stop", "bayes_optim/base.py:BaseBO.step", "bayes_optim/base.py:BaseBO.tell"]}
{"id": "C192", "title": "A constrained sample violates its constraints by more than the tolerance only with negligible probability", "statement": "In the last stage of `SearchSpace.sample` with constraints, a row violates some constraint by more than `tol` with a probability of at most 2^K * 6.4e-16 times the number of such rows divided by the number of feasible rows (K constraints), plus a term that shrinks geometrically with the number of steps, wherever the row started. A feasible row is left for such a row in one move with a probability of at most 2^K * 6.4e-16.", "quantifier": "all spaces, numbers of constraints, constraint functions, tolerances below 80, starting samples and numbers of steps; the random numbers are independent draws with the laws the code asks for", "why_tests_cant": "A probability of 1e-15 is beyond any sampling experiment, and the bound must hold for every constraint function, space and start.", "anchors": ["bayes_optim/search_space/samplers.py:SCMC._log_posterior", "bayes_optim/search_space/samplers.py:SCMC._metropolis_hastings", "bayes_optim/search_space/samplers.py:SCMC.__init__", "bayes_optim/search_space/samplers.py:SCMC.sample"]}
{"id": "C193", "title": "recommend() returns the best point so far, and what it returns can be changed freely", "statement": "recommend() returns the first of the best points told so far, and raises RecommendationUnavailableError exactly when there is none. Later recommendations are never worse, and after run() it is the point run() returned. Calling it changes nothing, and a program may write to the returned object without influencing the optimiser.", "quantifier": "all histories of tell, check_stop and recommend, with rejected calls and failed evaluations, both directions, all writes to returned objects at any time", "why_tests_cant": "The statement compares arbitrary histories with and without recommendations and writes; sharing of memory shows only in particular interleavings.", "anchors": ["bayes_optim/_base.py:BaseOptimizer.recommend", "bayes_optim/_base.py:BaseOptimizer.xopt", "bayes_optim/base.py:BaseBO.tell", "bayes_optim/solution.py:Solution.__getitem__", "bayes_optim/solution.py:Solution.__setattr__", "bayes_optim/solution.py:Solution.__add__"]}
{"id": "C194", "title": "What is recorded is what was proposed and told, whatever is done with the lists later or inside the objective", "statement": "A step records the proposed points with their objective values even if the objective changes the list it is called with. tell() keeps no reference to what it is given: the caller may reuse its lists and arrays without influence on the optimiser.", "quantifier": "all batches, objectives that change their argument in any way, numbers of jobs, all programs that call tell and check_stop and overwrite earlier arguments at any time", "why_tests_cant": "Sharing of memory shows only for particular argument types, orders of calls and objectives; tests use fresh lists and pure objectives.", "anchors": ["bayes_optim/_base.py:BaseOptimizer.evaluate", "bayes_optim/base.py:BaseBO.step", "bayes_optim/base.py:BaseBO.tell", "bayes_optim/base.py:BaseBO.post_eval_check", "bayes_optim/solution.py:Solution.__new__", "bayes_optim/solution.py:Solution.__add__"]}
{"id": "C195", "title": "The initial design is spread evenly over every variable", "statement": "A design of N >= 2 points (the initial design, or sample(N, method='LHS')) without constraints divides the range of every variable evenly: each of the N parts of equal length, measured on the scale of the variable, holds exactly one point. Every interval with a share of 2/N of the range contains a point, and all points differ.", "quantifier": "all spaces, scales, bounds, seeds, numbers of points and Latin hypercube designs that the library can return", "why_tests_cant": "A test sees one design for one seed; the claim is about every design, scale and mixture of variables.", "anchors": ["bayes_optim/search_space/search_space.py:RealSpace._sample", "bayes_optim/search_space/search_space.py:SearchSpace._sample", "bayes_optim/search_space/search_space.py:SearchSpace.sample", "bayes_optim/base.py:BaseBO.create_DoE"]}
{"id": "C196", "title": "An optimiser can be used on after tell has raised", "statement": "A caller who catches an exception of tell and goes on finds a working optimiser: the next ask searches with a surrogate completely trained on all the observations recorded so far, or, if tell has not succeeded yet, proposes a random design. A later tell that succeeds repairs everything.", "quantifier": "all histories of calls of tell, each returning or raising at any point (bad arguments, flat values, the checks, the training, the prediction, the user's constraint functions), and the three surrogate classes", "why_tests_cant": "a test makes one call fail in one way; which failure leaves which surrogate behind depends on where in the training it happens and on all the calls before", "anchors": ["bayes_optim/base.py: BaseBO.ask, BaseBO.tell, BaseBO.update_model", "bayes_optim/surrogate/random_forest.py: RandomForest.fit", "bayes_optim/surrogate/gaussian_process/__init__.py: GaussianProcessSklearn.fit", "bayes_optim/surrogate/gaussian_process/gpr.py: GaussianProcess.fit"]}
{"id": "C197", "title": "The first ask proposes as many points as requested", "statement": "Before any surrogate is trained, ask() proposes exactly the requested number of initial points (DoE_size by default) of every search space that has that many points; it never comes back with an error.", "quantifier": "all search spaces, request sizes, recorded points and draws of the sampler", "why_tests_cant": "a test draws one design in one space; whether enough points survive the check for duplicates depends on the draws, the bounds and the tolerances", "anchors": ["bayes_optim/base.py: BaseBO.ask, BaseBO.create_DoE", "bayes_optim/bayes_opt.py: BO.pre_eval_check"]}
{"id": "C198", "title": "The front of a multi-objective optimisation only improves", "statement": "The Pareto front that MOBO reports (xopt and hist_f) is as good as all recorded outcomes together, and it only improves: every outcome that was on it is matched or beaten by one on every later front, so that no quality measure such as the hypervolume can fall.", "quantifier": "all histories of calls of tell, numbers of objectives, directions and outcomes", "why_tests_cant": "a test sees a few histories; the front is computed from values that are rescaled and rounded anew with every observation", "anchors": ["bayes_optim/mobo.py: MOBO.xopt, MOBO.y, MOBO.tell", "bayes_optim/utils/multi_objective/pareto.py: is_non_dominated"]}
{"id": "C199", "title": "A run in a continuous space can use its whole budget", "statement": "In a space with a real variable there are always points left to evaluate: ask() can propose a further point after any number of evaluations, so that a run can use any budget (max_FEs) and refine the optimum further and further.", "quantifier": "all boxes of real variables, histories of proposals and evaluations, samplers, searches and budgets", "why_tests_cant": "a test runs for a few dozen evaluations; whether and when the proposals run out depends on the ranges, the tolerance of the duplicate check and the whole history", "anchors": ["bayes_optim/bayes_opt.py: BO.pre_eval_check", "bayes_optim/base.py: BaseBO.ask, BaseBO.create_DoE", "bayes_optim/base.py: BaseBO.run"]}
{"id": "C200", "title": "ask gives up only if nothing new was found", "statement": "ask() raises AskEmptyError only if every point that the acquisition search and the random samples delivered is already recorded; a new point that was found is proposed.", "quantifier": "all search spaces, recorded points, request sizes, results of the search and draws of the sampler, with and without a trained surrogate", "why_tests_cant": "a test sees a few searches; whether a found point is kept depends on all recorded points, the other points of the batch and up to four random samples", "anchors": ["bayes_optim/base.py: BaseBO.ask, BaseBO.create_DoE, BaseBO.arg_max_acquisition", "bayes_optim/bayes_opt.py: BO.pre_eval_check"]}
