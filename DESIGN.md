# Formal model of Bayesian-Optimization (bayes_optim) in Lean 4

## Trusted base

* Lean 4.33.0's kernel, and Mathlib definitions used in statements (ordered fields, `List`, `Finset`,
  `Matrix`, `Real`, measure-free elementary notions).
* Axioms: only `propext`, `Classical.choice`, `Quot.sound` (printed by `Verif/Axioms.lean`).  No
  axiom of our own, no `sorry`, no `native_decide`, no `bv_decide`.
* The hand translation from Python to the Lean definitions.  Every model definition cites file and lines.

## Modelling conventions

* Floating-point numbers are modelled by an ordered field (`ℚ`, `ℝ` or any `LinearOrderedField`).  IEEE
  rounding is not modelled.  NaN and infinities are modelled explicitly where the code tests for them
  (`post_eval_check`).
* Randomness, the surrogate model, and user functions are *parameters*: theorems quantify over every
  value they may return, so they hold on every random outcome.
* Exceptions are values (`Except`/`Option`), and state updates done before a `raise` are kept.
* numpy arrays are lists; shape errors that the code can meet are modelled as exceptions.

## Per-property plan

| id | model | proof method |
|----|-------|--------------|
| C01 | `is_pareto_efficient` loop with shrinking list and cursor | loop invariant, spec = first occurrences of non-dominated points |
| C02 | mask function | direct, spec by quantifiers over indices |
| C03 | counters/fronts algorithm | invariant on counters; rank spec by strong induction |
| C04 | sort + sweep | refuted on ties (witness), `_partial` without ties |
| C05, C06 | cell lists from sorted front | induction over the front; coverage and disjointness of half-open cells |
| C07 | local upper bound update for m objectives | invariant by induction over inserted points |
| C08 | 2-D branch of the dimension sweep | induction, area of staircase union |
| C09 | scalar reflection | floor arithmetic |
| C10-C13, C16, C48 | state machine `ask/evaluate/tell/check_stop/run` | invariants by induction over operations |
| C14, C15, C47 | `create_DoE`, `ask`, `pre_eval_check` with arbitrary sampler/acquisition outcome | induction over the retry loop; C15 refuted for repeated batches, partial otherwise |
| C17-C19, C29 | variables, per-type sampling, rounding, chain steps | case analysis, induction over steps |
| C20 | real transforms over `ℝ` | analysis lemmas of Mathlib |
| C21, C22, C23, C45, C46 | search-space data model | list lemmas; witnesses where the code misbehaves |
| C24, C25 | rose trees | structural induction |
| C26-C28 | solution tables | list lemmas |
| C30 | restart loop | fold invariant |
| C31, C32 | population state machines | invariant over steps |
| C33 | matrices over `ℝ` | algebra |
| C34 | lists of constraint values | sums of non-negative terms |
| C35 | real sequences | powers / telescoping |
| C36 | decision logic over abstract cdf/pdf | algebra; witnesses |
| C37 | masks | induction on mask |
| C38, C39 | state machines with crash points | case analysis |
| C40 | sub-space scheduler | induction |
| C41 | column lists | counting |
| C42 | Euclidean geometry | Cauchy-Schwarz |
| C43 | transposition and Pareto filter | reuse of C01 |
| C44, C49, C50 | finite sums, lists | algebra, induction |
| C51-C54 | the same state machine; `Solution` metadata; data file as a list of rows | invariants by induction over operations; witnesses |
| C55, C56 | generator state threaded through `sample`; level lists | case analysis; witnesses |
| C57, C58 | `Node.to_dict/from_dict`, unconditional sub-spaces | structural induction |
| C59 | `fmin` front end | fold over the run |
| C60-C62 | dictionary forms of `Solution` | list lemmas |
| C63-C65 | inner evolution strategies | induction over iterations; matrix algebra |
| C66 | weighted surrogate sums | finite sums |
| C67 | interleavings of daemon processes | invariant over interleaved steps; witness of a race |
| C68 | global logger table | case analysis |
| C69 | dimension-sweep hypervolume with linked lists, caches and marks for any number of objectives | refinement of linked lists to lists; induction over dimensions; Lebesgue measure of unions of boxes |
| C70-C72 | box decompositions for any number of objectives | invariants over update histories; partition and measure |
| C73-C79 | acquisition functions, their gradients and how the optimisers build them | Gaussian integrals; derivatives; case analysis |
| C80, C81 | analytic EHVI | integral over cells, product measure; witnesses for the broadcasting |
| C82-C84 | multi-objective optimiser | induction over calls; witnesses |
| C85-C88 | PCA-BO maps, weights, penalised acquisition, `ask` | linear algebra with an SVD oracle; witnesses |
| C89-C94 | correlation functions, correlation matrix, derivatives | positive semidefinite kernels (Schur, Schoenberg), calculus; witnesses |
| C95 | Model gpr.py's factorisation, coefficients, prediction and MSE over real matrices with Cholesky and QR as specified routines; a process is any family of square-integrable variables with the right moments; complete the square in the transformed weights and use Bessel's inequality. |
| C96 | Same model with the noisy matrix; compute the gap between reported and true error; refute optimality with an explicit four-point probability space. |
| C97 | At a sample the unit weights have error zero, and the Cholesky factor makes them the only ones. |
| C98 | Apply positive semidefiniteness (C90) to the samples extended by the query point. |
| C99 | Carry the optimal weights of the smaller model over to the larger one. |
| C100 | Differentiate the model's mean and MSE and insert the derivatives of C93. |
| C101 | Model the likelihood in the three modes; write the Gaussian log density through the Cholesky factor, minimise first over the coefficients (QR projection), then over the scale. |
| C102 | Scale the data until the value is positive; with noise bound the determinant and the residual from below. |
| C103 | Differentiate determinant, inverse and quadratic form of a path of matrices (matrix calculus in `MatrixDeriv`), eliminate the coefficients by the envelope argument, compare with the code's formulas; two samples as counterexample. |
| C104 | Chain rule for powers of ten. |
| C105 | Model the restart loop over an arbitrary sequence of local results; loop invariant: the stored result is the latest best, the counter is the distance from it. |
| C106 | Model the rounds of `fit` over arbitrary search results; bound the likelihood by the noise (C102); for estimated noise scale the data. |
| C107 | Follow mode and noise through `fit`; two data sets as counterexample. |
| C108 | Determinant and quadratic form of the contrasts by block elimination with the trend columns; two samples as counterexample for a given trend. |
| C109 | Differentiate the value of C108 (matrix calculus), compare with the code's formula; counterexample at variance 2. |
| C110 | Model the state update with random numbers, ranking and eigendecomposition as arguments; bounds of all constants; induction over generations for positive definiteness. |
| C111 | The reflection of C09 for bounds in either order; the mean is a convex combination. |
| C112 | Induction over generations. |
| C113 | Model the Python test for leaving the loop; the flags are right but the test never reads them. |
| C114 | Apply C112 to the function handed over by `gpr.py`. |
| C115 | Model the wrapper with scikit-learn's regressor given by its attributes; derivative of the Matérn kernels as functions of the squared distance, extended to distance zero; invariant of the stored inverse over all histories. |
| C116 | Induction over the loop of `fit`; positive semidefiniteness of the kernel on the data and the new point bounds the variance. |
| C117 | Model the space as an object with its cached attributes; invariant over all histories of calls, with the state kept when a call raises. |
| C118 | Compare the executable membership test with a relational specification; `mapM` returns all-true iff each entry is. |
| C119 | Model attribute arrays as a store of buffers and a solution as rows with positions into one buffer; records of a view commute with taking positions, induction over chains of slices. |
| C120 | On the same store: positions of a chain of slices are distinct positions of the root; assignment through them changes exactly these cells. |
| C121 | Model the file as a list of characters and to_csv as a function on it; an independent reader splits at newlines and delimiters; induction over the history of calls. |
| C122 | Model dictionaries as association lists; lookup after update. |
| C123 | Model the vectorised Metropolis loop on the table of rows with its cached log probabilities; invariant by induction over coordinates and steps; a concrete batch for the overflow. |
| C124 | Acceptance probability as the Lebesgue measure of the accepted random numbers; detailed balance by cases; product bound over the constraints. |
| C125 | Model the stateful callable with its counter; closed form of every call by induction over the run; Taylor bound for central differences by two integrations of a derivative bound. |
| C126 | Model the overloaded arguments as sums and `_ready_args` literally; compare with what was asked for position by position; counterexamples for tuples as subset defaults, words among bounds and several Bool names. |
| C127 | Model the choice of optimiser, the reading of options and the dispatch in `argmax_restart`; case analysis over the features; counterexamples for named optimisers. |
| C128 | Model numpy's conversion of a list with tuples, `Solution` and the wrapper; compose with the fixed-variable wrapper of C37; counterexample with subsets of one size. |
| C129 | Model the alternation, the samplers and the collection of results over arbitrary random numbers; model numpy's treatment of uneven lists for the self-adaptive strategy, which always raises. |
| C130 | Model `Hessian` on top of the correlation and trend models, with the broadcasting of the error branches; differentiate the gradient of C93 and the trend; case analysis for when a matrix is returned; counterexample for the Matérn correlation at a sample. |
| C131 | Model both loops over lists of reals, including the write into the caller's array; algebra of sums for SMSE; equality with a specification by normal densities, and `log t ≤ t - 1` for MSLL. |
| C132 | Model the constructor, the checks and the conditions under which `fit` raises as one total function of the settings; exact characterisation by case analysis; witnesses for documented settings that raise and meaningless ones that are accepted. |
| C133 | Model the layout of the searched vector, its bounds on the logarithmic scale, the starting point and the splitting of the result; the contract of the bounded search is a hypothesis; induction over the lists of bounds. |
| C134 | Model `prior_cov` with Python's truth value of its second argument; entries by computation, validity of the matrix from C90; counterexamples for arrays and several targets. |
| C135 | Model the eight sampling methods as a function from the generation's random numbers to the columns of offspring; exact counts by case analysis on method and parity; pairing and orthogonality by linear algebra; counterexamples for odd sizes and for the methods that raise. |
| C136 | Model the stagnation statistics with reals; a potential (weighted statistic plus remaining gain) decreases by a fixed amount in every step, which bounds the number of steps; with restarts an invariant shows that the loop never ends. |
| C137 | Inductive set of reachable states over the same model; invariants for rate and step size; monotonicity of the exponential for the direction of the change. |
| C138 | Thread the state of the global generator through the restarted search and run the model of the (1+1)-CMA-ES inside it; independence of the initial state by induction; a run with a smaller budget is a prefix of one with a larger budget, so no restart improves on the first. |
| C139 | Model `tell` as a state change that keeps what was updated before a raise; induction over histories with errors; witnesses for the refuted parts. |
| C140 | Model the handling of each argument as a total function of a sum type of numbers; exact characterisation of what is used. |
| C141 | Model a parallel run as the writing of task results into slots in the order of an arbitrary schedule; a permutation of writes to distinct slots gives the sequential list; induction over steps. |
| C142 | Model the checks of the constructor and reuse the models of the search configuration (with the number of objectives it sees) and of fixed variables; exact outcome by case analysis; lists of blocks for the joint search. |
| C143 | Model `tell` on the state of the whole and its sub-optimisers, keeping updates made before a raise; induction over histories; witnesses for the refuted parts. |
| C144 | Put the models of `ask`, the restarted search, MIES, the (1+1)-CMA-ES and the samplers together into one function of the libraries and random outcomes; compose the theorems on the parts (C16, C17, C18, C14, C15 and those on the optimisers). |
| C145 | The same composed model, following a point from the component that tested it to the result of `ask`; a witness for rounding after the test. |
| C146 | The loop of `run` over the composed `ask`, `tell` and the stopping test, with the list of calls of the objective as ghost variable; one invariant, by induction over the steps. |
| C147 | Lebesgue measure on the matrix of draws; the preimage of a box under the sampler is a box whose sides are the shares (`measure_between`), product measure for the joint law; a bijection between tables of draws and tables of values for the other types. |
| C148 | The loop over batches with numpy's rule for assigning a table to a slice of a vector, the unbatched prediction an argument; case analysis on the quotient and the shape. |
| C149 | `ask` of `NoisyBO` with the exceptions of `Solution` and of numpy's addition as values; case analysis on the number of successful searches. |
| C150 | Histories of calls each made under its own settings; the stop flag characterised by induction over the history from its end, then the first test of the loop of `run`. |
| C151 | The setter of `search_space` and the constructor over names and types of variables; induction over the assignments, the index attributes through C22, the search settings through C127. |
| C152 | The run of C146; the points of different steps differ (C146), so a pigeonhole argument on a code of each point bounds the steps; the endless run by induction on the number of steps. |
| C153 | The run of C146 with the surrogate, its training data and the acquisition functions made from it explicit; the standardised values, the incumbent and every test commute with the change of units, then induction on the number of steps. |
| C154 | The same lemma with the negated units: standardisation, incumbent and acquisition functions (C36) under negation, induction on the number of steps. |
| C155 | The composed search of C144 with the evaluated points as ghost variables; the invariants of C31, C32, C63, C64 for one restart, then the budgets and the choice of the best restart through C30. |
| C156 | A run is split at its last step; invariant: the recorded data are the successful entries of the log; then induction on the number of steps, the two surrogates agreeing on the data of each step. |
| C157 | The run of C153; the data are the log (C156), the criterion handed to the search is the expected improvement (C73, C77), the search returns the best point it has evaluated (C155), which is what `tell` receives. |
| C158 | As C157, with the batch of acquisition functions of C78, the moments of C73 and the batch version of C155. |
| C159 | The run of C157 with a surrogate that predicts as the noiseless Gaussian process of C97 fitted to the log: zero error at the data makes EI zero there, and the maximiser of C157 has positive EI. |
| C160 | The run of C146; points of different steps differ (C15), so the numbering of the points behind C152 is onto after as many steps as there are points; the returned point is the best evaluated (C146). |
| C161 | The run of C153 with the temperature as extra state, updated by the callback after each search of the model; shown equal to a run of C153 in which the drawn normals are shifted by the logarithm of the ratio of the temperatures, so that C158 applies. |
| C162 | The process of C95 is assumed jointly normal (Mathlib's `HasGaussianLaw`); the optimality of the weights gives zero covariance of the error with the observations (or their contrasts), hence independence; the conditional law (`condDistrib`) follows by its uniqueness. |
| C163 | `condExp` is the integral with respect to the conditional law of C162, and C73 evaluates that integral. |
| C164 | Mathlib probability: the draws of one row are random variables on a probability space, each independent of the past (a filtration). The kernel of one cell update is in detailed balance with the target; by induction over the cell updates the law is invariant; a lower bound on a whole sweep gives a contraction in total variation. For real and integer variables clipping breaks it: an atom at the bound, and a swap argument for the difference of two geometric numbers. |
| C165 | `Model/MiesStrength`: individuals with their strengths, recombination, mutation, selection and generations of MIES; invariant by induction over the generations, refinement to `Model/Mies`, explicit random numbers for every target point, countability of the normal numbers that set a step size to 0; refutation by a run whose first steps are rounded away. |
| C166 | Mathlib probability: the draws are random variables; sums of independent normal numbers, a double geometric sum for the mean absolute difference, which the parameter of the geometric draws inverts (half-angle formula), exchangeability for the symmetry. |
| C167 | `Model/CmaEs.lean`; random numbers enter by their first two moments (`Spec/CmaNeutral.lean`); expectations of linear and quadratic forms of uncorrelated numbers (`Proofs/CmaNeutral.lean`); Gaussian counterexample at a bound |
| C168 | `Model/CmaEs.lean`; simulation of the two runs by a map of states that changes the best value only; uniqueness of sorting permutations of distinct values; Jensen and Chebyshev inequalities for the decreasing weights |
| C169 | `Model/GprShared`: the trend objects form a store of coefficients and models keep references; construction reads the store, training writes the estimated coefficients to it, prediction reads it again. For a model that is alone on its trend object: an invariant over arbitrary programs (before construction, before and after the last training) gives equality with a single model trained once. For a shared object: exact formulas of the shift, and a refutation with two models. |
| C170 | `Model/CmaEs.lean`, `Spec/CmaFrame.lean`; simulation: every part of a generation commutes with the conversion of states (the reflection at the bounds is affine, weights sum to one, sums over variables do not depend on their order, the covariance matrix stays symmetric). Unit: the limits 1e-16 and 1e6 on the step size are not converted, so the theorem assumes that they are not met, and a refutation computes a first generation that meets the lower one. |
| C171 | `Model/SpaceRound.lean`: argument as list or array with element type, class of the space; each call returns the result and the argument afterwards. By induction over the columns and rows; the two exceptions are refuted with a mixed space with a logarithmic variable. |
| C172 | `Model/OnePlusOneFull`: the models of points, matrices and stopping tests put together; simulation (refinement) to the models of C32/C64 and C136/C137 by induction over the passes; the inverse factor stays regular, so NaN appears only for a zero path; an explicit run with a restart in dimension one for the refuted parts. |
| C173 | The program of C172; every part of a pass commutes with the conversion of states by an orthogonal matrix and a shift (scalar products and outer products are converted, sums of squares are kept); permutation matrices for the order, the reflection at the bounds for the shift; induction over the passes. |
| C174 | two runs of `opoRun` related by an invariant (equal states up to the values, which are mapped by φ; the average change of the values stays non-negative on both sides), preserved by tell, check and restart; refutation with default tolerances by following a one-dimensional run through six passes |
| C175 | `Model/MiesFull` puts `optimize` together with `stop`: counters, ring buffer `histfunval`, `stop_dict` flags and the last offspring values on top of `Model/MiesStrength`. `Spec/MiesFull` says when a run should end from the list of evaluations alone. Proved by induction on the passes, with the invariant that the ring buffer holds the values of the last generations; best point by refinement to C31 and C165. |
| C176 | Simulation between the run and the run on the transformed objective (`Spec/MiesOrder.SameRun`), pass by pass; selection commutes with the transformation. Refuted by a concrete run when the number of offspring divides the number of parents. |
| C177 | On top of `Model/Gpr`, `Model/Likelihood`, `Model/Kernels`, `Model/Trend`. Permuting the samples conjugates the matrix by a permutation, a change of coordinates changes the trend basis by an invertible matrix (monomials of degree ≤ 2 are linearly independent and their span is invariant). The predictor is the unique minimiser of a strictly convex function among unbiased weights, which is transported; the likelihood depends on the smallest residual and the determinant only. |
| C178 | On top of C80 (the value is the expected gain in hypervolume): the gain is the volume of a region that grows with the outcome and shrinks with the recorded outcomes, the normal laws for two means are translates of each other, and the region above the limit has positive probability. |
| C179 | `Model/MiesFull` and its parts; one relation per kind of variable between two descriptions of it (`Spec/MiesFrame`), each operator commutes with the translation because reflection at the bounds is affine and keeps whole numbers whole, the counts of variables agree and selection looks at the values alone; induction over the passes. Fractional integer bounds: a run of one pass as counterexample |
| C180 | `Spec/RunFrame.lean` says what a point, record, optimiser and outcome look like in the new terms and when two worlds do the same in two descriptions; `ask`, `tell`, `check_stop`, `xopt` and `fullRun` commute with the change, by induction on the steps with the invariant that all records are among the points told apart; the refutations follow from `np.isclose` identifying all values of a variable |
| C181 | `Spec/DataOrder.lean`: same observations as a permutation of the recorded pairs, a surrogate that is free of the order, a Gaussian process as a whole (likelihood seen by the search, fit, predictions, gradients); statistics of the values, incumbent value, duplicate check and acquisition functions are invariant, so `ask`, `check_stop`, `tell` and by induction `run` agree; histories by the records `tell` leaves; the process by conjugating the correlation matrix with the permutation (`Proofs/GprOrder`, `Proofs/DataOrder`) |
| C182 | Stores of dictionaries and surrogates that optimisers refer to, calls by hand for named optimisers (`Model/SideBySide.lean`); a two-world invariant (`Agree`) shows that calls for others leave the footprint of an optimiser alone, so a program can be reduced to the calls for one optimiser; refuted for the shared default dictionary (a ParallelBO for UCB makes every default ParallelBO raise) and for a shared surrogate |
| C183 | `Model/MoboRun`: the whole run of MOBO over an open proposal that sees what the surrogate and the partitioning are made of. One simulation lemma for a change of outcomes, instantiated by units (min-max scaling cancels positive affine maps) and by relisting (everything is coordinate-wise). Direction and order of observations through the characterisation of the front of C43. Tiny ranges, direction of the reference point and tied observations refuted. |
| C184 | `Model/Checkpoint`: a transition system whose instants are the loop, the contents of the file while `save` runs (opening empties it), no process, and the end; crashes are possible everywhere, a restart uses the modelled `load`. Invariant: memory and file hold states of the run without interruption (`Course`), by C38 and by the independence of a step from the data file. Progress refuted for one file, proved for two files in turn by a second transition system. |
| C185 | Whole multi-objective runs are `moRun` (C183). An invariant over the steps says that the records are the evaluated points with their outcomes and that the counter counts them; the front at the end is that of the records by the facts proved for C183, and the specification (`Spec/MoboWhole.lean`) states it over the points evaluated and the objective functions only. |
| C186 | `Model/Workers`: a transition system of an optimiser and the points in the hands of its workers, with events take, rest, deliver and die in any order; calls are atomic. The state of the optimiser is that of a history of calls (C10, C11, C13); conservation of points as a permutation, budget by an invariant over evaluations delivered and under way, with a schedule that reaches the bound. Points under evaluation are unknown to `ask`: refuted by two workers that get the same point. |
| C187 | `Model/Seeding.lean`: the state of numpy's global generator threaded through `create_DoE`, the batch parameters and whole runs, restarted by every slicing of the space, from the seed of the space or from the entropy of the operating system. Seeded spaces: designs (`c187_design_seeded`) and runs (`c187_run_seeded`) are functions of the seed, by induction on rounds and steps. The seed of the optimiser has no influence (`c187_random_seed_ignored`, `c187_run_ignores_random_seed`), a witness shows that runs differ (`c187_not_reproducible_refuted`); draws repeat (`c187_designs_repeat`, `c187_temperatures_repeat`). `c187_refines` relates the design to C14/C15. |
| C188 | `Model/ConditionalRun.lean`: the loop of `run` around the choice of sub-spaces (C40) and `tell` (C143), with the calls of the objective recorded. Invariant between two steps, by induction on the steps: records (`c188_records`), budget in every ending (`c188_budget`), end (`c188_ends_partial`), result (`c188_returned`), exploration (`c188_explored`, `c188_all_explored`). `c188_failures_refuted`: a run that never ends. |
| C189 | `Model/PcaboRun.lean`: the loop of `run` around `tell` of C139, with the calls of `tell` recorded. The state of a run is the state after the history of its calls, so that C139 applies; budget and end by induction on the steps (`c189_records`, `c189_budget`, `c189_ends`, `c189_returned`, `c189_raises`). `c189_single_point_refuted`: a design of one point. |
| C190 | `Model/ForestTree.lean`: regression trees with arbitrary splits and leaves holding training samples, below `predict` of C44. Range and units by induction on the tree, the variance bound from the identity for the sample variance; renaming by comparing the encodings. |
| C191 | Model/Retry: the loop around step() with exceptions of ask, objective, model as values; induction over the attempts; case analysis of tell for the state after each exception. |
| C192 | On the model of C124/C164, with Φ the standard normal distribution function (`Proofs/Normal.lean`). The tail bound Φ(-8) ≤ φ(8)/8; feasible rows weigh at least 2^-K, violating ones at most Φ(-8); then the convergence theorem of C164 for the row. |
| C193 | `Model/Recommend.lean`: programs that call tell, check_stop, recommend and write to the returned objects; tables and rows are numbered to model shared memory. Simulation by induction on the program. |
| C194 | `Model/CallerArrays.lean`: objectives that return a value and what became of their argument; programs that overwrite earlier arguments, with the one array that can be the data table. Case analysis and simulation by induction on the program. |
| C195 | On the sampling model of C17, with the Latin hypercube promise of pyDOE as hypothesis on the generator. The column of a real variable is found in the mixed table, its position on the scale is the draw; gaps by counting, distinctness by the pigeonhole principle. |
| C196 | `Model/Recovery.lean` adds the surrogate (flag and learned attributes) to the model of `tell`, with the place where `fit` raises as an oracle, for the three surrogate classes; induction over histories of calls; the failures by concrete histories. |
| C197 | The model of `ask` and `create_DoE` (`Model/Ask.lean`) with a sampler that delivers what is requested; the loop is unfolded round by round, the duplicate check is characterised exactly; the failures by the tolerance of the check. |
| C198 | `Model/Mobo.lean`; the outcome of least total cost among those that beat a given one is not dominated, so the front covers the records, and records only grow; the failure by three outcomes and a rounding to 24 digits. |
| C199 | The model of `ask` (`Model/Ask.lean`) and C15: every proposed point differs from the recorded ones by more than the tolerance; points that differ lie in different cells of a grid, whose cells are counted (pigeonhole in any dimension). |
| C200 | The model of `ask` (`Model/Ask.lean`); for one point the duplicate check keeps exactly the new points, so the rounds of the design are followed by induction; the failure by a batch that contains the same point twice. |

Where the code violates the natural property, the negation is proved with a concrete witness, the part
that does hold is proved under a name ending in `_partial`, and the disagreement is recorded in the status
table below.  A property with status "partial" is in almost all cases one that is false of the code as
stated: the note names the refuting theorem.

## Layout

* `lean/Verif/Model/*.lean`: the model, one definition per function or block of the code, each with file and lines.
* `lean/Verif/Spec/*.lean`: what the properties mean, without reference to the model's helpers.
* `lean/Verif/Proofs/*.lean`: lemmas.
* `lean/Verif/Props/*.lean`: the property theorems `cNN_...`, with examples that meet their hypotheses.
* `lean/Verif/Axioms.lean`: prints the axioms of every property theorem while building.
* `seeded/LOG.jsonl`: wrong programs tried against the theorems.

## What is modelled

| code (under `bayes_optim/`) | model | left out |
|---|---|---|
| `_base.py`, `base.py` | `Optimizer`, `Ask`, `AskFull` and `FullRun` (all parts together), `Construct`, `Evaluate`, `InnerSearch`, `ConstraintCall`, `SaveLoad`, `Annealing` | text of log messages, `joblib` beyond its contract (one result slot per task), `dill` internals |
| `__init__.py` (`fmin`) | `Fmin` | argument defaults |
| `bayes_opt.py` | `Ask`, `AskNoisy`, `Acquisition`, `Batch`, `Annealing`, `Conditional` | choice of threads in batches |
| `extension.py` | `Pcabo`, `PcaboTell`, `Conditional`, `ConditionalTell`, `Batch` | `KernelPCABO` (not in this commit), plotting |
| `mobo.py` | `Mobo`, `MoboPropose` | the acquisition search of `MOBO_qEHVI` (never reached, see C142) |
| `acquisition/acquisition_fun.py` | `Acquisition` | numerical branches on overflow |
| `acquisition/optim/__init__.py` | `ArgmaxRestart`, `Penalized`, `FixedSeed` | scipy's L-BFGS-B (an oracle) |
| `acquisition/optim/mies.py` | `Mies` | verbose output, plotting |
| `acquisition/optim/one_plus_one_cma_es.py` | `OnePlusOne`, `Cholesky`, `Stagnation`, `FixedSeed` | verbose output |
| `multi_objective/analytic.py` | `Ehvi` | torch batching beyond the shapes met in the library |
| `search_space/*.py` | `Variables`, `SearchSpace`, `Node`, `Sampling`, `BoxConstraint`, `SpaceEdit`, `TypedSpace`, `Metropolis` | Latin hypercube and Sobol designs (oracles), `print` forms |
| `solution.py` | `Solution`, `SolutionView`, `Csv`, `Optimizer` | file system, quoting |
| `surrogate/random_forest.py` | `RandomForest` | scikit-learn's trees (oracles) |
| `surrogate/gaussian_process/trend.py`, `kernel.py`, `gpr.py`, `utils.py` | `Trend`, `Kernels`, `Gpr`, `Likelihood`, `GprFit`, `GprHessian`, `GprConfig`, `PriorCov`, `Scores`, `PredictBatch` | Bessel-function Matérn, see below |
| `surrogate/gaussian_process/cma_es.py`, `boundary_handling.py` | `CmaEs`, `CmaSampling`, `BoxConstraint` | recording of the history, restarts (never reached, see C113) |
| `surrogate/gaussian_process/__init__.py` | `SkGpr` | training inside scikit-learn (an argument), the bounds of the length scales |
| `utils/utils.py`, `utils/_daemon.py`, `utils/logger.py` | `PartialArgument`, `Penalty`, `Selection`, `BoxConstraint`, `Daemon`, `SaveLoad` | |
| `utils/multi_objective/*.py` | `Pareto`, `Hypervolume`, `MultiList`, `LocalUpperBounds`, `BoxDecomposition` | batched tensors |

Not modelled: `benchmark/`, `example/`, the test directories, numerical rounding, memory and time.


## Status of every property

Generated from `MANIFEST.json`; the theorem names are listed there.

| id | title | status | what is proved, what is refuted |
|----|-------|--------|------|
| C01 | Pareto filter is exact | proved | Exact characterisation of indices and mask for every list of vectors over a linear order (NaN excluded). |
| C02 | Non-domination mask for maximisation is exact | proved | Non-batched n x m tensors; both values of deduplicate. |
| C03 | Non-dominated sorting yields the true ranks | proved | Ranks by longest domination chain; partition, first front and peeling as separate theorems. |
| C04 | Two-objective front extraction keeps only non-dominated points | partial | Completeness for all inputs and any argsort; soundness only when first objectives are distinct; c04_false_on_ties refutes soundness on ties; in-place negation of the caller's array stated. |
| C05 | 2-D non-dominated cells partition the improvement region | proved | Every history of constructor and update calls with two objectives, every sorting function; exact partition of real vectors (cells open below, closed above). |
| C06 | 2-D dominated cells partition the dominated region and sum to the hypervolume | proved | Every sorted, mutually non-dominated front at least as good as the reference point; areas add up to the Lebesgue measure of the dominated region. |
| C07 | Local upper bounds characterise the non-dominated region in any dimension | proved | Any number of objectives (at least two), ties included; also for incremental processing and for the bounds stored by the class. |
| C08 | Exact hypervolume in two objectives | proved | Two objectives, any finite list of rows: equal to the Lebesgue measure of the union of boxes. |
| C09 | Reflection repair always lands in the box and fixes interior points | partial | Per-coordinate repair is the unique reflected point, for finite, half-infinite and infinite bounds; batches are correct only when they have another number of rows than columns (c09_square_batch_misaligned shows square batches get the bounds of the wrong axis). |
| C10 | Evaluation budget | proved | Budget: exact evaluation counts after any history, loop termination, exact overshoot; run over arbitrary batches, values and model failures. Budget 0 is read as unlimited (c10_zero_means_unlimited). |
| C11 | Incumbent is the best recorded point | proved | After any history including failed calls; first among ties. |
| C12 | Convergence history is monotone and complete | proved | One entry per completed non-warm call, each the best so far; monotone. |
| C13 | Every finite observation is recorded once, nothing else | proved | Exact content of data after any history. |
| C14 | ask honours the request size, the search space and fixed values | partial | Size, dimension, fixed values and membership of the free coordinates, assuming the sampler (C17, C18) and the acquisition optimiser (C30) deliver points of the free sub-space and the fixed values are unchanged by rounding. Refuted otherwise: c14_fixed_value_rounded (initial design rounds fixed values), c14_zero_request (ask(0) returns one point). c14_errors lists the possible exceptions. |
| C15 | Noiseless optimiser never re-proposes evaluated points | partial | Never equal to a recorded point, for any sampler and optimiser; the duplicate check keeps exactly the points that differ from all others. Within a batch only the points of one check are pairwise different; refuted across checks by c15_duplicates_across_samples and c15_topup_duplicates. |
| C16 | Target value stops the run exactly when reached | partial | Holds for minimisation; refuted for maximisation (c16_false_when_maximising). |
| C17 | Samples belong to the search space | partial | All mixes of variables, seeds and generator states; refuted for logit scales with upper bound 1 and integer variables with fractional bounds; sampling zero points or an empty space raises. |
| C18 | Constrained samples are feasible | proved | For every choice made by the generator; feasibility, size and completeness of the result. np.isclose(/h/,0,atol) is /h/ <= tol because rtol multiplies 0. |
| C19 | Rounding to a precision stays in bounds, is idempotent and does not touch its argument | partial | Rounding stays in bounds, is nearest, idempotent inside the grid; idempotence refuted when a bound is off the grid. |
| C20 | Scale transforms invert each other on the domain | proved | Exact inverses and monotonicity for all five scales; a default value outside the scaled bounds is accepted (shown as a remark). |
| C21 | Variable names of a space are unique | partial | Exact renaming rule for every list of distinct variable objects; uniqueness unless a name is a repeated name followed by digits (refuted there) or the same object occurs twice (refuted for A += A). |
| C22 | Type index sets partition the coordinates | partial | Index sets exact for every list of types; the masks omit Subset variables (refuted). |
| C23 | Space algebra | partial | Contents, order and names of +, +=, -, -=, *, *=, filter and one-variable update for spaces without conditions; refuted: + with conditions raises, + renames the operand's variables, *= 1 doubles, update depends on set order and raises. |
| C24 | Condition-tree surgery | partial | invert=True exact; invert=False and deepcopy always return None (proved). |
| C25 | Condition paths enumerate the tree | proved | Exact content of the path dictionary for every tree with an edge and every set iteration order; names in pre-order. |
| C26 | Solutions concatenate row-wise with their metadata | partial | Proved when both sets list the variables in the same order; refuted for permuted columns (c26_permuted_columns). |
| C27 | Dictionary export/import of solutions round-trips | partial | Proved for distinct names and, for a 1-D point, a non-tuple first value; refuted for a 1-D point starting with a tuple. |
| C28 | unique keeps first occurrences in order | partial | Proved when numpy's conversion of the table to one type keeps different rows different; refuted otherwise (c28_conversion_merges). |
| C29 | Constrained random walk never leaves the space | partial | Any number of iterations; refuted for level lists mixing strings and numbers; Subset variables raise; integer steps are ignored. |
| C30 | Restarted acquisition optimiser returns its best feasible restart | partial | Early stopping, emptiness and the best value are proved for all inner optimisers; with NaN acquisition values the NaN result wins (c30_nan_wins), and restarts that end infeasible are not charged to the budget (c30_infeasible_restarts_free). |
| C31 | MIES keeps its population valid and its best-so-far monotone | partial | Population invariant for integer-valued bounds of integer variables; c31_float_bounds_leave_space refutes it otherwise; the step of integer variables is ignored (c31_step_ignored). |
| C32 | (1+1)-CMA-ES is elitist and bounded | partial | Box, elitism and feasibility of xopt for all runs including restarts; the parent has the recorded value only without restarts (c32_restart_parent_mismatch), and a better feasible point can go unrecorded (c32_feasible_point_lost). |
| C33 | Cholesky factor and its inverse stay consistent | partial | Exact update and inverse over the reals for any number of updates with non-zero path; a reset keeps a stale inverse (c33_reset_breaks_inverse) and a zero path gives NaN (c33_zero_path_nan). |
| C34 | Dynamic penalty separates feasible from infeasible | partial | Zero iff feasible, sign and monotonicity for points that do not start with a collection and for batches; c34_subset_point_split shows a single point starting with a tuple is split. |
| C35 | Annealing schedules hit the end temperature | partial | Exponential and linear schedules are proved for an instance with its own parameter dictionary. The default dictionary is shared between instances (c35_default_dictionary_shared) and the logarithmic schedule does not end at its end value (c35_log_misses_end), so the full property is false of the code. |
| C36 | Acquisition values are direction-consistent | partial | Direction consistency is proved for all classes, for the constructors and for the whole chain observations, standardisation, plugin, acquisition function (also the one for noisy objectives). Four of the five classes construct with defaults; PI never does (c36_pi_never_constructs), because it passes epsilon = 0 to a setter that asserts epsilon > 0. |
| C37 | Fixed-variable wrapper evaluates the full point | partial | Proved for single points, for batches whose size equals the number of free variables, and for the reduction of array-valued gradients. Every other batch is refused or evaluated the wrong number of times (c37_batch_fails, c37_batch_witness). |
| C38 | save/load round-trip | partial | Round trip proved when serialisation succeeds. A failing dump leaves the optimiser corrupted for good (c38_failed_dump_corrupts) and a file-only logger gains a console handler in a new process (c38_file_logger_gains_console), so the full property is false of the code. |
| C39 | Daemon pid-file protocol | partial | Status, refusal of start and idle stop proved for readable pid-files. False: stopping a running daemon raises (c39_stop_running_raises), unreadable pid-files raise (c39_garbage_raises), stale files block start (c39_stale_file_blocks). |
| C40 | Conditional optimiser visits every sub-space and stores complete points | partial | Sub-space schedule over every history; complete points from ask; tell passes on all values when these are truthy; refuted for 0/False/empty values and for conditions comparing with 0. |
| C41 | Trend basis sizes | proved | All three trends: the columns are exactly the monomials of the trend, each once, in the stated number; shape check; value with coefficients; Jacobian of the constant and linear trend. |
| C42 | PCA-BO search box contains the transformed domain | proved | Any orthonormal components; the SVD is an oracle. |
| C43 | Multi-objective evaluation keeps points and objectives aligned | partial | Evaluation keeps the objectives aligned with the points; every point in xopt is efficient and the non-dominated points with distinct outcomes are in xopt. Missing and refuted: points whose outcome equals an earlier one are dropped (c43_xopt_drops_equal_outcomes), and outcomes that differ by less than single precision are merged (c43_xopt_rounding). |
| C44 | Random-forest encoding and aggregation | partial | Encoding: total exactly on admissible rows, fixed width, injective. Prediction: mean and unbiased variance for every thread order with at least two trees. One tree gives a NaN variance (c44_single_tree) and a changed n_estimators averages over zeros (c44_stale_count), so the full property is false of the code. |
| C45 | Search-space specification from a dictionary | partial | Exact result for entries with known types, no default, no conditions and no step on repeated integers; refuted for defaults (always raises), conditions (dropped), steps, unknown types, to_dict output. |
| C46 | Equality and hashing agree | partial | Equal variables with equal precision, scale and step have equal hash tuples; refuted otherwise. |
| C47 | Minimiser front end reports every trial point once | partial | Groups after the first are exactly the batches of the later iterations. Refuted for the first group: c47_initial_design_missing (the initial design is missing and later points appear twice). |
| C48 | Warm start counts no evaluations | partial | Accepted warm data behave as stated; acceptance proved for typed list data, refuted for dict mode, Solution arguments and Boolean values. |
| C49 | Analytic expected hypervolume improvement factorises over cells | proved | For a single point. |
| C50 | Proportional selection returns valid, distinct indices | partial | Proved for scores that are not all equal and a draw that is not exactly zero; c50_fails_on_ties and c50_zero_draw refute the rest. |
| C51 | Evaluation counter of recorded points | partial | Holds in dict mode; refuted in list mode where the counter is always 2. |
| C52 | Labels of recorded points | partial | Explicit labels stay attached; default labels repeat across calls. |
| C53 | Data file mirrors the data | partial | Holds when no call raises; refuted after FlatFitnessError. |
| C54 | Flat objective detection | proved | Exact condition and the consequence for constant objectives. |
| C55 | Seeding makes sampling reproducible | partial | Spaces of one type draw from the current generator; for mixed spaces the result ignores the generator state, so seeded samples repeat and unseeded ones cannot be reproduced. |
| C56 | Levels of categorical variables | proved | Level lists and the enumeration of subsets. |
| C57 | Condition trees survive the dictionary form | partial | Round trip for trees with distinct names and enough recursion depth; refuted for repeated names and for re-applied structures (children doubled). |
| C58 | Unconditional sub-spaces hold exactly the active variables | partial | Exact set of entries and their variables; only active variables appear; refuted: active variables on shorter paths are missing, and a tree reduced to its root raises. |
| C59 | fmin reports the best point and the true counts | partial | Best pair and iteration count for all runs; the evaluation count is right unless x0 gives points without values (c59_warm_calls_not_reported). |
| C60 | Solutions imported from dictionaries keep values under their names | partial | Proved when all dictionaries list the keys in the same order; refuted otherwise. |
| C61 | Label-keyed export keeps every row | partial | Proved for distinct labels; refuted for repeated labels. |
| C62 | Repeating a solution | partial | Proved for 1-D solutions; a 2-D solution with one row raises. |
| C63 | Inner evolution strategy terminates within its budget | proved | Termination and budget for every random outcome. |
| C64 | The (1+1)-CMA-ES respects its budgets | partial | Termination and evaluation budget proved; the limit on restarts is refuted (c64_restart_limit_ignored) and the overshoot of two is attained. |
| C65 | Both variants of the (1+1)-CMA-ES adapt the same covariance | partial | Equality for sequences of updates with non-zero path and no reset; positive definiteness of the base class for all sequences. |
| C66 | Aggregated surrogates predict the weighted sum | partial | Proved for the weighted sum; aggregation='Tchebycheff' passes the constructor but can never predict (c66_tchebycheff_unusable). |
| C67 | At most one daemon | partial | Proved for histories in which start requests do not overlap; c67_race refutes the general statement. |
| C68 | The log goes where the constructor was told | partial | Proved for a logger name not used before; c68_shared_name refutes the rest. |
| C69 | Hypervolume in any number of objectives | partial | Exact for one and three objectives and any rows, and for any number of objectives when no two rows tie in an objective or with the reference point (caches, bounds and skip marks included). Refuted with ties: c69_order_of_rows_matters (five objectives, mutually non-dominated rows) and c69_dominated_row_lowers (four objectives). The linked lists are shown to be restored exactly. |
| C70 | FastNondominatedPartitioning is exact for any number of objectives and any history of updates | proved | Non-batched tensors; real outcomes, infinite cell bounds; any sequence of calls and any argsort. |
| C71 | NondominatedPartitioning is exact for any number of objectives and any history of updates | proved | Non-batched tensors; real arithmetic; any argsort and argmax; termination proved with a fuel bound. |
| C72 | compute_hypervolume of the partitionings is the hypervolume | proved | Real arithmetic, non-batched tensors. The cell bounds read as reals are shown to be finite below. |
| C73 | Acquisition values are the expectations they are named after | partial | Real arithmetic; scipy's normal density and distribution function are the exact ones. EI and MGFI agree with the integral above their cut-off for small standard deviations; below it they return 0, which is wrong for a mean better than the plugin (c73_ei_wrong_when_certain). |
| C74 | A better prediction is not ranked lower | partial | Proved for EI, MGFI and EpsilonPI with epsilon at most 1. UCB ranks candidates the wrong way round in both directions (c74_ucb_ranks_backwards), EpsilonPI does for epsilon above 1 (c74_epsilon_pi_ranks_backwards). |
| C75 | Uncertainty is rewarded | proved | Real arithmetic. |
| C76 | Acquisition gradients are derivatives of the returned values | proved | Real arithmetic, one coordinate at a time. UCB and EpsilonPI divide by zero where the variance vanishes (c76_ucb_gradient_undefined). |
| C77 | The user's acquisition parameters are used | partial | Refuted for the single-point strategy, which passes an empty dictionary (c77_single_ignores_parameters, c77_single_wrong_parameter). The defaults and the plugin are as claimed. For batches see C78. |
| C78 | Batch strategies can always build their acquisition functions | partial | Holds for MGFI and for UCB with a dictionary of its own. Refuted for UCB with the default dictionary, for EpsilonPI, for EI and PI, and without the keyword model. |
| C79 | Acquisition functions evaluate arrays row by row | partial | Refuted for all classes but UCB (c79_arrays_fail). |
| C80 | The analytic EHVI is the expected gain in hypervolume | proved | Reals instead of floats. The code replaces an infinite upper bound by 1e10 for one objective side and the variance floor is kept; the theorem states the value with this cap and c80_approximation_from_below bounds the truncated value. |
| C81 | EHVI of several points is the EHVI of each | partial | Refuted for arrays (c81_arrays_mispaired, c81_arrays_wrong, c81_arrays_fail): cells and points are broadcast against each other. Only a single point is right (C80). |
| C82 | Multi-objective evaluation and iteration counts | proved | Induction over the sequence of tell calls; any number of objectives and batch sizes, failing calls included. |
| C83 | Failed multi-objective evaluations are dropped and the run goes on | partial | Refuted: any failed value raises (c83_failed_value_raises). Proved for batches of finite values (c83_finite_recorded_partial). |
| C84 | The reference point is not better than recorded outcomes | partial | Refuted for minimised objectives and positive values (c84_reference_above, c84_front_ignored). Proved where the sign is favourable (c84_reference_below_partial). |
| C85 | Reduced coordinates survive the round trip | proved | Any dimension and number of kept components; the SVD is an oracle returning orthonormal components. |
| C86 | PCA-BO weights rank the data | proved | At least two recorded points; with one the quotient is 0/0 (c86_single_point). |
| C87 | The penalised acquisition is faithful inside and a distance outside | partial | Value and gradient proved; preference of inside points proved for acquisition functions that are not negative, refuted otherwise (c87_negative_acquisition). |
| C88 | PCA-BO proposes points of the search space | partial | Proved for exact maximisers of a non-negative acquisition function; refuted in general (c88_proposal_outside). |
| C89 | Correlations are normalised, bounded and decreasing | proved | Model/Kernels.lean models kernel.py 160-466 over the reals (nu = 0.5, 1.5, 2.5). All five correlations, any dimension and number of samples. |
| C90 | Fitted matrices are correlation matrices | proved | Proved through a self-contained development of positive semidefinite kernels (Proofs/PosDefKernel.lean: Schur products, Schoenberg's theorem, mixtures over scales), for every number of samples and dimension. |
| C91 | Every offered correlation is a valid covariance | partial | Refuted: the cubic correlation (ten equally spaced samples) and the generalised exponential with exponent 4 (three samples) give matrices with a negative variance. The others: C90. |
| C92 | A single correlation parameter works in any dimension | partial | Holds for four of the five correlations; the documented isotropic form of generalized_exponential raises IndexError for every n >= 2. |
| C93 | Correlation gradients are derivatives | partial | Holds for the squared exponential everywhere, Matern 3/2 away from samples, absolute exponential where differentiable. Refuted: at any sample the Matern gradient is replaced by zeros for all samples; generalised exponential and cubic raise. Hessian: squared exponential with one parameter per coordinate only. |
| C94 | Parameter gradients of the correlation matrix are derivatives | partial | Holds with one parameter per coordinate. Refuted for one parameter and two coordinates: slice 0 is not the derivative. |
| C95 | Without noise the Gaussian-process prediction is the best linear unbiased prediction and its error is reported correctly | proved | General matrices for the correlations; scipy's Cholesky and QR are arbitrary routines meeting their specification, arithmetic is exact. |
| C96 | With noisy observations the prediction is still the best one and its error is reported correctly | partial | Refuted in noisy mode: the code compares with the unscaled correlation vector, so the prediction is not best and the reported error is too small by noise*w'Rw (c96_noisy_unbiased_partial gives the exact gap, c96_noisy_not_best a process where the error is 1 and the code reports 0). What holds: it is linear and unbiased. |
| C97 | Without noise the Gaussian process interpolates its data | proved | Every correlation type with positive parameters, every trend; exact arithmetic. |
| C98 | The predicted error is never negative and, with a known trend, never exceeds the process variance | proved | All correlations that are valid covariances (not cubic, exponent at most 2). |
| C99 | More data never make the Gaussian process less certain | proved | Hyper-parameters are held fixed, as when update() would keep them; all valid correlations. |
| C100 | gradient() returns the derivatives of what predict() returns | partial | Proved for the squared exponential everywhere and for the Matern and absolute exponential correlations away from the samples (where the coordinate differs, for the latter). Refuted at the samples for the Matern correlation: the reported mean gradient ignores all data there. The other correlations offer no gradient (c93_no_gradient). |
| C101 | The likelihood that hyper-parameters are chosen by is the maximal Gaussian likelihood | proved | All three estimation modes, given or estimated trend; the constant is explicit in the proof and zero unless a trend is estimated without noise. Rejected (minus-infinite) values are C102. |
| C102 | Valid hyper-parameters are not rejected | partial | Refuted: likelihoods above 0 are taken for invalid, although densities exceed 1 as soon as the observations are small; for every data set there is a unit of measurement in which every noise-free evaluation is rejected. Proved: with known noise of variance at least 1/(2 pi) nothing valid is rejected. |
| C103 | The gradient of the likelihood is its derivative | partial | Proved: no noise with given trend (also end to end from the correlation parameters, for the correlations with a right parameter gradient), unknown share of noise (both kinds of parameters), known noise for the variance component. Refuted: no noise with an estimated trend (the exact error is given; it is the rank of the trend over two times a quadratic form), and known noise for the correlation parameters (too large by the factor (sigma2 + noise) / sigma2). |
| C104 | The optimiser of the hyper-parameters receives the gradient of its objective | partial | Refuted: the factor param * ln(10) of the chain rule is missing. Proved: the exact relation, and that every component has the right sign (and so the right zeros). |
| C105 | The restarted hyper-parameter search returns the best parameters it met | proved | Ties: the later of equally good searches is kept and counts as an improvement. With random_start = 0 the search fails (c105_zero_restarts_fail: UnboundLocalError); the L-BFGS-B calls are oracles. |
| C106 | fit() ends | partial | Refuted for noise_estim=True (c106_noise_estim_never_ends: in a small enough unit of measurement no round succeeds, and raising the nugget has no effect in this mode). Proved: with a positive nugget, or none, the loop ends, the latest when the nugget reaches 1/(2 pi); with the default nugget within seven rounds. |
| C107 | Fitting a model again is like fitting a new one | partial | Refuted (c107_refit_refuted): after one fit in which the nugget was raised, mode and noise stay changed. Proved: unchanged when the first search succeeds, and the exact evolution of the noise. |
| C108 | The restricted likelihood is the likelihood of the error contrasts | partial | Refuted for given coefficients (c108_given_trend_refuted; c108_given_trend_exact gives the error: the log determinant has the wrong sign). Proved for estimated coefficients. In this commit fit() with likelihood='restricted' always raises afterwards (line 405 takes len of a number); the theorems are about the likelihood function. |
| C109 | The gradient of the restricted likelihood is its derivative | partial | Refuted (c109_restricted_gradient_refuted): the trend term lacks the division by the total variance. c109_restricted_gradient_exact gives the exact relation in all cases with an estimated trend; proved equal at total variance 1 without noise. |
| C110 | The covariance adaptation keeps a valid search distribution | proved | Positive definiteness is proved for the default population (the only one the library uses); the bounds on the parameters hold for every population of at least two. eigh and argsort are oracles with their documented results. |
| C111 | The covariance adaptation evaluates only points of its box | proved | For bounds that differ; equal bounds give NaN (see C09). |
| C112 | The covariance adaptation reports the best point it evaluated | proved | For objectives with finite values. |
| C113 | The covariance adaptation stops | partial | Refuted (c113_never_ends): under Python 3 the test array(stop_dict.values()) == True compares the dictionary view itself, so the loop is never left. Proved: the flags themselves are right. |
| C114 | The CMA option maximises the likelihood | partial | Refuted (c114_refuted, c114_smallest_likelihood): is_minimize=False negates an objective that is already the negative log likelihood, so the smallest likelihood is kept. |
| C115 | Gradients of the wrapped scikit-learn regressor | partial | Proved after every history, at every point, for at least two variables or a single row (c115_gradient_partial); the kernel gradient is right for all Matérn kernels. With one variable and several rows the call raises (c115_one_variable_raises, c115_refuted: np.squeeze drops the axis). The RBF branch of kernel_dx, which fit never selects, lacks a factor (c115_rbf_wrong gives the exact set where it is right). |
| C116 | Fitting the wrapped scikit-learn regressor | partial | Proved for calls that return and for calls rejected by the dimension check. A call that raises while training a later objective destroys the model while is_fitted stays True (c116_refuted). |
| C117 | The attributes of a search space agree with its variables after every edit | partial | Names, types, bounds and index arrays agree after every history without a list assignment that raises half way; the class agrees after histories without item assignments for variables without conditions; pop and remove take out exactly the addressed variable. Refuted in general: item assignment leaves the class (a RealSpace with an integer variable cannot be sampled), a list assignment that raises leaves data and names apart, an emptied space keeps its index arrays. |
| C118 | A list or dictionary is in a search space iff it is a point of it | partial | Every point is found; what is found is characterised exactly. Refuted: short lists, partial dictionaries and fractions for integer variables are found, long lists raise. |
| C119 | Rows keep their fitness, evaluation count and label under indexing | partial | Proved for every position but -1 and for every chain of slices and every list of positions; x[-1] loses the attributes and x[:, -1] has no column (c119_last_refuted, c119_last_column_refuted). numpy-typed positions (np.int32) are not modelled. |
| C120 | Setting the fitness of a slice sets it in the whole; a selection or a copy is separate | partial | Write-through of slices and detachment of selections are proved in full; copies share the attribute arrays (c120_copy_refuted). |
| C121 | A CSV export holds exactly the solutions written | partial | Proved for every history of calls when no cell contains the delimiter or a newline (c121_read_partial, c121_data_file_partial); no quoting is done, so delimiters in values make the file ambiguous (c121_refuted), appending with a header repeats it (c121_header_refuted) and a row of a multi-objective set cannot be exported (c121_row_refuted). Encoding of the text in the file system is outside the model. |
| C122 | Dictionaries of columns keep every value | partial | Proved for distinct names and labels; repeated labels (which addition produces) and repeated names lose values (c122_labels_refuted, c122_names_refuted). |
| C123 | Every row of the constrained sampler follows the Metropolis rule on its own | partial | The cache invariant is proved in full; the rule of a single row when no row improves by more than the overflow limit. Otherwise it is false (c123_crosstalk_refuted: both rows move whatever the random numbers). Log probabilities are finite reals. |
| C124 | The acceptance rule of the constrained sampler is in detailed balance and keeps feasible points | proved | The normal distribution function is any monotone function into (0,1] with value 1/2 at 0; random numbers are uniform on [0,1) (Lebesgue measure). Symmetry of the proposals is not claimed (clipping makes them asymmetric). |
| C125 | The objective handed to the gradient-based search is the acquisition function with a penalty | partial | All parts are proved for constraint functions that return; that the search is given one fixed function is false (c125_drift_refuted). Array shapes are not modelled. |
| C126 | Typed spaces have one variable per pair of bounds, with its own name and options | partial | Proved for bounds given as pairs or level lists and for a single flat bound. False in three corners: a tuple given as the default of one subset variable is read as one default per variable and always raises (c126_subset_default_refuted); a word among pairs falls apart into letters (c126_word_refuted); BoolSpace can make only one variable (c126_bool_refuted). |
| C127 | The acquisition search is configured to fit the space, the model and the constraints | partial | Proved for the default choice and for all options; with constraints the gradient-based search never runs. False for a named optimiser that does not fit: BFGS on a mixed space runs MIES on a criterion that returns pairs (c127_bfgs_refuted), and an unknown name passes the constructor if a budget is given and makes every search raise (c127_unknown_refuted). |
| C128 | The user's constraint functions receive the candidate itself | partial | Proved for arrays and for lists that do not consist of subsets of one size only, including fixed variables (always, since they are passed on as arrays). A list of subsets of one size is taken for a table: the function is called on the values (c128_subsets_refuted) or the call raises (c128_subsets_raise_refuted). |
| C129 | Batch strategies give one candidate per criterion, with valid parameters | partial | Proved for the strategy with several criteria and for collecting the results (MGFI and UCB alone: C78). Refuted for SelfAdaptiveBO, which never returns a batch (c129_self_adaptive_refuted). |
| C130 | Hessian() returns the second derivatives of the predicted mean | partial | Proved for the squared exponential with one parameter per coordinate and a constant or linear trend, at every point. Exact description of when a matrix is returned at all: a quadratic trend and the other correlations raise, except the Matérn correlation at a sample, where zeros are returned although the second derivative is -3 in the example, and the absolute exponential where a coordinate equals that of the first sample. |
| C131 | Accuracy scores are standardised and leave their arguments alone | partial | SMSE holds in full. MSLL holds for positive variances; a variance of zero is overwritten in the caller's array and makes the score depend on the units (both refuted with witnesses). |
| C132 | Meaningless settings of a Gaussian process are rejected, documented ones work | partial | Exact characterisation proved for all settings and sizes. Refuted: the constructor without arguments, the restricted likelihood, the name linear, cubic and generalised exponential with BFGS, trends by name, one correlation parameter with the default trend in several dimensions all raise; starting points outside the bounds and negative noise are accepted. |
| C133 | The hyper-parameter search starts, stays and ends within the given bounds | proved | For every result within the box that the bounded search was given (its contract) and every uniform draw between its limits. The given starting point must be between the bounds, which the code does not check (C132). |
| C134 | prior_cov() is the covariance of the process before any data | partial | Proved for one target and points given as lists, or X2 left out. Refuted: an array with more than one number raises, an array holding a single zero is ignored, and with several targets the entries are covariances of no target. |
| C135 | Every sampling method of the CMA-ES draws the announced number of offspring with the announced symmetry | partial | Proved: the exact number of offspring for every method and population size, symmetry of the mirrored pairs, orthogonality of the pairs, and use of every draw by the derandomised methods. Refuted: with an odd population size the pairing methods draw one offspring fewer in every second generation, because the spare vector is assigned to a local variable only; methods 5 and 8 always raise; the Gram-Schmidt method 6 leaves min(d, lambda) offspring at the mean. |
| C136 | The (1+1)-CMA-ES stops when it no longer makes progress | partial | Proved: without restarts the search stops within 10/0.9^(5 dim) + B/ftol steps if no penalised value is more than B better than the first one, for all draws and with or without a budget. Refuted: with n_restart >= 1, no target and no budget run() never returns, for every objective and every sequence of draws, because the restart flag stays set when the last restart is used up. |
| C137 | The step size of the (1+1)-CMA-ES follows the success rule and stays in its range | proved | Holds when the initial step size is in the range; then the test of the step size in check_stop can never fire. The step size may also be reset to the initial one, which the theorem states as the exception. |
| C138 | The restarts of the acquisition search are different searches | partial | Proved for L-BFGS-B: restart i starts at the i-th point drawn from the user's generator. Refuted for the (1+1)-CMA-ES: argmax_restart passes seed=time.time(), which the constructor swallows in **kwargs, and the default random_seed=42 reseeds the global generator in every restart; the whole search and the final state of the generator do not depend on the state before, and without constraints no restart is ever better than the first. |
| C139 | PCA-BO records what it is told | partial | Data, counters and incumbent are proved for all histories (c139_data, c139_counts, c139_incumbent); a call returns exactly when it is well formed, at least two finite observations exist in total and the numerical fit succeeds (c139_returns_iff), so a single first point raises although it is recorded. Refuted: labels repeat after failed evaluations (c139_labels_refuted; c139_labels_partial: distinct when no evaluation fails), hist_f stays empty (c139_history_refuted), dictionaries are never accepted (c139_dict_refuted), warm_data raises (c139_warm_refuted). |
| C140 | Counts, budgets and seeds given to the constructor are used as given, meaningless ones are rejected | partial | Positive whole numbers, as numbers or text, are used as given (c140_positive_partial), n_point and n_job are at least one (c140_at_least_one), and c140_doe_iff says exactly which numbers give an initial design. Refuted: a negative design size is accepted, a fraction below one gives an empty design and numpy integers are rejected (c140_doe_refuted); max_FEs=0 means no limit while other budgets below one stop the run at once (c140_budget_refuted); the seed 0 is ignored (c140_seed_refuted). |
| C141 | Evaluation in parallel gives the same results as one after the other | partial | Results do not depend on the schedule and are aligned with the points (c141_schedule, c141_aligned), and whole runs agree (c141_run). Refuted: a user's parallel function that returns too many values is not noticed (c141_parallel_fun_refuted). |
| C142 | A multi-objective optimiser that accepts its arguments can propose points | partial | c142_arguments: what a returning constructor guarantees; c142_propose_partial: exactly when MOBO proposes a point if no optimiser is named; c142_slices_partial: a joint vector is cut correctly without fixed variables. Refuted: with real variables, a surrogate with gradient and no constraints every model-based proposal raises, since the number of objectives is 1 while the search is configured (c142_gradient_refuted); MOBO never proposes several points and MOBO_qEHVI never proposes any (c142_batch_refuted); one objective or none is accepted (c142_objectives_refuted); wrong pieces with fixed variables (c142_slices_refuted). |
| C143 | The conditional optimiser records what it is told | partial | Records of the whole and of each sub-optimiser for all histories in which no call raises (c143_records_partial), entries of hist_f (c143_incumbent), exactly when a call returns (c143_returns_iff), exactly what the counter holds (c143_count). Refuted: failed evaluations use up no budget and warm starts are counted (c143_count_refuted); a failed first evaluation in a sub-space raises, loses the rest of the batch and leads to duplicates (c143_failure_refuted). |
| C144 | The acquisition search and ask() stay in the search space, all parts together | partial | All components together: every restart of the search returns a point of the free space (c144_search_in_space), ask returns 1..n points of the space with the fixed values (c144_ask_in_space_partial), and raises only in the listed cases (c144_ask_errors). Partial: subset variables and non-uniform levels together with constraints are excluded (there the random walk leaves the space, C18), improper variables are excluded (C17), and fixed values must be given at the precision of their variable (C14). |
| C145 | Points proposed under constraints satisfy them | partial | A point from the search satisfies the constraints (tolerance 0.1), one from the sampler is the rounded version of a point that does (tolerance 0.01) (c145_ask_feasible_partial); without precisions all points do (c145_ask_feasible_no_precision). Refuted in general: rounding after the test can break a constraint (c145_rounding_violates). |
| C146 | A whole run evaluates proper points, keeps its budget and returns the best of them | partial | Points, budget, termination and result for every run (c146_run_points_partial, c146_run_budget, c146_run_best), a concrete two-step run (c146_concrete_run). Partial: constraints only as far as C145; points must differ only from earlier ones with a finite value - a point that failed is evaluated again (c146_failed_point_again). |
| C147 | Samples are uniform over the space | partial | Proved for Lebesgue measure on the draws: real variables without precision, of every scale, have the share of the part (c147_real_share_partial), all points and coordinates jointly the product (c147_real_joint_partial); integer variables with integer step and categorical ones: every table of values comes from exactly one table of draws (c147_discrete_joint_partial). Refuted: with a precision the two end values get half the probability of an inner value (c147_precision_ends_half, the exact shares in c147_precision_share_partial), and in a space with a seed and several types each type restarts from the seed, so variables of different type and equal size always stand at the same position (c147_seeded_types_linked). Latin hypercube and Sobol designs are not independent by design and are left out; a logit scale up to 1 and fractional integer bounds are excluded (C17). |
| C148 | Prediction in batches equals prediction in one go | partial | Refuted: with two points or more no batch size is accepted (c148_two_points_fail; c148_errors gives the error of each case). Exact characterisation: the call returns only for a positive int, one point and one target, and then gives the same number (c148_returns_iff_partial). The prediction without batch size is an argument here (its model is C95 onwards); the checks of the input before it are not repeated. |
| C149 | The noisy optimiser proposes an initial design and full batches | partial | Refuted: before a model is fitted ask always raises, because create_DoE adds an array to an empty list, which numpy takes as an elementwise sum (c149_first_ask_raises, the error in c149_first_ask_error); and a batch in which one search finds nothing raises instead of being filled up (c149_failed_search_raises). Exact characterisation of the calls that return (c149_ask_iff_partial), with the number of points, the space and the fixed values (c149_points). |
| C150 | A stopped run can be continued with a larger budget | partial | Refuted (c150_not_resumable): stop_dict is never cleared, so once check_stop was called at a moment when the run was due, every later run() leaves at once, whatever max_FEs and ftarget have become (c150_raised_budget_ignored, for every history). Exactly when this happens is c150_stopped_iff_ever_due; as long as no check was made at such a moment the current settings decide (c150_settings_take_effect_partial). |
| C151 | An optimiser given another search space works on that space | partial | Proved for the attributes the setter writes (c151_attributes). Everything else keeps the values for the constructor's space (c151_settings_kept), so the property fails (c151_stale_refuted: after an integer space is assigned the criterion is still asked for gradients although the evolution strategy runs, and dict constraints get the old names). It holds when names, number of variables and all-realness agree (c151_like_new_partial). |
| C152 | Every run ends with the best point | partial | Proved for objectives with finite values and an acquisition search that meets its contract: a run makes at most as many steps as the space has points the optimiser tells apart (reals within 1e-8 count as equal), whatever the stopping conditions. Refuted: without a target, a run with no budget or with a budget the space cannot meet never returns the best point but is left by an exception; an objective that keeps failing, with no budget, makes the run endless. |
| C153 | The units of the objective do not matter | partial | Proved for runs whose values differ by more than 1e-8 in both units (the flat-fitness test of tell is absolute): same points, same end, same returned point, the values rescaled. Refuted in general: small enough units make tell raise for any objective (c153_small_units_raise), and while all values are equal they are passed to the surrogate without standardisation (c153_single_value_raw). |
| C154 | Maximising f is minimising -f | partial | Proved for runs without a target and surrogates that treat the two directions alike. Refuted with a target (c154_target_refuted): the test of the target is the same for both directions (C16). |
| C155 | The proposed point is the best the acquisition search has seen | partial | Proved without constraints for the (1+1)-CMA-ES and MIES: best of all points evaluated in all restarts, the reported calls are the evaluations made, a restart exceeds its budget by at most one evaluation or one generation and uses it up unless it stagnates. The points evaluated inside scipy's L-BFGS-B are not modelled. With constraints a feasible point with a better value can be lost (c32_feasible_point_lost), and infeasible restarts are not charged to the budget (c30_infeasible_restarts_free). |
| C156 | The surrogate learns exactly what was observed | proved | The whole run is the one of C153; the surrogate is any function of the data it is fitted to. |
| C157 | Every step maximises the expected improvement | partial | Proved for one point per step, the (1+1)-CMA-ES and MIES as inner search and no constraints; the L-BFGS-B search is a library call. If the best point is one of the points evaluated before, ask() replaces it by a random one (C15), so the claim does not hold in such a step. A prediction whose standard deviation is below 1e-6 of that of the process counts as worth nothing. |
| C158 | Every point of a batch maximises its own criterion | partial | Proved for MGFI, the (1+1)-CMA-ES and MIES as inner search and no constraints. If two of the points agree, or one agrees with a point evaluated before, ask() replaces them by random ones (C15), so the claim does not hold in such a step. Temperatures above 22.36 are cut off (C73); a prediction whose standard deviation is below 1e-8 counts as worth nothing. UCB and EpsilonPI batches: C78. |
| C159 | With a Gaussian process without noise, a step proposes a new point | partial | Partial as C157: searches without constraints and not by BFGS, one point per step; the data are the standardised observations. Where the search looks at certain points only, the duplicate is dropped and replaced by a random point (C15). |
| C160 | Small discrete spaces are searched exhaustively | proved | Assumptions as C146 (libraries as documented, proper bounds). Whether a run returns or ask() raises because the random draws miss the remaining points depends on the draws (C152). |
| C161 | A run with annealing cools as scheduled | partial | c161_annealed_partial: in a run with annealing the n-th batch maximises the criteria for temperatures drawn around the (n-1)-th temperature of the schedule (with the assumptions of C158 on the searches). c161_ends_at_final: with full batches the temperature is above tf while the run goes on and equals tf when it stops. Missing: the schedule 'log', which does not end at tf (C35), and runs in which duplicates are dropped from a batch, where the budget lasts for more than N searches and the temperature falls below tf. |
| C162 | Without noise the prediction is the posterior distribution | proved | c162_posterior (given coefficients: conditional law), c162_estimated_trend (law of the error and independence), c162_interval (coverage); c162_process_exists: such a process exists for every valid correlation, all samples, points and trends. With noise the prediction is wrong (C96). |
| C163 | Acquisition values are conditional expectations given the data | partial | Proved for EI, MGFI and EpsilonPI with given trend coefficients. Missing: for EI and MGFI, predictions that count as certain have the value 0 (C73); with estimated coefficients there is no conditional law given the data without a prior on them (C162 gives what holds); temperatures above 22.36 are cut off; UCB is not an expectation; PI cannot be constructed (C36). |
| C164 | Sampling under constraints draws from the intended distribution | partial | Proved for spaces of ordinal, discrete and Boolean variables: a row that follows the target keeps following it through a pass of any length, and from any start the total difference to the target shrinks by a fixed factor per step; the draws of the row must be fresh and log probabilities must not differ by more than the overflow limit (709 in floating point). Refuted for real variables (c164_real_refuted): the proposal is clipped to the box, so an update lands exactly on the bound with positive probability. Refuted for integer variables (c164_integer_refuted): for the same reason, uniform samples on {0,1,2} put more than a third on 0 after one update without any constraint. The theorems are about the steps of one stage; the stages follow one another with the population of the one before (resampling is commented out in the code). |
| C165 | The evolution strategy never stops exploring | partial | Proved for all runs: legal strengths and legal parameters of all draws (c165_strengths), refinement of the run of C31 and C63 (c165_refines), every point is reachable from every individual with positive step sizes (c165_reach_partial), always on spaces without real variables (c165_reach_discrete), and without a precision a step size stays positive almost surely (c165_alive). The full claim fails for real variables with a precision: line 242 replaces the step size by the step made after rounding, so steps that are rounded away set it to 0, for good (c165_frozen, with the run of c165_refuted). Rounding errors and a normal number that is exactly 0 are not modelled; a given x0 is not modelled. |
| C166 | The evolution strategy draws its mutations from the laws of mixed-integer evolution strategies | proved | Laws of the step sizes, of the strengths and of the steps of integer variables, and of the mutation probability, with the number of variables counted independently of the code. The integer step is the one before reflection into the bounds. The draws are ideal (independent standard normal and geometric numbers), without rounding errors. |
| C167 | On an objective without information the CMA-ES does not drift | partial | Proved for generations in which no offspring leaves the box: expected mean, second moments of the step-size path, expected covariance matrix (for either constant value of the switch hsig). c167_refuted: with normal random numbers and a start at a bound, the reflection of offspring makes the expected mean move into the box although the objective is constant. Missing: a switch that depends on the random numbers, and the drift of the logarithm of the step size. |
| C168 | The CMA-ES uses the order of the objective values only | proved | For objectives with finite values and a sorting routine that only compares. c168_order_only is about whole runs, c168_draw_order and c168_selection about one generation from an arbitrary state. |
| C169 | Gaussian processes do not influence each other | partial | False of the code: fit writes the estimated trend coefficients to the trend object that the caller passed, and predict reads them from there. c169_own_trend_partial proves the property for every program in which the model is the only one on its trend object. c169_shared_shift: if two models share a trend object, training the second shifts every prediction of the first by the difference of the two trends. c169_shared_later: a model built on a trend object after another model was trained on it does not estimate its trend but takes over the other one. c169_refuted: a concrete program in which a model stops predicting its own data. The hyper-parameters that the search ends with are part of the arguments. |
| C170 | The covariance matrix adaptation does not depend on the origin, the unit and the order of the variables | partial | Proved for every shift and every order of the variables. For another unit it holds while the step size stays between 1e-16 and 1e6 in both units; otherwise refuted: the limits in check_stop_criteria are fixed numbers, so the converted search is reset when the original is not. The eigenvalue routine is taken in the converted order (c170_routine: it is then a correct eigenvalue routine again). |
| C171 | Rounding and rescaling a design converts the real columns and leaves the argument alone | partial | Proved for lists always and for arrays in spaces of only real or one discrete type. Refuted otherwise: a mixed space writes the converted columns into the array it is given (c171_overwritten), so that a second to_linear_scale of the same array converts twice, and in an array of integers the converted values are truncated. |
| C172 | A run of the (1+1)-Cholesky-CMA-ES ends, stays in the box and reports the best point it evaluated | partial | One program (Model/OnePlusOneFull) made of the parts in C32, C33, C64, C136 and C137, the only inputs being the random numbers; c172_points and c172_scalars: it refines the models in which those claims are proved. Proved in full: box, value of the reported point, step size and success rate. Refuted: a restart at a point better than all before, when no step has succeeded since the last reset, divides by zero and puts NaN into the matrices (c172_restart_nan; c172_nan_partial says exactly when NaN appears); a step that uses up the budget after a restart evaluates one more point and ignores it (c172_last_point_ignored), so c172_best_partial is about the points told to the optimiser, and c172_budget_partial allows two evaluations more than the budget. |
| C173 | The (1+1)-Cholesky-CMA-ES does not depend on the origin and the order of the variables | proved | Simulation over whole runs of the program of C172: c173_motion for any rigid motion under which repair and restart samples correspond; c173_order and c173_origin_and_order discharge this for every run, c173_rotation for runs that stay inside both boxes without restarts. c173_meaning spells out the converted problem and state coordinate by coordinate. NaN appears in both runs at the same pass. |
| C174 | The (1+1)-CMA-ES depends on the order of the objective values only | partial | Proved for a tolerance ftol = 0 on the values and no constraints (c174_values_partial).  For the default tolerance the property is false: c174_unit_matters gives a problem, random numbers and a positive factor for the values such that one run has ended after six passes by the test on the change of the values and the other has not.  With constraints the penalty is added to the value, so only shifts could be invariant. |
| C175 | The evolution strategy for mixed spaces ends exactly when the evaluation limit is passed or the search has stagnated | partial | c175_ends_partial: the run ends after the first generation for which EndsAfter holds (limit passed, two offspring with equal values, or a level history; the ring buffer is shown to hold the last generations), for all configurations except a single offspring of several parents; c175_best gives the reported optimum and the counts; c175_tolerance_unused: in the default setting the test on the history never applies. The property fails as stated: c175_refuted (a run ends after a generation that found a better point, best point not evaluated, 14 of 1000 evaluations), c175_one_parent (with one parent at most one generation whatever the objective), c175_single_offspring (IndexError after the first generation). |
| C176 | The evolution strategy for mixed spaces depends on the order of the objective values only | partial | c176_order_partial: proved for runs in which the number of parents is no multiple of the number of offspring (as in the default setting), for a sorting routine that looks at the order only (realArgsort_scaled gives one). c176_refuted: with 30 parents and offspring, dividing the values by a million ends the run earlier, since the history is compared with zeros. |
| C177 | The Gaussian process does not depend on how the data are written down | proved | Numbers are reals and the factorisations exact; the restricted likelihood is not covered (the model of QR does not ask for a triangular factor). The correlation functions are those with the parameters in the new units; the search for the parameters itself is not repeated here. |
| C178 | The multi-objective criterion rewards better predictions and falls with more data | proved | Outcomes must not exceed the cap 1e10 (1e8) of the code, for the last part some objective of each outcome must stay below it. Real arithmetic, one point at a time (C81 for several). |
| C179 | The mixed-integer evolution strategy does not depend on how the variables are described | proved | c179_same_search: the whole run in the new terms is the translated run, exceptions included. c179_fails_fractional: with integer bounds 0.3 and 2.3 the points differ after a shift of the origin. Real variables with a precision are excluded (rounding is to decimal places of the absolute value). |
| C180 | An optimisation does not depend on the units, origins and level names in which the variables are written | partial | Proved: if all points that occur differ, in both descriptions, by more than the tolerance of the duplicate check, then ask (c180_ask_partial) and the whole run (c180_run_partial) give the same in the new terms; without real variables nothing has to be assumed (c180_ask_no_reals).  Refuted in general: np.isclose has absolute tolerances, so in spaces with tiny ranges or a large origin all points count as equal (c180_indistinct_examples), ask never succeeds again after the first record (c180_never_again_refuted), a design of two or more points raises (c180_no_design_refuted), and the same space in nanometres works where metres fail (c180_units_refuted).  c180_concrete: a world meeting the hypotheses.  Precision is excluded, and the search and the sampler are assumed to act alike in both descriptions. |
| C181 | The order and grouping of the observations do not matter | proved | The parameter search of the surrogate is any function of the likelihood surface (random numbers fixed); arithmetic is exact. With a constraint function that raises at one of two best points the order can matter, so constraint functions do not raise here. c181_ties shows that the reported point itself depends on the order when values are equal. |
| C182 | Optimisers of one program do not influence each other | partial | Proved for every program and interleaving in which no other optimiser is given the surrogate or the dictionary of the optimiser: leaving out all other calls changes nothing it shows. Refuted without that: the default acquisition_par of ParallelBO is one dictionary for the whole program; creating a ParallelBO with UCB adds the key alpha to it, after which ask of every ParallelBO with default arguments raises TypeError; creating an AnnealingBO overwrites the temperature; a shared surrogate makes a fresh optimiser skip its initial design and raise. numpy's global generator is not part of the model: its numbers are given with every call. |
| C183 | A multi-objective optimisation does not depend on how the objectives are written down | partial | Units: proved for whole runs as long as in every objective the recorded outcomes are equal or spread by ten machine precisions in both units (c183_units_partial); below that the values are not scaled (c183_tiny_range_refuted). Order of the objectives: proved for whole runs without conditions. Direction: the front is the same if rounding to single precision keeps values apart (c183_direction_front_partial), the reference point is not: minimised, outcomes in the worst fifth lie beyond it, maximised none do (c183_direction_refuted). Order of observations: same transformed values, reference point and outcomes on the front, same points if the outcomes are distinct (c183_order_of_observations_partial); of tied points the first is shown (c183_tied_observations_refuted). |
| C184 | A program that saves the optimiser after every step survives crashes | partial | Proved for every schedule of crashes and restarts: whatever is in memory is a state of the uninterrupted run and the end is its end (c184_same_course); after a crash outside save the very same optimiser is back, after one during save with a readable file at most one step is lost (c184_crash_elsewhere_partial). Refuted: save empties the file before it writes it, so a crash in between destroys the earlier checkpoint too and the program cannot go on (c184_crash_while_saving_refuted); the data file gets the evaluations of a repeated step twice (c184_data_file_refuted). With two files written in turn the program survives every crash (c184_two_files). The random numbers are taken to depend on the number of the step: save does not keep the state of the generator. |
| C185 | A whole multi-objective run keeps its budget and returns the Pareto front of what it evaluated | proved | Counting (c185_count), the bound on the overshoot (c185_budget), the ending (c185_ends), what a returning run guarantees (c185_returned) and the reasons for raising (c185_raises) hold for all runs. The front: c185_front_rounded for any rounding with error at most eps on [-1, 1] (tolerance 2 eps of the spread, or 10/2^52 where the spread is so small that the code does not scale), c185_front_exact if rounding keeps values apart. |
| C186 | Several workers can share one optimiser | partial | Recording, counting, incumbent (c186_recorded), conservation (c186_conserved), the budget (c186_budget, reached by c186_budget_reached) and the ending (c186_ends) hold for every interleaving; run() is the case of one worker (c186_run_is_one_worker). That no point is evaluated twice is false: points under evaluation are unknown to ask, and two workers can get the same one (c186_same_point_refuted); proved is that nobody gets a point whose value is recorded (c186_new_points_partial). Calls are taken to be atomic; the code has no locks. |
| C187 | A run created with a seed can be repeated, and the seed is the one given to the optimiser | partial | Holds for a seed of the search space, for designs and whole runs. False for random_seed of the optimiser and for fmin's seed: every slicing of the space restarts numpy's generator, from the operating system's entropy if the space has no seed, so that the optimiser's seed has no influence at all (proved for all inputs) and two runs differ (witness). With a seeded space the restarts make draws repeat: designs asked for with the same data are equal and the batch parameters use the same factors in every iteration. |
| C188 | A whole run of the conditional optimiser keeps its budget, tries every sub-space and returns the best point | partial | Records, result and exploration of all sub-spaces are proved for every run that does not raise, the budget for counted evaluations in every case. Budget for the calls of the objective and termination (c188_ends_partial) are proved for objectives that never fail. Refuted otherwise: failed evaluations are not counted, and an objective that works once in every sub-space and then fails is called for ever (c188_failures_refuted). When maximising, a target ends the run when the best value is below it, as in C16. |
| C189 | A whole run of PCA-BO keeps its budget, ends and returns the best point | partial | Records, budget, end, result and the list of reasons for an exception (c189_raises) are proved for every run. One reason is not legitimate: if fewer than two evaluations of the first batch succeed the weights are 0/0 and tell raises; with DoE_size=1 every run raises in its first step (c189_single_point_refuted). That the points are in the box is C88. |
| C190 | The random forest predicts within the range of the observations, in their unit, whatever the levels are called | partial | Proved for at least two trees (with one tree the variance is NaN, C44): c190_range, c190_units, c190_levels. Refuted if n_estimators is raised between fit and predict (c190_stale_count_refuted): missing trees count as predictions of 0. |
| C191 | A program that goes on after exceptions loses only the interrupted batch | partial | Proved: c191_records, c191_budget, c191_finishes (without ftarget), and c191_failed_tell, the exact state after every tell that raises. Refuted: evaluations done before the one that raises are neither counted nor recorded, so that the objective can be called any number of times (c191_budget_refuted); a tell that raises because of the model has already recorded and counted the points, so repeating it doubles them (c191_tell_again_refuted); with a target, a first batch without finite values makes check_stop raise for ever (c191_target_refuted). |
| C192 | A constrained sample violates its constraints by more than the tolerance only with negligible probability | partial | Proved with the real normal distribution: c192_left for any space, c192_target for the distribution of the last stage, c192_row_partial for the sampled row from any start. Missing: the row bound for real and integer variables (there C164 fails, the proposal is clipped) and for log probabilities that differ by more than the overflow limit of exp (709), which strongly violated constraints do; the draws of the row must be fresh, as in C164. The constant agrees with the code's comment (8 sigma, two-sided 1.24e-15, samplers.py:76): twice 6.4e-16. |
| C193 | recommend() returns the best point so far, and what it returns can be changed freely | partial | Best point, monotony, agreement with run() and the exception before any point was told are proved. Refuted: if all evaluations so far failed, ValueError is raised instead (c193_unavailable_refuted); the returned object is a view of the recorded data, so writing to it changes the recorded point or value and the next recommendation (c193_shared_refuted), and writing the fitness of an older one changes hist_f (c193_history_refuted). Proved instead: objects older than the last tell can be written without any influence on data, counters, log and stop flags (c193_isolated_partial). Rows without coordinates (a space without variables) are excluded. |
| C194 | What is recorded is what was proposed and told, whatever is done with the lists later or inside the objective | partial | Proved: with several jobs the record is right for every objective (c194_parallel), with one job for objectives that leave their argument alone (c194_sequential_partial); arguments given as lists, or followed by another tell, can be overwritten freely (c194_kept_partial). Refuted: with one job the objective gets the very list that is told afterwards, so the point is recorded as the objective leaves it (c194_sequential_refuted, c194_reversing_objective); an array of objects (a Solution) given to the first tell becomes the table itself (c194_kept_refuted). Not modelled: parallel_obj_fun, and threads instead of processes chosen by joblib's parallel_backend. |
| C195 | The initial design is spread evenly over every variable | partial | Proved for real variables without a precision, of every scale and in every mixture of variables, for any generator whose designs are Latin hypercubes (the promise of pyDOE.lhs). Refuted with a precision (c195_precision_refuted: rounding moves points out of their part) and for integer variables (c195_integer_refuted: they are drawn independently whatever the method; the same holds for the categorical ones). |
| C196 | An optimiser can be used on after tell has raised | partial | Proved: after a tell that returned the next ask searches with a surrogate trained on exactly the recorded observations, whatever failed before (c196_recovers), and also after one that raised inside the user's constraint functions (c196_constraint); without interrupted trainings ask takes a random design until tell has returned once, and then searches with a surrogate completely trained on at least what was recorded when tell last returned (c196_keeps_partial); with the forest an earlier success protects against interrupted trainings too (c196_forest). The property is false otherwise: after FlatFitnessError the surrogate lacks recorded observations (c196_stale_refuted), an interrupted training leaves a Gaussian process marked as fitted with the remains of two trainings (c196_gp_refuted), and a forest whose first training fails makes every ask raise, since is_fitted is set before the trees are trained (c196_forest_refuted). |
| C197 | The first ask proposes as many points as requested | partial | Proved for all draws in which the points of the first sample differ (c197_full_partial); a single point is always delivered (c197_one); a point of the first sample that differs from the others is proposed (c197_kept). The property is false otherwise: in a space whose points do not count as different, e.g. a real variable between 1000 and 1000.001, every request for two or more points raises AskEmptyError whatever is drawn (c197_indistinct_refuted, c197_narrow_refuted), since all copies are dropped, and after one evaluation every ask raises, also with a surrogate (c197_stuck_refuted); with ten integer points unlucky draws do the same to the first request (c197_unlucky_refuted). Fixed variables: C14, C144. |
| C198 | The front of a multi-objective optimisation only improves | partial | Proved if the conversion to single precision keeps different values apart: the front matches or beats every record, beats the same region and is not empty (c198_front_is_all); each front covers all earlier ones and is not dominated by them (c198_improves_partial), also along hist_f (c198_history_partial). False with rounding: a point can leave the front although nothing matches or beats it (c198_refuted); how much can be lost is bounded in C185. |
| C199 | A run in a continuous space can use its whole budget | partial | Proved (_partial): any list of points, each different from the earlier ones for the duplicate check, can be evaluated one after the other (fifty between 1000 and 1001). The full claim is refuted: a new point must differ from every recorded one by more than 1e-8 + 1e-5*/x/ in some coordinate, so the points evaluated one by one are at most the number of cells of that size in the box (c199_run), and so are the batches of any size (c199_batches); a whole run with a larger budget and no target is left by an exception (c199_whole_run), also if the surrogate learns (c199_learning_run: it returns no solution); once that many are recorded every ask raises (c199_exhausted); between 1000 and 1001 there are at most 100 (c199_refuted). The same for spaces with variables of all kinds (c199_mixed_packing, c199_mixed_batches, c199_mixed_run). |
| C200 | ask gives up only if nothing new was found | partial | Proved (_partial): for requests of one point AskEmptyError is raised exactly if the result of the search and all four random points are recorded (c200_single_partial); in batches a point found once that is not recorded is proposed (c200_kept_partial). Refuted for batches: if a new point is found twice, both copies are dropped, and ask can raise although the point is new (c200_twins_refuted). |
