# Formal model of GPyOpt in Lean 4 — design

## 1. Approach

The model is *shallow*: every modelled Python function is a Lean function that
follows the Python source branch by branch; every definition carries the file
and lines it mirrors.  Python exceptions are values (`Except Err`), loops are
folds / structural recursion (or recursion on explicit fuel when the Python loop
need not terminate), and third-party code (random generators, local optimizers,
GP models, `lhs`, `sobol`, `argsort`, the clock, the operating system scheduler)
is a *parameter* that the theorems quantify over, with the assumptions used
stated as explicit hypotheses.

Layout under `lean/Verif/`:

* `Py.lean` – errors and Python/numpy primitives (index wrap, slices, argmin …)
* `Model/*.lean` – the model, one file per Python module (family)
* `Spec/*.lean` – small independent specifications used in theorem statements
* `Lemmas/*.lean` – helper lemmas
* `Props/*.lean` – the property theorems, named `Cnn_…`, with non-vacuity
  `example`s next to them.

A property that is false of the code is handled in the following way: the
strongest true restriction is proved as `Cnn_…_partial`, and the negation of
the full statement is proved with a concrete witness (`Cnn_…_counterexample`).

## 2. Numbers

* `ℚ` for the space / design / duplicate / optimizer / loop logic.  Exact
  arithmetic: no rounding, NaN or infinity.
* `ℝ` (Mathlib) for acquisitions, normalization, EP, benchmark functions.
* `Spec/Float`: numbers with `p` binary digits and any rounding to a nearest one, for designs, normalization and rounding to
  the domain (`Model/Float`, C128–C130). `roundFloat 53` is a computable instance used in the examples.
* `Spec/FloatAcq`: real arithmetic with a relative error in every operation and library call, for acquisitions (C136).

## 3. Plan per property

| id | what is modelled | how it is proved |
|----|------------------|------------------|
| C01, C02 | `unzip_inputs`, `zip_inputs`, per-variable encoders | induction over the expanded variable list |
| C03–C05 | `round_optimum`, `Variable.round` | induction over variables; argmin/argmax fold invariants |
| C06 | bandit rounding, `np.concatenate` shape rules | single-bandit theorem (`_partial`), counterexample for two |
| C07 | `_compute_variables_indices`, offsets | induction with running offsets; rounding, decoding and bounds act column by column (`C07_columns_*`); bandit counterexample |
| C08 | `_translate_space`, `create_variable` | decision logic, iff with independent spec |
| C09 | `_create_variables_dic`, `find_variable` | list lemmas; collision counterexample |
| C10 | `bounds_to_space` | induction |
| C11 | `indicator_constraints` | fold of weights = conjunction |
| C12 | `get_bounds` | induction |
| C13 | `_expand_config_space` | induction over descriptors |
| C14 | dimension getters | induction; bandit failure witness |
| C15–C17, C20 | experiment designs with oracle random streams | column-fill invariants; rejection loop with fuel |
| C18 | `iroot` Newton loop (well-founded) | integer Newton inequality (AM–GM) |
| C19 | `multigrid`, `GridDesign` | mixed-radix indexing bijection |
| C21 | `DuplicateManager` | membership; counterexample for all-zero pending |
| C22, C23 | `ContextManager` | scatter lemmas, partition |
| C24, C25 | `AnchorPointsGenerator.get` | for every argsort satisfying its spec |
| C26, C27 | `apply_optimizer`, `AcquisitionOptimizer.optimize` | for every optimizer |
| C28–C33 | evaluators | composition of the above; loop invariants |
| C34 | constraint-weighted acquisition | partial theorem + counterexamples |
| C35–C47 | BO loop as a state machine with crash points | invariants over all op sequences, refinement |
| C48–C50 | worker processes as an interleaving transition system | invariant over all schedules, deadlock witness |
| C51, C52 | `CostModel` | state invariant; wiring counterexample |
| C53, C54 | `normalize` over ℝ | algebra |
| C55, C56 | `merge_values`, HMC slicing | list induction |
| C57–C63 | acquisitions over ℝ, Φ as Gaussian integral | calculus in Mathlib |
| C64, C65 | `estimate_L`, MCMC predict loops | state invariants |
| C66, C67 | config merge, output engine | induction on nesting / histories |
| C68–C70, C74 | decision logic and wiring | case analysis, counterexamples |
| C71, C72 | EP step | real algebra, matrix identities |
| C73 | benchmark functions | real inequalities |
| C75 | constraint evaluation in designs and acquisition | coordinates compared through the encoding |
| C76 | `LatinDesign` over every Latin hypercube | affine image of slices, `∃!` |
| C77 | methods each model class has | wiring of the loop with a missing method |
| C78 | `GPModel.copy`, `GPModel_MCMC.copy` | state equality; TypeError for every input |
| C79 | `Logger.save_data` | induction over appended blocks |
| C80, C81 | gradients through `GPModel`, penalizer radius | calculus, exact condition of failure |
| C82–C84 | `min_faktor`, `joint_min` derivatives, packing | matrix calculus (Jacobi formula, resolvent), index bijection |
| C85, C86 | `lt_factor` | Gaussian integrals, fixed point of one-factor EP, bounds of the Mills ratio, Lipschitz bounds |
| C87–C92 | entropy search | expansion of the belief, histories, conditioning |
| C93 | shape of the outputs of the examples | case analysis on shapes |
| C94–C96 | the constructor, with the world of calls | case analysis; evaluation by one or several processes as a relation |
| C97 | constructor and loop | invariant "all calls and stored rows are in the domain" over all sequences of operations |
| C98 | the three local optimizers over a contract for the libraries | case analysis on what the library reports |
| C99 | gradient without the context columns | derivative along the embedding of the free variables |
| C100 | anchor points, then descent, then rounding | minimum over the samples, which are those of the design of the free variables (`FreeDesign`); counterexample for rounding |
| C101 | `Line`: the value of a line of the report | list of lines; counterexamples for modular objects, constraints, cost, bandits |
| C102 | contents of files as columns of the data | run unchanged, then case split on the files asked for |
| C103 | the data as the model gets them; order and range of the curve | from C41 and C42; minimum and maximum of a fold |
| C104 | Euclidean distances and running minima | from C39; `CloseLast` of C38 |
| C105 | `askTell`: the user's own loop around `suggest_next_locations` | induction over the rounds of the run |
| C106 | list of all points of the domain; `Separated` distances | invariant "different points with their outputs" over the rounds, then counting; totality of every step for progress |
| C107 | values of the trees; scikit-learn's forest as their average | sums of squares; Popoviciu's inequality for the deviation |
| C108 | noise specification each class hands to GPy | case analysis over the classes |
| C109 | column minima and maxima | induction over rows and updates |
| C110 | `input_dim` against the widths of the variables | counting kinds; random design of C15 as starts of the sampler |
| C111 | class tables of the selectors and `fromConfig` | case analysis over names; filter of options |
| C112 | state of the dictionaries after each step | induction over the variables; the second call on the resulting state |
| C113 | lines of the file as a function of the calls | invariant over all sequences of calls (clock, headline, rows) |
| C114 | paths as component lists, a file system as a function | case analysis |
| C115 | – | direct; derivatives with Mathlib |
| C116 | `scaleState`: all outputs of a state in another unit; `UnitFree`: components that see the outputs through the model | simulation of the run step by step; normalization over ℝ |
| C117 | `KnownPoint`: what is in the three lists; permutations of dictionaries | congruence through all evaluators; writing values in another order |
| C118 | draws from the predictive distribution; `PlainModel`, `SampledModel`: what the models predict | from C24, samples of the design of the free variables; exact condition of the failing lookup |
| C119 | `Option` values, `none` is `nan` | numpy's reductions as folds; general position of the `nan` |
| C120 | arrays of any shape as results | refinement of `evalFunc`; counterexamples |
| C121 | predictions as columns or lists | refinement of `lpBatch` (C32) for columns; exact exception for lists |
| C122 | one bandit variable: arms as points | the suggestion theorems again with the identity encoding (`OneBandit`), run theorem shared with C44 (`run_fresh`) |
| C123 | arrays in memory, objective writes into rows | refinement: the loop with addresses has the view of the loop of `Model/BO` (`memRun_after`); what an evaluation leaves in the array; counterexamples by evaluation |
| C124 | arrays of the caller | invariant: the object's arrays are not among the caller's (`Own`), kept by every step; counterexamples by evaluation |
| C125 | order of the acquisition at two locations | EI: convexity of `z Φ(z) + φ(z)` (`ei_difference`); MPI: monotone `Φ`; integrated: average of the terms |
| C126 | order under larger jitter or weight | EI: the difference of the values has a positive derivative in the jitter while the certain location is further below the target (mean value theorem); MPI, LCB: algebra; counterexample for the integrated EI |
| C127 | grids, curves and marks of the plots | minimum and maximum of the band, C103 for the normalized curve; index arithmetic of `meshgrid`/`reshape`; counterexamples for a positive band and a categorical variable |
| C128 | designs in floating point | monotone rounding that fixes floats; `u ≤ 1 - 2^-p` absorbs the rounding error of `u * (hi - lo)`; the computed points are exact designs for other unit numbers, so C15–C17 carry over; error analysis of `linspace`; counterexample for `u = 1` |
| C129 | normalization in floating point | monotonicity of rounding; exact end points; two counterexamples for every precision and every rounding to nearest |
| C130 | rounding to the domain in floating point | loop invariant with rounded distances, relative error of one rounding; counterexample for a near tie |
| C131 | configurations are independent of each other | dictionaries at addresses; separation-style representation of trees, merging in memory refines merging of values; invariant over all programs that the default is out of reach |
| C132 | random designs are uniform | counts the outcomes of a finite uniform generator: the result is the first `n` accepted rows of all rounds, and the number of sequences with a given accepted prefix depends on its length only (induction on the length) |
| C133 | constrained designs are found | outcomes with less than `n` accepted rows are few (weights `2^-accepted`, a product over the draws); almost sure termination from the infinite product measure |
| C134 | constraints written as expressions | `meaning` of an expression at one location against numpy arrays with shapes and broadcasting; induction on the expression |
| C135 | constraints in several threads | small steps of threads with one global name; what a thread has left to do is invariant as long as compiled constraints stay bound |
| C136 | acquisitions in floating point | roundings as factors 1+e; the quantile is exact for a nearby mean; log of the distribution function is Lipschitz with constant 1+abs u; u·Phi + phi is at least (abs u·Phi + phi) / (4 (1+abs u)²), so cancellation costs a bounded factor |
| C137 | result files | writer, newline translation and the state machine of the reader on characters; one lemma per field and row, induction over the table |
| C138 | resuming from saved data | simulation of the two objects (same data, context and counter), the first run cut out of the long one with the results on consecutive runs; uniqueness of what a file holds |
| C139 | what a whole optimization reports | alignment of data and recorded calls through the constructor and all calls (C94, C35), minimum of the stored values (C39) with the sign undone |
| C140 | optimizations raise nothing | totality of the anchor points, of the optimizer and of the loop over anchors for each evaluator; invariant of the data (rows in the domain, as many outputs as rows, cost data aligned) by induction on rounds and on calls; in constrained spaces the designs have to be found (`DesignsFound`; `samplesFound_of_feasible` derives it from C16) |
| C141 | clock and budgets | every method commutes with changing the readings of the clock; lockstep of two loops with different budgets, of which one may stop |
| C142 | rows that do not fit | exact characterization of the accepted rows by induction over the variables; negations by evaluation |
| C143 | output files | the date is read off the end of a path by splitting at separators from the right; files as a function from paths to contents |
| C144 | crashes and result files | disk and buffers as functions of paths, with handovers of any prefix of a buffer at any time; a crash is a prefix of the actions; the csv reader on a prefix finds a prefix of the rows and at most one more row |
| C145 | problem descriptions belong to the caller | memory of lists, dictionaries and domains at addresses; creation extends the memory and normalizes constraint dictionaries (idempotent); the view of a space depends only on private cells, the constraints and the shared domains |
| C146 | random batches search the whole domain | batches without de-duplication are the optimum and the first rows of the design; counting of draws whose first accepted rows avoid a region, over rounds and iterations; with C39 and C140 for the reported optimum; with de-duplication the rows are the smallest of the sorted unknown samples |
| C147 | names are labels; a variable of dimensionality `d` is `d` variables | `meaning` of a description (list of types and domains) as the specification; two descriptions of one meaning build spaces that agree in everything but names (`Alike`, also for the spaces rebuilt for anchor points); congruence of every function of the space, designs, evaluators and, by a simulation, of runs; negations for colliding names and omitted names |
| C148 | regret of search by confidence bounds | `Calibrated` (intervals contain the standardized objective) and `Sampled` (rows of the random design) as the specification; the suggestion of a continuous space is at least as good as every sample, hence the bound of one step; a trace of states and suggestions of the run, the sum over iterations, and counting of draws for the probability; negation for discrete variables; the example is search with Lipschitz bounds |
| C149 | the order of the initial data does not matter | `Orderless` (components see the fits as multisets of pairs); simulation relation `Reordered` through fit, suggestion (by C117), evaluation, rounds and the loop; the results compared by membership; exact regression and `normalize` shown to be orderless; negations by a repeated last observation and by a tie |
| C150 | local penalization keeps better locations | a location with `f x <= Min` is outside of the exclusion ball of every centre, up to the error of the prediction, by the bound of the slope; monotonicity of the normal distribution; sums over the batch; with C64 for the posterior mean; unbounded penalty for a steep objective |
| C151 | the initial design bounds the error | rounding to the next grid index in every coordinate and the numbering of C19; the slice of C76; C139 for "at least as good as every evaluated row"; counting of the first accepted rows as in C146 |
| C152 | local penalization starts from the acquisition | monotonicity of the logarithms in each branch; `log (1 + e^g) <= g + e^-g` for the gap at the switch |
| C153 | runs do not depend on the number of processes | loop over any evaluation of a batch, equal to `Model/BO` for one process; simulation of two runs up to clock readings (`SameData`), with C48 for every batch |
| C154 | the units of the variables do not matter | change of units as a map on spaces, contexts, managers and states (`Spec/Units`); every function commutes with it: per variable, per design, per anchor and evaluator, then a simulation of two runs |
| C155 | a context is a smaller problem | rows of the smaller problem filled up with the context (`Spec/Smaller`); corresponding problems in general (`Spec/Correspond`, `Lemmas/Corr`, `Lemmas/CorrRun`): a simulation of suggestions and runs for any correspondence of rows, instantiated with the filling up |
| C156 | constraints matter only through the feasible set | constraints with the same feasible set (`Spec/Feasible`); instance of the simulation of `Lemmas/Corr` with the identity on rows |
| C157 | the order of the variables does not matter | a permutation of the one-dimensional variables acting on rows and on blocks of model columns (`Spec/VarOrder`); instance of the simulation of `Lemmas/Corr`; in a context by way of the smaller problem of C155, whose free variables are in the induced order (`Spec/VarOrderContext`); negations for Sobol, grid and sorted samples |
| C158 | who evaluates the initial locations does not matter | equality of states after the start of the run; `run_same` of C138 for outputs from the user |
| C159 | locations the model is sure of are not evaluated again | monotonicity of the acquisitions (C125) and comparison with the samples (C100); runs by the states of C148 |
| C160 | optimizers that share a model can be used in turn | every call fits the model before it uses it, since the number of acquisitions is reset (`SameCall`); induction over the interleaving |
| C161 | given model and acquisition objects are used | identities of objects: which model is fitted, which is asked, which optimizer gets the context (`Model/Parts`); equality with `stdSuggest`, so that the theorems on suggestions apply; with an acquisition function that raises, no evaluator returns |
| C162 | unit of the costs | order isomorphism carried through `anchorPoints`, `applyOptimizer`, `acqOptimize` and all evaluators (`OrderOnly`, `SameOrder`), then through whole runs; the logarithm of the penalized acquisition bounded by its tangent |
| C163 | asynchronous workers | invariant over schedules of questions, answers and failures (`Pool`, `PoolInv`): permutation of what was handed out into data, pending and given up |
| C164 | sensitivity coefficients of gSobol | variance of the conditional mean under a product measure (`firstOrder`), computed for products of functions of one variable by Fubini; integrals of a factor by pieces |
| C165 | a larger batch extends a smaller one | prefix order of the results of two calls (`C165_larger_batch_partial`); fewer anchor points are the first of more, the loop with the smaller batch stops on the way of the other |
| C166 | runs with a seed | the generator as state passed from call to call (`Model/Seeds.lean`); a run with a seed is a run with numbers given per iteration in advance (`C166_run_partial`), by simulation; with C45 for runs in parts |
| C167 | interrupting an optimization | the objects between any two statements of a run as a list (`Model/Interrupt.lean`), tied to the run by its last element (`C167_last_moment`); invariants over the list by induction on the rounds; continuing by the simulation of C45 |
| C168 | values of a variable as a set | relation of the spaces built from two descriptions (`Listed`, `Lemmas/Listing.lean`), variable by variable; suggestions and runs by the correspondence of C151–C156, which now takes a set of rows where rounding corresponds |
| C169 | local penalization with `inf` and `nan` | numbers extended by infinities and `nan`, exponential with underflow and overflow (`Model/LPSpecial.lean`); equality with the real model in the safe range by cases, outside it the special values are computed |
| C170 | acquisitions on arrays | arrays with shapes and broadcasting (`Model/Broadcast.lean`); each operation on columns and matrices with one row per location keeps that form, so the expressions do |
| C171 | infinite outputs | extended reals for the results, the numbers of C169 for normalization and times (`Model/Infinite.lean`); sums and minima with an infinite entry by induction |
| C172 | regret of search by expected improvement | `Trusted` (intervals contain the objective, incumbent is the smallest mean at the data) as the specification; convexity of the standardized improvement gives upper and lower bounds of EI by the improvement and the width; the improvements of a run telescope; probability as in C148 |
| C173 | acquisitions too small for a double | `Underflow` (monotone rounding, exponential and error function zero below 2^-1080) as the specification; Mills ratio for the tail of the error function; acquisitions that agree on the domain have the same suggestion; convexity gives the lower bounds up to 36 deviations |
| C174 | variables with one value | `LeftOut` as the specification (values, kinds and constraints of the two problems); `fill` for the columns and for the variables is a correspondence in the sense of C155; the draws of the smaller problem are found by counting the free variables |
| C175 | numbers of the categories | `Renumbered` as the specification (a permutation of the categories of every variable, constraints for the new numbers); columns are permuted inside the blocks (`recode`), which commutes with one-hot codes and with the greatest column where it is unique; a correspondence in the sense of C155 on encoded rows; distances less than 1 see only whether categories are equal |
| C176 | regret of search by the probability of improvement | `Trusted` as in C172; the standardized improvement at a sample is at least `-w`, so it is at least `-w'` at the suggestion; gains telescope, and each is the jitter less the widths; probability as in C148 |
| C177 | noisy objectives | any relation between locations and outputs is an invariant of the data (induction over the rounds); the optimum is a minimum of the outputs (C39), so noise enters once for the value and twice for the location; the bound of C148 with the relation instead of the values |
| C178 | search with constraints | the local optimum is as good as every sample (C100); a positive acquisition at a feasible sample makes its weighted value negative, and infeasible locations have the value zero; induction over the rounds; bound as in C148, with outputs below the shift for the other samples |
| C179 | search with batches | the first location of a batch is the suggestion made alone (C165), for local penalization with its own acquisition (`firstEnv`, `OrdersLike`); states before every batch by induction over the rounds; bounds as in C148 and C177 |
| C180 | constraints and batches | anchor points are rows of the constrained design, hence feasible; an optimum found from a feasible anchor point has a negative value of the acquisition function, and an infeasible location the value zero; invariant over batch loop and rounds. Negation: a bound on the logarithm of the normal distribution function, for a penalizer of large Lipschitz constant |
| C181 | expected improvement with constraints | suggestions are feasible by C178; the belief is replaced by the objective outside the feasible set (`Belief.within`), where it then contains the objective trivially, so that the sum of C172 (`improvement_sum`) applies |
| C182 | probability of improvement with constraints | as C181: feasible suggestions by C178, `Belief.within`, and the sum of the gains of C176 (`jitter_sum`) |
| C183 | batches by expected improvement and by the probability of improvement | the first location of a batch has the least computed acquisition of all new samples (`least_first`, shared with C179); the sums of C172 and C176 only need that the best value so far is a value at the data (`batches_best`); errors of logarithms by `1 - exp (-2ρ) ≤ 2ρ` |
| C184 | the first location of a penalized batch meets the constraints | the first location has the least value without penalizers of all samples (`least_first`, for any constraints), the samples are feasible (`sampled_feasible`), and the transformations are strictly above their value at zero |
| C185 | expected improvement per cost | the sums of C172 hold for any factor of at least one (`improvement_total`); costs between lo and hi multiply the expected improvement that a sample may have by at most hi / lo (`costly_step`) |
| C186 | probability of improvement per cost | as C183 for `MPI` with `costly_probability`: costs between lo and hi leave the suggestion at least lo / hi of the probability of every sample |
| C187 | batches by EI and MPI with constraints | `least_first` with `Separates` of C184 makes the first location feasible (`feasible_first`); then as C183 with the order on feasible locations |
| C188 | integrated expected improvement | every sample satisfies the step of C172 with its own, signed, error (`improvement_new`); the mean of the errors is the error of the acquisition and at most the jitter more (`eiMcmcTerm_near`, `integrated_units`) |

## 4. Trusted base

* Lean 4.33.0 kernel.  Every theorem of the manifest depends on a subset of `propext`, `Classical.choice`,
  `Quot.sound`; the list per theorem, as printed by `#print axioms`, is in `AXIOMS.md`.  No axiom is added, no
  `sorry`, `native_decide`, `bv_decide`, `implemented_by` or `unsafe` is used.
* The faithfulness of the hand-written model.  Comments cite the lines each definition mirrors; the theorems say
  nothing about lines that are not cited.
* Exact arithmetic (`ℚ`, `ℝ`) in place of floating point, except in C136 (relative error of every operation), C173 (underflow) and C128–C130 (roundings to
  nearest): rounding, overflow, underflow, `nan` and `inf` are not modelled, except where a comment says how a `nan` or `inf` arises (`Model/Epmgp`, `Model/EntropySearch`) and in `Model/NaN`.
* Assumed behaviour of third-party code, always a parameter or a hypothesis:
  * `csv.writer`, `csv.reader` and the newline translation of text files are transcribed (`Model/Csv`);
  * numpy: indexing, slicing, `concatenate`, `argmin`/`argmax` (first extremum), `np.any`, broadcasting as in
    `Py.lean` and the comments; `np.argsort` returns a sorting permutation (`IsArgsort`, any order of ties);
    `np.random` returns any numbers of the documented range (`UnitDraw`, `UnitOracle`);
  * pyDOE `lhs` and `sobol_seq`: any points of the unit cube (`UnitPts`), a Latin hypercube for C76;
  * scipy L-BFGS, DIRECT, CMA: any function from a start to a location of the right length (`OptShape`), may raise;
  * GPy: a posterior (mean, variance, covariance, gradients) that is a parameter; the hypotheses used are
    differentiability (C58–C62, C80), positive variance, symmetric positive (semi-)definite covariance (C82, C90);
  * `multiprocessing`: the transition system of `Model/Parallel` (pipes with a capacity, join, scheduling);
  * the clock: any sequence of readings (monotone where a theorem says so).
* Python semantics of the fragment used: evaluation order, exceptions, dictionaries with insertion order, truth
  value of arrays.

## 5. What is modelled

| source (`GPyOpt/…`) | modelled in | not modelled |
|---|---|---|
| `core/task/variables.py` | `Model/Variables` | `__repr__`-like helpers |
| `core/task/space.py` | `Model/Space`, `Model/ConstraintExpr` (expressions of constraints; elsewhere a constraint is a function of one location that may raise), `Model/ConstraintThreads`, `Model/Descriptions` (which objects a space shares with the caller) | expressions with division, comparison and other functions of numpy; `get_subspace` as used by the anchor generator only |
| `core/task/objective.py` | `Model/Cost` (sequential), `Model/Parallel`, `Model/ParallelRun` (in the loop), `Model/RawObjective` | printing, `objective_name` |
| `core/task/cost.py` | `Model/Cost`, `Model/CostGP` | – |
| `core/bo.py` | `Model/BO`, `Model/Memory` (aliasing of arrays), `Model/Report`, `Model/Csv` (result files as characters), `Model/Crash` (files while they are written), `Model/Interrupt` (the object while a run is on), `Model/Rows`, `Model/Evaluators` (`_compute_next_evaluations`) | text formatting of the report and of numbers, encoding of files, `_print_convergence` (never called) |
| `core/evaluators/*` | `Model/Evaluators`, `Model/Seeds` (order of the draws) | – |
| `experiment_design/*` | `Model/Design` | the generators of the libraries |
| `optimization/anchor_points_generator.py` | `Model/Anchor`, `Model/Thompson` | – |
| `optimization/acquisition_optimizer.py` | `Model/Optimizer`, `Model/Context` | – |
| `optimization/optimizer.py` | `Model/Optimizer`, `Model/LocalOptimizer` | scipy, DIRECT and cma themselves (a contract in C98, any function elsewhere) |
| `util/duplicate_manager.py` | `Model/Duplicate` | – |
| `util/general.py` | `Model/General`, `Model/Acquisition` (`get_quantiles`), `Model/Benchmarks` (`reshape`), `Model/Helpers` | `spawn` |
| `util/arguments_manager.py` | `Model/Selection` | – |
| `util/epmgp.py` | `Model/Epmgp`, `Model/EntropySearch` | `nan`/`inf` of floating point |
| floating-point rounding of designs, normalization, rounding to the domain | `Model/Float` (roundings to nearest with `p` binary digits as a parameter) | overflow, underflow, `nan`, summation of eight or more numbers (arbitrary in the order theorem), rounding of bandit variables |
| floating-point rounding of EI, MPI and LCB | `Model/FloatAcq` (relative error of every operation and library call as a parameter), `Model/Underflow` (gradients, weights; underflow of the library calls) | overflow, integrated acquisitions; errors of gradients |
| `util/mcmc_sampler.py` | `Model/OtherModels` (start and checks of emcee) | the walk of emcee (a parameter) |
| `util/io.py` | `Model/OutputFiles` | – |
| `util/stats.py` | – | has no code |
| `acquisitions/base.py`, `EI*.py`, `MPI*.py`, `LCB*.py` | `Model/AcqBase`, `Model/Acquisition`, `Model/AcqCost`, `Model/Broadcast` (arrays) | warnings |
| `acquisitions/LP.py` | `Model/LocalPenalization`, `Model/LPSpecial` (with `inf` and `nan`), `Model/Broadcast` (several rows) | – |
| `acquisitions/ES.py` | `Model/EntropySearch` | – |
| `models/gpmodel.py` | `Model/GPModel`, `Model/EntropySearch` (`predict_covariance`) | GPy itself, kernels, plotting |
| `models/rfmodel.py`, `warpedgpmodel.py`, `input_warped_gpmodel.py` | `Model/Selection` (methods present, warped columns), `Model/OtherModels` (predictions, noise, warping range) | GPy, scikit-learn |
| `methods/bayesian_optimization.py` | `Model/Constructor`, `Model/Parts` (model and acquisition objects), `Model/Selection`, `Model/CostGP`, `Model/BO` (maximization) | printing |
| `methods/modular_bayesian_optimization.py` | `Model/BO` (`boInit`), `Model/Report` (missing attributes) | the printed message |
| `interface/*` | `Model/Interface`, `Model/Driver`, `Model/ConfigMem` (dictionaries in memory), `Model/OutputFiles` (files of reports and loggers) | JSON and file reading (parameters), text formatting |
| `objective_examples/*` | `Model/Benchmarks`, `Model/Sobol`, `Model/Plots` (the contour plot) | drawing |
| `plotting/*` | `Model/Report` (the data that are drawn), `Model/Plots` (grids, curves, contours, axis limits, marks) | drawing, labels |

Simplifications that matter:

* Matrices are lists of rows; a model function that numpy evaluates on an array is applied row by row. For the acquisitions C170
  proves that this is what broadcasting does.
* Random sources are read from oracles indexed by the round, so that a theorem for all oracles covers all seeds. `Model/Seeds`
  has the shared generator instead, for random designs, anchor points, the evaluators and the restarts of fits; C166 shows that
  the two agree. Not in it: other designs, CMA, anchor points of the acquisition by Thompson sampling, cost models and objectives
  that draw.
* Loops that may not terminate take fuel; theorems are about every fuel, and say when enough fuel exists.
* The optimizer object is one record (`BOState`) and each method returns the state *also* when it raises, so that
  crash points are visible.
* The loop (`Model/BO`) evaluates the rows of a batch one after the other. The code does so for a batch size of one
  and uses worker processes otherwise (C95); C48 says that the values are the same whenever the processes return.
* `Model/BO` treats arrays as values. `Model/Memory` has them at addresses (evaluation in one process; worker processes
  get copies) and C123 shows when the two agree.
* `Model/Interrupt` has the object between any two statements that change it, the calls of the objective and of the fit. Inside
  GPy, a half-fitted model is not in it; `C167_resume_partial` refits before every suggestion.
* Bandit variables: the model follows the code; most theorems exclude them by hypothesis because the code is wrong
  for several of them (C06, C07, C14, C20).

## 6. Disagreements between code and documented behaviour

Each of these is proved about the model (theorem names in `MANIFEST.json`); the code is left as it is.

| where | what | property |
|---|---|---|
| `space.py` bandits | rounding, columns and designs of more than one bandit variable are wrong; the continuous dimensions cannot be asked for | C06, C07, C14, C20 |
| `space.py:_translate_space` | a descriptor with `dimensionality` and no `name` raises `KeyError` | C08 |
| `space.py` names | two variables of the same name shadow each other | C09 |
| `duplicate_manager.py:31-35` | an all-zero list of pending or ignored points counts as no list (`np.any`) | C21, C28 |
| `anchor_points_generator.py:28-34` | the space of the free variables gets the constraints of the full space | C75, section 5 |
| `batch_random.py`, base | batch size one, or an all-zero optimum, is repeated | C29, C165 |
| `batch_local_penalization.py` | duplicates are checked for the first point of a batch only | C33 |
| `acquisitions/base.py` | constraint weights multiply values of either sign, so an infeasible point can be preferred | C34 |
| `acquisitions/base.py` | constraints see decoded rows only if the dimensionalities differ | C75 |
| `bo.py:153-156` | locations are stored before the objective is called; an exception leaves `X` longer than `Y` | C40 |
| `objective.py:86-101` | an exception in a worker or a full pipe blocks for ever; zero processes return zeros | C48–C50 |
| `objective.py:96`, `cost.py:64` | a parallel evaluation reports one time for several rows | C51 |
| `bayesian_optimization.py:112-178` | the cost model that is updated is not the one the acquisition uses | C52 |
| `EI_mcmc.py:37-38` | the jitter has the opposite sign of `EI.py`: a larger jitter prefers the certain location | C61, C125, C126 |
| `LP.py` | the gradient of the penalizer lacks the direction; the default transform's gradient is `1/g` for `log(g+1e-50)`; softplus values and gradients switch at different points; a square root is taken of a deviation | C62, C81 |
| `gpmodel.py:137-142` | the gradient of a clipped variance is not zero | C58, C80 |
| `gpmodel.py:GPModel_MCMC.copy` | passes arguments the constructor does not have | C78 |
| `gpmodel.py:95-112` | off-diagonal covariances are clipped at `1e-10` | C91 |
| `gpmodel.py:257-343` | parameters are not restored when a prediction raises | C65 |
| `arguments_manager.py`, `models/__init__.py` | unknown evaluators give no error; documented model names are not accepted; local penalization twice raises `UnboundLocalError` | C68, C69 |
| `input_warped_gpmodel.py:51-57` | the warped columns are objective columns | C70 |
| `rfmodel.py`, `warpedgpmodel.py` | `get_model_parameters` is missing and the loop calls it | C77 |
| `driver.py:100-119` | `run` raises `TypeError`; minutes are passed as seconds; `'NA'` reaches the loop | C74 |
| `epmgp.py:83-118` | `Zm` is squared elementwise instead of as an outer product in the second derivative; the predicted change of entropy search is affected (a posterior with two points is given) | C83, C88 |
| `epmgp.py:223-235` | messages below a threshold are replaced by it, which is wrong for differences of large variance (never for variances in [1e-20, 20] and five deviations) | C85, C86 |
| `epmgp.py:146-153` | the convergence measure sums `abs(d)` where `d` is the maximum of *signed* changes, so large negative changes are not seen | section 5 (modelled as it is) |
| `ES.py:85-112` | representer points and belief are computed once and never again | C89 |
| `objective_examples` | stated optima of `beale`, `dropwave`, `cosines`, `forrester` are wrong; `alpine1` with noise returns an n×n array; wrong dimensions return a string; `ackley.min` has one entry in every dimension | C73, C93 |
| `bayesian_optimization.py:106` | the batch size is passed as the number of processes | C95 |
| `bayesian_optimization.py:184-202` | outputs given without locations are discarded, lengths are not compared | C94 |
| `bayesian_optimization.py:111-178` | the initial design is evaluated before models, acquisitions and evaluators are checked | C96 |
| `bo.py:60-76`, `gpmodel.py:93` | a run of `n` and one of `m` iterations are not one of `n + m` with the same seed, because the extra fit draws restarts; asking for a suggestion moves the generator | C166 |
| `optimizer.py:44` | `df` without `f_df` raises `NameError` | C98 |
| `optimizer.py:171-214` | the optimum is rounded to the domain and can become worse than a sampled location | C100, C148 |
| `EI.py:23-40` (default `jitter=0.01`) | improvements smaller than the jitter may never be made, even if the model knows them | C172 |
| `MPI.py:23-41` | with `jitter=0` a sure gain of any size is preferred to a possible large one; with the default, improvements smaller than the jitter may never be made | C176 |
| `bo.py:206-212` | the outputs are reported as they are: with noise, `fx_opt` is the smallest noisy output and may be below every value of the objective, and `x_opt` may be twice the noise worse than another evaluated location | C177 |
| `base.py:33-40`, `LCB.py:35-41` | with `LCB`, a positive objective and no normalization the weight zero of an infeasible location is better than every feasible acquisition: the run evaluates and reports infeasible locations | C178 |
| `evaluators/base.py:60` | an acquisition optimum at the location zero is dropped from a batch, and with it the guarantee of the search | C165, C179 |
| `acquisitions/LP.py:70-89` | the penalty of local penalization has no bound, while a violated constraint only sets the acquisition to zero (and the transformed one to a finite value): the second location of a batch may violate the constraints although the acquisition of every feasible location is positive | C180 |
| `acquisitions/base.py:33-40` | where the acquisition is zero, for instance expected improvement rounded to zero, violated constraints are not seen: such a location may be suggested and reported | C181 |
| `EI.py:32-51`, `MPI.py:32-51` | forty deviations above the target the computed value and its gradient are exactly zero; with the default jitter this is everywhere once the model is sure, and the suggestion does not depend on the model | C173 |
| `bo.py:147`, `:214-221` | the last two rows are compared also when both are initial data: with a repeated observation at the end of the data the run ends without an evaluation, with another order of the data it does not | C149 |
| `bo.py:312-369` | `save_report` reads attributes that only `BayesianOptimization` has and raises in the middle of the file for `ModularBayesianOptimization`; `run_optimization` then does not write the evaluations it was asked for | C101, C102 |
| `bo.py:345` | compares the constraints with `True`: the report never mentions constraints | C101 |
| `bo.py:343`, `bayesian_optimization.py` | the report says that the cost is user defined whatever the cost is | C101 |
| `bo.py:337-341` | the number of bandits is the number of arms; arms with several columns raise | C101 |
| `bo.py:389-403` | `save_models` raises after a run that ended before the first model update | C102 |
| `bo.py:269-298` | `plot_acquisition` resets the number of acquisitions, the context and the recorded parameters; it plots the data of the last fit, and un-encoded data before the first | C103 |
| `bo.py:300-307` | `plot_convergence` raises before the first run and after a failed one | C104 |
| `anchor_points_generator.py:54-57` | the error of the fully explored domain is raised when all *sampled* points are duplicates, although points may be left | C106 |
| `rfmodel.py:87-92` | the trees are asked for single rows, which scikit-learn refuses from version 0.19 on | C107 |
| `gpmodel.py:63-69`, `warpedgpmodel.py:41-44`, `input_warped_gpmodel.py:78-82` | the noise variance is not passed on by sparse, warped and input-warped models | C108 |
| `input_warped_gpmodel.py:81-82` | the range of the inputs is fixed at the first update | C109 |
| `ES.py:47` | the input dimension counts continuous and discrete variables only, so that every space with a categorical variable is refused | C110 |
| `mcmc_sampler.py:51` | 50 walkers are refused by emcee for more than 25 variables | C110 |
| `EI.py:28-30`, `MPI.py:28-30` | `fromConfig` creates the plain acquisition also for the integrated classes that inherit it | C111 |
| `LCB.py`, `LP.py`, `ES.py`, models other than `GPModel` | no (working) `fromConfig`, the driver cannot create them; hence local penalization never works there | C111 |
| `space.py:305` | an expression that is not arithmetic of columns raises for several locations only, or mixes locations; a constant expression and a row sum of a vector always raise | C134 |
| `bo.py:372` | the file is opened with newline translation: on Windows there is an empty row after every row | C137 |
| `bo.py:247` | with `model_update_interval` > 1 a run resumed from the saved evaluations differs from one that was not interrupted | C138 |
| `space.py:305` | the compiled constraint is a global of the module, shared by all threads | C135 |
| `cost.py:64-72` | with evaluation-time costs the speed of the machine decides where the objective is evaluated | C141 |
| `space.py:212-214` | superfluous entries of a row are ignored | C142 |
| `variables.py:201` | the category -1 is the last one, and 1.7 is the category 1 | C142 |
| `space.py:335`, `variables.py:225` | a vector that ends within the last categorical variable is rounded to a row that is too narrow | C142 |
| `variables.py:130-131`, `space.py:215` | `objective_to_model` of a bandit space answers with an empty array for every row (`list += numpy number`) | C142 |
| `bo.py:153` | given data with a superfluous column are accepted, and the first iteration raises | C142 |
| `output.py:43`, `io.py:10` | experiments with the same names in the same second, or with the same `filename`, empty each other's logs | C143 |
| `bo.py:168-175`, `:319`, `:372` | evaluations are only written after the loop: killed or raising runs lose all of them; opening with `w` empties the previous file first; a cut last row can contain a wrong number | C144 |
| `space.py:90-98` | `fromConfig` replaces the texts in the configuration and fails on the result | C112 |
| `output.py:94-99` | the final iteration is not saved by savers with a positive interval | C67, C113 |
| `func_loader.py:15-19` | a relative project path is applied twice; other languages raise `UnboundLocalError` | C114 |
| `general.py:154-165` | one output column per input column | C115 |
| `general.py:19`, `:37` | asks for `num_hmc_samples`, which no model has | C115 |
| `anchor_points_generator.py:84-88` | zips over the samples of the parameters for MCMC models: several scores per location, and `IndexError` in the lookup | C118 |
| `acquisition_optimizer.py:66-67` | the Thompson sampling logic uses a Sobol design, which is refused in every constrained space | C118 |
| `bo.py:206-212`, `general.py:203-234` | one `nan` is reported as the optimum, and the model gets only `nan` | C119 |
| `objective.py:75`, `:99` | columns with several rows misalign the data; a missing output is replaced by another one in parallel evaluation | C120 |
| `LP.py:56` | compares a list with a number for MCMC models: every batch of two or more locations is a `TypeError` | C121 |
| `duplicate_manager.py:24-27` | an entirely zero matrix of pending or ignored points is dropped, so it matters which list a location is in | C21, C117 |
| `objective.py:73` with `bo.py:127`, `bayesian_optimization.py:195-199` | initial locations are evaluated in place: an objective that modifies its argument changes the recorded locations and the caller's array | C123 |
| `bo.py:203` | the model of the evaluation times gets the suggested array after the objective had it | C123 |
| `bo.py:211` | `x_opt` is a view of the recorded locations | C124 |
| `space.py:86`, `:87` | constraint dictionaries of the caller are written to and stay shared: a later change changes the constraints of the space | C145 |
| `space.py:119-128` with `anchor_points_generator.py:28-34` | shallow copies: if the caller changes a domain, anchor points in a context are sampled from the new domain, outside of the bounds | C145 |
| `anchor_points_generator.py:40`, `batch_random.py:28-35` | with de-duplication the samples are sorted and the first `5*batch_size` kept: random batches consist of the smallest unknown samples, not of random ones, and leave large locations unexplored | C146 |
| `variables.py:27-35`, `space.py:161-167` | names of the coordinates of a variable `x` (`x_1`, `x_2`) can collide with other variables; the later one wins without a message, so that a context fixes another variable than the one meant | C147 |
| `plots_bo.py:76` with `:79` | the acquisition curve is drawn at minus the absolute value of the lowest point of the band: with a positive band it is outside the visible range | C127 |
| `plots_bo.py:140`, `bo.py:294` | suggestions are in objective coordinates, the plot is in model coordinates: a categorical variable with two categories raises IndexError | C127 |
| `general.py:220-223` | equal outputs can be normalized to a constant other than zero, since the rounded mean differs from them and the rounded deviation is positive | C129 |
| `bo.py:147` | the default tolerance is absolute, in the units of the variables: a run in kilometres stops where the same run in metres goes on | C154 |
| `LP.py:68`, `batch_local_penalization.py:37` | penalizers are balls in the units of the variables: other units of one variable change which locations are penalized | C154 |
| `evaluators/base.py:60`, `duplicate_manager.py:24-27` | an optimum or a pending point at the origin is ignored; fixing a variable at a non-zero value changes that, so a context is not quite a smaller problem | C155 |
| `anchor_points_generator.py:40`, `sobol_design.py`, `grid_design.py` | samples without repetition are sorted by their columns (a Python set put through `sorted`) before the first ones are kept, Sobol columns and grid rows go by position: listing the variables in another order gives other suggestions | C157 |
| `grid_design.py:20-43`, `evaluators/base.py:60` | a continuous variable with equal bounds still counts as a direction of a grid, so the grid is coarser; a random batch with duplicate logic keeps an optimum at the origin if such a variable is not zero, and drops it without the variable | C174 |
| `bo.py:147` with `:214-221`, `anchor_points_generator.py:40`, `variables.py:226` | the stopping rule takes distances between numbers of categories, samples without repetition are sorted by these numbers, and of equally great columns of a category the first is taken: other numbers for the same categories give other runs | C175 |
| `bayesian_optimization.py:190-197`, `bo.py:126-129` | the times of the initial evaluations reach the cost model only if the run evaluates them; the constructor drops them | C158 |
| `bayesian_optimization.py:147-155` with `bo.py:258` | an acquisition object passed without its model keeps its own model, which the loop never fits: the first suggestion raises, or suggestions ignore the data | C161 |
| `bo.py:232` with `arguments_manager.py:37` | with an acquisition object, local penalization optimizes with another optimizer than the one that gets the context: the context is ignored | C161 |
| `bayesian_optimization.py:129` with `arguments_manager.py:33` | a model object changes `model_type` to a message, so that local penalization is refused for every model object, also Gaussian processes | C161 |
| `arguments_manager.py:36-38` | an `AcquisitionLP` object with local penalization is an `UnboundLocalError` | C161 |
| `bayesian_optimization.py:149-153` | a name in the deprecated keyword `acquisition` is ignored, although the documentation says that it can be used | C161 |
| `cost.py:30`, `:42-48` | modelled evaluation times depend on the unit of time: far from the data the predicted cost is 1, in seconds as in milliseconds | C162 |
| `LP.py:83` | the constant `1e-50` is not in the unit of the acquisition: with other units of the cost another location of a batch may be best | C162 |
| `duplicate_manager.py:24` with `batch_local_penalization.py:22` | workers are given the same location although it is pending: when the only pending location is the origin, without de-duplication (the default), and always with local penalization | C163 |
| `experimentsNd.py:81`, `:86` | `S_coef` of `gSobol` are the sensitivity indices on the unit cube, but the default bounds are (-4, 6) | C164 |
| `experimentsNd.py:85` | a message returned from `__init__` of `gSobol` is a `TypeError` | C164 |
| `bo.py:153`, `:204` | an interrupt while a batch is evaluated leaves locations without outputs; another run then pairs outputs with wrong locations and reports a wrong optimum | C167 |
| `cost.py:73-74` | an interrupt after the first update of the evaluation-time cost is counted makes every later evaluation an `AttributeError` | C167 |
| `objective.py:54` | with several processes the bare `except:` swallows the interrupt and evaluates everything again, one after the other | C167 |
| `bo.py:167` | after an interrupt `x_opt` and `fx_opt` are those of the run before, or missing, although the data are there | C167 |
| `variables.py:183-185` | half way between two values the order of the list decides which one rounding takes, so suggestions depend on how the user sorted the values | C168 |
| `random_design.py:45` | a discrete value that is listed twice is drawn twice as often | C168 |
| `LP.py:79-80`, `:120` | with a lower confidence bound above 746 (outputs around 1000, not normalized) the exponential underflows: the penalized acquisition is `inf` and its gradient `nan` at every location, and the scores of the candidates do not depend on the model | C169 |
| `LP.py:120` | with a lower confidence bound below −710 the scale of the gradient is `1/inf`, so the reported gradient of the acquisition is zero everywhere | C169 |
| `LP.py:123` | `1./fval` at a location where the improvement is zero, for example an infeasible one: the gradient is `nan` (the value has a guard, `log(fval+1e-50)`) | C169 |
| `LP.py:100` | at a point of the batch, an ordinary candidate over discrete variables, the gradient of its penalizer is a division by zero | C169 |
| `LP.py:118-131` | the scale of the gradient has shape `(n,)` and the gradient `(n, d)`: for several locations at once the gradient is wrong (`n = d`), of the wrong shape (`d = 1`) or raises | C170 |
| `acquisitions/base.py:40` | a user-defined cost that returns an array of one dimension makes the acquisition of `n` locations an `(n, n)` array | C170 |
| `util/general.py:220-223` | one output `inf` makes every normalized output `-inf` or `nan`, so the model gets no number at all | C171 |
| `util/general.py:225-230` | one output `inf` makes every other output −1 after the normalization by the range | C171 |
| `cost.py:64` | a measured time of zero is given to the cost model as `-inf` | C171 |
| `bo.py:147` | the eps criterion compares the last two rows of `X`, also inside a batch | C38 (as specified) |
| `bo.py`, `bayesian_optimization.py` | maximization negates only outputs the optimizer evaluates, not given ones | C46 |

## 7. How the theorems are tested

Realistic bugs are put into a scratch copy of the model, everything is rebuilt, and the theorems whose proofs fail
are recorded in `seeded/LOG.jsonl` (one line per edit).  If a claim is made false by an edit and none of its
theorems fails, the theorem is strengthened.
