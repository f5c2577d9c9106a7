{"id": "C01", "title": "Encode/decode round trip", "statement": "Encoding a valid objective-space matrix with Design_space.unzip_inputs and decoding it with zip_inputs returns exactly the same matrix, for spaces mixing continuous, discrete and categorical variables.", "quantifier": "all non-bandit space configurations, all matrices with at least one row whose rows are valid", "why_tests_cant": "infinitely many space layouts and rows; tests try a handful of layouts", "anchors": ["GPyOpt/core/task/space.py:Design_space.unzip_inputs", "GPyOpt/core/task/space.py:Design_space.zip_inputs", "GPyOpt/core/task/variables.py:CategoricalVariable.objective_to_model", "GPyOpt/core/task/variables.py:CategoricalVariable.model_to_objective"]}
{"id": "C02", "title": "Decode/encode round trip", "statement": "Decoding an in-domain model-space row (one-hot blocks for categoricals) and encoding it again returns the row, so the two representations are in bijection on the domain and two different domain points never encode to the same model row.", "quantifier": "all non-bandit space configurations, all in-domain model rows", "why_tests_cant": "needs every layout and every row", "anchors": ["GPyOpt/core/task/space.py:Design_space.objective_to_model", "GPyOpt/core/task/space.py:Design_space.model_to_objective"]}
{"id": "C03", "title": "Rounding always lands in the domain", "statement": "Design_space.round_optimum maps any vector of model dimension (whatever the local optimizer returned, in or out of bounds) to a single row that lies in the model-space domain.", "quantifier": "all non-bandit spaces with non-empty domains, all vectors", "why_tests_cant": "optimizer output is arbitrary; tests use a few literals", "anchors": ["GPyOpt/core/task/space.py:Design_space.round_optimum", "GPyOpt/core/task/variables.py:ContinuousVariable.round", "GPyOpt/core/task/variables.py:DiscreteVariable.round", "GPyOpt/core/task/variables.py:CategoricalVariable.round"]}
{"id": "C04", "title": "Rounding fixes domain points", "statement": "round_optimum returns a point that is already in the domain unchanged; consequently it is idempotent.", "quantifier": "all non-bandit spaces, all in-domain rows", "why_tests_cant": "universal over rows and layouts", "anchors": ["GPyOpt/core/task/space.py:Design_space.round_optimum"]}
{"id": "C05", "title": "Rounding picks the nearest value", "statement": "Per variable, round_optimum returns the closest admissible value: the clamp for continuous, the first closest domain value for discrete, the first category with maximal weight for categorical.", "quantifier": "all non-bandit spaces with non-empty domains, all vectors", "why_tests_cant": "universal over values and domains (ties, unsorted domains)", "anchors": ["GPyOpt/core/task/variables.py:ContinuousVariable.round", "GPyOpt/core/task/variables.py:DiscreteVariable.round", "GPyOpt/core/task/variables.py:CategoricalVariable.round"]}
{"id": "C06", "title": "Bandit rounding returns the nearest arm", "statement": "For a space made of bandit variables round_optimum returns one row which is the concatenation, over the variables, of the closest arm of each variable.", "quantifier": "all bandit spaces, all vectors", "why_tests_cant": "universal; the multi-variable case is never tested", "anchors": ["GPyOpt/core/task/variables.py:BanditVariable.round", "GPyOpt/core/task/space.py:Design_space.round_optimum"]}
{"id": "C07", "title": "Model column layout", "statement": "The model columns recorded for each variable (used to place context values) are disjoint contiguous blocks that tile 0..model_dimensionality-1, in the order and with the widths used by encoding, decoding, rounding and get_bounds.", "quantifier": "all space configurations without bandit variables", "why_tests_cant": "depends on arbitrary mixtures and dimensionalities", "anchors": ["GPyOpt/core/task/space.py:Design_space._compute_variables_indices", "GPyOpt/core/task/space.py:Design_space.model_to_objective", "GPyOpt/core/task/space.py:Design_space.get_bounds"]}
{"id": "C08", "title": "Space configuration validation", "statement": "A list of variable descriptors is accepted exactly when every descriptor has a domain, a known type and (for bandits) arms of equal length, and bandit variables are not mixed with other types; the reported error is InvalidConfigError for these causes.", "quantifier": "all descriptor lists", "why_tests_cant": "all combinations of valid and invalid descriptors", "anchors": ["GPyOpt/core/task/space.py:Design_space._translate_space", "GPyOpt/core/task/variables.py:create_variable", "GPyOpt/core/task/variables.py:BanditVariable.__init__"]}
{"id": "C09", "title": "Variable lookup by name", "statement": "If the expanded variable names are distinct, find_variable(name) returns the unique variable with this name and its recorded objective column is its position in the expanded list; an unknown name raises InvalidVariableNameError.", "quantifier": "all spaces, all names", "why_tests_cant": "universal over spaces; also name collisions (x with dimensionality 2 vs. a variable called x_1)", "anchors": ["GPyOpt/core/task/space.py:Design_space.find_variable", "GPyOpt/core/task/space.py:Design_space._create_variables_dic", "GPyOpt/core/task/variables.py:Variable.expand"]}
{"id": "C10", "title": "Legacy bounds conversion", "statement": "Building a Design_space from bounds_to_space(bounds) succeeds and its get_bounds() is exactly bounds.", "quantifier": "all lists of bounds", "why_tests_cant": "any length and values", "anchors": ["GPyOpt/core/task/space.py:bounds_to_space", "GPyOpt/core/task/space.py:Design_space.get_bounds"]}
{"id": "C11", "title": "Constraint indicator", "statement": "indicator_constraints returns, for every row, 1 exactly when every constraint evaluates to a value <= 0 on the row, else 0; the legacy key 'constrain' behaves like 'constraint'; a space with no constraints gives 1 everywhere.", "quantifier": "all constraint lists, all rows", "why_tests_cant": "universal over constraints and rows", "anchors": ["GPyOpt/core/task/space.py:Design_space.indicator_constraints", "GPyOpt/core/task/space.py:Design_space.__init__"]}
{"id": "C12", "title": "Bounds enclose the domain", "statement": "get_bounds() has one interval per model column and every in-domain model row lies inside the box; each discrete bound is attained.", "quantifier": "all non-bandit spaces, all in-domain rows", "why_tests_cant": "universal", "anchors": ["GPyOpt/core/task/space.py:Design_space.get_bounds", "GPyOpt/core/task/variables.py:DiscreteVariable.get_bounds", "GPyOpt/core/task/variables.py:CategoricalVariable.get_bounds"]}
{"id": "C13", "title": "Expanded configuration describes the same variables", "statement": "Re-building a space from the expanded configuration (as anchor point generation does for the non-context variables) gives variable by variable the same types and domains as the original expanded space.", "quantifier": "all non-bandit configurations", "why_tests_cant": "every mixture of descriptors with and without names and dimensionalities", "anchors": ["GPyOpt/core/task/space.py:Design_space._expand_config_space", "GPyOpt/core/task/space.py:Design_space._expand_space", "GPyOpt/optimization/anchor_points_generator.py:AnchorPointsGenerator.get"]}
{"id": "C14", "title": "Dimension counts are consistent", "statement": "For non-bandit spaces dimensionality, objective_dimensionality and the number of expanded variables coincide, continuous and discrete dimension lists are exactly the positions of the variables of these types, and there is one continuous bound per continuous dimension; for bandit variables with several columns asking for the continuous dimensions fails.", "quantifier": "all spaces", "why_tests_cant": "every mixture", "anchors": ["GPyOpt/core/task/space.py:Design_space.get_continuous_dims", "GPyOpt/core/task/space.py:Design_space.get_continuous_bounds", "GPyOpt/core/task/space.py:Design_space.input_dim"]}
{"id": "C15", "title": "Random design stays in the domain", "statement": "The random initial design returns exactly the requested number of rows and every row is a valid point of the objective domain, whatever the random generator returns.", "quantifier": "all non-bandit spaces with categorical domains 0..K-1, all counts, all random streams", "why_tests_cant": "random output; all spaces", "anchors": ["GPyOpt/experiment_design/random_design.py:RandomDesign.get_samples_without_constraints", "GPyOpt/experiment_design/random_design.py:RandomDesign.fill_noncontinous_variables"]}
{"id": "C16", "title": "Constrained random design", "statement": "With constraints, whenever the random design returns, it returns exactly the requested number of rows, all in the domain and all satisfying every constraint; if no sampled point ever satisfies the constraints it never returns.", "quantifier": "all non-bandit constrained spaces, all random streams, all numbers of rounds", "why_tests_cant": "rejection loop with unbounded number of rounds", "anchors": ["GPyOpt/experiment_design/random_design.py:RandomDesign.get_samples_with_constraints"]}
{"id": "C17", "title": "Latin and Sobol designs", "statement": "Latin and Sobol designs return exactly the requested number of rows, all in the domain, and refuse constrained spaces with InvalidConfigError.", "quantifier": "all non-bandit spaces, all unit-cube point sets produced by the libraries", "why_tests_cant": "third-party point sets are arbitrary", "anchors": ["GPyOpt/experiment_design/latin_design.py:LatinDesign.get_samples", "GPyOpt/experiment_design/sobol_design.py:SobolDesign.get_samples"]}
{"id": "C18", "title": "Integer root", "statement": "iroot(k, n) terminates and returns the greatest integer whose k-th power is at most n.", "quantifier": "all k >= 1, n >= 1", "why_tests_cant": "unbounded integers", "anchors": ["GPyOpt/experiment_design/grid_design.py:iroot"]}
{"id": "C19", "title": "Grid design", "statement": "The grid design returns m^d rows where m is the largest integer with m^d <= n (d the number of continuous dimensions); the continuous part contains every combination of the m equally spaced values per dimension exactly once, and every row is in the domain.", "quantifier": "all non-bandit spaces with at least one continuous variable, all n >= 1", "why_tests_cant": "all dimensions and sizes", "anchors": ["GPyOpt/experiment_design/grid_design.py:GridDesign.get_samples", "GPyOpt/experiment_design/grid_design.py:multigrid"]}
{"id": "C20", "title": "Designs for bandit spaces", "statement": "For bandit spaces every row of the random design is a concatenation of arms, one per bandit variable.", "quantifier": "all bandit spaces, all random streams", "why_tests_cant": "multi-variable case untested", "anchors": ["GPyOpt/experiment_design/random_design.py:RandomDesign.fill_noncontinous_variables"]}
{"id": "C21", "title": "Duplicate detection", "statement": "The duplicate manager flags a configuration exactly when it is one of the evaluated, pending or ignored configurations, in either representation.", "quantifier": "all spaces, all evaluated/pending/ignored matrices, all configurations", "why_tests_cant": "universal over matrices including all-zero ones", "anchors": ["GPyOpt/util/duplicate_manager.py:DuplicateManager"]}
{"id": "C22", "title": "Context expansion", "statement": "Expanding a vector of the non-context variables with the context puts the encoded context value in the columns of each context variable and the given values, in order, in the other columns.", "quantifier": "all non-bandit spaces, all contexts, all vectors", "why_tests_cant": "all layouts and context subsets", "anchors": ["GPyOpt/optimization/acquisition_optimizer.py:ContextManager"]}
{"id": "C23", "title": "Context index partition", "statement": "Context and non-context model columns partition the model columns, non-context bounds are the bounds of the non-context columns in order, and non-context objective columns are those of the variables not in the context; unknown context names are rejected.", "quantifier": "all non-bandit spaces, all contexts", "why_tests_cant": "all layouts", "anchors": ["GPyOpt/optimization/acquisition_optimizer.py:ContextManager.__init__"]}
{"id": "C24", "title": "Anchor points", "statement": "Every anchor point is an in-domain model row carrying the context values and is not a known duplicate; their number is min(requested, non-duplicate samples); FullyExploredOptimizationDomainError is raised exactly when every sampled point is a duplicate.", "quantifier": "all non-bandit spaces, contexts with values of the domain, histories, random designs, scoring functions, sort tie-breaking", "why_tests_cant": "random designs and arbitrary acquisition values", "anchors": ["GPyOpt/optimization/anchor_points_generator.py:AnchorPointsGenerator.get"]}
{"id": "C25", "title": "Unique random anchor points", "statement": "With the uniqueness option the random anchor points are pairwise distinct; they are the lexicographically smallest non-duplicate sampled configurations (so they are not a random choice among the samples).", "quantifier": "all non-bandit spaces without constraints, all samples", "why_tests_cant": "universal over samples", "anchors": ["GPyOpt/optimization/anchor_points_generator.py:AnchorPointsGenerator.get", "GPyOpt/optimization/anchor_points_generator.py:RandomAnchorPointsGenerator"]}
{"id": "C26", "title": "Local optimization result", "statement": "Whatever the local optimizer returns, the result of apply_optimizer is an in-domain model row that keeps the context, is not a known duplicate when de-duplication is on, and comes with its own objective value.", "quantifier": "all non-bandit spaces, contexts with values of the domain, histories, optimizers, objectives", "why_tests_cant": "optimizer is arbitrary", "anchors": ["GPyOpt/optimization/optimizer.py:apply_optimizer", "GPyOpt/optimization/optimizer.py:OptimizationWithContext"]}
{"id": "C27", "title": "Acquisition optimizer returns the best candidate", "statement": "AcquisitionOptimizer.optimize returns one of the locally optimized anchor points together with the value of the acquisition there, which is minimal among them.", "quantifier": "all acquisition functions, spaces, random streams", "why_tests_cant": "universal over functions", "anchors": ["GPyOpt/optimization/acquisition_optimizer.py:AcquisitionOptimizer.optimize"]}
{"id": "C28", "title": "Sequential suggestion end to end", "statement": "With the sequential evaluator the suggested location, in objective coordinates, is one valid domain point, has the context values for the context variables, and with de-duplication differs from every evaluated, pending and ignored point.", "quantifier": "all spaces, histories, contexts, random streams, optimizers", "why_tests_cant": "whole pipeline, arbitrary history", "anchors": ["GPyOpt/core/bo.py:BO._compute_next_evaluations", "GPyOpt/core/evaluators/sequential.py:Sequential.compute_batch"]}
{"id": "C29", "title": "Random batch with de-duplication", "statement": "With de-duplication the random batch contains pairwise distinct in-domain points, none previously evaluated, pending or ignored, and at most batch_size of them.", "quantifier": "all spaces, histories, batch sizes, random streams", "why_tests_cant": "universal; batch_size 1 untested", "anchors": ["GPyOpt/core/evaluators/base.py:SamplingBasedBatchEvaluator.compute_batch", "GPyOpt/core/evaluators/batch_random.py:RandomBatch"]}
{"id": "C30", "title": "Thompson batch with de-duplication", "statement": "With de-duplication the Thompson batch is non-empty, has at most batch_size pairwise distinct in-domain points, none previously evaluated, pending or ignored.", "quantifier": "all spaces, histories, batch sizes >= 1, random streams", "why_tests_cant": "universal", "anchors": ["GPyOpt/core/evaluators/base.py:SamplingBasedBatchEvaluator.compute_batch", "GPyOpt/core/evaluators/batch_thompson.py:ThompsonBatch"]}
{"id": "C31", "title": "Batch size without de-duplication", "statement": "Without de-duplication the random batch has exactly batch_size rows (if enough samples are drawn) and the Thompson batch min(batch_size, anchor points) rows, all in the domain.", "quantifier": "all non-bandit spaces, batch sizes, random streams", "why_tests_cant": "universal", "anchors": ["GPyOpt/core/evaluators/batch_random.py:RandomBatch.compute_batch_without_duplicate_logic", "GPyOpt/core/evaluators/batch_thompson.py:ThompsonBatch.compute_batch_without_duplicate_logic"]}
{"id": "C32", "title": "Local penalization batch", "statement": "The local-penalization batch has exactly max(1,batch_size) points; the k-th point is optimized with penalizers around exactly the first k-1; when it returns the acquisition is left un-penalized.", "quantifier": "all batch sizes, all optimizers", "why_tests_cant": "stateful loop of any length", "anchors": ["GPyOpt/core/evaluators/batch_local_penalization.py:LocalPenalization.compute_batch", "GPyOpt/acquisitions/LP.py:AcquisitionLP.update_batches"]}
{"id": "C33", "title": "De-duplication holds for every evaluator", "statement": "With de-duplication on, no suggested location equals an evaluated, pending or ignored one, whichever evaluator is selected.", "quantifier": "all evaluators, histories", "why_tests_cant": "property across configurations", "anchors": ["GPyOpt/core/evaluators/batch_local_penalization.py:LocalPenalization.compute_batch", "GPyOpt/core/bo.py:BO._compute_next_evaluations"]}
{"id": "C34", "title": "Constraints and suggestions", "statement": "Suggested locations satisfy the constraints.", "quantifier": "all constrained spaces, acquisitions, contexts", "why_tests_cant": "acquisition value interplay with indicator weights", "anchors": ["GPyOpt/acquisitions/base.py:AcquisitionBase.acquisition_function", "GPyOpt/optimization/acquisition_optimizer.py:AcquisitionOptimizer.optimize"]}
{"id": "C35", "title": "Data stay aligned", "statement": "After any sequence of completed calls X and Y have the same number of rows and, if the initial outputs were evaluations of the objective, every Y row is the objective at the X row with the same index.", "quantifier": "all histories of suggest/run calls, all objectives", "why_tests_cant": "any history length", "anchors": ["GPyOpt/core/bo.py:BO.run_optimization", "GPyOpt/core/bo.py:BO.evaluate_objective"]}
{"id": "C36", "title": "History is append-only", "statement": "No call modifies or removes already collected evaluations: X and Y before a call are prefixes of X and Y after it.", "quantifier": "all histories of calls including failing ones", "why_tests_cant": "any history", "anchors": ["GPyOpt/core/bo.py:BO.run_optimization", "GPyOpt/core/bo.py:BO.suggest_next_locations"]}
{"id": "C37", "title": "Iteration budget", "statement": "run_optimization(max_iter=n) stops after at most n acquisitions, adds exactly one batch per acquisition and calls the objective exactly once per added row; without limits (both None) it performs none.", "quantifier": "all n, all batch sizes, all models and objectives", "why_tests_cant": "unbounded loop", "anchors": ["GPyOpt/core/bo.py:BO.run_optimization"]}
{"id": "C38", "title": "Stop conditions", "statement": "run_optimization stops precisely at the first iteration where the time budget is exhausted, the model cannot be fitted, the iteration budget is reached, or the last two locations are within eps.", "quantifier": "all schedules of times, fits and suggestions", "why_tests_cant": "all schedules", "anchors": ["GPyOpt/core/bo.py:BO.run_optimization", "GPyOpt/core/bo.py:BO._distance_last_evaluations"]}
{"id": "C39", "title": "Reported optimum", "statement": "After run_optimization fx_opt is the minimum of all collected outputs, x_opt is the location with this output (the earliest such), and Y_best is the running minimum: non-increasing, ending in fx_opt.", "quantifier": "all data", "why_tests_cant": "all data sizes", "anchors": ["GPyOpt/core/bo.py:BO._compute_results", "GPyOpt/util/general.py:best_value"]}
{"id": "C40", "title": "Failed objective evaluation", "statement": "If the objective raises during run_optimization the collected data stay aligned: X and Y keep the same number of rows.", "quantifier": "all crash points", "why_tests_cant": "crash points", "anchors": ["GPyOpt/core/bo.py:BO.run_optimization", "GPyOpt/core/bo.py:BO.evaluate_objective"]}
{"id": "C41", "title": "Suggesting does not change data", "statement": "suggest_next_locations leaves the collected X and Y unchanged, whether it succeeds or fails, and the next run starts from the same data.", "quantifier": "all histories", "why_tests_cant": "all histories", "anchors": ["GPyOpt/core/bo.py:BO.suggest_next_locations"]}
{"id": "C42", "title": "Model update interval", "statement": "In one run the model is refitted exactly at the acquisitions whose number is a multiple of model_update_interval, each time on all data collected so far (all of X encoded, all of Y normalized if requested).", "quantifier": "all intervals, all run lengths", "why_tests_cant": "any run length", "anchors": ["GPyOpt/core/bo.py:BO._update_model"]}
{"id": "C43", "title": "Recorded model parameters", "statement": "The number of recorded parameter rows is the number of acquisitions plus one when the run ends by budget or eps, and the number of acquisitions when it ends by time or by a failed fit. Row i holds the parameters the model had when location i was suggested.", "quantifier": "all runs", "why_tests_cant": "all runs", "anchors": ["GPyOpt/core/bo.py:BO._save_model_parameter_values"]}
{"id": "C44", "title": "No repeated evaluation in a whole run", "statement": "With de-duplication and the sequential evaluator, run_optimization never evaluates the objective twice at the same location nor at a location of the initial data.", "quantifier": "all non-bandit spaces, all runs, all lengths", "why_tests_cant": "any run length", "anchors": ["GPyOpt/core/bo.py:BO.run_optimization", "GPyOpt/optimization/optimizer.py:apply_optimizer"]}
{"id": "C45", "title": "Stepwise runs equal one run", "statement": "Running n then m iterations collects the same data as running n+m iterations when the model is refitted every iteration, time is unlimited, costs are not measured evaluation times and suggestions depend only on the data.", "quantifier": "all n, m, all policies", "why_tests_cant": "all lengths", "anchors": ["GPyOpt/core/bo.py:BO.run_optimization"]}
{"id": "C46", "title": "Maximization", "statement": "With maximize=True the run minimizes -f: -fx_opt is the maximum of f over the evaluated points and x_opt attains it, when initial outputs are evaluated by the optimizer.", "quantifier": "all objectives and data", "why_tests_cant": "all data", "anchors": ["GPyOpt/methods/bayesian_optimization.py:BayesianOptimization._sign"]}
{"id": "C47", "title": "Saved evaluations", "statement": "save_evaluations writes a header and one row per evaluation, from which X and Y can be recovered exactly; it fails if X and Y have different numbers of rows.", "quantifier": "all data", "why_tests_cant": "all data", "anchors": ["GPyOpt/core/bo.py:BO.save_evaluations"]}
{"id": "C48", "title": "Parallel evaluation equals sequential", "statement": "Evaluating a batch with any number of worker processes, under every interleaving of the workers, returns the outputs in row order, equal to the sequential evaluation.", "quantifier": "all numbers of processes >= 1, batch sizes, schedules", "why_tests_cant": "all interleavings", "anchors": ["GPyOpt/core/task/objective.py:SingleObjective._syncronous_batch_evaluation", "GPyOpt/util/general.py:spawn"]}
{"id": "C49", "title": "Worker failure falls back to sequential", "statement": "If the objective raises in a worker process, evaluation falls back to the sequential evaluation (and so reports the error).", "quantifier": "all crash points of workers, all schedules", "why_tests_cant": "crash points and schedules", "anchors": ["GPyOpt/core/task/objective.py:SingleObjective.evaluate"]}
{"id": "C50", "title": "Parallel evaluation is deadlock free", "statement": "Parallel evaluation terminates for every schedule.", "quantifier": "all payload sizes, schedules", "why_tests_cant": "OS pipe capacity", "anchors": ["GPyOpt/core/task/objective.py:SingleObjective._syncronous_batch_evaluation"]}
{"id": "C51", "title": "Cost model data", "statement": "With cost 'evaluation_time' the cost model is fitted on all locations and log-times given so far, in order; the predicted cost is positive.", "quantifier": "all histories of updates", "why_tests_cant": "any history", "anchors": ["GPyOpt/core/task/cost.py:CostModel.update_cost_model", "GPyOpt/core/task/cost.py:CostModel._cost_gp"]}
{"id": "C52", "title": "Evaluation-time cost through BayesianOptimization", "statement": "BayesianOptimization(cost_withGradients='evaluation_time') trains the cost model used by the acquisition on the measured evaluation times.", "quantifier": "all runs", "why_tests_cant": "whole-object wiring", "anchors": ["GPyOpt/methods/bayesian_optimization.py:BayesianOptimization.__init__", "GPyOpt/core/bo.py:BO.__init__", "GPyOpt/core/task/cost.py:CostModel.__init__"]}
{"id": "C53", "title": "Statistics normalization", "statement": "normalize(Y,'stats') has zero mean; it has unit standard deviation unless Y is constant, in which case it is zero; it preserves the order of the outputs, hence the incumbent.", "quantifier": "all non-empty real vectors", "why_tests_cant": "all vectors", "anchors": ["GPyOpt/util/general.py:normalize"]}
{"id": "C54", "title": "Range normalization", "statement": "normalize(Y,'maxmin') maps non-constant Y onto [-1,1] with the minimum at -1 and the maximum at 1, preserving order; constant Y maps to zeros.", "quantifier": "all non-empty vectors", "why_tests_cant": "all vectors", "anchors": ["GPyOpt/util/general.py:normalize"]}
{"id": "C55", "title": "Cartesian merge", "statement": "merge_values returns exactly all concatenations of a row of the first and a row of the second array, in lexicographic row order, |A|*|B| of them; merging with an empty array returns the other one.", "quantifier": "all matrices", "why_tests_cant": "all sizes", "anchors": ["GPyOpt/util/general.py:merge_values"]}
{"id": "C56", "title": "MCMC thinning", "statement": "The GP_MCMC model keeps exactly n_samples hyper-parameter samples after burn-in and thinning.", "quantifier": "all n_samples, n_burnin, subsample_interval >= 1", "why_tests_cant": "all sizes", "anchors": ["GPyOpt/models/gpmodel.py:GPModel_MCMC.updateModel"]}
{"id": "C57", "title": "Acquisition value ranges", "statement": "The expected improvement is non-negative and the probability of improvement lies in [0,1], for every mean, standard deviation, incumbent and jitter.", "quantifier": "all real m, fmin, jitter, s", "why_tests_cant": "real analysis", "anchors": ["GPyOpt/acquisitions/EI.py:AcquisitionEI._compute_acq", "GPyOpt/acquisitions/MPI.py:AcquisitionMPI._compute_acq", "GPyOpt/util/general.py:get_quantiles"]}
{"id": "C58", "title": "Expected improvement gradient", "statement": "The gradient reported by the EI acquisition is the derivative of the value it reports along any differentiable posterior mean and deviation, where the deviation exceeds the documented numerical threshold 1e-10.", "quantifier": "all differentiable posteriors", "why_tests_cant": "real analysis", "anchors": ["GPyOpt/acquisitions/EI.py:AcquisitionEI._compute_acq_withGradients"]}
{"id": "C59", "title": "MPI and LCB gradients", "statement": "The gradients reported by the MPI and LCB acquisitions are the derivatives of the values they report, for MPI where the deviation exceeds the documented numerical threshold 1e-10.", "quantifier": "all differentiable posteriors", "why_tests_cant": "real analysis", "anchors": ["GPyOpt/acquisitions/MPI.py:AcquisitionMPI._compute_acq_withGradients", "GPyOpt/acquisitions/LCB.py:AcquisitionLCB._compute_acq_withGradients"]}
{"id": "C60", "title": "Cost-weighted gradient", "statement": "The gradient returned by acquisition_function_withGradients is the derivative of the value acquisition_function returns, at points where the constraint indicator is locally constant.", "quantifier": "all differentiable acquisitions and positive costs", "why_tests_cant": "real analysis", "anchors": ["GPyOpt/acquisitions/base.py:AcquisitionBase.acquisition_function_withGradients"]}
{"id": "C61", "title": "Integrated EI is the average EI", "statement": "The integrated EI (and likewise MPI and LCB) of the MCMC acquisitions is the average of the plain acquisition over the hyper-parameter samples, and its gradient is the derivative of its value.", "quantifier": "all sample sets, all jitters", "why_tests_cant": "real analysis", "anchors": ["GPyOpt/acquisitions/EI_mcmc.py:AcquisitionEI_MCMC"]}
{"id": "C62", "title": "Local penalization gradient", "statement": "The gradient reported by the local penalization acquisition is the derivative of the value it reports.", "quantifier": "all points", "why_tests_cant": "real analysis", "anchors": ["GPyOpt/acquisitions/LP.py:AcquisitionLP._d_hammer_function", "GPyOpt/acquisitions/LP.py:AcquisitionLP.d_acquisition_function"]}
{"id": "C63", "title": "Penalization only makes points worse", "statement": "Adding points to the batch never makes the penalized acquisition value (to be minimized) smaller, at any location.", "quantifier": "all batches and locations", "why_tests_cant": "real analysis", "anchors": ["GPyOpt/acquisitions/LP.py:AcquisitionLP._penalized_acquisition"]}
{"id": "C64", "title": "Lipschitz estimate is usable", "statement": "estimate_L returns a value bounded away from zero (>= 1e-7) and not below the gradient norm of the posterior mean at any sampled point; if its optimizer finds the largest gradient norm over the box, it is a Lipschitz constant of the posterior mean there, and the exclusion ball of a penalizer contains no location whose mean reaches the incumbent.", "quantifier": "all models", "why_tests_cant": "all models", "anchors": ["GPyOpt/core/evaluators/batch_local_penalization.py:estimate_L"]}
{"id": "C65", "title": "MCMC predictions leave the model unchanged", "statement": "predict, get_fmin and predict_withGradients of the GP_MCMC model restore the model parameters and return one entry per hyper-parameter sample.", "quantifier": "all sample lists and parameters, predictions that return", "why_tests_cant": "stateful loops", "anchors": ["GPyOpt/models/gpmodel.py:GPModel_MCMC.predict", "GPyOpt/models/gpmodel.py:GPModel_MCMC.get_fmin"]}
{"id": "C66", "title": "Configuration merge", "statement": "The parsed configuration has at every path the user's value if the user gave one there, the default otherwise; nested sections are merged, not replaced; a section given where the default is a plain value is refused.", "quantifier": "all nested configurations", "why_tests_cant": "all nesting depths", "anchors": ["GPyOpt/interface/config_parser.py:update_config"]}
{"id": "C67", "title": "Output schedule", "statement": "A data saver with interval k>0 saves exactly at every k-th non-final iteration; one with interval -1 saves exactly at final iterations.", "quantifier": "all sequences of iterations", "why_tests_cant": "any history", "anchors": ["GPyOpt/interface/output.py:OutputEng.append_iter"]}
{"id": "C68", "title": "Evaluator selection", "statement": "The evaluator created for a (batch size, evaluator type, model type) combination is the documented one; inconsistent combinations are rejected with an error.", "quantifier": "all combinations", "why_tests_cant": "all combinations", "anchors": ["GPyOpt/util/arguments_manager.py:ArgumentsManager.evaluator_creator"]}
{"id": "C69", "title": "Model and acquisition selection", "statement": "Every documented model and acquisition name creates the corresponding object and unknown names are rejected.", "quantifier": "all names", "why_tests_cant": "all strings", "anchors": ["GPyOpt/util/arguments_manager.py:ArgumentsManager.model_creator", "GPyOpt/util/arguments_manager.py:ArgumentsManager.acquisition_creator"]}
{"id": "C70", "title": "Input warping columns", "statement": "The input-warped model warps exactly the model columns of the continuous and discrete variables.", "quantifier": "all spaces", "why_tests_cant": "all layouts", "anchors": ["GPyOpt/models/input_warped_gpmodel.py:InputWarpedGPModel.__init__"]}
{"id": "C71", "title": "Minimum-location belief is a distribution", "statement": "The log-probabilities of being the minimum computed for entropy search are normalized: their exponentials sum to one.", "quantifier": "all factor values", "why_tests_cant": "real analysis", "anchors": ["GPyOpt/util/epmgp.py:joint_min"]}
{"id": "C72", "title": "EP marginal update", "statement": "The rank-one update of the EP step keeps the covariance symmetric and equals conditioning on the changed message: the inverse of V^-1 + dp c c^T.", "quantifier": "all symmetric invertible V, all messages", "why_tests_cant": "linear algebra over all sizes", "anchors": ["GPyOpt/util/epmgp.py:lt_factor"]}
{"id": "C73", "title": "Benchmark optima", "statement": "The example objectives attain their stated minimum value at the stated location and nowhere take a smaller value.", "quantifier": "all real inputs, all dimensions", "why_tests_cant": "real analysis", "anchors": ["GPyOpt/objective_examples/experiments2d.py", "GPyOpt/objective_examples/experimentsNd.py"]}
{"id": "C74", "title": "Driver runs a valid configuration", "statement": "BODriver.run on a valid configuration completes an optimization and honours the run-time limit in the unit of the configuration.", "quantifier": "all valid configurations", "why_tests_cant": "wiring", "anchors": ["GPyOpt/interface/driver.py:BODriver"]}
{"id": "C75", "title": "Constraints mean the same for design and acquisition", "statement": "A constraint function receives points in the same coordinates (those of the objective) when initial designs are filtered and when the acquisition is weighted.", "quantifier": "all spaces and constraints", "why_tests_cant": "depends on a coincidence of dimensionalities that no test layout happens to have", "anchors": ["GPyOpt/acquisitions/base.py:AcquisitionBase.acquisition_function", "GPyOpt/core/task/space.py:Design_space.indicator_constraints", "GPyOpt/experiment_design/random_design.py:RandomDesign.get_samples_with_constraints"]}
{"id": "C76", "title": "Latin designs are stratified", "statement": "A Latin design of n points has, in every continuous variable, exactly one point in each of the n equal slices of the variable's range (for any Latin hypercube the library returns).", "quantifier": "all non-bandit unconstrained spaces, all n, all Latin hypercubes", "why_tests_cant": "all sizes and all random permutations", "anchors": ["GPyOpt/experiment_design/latin_design.py:LatinDesign.get_samples"]}
{"id": "C77", "title": "Every model class can be used", "statement": "run_optimization and suggest_next_locations work with every model the library can create.", "quantifier": "all models, all objectives and data", "why_tests_cant": "a missing method shows only when the loop reaches it", "anchors": ["GPyOpt/core/bo.py:BO._save_model_parameter_values", "GPyOpt/models/rfmodel.py:RFModel", "GPyOpt/models/warpedgpmodel.py:WarpedGPModel"]}
{"id": "C78", "title": "Model copies", "statement": "A copy of a model is fitted to the same data and has the same parameters as the original.", "quantifier": "all models and histories of updates", "why_tests_cant": "all histories", "anchors": ["GPyOpt/models/gpmodel.py:GPModel.copy", "GPyOpt/models/gpmodel.py:GPModel_MCMC.copy"]}
{"id": "C79", "title": "Logged incumbent", "statement": "Each row the data logger writes has the number and time of the latest iteration, the minimum of all outputs appended so far and the earliest location with this output.", "quantifier": "all sequences of appended blocks", "why_tests_cant": "any history", "anchors": ["GPyOpt/interface/output.py:Logger.save_data"]}
{"id": "C80", "title": "Gradients through the GP model", "statement": "For a GP model with differentiable posterior mean and variance, the gradients of EI, MPI and LCB built from predict_withGradients are the derivatives of the values built from predict, at every location.", "quantifier": "all differentiable posteriors, all locations", "why_tests_cant": "real analysis", "anchors": ["GPyOpt/models/gpmodel.py:GPModel.predict_withGradients", "GPyOpt/acquisitions/EI.py:AcquisitionEI._compute_acq_withGradients"]}
{"id": "C81", "title": "Penalizer is the exclusion probability", "statement": "The local penalizer around a pending point is the log-probability of lying outside of the exclusion ball whose radius is normal with mean (mean - Min)/L and deviation (posterior deviation)/L, as in the cited method.", "quantifier": "all posteriors, centres and locations", "why_tests_cant": "real analysis", "anchors": ["GPyOpt/acquisitions/LP.py:AcquisitionLP._hammer_function_precompute", "GPyOpt/acquisitions/LP.py:AcquisitionLP._hammer_function"]}
{"id": "C82", "title": "Derivatives of the minimum belief", "statement": "With the EP messages held fixed, the derivatives min_faktor yields with respect to the means (first and second) and the covariance are the derivatives of the log-probability it yields, and they are consistent with the EP marginal.", "quantifier": "all numbers of points, all means, all positive definite covariances, all messages", "why_tests_cant": "real analysis and linear algebra over all sizes", "anchors": ["GPyOpt/util/epmgp.py:min_faktor"]}
{"id": "C83", "title": "Normalized derivatives of the minimum belief", "statement": "joint_min(with_derivatives=True) returns the first and second derivatives of the normalized log-probabilities it returns.", "quantifier": "all numbers of points and all factor derivatives", "why_tests_cant": "real analysis", "anchors": ["GPyOpt/util/epmgp.py:joint_min"]}
{"id": "C84", "title": "Packed covariance derivatives meet their entries", "statement": "The packed covariance derivative returned by joint_min and the packed variance innovation of the entropy search list the same matrix entries in the same order, for every number of representer points.", "quantifier": "all matrix sizes and entries", "why_tests_cant": "all sizes", "anchors": ["GPyOpt/util/epmgp.py:min_faktor", "GPyOpt/acquisitions/ES.py:AcquisitionEntropySearch._compute_acq"]}
{"id": "C85", "title": "EP factor update matches moments", "statement": "One EP step for a half-space factor sets the message so that the marginal along the factor has exactly the mass, mean and variance of the normal cavity truncated to the half-space, and the cavity is the marginal with the message divided out.", "quantifier": "all marginals, messages and half-spaces", "why_tests_cant": "real analysis (integrals of the normal density)", "anchors": ["GPyOpt/util/epmgp.py:lt_factor", "GPyOpt/util/epmgp.py:log_relative_gauss"]}
{"id": "C86", "title": "Belief of two points is exact", "statement": "For two points joint_min yields the exact probabilities that each of them is the smaller one of two jointly normal values.", "quantifier": "all means and all positive definite 2x2 covariances", "why_tests_cant": "real analysis; convergence of the EP iteration", "anchors": ["GPyOpt/util/epmgp.py:joint_min", "GPyOpt/util/epmgp.py:min_faktor"]}
{"id": "C87", "title": "Entropy search value", "statement": "The entropy search acquisition at a location is the average over the innovations of the negative relative entropy of a probability vector over the representer points with respect to the proposal density: the vector sums to one and the entropy part lies between -log(number of points) and 0.", "quantifier": "all beliefs, posteriors, innovations and locations", "why_tests_cant": "real analysis", "anchors": ["GPyOpt/acquisitions/ES.py:AcquisitionEntropySearch._compute_acq"]}
{"id": "C88", "title": "Predicted change of the belief", "statement": "The predicted change of the log-probabilities for an innovation is the second-order expansion of the belief: the derivative with respect to the covariance along the covariance innovation, plus half the second and the full first mean derivative along the mean innovation.", "quantifier": "all beliefs, means, positive definite covariances and innovations", "why_tests_cant": "real analysis over all sizes", "anchors": ["GPyOpt/acquisitions/ES.py:AcquisitionEntropySearch._compute_acq"]}
{"id": "C89", "title": "Entropy search follows the model", "statement": "Whenever the entropy search acquisition is evaluated, its belief over the representer points is that of the current model.", "quantifier": "all histories of model updates and evaluations", "why_tests_cant": "any history", "anchors": ["GPyOpt/acquisitions/ES.py:AcquisitionEntropySearch._compute_acq", "GPyOpt/acquisitions/ES.py:AcquisitionEntropySearch._update_parameters"]}
{"id": "C90", "title": "Innovations are the effect of an observation", "statement": "The innovations entropy search computes for a location are the change of the posterior means (per unit of standardized observation) and covariances at the representer points caused by a noise-free observation at the location.", "quantifier": "all posteriors with a variance of at least 1e-10 at the location, representer points and locations", "why_tests_cant": "linear algebra over all sizes", "anchors": ["GPyOpt/acquisitions/ES.py:AcquisitionEntropySearch._innovations"]}
{"id": "C91", "title": "Covariance predictions", "statement": "GPModel.predict_covariance returns the covariance matrix of the posterior at the given points, in particular a positive semi-definite matrix.", "quantifier": "all posteriors and lists of points", "why_tests_cant": "all sizes and covariances", "anchors": ["GPyOpt/models/gpmodel.py:GPModel.predict_covariance"]}
{"id": "C92", "title": "Entropy search evaluation", "statement": "Evaluating entropy search at several locations gives the values of the single evaluations; inputs of the wrong dimension are refused and change nothing; the representer points are exactly the sampled points of positive density, with the default proposal all inside the bounds of the space; invalid densities are refused.", "quantifier": "all samples, models and inputs", "why_tests_cant": "any sampler output and history", "anchors": ["GPyOpt/acquisitions/ES.py:AcquisitionEntropySearch._compute_acq", "GPyOpt/acquisitions/ES.py:AcquisitionEntropySearch._update_parameters"]}
{"id": "C93", "title": "Example objectives return one output per location", "statement": "The example objectives return a column with one entry per row of the input, the value at this row plus its noise; inputs of the wrong dimension raise an error.", "quantifier": "all inputs, dimensions and noise", "why_tests_cant": "any shape and noise", "anchors": ["GPyOpt/objective_examples/experiments2d.py", "GPyOpt/objective_examples/experimentsNd.py:alpine1.f", "GPyOpt/util/general.py:reshape"]}
{"id": "C94", "title": "Initial data", "statement": "A new BayesianOptimization object holds the given locations and outputs if both are given (without calling the objective), the given locations with one evaluation each, in order, if only they are given, and otherwise the initial design with one evaluation per row; with maximize the outputs are those of the objective negated. Given outputs are never lost, and locations and outputs of different number are refused. Without an objective, missing data are refused.", "quantifier": "all objectives, spaces, designs, given locations and outputs", "why_tests_cant": "any data, design and objective", "anchors": ["GPyOpt/methods/bayesian_optimization.py:BayesianOptimization.__init__", "GPyOpt/methods/bayesian_optimization.py:BayesianOptimization._init_design_chooser"]}
{"id": "C95", "title": "Number of processes", "statement": "The objective is evaluated in num_cores processes (one by default), and an exception of the objective is reported.", "quantifier": "all objectives, batch sizes, inputs and schedules", "why_tests_cant": "concurrent schedules", "anchors": ["GPyOpt/methods/bayesian_optimization.py:BayesianOptimization.__init__", "GPyOpt/core/task/objective.py:SingleObjective"]}
{"id": "C96", "title": "Invalid configurations cost no evaluation", "statement": "A configuration the constructor refuses is refused before the (expensive) objective is called.", "quantifier": "all arguments of the constructor", "why_tests_cant": "all combinations of invalid arguments", "anchors": ["GPyOpt/methods/bayesian_optimization.py:BayesianOptimization.__init__"]}
{"id": "C97", "title": "The objective is called only inside the domain", "statement": "An optimizer that makes its own initial design calls the objective only at points of the domain: in the constructor, and during every sequence of suggestions and runs with valid contexts, with any evaluator, also when some of them end with an exception.", "quantifier": "all non-bandit spaces, random sources, models, acquisitions, objectives and sequences of calls", "why_tests_cant": "any history, optimizer and crash point", "anchors": ["GPyOpt/methods/bayesian_optimization.py:BayesianOptimization.__init__", "GPyOpt/core/bo.py:BO.run_optimization", "GPyOpt/core/bo.py:BO.suggest_next_locations"]}
{"id": "C98", "title": "Local optimizers stay inside the bounds", "statement": "OptLbfgs, OptDirect and OptCma return a single row inside the given bounds together with the value of the objective there; for L-BFGS it is not worse than the start, also if the line search terminates abnormally, and any of the documented combinations of f, df and f_df may be given.", "quantifier": "all objectives, bounds, starts and outcomes of the libraries", "why_tests_cant": "any outcome of the optimizer library, all dimensions", "anchors": ["GPyOpt/optimization/optimizer.py:OptLbfgs.optimize", "GPyOpt/optimization/optimizer.py:OptDirect.optimize", "GPyOpt/optimization/optimizer.py:OptCma.optimize"]}
{"id": "C99", "title": "Gradients in context", "statement": "With context variables the optimizer follows the gradient of the acquisition restricted to the free variables.", "quantifier": "all spaces, contexts, acquisitions and locations", "why_tests_cant": "all spaces and contexts", "anchors": ["GPyOpt/optimization/optimizer.py:OptimizationWithContext.f_df_nocontext", "GPyOpt/optimization/optimizer.py:OptimizationWithContext.df_nocontext"]}
{"id": "C100", "title": "A suggestion is as good as every sample", "statement": "The location the acquisition optimizer returns has an acquisition value that is at least as good as that of every sampled initial location of the optimization (that are not duplicates).", "quantifier": "all spaces, contexts, acquisitions, samples and descending local optimizers", "why_tests_cant": "any sampler and optimizer output", "anchors": ["GPyOpt/optimization/acquisition_optimizer.py:AcquisitionOptimizer.optimize", "GPyOpt/optimization/optimizer.py:apply_optimizer"]}
{"id": "C101", "title": "Reports", "statement": "After a completed run save_report writes a complete report; it says whether the optimization made all iterations asked for, and states the number of samples, the number of variables of each kind, whether there are constraints and a cost, the minimum of the outputs and the location where it was found.", "quantifier": "all objects, spaces, run arguments and histories", "why_tests_cant": "any configuration and history", "anchors": ["GPyOpt/core/bo.py:BO.save_report"]}
{"id": "C102", "title": "Result files", "statement": "Asking run_optimization for a report, an evaluations file or a models file does not change the run; after a completed run exactly the files asked for exist with complete contents, in order; a run that fails writes none.", "quantifier": "all objects, combinations of files, run arguments and histories", "why_tests_cant": "any combination and history", "anchors": ["GPyOpt/core/bo.py:BO.run_optimization", "GPyOpt/core/bo.py:BO.save_report", "GPyOpt/core/bo.py:BO.save_evaluations", "GPyOpt/core/bo.py:BO.save_models"]}
{"id": "C103", "title": "Plotting has no effect", "statement": "plot_acquisition changes neither the data nor later runs nor the records; it shows all the data collected so far, and an acquisition scaled to [0, 1] in the order of the acquisition.", "quantifier": "all objects, histories, models and acquisitions", "why_tests_cant": "any history and model", "anchors": ["GPyOpt/core/bo.py:BO.plot_acquisition", "GPyOpt/plotting/plots_bo.py:plot_acquisition"]}
{"id": "C104", "title": "Convergence plot", "statement": "plot_convergence shows the distances of consecutive locations and the best output so far, for every location; the last distance decides the eps criterion.", "quantifier": "all objects and histories", "why_tests_cant": "any history, including failed evaluations", "anchors": ["GPyOpt/core/bo.py:BO.plot_convergence", "GPyOpt/plotting/plots_bo.py:plot_convergence"]}
{"id": "C105", "title": "Ask and tell", "statement": "Evaluating the objective outside of the library (a new object on the data so far in every iteration, asked for the next locations) and a run with the objective give the same locations and outputs, if the model is refitted in every iteration.", "quantifier": "all data, objectives, budgets, and components that depend on the data and the last fit", "why_tests_cant": "any history and component", "anchors": ["GPyOpt/core/bo.py:BO.run_optimization", "GPyOpt/core/bo.py:BO.suggest_next_locations"]}
{"id": "C106", "title": "Finite domains are searched exhaustively", "statement": "On a domain with finitely many points, with de-duplication, a run never evaluates a point twice, every iteration evaluates one more point of the domain, and when all are evaluated the reported optimum is the minimum over the domain. The error of the fully explored domain is raised only when every point is evaluated.", "quantifier": "all finite domains, objectives, budgets, contexts, models, acquisitions and random sources", "why_tests_cant": "any history, model and random source", "anchors": ["GPyOpt/core/bo.py:BO.run_optimization", "GPyOpt/optimization/anchor_points_generator.py:AnchorPointsGenerator.get", "GPyOpt/util/duplicate_manager.py:DuplicateManager"]}
{"id": "C107", "title": "Random forest and warped models", "statement": "For every forest, predict returns one mean and one deviation per row: the average of the trees and their standard deviation (zero exactly if they agree, at most half of their range); get_fmin is the smallest mean at the data of the last update, to which the forest is fitted. A warped GP keeps the mean and reports a deviation of at least 1e-5.", "quantifier": "all forests, inputs, data and sequences of updates", "why_tests_cant": "any forest and data", "anchors": ["GPyOpt/models/rfmodel.py:RFModel", "GPyOpt/models/warpedgpmodel.py:WarpedGPModel.predict"]}
{"id": "C108", "title": "Noise variance", "statement": "A noise variance given to a Gaussian process model is where its noise parameter starts (a hundredth of the variance of the outputs if none is given); with exact evaluations the noise is fixed at 1e-6, otherwise it is positive.", "quantifier": "all model classes, variances and outputs", "why_tests_cant": "any model class and data", "anchors": ["GPyOpt/models/gpmodel.py:GPModel._create_model", "GPyOpt/models/gpmodel.py:GPModel_MCMC._create_model", "GPyOpt/models/warpedgpmodel.py:WarpedGPModel._create_model", "GPyOpt/models/input_warped_gpmodel.py:InputWarpedGPModel._create_model"]}
{"id": "C109", "title": "Input warping covers the data", "statement": "The range an input-warped model normalizes its inputs with contains all the data it is fitted to.", "quantifier": "all data and sequences of updates", "why_tests_cant": "any sequence of updates", "anchors": ["GPyOpt/models/input_warped_gpmodel.py:InputWarpedGPModel", "GPyOpt/models/gpmodel.py:GPModel.updateModel"]}
{"id": "C110", "title": "Entropy search on every space", "statement": "The entropy search acquisition can be evaluated at every location of the domain, and its sampler of representer points starts from a random design in the domain.", "quantifier": "all spaces, beliefs, locations and random sources", "why_tests_cant": "any combination of variables", "anchors": ["GPyOpt/acquisitions/ES.py:AcquisitionEntropySearch._compute_acq", "GPyOpt/util/mcmc_sampler.py:AffineInvariantEnsembleSampler.get_samples"]}
{"id": "C111", "title": "Components of a configuration", "statement": "The driver creates the model, acquisition and evaluator that the configuration names, with the options of the configuration, and they work together.", "quantifier": "all names and options of models, acquisitions and evaluators", "why_tests_cant": "any configuration", "anchors": ["GPyOpt/interface/driver.py:BODriver._get_model", "GPyOpt/interface/driver.py:BODriver._get_acquisition", "GPyOpt/interface/driver.py:BODriver._get_acq_evaluator"]}
{"id": "C112", "title": "The space of a configuration", "statement": "The space of a configuration is the design space its texts mean; asking for it does not change the configuration, so it can be asked for again.", "quantifier": "all configurations and readers of texts", "why_tests_cant": "any configuration", "anchors": ["GPyOpt/interface/driver.py:BODriver._get_space", "GPyOpt/core/task/space.py:Design_space.fromConfig"]}
{"id": "C113", "title": "The file of a logger", "statement": "The file of a logger consists of a headline and one row for every k-th iteration and the final one, each with number and time of the iteration and the best output so far with its location.", "quantifier": "all sequences of iterations and intervals", "why_tests_cant": "any history", "anchors": ["GPyOpt/interface/output.py:Logger", "GPyOpt/interface/output.py:OutputEng.append_iter"]}
{"id": "C114", "title": "Loading the objective", "statement": "The loader returns the function that is named like the main file of the project, from that file, whatever the working directory, and refuses languages it does not support with a clear error.", "quantifier": "all paths, files and languages", "why_tests_cant": "any file system", "anchors": ["GPyOpt/interface/func_loader.py:load_objective"]}
{"id": "C115", "title": "Helpers of util.general", "statement": "samples_multidimensional_uniform returns samples inside of the bounds; get_moments and get_d_moments return the moments of the model and their derivatives; evaluate_function returns one output and time per row; compute_integrated_acquisition averages over the samples of the parameters, and its version with gradients returns the derivative of this average; best_value returns the smallest or largest output so far, best_guess the smallest value of a function so far.", "quantifier": "all bounds, random numbers, models, functions and inputs", "why_tests_cant": "any input", "anchors": ["GPyOpt/util/general.py:samples_multidimensional_uniform", "GPyOpt/util/general.py:get_moments", "GPyOpt/util/general.py:get_d_moments", "GPyOpt/util/general.py:evaluate_function", "GPyOpt/util/general.py:compute_integrated_acquisition", "GPyOpt/util/general.py:compute_integrated_acquisition_withGradients", "GPyOpt/util/general.py:best_value", "GPyOpt/util/general.py:best_guess"]}
{"id": "C116", "title": "The unit of the objective", "statement": "With normalized outputs (the default) the result does not depend on the unit and the zero of the objective: a run on a*f+b (a>0) evaluates the same locations in the same order, fits the same models, stops in the same iteration for the same reason and reports the same x_opt, and fx_opt is a times the other one plus b. The same holds for suggestions from data in another unit.", "quantifier": "all objectives, positive factors, offsets, initial data, budgets, and components that see the outputs through the model", "why_tests_cant": "any unit, history and component", "anchors": ["GPyOpt/core/bo.py:BO.run_optimization", "GPyOpt/core/bo.py:BO._update_model", "GPyOpt/util/general.py:normalize"]}
{"id": "C117", "title": "Known locations are a set, the context is a dictionary", "statement": "A suggestion with the same acquisition depends on the evaluated, pending and ignored locations only as a set: not on their order, on repetitions, or on which of the three lists a location is in. It does not depend on the order in which the context lists its variables.", "quantifier": "all spaces, locations, contexts, evaluators, acquisitions and random sources", "why_tests_cant": "any order, repetition and context", "anchors": ["GPyOpt/core/bo.py:BO.suggest_next_locations", "GPyOpt/util/duplicate_manager.py:DuplicateManager", "GPyOpt/optimization/acquisition_optimizer.py:ContextManager"]}
{"id": "C118", "title": "Thompson sampling", "statement": "With Thompson sampling and any model, the anchor points are the unknown samples of the domain with the smallest draws from the predictive distributions (mean plus deviation times a standard normal number), one independent draw per location, and the request fails only if all samples are known.", "quantifier": "all spaces, contexts, models, samples and random numbers", "why_tests_cant": "any model and random source", "anchors": ["GPyOpt/optimization/anchor_points_generator.py:ThompsonSamplingAnchorPointsGenerator", "GPyOpt/models/gpmodel.py:GPModel_MCMC.predict", "GPyOpt/core/evaluators/batch_thompson.py:ThompsonBatch"]}
{"id": "C119", "title": "Failed evaluations", "statement": "If the objective returns nan at some locations, the reported optimum is the best of the other evaluations, and the model is fitted to the normalized other outputs.", "quantifier": "all locations and outputs with and without nan", "why_tests_cant": "any position of the failures", "anchors": ["GPyOpt/core/bo.py:BO._compute_results", "GPyOpt/util/general.py:best_value", "GPyOpt/util/general.py:normalize"]}
{"id": "C120", "title": "Shape of the outputs", "statement": "Every evaluated location contributes one output, whatever array with one number the objective returns, with any number of processes; everything else is refused with an error.", "quantifier": "all objectives, shapes of results, locations and numbers of processes", "why_tests_cant": "any objective", "anchors": ["GPyOpt/core/task/objective.py:SingleObjective._eval_func", "GPyOpt/core/task/objective.py:SingleObjective._syncronous_batch_evaluation"]}
{"id": "C121", "title": "Local penalization with every model", "statement": "Local penalization proposes a batch of the requested size with every model that can be chosen.", "quantifier": "all models, predictions, batch sizes, acquisitions and optimizers", "why_tests_cant": "any model and batch size", "anchors": ["GPyOpt/core/evaluators/batch_local_penalization.py:LocalPenalization.compute_batch", "GPyOpt/acquisitions/LP.py:AcquisitionLP._hammer_function_precompute", "GPyOpt/models/gpmodel.py:GPModel_MCMC.predict"]}
{"id": "C122", "title": "Problems with one bandit variable", "statement": "If the only variable is a bandit variable, every suggestion of every evaluator is one of the arms; with de-duplication the suggested arms are pairwise distinct and were not evaluated before, in one request and in a whole run, so a run evaluates at most as many new locations as there are arms. The domain is reported as fully explored exactly if all sampled arms are known. A context is refused.", "quantifier": "all sets of arms with any number of columns, constraints, evaluators, acquisitions, random sources, optimizers, histories and budgets", "why_tests_cant": "any set of arms and history", "anchors": ["GPyOpt/core/task/variables.py:BanditVariable", "GPyOpt/optimization/anchor_points_generator.py:AnchorPointsGenerator.get", "GPyOpt/optimization/optimizer.py:apply_optimizer", "GPyOpt/core/bo.py:BO._compute_next_evaluations"]}
{"id": "C123", "title": "Objectives that modify their argument", "statement": "The recorded locations, outputs and results of a run do not depend on what the objective writes into the array it receives, and a run does not change arrays of the caller.", "quantifier": "all objectives, including those that write into their argument, histories, budgets and cost models", "why_tests_cant": "any objective and history", "anchors": ["GPyOpt/core/bo.py:BO.run_optimization", "GPyOpt/core/bo.py:BO.evaluate_objective", "GPyOpt/core/task/objective.py:SingleObjective._eval_func"]}
{"id": "C124", "title": "Arrays of the caller", "statement": "What the caller writes into arrays that were passed to an optimizer or received from it has no effect on the data, the results and the later suggestions of the optimizer.", "quantifier": "all sequences of runs, requests for locations and data, and writes", "why_tests_cant": "any interleaving of calls and writes", "anchors": ["GPyOpt/core/bo.py:BO.__init__", "GPyOpt/core/bo.py:BO.run_optimization", "GPyOpt/core/bo.py:BO.get_evaluations", "GPyOpt/core/bo.py:BO._compute_results"]}
{"id": "C125", "title": "Acquisitions prefer better locations", "statement": "A location with a predicted mean at most as large, a predicted deviation at least as large and a cost at most as large as another one is never a worse choice of the acquisition, and a better one if one of them differs; for the probability of improvement more deviation helps exactly above the target. This holds for the acquisitions of one model and for those integrated over parameters.", "quantifier": "all means, deviations, costs, incumbents, jitters and weights", "why_tests_cant": "all real numbers", "anchors": ["GPyOpt/acquisitions/EI.py:AcquisitionEI._compute_acq", "GPyOpt/acquisitions/MPI.py:AcquisitionMPI._compute_acq", "GPyOpt/acquisitions/LCB.py:AcquisitionLCB._compute_acq", "GPyOpt/acquisitions/base.py:AcquisitionBase.acquisition_function"]}
{"id": "C126", "title": "Exploration parameters", "statement": "Increasing the jitter of EI or MPI or the exploration weight of LCB never moves the preference between two locations away from the one with the larger deviation; the same holds for the integrated acquisitions if the samples of the parameters agree.", "quantifier": "all pairs of locations, means, deviations, incumbents and parameters", "why_tests_cant": "all real numbers", "anchors": ["GPyOpt/acquisitions/EI.py:AcquisitionEI", "GPyOpt/acquisitions/MPI.py:AcquisitionMPI", "GPyOpt/acquisitions/LCB.py:AcquisitionLCB", "GPyOpt/acquisitions/EI_mcmc.py:AcquisitionEI_MCMC"]}
{"id": "C127", "title": "What the plots show", "statement": "The plot of a model with one input shows mean and band at points that cover the bounds, and the acquisition curve below them in the visible range; a contour plot shows at every node of the grid the value of the plotted function at this node; the marks are the suggested locations.", "quantifier": "all bounds, predictions, acquisitions, plotted functions and suggestions", "why_tests_cant": "any model and acquisition", "anchors": ["GPyOpt/plotting/plots_bo.py:plot_acquisition", "GPyOpt/objective_examples/experiments2d.py:function2d.plot", "GPyOpt/core/bo.py:BO.plot_acquisition"]}
{"id": "C128", "title": "Experiment designs in floating-point arithmetic", "statement": "The points of random, Latin, Sobol and grid designs lie in the domain also with floating-point rounding: they are the points of exact arithmetic for nearly the same numbers of the unit interval; the values of a grid go from bound to bound, in order and nearly equally spaced.", "quantifier": "all precisions, roundings to nearest, spaces with bounds that are floating-point numbers, and floating-point numbers of the unit interval without 1", "why_tests_cant": "all floating-point numbers", "anchors": ["GPyOpt/experiment_design/random_design.py:samples_multidimensional_uniform", "GPyOpt/experiment_design/latin_design.py:LatinDesign.get_samples", "GPyOpt/experiment_design/sobol_design.py:SobolDesign.get_samples", "GPyOpt/experiment_design/grid_design.py:multigrid"]}
{"id": "C129", "title": "Normalization in floating-point arithmetic", "statement": "With floating-point rounding, normalization keeps the order of the outputs, the range normalization reaches exactly -1 and 1 and stays between them, different outputs remain different and equal outputs become zeros.", "quantifier": "all precisions, roundings to nearest and outputs", "why_tests_cant": "all floating-point numbers", "anchors": ["GPyOpt/util/general.py:normalize"]}
{"id": "C130", "title": "Rounding to the domain in floating-point arithmetic", "statement": "With floating-point rounding of the distances, rounding to the domain returns a point of the domain, leaves points of the domain unchanged, and finds the nearest value of a discrete variable.", "quantifier": "all precisions, roundings to nearest, spaces without bandit variables and vectors", "why_tests_cant": "all floating-point numbers", "anchors": ["GPyOpt/core/task/space.py:Design_space.round_optimum", "GPyOpt/core/task/variables.py:DiscreteVariable.round"]}
{"id": "C131", "title": "Configurations are independent of each other", "statement": "The default configuration never changes. Reading a configuration file gives the merge of this file with the original default whatever was done before with other configurations, and neither reading a file nor writing into its result changes another configuration.", "quantifier": "all default configurations, all files, all sequences of reading files, creating drivers and writing into any dictionary that can be reached from the results", "why_tests_cant": "all histories of writes into nested dictionaries that may be shared", "anchors": ["GPyOpt/interface/config_parser.py:parser", "GPyOpt/interface/config_parser.py:update_config", "GPyOpt/interface/driver.py:BODriver.__init__"]}
{"id": "C132", "title": "Random designs are uniform", "statement": "With a uniform random number generator every feasible design is equally likely: rejecting the rows that violate the constraints, drawing in rounds and cutting the last round do not favour any design, and the rows are independent.", "quantifier": "all spaces without bandit variables, constraints, numbers of rows, rounds and generator outcomes", "why_tests_cant": "a distribution over all outcomes of the generator", "anchors": ["GPyOpt/experiment_design/random_design.py:RandomDesign.get_samples", "GPyOpt/experiment_design/random_design.py:RandomDesign.get_samples_with_constraints", "GPyOpt/experiment_design/random_design.py:samples_multidimensional_uniform"]}
{"id": "C133", "title": "Constrained designs are found", "statement": "The random initial design for a problem with constraints is found: if the generator can give a feasible location at all, the loop ends with probability one, and the probability that it is still running after N rounds decreases exponentially in N. If no location is feasible, the loop never ends.", "quantifier": "all spaces without bandit variables, constraints, numbers of samples, and all outcomes of the generator", "why_tests_cant": "the loop is unbounded and its end depends on the random numbers; a test sees one seed and cannot tell a slow loop from an endless one", "anchors": ["GPyOpt/experiment_design/random_design.py:RandomDesign.get_samples_with_constraints", "GPyOpt/core/task/space.py:Design_space.indicator_constraints"]}
{"id": "C134", "title": "Constraints written as expressions", "statement": "A constraint is a Python expression in the matrix x of locations. The indicator of a set of locations is computed without an exception and is 1 exactly for the locations at which the expressions mean numbers that are not positive, whatever the other locations in the set; so a constraint means the same for a single location and for a whole design.", "quantifier": "all expressions of numbers, columns, slices, entries and sums of x with arithmetic, and all numbers of locations", "why_tests_cant": "shapes and broadcasting depend on the expression and on the number of locations; tests use a few expressions and sizes", "anchors": ["GPyOpt/core/task/space.py:Design_space.indicator_constraints"]}
{"id": "C135", "title": "Constraints in several threads", "statement": "indicator_constraints called in several threads of a process returns in each thread what it would return alone.", "quantifier": "all constraints, locations, numbers of threads and schedules", "why_tests_cant": "the outcome depends on where the scheduler interrupts a thread", "anchors": ["GPyOpt/core/task/space.py:Design_space.indicator_constraints"]}
{"id": "C136", "title": "Acquisitions in floating-point arithmetic", "statement": "With floating-point rounding after every operation and library functions of finite accuracy, expected improvement, probability of improvement and the lower confidence bound are accurate: the first two are, up to a small relative error, the exact values for a posterior mean that differs from the given one by a few roundings, in spite of the cancellation in u*Phi + phi for locations far worse than the incumbent; they are positive; and the lower confidence bound orders locations correctly unless they agree up to roundings.", "quantifier": "all accuracies up to 1e-8, jitters, incumbents, means and deviations, for improvements of at most 38 deviations either way (beyond which doubles underflow)", "why_tests_cant": "all floating-point numbers; cancellation shows in rare ranges only", "anchors": ["GPyOpt/util/general.py:get_quantiles", "GPyOpt/acquisitions/EI.py:AcquisitionEI._compute_acq", "GPyOpt/acquisitions/MPI.py:AcquisitionMPI._compute_acq", "GPyOpt/acquisitions/LCB.py:AcquisitionLCB._compute_acq"]}
{"id": "C137", "title": "Result files can be read", "statement": "A file with evaluations or model parameters, read by Python's csv reader with tabulators, gives back the headline and the rows, on every platform and for all names; the numbers of the file with evaluations are the numbers from 1 on, the recorded outputs and the recorded locations.", "quantifier": "all tables, names, number formats and line separators of the platform", "why_tests_cant": "every name and number; platforms differ in the newline translation of text files", "anchors": ["GPyOpt/core/bo.py:BO._write_csv", "GPyOpt/core/bo.py:BO.save_evaluations", "GPyOpt/core/bo.py:BO.save_models"]}
{"id": "C138", "title": "Resuming from saved data", "statement": "An optimization can be resumed in a new process: n iterations, then m iterations of a new object that is given the collected data (or what is read from the file with the evaluations), give the same locations, outputs and results as n + m iterations of one object.", "quantifier": "all problems, numbers of iterations, stopping rules by eps, contexts and deterministic objectives", "why_tests_cant": "relates two histories of any length; internal state such as fits and counters must not matter", "anchors": ["GPyOpt/core/bo.py:BO.run_optimization", "GPyOpt/core/bo.py:BO.save_evaluations", "GPyOpt/core/bo.py:BO._update_model", "GPyOpt/methods/bayesian_optimization.py:BayesianOptimization.__init__"]}
{"id": "C139", "title": "What a whole optimization reports", "statement": "After any completed calls of an object that evaluates its initial locations itself, of which the last is a run: X is the list of the arguments of all calls of the user's function, in order; x_opt is one of these arguments and lies in the domain; fx_opt is what the function returned there (negated if the user maximizes); and no call returned anything better.", "quantifier": "all problems, initial designs, histories of suggestions and runs, objectives (also noisy or history dependent ones)", "why_tests_cant": "ranges over histories of any length and objectives whose answers depend on the call", "anchors": ["GPyOpt/methods/bayesian_optimization.py:BayesianOptimization.__init__", "GPyOpt/methods/bayesian_optimization.py:BayesianOptimization._sign", "GPyOpt/core/bo.py:BO.run_optimization", "GPyOpt/core/bo.py:BO._compute_results"]}
{"id": "C140", "title": "Optimizations raise nothing", "statement": "If model, acquisition, local optimizers and objective do not raise on the domain, then no call of the interface raises: runs do all the iterations of their budget or end because two consecutive locations are close, and suggestions are made. With de-duplication the error of the fully explored domain is the only exception.", "quantifier": "all spaces without constraints and bandit variables, all evaluators, contexts, budgets, cost models, and all histories of suggestions and runs whatever their outcomes", "why_tests_cant": "every history and every random outcome; the design, anchor, rounding and encoding code must be total on all of them", "anchors": ["GPyOpt/core/bo.py:BO.run_optimization", "GPyOpt/core/bo.py:BO.suggest_next_locations", "GPyOpt/core/bo.py:BO._compute_next_evaluations", "GPyOpt/core/evaluators/batch_random.py:RandomBatch.compute_batch", "GPyOpt/core/evaluators/batch_thompson.py:ThompsonBatch.compute_batch", "GPyOpt/core/evaluators/batch_local_penalization.py:LocalPenalization.compute_batch", "GPyOpt/core/evaluators/sequential.py:Sequential.compute_batch"]}
{"id": "C141", "title": "Clock and budgets decide when to stop, not where to evaluate", "statement": "Without limits of time and evaluation-time costs the clock has no effect: any history of calls gives the same outcomes, data and results. Runs with different clocks or budgets evaluate the same sequence of locations, of which each sees an initial part.", "quantifier": "all objects, histories of suggestions and runs whatever their outcomes, clocks, budgets and (also stateful) objectives", "why_tests_cant": "relates executions on machines of different speed", "anchors": ["GPyOpt/core/bo.py:BO.run_optimization", "GPyOpt/core/bo.py:BO.evaluate_objective", "GPyOpt/core/bo.py:BO.suggest_next_locations", "GPyOpt/core/task/objective.py:SingleObjective._eval_func", "GPyOpt/core/task/cost.py:CostModel.update_cost_model"]}
{"id": "C142", "title": "Rows that do not fit the space", "statement": "Encoding, decoding and rounding refuse, with an exception, every row of numbers that does not have the width of the space or contains a category that does not exist; nothing is changed silently.", "quantifier": "all spaces without bandit variables and all rows of numbers of any width", "why_tests_cant": "every width and every value, also fractions and negative numbers; numpy slices and negative indices do not raise", "anchors": ["GPyOpt/core/task/space.py:Design_space.objective_to_model", "GPyOpt/core/task/space.py:Design_space.model_to_objective", "GPyOpt/core/task/space.py:Design_space.unzip_inputs", "GPyOpt/core/task/space.py:Design_space.zip_inputs", "GPyOpt/core/task/space.py:Design_space.round_optimum", "GPyOpt/core/task/variables.py:CategoricalVariable.objective_to_model", "GPyOpt/core/task/variables.py:CategoricalVariable.model_to_objective", "GPyOpt/core/task/variables.py:CategoricalVariable.round"]}
{"id": "C143", "title": "Experiments keep their output files", "statement": "The file of a report or logger belongs to one experiment: other experiments, whatever they and their sections are called, when they run and whatever they save, do not change or empty it.", "quantifier": "all directories, names of experiments and sections, classes of data savers, readings of the clock and interleavings of several experiments", "why_tests_cant": "all names and dates; collisions need two experiments in one second or particular names", "anchors": ["GPyOpt/interface/output.py:Report.__init__", "GPyOpt/interface/output.py:Logger.__init__", "GPyOpt/util/io.py:gen_datestr"]}
{"id": "C144", "title": "Crashes and result files", "statement": "Whenever the process is killed or the run raises, the evaluations made so far are in the file for the evaluations, and earlier results are not lost; a file that was cut off contains only true evaluations.", "quantifier": "all runs, all moments of the crash, all times at which the operating system takes over buffered characters, all previous contents of the files", "why_tests_cant": "every crash point and every schedule of buffer flushes", "anchors": ["GPyOpt/core/bo.py:BO.run_optimization", "GPyOpt/core/bo.py:BO._write_csv", "GPyOpt/core/bo.py:BO.save_evaluations", "GPyOpt/core/bo.py:BO.save_report"]}
{"id": "C145", "title": "Problem descriptions belong to the caller", "statement": "Creating a space changes nothing in the description (lists, dictionaries and domains) it is made from, and what the caller does to the description afterwards, or to make other spaces of it, does not change the space.", "quantifier": "all descriptions in memory, with any sharing of dictionaries and domains, all later writes of the caller and all further spaces", "why_tests_cant": "every sharing pattern and every later mutation; each field of the space may or may not be a copy", "anchors": ["GPyOpt/core/task/space.py:Design_space.__init__", "GPyOpt/core/task/space.py:Design_space._translate_space", "GPyOpt/core/task/space.py:Design_space._expand_config_space", "GPyOpt/core/task/space.py:Design_space.indicator_constraints", "GPyOpt/optimization/anchor_points_generator.py:AnchorPointsGenerator.get"]}
{"id": "C146", "title": "Random batches search the whole domain", "statement": "With the evaluator 'random' all locations of a batch but one are uniform draws from the (feasible) domain, whatever model and acquisition do. A run of K iterations with batches of b locations misses a region of probability g with probability at most (1-g)^(K(b-1)), so that its reported optimum is at least as good as that of random search with K(b-1) evaluations.", "quantifier": "all domains without bandit variables, constraints, models, acquisitions, objectives, initial data and budgets; all outcomes of the generator, and all regions", "why_tests_cant": "a bound of a probability over all outcomes of the random generator, for models and acquisitions that may be adversarial", "anchors": ["GPyOpt/core/evaluators/batch_random.py:RandomBatch.get_anchor_points", "GPyOpt/core/evaluators/batch_random.py:RandomBatch.compute_batch_without_duplicate_logic", "GPyOpt/core/evaluators/base.py:SamplingBasedBatchEvaluator.compute_batch", "GPyOpt/optimization/anchor_points_generator.py:AnchorPointsGenerator.get", "GPyOpt/core/bo.py:BO.run_optimization"]}
{"id": "C147", "title": "Names are labels, and a variable of dimensionality d is d variables", "statement": "Renaming variables, leaving out keys that have a default, or writing a variable of dimensionality d as d variables of the same domain, changes nothing: the space converts, rounds, bounds and samples alike, and every suggestion and every run (with the context translated to the new names) is the same.", "quantifier": "all pairs of descriptions with the same sequence of one-dimensional variables, all contexts, evaluators, models, random outcomes and histories of a run", "why_tests_cant": "relates the executions of two differently written programs for all inputs; names enter through dictionaries in which they may collide", "anchors": ["GPyOpt/core/task/space.py:Design_space._translate_space", "GPyOpt/core/task/space.py:Design_space._expand_config_space", "GPyOpt/core/task/space.py:Design_space._create_variables_dic", "GPyOpt/core/task/space.py:Design_space.find_variable", "GPyOpt/core/task/variables.py:Variable.expand", "GPyOpt/optimization/acquisition_optimizer.py:ContextManager", "GPyOpt/optimization/anchor_points_generator.py:AnchorPointsGenerator.get", "GPyOpt/core/bo.py:BO.run_optimization"]}
{"id": "C148", "title": "Regret of search by confidence bounds", "statement": "If the intervals mean +- w*dev of the model contain the objective, then the acquisition LCB with weight w suggests locations whose value exceeds the best sampled value by at most 2*w*dev there. The excess of the reported optimum over a value q that is sampled in every iteration is at most the average of 2*w*dev over the suggestions, and every iteration samples such a value with probability at least (1-(1-g)^N)^K, where g is the share of the domain with values of at most q.", "quantifier": "all domains, objectives, models with valid intervals, weights, contexts, budgets, initial data and local optimizers that do not get worse; all outcomes of the random generator", "why_tests_cant": "a bound for all objectives and models and a probability over all outcomes of the generator", "anchors": ["GPyOpt/acquisitions/LCB.py:AcquisitionLCB._compute_acq", "GPyOpt/acquisitions/base.py:AcquisitionBase.acquisition_function", "GPyOpt/optimization/acquisition_optimizer.py:AcquisitionOptimizer.optimize", "GPyOpt/optimization/anchor_points_generator.py:AnchorPointsGenerator.get", "GPyOpt/core/evaluators/sequential.py:Sequential.compute_batch", "GPyOpt/core/bo.py:BO.run_optimization"]}
{"id": "C149", "title": "The order of the initial data does not matter", "statement": "Two objects that are given the same observations in another order (or the same initial locations to evaluate, in another order) suggest the same next locations and make the same run: they evaluate the same locations in the same order, stop for the same reason, and report the same optimum and the same progress.", "quantifier": "all initial data and permutations of them, all models, acquisitions and random streams that see the data as a multiset of pairs, all objectives, domains, contexts, evaluators, budgets and clocks", "why_tests_cant": "relates two executions of any length for all data and all permutations; the loop compares and reports rows by position", "anchors": ["GPyOpt/core/bo.py:BO.run_optimization", "GPyOpt/core/bo.py:BO._distance_last_evaluations", "GPyOpt/core/bo.py:BO._compute_results", "GPyOpt/core/bo.py:BO._update_model", "GPyOpt/core/bo.py:BO.suggest_next_locations", "GPyOpt/util/general.py:normalize", "GPyOpt/util/duplicate_manager.py:DuplicateManager"]}
{"id": "C150", "title": "Local penalization keeps better locations", "statement": "If the constant L of local penalization bounds the slope of the objective and the predictions at the batch are off by at most k deviations, then a location that is at least as good as the incumbent keeps at least a share Phi(-k*sqrt(dev))^n of its acquisition in a batch of n locations, and is preferred to every location with a smaller share; with the estimated constant this holds for the posterior mean, with the factor 1/2 per location. Locations well inside of the exclusion ball of a location of the batch are penalized accordingly.", "quantifier": "all objectives, models, acquisitions, transforms, batches, constants and locations", "why_tests_cant": "all objectives with bounded slope and all batches; a hidden optimum does not show in a finite set of examples", "anchors": ["GPyOpt/acquisitions/LP.py:AcquisitionLP._hammer_function_precompute", "GPyOpt/acquisitions/LP.py:AcquisitionLP._hammer_function", "GPyOpt/acquisitions/LP.py:AcquisitionLP._penalized_acquisition", "GPyOpt/core/evaluators/batch_local_penalization.py:estimate_L"]}
{"id": "C151", "title": "The initial design bounds the error of the result", "statement": "Whatever model and acquisition do, the reported optimum is at least as good as the initial design. A grid design with m values per continuous variable leaves an error of at most the slope of the objective times the sum of the half steps; a Latin design of n points for one variable leaves at most slope times range / n; a random design of n points leaves a result worse than q with probability at most (1-g)^n, where g is the share of the feasible domain with values as good as q.", "quantifier": "all domains without bandit variables, objectives, models, acquisitions, evaluators, sequences of completed calls that end with a run; both directions of the optimization; all outcomes of the generator", "why_tests_cant": "a bound over all objectives of bounded slope, all models and all histories, and a probability over all outcomes of the generator", "anchors": ["GPyOpt/methods/bayesian_optimization.py:BayesianOptimization.__init__", "GPyOpt/experiment_design/grid_design.py:GridDesign.get_samples", "GPyOpt/experiment_design/grid_design.py:multigrid", "GPyOpt/experiment_design/latin_design.py:LatinDesign.get_samples", "GPyOpt/experiment_design/random_design.py:RandomDesign.get_samples", "GPyOpt/core/bo.py:BO.run_optimization", "GPyOpt/core/bo.py:BO._compute_results"]}
{"id": "C152", "title": "Local penalization starts from the acquisition", "statement": "Without pending locations the penalized acquisition prefers one location to another exactly if the acquisition itself does, so that the first location of every batch is an optimum of the acquisition.", "quantifier": "all acquisition values, locations and transforms", "why_tests_cant": "all real values; the transforms switch formulas at a threshold", "anchors": ["GPyOpt/acquisitions/LP.py:AcquisitionLP.__init__", "GPyOpt/acquisitions/LP.py:AcquisitionLP._penalized_acquisition", "GPyOpt/acquisitions/LP.py:AcquisitionLP.acquisition_function", "GPyOpt/core/evaluators/batch_local_penalization.py:LocalPenalization.compute_batch"]}
{"id": "C153", "title": "Runs do not depend on the number of processes", "statement": "With a deterministic objective, a run that evaluates its batches with n processes evaluates the same locations, stores the same outputs, ends in the same way and reports the same optimum as the run with one process, whatever the interleaving of the processes in every batch, and also if processes cannot be started.", "quantifier": "all numbers of processes, interleavings in every evaluation, objectives, domains, models, acquisitions, evaluators, budgets of iterations, initial data, clocks", "why_tests_cant": "every schedule of every batch of every run", "anchors": ["GPyOpt/core/bo.py:BO.run_optimization", "GPyOpt/core/bo.py:BO.evaluate_objective", "GPyOpt/core/task/objective.py:SingleObjective.evaluate", "GPyOpt/core/task/objective.py:SingleObjective._syncronous_batch_evaluation", "GPyOpt/core/task/cost.py:CostModel.update_cost_model"]}
{"id": "C154", "title": "The units of the variables do not matter", "statement": "Describing the variables in other units (metres or centimetres, degrees Celsius or Fahrenheit) changes nothing but the units: domains, encodings, rounding, bounds, feasibility, initial designs, suggestions, evaluations, fits, costs, stopping and results are the same up to conversion, provided that model, acquisition and local optimizer give the same values at the same locations.", "quantifier": "all units (positive factor and shift per variable), domains without bandit variables, constraints, contexts, designs, evaluators, random numbers, states and budgets", "why_tests_cant": "all units, domains and histories", "anchors": ["GPyOpt/core/task/space.py:Design_space", "GPyOpt/core/task/variables.py", "GPyOpt/experiment_design/__init__.py:initial_design", "GPyOpt/optimization/anchor_points_generator.py", "GPyOpt/optimization/acquisition_optimizer.py:AcquisitionOptimizer.optimize", "GPyOpt/util/duplicate_manager.py:DuplicateManager.__init__", "GPyOpt/core/bo.py:BO.run_optimization", "GPyOpt/core/bo.py:BO._distance_last_evaluations", "GPyOpt/acquisitions/LP.py:AcquisitionLP._hammer_function"]}
{"id": "C155", "title": "A context is a smaller problem", "statement": "Optimizing with some variables fixed by a context is optimizing the problem of the remaining variables, with the objective and the acquisition at the fixed values: the same anchor points, the same suggestions, the same run, each row filled up with the values of the context. Of the evaluations so far only those in the context count.", "quantifier": "all domains without bandit variables and contexts that leave a variable free, all evaluators, acquisitions, random numbers, histories and budgets", "why_tests_cant": "all domains, contexts and histories", "anchors": ["GPyOpt/optimization/acquisition_optimizer.py:ContextManager", "GPyOpt/optimization/anchor_points_generator.py", "GPyOpt/optimization/optimizer.py:OptimizationWithContext", "GPyOpt/core/bo.py:BO.suggest_next_locations", "GPyOpt/core/bo.py:BO.run_optimization", "GPyOpt/core/evaluators/batch_random.py", "GPyOpt/util/duplicate_manager.py:DuplicateManager.__init__"]}
{"id": "C156", "title": "Constraints matter only through the feasible set", "statement": "Two lists of constraints that the same rows meet give the same design samples, the same weighted acquisition, the same suggestions and the same run. In particular the order of the constraints, repeating one, the old or the new key, a positive factor and constraints that follow from the others do not matter. Constraints that every row meets are like no constraints for random designs; the other designs refuse them.", "quantifier": "all domains without bandit variables, all constraints that can be evaluated, all evaluators, contexts, histories and random numbers", "why_tests_cant": "all lists of constraints with the same feasible set", "anchors": ["GPyOpt/core/task/space.py:Design_space.indicator_constraints", "GPyOpt/experiment_design/random_design.py:RandomDesign.get_samples_with_constraints", "GPyOpt/acquisitions/base.py:AcquisitionBase.acquisition_function", "GPyOpt/optimization/anchor_points_generator.py", "GPyOpt/core/bo.py:BO.run_optimization"]}
{"id": "C157", "title": "The order of the variables does not matter", "statement": "Listing the same variables in another order changes nothing but the order of the columns: encodings, rounding, feasibility, random and Latin designs, acquisitions, suggestions and whole runs agree column by column when every variable gets the same random numbers.", "quantifier": "all domains without bandit variables, all orders of their variables, all constraints that say the same of the reordered rows, all histories and random numbers", "why_tests_cant": "all orders of the variables, all inputs and all run lengths", "anchors": ["GPyOpt/core/task/space.py:Design_space", "GPyOpt/experiment_design/random_design.py:RandomDesign", "GPyOpt/experiment_design/latin_design.py:LatinDesign", "GPyOpt/experiment_design/sobol_design.py:SobolDesign", "GPyOpt/optimization/anchor_points_generator.py", "GPyOpt/core/bo.py:BO.run_optimization"]}
{"id": "C158", "title": "Who evaluates the initial locations does not matter", "statement": "The outputs at the initial locations can come from the constructor of BayesianOptimization, from the start of a run of ModularBayesianOptimization or from the user: the runs that follow are the same, and an objective that raises at an initial location raises the same exception after the same calls.", "quantifier": "all configurations, designs, objectives, components, run arguments and run lengths", "why_tests_cant": "all objectives and all runs", "anchors": ["GPyOpt/methods/bayesian_optimization.py:BayesianOptimization._init_design_chooser", "GPyOpt/methods/modular_bayesian_optimization.py:ModularBayesianOptimization.__init__", "GPyOpt/core/bo.py:BO.run_optimization", "GPyOpt/core/task/cost.py:CostModel.update_cost_model"]}
{"id": "C159", "title": "Locations the model is sure of are not evaluated again", "statement": "Without de-duplication the acquisitions EI, MPI and LCB keep the optimizer from suggesting a location whose value the model knows, as long as one of the samples has a better acquisition than a location with the incumbent as mean and the uncertainty of the known locations; with EI and MPI and the default jitter this threshold is practically zero.", "quantifier": "all spaces, constraints, contexts, models, samples, roundings of the acquisition that keep the order, and runs", "why_tests_cant": "all models and all data", "anchors": ["GPyOpt/acquisitions/EI.py:AcquisitionEI._compute_acq", "GPyOpt/acquisitions/MPI.py:AcquisitionMPI._compute_acq", "GPyOpt/acquisitions/LCB.py:AcquisitionLCB._compute_acq", "GPyOpt/models/gpmodel.py:GPModel.get_fmin", "GPyOpt/optimization/acquisition_optimizer.py:AcquisitionOptimizer.optimize"]}
{"id": "C160", "title": "Optimizers that share a model can be used in turn", "statement": "Several optimizers that were given the same model, acquisition and evaluator objects can be called in any order, one call after the other: each shows the suggestions, outcomes, data and results that it shows when it is used alone.  This ends where calls overlap: a fit by one optimizer between the fit and the suggestion of another changes the suggestion.", "quantifier": "any number of optimizers, all their data, contexts and objectives, and all interleavings of suggestions and runs", "why_tests_cant": "all interleavings of all call sequences", "anchors": ["GPyOpt/core/bo.py:BO.suggest_next_locations", "GPyOpt/core/bo.py:BO.run_optimization", "GPyOpt/core/bo.py:BO._update_model", "GPyOpt/methods/modular_bayesian_optimization.py:ModularBayesianOptimization.__init__"]}
{"id": "C161", "title": "Model and acquisition objects given to an optimizer are used", "statement": "A model object passed to BayesianOptimization is fitted and is the model of the acquisition; an acquisition object is the one that is optimized; and whatever objects are passed, suggestions come from the model that the loop fits to the data and respect the context of the call.  This ends where an acquisition object is passed without its model, and for local penalization.", "quantifier": "all arguments of the constructor, model and acquisition objects, histories of calls, data and contexts", "why_tests_cant": "all combinations of given and created components, all histories", "anchors": ["GPyOpt/methods/bayesian_optimization.py:BayesianOptimization.__init__", "GPyOpt/util/arguments_manager.py:ArgumentsManager.evaluator_creator", "GPyOpt/core/bo.py:BO._compute_next_evaluations", "GPyOpt/core/bo.py:BO._update_model"]}
{"id": "C162", "title": "The unit of the costs does not change the suggestions", "statement": "If all costs given by the user are multiplied by the same positive number (another currency, seconds instead of minutes), the same locations are suggested and a run collects the same data.  More generally what is suggested depends only on the order that the acquisition gives to the locations.  This ends where costs are modelled, where penalized acquisitions round, and for optimizers with an absolute tolerance.", "quantifier": "all spaces, cost functions, acquisitions, factors, evaluators, contexts, data, locations to avoid, runs", "why_tests_cant": "all cost functions and factors, all histories", "anchors": ["GPyOpt/acquisitions/base.py:AcquisitionBase.acquisition_function", "GPyOpt/optimization/acquisition_optimizer.py:AcquisitionOptimizer.optimize", "GPyOpt/core/task/cost.py:CostModel", "GPyOpt/acquisitions/LP.py:AcquisitionLP._penalized_acquisition"]}
{"id": "C163", "title": "Asynchronous workers are never given the same location", "statement": "Several workers evaluate the objective outside of the library; each asks for locations when it is free, with the data so far, the locations still being evaluated and those that were given up.  Whatever the order in which they ask, tell and give up, with de-duplication no location is handed out twice or was in the initial data, all are in the domain, and each is at every moment exactly once in the data, pending or given up.  One worker that asks and tells in turn collects the data of the sequential loop.", "quantifier": "all spaces without bandits or with one bandit variable, components, contexts, initial data, schedules of questions, answers and failures", "why_tests_cant": "all schedules of any number of workers", "anchors": ["GPyOpt/core/bo.py:BO.suggest_next_locations", "GPyOpt/util/duplicate_manager.py:DuplicateManager.__init__", "GPyOpt/core/evaluators/sequential.py:Sequential.compute_batch"]}
{"id": "C164", "title": "Sensitivity coefficients of the gSobol benchmark", "statement": "The attribute S_coef of a gSobol object is the share of the variance of its function that each variable explains (the first order Sobol index), for every number of variables and all positive coefficients, and orders the variables by importance on every interval.  Coefficients that are not positive are refused.", "quantifier": "all numbers of variables, coefficients, intervals of the variables", "why_tests_cant": "all coefficients and dimensions; the indices are integrals, which no number of evaluations gives", "anchors": ["GPyOpt/objective_examples/experimentsNd.py:gSobol.__init__", "GPyOpt/objective_examples/experimentsNd.py:gSobol.f"]}
{"id": "C165", "title": "A larger batch extends a smaller one", "statement": "With the same random numbers the batch of n locations that an evaluator computes starts with the batch of m locations that it computes for every m up to n, and the smaller batch can be computed whenever the larger one can; random batches and batches of local penalization start with the location that the sequential evaluator suggests.  So asking for more locations at once never takes one away.", "quantifier": "all spaces, contexts, histories, acquisitions, random numbers and pairs of batch sizes", "why_tests_cant": "all pairs of batch sizes and all anchor points; the loop that drops duplicates stops at a point that depends on both", "anchors": ["GPyOpt/core/evaluators/base.py:SamplingBasedBatchEvaluator.compute_batch", "GPyOpt/core/evaluators/batch_random.py:RandomBatch", "GPyOpt/core/evaluators/batch_thompson.py:ThompsonBatch", "GPyOpt/core/evaluators/batch_local_penalization.py:LocalPenalization.compute_batch", "GPyOpt/optimization/anchor_points_generator.py:AnchorPointsGenerator.get"]}
{"id": "C166", "title": "Runs with a seed", "statement": "All random numbers of a run come from one generator, and no number is used twice within a random design: its variables take consecutive numbers, first those with finitely many values and then the continuous ones.  The numbers that each iteration draws do not depend on the objective, the data, the model or the acquisition: runs with the same seed look at the same candidates in every iteration and, after the same number of iterations, leave the generator in the same state.  With a seed, n iterations followed by m iterations are n+m iterations, and asking for a suggestion does not change later runs.", "quantifier": "all seeds, generators, spaces, contexts, objectives, models, histories, evaluators and numbers of iterations", "why_tests_cant": "all generators and all histories: which numbers are drawn, and when, depends on every call before", "anchors": ["GPyOpt/core/bo.py:BO.run_optimization", "GPyOpt/core/bo.py:BO.suggest_next_locations", "GPyOpt/experiment_design/random_design.py:RandomDesign.get_samples", "GPyOpt/optimization/anchor_points_generator.py:AnchorPointsGenerator.get", "GPyOpt/core/evaluators/batch_local_penalization.py:estimate_L", "GPyOpt/core/evaluators/batch_random.py:RandomBatch", "GPyOpt/models/gpmodel.py:GPModel.updateModel"]}
{"id": "C167", "title": "Interrupting an optimization", "statement": "A run that the user interrupts (Ctrl-C in the objective, in a fit or between two statements) leaves all pairs of locations and outputs recorded before, complete and in order; only the locations of the batch in evaluation have no output, and the results are those of the run before.  After the locations without output are removed, the remaining iterations give the object of the run without the interrupt.", "quantifier": "all problems, histories, budgets, evaluators and all moments of a run or of a request for a suggestion at which the interrupt arrives", "why_tests_cant": "an interrupt arrives at any of unboundedly many moments of every history", "anchors": ["GPyOpt/core/bo.py:BO.run_optimization", "GPyOpt/core/bo.py:BO.evaluate_objective", "GPyOpt/core/bo.py:BO._compute_results", "GPyOpt/core/bo.py:BO.suggest_next_locations", "GPyOpt/core/task/objective.py:SingleObjective.evaluate", "GPyOpt/core/task/cost.py:CostModel.update_cost_model"]}
{"id": "C168", "title": "The values of a variable are a set", "statement": "The order in which the user lists the values of a discrete variable or the categories of a categorical one, and repetitions in a discrete list, do not change anything but the chance with which a value is drawn: the description is accepted or rejected alike, the domain, encodings, bounds, designs (for draws of the same values), suggestions and runs are the same.", "quantifier": "all descriptions and all others that list the same values, all constraints, contexts, designs, evaluators, histories and random draws", "why_tests_cant": "a test has two lists; the claim is about every pair of lists of the same values", "anchors": ["GPyOpt/core/task/variables.py:DiscreteVariable.round", "GPyOpt/core/task/variables.py:DiscreteVariable.get_bounds", "GPyOpt/core/task/variables.py:CategoricalVariable", "GPyOpt/core/task/space.py:Design_space", "GPyOpt/experiment_design/random_design.py:RandomDesign.fill_noncontinous_variables", "GPyOpt/core/bo.py:BO.run_optimization"]}
{"id": "C169", "title": "Local penalization without inf and nan", "statement": "The value and the gradient of the penalized acquisition are finite numbers at every location, for every prediction of the model and every batch, although logarithms and exponentials of the acquisition are taken and it and distances are divided by.", "quantifier": "all values and gradients of the acquisition, batches, penalizers, locations and transforms, and any exponential that underflows and overflows as in double precision", "why_tests_cant": "a test evaluates the acquisition for a few models with outputs of moderate size; the claim is about every size of the outputs and every location", "anchors": ["GPyOpt/acquisitions/LP.py:AcquisitionLP._penalized_acquisition", "GPyOpt/acquisitions/LP.py:AcquisitionLP.d_acquisition_function", "GPyOpt/acquisitions/LP.py:AcquisitionLP._d_hammer_function"]}
{"id": "C170", "title": "Acquisitions of several locations at once", "statement": "Evaluating an acquisition or its gradient at a matrix of locations gives, with numpy's broadcasting, one row for each location, and that row is what evaluating it at that location alone gives: for expected improvement, probability of improvement, lower confidence bound, their integrated versions, the weighting by constraints and cost, and local penalization.", "quantifier": "all numbers of locations and dimensions, predictions and their gradients, constraints, costs, samples of hyper-parameters, transforms and batches", "why_tests_cant": "a test evaluates matrices of a few shapes; the claim is about every shape", "anchors": ["GPyOpt/acquisitions/base.py:AcquisitionBase.acquisition_function", "GPyOpt/acquisitions/base.py:AcquisitionBase.acquisition_function_withGradients", "GPyOpt/acquisitions/EI.py:AcquisitionEI", "GPyOpt/acquisitions/MPI.py:AcquisitionMPI", "GPyOpt/acquisitions/LCB.py:AcquisitionLCB", "GPyOpt/acquisitions/EI_mcmc.py:AcquisitionEI_MCMC", "GPyOpt/acquisitions/LP.py:AcquisitionLP.d_acquisition_function", "GPyOpt/util/general.py:get_quantiles"]}
{"id": "C171", "title": "Infinite outputs and times of zero", "statement": "If the objective returns inf where it cannot be evaluated, the reported optimum is the best of the other evaluations; and the models are given finite numbers: the normalized outputs, and the logarithms of the evaluation times.", "quantifier": "all lists of outputs that are numbers or inf, in any order, both normalizations, all measured times including zero", "why_tests_cant": "a test has a few outputs; the claim is about every list of outputs with an infinite one", "anchors": ["GPyOpt/core/bo.py:BO._compute_results", "GPyOpt/core/bo.py:BO._update_model", "GPyOpt/util/general.py:normalize", "GPyOpt/util/general.py:best_value", "GPyOpt/core/task/cost.py:CostModel.update_cost_model"]}
{"id": "C172", "title": "Regret of search by expected improvement", "statement": "If the intervals mean +- w*dev of the model contain the objective, the search by expected improvement over continuous variables is good: the excess of the reported optimum over a value q that is sampled in every iteration, summed over the iterations, is at most R*(total gain + sum of (w+1/2)*dev at the suggestions) plus the jitter and (1+R)*w*dev at the data for every iteration, where R = EI(w)/EI(-w) for a standard normal variable; every iteration samples such a value with probability at least (1-(1-g)^N)^K. Improvements below the jitter may never be made.", "quantifier": "all objectives, models whose intervals contain the objective, contexts, numbers of iterations and samples, local optimizers that do not leave the bounds or get worse, errors of the computed acquisition of at most eta, with and without de-duplication", "why_tests_cant": "a test runs some iterations on one function; the claim bounds the error of every run", "anchors": ["GPyOpt/acquisitions/EI.py:AcquisitionEI", "GPyOpt/util/general.py:get_quantiles", "GPyOpt/models/gpmodel.py:GPModel.get_fmin", "GPyOpt/optimization/acquisition_optimizer.py:AcquisitionOptimizer.optimize", "GPyOpt/core/bo.py:BO.run_optimization"]}
{"id": "C173", "title": "Acquisitions tell locations apart in double precision", "statement": "Of two locations the one that the model prefers also has the better computed acquisition, so the suggestion depends on the model. False for expected improvement and the probability of improvement: where the target (incumbent minus jitter) is forty deviations below the mean, the computed value and its gradient are exactly zero; with the default jitter 0.01 this is everywhere once all deviations are below 0.00025 and no mean is below the incumbent, and then any two models have the same suggestion. Up to 36 deviations nothing underflows.", "quantifier": "all means, deviations, jitters, costs, constraints, models, samples, local optimizers that look at the function within the bounds, arithmetics whose exponential and error function underflow below 2^-1080", "why_tests_cant": "a test compares values at a few locations of moderate uncertainty; the claim is about the values that are too small for a double, in the late phase of long runs", "anchors": ["GPyOpt/acquisitions/EI.py:AcquisitionEI", "GPyOpt/acquisitions/MPI.py:AcquisitionMPI", "GPyOpt/util/general.py:get_quantiles", "GPyOpt/acquisitions/base.py:AcquisitionBase.acquisition_function", "GPyOpt/optimization/acquisition_optimizer.py:AcquisitionOptimizer.optimize"]}
{"id": "C174", "title": "Variables with one value can be left out", "statement": "A configuration may list variables that have a single value: a continuous one whose bounds are equal, a discrete one with one value, a category with the single label 0. Encoding, decoding, rounding, the constraints, random, Latin and Sobol designs, suggestions of all evaluators with the same acquisition and whole runs are those of the problem without these variables, with the value filled in. False for grid designs, which have fewer points in every direction, and for random batches with duplicate logic, which drop an optimum at the origin of the smaller problem.", "quantifier": "all configurations without bandits, places of the variables left out, constraints, random numbers, acquisitions, anchor rules, evaluators, histories, lengths of runs", "why_tests_cant": "a test compares two problems with one seed, for which the random streams already differ; the claim is about all problems and all corresponding random numbers", "anchors": ["GPyOpt/core/task/space.py:Design_space", "GPyOpt/experiment_design/random_design.py:RandomDesign", "GPyOpt/experiment_design/latin_design.py:LatinDesign", "GPyOpt/experiment_design/sobol_design.py:SobolDesign", "GPyOpt/experiment_design/grid_design.py:GridDesign.get_samples", "GPyOpt/core/bo.py:BO._compute_next_evaluations", "GPyOpt/core/bo.py:BO.run_optimization"]}
{"id": "C175", "title": "The numbers of the categories do not matter", "statement": "The categories of a categorical variable are numbered 0, 1, ...; a user who lists the same categories with other numbers gets the same problem. Encoding, decoding, rounding, constraints, all designs, suggestions without duplicate logic (and sequential and local penalization suggestions with it) and whole runs are the same, up to the numbers, if the acquisition has the same values. False where two columns of a category are equally great, since the first is taken; for random batches with duplicate logic, whose samples are sorted by the numbers; and for a stopping rule with eps of 1 or more, which measures distances between numbers of categories.", "quantifier": "all configurations without bandits, permutations of the categories of every variable, constraints, random numbers, acquisitions, anchor rules, evaluators, histories, lengths of runs", "why_tests_cant": "a test compares two numberings of one problem with one seed, for which the drawn categories already differ; the claim is about all problems, all permutations and all corresponding random numbers", "anchors": ["GPyOpt/core/task/variables.py:CategoricalVariable", "GPyOpt/core/task/space.py:Design_space", "GPyOpt/experiment_design/random_design.py:RandomDesign", "GPyOpt/optimization/anchor_points_generator.py:AnchorPointsGenerator.get", "GPyOpt/core/bo.py:BO._compute_next_evaluations", "GPyOpt/core/bo.py:BO.run_optimization"]}
{"id": "C176", "title": "Regret of search by the probability of improvement", "statement": "If the intervals mean +- w*dev of the model contain the objective, the search by the probability of improvement over continuous variables comes within the jitter of the values it samples: as long as a sample is better than the incumbent by the jitter, the suggestion is better than the incumbent by the jitter less 2*w*dev there. If every iteration samples a value of at most q, then the reported optimum exceeds q by at most the jitter and w*dev at the data, or the number of suggestions with small deviations is at most the total gain divided by half the jitter; every iteration samples such a value with probability at least (1-(1-g)^N)^K. Improvements below the jitter may never be made, and without a jitter the gains may be arbitrarily small.", "quantifier": "all objectives, models whose intervals contain the objective, contexts, numbers of iterations and samples, local optimizers that do not leave the bounds or get worse, small errors of the computed acquisition, with and without de-duplication", "why_tests_cant": "a test runs some iterations on one function; the claim bounds the error of every run", "anchors": ["GPyOpt/acquisitions/MPI.py:AcquisitionMPI", "GPyOpt/util/general.py:get_quantiles", "GPyOpt/models/gpmodel.py:GPModel.get_fmin", "GPyOpt/optimization/acquisition_optimizer.py:AcquisitionOptimizer.optimize", "GPyOpt/core/bo.py:BO.run_optimization"]}
{"id": "C177", "title": "Noisy objectives", "statement": "If every output of the objective differs from the value of a function at the location by at most v, in whatever way and differently in every call, then after a completed run fx_opt is within v of the function at x_opt, exceeds the function at no evaluated location by more than v, and x_opt is at most 2*v worse than every evaluated location; entry k of Y_best is within v of the best value among the first k+1 locations. With LCB and intervals that contain the function whenever the data are within v of it, the excess over the values sampled in iteration k is at most 2*w*dev at the suggestion plus 2*v. The bounds are attained: x_opt may be 2*v worse than an evaluated location and fx_opt lower than every value of the function.", "quantifier": "all functions, noise bounds, noise that depends on the call in any way (also adversarially), initial data, budgets, suggestions and configurations; for the bound of the search models whose intervals contain the function", "why_tests_cant": "a test adds random noise to one function; the claim covers every sequence of errors", "anchors": ["GPyOpt/core/bo.py:BO.evaluate_objective", "GPyOpt/core/bo.py:BO.run_optimization", "GPyOpt/core/bo.py:BO._compute_results", "GPyOpt/core/task/objective.py:SingleObjective", "GPyOpt/util/general.py:best_value"]}
{"id": "C178", "title": "Search with constraints", "statement": "Continuous variables with constraints: if the acquisition is positive (expected improvement, probability of improvement) and the initial locations are feasible, then a run without context evaluates the objective at feasible locations only and reports a feasible location, also with costs and without duplicates. With LCB and intervals that contain the objective where the constraints are met, an iteration that samples a feasible new location better than the number subtracted by normalization suggests a feasible location, which exceeds no such sample by more than 2*w*dev; if normalization subtracts at least the smallest output, the reported value exceeds no feasible sample by more than 2*w*dev. Without normalization LCB prefers infeasible locations to all feasible ones when the objective is positive; rounding of discrete variables can make the suggestion infeasible with any acquisition.", "quantifier": "all constraints, objectives, acquisitions and models as said, contexts (for the bound), numbers of samples and iterations, local optimizers that do not leave the bounds or get worse, with and without de-duplication and costs", "why_tests_cant": "a test checks some suggestions of one problem; the claim covers every suggestion of every run", "anchors": ["GPyOpt/acquisitions/base.py:AcquisitionBase.acquisition_function", "GPyOpt/core/task/space.py:Design_space.indicator_constraints", "GPyOpt/optimization/acquisition_optimizer.py:AcquisitionOptimizer.optimize", "GPyOpt/acquisitions/LCB.py:AcquisitionLCB", "GPyOpt/core/bo.py:BO.run_optimization"]}
{"id": "C179", "title": "Search with batches", "statement": "With LCB and intervals that contain the objective, a run with batches completed at random or by local penalization has the guarantee of a run with suggestions one at a time, with one width per batch: the value of the objective at the reported location exceeds the values sampled for the first location of a batch by at most 2*w*dev there, plus twice the noise of the objective; if samples of every batch reach q, the average of the widths over the batches bounds the excess over q. The acquisition of local penalization may be transformed in any way that keeps the order. With the random evaluator and without duplicates this ends if zero is a location: an optimum at zero is dropped from the batch.", "quantifier": "all batch sizes, objectives, bounded noise, contexts, numbers of batches and samples, models whose intervals contain the objective, local optimizers that do not leave the bounds or get worse, with and without de-duplication", "why_tests_cant": "a test runs some batches on one function; the claim bounds the error of every run", "anchors": ["GPyOpt/core/evaluators/batch_random.py:RandomBatch", "GPyOpt/core/evaluators/batch_local_penalization.py:LocalPenalization.compute_batch", "GPyOpt/core/evaluators/base.py:SamplingBasedBatchEvaluator.compute_batch", "GPyOpt/optimization/acquisition_optimizer.py:AcquisitionOptimizer.optimize", "GPyOpt/core/bo.py:BO.run_optimization"]}
{"id": "C180", "title": "Constraints and batches", "statement": "With a positive acquisition (as expected improvement and the probability of improvement have), continuous variables and no context, every location of a batch that is completed at random or by Thompson sampling meets the constraints, with and without de-duplication, costs, pending and ignored locations; a run that starts at feasible locations evaluates the objective at feasible locations only, and reports one. This does not hold for local penalization: its penalty has no bound, so that a location where the constraints are violated may be better than all feasible ones.", "quantifier": "all constraints, batch sizes, data, positive acquisitions and costs, random draws, local optimizers that do not leave the bounds or get worse, numbers of iterations; for the negation all transformations, feasible sets within a distance of the first location, and bounded acquisitions", "why_tests_cant": "a test runs some batches with one constraint; the claim is about every batch of every run, and about the size of the penalty", "anchors": ["GPyOpt/core/evaluators/batch_random.py:RandomBatch", "GPyOpt/core/evaluators/batch_thompson.py:ThompsonBatch", "GPyOpt/acquisitions/base.py:AcquisitionBase.acquisition_function", "GPyOpt/acquisitions/LP.py:AcquisitionLP._penalized_acquisition", "GPyOpt/experiment_design/random_design.py:RandomDesign.get_samples_with_constraints", "GPyOpt/core/bo.py:BO.run_optimization"]}
{"id": "C181", "title": "Search by expected improvement with constraints", "statement": "With the acquisition EI, continuous variables and constraints, feasible initial locations and a model whose intervals contain the objective where the constraints are met, a run evaluates the objective at feasible locations only and reports one, and the sum of the excesses of the reported optimum over a value that is reached by samples of every iteration (all of them feasible) is bounded as without constraints, by the gain over any initial location, the widths at the suggestions, the jitter and the widths at the data. What the model says about locations where the constraints are violated does not matter. The acquisition has to be positive: where it is rounded to zero, a location that violates the constraints may be suggested and reported.", "quantifier": "all constraints, objectives, models whose intervals contain the objective at feasible locations, numbers of iterations and samples, jitters, local optimizers that do not leave the bounds or get worse, with and without de-duplication", "why_tests_cant": "a test runs some iterations with one constraint; the claim bounds the error of every run", "anchors": ["GPyOpt/acquisitions/EI.py:AcquisitionEI", "GPyOpt/acquisitions/base.py:AcquisitionBase.acquisition_function", "GPyOpt/optimization/acquisition_optimizer.py:AcquisitionOptimizer.optimize", "GPyOpt/core/bo.py:BO.run_optimization", "GPyOpt/core/task/space.py:Design_space.indicator_constraints"]}
{"id": "C182", "title": "Search by the probability of improvement with constraints", "statement": "With the acquisition MPI, continuous variables and constraints, feasible initial locations, a positive acquisition and a model whose intervals contain the objective where the constraints are met, a run evaluates the objective at feasible locations only and reports one. If every iteration samples a value of at most q (all samples are feasible), then the reported optimum exceeds q by at most the jitter and the width at the data, or the parts of the jitter that the widths at the suggestions leave sum to at most the total gain, which bounds the number of suggestions with small widths. What the model says about locations where the constraints are violated does not matter.", "quantifier": "all constraints, objectives, models whose intervals contain the objective at feasible locations, numbers of iterations and samples, jitters, local optimizers that do not leave the bounds or get worse, with and without de-duplication", "why_tests_cant": "a test runs some iterations with one constraint; the claim bounds the error of every run", "anchors": ["GPyOpt/acquisitions/MPI.py:AcquisitionMPI", "GPyOpt/acquisitions/base.py:AcquisitionBase.acquisition_function", "GPyOpt/optimization/acquisition_optimizer.py:AcquisitionOptimizer.optimize", "GPyOpt/core/bo.py:BO.run_optimization", "GPyOpt/core/task/space.py:Design_space.indicator_constraints"]}
{"id": "C183", "title": "Batches by expected improvement and by the probability of improvement", "statement": "With the acquisition EI or MPI and a model whose intervals contain the objective, the bounds for suggestions one at a time hold for batches that are completed at random or computed by local penalization, with one term per batch, for the deviation at its first location: for EI the sum over the batches of the excess of the reported optimum over a value that is sampled in every iteration, for MPI the alternative that the optimum is within the jitter of that value or that the parts of the jitter that the widths leave sum to at most the total gain. Local penalization takes logarithms of the acquisition; an error of rho in them counts as an error of rho times the largest acquisition. Batches completed at random without duplicates need a domain without the location zero (otherwise the first location may be dropped).", "quantifier": "all spaces of continuous variables, objectives, models whose intervals contain the objective, batch sizes, numbers of iterations and samples, contexts, jitters, local optimizers that do not leave the bounds or get worse", "why_tests_cant": "a test runs some batches; the claim bounds the error of every run", "anchors": ["GPyOpt/acquisitions/EI.py:AcquisitionEI", "GPyOpt/acquisitions/MPI.py:AcquisitionMPI", "GPyOpt/acquisitions/LP.py:AcquisitionLP", "GPyOpt/core/evaluators/batch_random.py:RandomBatch", "GPyOpt/core/evaluators/batch_local_penalization.py:LocalPenalization", "GPyOpt/core/bo.py:BO.run_optimization"]}
{"id": "C184", "title": "The first location of a penalized batch meets the constraints", "statement": "With local penalization, continuous variables, constraints and no context, the first location of every batch meets the constraints, in every iteration of a run, whatever the data, the batch size and the duplicate logic, if the acquisition is positive and computed precisely enough: without penalizers every transformation (softplus, none, other) gives a location with a positive acquisition a better value than one where the constraints are violated. (The further locations of the batch may violate them.)", "quantifier": "all constraints, transformations, positive acquisitions, data, batch sizes, numbers of iterations, local optimizers that do not leave the bounds or get worse", "why_tests_cant": "a test computes some batches with one constraint; the claim holds for every batch of every run", "anchors": ["GPyOpt/acquisitions/LP.py:AcquisitionLP._penalized_acquisition", "GPyOpt/core/evaluators/batch_local_penalization.py:LocalPenalization.compute_batch", "GPyOpt/core/task/space.py:Design_space.indicator_constraints", "GPyOpt/optimization/acquisition_optimizer.py:AcquisitionOptimizer.optimize"]}
{"id": "C185", "title": "Search by expected improvement per cost", "statement": "With the acquisition EI, a cost model whose costs in the domain are between lo and hi (and may change from iteration to iteration), and a model whose intervals contain the objective, the bound for expected improvement without costs holds with its factor multiplied by hi / lo, for suggestions one at a time and for batches that are completed at random or computed by local penalization. Without a bound on the costs there is none: however large the expected improvement at a location is, a large enough cost makes any other location preferred.", "quantifier": "all spaces of continuous variables, objectives, models whose intervals contain the objective, costs within bounds, batch sizes, numbers of iterations and samples, contexts, jitters, local optimizers that do not leave the bounds or get worse", "why_tests_cant": "a test runs some iterations with one cost function; the claim bounds the error of every run", "anchors": ["GPyOpt/acquisitions/EI.py:AcquisitionEI", "GPyOpt/acquisitions/base.py:AcquisitionBase.acquisition_function", "GPyOpt/core/task/cost.py:CostModel", "GPyOpt/core/bo.py:BO.run_optimization"]}
{"id": "C186", "title": "Search by the probability of improvement per cost", "statement": "With the acquisition MPI, a cost model whose costs in the domain are between lo and hi (and may change from iteration to iteration), and a model whose intervals contain the objective, the bounds for the probability of improvement without costs hold, for suggestions one at a time and for batches, with a number of standard deviations w' that is chosen for the ratio hi / lo. Without a bound on the costs there is none: a large enough cost makes any other location preferred.", "quantifier": "all spaces of continuous variables, objectives, models whose intervals contain the objective, costs within bounds, batch sizes, numbers of iterations and samples, contexts, jitters, local optimizers that do not leave the bounds or get worse", "why_tests_cant": "a test runs some iterations with one cost function; the claim bounds the error of every run", "anchors": ["GPyOpt/acquisitions/MPI.py:AcquisitionMPI", "GPyOpt/acquisitions/base.py:AcquisitionBase.acquisition_function", "GPyOpt/core/task/cost.py:CostModel", "GPyOpt/core/bo.py:BO.run_optimization"]}
{"id": "C187", "title": "Batches by expected improvement and the probability of improvement with constraints", "statement": "With constraints, a model whose intervals contain the objective, and the acquisition EI or MPI, the first location of every batch meets the constraints, and the best value of a run satisfies the bounds for batches without constraints against the samples of the acquisition, which all meet the constraints. This holds for local penalization, and without de-duplication for batches completed at random and for suggestions one at a time.", "quantifier": "all spaces of continuous variables, constraints, objectives, models whose intervals contain the objective, batch sizes, numbers of iterations and samples, jitters, local optimizers that do not leave the bounds or get worse", "why_tests_cant": "a test runs some iterations with one constraint; the claim bounds the error of every run", "anchors": ["GPyOpt/acquisitions/EI.py:AcquisitionEI", "GPyOpt/acquisitions/MPI.py:AcquisitionMPI", "GPyOpt/acquisitions/base.py:AcquisitionBase.acquisition_function", "GPyOpt/core/evaluators/batch_local_penalization.py:LocalPenalization", "GPyOpt/core/evaluators/batch_random.py:RandomBatch", "GPyOpt/core/bo.py:BO.run_optimization"]}
{"id": "C188", "title": "Search by integrated expected improvement", "statement": "With the acquisition EI_MCMC and samples of the hyper-parameters that all have intervals containing the objective, the bound for expected improvement holds with the mean of the deviations over the samples, for suggestions one at a time and for batches. The acquisition adds the jitter where EI subtracts it; this makes its error larger by at most the jitter.", "quantifier": "all spaces of continuous variables, objectives, nonempty lists of samples whose intervals contain the objective, batch sizes, numbers of iterations and samples, contexts, jitters, local optimizers that do not leave the bounds or get worse", "why_tests_cant": "a test runs some iterations with one set of samples; the claim bounds the error of every run", "anchors": ["GPyOpt/acquisitions/EI_mcmc.py:AcquisitionEI_MCMC", "GPyOpt/models/gpmodel.py:GPModel_MCMC", "GPyOpt/core/bo.py:BO.run_optimization"]}
