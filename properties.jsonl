{"id": "C01", "title": "Constructed parameters are valid", "statement": "Whenever a par_info is constructed without an exception, by either constructor, its mean is a number, std >= 0, min <= max and min <= mean <= max; otherwise construction throws.", "quantifier": "every name, every double (incl. NaN and infinities) for mean/std/min/max, every configuration text or child node, every par_options", "why_tests_cant": "the text constructor is a loop over arbitrary segment sequences followed by four interacting repair rules; only sampled strings can be tested", "anchors": ["spot/par_info.cpp:par_info::par_info", "spot/par_info.h:is_valid"]}
{"id": "C02", "title": "Parameter notation is decoded component by component", "statement": "A text made of at most one mean, one ~std and one bracketed range, in any order, decodes to exactly those numbers; missing parts get the documented defaults: `~v` alone means mean v with std max(factor*|v|+offset, minimum), a range without mean takes the midpoint, a range without std takes a quarter of the width.", "quantifier": "all numbers, all orders of the components, all three bracket styles, all par_options", "why_tests_cant": "the parser is order-insensitive by construction of a loop with mutable state; tests cover a handful of strings", "anchors": ["spot/par_info.cpp:par_info::par_info(string,prop_node,par_options)"]}
{"id": "C03", "title": "Malformed parameter notation is rejected", "statement": "A second mean, a second std after a non-zero one, mismatched brackets, an unreadable number, an empty definition, mean outside the range or min >= max always throw instead of producing a parameter. The one exception is an unreadable number directly after '~', which is read as 0 and ends the definition.", "quantifier": "every configuration text and par_options", "why_tests_cant": "there are infinitely many malformed texts", "anchors": ["spot/par_info.cpp:par_info::par_info(string,prop_node,par_options)"]}
{"id": "C04", "title": "Parameter names stay unique", "statement": "Starting from an empty objective_info, after any sequence of add, get, import_mean_std, import_locked, set_mean_std and set_std_minimum calls (including ones that throw), no name occurs twice among the free parameters, no locked name is also a free one, and each locked name has exactly one value.", "quantifier": "every operation history, every file content, every name", "why_tests_cant": "invariant over unbounded histories mixing three different mutation paths", "anchors": ["spot/objective_info.cpp:add", "spot/objective_info.cpp:lock_parameter", "spot/objective_info.cpp:import_mean_std", "spot/objective_info.cpp:import_locked"]}
{"id": "C05", "title": "add appends exactly one parameter or changes nothing", "statement": "objective_info::add of a fresh valid name with std != 0 appends the parameter at index dim() and increases dim() by one; with std == 0 it becomes locked to its mean and dim() is unchanged; a duplicate (free or locked) or ill-formed name throws and changes nothing; every other parameter keeps its index and value.", "quantifier": "every registry state and every par_info", "why_tests_cant": "frame conditions over all other names cannot be enumerated", "anchors": ["spot/objective_info.cpp:add", "spot/objective_info.cpp:find_index"]}
{"id": "C06", "title": "Requesting a parameter twice is idempotent", "statement": "If get(name, ...) returned v on an objective_info, an immediately repeated identical call returns v again and leaves the registry unchanged.", "quantifier": "every registry state, prefix, options/aliases, and both the numeric and the prop_node overload", "why_tests_cant": "depends on the interplay of aliases, prefix, locked and free parameters, constants and references", "anchors": ["spot/par_io.cpp:par_io::get", "spot/objective_info.cpp:try_get"]}
{"id": "C07", "title": "Registered parameters are stable under later requests", "statement": "Once a parameter is registered, no later sequence of get/add/prefix/option calls on the objective_info changes its index, mean, std or bounds, or removes it; dim() never decreases.", "quantifier": "all request histories", "why_tests_cant": "unbounded histories", "anchors": ["spot/par_io.cpp:par_io::get", "spot/objective_info.cpp:add"]}
{"id": "C08", "title": "Register then evaluate never meets an undefined parameter", "statement": "If a fixed sequence of prefix/options/get requests ran on an objective_info without an exception, running the same sequence on any search_point over the resulting objective_info also runs without an exception.", "quantifier": "every request sequence (both get overloads, references, aliases, nested prefixes and options) and every value vector", "why_tests_cant": "the failure needs a particular combination of names and order; the quantifier is over all programs using the API", "anchors": ["spot/par_io.cpp:par_io::get", "spot/search_point.cpp:add", "spot/search_point.cpp:try_get"]}
{"id": "C09", "title": "A search point answers with its own values", "statement": "search_point::get/try_get of a free parameter returns the search point's value at that parameter's index; of a locked parameter the locked value; it never changes the search point or the objective_info, and throws for an unknown non-constant parameter.", "quantifier": "every objective_info, value vector and name", "why_tests_cant": "must hold for every name in every registry", "anchors": ["spot/search_point.cpp:try_get", "spot/search_point.cpp:add"]}
{"id": "C10", "title": "References resolve innermost prefix first", "statement": "A prop_node value that starts with a letter is looked up under the current prefix, then under each shorter prefix, then unprefixed, and the first existing parameter's value is returned; if none exists get throws. (The resolved parameter can differ between registration and evaluation if a closer one is registered later.)", "quantifier": "every prefix stack, registry and reference name", "why_tests_cant": "depends on arbitrary nesting and registry contents", "anchors": ["spot/par_io.cpp:par_io::get(string,prop_node)"]}
{"id": "C11", "title": "Scoped prefixes and options are restored", "statement": "After any well-nested block of scoped_prefix / scoped_par_options the prefix and the option set are exactly what they were before the block. Inside a scoped prefix a request is the request with the prefix (and at most one dot) written before the name. Inside scoped_par_options the options written in the node replace the enclosing ones and all others keep their enclosing value.", "quantifier": "every nesting of scopes and every body", "why_tests_cant": "arbitrary nesting depth", "anchors": ["spot/par_io.h:scoped_prefix", "spot/par_io.h:scoped_par_options"]}
{"id": "C12", "title": "Import of means/stds touches only named parameters and accounts for every record", "statement": "import_mean_std updates exactly the parameters named in accepted records with the documented formulas, locks those with std 0, leaves all others unchanged and in their order, never changes bounds, and returns (set, not found) with set + not found = number of records accepted by include/exclude.", "quantifier": "every file content, registry and import setting", "why_tests_cant": "unbounded files; frame condition", "anchors": ["spot/objective_info.cpp:import_mean_std"]}
{"id": "C13", "title": "Locking moves a parameter without losing any", "statement": "import_locked moves each named free parameter to the locked set with the file value, overwrites already locked ones, preserves the relative order of the remaining free parameters, and the overall set of known names is unchanged.", "quantifier": "every file content and registry", "why_tests_cant": "unbounded histories; frame condition", "anchors": ["spot/objective_info.cpp:lock_parameter", "spot/objective_info.cpp:import_locked"]}
{"id": "C14", "title": "Saved search points load back exactly", "statement": "Writing a search_point with operator<< and reading that text with import_values into any search_point over the same objective_info restores every parameter value bit for bit and reports (dim, 0).", "quantifier": "every objective_info with writable unique names, every vector of finite doubles", "why_tests_cant": "needs the decimal/binary round trip for all 2^64 doubles and all names/paddings", "anchors": ["spot/search_point.cpp:operator<<", "spot/search_point.cpp:import_values", "spot/search_point.cpp:rounded"]}
{"id": "C15", "title": "Rounding a stored value is idempotent, monotone and accurate", "statement": "The 8-significant-digit rounding applied to every value stored in a search_point is idempotent (storing a stored value changes nothing), monotone, odd, and changes a finite value by a relative amount of at most about 5e-8.", "quantifier": "every finite double", "why_tests_cant": "2^64 inputs; failure is only possible at isolated points", "anchors": ["spot/search_point.cpp:rounded"]}
{"id": "C16", "title": "Evaluated points respect the bounds", "statement": "Every point handed to the evaluator by the CMA, MES and EVA optimizers is an 8-digit rounding of a sampled vector and has every parameter that was sampled as a finite number within [min, max], the bounds being taken with the same 8 digits (so exactly within bounds that have at most 8 digits; a longer bound is exceeded by at most 5.1e-8 of it). An infinite number is sampled only towards an infinite bound; NaN is sampled by CMA only (see C83); both are stored as 0.", "quantifier": "all bounds, random streams, distributions and generations", "why_tests_cant": "values are checked before they are rounded to 8 digits, so violations occur only for special bounds", "anchors": ["spot/cma_optimizer.cpp:sample_population", "spot/mes_optimizer.cpp:sample_population", "spot/eva_optimizer.cpp:sample_population", "spot/search_point.cpp:set_values"]}
{"id": "C17", "title": "clamp produces a feasible point and is the identity on feasible ones", "statement": "After objective_info::clamp, is_feasible holds; a feasible vector is unchanged; each coordinate becomes the nearest point of its interval.", "quantifier": "every objective_info with min <= max and every vector of the right length", "why_tests_cant": "unbounded dimension and all doubles", "anchors": ["spot/objective_info.cpp:clamp", "spot/objective_info.cpp:is_feasible"]}
{"id": "C18", "title": "Static parameter sets keep the last (or first) value", "statement": "static_par_set::load makes every name map to its last value in the file; merge without overwrite keeps existing values and takes the first new one; with overwrite it behaves like load; names not in the file are unaffected; the returned counts are exact.", "quantifier": "every file and prior contents", "why_tests_cant": "unbounded files", "anchors": ["spot/static_par_set.cpp:load", "spot/static_par_set.cpp:merge"]}
{"id": "C19", "title": "make_objective_info builds d distinct valid parameters", "statement": "make_objective_info returns exactly d parameters named by their index, all distinct, with the i-th mean/std/bounds given, or throws if any of them is invalid.", "quantifier": "every d and vectors", "why_tests_cant": "unbounded d", "anchors": ["spot/objective_info.cpp:make_objective_info"]}
{"id": "C20", "title": "best_fitness is the best fitness ever returned", "statement": "After any history of steps, best_fitness() is the minimum (maximum when maximizing) of all fitnesses of all completed steps and of the initial worst value; in particular it never gets worse. (Fails if a NaN fitness is returned.)", "quantifier": "every objective, every sequence of populations/results, minimize or maximize", "why_tests_cant": "history property over unbounded runs", "anchors": ["spot/optimizer.cpp:evaluate_step", "spot/objective_info.cpp:find_best_fitness", "spot/objective_info.h:is_better"]}
{"id": "C21", "title": "best_point is a point that achieved best_fitness", "statement": "Once any completed step improved on the initial worst value, best_point() has exactly the values of an evaluated search point whose returned fitness was best_fitness(), namely the earliest such point; likewise for current_step_best_point.", "quantifier": "every run history", "why_tests_cant": "history property; depends on rounding idempotence", "anchors": ["spot/optimizer.cpp:evaluate_step", "spot/search_point.cpp:set_values"]}
{"id": "C22", "title": "A failed step changes no result", "statement": "If more evaluations of a step fail than allowed, the step leaves best/current fitnesses and points, tracking and step counter unchanged, and step() returns an error stop condition (unless already stopped or aborted).", "quantifier": "every number and position of failures, every max_errors setting", "why_tests_cant": "all subsets of failing evaluations", "anchors": ["spot/optimizer.cpp:verify_results", "spot/optimizer.cpp:evaluate_step", "spot/optimizer.cpp:step"]}
{"id": "C23", "title": "A failed evaluation never becomes the best", "statement": "A failed evaluation is recorded as the worst fitness and can never improve best_fitness or replace best_point.", "quantifier": "every result vector, minimize or maximize", "why_tests_cant": "all subsets of failing evaluations", "anchors": ["spot/optimizer.cpp:evaluate_step"]}
{"id": "C24", "title": "Stopping is permanent and announced once", "statement": "The first stop condition that tests true, in the order abort, error, then order of addition, becomes the returned stop condition of this and all later step()/test_stop_conditions() calls, and on_stop is signalled exactly once over the optimizer's lifetime.", "quantifier": "every history of steps and every list of stop conditions", "why_tests_cant": "temporal property over unbounded histories", "anchors": ["spot/optimizer.cpp:test_stop_conditions"]}
{"id": "C25", "title": "run performs exactly the requested number of steps unless stopped", "statement": "run(n) with n > 0 performs at most n steps; it returns null iff n steps were performed without any stop condition; otherwise it returns the stop condition of the last step performed. Each successful step increases current_step by one.", "quantifier": "every n and every optimizer behaviour", "why_tests_cant": "unbounded n", "anchors": ["spot/optimizer.cpp:run", "spot/optimizer.cpp:step"]}
{"id": "C26", "title": "A step limit terminates the run", "statement": "With a max_steps_condition(n), run() returns after at most max(1,n) steps.", "quantifier": "every n, objective and evaluator result sequence", "why_tests_cant": "termination for all behaviours", "anchors": ["spot/stop_condition.cpp:max_steps_condition::test", "spot/optimizer.cpp:run"]}
{"id": "C27", "title": "Interrupt stops the run", "statement": "After interrupt(), the next step() returns a stop condition, namely the abort condition unless the optimizer had already stopped for another reason.", "quantifier": "every point in the run at which interrupt is called", "why_tests_cant": "every interleaving point", "anchors": ["spot/optimizer.h:interrupt", "spot/stop_condition.cpp:abort_condition::test", "spot/optimizer_pool.cpp:interrupt"]}
{"id": "C28", "title": "Reporter callbacks follow the protocol", "statement": "Each step signals: on_start (while no step has completed), on_pre_step, on_pre_evaluate_population, then for a completed step on_new_best exactly when best_fitness strictly improved, on_post_evaluate_population, on_post_step, then on_stop when a stop condition first fires; a failed step signals none of the post callbacks.", "quantifier": "every run history", "why_tests_cant": "trace property over unbounded runs", "anchors": ["spot/optimizer.cpp:step", "spot/optimizer.cpp:evaluate_step"]}
{"id": "C29", "title": "Reporters cannot influence the optimization", "statement": "The sequence of optimizer states is the same whatever reporters are attached and whichever of them throw std::exceptions; a throwing reporter only hides that one signal from the reporters after it: after any further calls, a reporter has received exactly the callbacks signalled since it was added, in order, if no reporter added before it throws.", "quantifier": "every set of reporters and throw behaviour", "why_tests_cant": "non-interference over all reporters", "anchors": ["spot/optimizer.h:signal_reporters"]}
{"id": "C30", "title": "Fitness tracking holds the most recent best fitnesses", "statement": "With tracking window w > 0 set before the first step, after n completed steps the history contains the best fitnesses of the last min(n,w) completed steps in order; add_stop_condition guarantees w is at least what each condition needs.", "quantifier": "every n, w, run history", "why_tests_cant": "unbounded histories", "anchors": ["spot/optimizer.cpp:update_fitness_tracking", "spot/optimizer.cpp:add_stop_condition"]}
{"id": "C31", "title": "The cached fitness trend is never stale", "statement": "fitness_trend() always equals the regression of the current fitness history, whenever and however often it is called between steps, as long as the tracking window is not set smaller than the number of samples present (after such a shrink the old trend is returned until the next sample).", "quantifier": "every interleaving of steps and queries", "why_tests_cant": "cache coherence over histories", "anchors": ["spot/optimizer.cpp:fitness_trend"]}
{"id": "C32", "title": "Stop conditions fire exactly when documented", "statement": "target_fitness fires iff best is strictly better than the target; flat_fitness iff at least one step completed and the spread of the last population is below epsilon; max_steps iff current_step >= n; min_progress and predicted_fitness never before their minimum number of steps.", "quantifier": "all optimizer states", "why_tests_cant": "all doubles incl. NaN/inf", "anchors": ["spot/stop_condition.cpp"]}
{"id": "C33", "title": "All evaluators return the results in order", "statement": "sequential, batch, async and pooled evaluators return, for every point in order, exactly what the objective returns for that point, evaluating each point exactly once, for every thread schedule.", "quantifier": "every point vector, objective, number of threads >= 1, schedule", "why_tests_cant": "all interleavings", "anchors": ["spot/evaluator.cpp", "spot/batch_evaluator.cpp", "spot/async_evaluator.cpp", "spot/pooled_evaluator.cpp"]}
{"id": "C34", "title": "async_evaluator bounds concurrency and terminates", "statement": "At every moment at most max_threads evaluations are running, and evaluate can always make progress until it returns; with a computed thread count of 0 it never returns.", "quantifier": "every schedule and population size", "why_tests_cant": "all interleavings; liveness", "anchors": ["spot/async_evaluator.cpp:evaluate"]}
{"id": "C35", "title": "pooled_evaluator serves concurrent clients correctly", "statement": "With any number of threads calling evaluate concurrently on one pooled_evaluator, each call returns exactly its own results in order and every task is executed exactly once by one worker.", "quantifier": "every number of clients, workers, tasks and every interleaving incl. spurious wake-ups", "why_tests_cant": "all interleavings", "anchors": ["spot/pooled_evaluator.cpp:evaluate", "spot/pooled_evaluator.cpp:thread_func"]}
{"id": "C36", "title": "pooled_evaluator never strands a task", "statement": "While at least one worker exists and no shutdown is requested, whenever a client still waits for a result some thread can make progress (no lost wake-up, no deadlock), the number of steps without new calls is finite, and so all calls return; with zero workers no call with a point ever returns.", "quantifier": "every reachable interleaving", "why_tests_cant": "all interleavings; liveness", "anchors": ["spot/pooled_evaluator.cpp:thread_func", "spot/pooled_evaluator.cpp:evaluate"]}
{"id": "C37", "title": "When pooled_evaluator shuts down", "statement": "Destroying a pooled_evaluator completes if all its workers are busy evaluating (or have ended) when the stop signal is set, and never completes if a worker is waiting - so destroying an idle evaluator always deadlocks (the destructor joins while holding the queue mutex). Changing the thread count completes if no worker is between its test of the stop signal and its test of the queue, and can hang otherwise (lost wake-up).", "quantifier": "every reachable interleaving", "why_tests_cant": "depends on the exact interleaving of idle workers", "anchors": ["spot/pooled_evaluator.cpp:~pooled_evaluator", "spot/pooled_evaluator.cpp:stop_threads", "spot/pooled_evaluator.cpp:set_max_threads"]}
{"id": "C38", "title": "Exceptions in an objective become error results", "statement": "evaluate_noexcept returns the objective's result, or an error carrying the exception's message; nothing escapes, so one throwing point never affects the results of other points.", "quantifier": "every objective behaviour and every position in the population", "why_tests_cant": "all subsets of throwing points", "anchors": ["spot/objective.cpp:evaluate_noexcept"]}
{"id": "C39", "title": "The optimization does not depend on the evaluator", "statement": "For a deterministic objective, the full sequence of optimizer states is the same for the sequential, batch, async and pooled evaluator, for any number of threads and any schedule.", "quantifier": "all schedules and run lengths", "why_tests_cant": "all interleavings over unbounded runs", "anchors": ["spot/optimizer.cpp:evaluate_step", "spot/evaluator.cpp", "spot/async_evaluator.cpp"]}
{"id": "C40", "title": "The pool reports the best member", "statement": "After any history of calls with at least one step, the pool's best_fitness is the best of the best_fitness values of all members stepped so far, best_point is that member's best_point, and best_fitness never gets worse. on_new_best is signalled for the first result (even a failed evaluation) and then exactly for strict improvements, with the values the getters return. Before the first step the getters have no value (they assert).", "quantifier": "every pool size, member behaviour, prediction values", "why_tests_cant": "unbounded histories of scheduling decisions", "anchors": ["spot/optimizer_pool.cpp:internal_step", "spot/optimizer_pool.h:best_fitness"]}
{"id": "C41", "title": "The pool steps distinct members within its concurrency limit", "statement": "In one pool step at most concurrent_optimizations members are stepped, all distinct, and none of them was stopped when it was selected. As long as no member has enough steps for a prediction, every step of a pool with an unstopped member steps something. (Not guaranteed: a member selected earlier may have stopped in the meantime and is still stepped; with a prediction equal to the worst fitness a step may step nothing.)", "quantifier": "every pool state and sort order of equal predictions", "why_tests_cant": "data-race freedom over all schedules", "anchors": ["spot/optimizer_pool.cpp:internal_step", "spot/optimizer_pool.cpp:compute_predicted_fitnesses"]}
{"id": "C42", "title": "The pool stops when and only when all members stopped", "statement": "The pool's own stop condition fires iff every member has a stop condition; interrupting the pool interrupts every member and the pool.", "quantifier": "every set of members", "why_tests_cant": "all histories", "anchors": ["spot/optimizer_pool.cpp:pool_stop_condition", "spot/optimizer_pool.cpp:interrupt"]}
{"id": "C43", "title": "MES/EVA samples lie within the bounds before rounding", "statement": "sample_parameter returns a value in [min, max] for every valid parameter, whatever the random draws (given non-NaN draws).", "quantifier": "every random stream, mean, standard deviation, bounds", "why_tests_cant": "probability-zero corner cases", "anchors": ["spot/mes_optimizer.cpp:sample_parameter", "spot/eva_optimizer.cpp:sample_parameter"]}
{"id": "C44", "title": "MES/EVA variances stay non-negative", "statement": "With update rates in [0,1] all variances stay >= 0 after any number of updates, so the standard deviations are always defined.", "quantifier": "every population, fitness vector and number of generations", "why_tests_cant": "invariant over unbounded runs", "anchors": ["spot/mes_optimizer.cpp:update_distribution", "spot/eva_optimizer.cpp:update_distribution", "spot/math_tools.h:update"]}
{"id": "C45", "title": "EVA means stay within the bounds", "statement": "In exact arithmetic and with step_size in [0,1], the EVA mean stays within [min,max] in every coordinate as long as all sampled points do; for MES without momentum likewise.", "quantifier": "every run", "why_tests_cant": "invariant over unbounded runs", "anchors": ["spot/eva_optimizer.cpp:update_distribution", "spot/mes_optimizer.cpp:update_distribution"]}
{"id": "C46", "title": "Selection uses exactly the mu best individuals", "statement": "The new mean depends only on the mu best individuals; each selected fitness is at least as good as each unselected one; update_distribution reads outside the population iff mu is negative or larger than lambda.", "quantifier": "every fitness vector and population", "why_tests_cant": "all orderings and ties", "anchors": ["spot/mes_optimizer.cpp:update_distribution", "spot/eva_optimizer.cpp:update_distribution"]}
{"id": "C47", "title": "Optimizers are invariant under monotone transformation of the fitness", "statement": "Replacing the fitness by a strictly increasing function of it (no ties broken or created) yields the same distribution updates in CMA, MES and EVA. (When an optimizer stops is not invariant: the flat fitness condition that their constructors add has an absolute epsilon.)", "quantifier": "every strictly monotone transformation and run", "why_tests_cant": "quantifies over functions", "anchors": ["spot/cma_optimizer.cpp:cmaes_UpdateDistribution", "spot/mes_optimizer.cpp:update_distribution"]}
{"id": "C48", "title": "Maximizing f equals minimizing -f", "statement": "An optimizer maximizing f goes through the same populations, distributions and best points as one minimizing -f, with negated fitnesses, and for all calls of its interface (stop conditions with negated targets, interrupts, reporters): step() and run(n) return the same stop condition after the same number of steps, the reporters are told the same, progress() is the same and predicted_fitness() negated.", "quantifier": "every objective and run", "why_tests_cant": "relational property over unbounded runs", "anchors": ["spot/objective_info.h:is_better", "spot/cma_optimizer.cpp:update_distribution", "spot/optimizer.cpp:evaluate_step"]}
{"id": "C49", "title": "The CMA random generator never leaves its table or range", "statement": "For every seed, every number of draws: table index within 0..31, stored values within 1..2^31-2, intermediate values fit 32-bit signed long, Uniform lies strictly between 0 and 1; the seed recurrence is x -> 16807 x mod (2^31-1).", "quantifier": "every seed >= 1 and every draw count", "why_tests_cant": "2^32 seeds times unbounded draws", "anchors": ["spot/cma_optimizer.cpp:cmaes_random_init", "spot/cma_optimizer.cpp:cmaes_random_Uniform"]}
{"id": "C50", "title": "CMA recombination weights are proper", "statement": "In exact arithmetic, for every lambda >= 2 the mu = lambda/2 weights are positive, non-increasing (strictly decreasing unless the mode is equal weights) and sum to one, and 1 <= mueff <= mu; the invalid-setting error never occurs.", "quantifier": "every lambda and weight mode", "why_tests_cant": "unbounded lambda", "anchors": ["spot/cma_optimizer.cpp:cmaes_readpara_SetWeights"]}
{"id": "C51", "title": "CMA strategy parameters are in range", "statement": "In exact arithmetic, for every dimension n >= 1 and lambda: 0 < cs < 1, 0 < ccumcov <= 1, 0 < ccov <= 1, damps > 0, mucov >= 1.", "quantifier": "every n >= 1 and lambda", "why_tests_cant": "unbounded n, lambda", "anchors": ["spot/cma_optimizer.cpp:cmaes_readpara_SupplementDefaults"]}
{"id": "C52", "title": "CMA ranks the population correctly", "statement": "Sorted_index yields a permutation of 0..lambda-1 sorted by fitness, for every fitness vector (for NaN-free vectors sorted; always a permutation).", "quantifier": "every fitness vector", "why_tests_cant": "all permutations and ties", "anchors": ["spot/cma_optimizer.cpp:Sorted_index"]}
{"id": "C53", "title": "The CMA covariance matrix stays symmetric positive definite", "statement": "In exact arithmetic, after any number of updates the covariance matrix is positive definite, so every marginal standard deviation is positive.", "quantifier": "every population/fitness history", "why_tests_cant": "invariant over unbounded runs", "anchors": ["spot/cma_optimizer.cpp:Adapt_C2", "spot/cma_optimizer.cpp:cmaes_init_final"]}
{"id": "C54", "title": "The CMA step size stays positive", "statement": "In exact arithmetic sigma > 0 after any number of updates, given positive initial stds.", "quantifier": "every run", "why_tests_cant": "invariant over unbounded runs", "anchors": ["spot/cma_optimizer.cpp:cmaes_UpdateDistribution"]}
{"id": "C55", "title": "CMA sampling and updating alternate", "statement": "update_distribution succeeds iff the last call was sample_population and the number of fitnesses equals lambda; otherwise it throws and leaves the distribution unchanged; the generation counter counts sample/update cycles.", "quantifier": "every call sequence", "why_tests_cant": "all call histories", "anchors": ["spot/cma_optimizer.cpp:cmaes_UpdateDistribution", "spot/cma_optimizer.cpp:cmaes_SamplePopulation"]}
{"id": "C56", "title": "CMA populations are feasible before rounding", "statement": "Every individual passed to set_values by sample_population satisfies is_feasible, after at most max_resample_count resamplings, whatever the random numbers and the boundary transformer; a clamped individual is also written back into the internal population.", "quantifier": "every random stream and boundary transformer", "why_tests_cant": "rare corner case of 100 failed resamplings", "anchors": ["spot/cma_optimizer.cpp:sample_population"]}
{"id": "C57", "title": "The CMA boundary transformer maps into the bounds", "statement": "In exact arithmetic cmaes_boundary_transformer::apply maps every vector whose shift count fits an int into [lb, ub], is the identity on [lb+al, ub-au], and maps feasible points to feasible points. In floating point a parameter with only one bound is never mapped beyond that bound (with two very large bounds the square overflows). The reflective and the soft-limit transformer treat each parameter with its own bounds and stay within them if the wave and the soft clamp do.", "quantifier": "every lb < ub and every x", "why_tests_cant": "uncountable domain; period shifts", "anchors": ["spot/boundary_transformer.cpp:cmaes_boundary_transformer::apply"]}
{"id": "C58", "title": "The CMA boundary transformation is inverted by its inverse", "statement": "In exact arithmetic cmaes_boundary_trans(cmaes_boundary_trans_inverse(x)) = x for every feasible x.", "quantifier": "every lb < ub and x in [lb,ub]", "why_tests_cant": "uncountable domain", "anchors": ["spot/cma_optimizer.cpp:cmaes_boundary_trans", "spot/cma_optimizer.cpp:cmaes_boundary_trans_inverse"]}
{"id": "C59", "title": "The file reporter never deletes the newest best file", "statement": "At any time every best-file ever written either still exists or was superseded by a later best file that exists; the most recent best file always exists; at most two recent files are candidates for deletion. The two fitnesses in a file name are limited to +-999999.999 and otherwise as they are.", "quantifier": "every run history of new bests", "why_tests_cant": "history property; fails only for coinciding names", "anchors": ["spot/file_reporter.cpp:write_par_file"]}
{"id": "C60", "title": "The file reporter writes at least every max_steps steps", "statement": "After any completed evaluation, fewer than max_steps_without_file_output steps have passed since the last written par file.", "quantifier": "every run history, max_steps >= 1", "why_tests_cant": "unsigned wrap-around of the initial value; unbounded history", "anchors": ["spot/file_reporter.cpp:on_post_evaluate_population"]}
{"id": "C61", "title": "Test objectives have their documented optimum", "statement": "sphere, ellipsoid, rosenbrock and rastrigin are >= 0 for every vector and 0 exactly at the documented optimum; himmelblau is >= 0 and 0 at exactly four points, (3,2) and one within 1e-6 of each other documented optimum; schwefel is >= 0 on [-500,500]^n and its documented optimum is within 2e-5 per coordinate of the minimum.", "quantifier": "every dimension and real vector", "why_tests_cant": "uncountable domain", "anchors": ["spot/test_objectives.cpp"]}
{"id": "C62", "title": "Projection onto a direction is orthogonal and idempotent", "statement": "In exact arithmetic projected(a, ab, p) lies on the line through a along ab, p minus it is orthogonal to ab, and projecting again changes nothing; it is the nearest point of the line to p.", "quantifier": "every vectors a, ab, p of equal length with |ab|^2 above epsilon", "why_tests_cant": "uncountable domain", "anchors": ["spot/math_tools.h:projected"]}
{"id": "C63", "title": "Distances behave like distances", "statement": "In exact arithmetic normalized_distance is symmetric, non-negative, zero only for equal points, and satisfies the triangle inequality for positive variances.", "quantifier": "every vector", "why_tests_cant": "uncountable domain", "anchors": ["spot/math_tools.cpp:normalized_distance", "spot/math_tools.cpp:mahalanobis_distance"]}
{"id": "C64", "title": "Population statistics are exact", "statement": "compute_mean_std returns in exact arithmetic the arithmetic mean and population standard deviation per coordinate; a population of identical points has zero deviation.", "quantifier": "every non-empty population", "why_tests_cant": "unbounded size", "anchors": ["spot/search_point.cpp:compute_mean_std"]}
{"id": "C65", "title": "Updated objective info only changes means and stds", "statement": "make_updated_objective_info / set_mean_std keep names, order, bounds, locked parameters and direction, and set the i-th mean/std to the given ones.", "quantifier": "every objective info and vectors", "why_tests_cant": "frame condition", "anchors": ["spot/objective_info.cpp:set_mean_std", "spot/cma_optimizer.cpp:make_updated_objective_info"]}
{"id": "C66", "title": "set_std_minimum enforces the floor", "statement": "After set_std_minimum(value, factor) every std is at least factor*|mean|+value and never smaller than before; nothing else changes; repeating it changes nothing.", "quantifier": "every objective info", "why_tests_cant": "frame condition, all doubles", "anchors": ["spot/objective_info.cpp:set_std_minimum"]}
{"id": "C67", "title": "Worst and best fitness bound the order", "statement": "is_better is a strict order, worst_fitness is never better than any finite fitness and best_fitness is never worse than any finite fitness, for both directions; find_best_fitness returns the first index no other element is better than.", "quantifier": "every fitness vector without NaN", "why_tests_cant": "all doubles", "anchors": ["spot/objective_info.h:is_better", "spot/objective_info.cpp:find_best_fitness"]}
{"id": "C68", "title": "Tracking window of a pool member", "statement": "push_back makes a member keep exactly the last prediction_window fitness samples (the larger of that and prediction_start with a predicted-fitness condition), whatever it kept before; so it can be fewer than one of its own stop conditions asked for.", "quantifier": "every pool configuration and member", "why_tests_cant": "every earlier configuration of the member", "anchors": ["spot/optimizer_pool.cpp:push_back", "spot/optimizer.cpp:enable_fitness_tracking"]}
{"id": "C69", "title": "A pool tracks no fitness of its own", "statement": "In every history of a pool its own fitness history stays empty, so its progress is 0 and a min_progress_condition on a pool fires as soon as the minimum number of steps is reached, however much the members improved.", "quantifier": "every history of calls of a pool", "why_tests_cant": "invariant over all histories", "anchors": ["spot/optimizer_pool.cpp:internal_step", "spot/optimizer.cpp:progress", "spot/stop_condition.h:min_progress_condition"]}
{"id": "C70", "title": "A pool leaves a member alone while it runs", "statement": "With concurrent_optimizations <= 1 the pool never reads or writes a member whose step is still executing in another thread. With more (the default) it can: it reads the best member's current fitnesses, and writes prediction targets, while that member runs.", "quantifier": "every interleaving of member threads and the pool thread", "why_tests_cant": "a schedule property; a race rarely shows in a test", "anchors": ["spot/optimizer_pool.cpp:internal_step"]}
{"id": "C71", "title": "The pool steps the most promising members", "statement": "When the queue is empty, members are selected by priority: of the members that have not stopped the first max active ones count, with their predicted fitness once they have prediction_start steps and the best possible fitness before; all others get the worst. No left-out member has a better priority than a selected one; at least concurrent_optimizations are selected unless the next in the order has stopped; more only among equal priorities.", "quantifier": "every pool state, prediction and order of equal predictions", "why_tests_cant": "unbounded pool sizes and orders", "anchors": ["spot/optimizer_pool.cpp:internal_step", "spot/optimizer_pool.cpp:compute_predicted_fitnesses"]}
{"id": "C72", "title": "MES and EVA steps always complete", "statement": "With lambda >= 1 and 0 <= mu <= lambda, a MES or EVA optimizer never reads out of bounds: from every reachable state the next internal step has a result (sorting is assumed to return some order; with NaN results see C91), which is a failure exactly if an evaluation failed.", "quantifier": "every run, objective (with failures), distribution and random stream", "why_tests_cant": "totality over all reachable states", "anchors": ["spot/mes_optimizer.cpp:internal_step", "spot/eva_optimizer.cpp:internal_step", "spot/optimizer.cpp:evaluate_step"]}
{"id": "C73", "title": "The CMA seed sequence has full period", "statement": "From every seed in 1..2^31-2, the generator's seed recurrence visits every one of the 2^31-2 non-zero residues exactly once before it repeats.", "quantifier": "every seed and every residue", "why_tests_cant": "2^31-2 states from each of 2^31-2 seeds", "anchors": ["spot/cma_optimizer.cpp:cmaes_random_Uniform"]}
{"id": "C74", "title": "A new optimizer starts from the objective's distribution", "statement": "A new MES, EVA or CMA optimizer has current_mean equal to the parameter means and, in exact arithmetic, current_std equal to the parameter stds, with no covariance between parameters (CMA needs one std to be positive). Each MES offspring coordinate is the mean plus the momentum scaled by one draw shared by the whole offspring, plus a draw scaled by sqrt(variance + momentum^2), clamped to the bounds. Without options the draw for the momentum has mean and standard deviation 1, and all update rates are 0.2.", "quantifier": "every objective info, distribution, configuration and random stream", "why_tests_cant": "every distribution and random stream", "anchors": ["spot/evo_optimizer.cpp:evo_optimizer", "spot/mes_optimizer.cpp:sample_population", "spot/cma_optimizer.cpp:cma_optimizer"]}
{"id": "C75", "title": "CMA steps always complete", "statement": "With two or more individuals the CMA constructor succeeds, even for an objective without parameters, unless the lower and upper bound of a parameter are equal, and then it throws. From every reachable state a CMA step, provided its eigenvalue decomposition returns, has a result: it evaluates lambda points, and it fails exactly if an evaluation failed; runs of any length exist if the objective has a parameter, and no step completes if it has none. The loop by which the constructor computes the machine precision ends in floating point (after 53 rounds), but would not in exact arithmetic.", "quantifier": "every objective info, objective (with failures), random stream, eigensolver and number of steps", "why_tests_cant": "totality over all reachable states", "anchors": ["spot/cma_optimizer.cpp:cma_optimizer", "spot/cma_optimizer.cpp:internal_step"]}
{"id": "C76", "title": "CMA is the published algorithm", "statement": "In exact arithmetic the parameters are the published defaults of CMA-ES (weights, mueff, cs, damps, ccumcov, ccov, chiN) and every successful update maps mean, step size, both evolution paths and covariance by the published update equations applied to the mu best sampled individuals in order of fitness, with the flat-fitness increase of sigma.", "quantifier": "every number of parameters and individuals, every history of sampling and updating, every fitness vector", "why_tests_cant": "the equations must hold at every reachable state; a test compares trajectories at a few points with a tolerance", "anchors": ["spot/cma_optimizer.cpp:cmaes_readpara_SupplementDefaults", "spot/cma_optimizer.cpp:cmaes_UpdateDistribution", "spot/cma_optimizer.cpp:Adapt_C2"]}
{"id": "C77", "title": "The CMA mean stays within the bounds", "statement": "In exact arithmetic and without a boundary transformer, a CMA optimizer whose initial mean is within the bounds keeps its mean within the bounds after any history.", "quantifier": "every history of sampling and updating, fitness vector and random stream", "why_tests_cant": "invariant over all histories", "anchors": ["spot/cma_optimizer.cpp:sample_population", "spot/cma_optimizer.cpp:cmaes_UpdateDistribution"]}
{"id": "C78", "title": "CMA samples the distribution it maintains", "statement": "In exact arithmetic every CMA individual is mean + sigma * B * D * z with draws z (clamped to the bounds after too many attempts, mapped by the boundary transformer otherwise); if the eigensystem is exact and updated in each generation, C = B D^2 B^T with B orthogonal and D positive at each sampling, and the Mahalanobis distance of an individual is sigma^2 |z|^2.", "quantifier": "every history of sampling and updating, fitness vector and random stream", "why_tests_cant": "invariant over all histories", "anchors": ["spot/cma_optimizer.cpp:cmaes_SamplePopulation", "spot/cma_optimizer.cpp:cmaes_ReSampleSingle", "spot/cma_optimizer.cpp:cmaes_UpdateEigensystem"]}
{"id": "C79", "title": "CMA is invariant under change of origin and unit", "statement": "In exact arithmetic, if mean, stds, bounds and boundary transformer are transported by x -> a x + t with a > 0 and the objective is transported too, CMA visits the transported points: mean a m + t, std a s, sigma a sigma, the same covariance, and each individual is the transported one.", "quantifier": "every scale, offset, history and random stream", "why_tests_cant": "a relation between two unbounded runs", "anchors": ["spot/cma_optimizer.cpp:cmaes_UpdateDistribution", "spot/cma_optimizer.cpp:sample_population"]}
{"id": "C80", "title": "history.txt has one line per completed step", "statement": "When the fitness history is enabled and the file reporter is attached before the first step, history.txt holds a header followed by exactly one line per completed step, in order of the steps and numbered by them, for any mix of failed and completed steps; split at the tabs, header and lines give the columns (step, best and median fitness, with a tracking window prediction and progress, with parameter history the values of the best point and the state), and the lines have as many columns as the header as long as the tracking window is not switched on or off in between.", "quantifier": "every call history of an optimizer, any position at which the reporter is attached", "why_tests_cant": "unbounded histories; failed first steps re-open the file", "anchors": ["spot/file_reporter.cpp:on_start", "spot/file_reporter.cpp:on_post_step"]}
{"id": "C81", "title": "Fitness of a data objective is the mean squared error", "statement": "Evaluating a data_objective returns in exact arithmetic the mean of the squared differences between model and data; it is never negative and zero exactly if the model reproduces every data point.", "quantifier": "every data set that is not empty and every model", "why_tests_cant": "unbounded data, uncountable domain", "anchors": ["spot/data_objective.h:evaluate"]}
{"id": "C82", "title": "The eigenvalue decomposition of CMA ends and is accurate", "statement": "In exact arithmetic sample_population returns for every covariance matrix: the eigenvalue decomposition ends without leaving its arrays. The eigenvectors are orthonormal, the eigenvalues ascend, and eigenvalue equation and quadratic form are met up to 7 n eps |C| with eps = 2.22e-16; if the condition number of C is below 1 / (7 n eps) all axis lengths are positive and the distribution sampled from differs from the maintained one by no more than that.", "quantifier": "every dimension (up to 10^14 for the accuracy), symmetric matrix, state of the optimizer and random stream", "why_tests_cant": "termination of an iteration and an error bound for an uncountable set of matrices of every size", "anchors": ["spot/cma_optimizer.cpp:Eigen", "spot/cma_optimizer.cpp:Householder2", "spot/cma_optimizer.cpp:QLalgo2", "spot/cma_optimizer.cpp:myhypot", "spot/cma_optimizer.cpp:cmaes_UpdateEigensystem"]}
{"id": "C83", "title": "NaN in the distribution makes CMA leave its arrays", "statement": "If an element of the mean of a CMA distribution is NaN when it is updated, or if all standard deviations of the objective are 0 (which its parameters accept as valid) or all are positive but at most 1.1e-162, the next eigenvalue decomposition accesses memory outside of its arrays, whatever the fitnesses and random numbers are.", "quantifier": "every dimension from 2 on, every state with such a mean, every objective with zero standard deviations, fitness vector and random stream", "why_tests_cant": "a sandboxed test sees one memory layout; the claim is about every matrix containing a NaN in its last row", "anchors": ["spot/cma_optimizer.cpp:QLalgo2", "spot/cma_optimizer.cpp:cmaes_init_final", "spot/cma_optimizer.cpp:sample_population", "spot/par_info.h:is_valid"]}
{"id": "C84", "title": "The Gaussian generator of CMA always returns", "statement": "Seeded with a positive number, the generator of normally distributed numbers of CMA returns after finitely many draws at each of any number of successive calls (in floating-point and in exact arithmetic), the sequence is determined by the seed, a call rejects fewer than 2^30 - 1 pairs, and in exact arithmetic no number is larger in magnitude than sqrt(85). All that is proved of CMA for every source of Gaussian numbers holds for this one.", "quantifier": "every seed, every number of calls, every regular state", "why_tests_cant": "termination of a rejection loop for every state of a generator with period 2^31-2", "anchors": ["spot/cma_optimizer.cpp:cmaes_random_Gauss", "spot/cma_optimizer.cpp:cmaes_random_Uniform", "spot/cma_optimizer.cpp:cmaes_random_Start"]}
{"id": "C85", "title": "What predicted_fitness predicts", "statement": "If tracking is on from the first step, the best fitnesses of the completed steps are on a line and the regression is exact, then predicted_fitness(k) is the fitness that line has k steps after the next one. If tracking is switched on only after s0 completed steps, the prediction is that of a step s0 steps later.", "quantifier": "every call history with at least two tracked steps, every window from 2 on, every line and k", "why_tests_cant": "unbounded histories", "anchors": ["spot/optimizer.cpp:predicted_fitness", "spot/optimizer.cpp:fitness_trend", "spot/optimizer.cpp:set_fitness_tracking_window_size"]}
{"id": "C86", "title": "An optimizer can be restarted from its updated objective info", "statement": "make_updated_objective_info returns after every run the parameters of the objective, with their names and bounds, and the current mean and std. An optimizer constructed from it starts with the mean of the old one (MES, EVA: exactly; CMA: as transformed by its boundary transformer), with its std up to rounding, and without momentum or correlations. With a boundary transformer CMA transforms that mean a second time, which moves a mean close to a bound away from it.", "quantifier": "every run, configuration, objective and random stream", "why_tests_cant": "unbounded runs", "anchors": ["spot/mes_optimizer.cpp:make_updated_objective_info", "spot/eva_optimizer.cpp:make_updated_objective_info", "spot/cma_optimizer.cpp:make_updated_objective_info", "spot/cma_optimizer.cpp:current_mean"]}
{"id": "C87", "title": "State columns of MES and EVA match their labels", "statement": "optimizer_state_labels and optimizer_state_values of MES and EVA have the same length; the value at the position of label p.mean, p.std, p.mom (MES) or p.ev (EVA) is the mean, standard deviation and momentum of parameter p; labels are distinct if the names are.", "quantifier": "every objective info and state", "why_tests_cant": "every number and naming of parameters", "anchors": ["spot/mes_optimizer.cpp:optimizer_state_labels", "spot/mes_optimizer.cpp:optimizer_state_values", "spot/eva_optimizer.cpp:optimizer_state_labels", "spot/eva_optimizer.cpp:optimizer_state_values"]}
{"id": "C88", "title": "Vectors, pairs and arrays of parameters", "statement": "try_get_par for a vector whose elements are not references registers the same parameters and returns the same vector whatever order of evaluation the compiler chooses (only the order of the parameters differs); once registered, every search point that knows the names returns the vector with every order and is not changed. A missing pair is its default, a pair node with fewer than two values throws, otherwise name.0 and name.1 are requested in order; an array has the size of its default and elements missing in the node keep the default, at registration and evaluation alike. If an element refers to another element, registration may fail or succeed depending on the order of evaluation.", "quantifier": "every objective info, search point, prefix, option, node and order of evaluation", "why_tests_cant": "the order of evaluation is unspecified in C++, a test sees one compiler", "anchors": ["spot/par_tools.h:try_get_par"]}
{"id": "C89", "title": "When a similarity condition is met", "statement": "With CMA, a similarity_condition is met exactly when min_steps steps were completed and one of its points is closer than min_distance to the best point of the last step, and similar_idx is the first such point; with another optimizer it throws. The distance it uses depends on the unit of the parameters, is NaN if a std is 0 where the points agree, and a negative min_steps disables the condition.", "quantifier": "every history of an optimizer, every list of points", "why_tests_cant": "unbounded histories", "anchors": ["spot/stop_condition.cpp:similarity_condition", "spot/math_tools.cpp:normalized_distance"]}
{"id": "C90", "title": "The objectives that come with the library", "statement": "The make_*_objective functions succeed in every dimension with the documented ranges and valid, uniquely named parameters; the documented optima are feasible and evaluate to exactly 0 in floating-point arithmetic; make_objectives returns four objectives per dimension in order; sphere and ellipsoid throw for an invalid mean or std. A data_objective with default ranges is valid and throws at points of another size.", "quantifier": "every dimension, mean and std", "why_tests_cant": "every dimension", "anchors": ["spot/test_objectives.cpp:make_sphere_objective", "spot/test_objectives.cpp:make_objectives", "spot/function_objective.h:function_objective", "spot/data_objective.h:data_model"]}
{"id": "C91", "title": "Sorting individuals is defined without NaN", "statement": "std::sort requires a strict weak order. is_better is one on a set of fitnesses if and only if no fitness is NaN or all others are equal. MES and EVA sort exactly what the objective returned, so sorting is defined if the objective returns no NaN; a NaN together with two different numbers makes the call to std::sort undefined.", "quantifier": "every list of fitnesses, minimizing or maximizing; every step of every run", "why_tests_cant": "the precondition of std::sort for all values", "anchors": ["spot/mes_optimizer.cpp:internal_step", "spot/eva_optimizer.cpp:internal_step", "spot/objective_info.h:is_better", "spot/optimizer_pool.cpp:internal_step"]}
{"id": "C92", "title": "What the console reporter shows", "statement": "Each step makes the console reporter print exactly: a header with the number of parameters if no step has been completed yet, the step number, and, unless the step fails, average and median of the fitnesses and the best fitness if it improved; then a new line (improvement and newline_best) or a carriage return; and the message of a stop condition that is met for the first time, with the time since the last header. With newline_best, every improvement can be read on the terminal from then on, in a line of its own and in order. Without it, a step that does not improve can be shown with the best fitness of the step before.", "quantifier": "every history of calls, population, results, time, and point at which the reporter is added", "why_tests_cant": "all sequences of callbacks; contents of the terminal after overwriting", "anchors": ["spot/console_reporter.cpp:on_post_evaluate_population", "spot/console_reporter.cpp:on_start", "spot/console_reporter.cpp:on_pre_step", "spot/console_reporter.cpp:on_stop"]}
{"id": "C93", "title": "Error messages of failed evaluations are reported", "statement": "A step fails if and only if more evaluations fail than are allowed; then the error condition states how many failed, out of how many, and how many are allowed, and lists each message of a failed evaluation exactly once in alphabetical order. After every history of calls the error condition is set if and only if a step has failed, and its message is that of the last step that failed.", "quantifier": "every history of calls, population, results and messages", "why_tests_cant": "all combinations of failing evaluations", "anchors": ["spot/optimizer.cpp:verify_results", "spot/stop_condition.h:error_condition"]}
{"id": "C94", "title": "MES and EVA settle where the selected individuals are", "statement": "In exact arithmetic, as long as the average of the selected individuals is one point m, the EVA mean (and the MES mean without momentum) approaches m by the factor 1 - step_size per generation, and the MES mean with momentum converges to m with the momentum converging to 0, under a condition on the rates that the defaults meet. If all selected individuals are m, all standard deviations converge to 0.", "quantifier": "every start, every sequence of populations with such a selection, every dimension and all rates in the stated range", "why_tests_cant": "limits of infinite runs", "anchors": ["spot/mes_optimizer.cpp:update_distribution", "spot/eva_optimizer.cpp:update_distribution", "spot/math_tools.h:update"]}
{"id": "C95", "title": "A search point follows its objective_info", "statement": "A search_point refers to its objective_info. If parameters are requested on the objective_info after the point was made, the point still answers with its own values for the parameters it was made for, and a request for an added parameter reads outside of its values. If parameters are locked by a file, it answers for a parameter that stays free with the value stored at the parameter's new index: with the value of another parameter whenever a parameter before it was locked.", "quantifier": "every objective_info, every sequence of requests, every file", "why_tests_cant": "all interleavings of requests and imports", "anchors": ["spot/search_point.h:info_", "spot/search_point.cpp:try_get", "spot/objective_info.cpp:import_locked", "spot/objective_info.cpp:add"]}
{"id": "C96", "title": "A model runs on saved parameters like on the optimized point", "statement": "A model that runs on an objective_info runs on an empty static_par_set with the same values, which the set stores. A static_par_set loaded from the file of a search_point gives each free parameter the value of the point; if no parameter is locked, a model that runs on the point runs on the set with exactly the same values and leaves it unchanged. Requests never change a value the set has, and a model that ran once can be run again without changing the set. Locked parameters are not in the file: the model then runs with their default, without an error. A null_objective_info answers with the mean and throws for every reference.", "quantifier": "every model (nested sequence of requests), objective_info, search point and set of values", "why_tests_cant": "tests check one model with one file; the claim compares whole runs of all models on three implementations of the same interface", "anchors": ["spot/static_par_set.cpp: load, try_get, add", "spot/par_io.cpp: get", "spot/par_io.h: null_objective_info", "spot/search_point.cpp: operator<<"]}
{"id": "C97", "title": "A pool of optimizers with step limits ends", "statement": "If every optimizer in a pool has a max_steps_condition of at most N steps, no member is ever stepped more than N times in the life of the pool and no member gets beyond N steps, although members are selected some time before they are stepped. If the pool may step members at all and what is predicted for members that have not stopped is better than the worst fitness (or predictions start at N steps or later), then counted from any moment at most N times the number of members steps of the pool return null. Without that condition a pool can run forever: predictions that are not numbers can make every further step do nothing.", "quantifier": "every configuration, number of members, history of the pool, schedule of the member threads, evaluation results, failures and interrupts, and every order of equal predictions", "why_tests_cant": "termination for all schedules and histories; a test can only observe that one run ended", "anchors": ["spot/optimizer_pool.cpp: internal_step, compute_predicted_fitnesses, pool_stop_condition", "spot/stop_condition.cpp: max_steps_condition", "spot/optimizer.cpp: step, run"]}
{"id": "C98", "title": "A step of a pool always completes", "statement": "Whatever the schedule of the member threads and interrupts, a step of a pool cannot deadlock: as long as a thread is running or a future has not been looked at, something can happen, and everything except an interrupt brings the step closer to its end, of which at most 2 * concurrent_optimizations happen. When it has ended, an exception leaves the step exactly if the step of a member threw one.", "quantifier": "every reachable pool, selection, schedule, interrupt and behaviour of the members short of undefined behaviour", "why_tests_cant": "deadlock freedom and loss of exceptions concern all interleavings", "anchors": ["spot/optimizer_pool.cpp: internal_step, push_back"]}
{"id": "C99", "title": "The seed a CMA optimizer reports identifies its random numbers", "statement": "Whatever the random_seed option, the random device and the clock are, random_seed() of a CMA optimizer with at least one parameter is between 1 and 2000000000, and an optimizer constructed with that number as option has the same generator, the same strategy parameters and, on the same objective, evaluates the same populations step after step. Options from 1 to 2000000000 are used and reported as they are. Optimizers that report different seeds draw different sequences of random numbers, and the names of two optimizers for one objective are equal exactly if their seeds are. Options outside of that range are reduced: multiples of 2^32 use the clock, and different options can give the same optimizer.", "quantifier": "every option, random device, clock, objective and number of steps", "why_tests_cant": "all seeds and unbounded sequences of random numbers", "anchors": ["spot/cma_optimizer.cpp: cma_optimizer::cma_optimizer, random_seed, cmaes_init, cmaes_random_Start", "spot/cma_optimizer.h: cma_options"]}
{"id": "C100", "title": "A pool stops the members that are predicted to fail", "statement": "If a pool uses use_predicted_fitness_stop_condition and optimizers without such a condition of their own are added before its first step, then after any use of the pool each member has exactly one predicted fitness condition, with the look-ahead and start of the pool, and its target is the best fitness of the pool (the worst possible fitness before a member was stepped). Hence a member that has made prediction_start steps or more and does not stop is predicted to become better than the pool. Optimizers added later have the worst possible fitness as target until the next improvement. If an optimizer has a predicted fitness condition of its own, the pool changes the target of that one and leaves its own condition without effect.", "quantifier": "every configuration, number of members, history of the pool, schedule of the member threads, evaluation results and interrupts", "why_tests_cant": "a statement about all histories and schedules of the pool", "anchors": ["spot/optimizer_pool.cpp: push_back, internal_step", "spot/stop_condition.cpp: predicted_fitness_condition", "spot/optimizer.h: find_stop_condition"]}
{"id": "C101", "title": "Integer and boolean parameters", "statement": "A parameter requested as an int has the value of the parameter without its fraction; that is monotone, and defined unless the value is not a number or outside of the range of int. The type of a request makes no difference to what is registered, and defaults are returned unchanged. An int parameter requested with mean, std and bounds of up to 8 digits returns the mean on the objective_info and on the initial search point, and an int within the bounds on every search point made from values within the bounds. A bool is false exactly for 0. An array of ints is the array of doubles with each element converted. The positive upper bound is returned only if the value is exactly the upper bound; without bounds, points within the default bounds have undefined behaviour; means of more than 8 digits change.", "quantifier": "every value, request, objective_info, search point, array size and configuration", "why_tests_cant": "all values of a double, including those at the edges of the range and of the rounding", "anchors": ["spot/par_tools.h: try_get_par, INIT_PAR", "spot/search_point.cpp: rounded"]}
{"id": "C102", "title": "find_stop_condition returns the first condition of its class", "statement": "After any sequence of calls, steps and assignments to conditions, the stop conditions of an optimizer are those of its constructor followed by the added ones in order; find_stop_condition returns the first of its class and throws exactly if there is none. Assigning to the condition found changes that condition and nothing else. Adding a flat fitness, target fitness or maximum steps condition that is no stricter than one the optimizer has makes no difference to anything the optimizer shows, in any history, except for the condition reported. In particular a flat fitness tolerance of 1e-9 or less added to a MES, EVA or CMA optimizer has no effect; the one to change is found with find_stop_condition.", "quantifier": "every history of calls, populations, results, failures, interrupts and assignments", "why_tests_cant": "a statement that compares two optimizers over all histories", "anchors": ["spot/optimizer.h: find_stop_condition", "spot/optimizer.cpp: add_stop_condition, test_stop_conditions", "spot/stop_condition.cpp: test", "spot/mes_optimizer.cpp: mes_optimizer", "spot/eva_optimizer.cpp: eva_optimizer"]}
{"id": "C103", "title": "CMA variances and step size are never negative in floating point", "statement": "In floating-point arithmetic, for every number of individuals that fits an int, the recombination weights of CMA lie in [0,1] and do not increase with the rank, and mueff is at least 1. After any sequence of sample_population and update_distribution calls, with any fitnesses (including NaN and infinities), the step size, the variances and current_std are never negative, so no square root of a negative number is taken by current_std. Assumes of the C library only that exp and sqrt do not return negative numbers, that log does not decrease, and its values at 1, 2 and 3 to two digits.", "quantifier": "all numbers of individuals, dimensions, starts (including NaN), fitness sequences, random numbers, eigenvalue decompositions", "why_tests_cant": "Rounding errors accumulate over unboundedly many updates; a sign error appears only for particular roundings.", "anchors": ["spot/cma_optimizer.cpp:cmaes_readpara_SetWeights", "spot/cma_optimizer.cpp:Adapt_C2", "spot/cma_optimizer.cpp:cmaes_UpdateDistribution", "spot/cma_optimizer.cpp:current_std"]}
{"id": "C104", "title": "Evaluators serve in order of arrival", "statement": "The pooled evaluator is first-in first-out: a call of evaluate enters its points in the queue all at once and in order, calls keep the order in which they entered, and later calls never push in. When the evaluation of a point begins, at most (number of worker threads - 1) of the points that came before it - of earlier calls, or earlier in the same call - have not begun. With one worker thread evaluations begin exactly in the order of arrival. The same bound holds for the points of one call of the async evaluator. The priority argument of evaluate has no influence.", "quantifier": "every number of threads, every number of concurrent calls with any points, every change of the number of threads, every schedule including spurious wake-ups", "why_tests_cant": "the order depends on the interleaving of workers and callers; a test sees some schedules only", "anchors": ["spot/pooled_evaluator.cpp: evaluate, thread_func", "spot/async_evaluator.cpp: evaluate"]}
{"id": "C105", "title": "The par files of an optimizer pool hold the announced best points", "statement": "A file reporter added to an optimizer pool, whose members were all added before their first step, handles every callback. Whenever the pool announces a new best, the best point and best fitness of the current step that the pool's getters return to the reporter are the announced ones (unless the announced fitness is the worst possible one). As long as the files of the announced bests have different names, which is always so with concurrent_optimizations of 1, the files of the first and the most recent announced best exist, and hold the announced point. With concurrent optimizations two bests of one step can have the same file name, and the file of the best point can then be deleted right after it was written.", "quantifier": "all histories of a pool (members, members added later, stop conditions, interrupts, all orders in which the steps of the members end), all objective values, all reporter settings", "why_tests_cant": "Which member is the best one when the reporter asks depends on all fitnesses found so far and on the order in which steps end; a test covers one history.", "anchors": ["spot/optimizer_pool.cpp: internal_step", "spot/optimizer_pool.h: current_step_best_point, current_step_best_fitness", "spot/file_reporter.cpp: on_new_best, write_par_file"]}
{"id": "C106", "title": "Complete optimizations with MES, EVA and CMA", "statement": "For MES, EVA and CMA and every sequence of calls (step, run, interrupt, add_stop_condition, test_stop_conditions, add_reporter, set_...): each step evaluates a population within the bounds and everything the optimizer shows (best fitness, step count, stop condition, callbacks) is what the documented bookkeeping gives for the populations and results of these steps. best_point was evaluated in a completed step, lies within the bounds and objective(best_point) is best_fitness; no point of a completed step is better. run(n) can be made in every state that is reached; it makes exactly n steps and returns null if no stop condition holds then, or returns after at most n steps the stop condition there already was or the first that holds after the last step; with max_steps_condition(m) even run(0) makes at most as many steps as are missing to m (at least one), also if evaluations fail.", "quantifier": "all objectives with valid parameter infos (any bounds, failing evaluations), random numbers, lambda and mu in range, eigenvalue decompositions, boundary transformers, sequences of calls and n", "why_tests_cant": "the algorithms and the bookkeeping are separate parts; that no interleaving of calls, failures and interrupts breaks what their combination shows needs an induction over histories", "anchors": ["spot/optimizer.cpp:step", "spot/optimizer.cpp:run", "spot/optimizer.cpp:evaluate_step", "spot/mes_optimizer.cpp:internal_step", "spot/eva_optimizer.cpp:internal_step", "spot/cma_optimizer.cpp:internal_step"]}
{"id": "C107", "title": "Vectors of other sizes, objectives without parameters", "statement": "An optimizer of an objective without parameters throws from step() and run(), always, and remains as it was. Constructing a search point from a vector, search_point::set_values and objective_info::set_mean_std accept exactly the vectors with one value per parameter; for every other size they fail an assertion and do nothing sensible. is_feasible and clamp do not check: they ignore values after the last parameter (clamp leaves them unchanged), and with too few values they access the vector out of bounds, except that is_feasible returns false if it meets an infeasible value first. Requesting a parameter from a prop node when no options are active fails an assertion.", "quantifier": "all infos, points, vectors of any length, optimizers in any state", "why_tests_cant": "The sizes and the states are unbounded, and failing assertions are undefined behaviour in release builds that tests do not observe.", "anchors": ["spot/optimizer.cpp:step", "spot/optimizer.cpp:run", "spot/search_point.cpp:search_point", "spot/search_point.cpp:set_values", "spot/objective_info.cpp:set_mean_std", "spot/objective_info.cpp:is_feasible", "spot/objective_info.cpp:clamp", "spot/par_io.cpp:try_get_par"]}
{"id": "C108", "title": "Complete optimizations with a pool", "statement": "However a pool of optimizers of one objective is used - any number of members, MES, EVA and CMA in any mixture, steps with any schedule of the member threads and any selection, members and conditions added in between, interrupts - once a member has been stepped, best_fitness() of the pool is at least as good as the fitness of every point of every completed step of any member, and best_point() is a point that a member evaluated in a completed step, within the bounds, whose objective value is best_fitness() (or nothing was better than the worst fitness and it is the initial point). run(n) of a pool makes at most n steps (run(0): 2^64 - 1), each of which counts as one in current_step(), returns what the last step returned, makes exactly one step if the pool had stopped before, and - if all members have a step limit of at most N and predictions start no earlier - returns a stop condition within N times the number of members plus one steps.", "quantifier": "all objectives that do not return NaN, pools, members, schedules, selections, histories of calls and numbers of steps", "why_tests_cant": "the order in which member threads run and finish and the random numbers differ from run to run; a test sees one schedule of one optimization", "anchors": ["spot/optimizer_pool.cpp: optimizer_pool::internal_step, optimizer_pool::best_point, optimizer_pool::best_fitness", "spot/optimizer.cpp: optimizer::run, optimizer::step", "spot/optimizer_pool.h: optimizer_pool::push_back"]}
{"id": "C109", "title": "The files of an optimization reproduce its result", "statement": "After any history of an optimizer with a file reporter that has heard of a new best, the par file of the newest best exists and every reader gets the optimizer's best point from it exactly: import_values of a point over the same parameter names, static parameters looked up by name, and import_mean_std, which keeps the parameters, bounds and locked parameters of the objective and continues from the best point (use_best_as_mean) or the updated means with the updated standard deviations (8 digits), without locking any parameter. With a reporter attached from the start of a MES, EVA or CMA session this is a point that was evaluated, lies within the bounds and has the reported best fitness, unless no fitness was better than the worst there is. For a pool the file of the last announced best gives the announced point, if the file names of the bests differ.", "quantifier": "every history of calls and every position of the reporter in it, every objective function that never returns NaN, every run of the algorithms, every double precision value of points, means and nonzero standard deviations", "why_tests_cant": "round trip through text for all doubles combined with unbounded histories, file removal and failed evaluations", "anchors": ["spot/file_reporter.cpp:write_par_file", "spot/file_reporter.cpp:on_new_best", "spot/search_point.cpp:operator<<", "spot/search_point.cpp:import_values", "spot/objective_info.cpp:import_mean_std", "spot/static_par_set.cpp"]}
{"id": "C110", "title": "A pool continues from its best member; pools in pools need stepped members", "statement": "After any history of a pool, make_updated_objective_info is that of one of the members that have been stepped, which has the pool's best fitness and best point, and than which no stepped member is better; before a member has been stepped it fails an assertion. A pool of which a member is itself a pool that has not been stepped can not fill its queue: composing the status text asks that member for its best fitness, which fails an assertion; optimizers and pools that have been stepped are asked without failure.", "quantifier": "every history of a pool (steps with any schedule of the member threads, new members, conditions, interrupts), any members", "why_tests_cant": "the best member depends on the interleaving and on the whole history; a test of a nested pool that happens to have been stepped does not see the assertion", "anchors": ["spot/optimizer_pool.cpp:make_updated_objective_info", "spot/optimizer_pool.cpp:internal_step", "spot/optimizer_pool.h:best_optimizer"]}
{"id": "C111", "title": "The values of a point from any file", "statement": "import_values of a search_point, and its constructor from a file, with any file whatsoever: a parameter gets the value of the last record with its name and keeps its value (in the constructor: the mean at 8 digits) if there is none; records that name no free parameter, including locked ones, are counted as skipped and set + skipped is the number of records taken; the records taken are those before the first malformed one, except one at the very end of the file that is not followed by any character; an unreadable or empty file throws and changes nothing.", "quantifier": "every file content, every point, every number reader", "why_tests_cant": "files are arbitrary texts: repeated, missing, unknown and malformed records in any order and layout", "anchors": ["spot/search_point.cpp:import_values", "spot/search_point.cpp:search_point(objective_info, path)", "spot/objective_info.h:find_index"]}
{"id": "C112", "title": "cma_optimizer computes what the reference CMA-ES computes", "statement": "Started with the same seed (other than 0), population size, mean and standard deviations, cma_optimizer and the reference implementation in spot_test/c-cmaes/cmaes.c give the same numbers, not approximately: the same random numbers, strategy parameters, eigenvalue decomposition, and after every sequence of sample_population and update_distribution calls the same population, mean, step size and covariance matrix; so a cma_optimizer evaluates in every step the population that the reference implementation samples for the same objective, and its best fitness is the best function value of the reference implementation (if no value is NaN; worst_fitness if that is better). They differ only in three respects: the reference implementation does not decompose the covariance matrix as long as eigensystems take more than a fifth of the CPU time, accepts function values before a population was sampled, and the optimizer evaluates points rounded to 8 digits, resampled or clamped to the bounds.", "quantifier": "every dimension, seed, population size, start, objective, bounds, transformer, and every number and order of calls; exact arithmetic and doubles", "why_tests_cant": "A test compares some generations for one objective and seed; equality must hold for every objective and number of generations, and one different operation shows only after the rankings differ.", "anchors": ["spot_test/c-cmaes/cmaes.c:cmaes_SamplePopulation, cmaes_UpdateDistribution, Adapt_C2, Eigen, cmaes_random_Gauss, cmaes_readpara_SupplementDefaults", "spot_test/cma_optimizer_test.cpp:cma_optimizer_test", "spot/cma_optimizer.cpp:cma_optimizer"]}
{"id": "C113", "title": "cmaes_boundary_transformer computes what the reference boundary transformation computes", "statement": "For the same bounds, cmaes_boundary_transformer::apply and cmaes_boundary_transformation of the reference implementation compute the same vector, in doubles and in exact arithmetic: the C++ class transforms without a message if and only if the reference implementation returns, and to the same values; where the C++ class logs a message and leaves the value as it is, the reference implementation ends the program. Both reject equal bounds; a lower bound above the upper bound is rejected by the C++ class only. In exact arithmetic the promises of the header hold: what is returned is within the bounds and is left alone by the inverse transformation followed by the transformation. Of fewer bounds than variables the reference uses the last for the others; without bounds it leaves all doubles between -1e306 and 1e306 as they are.", "quantifier": "every number of variables, all bounds, all vectors, and every earlier content of the output array", "why_tests_cant": "the two programs have to agree on every vector and every combination of bounds, including values many periods away from the bounds; tests compare them on a few", "anchors": ["spot_test/c-cmaes/boundary_transformation.c:cmaes_boundary_transformation", "spot_test/c-cmaes/boundary_transformation.c:cmaes_boundary_transformation_init", "spot_test/c-cmaes/boundary_transformation.c:cmaes_boundary_transformation_inverse", "spot/boundary_transformer.cpp:cmaes_boundary_transformer::apply"]}
{"id": "C114", "title": "Optimizers sharing an evaluator", "statement": "Any number of optimizers, each in its own thread, may share one evaluator. Whatever the schedule, what each of them does (populations asked for, states, what run returns, best fitness) is something it can do alone with a sequential evaluator, even if the number of threads is changed meanwhile or optimizers are interrupted at any time: an interrupted one returns a stop condition after its current step, without an effect on the others; for a deterministic objective a CMA optimizer that is not interrupted ends in exactly the state it reaches alone. With a pooled evaluator of at least one thread nobody waits for ever: if each optimizer makes at most K steps with populations of at most L points, all have returned after at most 3n + J*K*(6L+3n+6) steps of all threads (J optimizers, n worker threads) plus three per spurious wake-up.", "quantifier": "every number of optimizers, every class and configuration, every deterministic (for the refinement: every) objective including failing ones, every number of threads, every schedule, every spurious wake-up and all times of interrupts", "why_tests_cant": "spot_test/evaluator_test.cpp runs twenty optimizers with one schedule and compares one fitness; results of one call decide the next population, so schedules multiply over whole runs", "anchors": ["spot/pooled_evaluator.cpp:evaluate", "spot/pooled_evaluator.cpp:thread_func", "spot/async_evaluator.cpp:evaluate", "spot/batch_evaluator.cpp:evaluate", "spot/optimizer.cpp:run", "spot_test/evaluator_test.cpp:evaluator_test"]}
{"id": "C115", "title": "Crashes and failing writes", "statement": "If the process dies while a file reporter is working, at any moment and with any part of the output still in buffers, the folder still has a complete par file of the newest best announced before, or, if that one was removed by the cleanup, the complete file of the best that is just being announced; the file of the first best is complete; and the files of all other bests are as they were before the callback. Once there is a newer best, the file of a best is never touched again, even if later writes fail. In history.txt at most the lines of the last nine completed steps are missing, and none once the optimizer has reported that it stopped. A cut par file is read without an error: import_values sets the complete lines and leaves the rest.", "quantifier": "every history of an optimizer, every callback in it, every point in the sequence of file operations of the callback, every way in which the output is split into writes, and (second part) every failure of a write", "why_tests_cant": "a test cannot kill the process between any two file operations of any callback", "anchors": ["spot/file_reporter.cpp:write_par_file", "spot/file_reporter.cpp:on_post_step", "spot/file_reporter.cpp:on_stop", "spot/file_reporter.cpp:on_pre_evaluate_population", "spot/search_point.cpp:operator<<", "spot/search_point.cpp:import_values", "spot/objective_info.cpp:import_mean_std"]}
{"id": "C116", "title": "MES and EVA are invariant under change of origin, not of unit", "statement": "Apart from rounding, moving the origin of the parameters (means, bounds and objective alike) moves every point MES and EVA evaluate and the mean they report, and leaves the standard deviations as they are. Another unit, the same for all parameters, scales the search if the threshold below which momentum is ignored is converted too. With the fixed threshold of the code the search depends on the unit, and the unit of one parameter influences the standard deviations of the others.", "quantifier": "all objectives, dimensions, options, bounds, initial distributions, generators of normal numbers, numbers of generations; units for which the search differs: all", "why_tests_cant": "Two searches in different coordinates are compared, for all objectives and any number of generations.", "anchors": ["spot/mes_optimizer.cpp", "spot/eva_optimizer.cpp", "spot/math_tools.h:projected"]}
{"id": "C117", "title": "Pools of pools", "statement": "An optimizer_pool may have pools as members, and these may have pools again, to any depth. After any history of calls and any schedule of the threads in which a step of a member has ended, best_fitness() and best_point() of the outermost pool are those of one optimizer at some depth that was stepped, and no stepped optimizer at any depth has a better best fitness; the best never gets worse; before that the getters fail an assertion. interrupt() reaches every optimizer at every depth, and from then on the pool has a stop condition. A pool that was not interrupted stops by itself exactly when every member, optimizer or pool, has a stop condition. But: an inner pool has no fitness history, so that its predicted fitness is always 0, whatever it finds, and the outer pool ranks it (and, with use_predicted_fitness, stops it) by this number; and an inner pool that has not been stepped makes the step of the outer pool fail an assertion.", "quantifier": "all depths, all shapes of the tree of pools, configurations, histories of calls, schedules of the member threads, results of evaluations", "why_tests_cant": "The statement is about trees of any depth and all interleavings of the steps of their members; a test fixes one tree and one schedule.", "anchors": ["spot/optimizer_pool.h", "spot/optimizer_pool.cpp:push_back", "spot/optimizer_pool.cpp:internal_step", "spot/optimizer_pool.cpp:interrupt", "spot/optimizer_pool.cpp:compute_predicted_fitnesses", "spot/optimizer.cpp:predicted_fitness"]}
{"id": "C118", "title": "The sign of a zero makes no difference", "statement": "In IEEE arithmetic with both zeros, a run of MES or EVA (any number of generations) evaluates, apart from the signs of zeros, exactly the points that it evaluates in an arithmetic with a single zero, and conversely, provided the objective gives the same value to points that differ only in the signs of zeros. So two runs whose initial distributions, limits or options differ only in signs of zeros evaluate the same points up to the signs of zeros and leave the random engine in the same state. A negative zero written to a file is read back as a negative zero. (1 / 0 and 1 / -0 are different: what the claim needs is that the algorithms never divide by zero.)", "quantifier": "all objectives that do not look at the sign of a zero, dimensions, options, limits, initial distributions, generators of normal numbers, numbers of generations; all finite numbers written", "why_tests_cant": "A test would have to try every place where a zero can occur in every computation; the statement is about all runs.", "anchors": ["spot/mes_optimizer.cpp", "spot/eva_optimizer.cpp", "spot/math_tools.h:projected", "spot/mes_optimizer.cpp:sample_parameter", "spot/search_point.cpp:rounded"]}
{"id": "C119", "title": "An optimization that was killed can be continued from its files", "statement": "If the process dies at any moment while an optimizer with a file reporter is running, with any part of the output still in buffers, and a new best had been announced before, then the folder contains a complete par file from which every reader (import_values, static parameters, import_mean_std with and without use_best_as_mean) gets exactly a point that was announced as a new best, and no best announced before the crash is better than it. For MES, EVA and CMA this point was evaluated, is within the bounds and has the fitness announced for it.", "quantifier": "every history of calls, every callback of it, every point in its file operations, every way in which the output is split into writes, every objective function that never returns NaN", "why_tests_cant": "The crash can happen between any two file operations of any callback of any history.", "anchors": ["spot/file_reporter.cpp:write_par_file", "spot/file_reporter.cpp:on_new_best", "spot/search_point.cpp:operator<<", "spot/objective_info.cpp:import_mean_std", "spot/optimizer.cpp:evaluate_step"]}
{"id": "C120", "title": "A pool whose members share an evaluator", "statement": "The members of a pool may use the same pooled_evaluator, which other threads may use too. Whatever all these threads do at whatever times, every call of the pool has an effect that it could have if its members evaluated their points alone: each member gets for each of its points what the objective yields for it. So after any calls best_fitness() is not worse than any value the objective has for a point of a population without failures, and it is the value at best_point(). No step of the pool waits for ever: at any moment one of its threads or one of the evaluator's can go on, the step can come to its end by what they do, and what happens until then is bounded by the populations, the threads and the calls that others make. Conversely the shared evaluator excludes no schedule of the members: every step in which they get what the objective yields is possible.", "quantifier": "all objectives (including ones that fail), members, populations, numbers of evaluator threads and of other threads, calls of others, interrupts, schedules of all threads, histories of calls of the pool", "why_tests_cant": "Three kinds of threads (the pool's, the evaluator's, others) interleave inside mutexes and condition variables; a test sees one schedule per run.", "anchors": ["spot/optimizer_pool.cpp:internal_step", "spot/optimizer.cpp:evaluate", "spot/pooled_evaluator.cpp:evaluate", "spot/pooled_evaluator.cpp:thread_func"]}
{"id": "C121", "title": "A pool can be used further after a step of it has ended with an exception", "statement": "After any sequence of calls of an optimizer_pool, some of whose steps have ended with an exception (thrown by the evaluator or the algorithm of a member and passed on by the future, or by a stop condition): as soon as one member has been looked at, best_fitness() and best_point() are those of a member, and no member that has been looked at and has not been stepped since has a better one; before that the getters fail an assertion. The fitnesses announced by on_new_best get strictly better, and best_fitness() is never worse than one that was announced. The step queue only contains members that exist, and each future can be looked at. A step launches at most concurrent_optimizations members; it looks at a first part of them, at all of them unless it ends with an exception; members it does not launch keep their best; it is counted if it ends without an exception. Without exceptions this is the pool of C117. (Finding: a member that improved in a step that ended with an exception of another member is not looked at; best_fitness() may show its fitness nonetheless, and get worse later.)", "quantifier": "all sequences of calls of the pool, all configurations, members, schedules of the threads, exceptions (of any members, in any steps) and interrupts by other threads", "why_tests_cant": "Which member throws, when, and which of the others have finished by then are matters of timing; the effect on the best fitness shows only steps later.", "anchors": ["spot/optimizer_pool.cpp:79-139 (internal_step)", "spot/optimizer.cpp:44-65 (step)", "spot/optimizer.h:123-133 (signal_reporters)"]}
{"id": "C122", "title": "An optimizer can be used further after a step of it has ended with an exception", "statement": "After any sequence of calls of an optimizer, in some of which the evaluator threw from step() (or the algorithm did before it was called): everything the optimizer shows, its stop conditions and which one was met, what the next calls of step(), run() and test_stop_conditions() return, and the callbacks that tell results (on_new_best, on_post_evaluate_population, on_post_step, on_stop) are as if the steps that threw had not been made; an interrupt during one counts. Such a step sends on_start if no step has been completed yet, on_pre_step, and on_pre_evaluate_population if it got there; on_start may so be sent again, but never after on_post_step. For MES, EVA and CMA, best_fitness and best_point are the solution of the steps that did not throw; the distribution of MES and EVA is updated for the populations of the completed steps only, and CMA makes no other updates. The par files a file_reporter has written, if it does not also write individuals, and which of them it will remove are as if the steps that threw had not been made. So are the lines of its history.txt, of which there is one for every completed step, after one header.", "quantifier": "all sequences of calls, all exceptions before results are returned, populations, results, reporters and interrupts; all objectives for MES, EVA and CMA", "why_tests_cant": "An exception can leave step() at any time; what is left behind shows only in later steps.", "anchors": ["spot/optimizer.cpp:44-80 (step, run)", "spot/optimizer.cpp:163-168 (evaluate_step)", "spot/mes_optimizer.cpp:139-151 (internal_step)", "spot/eva_optimizer.cpp:133-145 (internal_step)", "spot/cma_optimizer.cpp:1311-1322 (internal_step)"]}
{"id": "C123", "title": "A pool has the settings it was given", "statement": "A pool made from a prop_node has, for each of its six settings (prediction_window, prediction_start, prediction_look_ahead, use_predicted_fitness_stop_condition, active_optimizations, concurrent_optimizations), the value given there or its default; if only a window is given, prediction starts after that many steps and looks that many ahead. Other keys make no difference. The constructor throws if and only if one of these settings is given but no value of its type, and uses no setting before it has a value. A new pool has no members and has made no step. A member added to it keeps the fitness of the window asked for (or of the steps its prediction needs, if those are more), gets the stop condition for predicted fitness only if asked for, with the start and the look-ahead asked for, and its other conditions stay; priorities follow the number of active members, the start and the look-ahead asked for; and never more members are stepped at once than asked for.", "quantifier": "all prop_nodes (any keys and texts) and conversions of texts to values, all objectives, all members, all histories of a pool", "why_tests_cant": "Tests make a pool without settings; that the default of two settings is another setting depends on the order in which members are declared, and which combination of settings is given is open.", "anchors": ["spot/optimizer_pool.cpp:22-34 (optimizer_pool)", "spot/optimizer_pool.cpp:36-44 (push_back)", "spot/optimizer_pool.h:31-47 (data members)", "spot/optimizer_pool.cpp:59-81 (compute_predicted_fitnesses)"]}
