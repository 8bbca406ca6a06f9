import json
P=[]
def p(title,statement,quant,why,anchors):
    P.append(dict(id="C%02d"%(len(P)+1),title=title,statement=statement,quantifier=quant,why_tests_cant=why,anchors=anchors))
p("Constructed parameters are valid",
 "Whenever a par_info is constructed without an exception, by either constructor, its mean is a number, std >= 0, min <= max and min <= mean <= max; otherwise construction throws.",
 "every name, every double (incl. NaN and infinities) for mean/std/min/max, every configuration text or child node, every par_options",
 "the text constructor is a loop over arbitrary segment sequences followed by four interacting repair rules; only sampled strings can be tested",
 ["spot/par_info.cpp:par_info::par_info","spot/par_info.h:is_valid"])
p("Parameter notation is decoded component by component",
 "A text made of at most one mean, one ~std and one bracketed range, in any order, decodes to exactly those numbers; missing parts get the documented defaults: `~v` alone means mean v with std max(factor*|v|+offset, minimum), a range without mean takes the midpoint, a range without std takes a quarter of the width.",
 "all numbers, all orders of the components, all three bracket styles, all par_options",
 "the parser is order-insensitive by construction of a loop with mutable state; tests cover a handful of strings",
 ["spot/par_info.cpp:par_info::par_info(string,prop_node,par_options)"])
p("Malformed parameter notation is rejected",
 "A second mean, a second std after a non-zero one, mismatched brackets, an unreadable number, an empty definition, mean outside the range or min >= max always throw instead of producing a parameter. The one exception is an unreadable number directly after '~', which is read as 0 and ends the definition.",
 "every configuration text and par_options",
 "there are infinitely many malformed texts",
 ["spot/par_info.cpp:par_info::par_info(string,prop_node,par_options)"])
p("Parameter names stay unique",
 "Starting from an empty objective_info, after any sequence of add, get, import_mean_std, import_locked, set_mean_std and set_std_minimum calls (including ones that throw), no name occurs twice among the free parameters, no locked name is also a free one, and each locked name has exactly one value.",
 "every operation history, every file content, every name",
 "invariant over unbounded histories mixing three different mutation paths",
 ["spot/objective_info.cpp:add","spot/objective_info.cpp:lock_parameter","spot/objective_info.cpp:import_mean_std","spot/objective_info.cpp:import_locked"])
p("add appends exactly one parameter or changes nothing",
 "objective_info::add of a fresh valid name with std != 0 appends the parameter at index dim() and increases dim() by one; with std == 0 it becomes locked to its mean and dim() is unchanged; a duplicate (free or locked) or ill-formed name throws and changes nothing; every other parameter keeps its index and value.",
 "every registry state and every par_info",
 "frame conditions over all other names cannot be enumerated",
 ["spot/objective_info.cpp:add","spot/objective_info.cpp:find_index"])
p("Requesting a parameter twice is idempotent",
 "If get(name, ...) returned v on an objective_info, an immediately repeated identical call returns v again and leaves the registry unchanged.",
 "every registry state, prefix, options/aliases, and both the numeric and the prop_node overload",
 "depends on the interplay of aliases, prefix, locked and free parameters, constants and references",
 ["spot/par_io.cpp:par_io::get","spot/objective_info.cpp:try_get"])
p("Registered parameters are stable under later requests",
 "Once a parameter is registered, no later sequence of get/add/prefix/option calls on the objective_info changes its index, mean, std or bounds, or removes it; dim() never decreases.",
 "all request histories",
 "unbounded histories",
 ["spot/par_io.cpp:par_io::get","spot/objective_info.cpp:add"])
p("Register then evaluate never meets an undefined parameter",
 "If a fixed sequence of prefix/options/get requests ran on an objective_info without an exception, running the same sequence on any search_point over the resulting objective_info also runs without an exception.",
 "every request sequence (both get overloads, references, aliases, nested prefixes and options) and every value vector",
 "the failure needs a particular combination of names and order; the quantifier is over all programs using the API",
 ["spot/par_io.cpp:par_io::get","spot/search_point.cpp:add","spot/search_point.cpp:try_get"])
p("A search point answers with its own values",
 "search_point::get/try_get of a free parameter returns the search point's value at that parameter's index; of a locked parameter the locked value; it never changes the search point or the objective_info, and throws for an unknown non-constant parameter.",
 "every objective_info, value vector and name",
 "must hold for every name in every registry",
 ["spot/search_point.cpp:try_get","spot/search_point.cpp:add"])
p("References resolve innermost prefix first",
 "A prop_node value that starts with a letter is looked up under the current prefix, then under each shorter prefix, then unprefixed, and the first existing parameter's value is returned; if none exists get throws. (The resolved parameter can differ between registration and evaluation if a closer one is registered later.)",
 "every prefix stack, registry and reference name",
 "depends on arbitrary nesting and registry contents",
 ["spot/par_io.cpp:par_io::get(string,prop_node)"])
p("Scoped prefixes and options are restored",
 "After any well-nested block of scoped_prefix / scoped_par_options the prefix and the option set are exactly what they were before the block. Inside a scoped prefix a request is the request with the prefix (and at most one dot) written before the name. Inside scoped_par_options the options written in the node replace the enclosing ones and all others keep their enclosing value.",
 "every nesting of scopes and every body",
 "arbitrary nesting depth",
 ["spot/par_io.h:scoped_prefix","spot/par_io.h:scoped_par_options"])
p("Import of means/stds touches only named parameters and accounts for every record",
 "import_mean_std updates exactly the parameters named in accepted records with the documented formulas, locks those with std 0, leaves all others unchanged and in their order, never changes bounds, and returns (set, not found) with set + not found = number of records accepted by include/exclude.",
 "every file content, registry and import setting",
 "unbounded files; frame condition",
 ["spot/objective_info.cpp:import_mean_std"])
p("Locking moves a parameter without losing any",
 "import_locked moves each named free parameter to the locked set with the file value, overwrites already locked ones, preserves the relative order of the remaining free parameters, and the overall set of known names is unchanged.",
 "every file content and registry",
 "unbounded histories; frame condition",
 ["spot/objective_info.cpp:lock_parameter","spot/objective_info.cpp:import_locked"])
p("Saved search points load back exactly",
 "Writing a search_point with operator<< and reading that text with import_values into any search_point over the same objective_info restores every parameter value bit for bit and reports (dim, 0).",
 "every objective_info with writable unique names, every vector of finite doubles",
 "needs the decimal/binary round trip for all 2^64 doubles and all names/paddings",
 ["spot/search_point.cpp:operator<<","spot/search_point.cpp:import_values","spot/search_point.cpp:rounded"])
p("Rounding a stored value is idempotent, monotone and accurate",
 "The 8-significant-digit rounding applied to every value stored in a search_point is idempotent (storing a stored value changes nothing), monotone, odd, and changes a finite value by a relative amount of at most about 5e-8.",
 "every finite double",
 "2^64 inputs; failure is only possible at isolated points",
 ["spot/search_point.cpp:rounded"])
p("Evaluated points respect the bounds",
 "Every point handed to the evaluator by the CMA, MES and EVA optimizers is an 8-digit rounding of a sampled vector and has every parameter that was sampled as a finite number within [min, max], the bounds being taken with the same 8 digits (so exactly within bounds that have at most 8 digits; a longer bound is exceeded by at most 5.1e-8 of it). An infinite number is sampled only towards an infinite bound; NaN is sampled by CMA only (see C83); both are stored as 0.",
 "all bounds, random streams, distributions and generations",
 "values are checked before they are rounded to 8 digits, so violations occur only for special bounds",
 ["spot/cma_optimizer.cpp:sample_population","spot/mes_optimizer.cpp:sample_population","spot/eva_optimizer.cpp:sample_population","spot/search_point.cpp:set_values"])
p("clamp produces a feasible point and is the identity on feasible ones",
 "After objective_info::clamp, is_feasible holds; a feasible vector is unchanged; each coordinate becomes the nearest point of its interval.",
 "every objective_info with min <= max and every vector of the right length",
 "unbounded dimension and all doubles",
 ["spot/objective_info.cpp:clamp","spot/objective_info.cpp:is_feasible"])
p("Static parameter sets keep the last (or first) value",
 "static_par_set::load makes every name map to its last value in the file; merge without overwrite keeps existing values and takes the first new one; with overwrite it behaves like load; names not in the file are unaffected; the returned counts are exact.",
 "every file and prior contents",
 "unbounded files",
 ["spot/static_par_set.cpp:load","spot/static_par_set.cpp:merge"])
p("make_objective_info builds d distinct valid parameters",
 "make_objective_info returns exactly d parameters named by their index, all distinct, with the i-th mean/std/bounds given, or throws if any of them is invalid.",
 "every d and vectors",
 "unbounded d",
 ["spot/objective_info.cpp:make_objective_info"])
p("best_fitness is the best fitness ever returned",
 "After any history of steps, best_fitness() is the minimum (maximum when maximizing) of all fitnesses of all completed steps and of the initial worst value; in particular it never gets worse. (Fails if a NaN fitness is returned.)",
 "every objective, every sequence of populations/results, minimize or maximize",
 "history property over unbounded runs",
 ["spot/optimizer.cpp:evaluate_step","spot/objective_info.cpp:find_best_fitness","spot/objective_info.h:is_better"])
p("best_point is a point that achieved best_fitness",
 "Once any completed step improved on the initial worst value, best_point() has exactly the values of an evaluated search point whose returned fitness was best_fitness(), namely the earliest such point; likewise for current_step_best_point.",
 "every run history",
 "history property; depends on rounding idempotence",
 ["spot/optimizer.cpp:evaluate_step","spot/search_point.cpp:set_values"])
p("A failed step changes no result",
 "If more evaluations of a step fail than allowed, the step leaves best/current fitnesses and points, tracking and step counter unchanged, and step() returns an error stop condition (unless already stopped or aborted).",
 "every number and position of failures, every max_errors setting",
 "all subsets of failing evaluations",
 ["spot/optimizer.cpp:verify_results","spot/optimizer.cpp:evaluate_step","spot/optimizer.cpp:step"])
p("A failed evaluation never becomes the best",
 "A failed evaluation is recorded as the worst fitness and can never improve best_fitness or replace best_point.",
 "every result vector, minimize or maximize",
 "all subsets of failing evaluations",
 ["spot/optimizer.cpp:evaluate_step"])
p("Stopping is permanent and announced once",
 "The first stop condition that tests true, in the order abort, error, then order of addition, becomes the returned stop condition of this and all later step()/test_stop_conditions() calls, and on_stop is signalled exactly once over the optimizer's lifetime.",
 "every history of steps and every list of stop conditions",
 "temporal property over unbounded histories",
 ["spot/optimizer.cpp:test_stop_conditions"])
p("run performs exactly the requested number of steps unless stopped",
 "run(n) with n > 0 performs at most n steps; it returns null iff n steps were performed without any stop condition; otherwise it returns the stop condition of the last step performed. Each successful step increases current_step by one.",
 "every n and every optimizer behaviour",
 "unbounded n",
 ["spot/optimizer.cpp:run","spot/optimizer.cpp:step"])
p("A step limit terminates the run",
 "With a max_steps_condition(n), run() returns after at most max(1,n) steps.",
 "every n, objective and evaluator result sequence",
 "termination for all behaviours",
 ["spot/stop_condition.cpp:max_steps_condition::test","spot/optimizer.cpp:run"])
p("Interrupt stops the run",
 "After interrupt(), the next step() returns a stop condition, namely the abort condition unless the optimizer had already stopped for another reason.",
 "every point in the run at which interrupt is called",
 "every interleaving point",
 ["spot/optimizer.h:interrupt","spot/stop_condition.cpp:abort_condition::test","spot/optimizer_pool.cpp:interrupt"])
p("Reporter callbacks follow the protocol",
 "Each step signals: on_start (while no step has completed), on_pre_step, on_pre_evaluate_population, then for a completed step on_new_best exactly when best_fitness strictly improved, on_post_evaluate_population, on_post_step, then on_stop when a stop condition first fires; a failed step signals none of the post callbacks.",
 "every run history",
 "trace property over unbounded runs",
 ["spot/optimizer.cpp:step","spot/optimizer.cpp:evaluate_step"])
p("Reporters cannot influence the optimization",
 "The sequence of optimizer states is the same whatever reporters are attached and whichever of them throw std::exceptions; a throwing reporter only hides that one signal from the reporters after it: after any further calls, a reporter has received exactly the callbacks signalled since it was added, in order, if no reporter added before it throws.",
 "every set of reporters and throw behaviour",
 "non-interference over all reporters",
 ["spot/optimizer.h:signal_reporters"])
p("Fitness tracking holds the most recent best fitnesses",
 "With tracking window w > 0 set before the first step, after n completed steps the history contains the best fitnesses of the last min(n,w) completed steps in order; add_stop_condition guarantees w is at least what each condition needs.",
 "every n, w, run history",
 "unbounded histories",
 ["spot/optimizer.cpp:update_fitness_tracking","spot/optimizer.cpp:add_stop_condition"])
p("The cached fitness trend is never stale",
 "fitness_trend() always equals the regression of the current fitness history, whenever and however often it is called between steps, as long as the tracking window is not set smaller than the number of samples present (after such a shrink the old trend is returned until the next sample).",
 "every interleaving of steps and queries",
 "cache coherence over histories",
 ["spot/optimizer.cpp:fitness_trend"])
p("Stop conditions fire exactly when documented",
 "target_fitness fires iff best is strictly better than the target; flat_fitness iff at least one step completed and the spread of the last population is below epsilon; max_steps iff current_step >= n; min_progress and predicted_fitness never before their minimum number of steps.",
 "all optimizer states",
 "all doubles incl. NaN/inf",
 ["spot/stop_condition.cpp"])
p("All evaluators return the results in order",
 "sequential, batch, async and pooled evaluators return, for every point in order, exactly what the objective returns for that point, evaluating each point exactly once, for every thread schedule.",
 "every point vector, objective, number of threads >= 1, schedule",
 "all interleavings",
 ["spot/evaluator.cpp","spot/batch_evaluator.cpp","spot/async_evaluator.cpp","spot/pooled_evaluator.cpp"])
p("async_evaluator bounds concurrency and terminates",
 "At every moment at most max_threads evaluations are running, and evaluate can always make progress until it returns; with a computed thread count of 0 it never returns.",
 "every schedule and population size",
 "all interleavings; liveness",
 ["spot/async_evaluator.cpp:evaluate"])
p("pooled_evaluator serves concurrent clients correctly",
 "With any number of threads calling evaluate concurrently on one pooled_evaluator, each call returns exactly its own results in order and every task is executed exactly once by one worker.",
 "every number of clients, workers, tasks and every interleaving incl. spurious wake-ups",
 "all interleavings",
 ["spot/pooled_evaluator.cpp:evaluate","spot/pooled_evaluator.cpp:thread_func"])
p("pooled_evaluator never strands a task",
 "While at least one worker exists and no shutdown is requested, whenever a client still waits for a result some thread can make progress (no lost wake-up, no deadlock), the number of steps without new calls is finite, and so all calls return; with zero workers no call with a point ever returns.",
 "every reachable interleaving",
 "all interleavings; liveness",
 ["spot/pooled_evaluator.cpp:thread_func","spot/pooled_evaluator.cpp:evaluate"])
p("When pooled_evaluator shuts down",
 "Destroying a pooled_evaluator completes if all its workers are busy evaluating (or have ended) when the stop signal is set, and never completes if a worker is waiting - so destroying an idle evaluator always deadlocks (the destructor joins while holding the queue mutex). Changing the thread count completes if no worker is between its test of the stop signal and its test of the queue, and can hang otherwise (lost wake-up).",
 "every reachable interleaving",
 "depends on the exact interleaving of idle workers",
 ["spot/pooled_evaluator.cpp:~pooled_evaluator","spot/pooled_evaluator.cpp:stop_threads","spot/pooled_evaluator.cpp:set_max_threads"])
p("Exceptions in an objective become error results",
 "evaluate_noexcept returns the objective's result, or an error carrying the exception's message; nothing escapes, so one throwing point never affects the results of other points.",
 "every objective behaviour and every position in the population",
 "all subsets of throwing points",
 ["spot/objective.cpp:evaluate_noexcept"])
p("The optimization does not depend on the evaluator",
 "For a deterministic objective, the full sequence of optimizer states is the same for the sequential, batch, async and pooled evaluator, for any number of threads and any schedule.",
 "all schedules and run lengths",
 "all interleavings over unbounded runs",
 ["spot/optimizer.cpp:evaluate_step","spot/evaluator.cpp","spot/async_evaluator.cpp"])
p("The pool reports the best member",
 "After any history of calls with at least one step, the pool's best_fitness is the best of the best_fitness values of all members stepped so far, best_point is that member's best_point, and best_fitness never gets worse. on_new_best is signalled for the first result (even a failed evaluation) and then exactly for strict improvements, with the values the getters return. Before the first step the getters have no value (they assert).",
 "every pool size, member behaviour, prediction values",
 "unbounded histories of scheduling decisions",
 ["spot/optimizer_pool.cpp:internal_step","spot/optimizer_pool.h:best_fitness"])
p("The pool steps distinct members within its concurrency limit",
 "In one pool step at most concurrent_optimizations members are stepped, all distinct, and none of them was stopped when it was selected. As long as no member has enough steps for a prediction, every step of a pool with an unstopped member steps something. (Not guaranteed: a member selected earlier may have stopped in the meantime and is still stepped; with a prediction equal to the worst fitness a step may step nothing.)",
 "every pool state and sort order of equal predictions",
 "data-race freedom over all schedules",
 ["spot/optimizer_pool.cpp:internal_step","spot/optimizer_pool.cpp:compute_predicted_fitnesses"])
p("The pool stops when and only when all members stopped",
 "The pool's own stop condition fires iff every member has a stop condition; interrupting the pool interrupts every member and the pool.",
 "every set of members",
 "all histories",
 ["spot/optimizer_pool.cpp:pool_stop_condition","spot/optimizer_pool.cpp:interrupt"])
p("MES/EVA samples lie within the bounds before rounding",
 "sample_parameter returns a value in [min, max] for every valid parameter, whatever the random draws (given non-NaN draws).",
 "every random stream, mean, standard deviation, bounds",
 "probability-zero corner cases",
 ["spot/mes_optimizer.cpp:sample_parameter","spot/eva_optimizer.cpp:sample_parameter"])
p("MES/EVA variances stay non-negative",
 "With update rates in [0,1] all variances stay >= 0 after any number of updates, so the standard deviations are always defined.",
 "every population, fitness vector and number of generations",
 "invariant over unbounded runs",
 ["spot/mes_optimizer.cpp:update_distribution","spot/eva_optimizer.cpp:update_distribution","spot/math_tools.h:update"])
p("EVA means stay within the bounds",
 "In exact arithmetic and with step_size in [0,1], the EVA mean stays within [min,max] in every coordinate as long as all sampled points do; for MES without momentum likewise.",
 "every run",
 "invariant over unbounded runs",
 ["spot/eva_optimizer.cpp:update_distribution","spot/mes_optimizer.cpp:update_distribution"])
p("Selection uses exactly the mu best individuals",
 "The new mean depends only on the mu best individuals; each selected fitness is at least as good as each unselected one; update_distribution reads outside the population iff mu is negative or larger than lambda.",
 "every fitness vector and population",
 "all orderings and ties",
 ["spot/mes_optimizer.cpp:update_distribution","spot/eva_optimizer.cpp:update_distribution"])
p("Optimizers are invariant under monotone transformation of the fitness",
 "Replacing the fitness by a strictly increasing function of it (no ties broken or created) yields the same distribution updates in CMA, MES and EVA. (When an optimizer stops is not invariant: the flat fitness condition that their constructors add has an absolute epsilon.)",
 "every strictly monotone transformation and run",
 "quantifies over functions",
 ["spot/cma_optimizer.cpp:cmaes_UpdateDistribution","spot/mes_optimizer.cpp:update_distribution"])
p("Maximizing f equals minimizing -f",
 "An optimizer maximizing f goes through the same populations, distributions and best points as one minimizing -f, with negated fitnesses, and for all calls of its interface (stop conditions with negated targets, interrupts, reporters): step() and run(n) return the same stop condition after the same number of steps, the reporters are told the same, progress() is the same and predicted_fitness() negated.",
 "every objective and run",
 "relational property over unbounded runs",
 ["spot/objective_info.h:is_better","spot/cma_optimizer.cpp:update_distribution","spot/optimizer.cpp:evaluate_step"])
p("The CMA random generator never leaves its table or range",
 "For every seed, every number of draws: table index within 0..31, stored values within 1..2^31-2, intermediate values fit 32-bit signed long, Uniform lies strictly between 0 and 1; the seed recurrence is x -> 16807 x mod (2^31-1).",
 "every seed >= 1 and every draw count",
 "2^32 seeds times unbounded draws",
 ["spot/cma_optimizer.cpp:cmaes_random_init","spot/cma_optimizer.cpp:cmaes_random_Uniform"])
p("CMA recombination weights are proper",
 "In exact arithmetic, for every lambda >= 2 the mu = lambda/2 weights are positive, non-increasing (strictly decreasing unless the mode is equal weights) and sum to one, and 1 <= mueff <= mu; the invalid-setting error never occurs.",
 "every lambda and weight mode",
 "unbounded lambda",
 ["spot/cma_optimizer.cpp:cmaes_readpara_SetWeights"])
p("CMA strategy parameters are in range",
 "In exact arithmetic, for every dimension n >= 1 and lambda: 0 < cs < 1, 0 < ccumcov <= 1, 0 < ccov <= 1, damps > 0, mucov >= 1.",
 "every n >= 1 and lambda",
 "unbounded n, lambda",
 ["spot/cma_optimizer.cpp:cmaes_readpara_SupplementDefaults"])
p("CMA ranks the population correctly",
 "Sorted_index yields a permutation of 0..lambda-1 sorted by fitness, for every fitness vector (for NaN-free vectors sorted; always a permutation).",
 "every fitness vector",
 "all permutations and ties",
 ["spot/cma_optimizer.cpp:Sorted_index"])
p("The CMA covariance matrix stays symmetric positive definite",
 "In exact arithmetic, after any number of updates the covariance matrix is positive definite, so every marginal standard deviation is positive.",
 "every population/fitness history",
 "invariant over unbounded runs",
 ["spot/cma_optimizer.cpp:Adapt_C2","spot/cma_optimizer.cpp:cmaes_init_final"])
p("The CMA step size stays positive",
 "In exact arithmetic sigma > 0 after any number of updates, given positive initial stds.",
 "every run",
 "invariant over unbounded runs",
 ["spot/cma_optimizer.cpp:cmaes_UpdateDistribution"])
p("CMA sampling and updating alternate",
 "update_distribution succeeds iff the last call was sample_population and the number of fitnesses equals lambda; otherwise it throws and leaves the distribution unchanged; the generation counter counts sample/update cycles.",
 "every call sequence",
 "all call histories",
 ["spot/cma_optimizer.cpp:cmaes_UpdateDistribution","spot/cma_optimizer.cpp:cmaes_SamplePopulation"])
p("CMA populations are feasible before rounding",
 "Every individual passed to set_values by sample_population satisfies is_feasible, after at most max_resample_count resamplings, whatever the random numbers and the boundary transformer; a clamped individual is also written back into the internal population.",
 "every random stream and boundary transformer",
 "rare corner case of 100 failed resamplings",
 ["spot/cma_optimizer.cpp:sample_population"])
p("The CMA boundary transformer maps into the bounds",
 "In exact arithmetic cmaes_boundary_transformer::apply maps every vector whose shift count fits an int into [lb, ub], is the identity on [lb+al, ub-au], and maps feasible points to feasible points. In floating point a parameter with only one bound is never mapped beyond that bound (with two very large bounds the square overflows). The reflective and the soft-limit transformer treat each parameter with its own bounds and stay within them if the wave and the soft clamp do.",
 "every lb < ub and every x",
 "uncountable domain; period shifts",
 ["spot/boundary_transformer.cpp:cmaes_boundary_transformer::apply"])
p("The CMA boundary transformation is inverted by its inverse",
 "In exact arithmetic cmaes_boundary_trans(cmaes_boundary_trans_inverse(x)) = x for every feasible x.",
 "every lb < ub and x in [lb,ub]",
 "uncountable domain",
 ["spot/cma_optimizer.cpp:cmaes_boundary_trans","spot/cma_optimizer.cpp:cmaes_boundary_trans_inverse"])
p("The file reporter never deletes the newest best file",
 "At any time every best-file ever written either still exists or was superseded by a later best file that exists; the most recent best file always exists; at most two recent files are candidates for deletion. The two fitnesses in a file name are limited to +-999999.999 and otherwise as they are.",
 "every run history of new bests",
 "history property; fails only for coinciding names",
 ["spot/file_reporter.cpp:write_par_file"])
p("The file reporter writes at least every max_steps steps",
 "After any completed evaluation, fewer than max_steps_without_file_output steps have passed since the last written par file.",
 "every run history, max_steps >= 1",
 "unsigned wrap-around of the initial value; unbounded history",
 ["spot/file_reporter.cpp:on_post_evaluate_population"])
p("Test objectives have their documented optimum",
 "sphere, ellipsoid, rosenbrock and rastrigin are >= 0 for every vector and 0 exactly at the documented optimum; himmelblau is >= 0 and 0 at exactly four points, (3,2) and one within 1e-6 of each other documented optimum; schwefel is >= 0 on [-500,500]^n and its documented optimum is within 2e-5 per coordinate of the minimum.",
 "every dimension and real vector",
 "uncountable domain",
 ["spot/test_objectives.cpp"])
p("Projection onto a direction is orthogonal and idempotent",
 "In exact arithmetic projected(a, ab, p) lies on the line through a along ab, p minus it is orthogonal to ab, and projecting again changes nothing; it is the nearest point of the line to p.",
 "every vectors a, ab, p of equal length with |ab|^2 above epsilon",
 "uncountable domain",
 ["spot/math_tools.h:projected"])
p("Distances behave like distances",
 "In exact arithmetic normalized_distance is symmetric, non-negative, zero only for equal points, and satisfies the triangle inequality for positive variances.",
 "every vector",
 "uncountable domain",
 ["spot/math_tools.cpp:normalized_distance","spot/math_tools.cpp:mahalanobis_distance"])
p("Population statistics are exact",
 "compute_mean_std returns in exact arithmetic the arithmetic mean and population standard deviation per coordinate; a population of identical points has zero deviation.",
 "every non-empty population",
 "unbounded size",
 ["spot/search_point.cpp:compute_mean_std"])
p("Updated objective info only changes means and stds",
 "make_updated_objective_info / set_mean_std keep names, order, bounds, locked parameters and direction, and set the i-th mean/std to the given ones.",
 "every objective info and vectors",
 "frame condition",
 ["spot/objective_info.cpp:set_mean_std","spot/cma_optimizer.cpp:make_updated_objective_info"])
p("set_std_minimum enforces the floor",
 "After set_std_minimum(value, factor) every std is at least factor*|mean|+value and never smaller than before; nothing else changes; repeating it changes nothing.",
 "every objective info",
 "frame condition, all doubles",
 ["spot/objective_info.cpp:set_std_minimum"])
p("Worst and best fitness bound the order",
 "is_better is a strict order, worst_fitness is never better than any finite fitness and best_fitness is never worse than any finite fitness, for both directions; find_best_fitness returns the first index no other element is better than.",
 "every fitness vector without NaN",
 "all doubles",
 ["spot/objective_info.h:is_better","spot/objective_info.cpp:find_best_fitness"])
p("Tracking window of a pool member",
 "push_back makes a member keep exactly the last prediction_window fitness samples (the larger of that and prediction_start with a predicted-fitness condition), whatever it kept before; so it can be fewer than one of its own stop conditions asked for.",
 "every pool configuration and member",
 "every earlier configuration of the member",
 ["spot/optimizer_pool.cpp:push_back","spot/optimizer.cpp:enable_fitness_tracking"])
p("A pool tracks no fitness of its own",
 "In every history of a pool its own fitness history stays empty, so its progress is 0 and a min_progress_condition on a pool fires as soon as the minimum number of steps is reached, however much the members improved.",
 "every history of calls of a pool",
 "invariant over all histories",
 ["spot/optimizer_pool.cpp:internal_step","spot/optimizer.cpp:progress","spot/stop_condition.h:min_progress_condition"])
p("A pool leaves a member alone while it runs",
 "With concurrent_optimizations <= 1 the pool never reads or writes a member whose step is still executing in another thread. With more (the default) it can: it reads the best member's current fitnesses, and writes prediction targets, while that member runs.",
 "every interleaving of member threads and the pool thread",
 "a schedule property; a race rarely shows in a test",
 ["spot/optimizer_pool.cpp:internal_step"])
p("The pool steps the most promising members",
 "When the queue is empty, members are selected by priority: of the members that have not stopped the first max active ones count, with their predicted fitness once they have prediction_start steps and the best possible fitness before; all others get the worst. No left-out member has a better priority than a selected one; at least concurrent_optimizations are selected unless the next in the order has stopped; more only among equal priorities.",
 "every pool state, prediction and order of equal predictions",
 "unbounded pool sizes and orders",
 ["spot/optimizer_pool.cpp:internal_step","spot/optimizer_pool.cpp:compute_predicted_fitnesses"])
p("MES and EVA steps always complete",
 "With lambda >= 1 and 0 <= mu <= lambda, a MES or EVA optimizer never reads out of bounds: from every reachable state the next internal step has a result (sorting is assumed to return some order; with NaN results see C91), which is a failure exactly if an evaluation failed.",
 "every run, objective (with failures), distribution and random stream",
 "totality over all reachable states",
 ["spot/mes_optimizer.cpp:internal_step","spot/eva_optimizer.cpp:internal_step","spot/optimizer.cpp:evaluate_step"])
p("The CMA seed sequence has full period",
 "From every seed in 1..2^31-2, the generator's seed recurrence visits every one of the 2^31-2 non-zero residues exactly once before it repeats.",
 "every seed and every residue",
 "2^31-2 states from each of 2^31-2 seeds",
 ["spot/cma_optimizer.cpp:cmaes_random_Uniform"])
p("A new optimizer starts from the objective's distribution",
 "A new MES, EVA or CMA optimizer has current_mean equal to the parameter means and, in exact arithmetic, current_std equal to the parameter stds, with no covariance between parameters (CMA needs one std to be positive). Each MES offspring coordinate is the mean plus the momentum scaled by one draw shared by the whole offspring, plus a draw scaled by sqrt(variance + momentum^2), clamped to the bounds. Without options the draw for the momentum has mean and standard deviation 1, and all update rates are 0.2.",
 "every objective info, distribution, configuration and random stream",
 "every distribution and random stream",
 ["spot/evo_optimizer.cpp:evo_optimizer","spot/mes_optimizer.cpp:sample_population","spot/cma_optimizer.cpp:cma_optimizer"])
p("CMA steps always complete",
 "With two or more individuals the CMA constructor succeeds, even for an objective without parameters, unless the lower and upper bound of a parameter are equal, and then it throws. From every reachable state a CMA step, provided its eigenvalue decomposition returns, has a result: it evaluates lambda points, and it fails exactly if an evaluation failed; runs of any length exist if the objective has a parameter, and no step completes if it has none. The loop by which the constructor computes the machine precision ends in floating point (after 53 rounds), but would not in exact arithmetic.",
 "every objective info, objective (with failures), random stream, eigensolver and number of steps",
 "totality over all reachable states",
 ["spot/cma_optimizer.cpp:cma_optimizer","spot/cma_optimizer.cpp:internal_step"])
p("CMA is the published algorithm",
 "In exact arithmetic the parameters are the published defaults of CMA-ES (weights, mueff, cs, damps, ccumcov, ccov, chiN) and every successful update maps mean, step size, both evolution paths and covariance by the published update equations applied to the mu best sampled individuals in order of fitness, with the flat-fitness increase of sigma.",
 "every number of parameters and individuals, every history of sampling and updating, every fitness vector",
 "the equations must hold at every reachable state; a test compares trajectories at a few points with a tolerance",
 ["spot/cma_optimizer.cpp:cmaes_readpara_SupplementDefaults","spot/cma_optimizer.cpp:cmaes_UpdateDistribution","spot/cma_optimizer.cpp:Adapt_C2"])
p("The CMA mean stays within the bounds",
 "In exact arithmetic and without a boundary transformer, a CMA optimizer whose initial mean is within the bounds keeps its mean within the bounds after any history.",
 "every history of sampling and updating, fitness vector and random stream",
 "invariant over all histories",
 ["spot/cma_optimizer.cpp:sample_population","spot/cma_optimizer.cpp:cmaes_UpdateDistribution"])
p("CMA samples the distribution it maintains",
 "In exact arithmetic every CMA individual is mean + sigma * B * D * z with draws z (clamped to the bounds after too many attempts, mapped by the boundary transformer otherwise); if the eigensystem is exact and updated in each generation, C = B D^2 B^T with B orthogonal and D positive at each sampling, and the Mahalanobis distance of an individual is sigma^2 |z|^2.",
 "every history of sampling and updating, fitness vector and random stream",
 "invariant over all histories",
 ["spot/cma_optimizer.cpp:cmaes_SamplePopulation","spot/cma_optimizer.cpp:cmaes_ReSampleSingle","spot/cma_optimizer.cpp:cmaes_UpdateEigensystem"])
p("CMA is invariant under change of origin and unit",
 "In exact arithmetic, if mean, stds, bounds and boundary transformer are transported by x -> a x + t with a > 0 and the objective is transported too, CMA visits the transported points: mean a m + t, std a s, sigma a sigma, the same covariance, and each individual is the transported one.",
 "every scale, offset, history and random stream",
 "a relation between two unbounded runs",
 ["spot/cma_optimizer.cpp:cmaes_UpdateDistribution","spot/cma_optimizer.cpp:sample_population"])
p("history.txt has one line per completed step", "When the fitness history is enabled and the file reporter is attached before the first step, history.txt holds a header followed by exactly one line per completed step, in order of the steps and numbered by them, for any mix of failed and completed steps; split at the tabs, header and lines give the columns (step, best and median fitness, with a tracking window prediction and progress, with parameter history the values of the best point and the state), and the lines have as many columns as the header as long as the tracking window is not switched on or off in between.", "every call history of an optimizer, any position at which the reporter is attached", "unbounded histories; failed first steps re-open the file", ["spot/file_reporter.cpp:on_start", "spot/file_reporter.cpp:on_post_step"])
p("Fitness of a data objective is the mean squared error", "Evaluating a data_objective returns in exact arithmetic the mean of the squared differences between model and data; it is never negative and zero exactly if the model reproduces every data point.", "every data set that is not empty and every model", "unbounded data, uncountable domain", ["spot/data_objective.h:evaluate"])
p("The eigenvalue decomposition of CMA ends and is accurate", "In exact arithmetic sample_population returns for every covariance matrix: the eigenvalue decomposition ends without leaving its arrays. The eigenvectors are orthonormal, the eigenvalues ascend, and eigenvalue equation and quadratic form are met up to 7 n eps |C| with eps = 2.22e-16; if the condition number of C is below 1 / (7 n eps) all axis lengths are positive and the distribution sampled from differs from the maintained one by no more than that.", "every dimension (up to 10^14 for the accuracy), symmetric matrix, state of the optimizer and random stream", "termination of an iteration and an error bound for an uncountable set of matrices of every size", ["spot/cma_optimizer.cpp:Eigen", "spot/cma_optimizer.cpp:Householder2", "spot/cma_optimizer.cpp:QLalgo2", "spot/cma_optimizer.cpp:myhypot", "spot/cma_optimizer.cpp:cmaes_UpdateEigensystem"])
p("NaN in the distribution makes CMA leave its arrays", "If an element of the mean of a CMA distribution is NaN when it is updated, or if all standard deviations of the objective are 0 (which its parameters accept as valid) or all are positive but at most 1.1e-162, the next eigenvalue decomposition accesses memory outside of its arrays, whatever the fitnesses and random numbers are.", "every dimension from 2 on, every state with such a mean, every objective with zero standard deviations, fitness vector and random stream", "a sandboxed test sees one memory layout; the claim is about every matrix containing a NaN in its last row", ["spot/cma_optimizer.cpp:QLalgo2", "spot/cma_optimizer.cpp:cmaes_init_final", "spot/cma_optimizer.cpp:sample_population", "spot/par_info.h:is_valid"])
p("The Gaussian generator of CMA always returns", "Seeded with a positive number, the generator of normally distributed numbers of CMA returns after finitely many draws at each of any number of successive calls (in floating-point and in exact arithmetic), the sequence is determined by the seed, a call rejects fewer than 2^30 - 1 pairs, and in exact arithmetic no number is larger in magnitude than sqrt(85). All that is proved of CMA for every source of Gaussian numbers holds for this one.", "every seed, every number of calls, every regular state", "termination of a rejection loop for every state of a generator with period 2^31-2", ["spot/cma_optimizer.cpp:cmaes_random_Gauss", "spot/cma_optimizer.cpp:cmaes_random_Uniform", "spot/cma_optimizer.cpp:cmaes_random_Start"])
p("What predicted_fitness predicts", "If tracking is on from the first step, the best fitnesses of the completed steps are on a line and the regression is exact, then predicted_fitness(k) is the fitness that line has k steps after the next one. If tracking is switched on only after s0 completed steps, the prediction is that of a step s0 steps later.", "every call history with at least two tracked steps, every window from 2 on, every line and k", "unbounded histories", ["spot/optimizer.cpp:predicted_fitness", "spot/optimizer.cpp:fitness_trend", "spot/optimizer.cpp:set_fitness_tracking_window_size"])
p("An optimizer can be restarted from its updated objective info", "make_updated_objective_info returns after every run the parameters of the objective, with their names and bounds, and the current mean and std. An optimizer constructed from it starts with the mean of the old one (MES, EVA: exactly; CMA: as transformed by its boundary transformer), with its std up to rounding, and without momentum or correlations. With a boundary transformer CMA transforms that mean a second time, which moves a mean close to a bound away from it.", "every run, configuration, objective and random stream", "unbounded runs", ["spot/mes_optimizer.cpp:make_updated_objective_info", "spot/eva_optimizer.cpp:make_updated_objective_info", "spot/cma_optimizer.cpp:make_updated_objective_info", "spot/cma_optimizer.cpp:current_mean"])
p("State columns of MES and EVA match their labels", "optimizer_state_labels and optimizer_state_values of MES and EVA have the same length; the value at the position of label p.mean, p.std, p.mom (MES) or p.ev (EVA) is the mean, standard deviation and momentum of parameter p; labels are distinct if the names are.", "every objective info and state", "every number and naming of parameters", ["spot/mes_optimizer.cpp:optimizer_state_labels", "spot/mes_optimizer.cpp:optimizer_state_values", "spot/eva_optimizer.cpp:optimizer_state_labels", "spot/eva_optimizer.cpp:optimizer_state_values"])
p("Vectors, pairs and arrays of parameters", "try_get_par for a vector whose elements are not references registers the same parameters and returns the same vector whatever order of evaluation the compiler chooses (only the order of the parameters differs); once registered, every search point that knows the names returns the vector with every order and is not changed. A missing pair is its default, a pair node with fewer than two values throws, otherwise name.0 and name.1 are requested in order; an array has the size of its default and elements missing in the node keep the default, at registration and evaluation alike. If an element refers to another element, registration may fail or succeed depending on the order of evaluation.", "every objective info, search point, prefix, option, node and order of evaluation", "the order of evaluation is unspecified in C++, a test sees one compiler", ["spot/par_tools.h:try_get_par"])
p("When a similarity condition is met", "With CMA, a similarity_condition is met exactly when min_steps steps were completed and one of its points is closer than min_distance to the best point of the last step, and similar_idx is the first such point; with another optimizer it throws. The distance it uses depends on the unit of the parameters, is NaN if a std is 0 where the points agree, and a negative min_steps disables the condition.", "every history of an optimizer, every list of points", "unbounded histories", ["spot/stop_condition.cpp:similarity_condition", "spot/math_tools.cpp:normalized_distance"])
p("The objectives that come with the library", "The make_*_objective functions succeed in every dimension with the documented ranges and valid, uniquely named parameters; the documented optima are feasible and evaluate to exactly 0 in floating-point arithmetic; make_objectives returns four objectives per dimension in order; sphere and ellipsoid throw for an invalid mean or std. A data_objective with default ranges is valid and throws at points of another size.", "every dimension, mean and std", "every dimension", ["spot/test_objectives.cpp:make_sphere_objective", "spot/test_objectives.cpp:make_objectives", "spot/function_objective.h:function_objective", "spot/data_objective.h:data_model"])
p("Sorting individuals is defined without NaN", "std::sort requires a strict weak order. is_better is one on a set of fitnesses if and only if no fitness is NaN or all others are equal. MES and EVA sort exactly what the objective returned, so sorting is defined if the objective returns no NaN; a NaN together with two different numbers makes the call to std::sort undefined.",
  "every list of fitnesses, minimizing or maximizing; every step of every run", "the precondition of std::sort for all values",
  ["spot/mes_optimizer.cpp:internal_step", "spot/eva_optimizer.cpp:internal_step", "spot/objective_info.h:is_better", "spot/optimizer_pool.cpp:internal_step"])
p("What the console reporter shows", "Each step makes the console reporter print exactly: a header with the number of parameters if no step has been completed yet, the step number, and, unless the step fails, average and median of the fitnesses and the best fitness if it improved; then a new line (improvement and newline_best) or a carriage return; and the message of a stop condition that is met for the first time, with the time since the last header. With newline_best, every improvement can be read on the terminal from then on, in a line of its own and in order. Without it, a step that does not improve can be shown with the best fitness of the step before.",
  "every history of calls, population, results, time, and point at which the reporter is added", "all sequences of callbacks; contents of the terminal after overwriting",
  ["spot/console_reporter.cpp:on_post_evaluate_population", "spot/console_reporter.cpp:on_start", "spot/console_reporter.cpp:on_pre_step", "spot/console_reporter.cpp:on_stop"])
p("Error messages of failed evaluations are reported", "A step fails if and only if more evaluations fail than are allowed; then the error condition states how many failed, out of how many, and how many are allowed, and lists each message of a failed evaluation exactly once in alphabetical order. After every history of calls the error condition is set if and only if a step has failed, and its message is that of the last step that failed.",
  "every history of calls, population, results and messages", "all combinations of failing evaluations",
  ["spot/optimizer.cpp:verify_results", "spot/stop_condition.h:error_condition"])
p("MES and EVA settle where the selected individuals are", "In exact arithmetic, as long as the average of the selected individuals is one point m, the EVA mean (and the MES mean without momentum) approaches m by the factor 1 - step_size per generation, and the MES mean with momentum converges to m with the momentum converging to 0, under a condition on the rates that the defaults meet. If all selected individuals are m, all standard deviations converge to 0.",
  "every start, every sequence of populations with such a selection, every dimension and all rates in the stated range", "limits of infinite runs",
  ["spot/mes_optimizer.cpp:update_distribution", "spot/eva_optimizer.cpp:update_distribution", "spot/math_tools.h:update"])
p("A search point follows its objective_info", "A search_point refers to its objective_info. If parameters are requested on the objective_info after the point was made, the point still answers with its own values for the parameters it was made for, and a request for an added parameter reads outside of its values. If parameters are locked by a file, it answers for a parameter that stays free with the value stored at the parameter's new index: with the value of another parameter whenever a parameter before it was locked.",
  "every objective_info, every sequence of requests, every file", "all interleavings of requests and imports",
  ["spot/search_point.h:info_", "spot/search_point.cpp:try_get", "spot/objective_info.cpp:import_locked", "spot/objective_info.cpp:add"])
p("A model runs on saved parameters like on the optimized point",
  "A model that runs on an objective_info runs on an empty static_par_set with the same values, which the set stores. A static_par_set loaded from the file of a search_point gives each free parameter the value of the point; if no parameter is locked, a model that runs on the point runs on the set with exactly the same values and leaves it unchanged. Requests never change a value the set has, and a model that ran once can be run again without changing the set. Locked parameters are not in the file: the model then runs with their default, without an error. A null_objective_info answers with the mean and throws for every reference.",
  "every model (nested sequence of requests), objective_info, search point and set of values",
  "tests check one model with one file; the claim compares whole runs of all models on three implementations of the same interface",
  ["spot/static_par_set.cpp: load, try_get, add", "spot/par_io.cpp: get", "spot/par_io.h: null_objective_info", "spot/search_point.cpp: operator<<"])
p("A pool of optimizers with step limits ends",
  "If every optimizer in a pool has a max_steps_condition of at most N steps, no member is ever stepped more than N times in the life of the pool and no member gets beyond N steps, although members are selected some time before they are stepped. If the pool may step members at all and what is predicted for members that have not stopped is better than the worst fitness (or predictions start at N steps or later), then counted from any moment at most N times the number of members steps of the pool return null. Without that condition a pool can run forever: predictions that are not numbers can make every further step do nothing.",
  "every configuration, number of members, history of the pool, schedule of the member threads, evaluation results, failures and interrupts, and every order of equal predictions",
  "termination for all schedules and histories; a test can only observe that one run ended",
  ["spot/optimizer_pool.cpp: internal_step, compute_predicted_fitnesses, pool_stop_condition", "spot/stop_condition.cpp: max_steps_condition", "spot/optimizer.cpp: step, run"])
p("A step of a pool always completes",
  "Whatever the schedule of the member threads and interrupts, a step of a pool cannot deadlock: as long as a thread is running or a future has not been looked at, something can happen, and everything except an interrupt brings the step closer to its end, of which at most 2 * concurrent_optimizations happen. When it has ended, an exception leaves the step exactly if the step of a member threw one.",
  "every reachable pool, selection, schedule, interrupt and behaviour of the members short of undefined behaviour",
  "deadlock freedom and loss of exceptions concern all interleavings",
  ["spot/optimizer_pool.cpp: internal_step, push_back"])
p("The seed a CMA optimizer reports identifies its random numbers",
  "Whatever the random_seed option, the random device and the clock are, random_seed() of a CMA optimizer with at least one parameter is between 1 and 2000000000, and an optimizer constructed with that number as option has the same generator, the same strategy parameters and, on the same objective, evaluates the same populations step after step. Options from 1 to 2000000000 are used and reported as they are. Optimizers that report different seeds draw different sequences of random numbers, and the names of two optimizers for one objective are equal exactly if their seeds are. Options outside of that range are reduced: multiples of 2^32 use the clock, and different options can give the same optimizer.",
  "every option, random device, clock, objective and number of steps",
  "all seeds and unbounded sequences of random numbers",
  ["spot/cma_optimizer.cpp: cma_optimizer::cma_optimizer, random_seed, cmaes_init, cmaes_random_Start", "spot/cma_optimizer.h: cma_options"])
p("A pool stops the members that are predicted to fail",
  "If a pool uses use_predicted_fitness_stop_condition and optimizers without such a condition of their own are added before its first step, then after any use of the pool each member has exactly one predicted fitness condition, with the look-ahead and start of the pool, and its target is the best fitness of the pool (the worst possible fitness before a member was stepped). Hence a member that has made prediction_start steps or more and does not stop is predicted to become better than the pool. Optimizers added later have the worst possible fitness as target until the next improvement. If an optimizer has a predicted fitness condition of its own, the pool changes the target of that one and leaves its own condition without effect.",
  "every configuration, number of members, history of the pool, schedule of the member threads, evaluation results and interrupts",
  "a statement about all histories and schedules of the pool",
  ["spot/optimizer_pool.cpp: push_back, internal_step", "spot/stop_condition.cpp: predicted_fitness_condition", "spot/optimizer.h: find_stop_condition"])
p("Integer and boolean parameters",
  "A parameter requested as an int has the value of the parameter without its fraction; that is monotone, and defined unless the value is not a number or outside of the range of int. The type of a request makes no difference to what is registered, and defaults are returned unchanged. An int parameter requested with mean, std and bounds of up to 8 digits returns the mean on the objective_info and on the initial search point, and an int within the bounds on every search point made from values within the bounds. A bool is false exactly for 0. An array of ints is the array of doubles with each element converted. The positive upper bound is returned only if the value is exactly the upper bound; without bounds, points within the default bounds have undefined behaviour; means of more than 8 digits change.",
  "every value, request, objective_info, search point, array size and configuration",
  "all values of a double, including those at the edges of the range and of the rounding",
  ["spot/par_tools.h: try_get_par, INIT_PAR", "spot/search_point.cpp: rounded"])
p("find_stop_condition returns the first condition of its class",
  "After any sequence of calls, steps and assignments to conditions, the stop conditions of an optimizer are those of its constructor followed by the added ones in order; find_stop_condition returns the first of its class and throws exactly if there is none. Assigning to the condition found changes that condition and nothing else. Adding a flat fitness, target fitness or maximum steps condition that is no stricter than one the optimizer has makes no difference to anything the optimizer shows, in any history, except for the condition reported. In particular a flat fitness tolerance of 1e-9 or less added to a MES, EVA or CMA optimizer has no effect; the one to change is found with find_stop_condition.",
  "every history of calls, populations, results, failures, interrupts and assignments",
  "a statement that compares two optimizers over all histories",
  ["spot/optimizer.h: find_stop_condition", "spot/optimizer.cpp: add_stop_condition, test_stop_conditions", "spot/stop_condition.cpp: test", "spot/mes_optimizer.cpp: mes_optimizer", "spot/eva_optimizer.cpp: eva_optimizer"])
p("CMA variances and step size are never negative in floating point",
 "In floating-point arithmetic, for every number of individuals that fits an int, the recombination weights of CMA lie in [0,1] and do not increase with the rank, and mueff is at least 1. After any sequence of sample_population and update_distribution calls, with any fitnesses (including NaN and infinities), the step size, the variances and current_std are never negative, so no square root of a negative number is taken by current_std. Assumes of the C library only that exp and sqrt do not return negative numbers, that log does not decrease, and its values at 1, 2 and 3 to two digits.",
 "all numbers of individuals, dimensions, starts (including NaN), fitness sequences, random numbers, eigenvalue decompositions",
 "Rounding errors accumulate over unboundedly many updates; a sign error appears only for particular roundings.",
 ["spot/cma_optimizer.cpp:cmaes_readpara_SetWeights", "spot/cma_optimizer.cpp:Adapt_C2", "spot/cma_optimizer.cpp:cmaes_UpdateDistribution", "spot/cma_optimizer.cpp:current_std"])
p("Evaluators serve in order of arrival",
  "The pooled evaluator is first-in first-out: a call of evaluate enters its points in the queue all at once and in order, calls keep the order in which they entered, and later calls never push in. When the evaluation of a point begins, at most (number of worker threads - 1) of the points that came before it - of earlier calls, or earlier in the same call - have not begun. With one worker thread evaluations begin exactly in the order of arrival. The same bound holds for the points of one call of the async evaluator. The priority argument of evaluate has no influence.",
  "every number of threads, every number of concurrent calls with any points, every change of the number of threads, every schedule including spurious wake-ups",
  "the order depends on the interleaving of workers and callers; a test sees some schedules only",
  ["spot/pooled_evaluator.cpp: evaluate, thread_func", "spot/async_evaluator.cpp: evaluate"])
p("The par files of an optimizer pool hold the announced best points", "A file reporter added to an optimizer pool, whose members were all added before their first step, handles every callback. Whenever the pool announces a new best, the best point and best fitness of the current step that the pool's getters return to the reporter are the announced ones (unless the announced fitness is the worst possible one). As long as the files of the announced bests have different names, which is always so with concurrent_optimizations of 1, the files of the first and the most recent announced best exist, and hold the announced point. With concurrent optimizations two bests of one step can have the same file name, and the file of the best point can then be deleted right after it was written.", "all histories of a pool (members, members added later, stop conditions, interrupts, all orders in which the steps of the members end), all objective values, all reporter settings", "Which member is the best one when the reporter asks depends on all fitnesses found so far and on the order in which steps end; a test covers one history.", ["spot/optimizer_pool.cpp: internal_step", "spot/optimizer_pool.h: current_step_best_point, current_step_best_fitness", "spot/file_reporter.cpp: on_new_best, write_par_file"])
p("Complete optimizations with MES, EVA and CMA",
  "For MES, EVA and CMA and every sequence of calls (step, run, interrupt, add_stop_condition, test_stop_conditions, add_reporter, set_...): each step evaluates a population within the bounds and everything the optimizer shows (best fitness, step count, stop condition, callbacks) is what the documented bookkeeping gives for the populations and results of these steps. best_point was evaluated in a completed step, lies within the bounds and objective(best_point) is best_fitness; no point of a completed step is better. run(n) can be made in every state that is reached; it makes exactly n steps and returns null if no stop condition holds then, or returns after at most n steps the stop condition there already was or the first that holds after the last step; with max_steps_condition(m) even run(0) makes at most as many steps as are missing to m (at least one), also if evaluations fail.",
  "all objectives with valid parameter infos (any bounds, failing evaluations), random numbers, lambda and mu in range, eigenvalue decompositions, boundary transformers, sequences of calls and n",
  "the algorithms and the bookkeeping are separate parts; that no interleaving of calls, failures and interrupts breaks what their combination shows needs an induction over histories",
  ["spot/optimizer.cpp:step", "spot/optimizer.cpp:run", "spot/optimizer.cpp:evaluate_step", "spot/mes_optimizer.cpp:internal_step", "spot/eva_optimizer.cpp:internal_step", "spot/cma_optimizer.cpp:internal_step"])
p("Vectors of other sizes, objectives without parameters",
  "An optimizer of an objective without parameters throws from step() and run(), always, and remains as it was. Constructing a search point from a vector, search_point::set_values and objective_info::set_mean_std accept exactly the vectors with one value per parameter; for every other size they fail an assertion and do nothing sensible. is_feasible and clamp do not check: they ignore values after the last parameter (clamp leaves them unchanged), and with too few values they access the vector out of bounds, except that is_feasible returns false if it meets an infeasible value first. Requesting a parameter from a prop node when no options are active fails an assertion.",
  "all infos, points, vectors of any length, optimizers in any state", "The sizes and the states are unbounded, and failing assertions are undefined behaviour in release builds that tests do not observe.",
  ["spot/optimizer.cpp:step", "spot/optimizer.cpp:run", "spot/search_point.cpp:search_point", "spot/search_point.cpp:set_values", "spot/objective_info.cpp:set_mean_std", "spot/objective_info.cpp:is_feasible", "spot/objective_info.cpp:clamp", "spot/par_io.cpp:try_get_par"])
p("Complete optimizations with a pool",
  "However a pool of optimizers of one objective is used - any number of members, MES, EVA and CMA in any mixture, steps with any schedule of the member threads and any selection, members and conditions added in between, interrupts - once a member has been stepped, best_fitness() of the pool is at least as good as the fitness of every point of every completed step of any member, and best_point() is a point that a member evaluated in a completed step, within the bounds, whose objective value is best_fitness() (or nothing was better than the worst fitness and it is the initial point). run(n) of a pool makes at most n steps (run(0): 2^64 - 1), each of which counts as one in current_step(), returns what the last step returned, makes exactly one step if the pool had stopped before, and - if all members have a step limit of at most N and predictions start no earlier - returns a stop condition within N times the number of members plus one steps.",
  "all objectives that do not return NaN, pools, members, schedules, selections, histories of calls and numbers of steps",
  "the order in which member threads run and finish and the random numbers differ from run to run; a test sees one schedule of one optimization",
  ["spot/optimizer_pool.cpp: optimizer_pool::internal_step, optimizer_pool::best_point, optimizer_pool::best_fitness", "spot/optimizer.cpp: optimizer::run, optimizer::step", "spot/optimizer_pool.h: optimizer_pool::push_back"])
p("The files of an optimization reproduce its result",
  "After any history of an optimizer with a file reporter that has heard of a new best, the par file of the newest best exists and every reader gets the optimizer's best point from it exactly: import_values of a point over the same parameter names, static parameters looked up by name, and import_mean_std, which keeps the parameters, bounds and locked parameters of the objective and continues from the best point (use_best_as_mean) or the updated means with the updated standard deviations (8 digits), without locking any parameter. With a reporter attached from the start of a MES, EVA or CMA session this is a point that was evaluated, lies within the bounds and has the reported best fitness, unless no fitness was better than the worst there is. For a pool the file of the last announced best gives the announced point, if the file names of the bests differ.",
  "every history of calls and every position of the reporter in it, every objective function that never returns NaN, every run of the algorithms, every double precision value of points, means and nonzero standard deviations",
  "round trip through text for all doubles combined with unbounded histories, file removal and failed evaluations",
  ["spot/file_reporter.cpp:write_par_file", "spot/file_reporter.cpp:on_new_best", "spot/search_point.cpp:operator<<", "spot/search_point.cpp:import_values", "spot/objective_info.cpp:import_mean_std", "spot/static_par_set.cpp"])
p("A pool continues from its best member; pools in pools need stepped members",
  "After any history of a pool, make_updated_objective_info is that of one of the members that have been stepped, which has the pool's best fitness and best point, and than which no stepped member is better; before a member has been stepped it fails an assertion. A pool of which a member is itself a pool that has not been stepped can not fill its queue: composing the status text asks that member for its best fitness, which fails an assertion; optimizers and pools that have been stepped are asked without failure.",
  "every history of a pool (steps with any schedule of the member threads, new members, conditions, interrupts), any members",
  "the best member depends on the interleaving and on the whole history; a test of a nested pool that happens to have been stepped does not see the assertion",
  ["spot/optimizer_pool.cpp:make_updated_objective_info", "spot/optimizer_pool.cpp:internal_step", "spot/optimizer_pool.h:best_optimizer"])
p("The values of a point from any file",
  "import_values of a search_point, and its constructor from a file, with any file whatsoever: a parameter gets the value of the last record with its name and keeps its value (in the constructor: the mean at 8 digits) if there is none; records that name no free parameter, including locked ones, are counted as skipped and set + skipped is the number of records taken; the records taken are those before the first malformed one, except one at the very end of the file that is not followed by any character; an unreadable or empty file throws and changes nothing.",
  "every file content, every point, every number reader",
  "files are arbitrary texts: repeated, missing, unknown and malformed records in any order and layout",
  ["spot/search_point.cpp:import_values", "spot/search_point.cpp:search_point(objective_info, path)", "spot/objective_info.h:find_index"])
p("cma_optimizer computes what the reference CMA-ES computes",
 "Started with the same seed (other than 0), population size, mean and standard deviations, cma_optimizer and the reference implementation in spot_test/c-cmaes/cmaes.c give the same numbers, not approximately: the same random numbers, strategy parameters, eigenvalue decomposition, and after every sequence of sample_population and update_distribution calls the same population, mean, step size and covariance matrix; so a cma_optimizer evaluates in every step the population that the reference implementation samples for the same objective, and its best fitness is the best function value of the reference implementation (if no value is NaN; worst_fitness if that is better). They differ only in three respects: the reference implementation does not decompose the covariance matrix as long as eigensystems take more than a fifth of the CPU time, accepts function values before a population was sampled, and the optimizer evaluates points rounded to 8 digits, resampled or clamped to the bounds.",
 "every dimension, seed, population size, start, objective, bounds, transformer, and every number and order of calls; exact arithmetic and doubles",
 "A test compares some generations for one objective and seed; equality must hold for every objective and number of generations, and one different operation shows only after the rankings differ.",
 ["spot_test/c-cmaes/cmaes.c:cmaes_SamplePopulation, cmaes_UpdateDistribution, Adapt_C2, Eigen, cmaes_random_Gauss, cmaes_readpara_SupplementDefaults","spot_test/cma_optimizer_test.cpp:cma_optimizer_test","spot/cma_optimizer.cpp:cma_optimizer"])
p("cmaes_boundary_transformer computes what the reference boundary transformation computes", "For the same bounds, cmaes_boundary_transformer::apply and cmaes_boundary_transformation of the reference implementation compute the same vector, in doubles and in exact arithmetic: the C++ class transforms without a message if and only if the reference implementation returns, and to the same values; where the C++ class logs a message and leaves the value as it is, the reference implementation ends the program. Both reject equal bounds; a lower bound above the upper bound is rejected by the C++ class only. In exact arithmetic the promises of the header hold: what is returned is within the bounds and is left alone by the inverse transformation followed by the transformation. Of fewer bounds than variables the reference uses the last for the others; without bounds it leaves all doubles between -1e306 and 1e306 as they are.", "every number of variables, all bounds, all vectors, and every earlier content of the output array", "the two programs have to agree on every vector and every combination of bounds, including values many periods away from the bounds; tests compare them on a few", ["spot_test/c-cmaes/boundary_transformation.c:cmaes_boundary_transformation", "spot_test/c-cmaes/boundary_transformation.c:cmaes_boundary_transformation_init", "spot_test/c-cmaes/boundary_transformation.c:cmaes_boundary_transformation_inverse", "spot/boundary_transformer.cpp:cmaes_boundary_transformer::apply"])
p("Optimizers sharing an evaluator", "Any number of optimizers, each in its own thread, may share one evaluator. Whatever the schedule, what each of them does (populations asked for, states, what run returns, best fitness) is something it can do alone with a sequential evaluator, even if the number of threads is changed meanwhile or optimizers are interrupted at any time: an interrupted one returns a stop condition after its current step, without an effect on the others; for a deterministic objective a CMA optimizer that is not interrupted ends in exactly the state it reaches alone. With a pooled evaluator of at least one thread nobody waits for ever: if each optimizer makes at most K steps with populations of at most L points, all have returned after at most 3n + J*K*(6L+3n+6) steps of all threads (J optimizers, n worker threads) plus three per spurious wake-up.", "every number of optimizers, every class and configuration, every deterministic (for the refinement: every) objective including failing ones, every number of threads, every schedule, every spurious wake-up and all times of interrupts", "spot_test/evaluator_test.cpp runs twenty optimizers with one schedule and compares one fitness; results of one call decide the next population, so schedules multiply over whole runs", ["spot/pooled_evaluator.cpp:evaluate", "spot/pooled_evaluator.cpp:thread_func", "spot/async_evaluator.cpp:evaluate", "spot/batch_evaluator.cpp:evaluate", "spot/optimizer.cpp:run", "spot_test/evaluator_test.cpp:evaluator_test"])
p("Crashes and failing writes", "If the process dies while a file reporter is working, at any moment and with any part of the output still in buffers, the folder still has a complete par file of the newest best announced before, or, if that one was removed by the cleanup, the complete file of the best that is just being announced; the file of the first best is complete; and the files of all other bests are as they were before the callback. Once there is a newer best, the file of a best is never touched again, even if later writes fail. In history.txt at most the lines of the last nine completed steps are missing, and none once the optimizer has reported that it stopped. A cut par file is read without an error: import_values sets the complete lines and leaves the rest.", "every history of an optimizer, every callback in it, every point in the sequence of file operations of the callback, every way in which the output is split into writes, and (second part) every failure of a write", "a test cannot kill the process between any two file operations of any callback", ["spot/file_reporter.cpp:write_par_file", "spot/file_reporter.cpp:on_post_step", "spot/file_reporter.cpp:on_stop", "spot/file_reporter.cpp:on_pre_evaluate_population", "spot/search_point.cpp:operator<<", "spot/search_point.cpp:import_values", "spot/objective_info.cpp:import_mean_std"])
p("MES and EVA are invariant under change of origin, not of unit",
  "Apart from rounding, moving the origin of the parameters (means, bounds and objective alike) moves every point MES and EVA evaluate and the mean they report, and leaves the standard deviations as they are. Another unit, the same for all parameters, scales the search if the threshold below which momentum is ignored is converted too. With the fixed threshold of the code the search depends on the unit, and the unit of one parameter influences the standard deviations of the others.",
  "all objectives, dimensions, options, bounds, initial distributions, generators of normal numbers, numbers of generations; units for which the search differs: all",
  "Two searches in different coordinates are compared, for all objectives and any number of generations.",
  ["spot/mes_optimizer.cpp", "spot/eva_optimizer.cpp", "spot/math_tools.h:projected"])
p("Pools of pools",
  "An optimizer_pool may have pools as members, and these may have pools again, to any depth. After any history of calls and any schedule of the threads in which a step of a member has ended, best_fitness() and best_point() of the outermost pool are those of one optimizer at some depth that was stepped, and no stepped optimizer at any depth has a better best fitness; the best never gets worse; before that the getters fail an assertion. interrupt() reaches every optimizer at every depth, and from then on the pool has a stop condition. A pool that was not interrupted stops by itself exactly when every member, optimizer or pool, has a stop condition. But: an inner pool has no fitness history, so that its predicted fitness is always 0, whatever it finds, and the outer pool ranks it (and, with use_predicted_fitness, stops it) by this number; and an inner pool that has not been stepped makes the step of the outer pool fail an assertion.",
  "all depths, all shapes of the tree of pools, configurations, histories of calls, schedules of the member threads, results of evaluations",
  "The statement is about trees of any depth and all interleavings of the steps of their members; a test fixes one tree and one schedule.",
  ["spot/optimizer_pool.h", "spot/optimizer_pool.cpp:push_back", "spot/optimizer_pool.cpp:internal_step", "spot/optimizer_pool.cpp:interrupt", "spot/optimizer_pool.cpp:compute_predicted_fitnesses", "spot/optimizer.cpp:predicted_fitness"])
p("The sign of a zero makes no difference",
  "In IEEE arithmetic with both zeros, a run of MES or EVA (any number of generations) evaluates, apart from the signs of zeros, exactly the points that it evaluates in an arithmetic with a single zero, and conversely, provided the objective gives the same value to points that differ only in the signs of zeros. So two runs whose initial distributions, limits or options differ only in signs of zeros evaluate the same points up to the signs of zeros and leave the random engine in the same state. A negative zero written to a file is read back as a negative zero. (1 / 0 and 1 / -0 are different: what the claim needs is that the algorithms never divide by zero.)",
  "all objectives that do not look at the sign of a zero, dimensions, options, limits, initial distributions, generators of normal numbers, numbers of generations; all finite numbers written",
  "A test would have to try every place where a zero can occur in every computation; the statement is about all runs.",
  ["spot/mes_optimizer.cpp", "spot/eva_optimizer.cpp", "spot/math_tools.h:projected", "spot/mes_optimizer.cpp:sample_parameter", "spot/search_point.cpp:rounded"])
p("An optimization that was killed can be continued from its files",
  "If the process dies at any moment while an optimizer with a file reporter is running, with any part of the output still in buffers, and a new best had been announced before, then the folder contains a complete par file from which every reader (import_values, static parameters, import_mean_std with and without use_best_as_mean) gets exactly a point that was announced as a new best, and no best announced before the crash is better than it. For MES, EVA and CMA this point was evaluated, is within the bounds and has the fitness announced for it.",
  "every history of calls, every callback of it, every point in its file operations, every way in which the output is split into writes, every objective function that never returns NaN",
  "The crash can happen between any two file operations of any callback of any history.",
  ["spot/file_reporter.cpp:write_par_file", "spot/file_reporter.cpp:on_new_best", "spot/search_point.cpp:operator<<", "spot/objective_info.cpp:import_mean_std", "spot/optimizer.cpp:evaluate_step"])
p("A pool whose members share an evaluator",
  "The members of a pool may use the same pooled_evaluator, which other threads may use too. Whatever all these threads do at whatever times, every call of the pool has an effect that it could have if its members evaluated their points alone: each member gets for each of its points what the objective yields for it. So after any calls best_fitness() is not worse than any value the objective has for a point of a population without failures, and it is the value at best_point(). No step of the pool waits for ever: at any moment one of its threads or one of the evaluator's can go on, the step can come to its end by what they do, and what happens until then is bounded by the populations, the threads and the calls that others make. Conversely the shared evaluator excludes no schedule of the members: every step in which they get what the objective yields is possible.",
  "all objectives (including ones that fail), members, populations, numbers of evaluator threads and of other threads, calls of others, interrupts, schedules of all threads, histories of calls of the pool",
  "Three kinds of threads (the pool's, the evaluator's, others) interleave inside mutexes and condition variables; a test sees one schedule per run.",
  ["spot/optimizer_pool.cpp:internal_step", "spot/optimizer.cpp:evaluate", "spot/pooled_evaluator.cpp:evaluate", "spot/pooled_evaluator.cpp:thread_func"])
p("A pool can be used further after a step of it has ended with an exception",
  "After any sequence of calls of an optimizer_pool, some of whose steps have ended with an exception (thrown by the evaluator or the algorithm of a member and passed on by the future, or by a stop condition): as soon as one member has been looked at, best_fitness() and best_point() are those of a member, and no member that has been looked at and has not been stepped since has a better one; before that the getters fail an assertion. The fitnesses announced by on_new_best get strictly better, and best_fitness() is never worse than one that was announced. The step queue only contains members that exist, and each future can be looked at. A step launches at most concurrent_optimizations members; it looks at a first part of them, at all of them unless it ends with an exception; members it does not launch keep their best; it is counted if it ends without an exception. Without exceptions this is the pool of C117. (Finding: a member that improved in a step that ended with an exception of another member is not looked at; best_fitness() may show its fitness nonetheless, and get worse later.)",
  "all sequences of calls of the pool, all configurations, members, schedules of the threads, exceptions (of any members, in any steps) and interrupts by other threads",
  "Which member throws, when, and which of the others have finished by then are matters of timing; the effect on the best fitness shows only steps later.",
  ["spot/optimizer_pool.cpp:79-139 (internal_step)", "spot/optimizer.cpp:44-65 (step)", "spot/optimizer.h:123-133 (signal_reporters)"])
p("An optimizer can be used further after a step of it has ended with an exception",
  "After any sequence of calls of an optimizer, in some of which the evaluator threw from step() (or the algorithm did before it was called): everything the optimizer shows, its stop conditions and which one was met, what the next calls of step(), run() and test_stop_conditions() return, and the callbacks that tell results (on_new_best, on_post_evaluate_population, on_post_step, on_stop) are as if the steps that threw had not been made; an interrupt during one counts. Such a step sends on_start if no step has been completed yet, on_pre_step, and on_pre_evaluate_population if it got there; on_start may so be sent again, but never after on_post_step. For MES, EVA and CMA, best_fitness and best_point are the solution of the steps that did not throw; the distribution of MES and EVA is updated for the populations of the completed steps only, and CMA makes no other updates. The par files a file_reporter has written, if it does not also write individuals, and which of them it will remove are as if the steps that threw had not been made. So are the lines of its history.txt, of which there is one for every completed step, after one header.",
  "all sequences of calls, all exceptions before results are returned, populations, results, reporters and interrupts; all objectives for MES, EVA and CMA",
  "An exception can leave step() at any time; what is left behind shows only in later steps.",
  ["spot/optimizer.cpp:44-80 (step, run)", "spot/optimizer.cpp:163-168 (evaluate_step)", "spot/mes_optimizer.cpp:139-151 (internal_step)", "spot/eva_optimizer.cpp:133-145 (internal_step)", "spot/cma_optimizer.cpp:1311-1322 (internal_step)"])
p("A pool has the settings it was given",
  "A pool made from a prop_node has, for each of its six settings (prediction_window, prediction_start, prediction_look_ahead, use_predicted_fitness_stop_condition, active_optimizations, concurrent_optimizations), the value given there or its default; if only a window is given, prediction starts after that many steps and looks that many ahead. Other keys make no difference. The constructor throws if and only if one of these settings is given but no value of its type, and uses no setting before it has a value. A new pool has no members and has made no step. A member added to it keeps the fitness of the window asked for (or of the steps its prediction needs, if those are more), gets the stop condition for predicted fitness only if asked for, with the start and the look-ahead asked for, and its other conditions stay; priorities follow the number of active members, the start and the look-ahead asked for; and never more members are stepped at once than asked for.",
  "all prop_nodes (any keys and texts) and conversions of texts to values, all objectives, all members, all histories of a pool",
  "Tests make a pool without settings; that the default of two settings is another setting depends on the order in which members are declared, and which combination of settings is given is open.",
  ["spot/optimizer_pool.cpp:22-34 (optimizer_pool)", "spot/optimizer_pool.cpp:36-44 (push_back)", "spot/optimizer_pool.h:31-47 (data members)", "spot/optimizer_pool.cpp:59-81 (compute_predicted_fitnesses)"])
json.dump
with open('/verif/properties.jsonl','w') as f:
    for x in P: f.write(json.dumps(x)+"\n")
print(len(P))
