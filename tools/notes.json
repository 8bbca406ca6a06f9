{
 "C01": {
  "note": "for every text/child list and every number reader"
 },
 "C02": {
  "note": "over the notation of Spec/ParNotation.lean, every number reader; C02_default: with the default options"
 },
 "C03": {
  "note": "each malformed form throws, except the documented one: an unreadable number after ~ (C03_unreadable_std_accepted, C03_unreadable_std_is_zero)"
 },
 "C04": {
  "note": "constructing an objective_info from a vector of parameters is not checked (C04_vector_constructor_unchecked)"
 },
 "C10": {
  "note": "also proved: the resolved parameter can change between registration and evaluation (C10_resolution_can_change)"
 },
 "C11": {
  "note": "the set_prefix setter restores the text but loses the segment structure under the assumed stack_string::set (C11_setter_loses_segments)"
 },
 "C12": {
  "note": "from the characters of the file to the counts; malformed files too"
 },
 "C14": {
  "note": "proved for every printer/reader pair satisfying PrintsAs, and PrintsAs is proved for models of %.8g and strtod"
 },
 "C16": {
  "note": "findings: rounding happens after clamping, so a bound with more than 8 digits can be exceeded (C16_rounding_leaves_bounds); infinite samples are stored as 0, possibly outside of the bounds (C16_infinite_sample)"
 },
 "C17": {
  "note": "NaN coordinates count as feasible and are not clamped (C17_nan_is_feasible)"
 },
 "C67": {
  "note": "find_best_fitness needs a NaN-free vector (C67_nan_hides_best)"
 },
 "C20": {
  "note": "every history of public calls; NaN fitnesses excluded, with a witness of what goes wrong (C20_nan_hides_best)"
 },
 "C21": {
  "note": "best_point stores rounded values; for points that are already rounded (all search points) it is the point itself"
 },
 "C31": {
  "note": "shrinking the window leaves a stale trend (C31_shrink_stale), under the assumption that circular_deque::reserve keeps the most recent elements"
 },
 "C29": {
  "note": "reporters throw std::exceptions only"
 },
 "C47": {
  "note": "MES, EVA and CMA, whole runs, every random source. Finding: C47_default_stop."
 },
 "C48": {
  "note": "MES, EVA and CMA: populations and distributions of whole runs; complete sessions with stop conditions and reporters (C48_history, C48_session_*), for numerical functions of xo that commute with the change of sign (OptEnv.Odd)."
 },
 "C45": {
  "note": "with momentum (MES default) the mean can leave the bounds: C45_mes_momentum_overshoots"
 },
 "C44": {
  "note": "floating-point: never negative; exact arithmetic: positive; finding: rates above 1 are accepted and give negative variances (C44_rate_above_one)"
 },
 "C43": {
  "note": "NaN draws are returned unchanged (C43_nan_draws)"
 },
 "C49": {
  "note": "Seed 0 is replaced by a clock-derived value that can again be 0 (C49_zero_seed); that Gauss returns is C84"
 },
 "C50": {
  "note": "in exact arithmetic (reals with a logarithm that is strictly increasing); weights strictly decrease except in 'equal' mode"
 },
 "C52": {
  "note": "a NaN fitness ranks as the best individual (C52_nan_ranks_first)"
 },
 "C53": {
  "note": "exact arithmetic; the eigen decomposition is an arbitrary function (not needed for the covariance recursion)"
 },
 "C74": {
  "note": "CMA: with all stds zero the initial covariance divides 0 by 0, hence the hypothesis of one positive std"
 },
 "C75": {
  "note": "findings: a parameter with equal bounds makes the CMA constructor throw, MES and EVA accept it; without parameters the constructor succeeds but no step exists"
 },
 "C78": {
  "note": "C78_eigensystem needs update_eigen_modulo <= 1 and an exact eigensystem; exactEig_exists shows there is one; by default the code may keep B, D for several generations"
 },
 "C82": {
  "note": "exact arithmetic; the iteration is given a number of rounds, and the theorems say that enough rounds exist; n <= 10^14 in the error bounds"
 },
 "C83": {
  "note": "finding; floating-point; C83_zero_std and C83_tiny_std assume sqrt(inf) = inf, no boundary transformer and update_eigen_modulo <= 1"
 },
 "C84": {
  "note": "C84_bounded in exact arithmetic; a seed of 0 with a clock of 0 is the finding C49_zero_seed"
 },
 "C85": {
  "note": "finding C85_late_wrong; the regression is an arbitrary function that is exact on lines (RegExact)"
 },
 "C86": {
  "note": "finding C86_transformed_restart; equality of std up to rounding is stated in exact arithmetic (C86_es_exact, C86_cma_exact)"
 },
 "C87": {
  "note": ""
 },
 "C88": {
  "note": "findings C88_order_matters, C88_alias_only_for_nodes"
 },
 "C89": {
  "note": "findings C89_negative_steps, C89_depends_on_unit, C89_zero_std (assumes sqrt(NaN) = NaN)"
 },
 "C90": {
  "note": "finding C90_underflow; Rastrigin assumes cos(0) = 1, 0 <= pi <= 4 and d < 2^49"
 },
 "C91": {
  "note": "finding: a NaN fitness can make std::sort undefined in MES and EVA (theorem C91_nan_breaks_sorting)"
 },
 "C92": {
  "note": "number formats, average, median, messages and clock are arbitrary functions (formats print no control characters); on_post_evaluate_point is never called, so individual_precision has no effect"
 },
 "C93": {
  "note": "the number of errors and the limit are compared as integers (if xo::count_if returns an unsigned number, a limit below 0 would be compared as a huge one)"
 },
 "C94": {
  "note": "exact arithmetic; for MES with momentum mom_sigma (1 - mean_sigma)^2 < 4 mean_sigma (1 - mom_sigma)"
 },
 "C95": {
  "note": "findings: stale search points read out of bounds (C95_growing) or answer with another parameter's value (C95_locking, C95_wrong_value)"
 },
 "C96": {
  "note": "finding C96_locked_lost: the file of a point does not contain locked parameters"
 },
 "C97": {
  "note": "finding C97_livelock: predictions that are not numbers"
 },
 "C99": {
  "note": "findings C99_wraps (only the value modulo 2^32 counts) and C99_collision (seeds above 2e9 are halved)"
 },
 "C100": {
  "note": "finding C100_own_condition: a member's own predicted fitness condition shadows the one of the pool"
 },
 "C101": {
  "note": "findings C101_upper_rare, C101_zero_wide, C101_no_bounds (undefined behaviour), C101_nine_digits"
 },
 "C102": {
  "note": "finding C102_flat_shadowed: a flat fitness tolerance of 1e-9 or less has no effect"
 },
 "C103": {
  "note": "floating-point, one zero; assumptions on exp, sqrt, log are Libm.Signs and Libm.LogOk, met by the real functions rounded down (realLibm)"
 },
 "C104": {
  "note": "Model/PooledEvaluator.lean, Model/Evaluators.lean (the transition systems of C33-C39). C104_queue: the order of arrival exists, is only ever extended, and the queue is its tail. C104_overtaking: bound at every start. C104_bounded: the same stated about the log alone, with at most N workers ever. C104_one_thread: exact order. C104_fixed_threads: executions without set_max_threads and destructor satisfy the hypothesis. C104_async: async_evaluator. The priority argument does not occur in the function bodies and is not a parameter of the model."
 },
 "C105": {
  "note": "What reporters of a pool hear, and what its getters return at that time, is the inductive relation Pool.Hears, whose steps are those of Pool.Hist (Pool.Hears.hist). Findings: C105_lost_file, C105_used_member."
 },
 "C106": {
  "note": "Machine.Step is optimizer::step with the internal_step of the derived class, Machine.Session any calls, Machine.Run run(n). NaN fitnesses excluded for the solution and the run (C22, C94 say what they do). The run theorems are for sessions without set_fitness_tracking_window, after which a condition may throw (C32)."
 },
 "C107": {
  "note": "A failing xo_assert is modelled as undefined (.ub): in release builds the check may be compiled out. The theorems say for which inputs that is."
 },
 "C108": {
  "note": "C108_solution: any population source within the bounds; C108_algorithms: members that step like MES, EVA or CMA optimizers of the objective; C108_run and C108_run_ends: run of a pool. The objective never returns NaN (see C40/C19 for what happens otherwise); C108_run_ends assumes, like C97, that predictions do not start before the step limit."
 },
 "C109": {
  "note": "C109_best_file: any history of the base class; C109_heard: when a reporter has heard of a best; C109_mes_eva, C109_cma: complete sessions of the algorithms; C109_pool_file, C109_pool_best: pools (names assumed different, see C105). The info given by make_updated_objective_info has finite means and finite nonzero stds (a zero std would lock the parameter, C12); printing and reading are those of C14/C15 (operator<< with setprecision(8), strtod)."
 },
 "C110": {
  "note": "The member is the one collected first among those with the best fitness. C110_nested_fresh / C110_nested_used concern optimizer_pool.cpp:99-106 only; the other calls of a pool of pools are in C117."
 },
 "C111": {
  "note": "FileText/BadRec (Spec/ParFile) describe files; C111_every_file: every text is covered by them. The number reader is a parameter; the examples use strtod. Finding: C111_not_rounded."
 },
 "C112": {
  "note": "Model/CRef models cmaes.c independently of Model/Cma (arrays with the flag slots, state counters, timing as a Boolean). In doubles the equality of the parameters needs that the compared values are not NaN (Regular: std::min/std::max and douMin/douMax treat NaN differently); C112_no_nan derives it from the number of variables, the population size and mueff being in range and a libm whose square root of a nonnegative number is not NaN. Findings: C112_timing, C112_update_before_sampling. C112_best: best_fitness is fbestever (up to worst_fitness); on ties the best points may differ and are not compared."
 },
 "C113": {
  "note": "Model/CRefBoundary models boundary_transformation.c as it is: two passes over an output array, index recycling, exit on errors. Not modelled: calls with the same array as input and output, the text of the messages. Findings: C113_constructors (the reference accepts lower > upper), C113_same (message versus exit). C113_recycling and C113_default cover more variables than bounds and no bounds."
 },
 "C114": {
  "note": "Clients are arbitrary ask/tell threads (Model/SharedPool), in particular optimizer::run of MES, EVA and CMA (Model/SharedRun). C114_same/_local: refinement of running alone, for every evaluator; C114_finite/_no_deadlock/_completes/_runs: termination with a pooled evaluator; C114_cma: the final states are those of running alone. C114_mes_eva: the same for the other classes. interrupt() may come at any time (runClient's quiet says for which optimizers it does not). Termination is for executions without set_max_threads or destruction meanwhile (C36, C37 are about those)."
 },
 "C115": {
  "note": "Model/FileCrash: a callback is a list of operations create/append/remove on the folder, the text of a file split into pieces in any way; a crash executes a prefix. C115_complete: executing everything is the model of C59/C60/C80. C115_crash, C115_stays (also with failing writes), C115_history, C115_history_stop. Findings: C115_disk_full (stream errors are not checked, the complete file of the best before is removed anyway), C115_cut_file and C115_cut_number (a cut par file is imported without an error). Only crashes of the process are meant: what was handed to the operating system is on the disk. A file that cannot be opened counts as a failing write (C115_unopened). Windows, where an open file cannot be removed, is not modelled."
 },
 "C116": {
  "note": "Exact arithmetic (the same generic definitions as the floating-point model, at \u211d), normal distributions that return mean + stdev * z. Another origin: unconditional. Another common unit: the threshold ample_epsilon has to be converted too; without that, and for a unit of one parameter alone, the theorems C116_unit and C116_units_mix give searches that differ."
 },
 "C117": {
  "note": "Model/Nested: the pool of Model/Pool over any kind of member with the virtual functions of optimizer, so that a pool with such members is such a member again; Nest n is an optimizer or a pool nested at most n deep. C117_flat: every history of the pools of C40 is one of this model. Steps that end with an exception are left out here (they are in Model/Pool for one level)."
 },
 "C118": {
  "note": "Num/SDbl: doubles with both zeros, the rules of IEEE 754 for their signs; the same generic definitions of MES and EVA are run in it. A simulation between two arithmetics (Lemmas/ArithSim), in both directions. sqrt is any function whose result, when zero, has the sign of the argument. CMA is not covered: it uses log, exp and pow."
 },
 "C119": {
  "note": "C119_recover: any history of the base class and any position of the reporter in it; C119_mes_eva, C119_cma: sessions of the algorithms with a reporter from the start. The crash is that of C115, what a reader gets is that of C109 (Reproduces). Pools: the names of the files may coincide (C105), so nothing is claimed for them here."
 },
 "C120": {
  "note": "C120_step, C120_played: refinement to the coarse transitions of Model/Pool, in which a member's step is one transition; C120_solution and C120_algorithms then follow from C108 (the objective never returns NaN). C120_bounded, C120_no_deadlock, C120_ends: nobody changes the number of threads of the evaluator during the step (requests may block calls, C36), it has at least one, and members and populations are as in C108. C120_realised: the converse of C120_step. Of the evaluators only the pooled one has shared state (C35, C114)."
 },
 "C98": {
  "note": "C98_defined, C98_completes: for members and populations as in C108 the proviso of C98_no_deadlock and C98_ends (no undefined behaviour in the steps of members) holds."
 },
 "C121": {
  "note": "members are optimizers; exceptions that are not derived from std::exception in reporters are not modelled; finding C121_gets_worse"
 },
 "C122": {
  "note": "exceptions before the results of the evaluator are there (nothing after that throws except stop conditions, which are results of the model already, and memory); C122_run is for environments that depend on what the optimizer shows; for CMA the calls are exactly those of the steps, so that C53-C57 and C71 apply; C122_par_files leaves out history.txt, which C122_history_file is about: its header is that of the last on_start, so a window set or changed between a step that threw and the first completed one shows in it"
 },
 "C123": {
  "note": "INIT_MEMBER and prop_node::get of xo are assumed: key is the member's name without the underscore, an absent key gives the default, a text that is no value throws; the conversions of texts are arbitrary functions. Initializers are run in the order of declaration, reading a member before its initializer would be undefined behaviour in the model"
 }
}