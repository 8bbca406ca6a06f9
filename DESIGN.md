# A formal model of tgeijten/spot in Lean 4

`properties.jsonl` lists what is claimed, `MANIFEST.json` which theorem proves which claim, `lean/Verif` is the model and the proofs,
`seeded/LOG.jsonl` the wrong programs the theorems were tested with. `tools/*.py` generate the json files from the sources (`props.py`:
properties; `manifest.py`: collects the theorems named `Cnn_…` in `lean/Verif/Props`; `seedlog.py`: the log).

## 1. Layout

| directory | content |
|---|---|
| `Num/` | numbers: `Dbl` (NaN, ±inf, rationals; IEEE comparisons; correctly rounded, overflowing arithmetic), rounding to binary64 (`rnd64`) and to 8 decimal digits (`dec8`), and the class `Arith` of arithmetics in which the numerical code is written |
| `Model/` | the model, by source file; every definition cites the file and lines it models and says what it simplifies |
| `Spec/` | small specifications that do not refer to the model's helpers (parameter notation, files, registry, histories of an optimizer, evaluators, published CMA-ES, …) |
| `Lemmas/` | invariants and auxiliary results |
| `Props/` | the theorems that state the properties, each with examples that its hypotheses can be met |

C++ outcomes are explicit: `Res.ok`, `Res.err` (an exception) and `Res.ub` (undefined behaviour: access out of bounds, failed
`xo_assert`, conversion to `int` that does not fit). A member function that may throw returns the state it leaves behind as well.

## 2. Trusted base

1. Lean's kernel (4.33.0) and the definitions of Mathlib that occur in statements (lists, finite sums, reals, matrices, derivatives).
2. Axioms. `#print axioms` over all theorems of `MANIFEST.json`: each depends on `propext`, `Quot.sound` and at most
   `Classical.choice`, and on nothing else. There are no axioms of our own, no unfinished proofs and no compiled evaluation.
3. The reading of `/repo`: that `Model/` says what the C++ code does. The cited lines are meant for checking this.
4. The behaviour of code outside `/repo`, section 4.

## 3. What is modelled

Exhaustively, function by function:

| source | model | not modelled |
|---|---|---|
| par_info.h/.cpp, par_options.h | Model/ParInfo | |
| objective_info.h/.cpp | Model/ObjInfo, Model/ParFile | log messages |
| par_io.h/.cpp, par_tools.h, static_par_set.h/.cpp | Model/ParIO, Model/ParTools, Model/ParTyped, Model/ParFile | conversion of values to other types than `double`, `int` and `bool` |
| search_point.h/.cpp | Model/SearchPoint, Model/ParFile, Model/MathTools (statistics), Model/Printf, Model/Strtod | |
| optimizer.h/.cpp, stop_condition.h/.cpp, reporter.h | Model/Optimizer, Model/FindCondition, Model/ErrorMessage, Model/Similarity, Model/StepThrow (after exceptions) | `save_state` (empty), profiler, thread priority |
| objective.h/.cpp, function_objective.h, evaluator.cpp, batch_evaluator.cpp, async_evaluator.cpp | Model/Evaluators | |
| pooled_evaluator.h/.cpp | Model/PooledEvaluator; used by several optimizers: Model/SharedPool, Model/SharedRun (spot_test/evaluator_test.cpp:22-54); by the members of a pool and others: Model/PoolEvaluator | thread priority |
| optimizer_pool.h/.cpp | Model/Pool, Model/PoolSettings (settings from a prop_node), Model/PoolSession, Model/PoolEvaluator, Model/PoolInfo, Model/Nested, Model/PoolThrow (after exceptions) | `std::async` (line 112) that defers a step: one of the schedules unless an exception leaves the pool; then the deferred steps that are left are not made, which only Model/PoolThrow has; for a pool inside a pool: steps ending with an exception, reporters of the inner pools |
| mes_optimizer, eva_optimizer, math_tools | Model/Evolution, Model/MathTools, Model/Restart | logging |
| cma_optimizer.h/.cpp | Model/Cma, Model/CmaRandom, Model/CmaSeed, Model/CmaEigen, Model/Boundary | members that nothing reads; what a step does without free parameters (an assertion fails, `C75_no_parameters`); reading/writing of the state |
| boundary_transformer.h/.cpp | Model/Boundary | |
| file_reporter.h/.cpp | Model/FileReporter, Model/FileCrash | |
| test_objectives, data_objective.h | Model/MathTools, Model/TestObjectives | |
| console_reporter.h/.cpp | Model/ConsoleReporter | `on_post_evaluate_point` (nothing calls it) |
| spot_test/c-cmaes/cmaes.c, spot_test/cma_optimizer_test.cpp:31-57 | Model/CRef | what `cma_optimizer` has no counterpart of: initials and signals files, `cmaes_TestForTermination`, `cmaes_Get`, timings (their comparison is a Boolean), `rgD`-based messages |
| spot_test/c-cmaes/boundary_transformation.c | Model/CRefBoundary | calls with the same array as input and output, messages |
| the rest of spot_test | – | tests |

## 4. Assumptions about code that is not in /repo

* **xo** (the author's library, absent): `char_stream` (Model/CharStream: unread text and a failure flag; a failed read of a number stores 0),
  `needs_quotes`/quoting, `pattern_matcher` (an arbitrary predicate on names), `replace_str`, `stack_string` (`set` leaves one segment),
  `prop_node` (`get`, `get_any`, children in order), `clamp`/`clamped`/`is_between`/`squared`, `median`, `average`, `sorted_indices`
  (any sorted permutation), `circular_deque` (`push_back` on a full deque drops the oldest, `reserve` keeps the most recent),
  `repeated_median_regression`, `triangle_wave`, `soft_clamp` (arbitrary functions where they occur, unless the property is about them),
  `xo_assert` failure = undefined behaviour, `xo_error_if` throws.
* **C library**: `%.8g` and `strtod` round correctly (models in Model/Printf and Model/Strtod; the readers are otherwise a parameter).
  `abs` in par_info.cpp:78 and file_reporter.cpp is the overload for `double`. `%04d` given a `size_t` prints it in decimal. `log`, `exp`,
  `pow`, `sqrt`, `cos` on `Dbl` are arbitrary functions (`Libm`), in exact arithmetic those of Mathlib.
* **C++ library**: random engines and normal distributions are arbitrary (`Rng`), mutexes, condition variables (with spurious wake-ups),
  futures and atomics have their standard meaning; memory is sequentially consistent; threads can be created.
* **Numbers**: no negative zero (for MES, EVA and the numbers in files C118 proves that this loses nothing). Counters (`size_t`, `long`) do not overflow, except where a theorem is about that (C49, C57).
  In exact arithmetic (ℝ) division by zero is 0; theorems that would depend on it assume the divisor is not zero.
* **Environment**: an objective is a function of the point (or throws); reporters throw `std::exception`s only; files can be opened and written (except in C115 and C119);
  `max_errors_` has the value 0 that nothing in /repo changes. The members of a pool are not used from elsewhere during a step.

## 5. Per property

`Dbl` = about the floating-point program; `ℝ` = the same program in exact arithmetic; `any` = for every arithmetic; `–` = no arithmetic.

| id | arithmetic | model and proof |
|---|---|---|
| C01 | Dbl | all constructors of `par_info`; case analysis and induction over the segments, any number reader |
| C02, C03 | Dbl | parser against the independent grammar `Spec/ParNotation`; induction over the text; one theorem per malformed form; `C02_default`: the values of the default options |
| C04, C05, C07 | – | `ObjInfo` as a state machine; invariants by induction over operations; `add` as a relation between states |
| C06, C08, C10, C11 | – | `ParIO` with prefix and option stacks, parametric in the kind of `par_io`; registration and evaluation are related by a simulation over programs of requests |
| C09 | Dbl | lookup by name in a search point |
| C12, C13, C18 | – | readers: characters → records (induction over the text) → effect (fold); malformed files included |
| C14, C15 | Dbl | Matula-style round-trip theorem for 8 digits in binary64; writer and readers on characters; the printer and the reader are then instantiated by models of `%.8g` and `strtod` |
| C16 | Dbl | the samples are feasible (C43, C56), rounding is monotone (C15): induction over the runs of all three optimizers. Stated with the bounds at 8 digits, since with the bounds themselves it is false (`C16_rounding_leaves_bounds`) |
| C17, C65, C66, C67 | Dbl | pointwise order reasoning |
| C19 | – | induction on d, injectivity of the decimal numerals |
| C20–C28, C32 | Dbl | `Opt` state machine, invariants over every history of public calls, populations, results and interrupts |
| C29 | any | two runs with different reporters are related by a simulation |
| C30, C31 | any | ghost history of the best fitnesses; invariants |
| C33–C38 | – | labelled transition systems for the evaluators; invariants for all schedules; progress and termination by measures |
| C39 | any | whole runs with each evaluator; corollary of C33 |
| C40–C42, C68–C71 | any | pool as a transition system over member optimizers; invariants over all interleavings; concrete witnesses for the findings |
| C43 | Dbl, any | rejection loop and clamping |
| C44, C45 | Dbl, ℝ | the update equations; monotone rounding for `Dbl` |
| C46 | Dbl | selection against the specification "no better individual is left out" |
| C47, C48 | any | whole runs of MES, EVA, CMA related by a simulation, every random source; complete sessions: every call commutes with mirroring (an involution on states, conditions, reporters and calls) |
| C49, C73 | – | integers; Schrage's identity; the table as an invariant over draws; order of 16807 modulo 2^31-1 by a certificate (Lucas) |
| C50, C51, C53, C54, C76–C79 | ℝ | equations of the file against `Spec/CmaEs`; induction over generations; the eigen decomposition is an arbitrary function, in `C78_eigensystem` an exact one |
| C52 | Dbl | the bubble sort of the file: sorted permutation; NaN finding |
| C55, C56, C74, C75 | any/Dbl | state flag; resampling loop; constructors |
| C57, C58 | ℝ, Dbl | piecewise analysis of the transformation; conversion to `int`; with one bound also in floating point (monotone rounding, Lemmas/Float) |
| C59, C60, C80 | any | file reporter driven by every sequence of callbacks an optimizer can produce (`Phase`, `LogPath`) |
| C61–C64, C81 | ℝ | real analysis; for Schwefel's and Himmelblau's functions the optimum is located by derivatives and rational enclosures |
| C82 | ℝ | `Householder2` and `QLalgo2` loop by loop (Model/CmaEigen): the reduction is an orthogonal similarity (invariants of the loops), the QL sweeps preserve the form of the matrix and converge (a decreasing product argument), so that the iteration ends; deflation errors add up to the bound; `C82_program_eig` makes the arbitrary `Eig` of the other CMA theorems the program's |
| C83 | Dbl | NaN propagates through the loops of Model/CmaEigen to the comparison that ends the search for `m` |
| C84 | ℝ, Dbl | the table and the seeds form a multiset that a full period of the generator (C73) exhausts: counting the values that are rejected shows that a run of rejections is shorter than the period |
| C85 | any | history of the optimizer before and after tracking is switched on; simulation as in C30 |
| C86, C87 | Dbl, ℝ | constructors applied to the info that `set_mean_std` leaves (C65, C74); second application of the transformation (C57) |
| C88 | – | frame lemma: a request is not affected by parameters of other names; permutations of the requests |
| C89 | Dbl, ℝ | the loop of the condition, instantiating the user defined condition of C32 in every history |
| C90 | Dbl | constructors on top of C19, folds over lists of any length |
| C91 | Dbl | the axioms of a strict weak order from those of the order of `Dbl`; what is sorted from C72's runs |
| C92 | any | the callbacks of a step (C28) folded through the reporter; the terminal is a small machine (`Spec.Screen`); induction over histories |
| C93 | any | sorted insertion; simulation of the optimizer without messages |
| C94 | ℝ | linear recurrences; for MES with momentum the form det(x, Ax), which a step multiplies by 1 - mom_sigma |
| C95 | Dbl | positions of parameters after C07 / C13 |
| C97 | any | a weight per member (steps left, zero once it has stopped) that each step of a member reduces; idle steps return the condition of the pool |
| C98 | – | measure (threads and futures left); index and condition invariants over all histories |
| C96 | Dbl | simulation between two implementations of par_io over all programs (exec_sim); file of a point by C14, C18 |
| C99 | any (C99_same_run: Dbl) | the generator is a function of the reduced seed; the table of the shuffle tells the states it was filled from; determinism of runs |
| C100 | any | invariant over all histories and schedules: the predicted fitness conditions of each member and the target |
| C101 | Dbl | characterization of truncation; requests on objective_info and search point (C09, C15) |
| C102 | any | invariant on the classes of the conditions; simulation of the optimizer with one condition more |
| C103 | float | signs of rounded sums, products and quotients as an invariant; relative error of rounded sums for mueff >= 1 |
| C104 | – | invariant: the order of arrival is the started and held tasks followed by the queue; started tasks and held tasks have no duplicates |
| C105 | – | invariant of the history of a pool with its calls: every member that the pool would announce has just made the best step it ever made; invariant of the reporter: the files of the first and the last best |
| C106 | – | `step` of a derived class is `step` of the base class for the population it samples (simulation), induction over sessions and over the loop of `run`; composed with C16, C20 - C24, C32, C72, C75 |
| C107 | any | case analysis on the sizes, induction over the parameters; failing assertions are `.ub` |
| C108 | any | the histories of C40 with what every member evaluated; invariant per member (C19's) carried through the interleaved executions of a step; C97 for the number of steps |
| C109 | – | C59 (file of the newest best) with: the newest announced best is the best point (induction over histories), the text of a saved point parses to its records, fold over the records in parameter order |
| C110 | – | the invariant of C40 (the best index is that of a stepped member that is not worse than any); composeText by induction over the members |
| C111 | – | scanning of any text by strong induction on its length; fold over the records |
| C112 | random numbers and parameters come out equal in doubles (`midAccepted_double`; `Regular`, derived by interval arithmetic in C112_no_nan) and in exact arithmetic | simulation relation `SameDist` between the two distributions, kept by sampling, resampling and updating; induction over the calls and over the steps of the optimizer; `Eigen` copies the same matrix |
| C113 | `BTrans` and `BtPar`: the two passes of the reference over the array are the element-wise function of the C++ class | `apply_elements`: the reference returns iff the transformation of every element does; `btApply_spec` for the class; the promises follow from C58 |
| C114 | clients are ask/tell threads over the transition system of the evaluator; a call is added when a client makes it; `runClient` is `optimizer::run` | every execution is one of the evaluator alone with all calls known (`PStep.more`), so C35 and C36 apply; bound: the measure of C36 plus a cost per call; induction over the client's rounds for the refinement |
| C115 | a callback is a list of file operations, with the output split in any way; a crash executes a prefix of it; history.txt has a buffer that is emptied at the modelled flushes | which files a callback touches, from the invariant of C59; the removal is the last operation; invariant: the lines not yet flushed are those since the last step number ending in 9 |
| C116 | ℝ; `internal_step` again and again, standard normal numbers from any generator | the two searches are related generation by generation (draws, projection, update); the dependence on the unit by two computed generations |
| C117 | members are anything with the virtual functions of `optimizer`; `Nest n` by recursion on the depth | the invariant of C40 for any members that obey laws (getters unchanged by tests etc., best not worse after a step); a pool of lawful members is lawful, induction over the depth |
| C118 | doubles with both zeros (Num/SDbl), `any` for the simulation | a relation between two arithmetics that the operations respect is respected by sampling, projection, update and so by every search; instances: forgetting and choosing signs of zeros; printing and reading by the lemmas of C14 |
| C119 | – / `Dbl`; folders after a crash as in C115 | every announced best was the best after a beginning of the history and is better than those before (induction over the calls); with C115_crash, and C109 for complete files |
| `…_defaults` of C12, C41, C46, C59, C60, C80, C89, C92 | as the property | the theorems of the property for the values that options have by default, with the numbers of the code (Props/Defaults) |
| C120 | – | forward simulation: call, evaluator, return are transitions of their own, the step of a member is the transition at its return; invariant of C35/C114 for the evaluator; termination: measures of C98 and C36 added; converse: each coarse transition is a call, the work that serves it (C36) and the return |
| C121 | any | pool of C117 with steps that end with exceptions (of members, passed on by futures; of stop conditions); `S`, the members that may have been stepped since they were looked at, is characterised by C121_step; invariant: the remembered best is that of a looked-at member, or that member is in `S` and better; histories of C117 are a special case |
| C122 | – | histories of the base class whose steps may end with an exception before the results are there; relation: equal up to reporters and the callbacks that tell nothing, preserved by every call (told_apply); `on_start` after `on_post_step` excluded by an invariant; for MES, EVA, CMA sessions with throwing steps reduce to histories, the distribution is followed by an inductive specification (Es.Updates) or by Cma.Calls; file_reporter: related up to its history, callbacks that tell nothing leave the par files alone (quiet_pars); the history by induction over the callbacks, with on_start never after on_post_step |
| C123 | – | the initializers of the pool in the order of declaration, over arbitrary nodes; members not yet initialized are `none` and reading them is undefined; specification Asked/AskedPool relates keys, defaults and values; priorities and concurrency through the theorems for C41 |
| C72 | Dbl | no undefined behaviour, no exception in a step of MES/EVA |

## 6. Findings (each a theorem)

Behaviour of the code that contradicts what a user would expect; the properties are stated so that they are true, and the theorem shows why
they are not stronger.

| theorem | what happens |
|---|---|
| C03_unreadable_std_accepted | `1~abc` is accepted: an unreadable number after `~` is a std of 0 |
| C04_vector_constructor_unchecked | `objective_info` built from a vector of parameters accepts duplicate names |
| C10_resolution_can_change | a reference can resolve to a different parameter when evaluating than when registering |
| C11_setter_loses_segments | `set_prefix` cannot restore a nested prefix (it becomes one segment) |
| C16_rounding_leaves_bounds | stored values can violate the bounds, as they are rounded after clamping |
| C16_infinite_sample | an infinite sample is stored as 0, even where 0 is below the lower bound |
| C17_nan_is_feasible | a point with NaN counts as feasible and is not clamped |
| C20_nan_hides_best, C67_nan_hides_best | a NaN fitness hides better ones of the same population |
| C31_shrink_stale | shrinking the tracking window leaves the old trend in place |
| C40…C42, C68, C69, C70 (PoolCases) | pool: announces a best with the worst fitness; steps stopped members; may step nothing; takes away samples a stop condition asked for; `min_progress` fires always; reads a member while it runs |
| C43_nan_draws | NaN draws are returned unchanged |
| C44_rate_above_one | learning rates above 1 are accepted and give negative variances |
| C45_mes_momentum_overshoots | with momentum the MES mean leaves the bounds |
| C46 (Selection) | MES/EVA cannot be constructed with default options without free parameters |
| C49_zero_seed | seed 0 is replaced by the clock, and a clock value of 0 makes Gauss loop forever |
| C52_nan_ranks_first | a NaN fitness can be ranked first in CMA |
| C57_overflow | with bounds above about 1e154 the boundary transformer maps the bound itself to an infinite value |
| C59_same_name_lost | two best files with the same name: the second is deleted when the first expires |
| C61 (Rosenbrock) | in one dimension it is constant, an empty vector is read out of bounds |
| C63 | `mahalanobis_distance` ignores off-diagonal elements |
| C75 | CMA throws for a parameter with equal bounds, MES and EVA accept it |
| C83 (three theorems) | NaN in the mean, or all standard deviations 0, make the eigenvalue decomposition of CMA access memory outside its arrays |
| C85_late_wrong | if tracking is switched on after s0 steps, `predicted_fitness` predicts s0 steps too far |
| C86_transformed_restart | restarting CMA from its updated info moves a mean near a bound away from it |
| C88_order_matters, C88_alias_only_for_nodes | a vector element that refers to another one registers or throws depending on the compiler's order of evaluation; aliases do not apply to names registered by default |
| C89_depends_on_unit, C89_zero_std, C89_negative_steps | `similarity_condition` divides by stds instead of variances, is never met if a std is 0, nor if `min_steps` is negative |
| C90_underflow | the sphere function is 0 away from its optimum (underflow) |
| C91_nan_breaks_sorting | a NaN fitness next to two different ones makes `std::sort` undefined (MES, EVA, pool) |
| C75_no_parameters | CMA can be constructed for an objective without parameters, but never stepped |
| C92_stale_best | without `newline_best` the console shows the best fitness of one step in the line of the next |
| C96_locked_lost | a model run with the file of a point uses the default of each locked parameter |
| C97_livelock | a prediction that is not a number can make a pool run forever without stepping anything |
| C99_wraps, C99_collision | seeds that are a multiple of 2^32 use the clock; seeds above 2e9 are halved, so different options give the same optimizer |
| C100_own_condition | a pool updates a member's own predicted fitness condition instead of the one it added |
| C101_upper_rare, C101_zero_wide, C101_no_bounds, C101_nine_digits | int parameters: the upper bound is hardly ever returned, 0 twice as often, undefined behaviour without bounds, means of 9 digits change |
| C102_flat_shadowed | a flat fitness tolerance of 1e-9 or less added to MES, EVA or CMA has no effect |
| C83_tiny_std | positive standard deviations of at most 1.1e-162 make the CMA optimizer access memory outside of its arrays |
| C110_nested_fresh | a pool that has not been stepped can not be a member of a pool: filling the queue of the outer pool fails an assertion (for a status text that is not used) |
| C111_import_values | `import_values` ignores a record at the end of a file without a final newline, and everything from the first malformed record on, without an error; `import_mean_std` takes the first and throws at the second |
| C111_not_rounded | an imported value keeps all its digits: saving and loading the point changes it |
| C112_timing | the reference implementation skips a decomposition while eigensystems take more than a fifth of the CPU time: what it samples depends on the speed of the computer; `cma_optimizer` does not |
| C112_update_before_sampling | the reference implementation accepts function values before the first population (with a message); `cma_optimizer` throws |
| C113_constructors, C113_same | the reference boundary transformation accepts a lower bound above the upper bound, `cmaes_boundary_transformer` throws; where the class logs a message and leaves the value, the reference ends the program |
| C75 (`CmaOpt.make`) | spot_test/cma_optimizer_test.cpp:13-16 gives the parameters equal bounds (-1e12, -1e12); the constructor of `cma_optimizer` throws for equal bounds, so the test (which main does not call) would throw before it compares anything |
| C105_lost_file | two members of a pool that improve in one step with the same printed numbers have one file; it is deleted right after it was written |
| C105_used_member | a pool announces the best point of a member that had made steps before it was added, while the file of this best holds another point |
| C47_default_stop | MES, EVA and CMA stop after the first step if the fitnesses of the population differ by less than 1e-9, on whatever scale the objective is: stopping is not invariant under scaling of the objective |
| C95_growing, C95_locking, C95_wrong_value | a search point made before its objective_info changes reads out of bounds or answers with another parameter's value |
| C45_eva_rounding, C64_rounding | by rounding the EVA mean can leave the bounds, and identical points can have a positive variance |
| C115_disk_full | the reporter does not look at the state of its streams: when the disk is full, the complete file of the previous best is still removed in favour of an incomplete one |
| C115_unopened | a par file that cannot be opened is not noticed either: the complete file of the best before is removed although there is no file of the new one |
| C115_cut_file, C115_cut_number | a par file cut off by a crash is imported without an error: the missing values keep what they were, and a number cut in two is read wrongly |
| C116_unit, C116_units_mix | MES and EVA depend on the unit of the parameters: momentum below the fixed `ample_epsilon` is ignored, and the projection onto the momentum mixes parameters of different units, so that rescaling one parameter changes the variances of the others (CMA has no such dependence on a common unit, C79) |
| C117_predicts_zero, C117_target | a pool in a pool records no history, so that its predicted fitness is 0 whatever it finds: the outer pool ranks it by 0, and with `use_predicted_fitness` stops it as soon as 0 is not better than the best fitness found |
| C121_gets_worse | after a step of a pool that ended with an exception, members that improved in it have not been looked at: `best_fitness()` can show their fitness without having announced it, and get worse later |
| C117_unstepped | a step of a pool fails an assertion as long as a pool in it has not been stepped |
| C80_columns_mismatch | the header of history.txt can have fewer columns than its lines |
| C81 | a data objective without data returns NaN |

## 7. Wrong programs

For each round, definitions of the model were edited in a scratch copy as a realistic bug would edit the program, and the project was rebuilt.
`seeded/LOG.jsonl` has a line per edit: the theorems that failed and, if none did although the claim is false of the edited program,
which theorem was added or strengthened.
