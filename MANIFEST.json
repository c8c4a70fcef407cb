{"claims": [
{"property": "C01", "status": "proved", "theorems": ["K52.Cache.C01_get_returns_latest", "K52.Cache.C01_add_then_get"], "note": ""},
{"property": "C02", "status": "proved", "theorems": ["K52.Cache.C02_isCached_iff", "K52.Cache.C02_lookups_keep_values"], "note": ""},
{"property": "C03", "status": "proved", "theorems": ["K52.Cache.C03_read_values_survive", "K52.Cache.C03_lookups_can_evict"], "note": ""},
{"property": "C04", "status": "proved", "theorems": ["K52.Cache.C04_size_bound", "K52.Cache.C04_failure_permanent", "K52.Cache.C04_within_limit_keeps_all", "K52.Cache.C04_create_iff"], "note": ""},
{"property": "C05", "status": "proved", "theorems": ["K52.IntParam.C05_value_roundtrip", "K52.IntParam.C05_max_lost"], "note": "exact exception (v=max, max-min a power of two) stated and proved as a violation"},
{"property": "C06", "status": "proved", "theorems": ["K52.IntParam.C06_chromosome_roundtrip", "K52.IntParam.C06_decode_injective"], "note": ""},
{"property": "C07", "status": "proved", "theorems": ["K52.IntParam.C07_size_exact"], "note": ""},
{"property": "C08", "status": "proved", "theorems": ["K52.IntParam.C08_wrong_length_int", "K52.IntParam.C08_size_set_once", "K52.DblParam.C08_wrong_length_dbl", "K52.ArrParam.C08_wrong_length_arr"], "note": ""},
{"property": "C09", "status": "proved", "theorems": ["K52.DblParam.C09_precision", "K52.DblParam.C09_quantisation", "K52.DblParam.C09_constructor"], "note": ""},
{"property": "C10", "status": "proved", "theorems": ["K52.DblParam.C10_upper_bound_lost", "K52.DblParam.C10_decoded_in_bounds"], "note": "the code loses max for every parameter; proved as such"},
{"property": "C100", "status": "proved", "theorems": ["K52.Grid.C100_grid", "K52.Grid.C100_monotone", "K52.Grid.C100_error", "K52.Grid.C100_count", "K52.Grid.C100_upper", "K52.Grid.C100_exact", "K52.Grid.C100_missed", "K52.Grid.C100_exceeds", "K52.Grid.C100_coincide"], "note": "arithmetic with every operation rounded (Fl r); counterexamples in Nearest.double, evaluated by the kernel"},
{"property": "C101", "status": "proved", "theorems": ["K52.Mutator.C101_constructor", "K52.Mutator.C101_accepts", "K52.Mutator.C101_count", "K52.Mutator.C101_one_in", "K52.Mutator.C101_one_less"], "note": "arithmetic with every operation rounded (Fl r); counterexamples in Nearest.double, evaluated by the kernel"},
{"property": "C102", "status": "proved", "theorems": ["K52.Dsp.C102_accepts", "K52.Dsp.C102_order", "K52.Dsp.C102_error", "K52.Dsp.C102_distinct", "K52.Dsp.C102_exact", "K52.Dsp.C102_exceeds", "K52.Dsp.C102_misses", "K52.Dsp.C102_coincide"], "note": "Rounded arithmetic: monotone rounding, round to nearest with p digits, double for the examples; overflow and underflow not modelled."},
{"property": "C103", "status": "proved", "theorems": ["K52.WaveletObj.C103_error", "K52.WaveletObj.C103_digits", "K52.WaveletObj.C103_exact", "K52.WaveletObj.C103_exact_row", "K52.WaveletObj.exists_sqrt"], "note": "Relative rounding error u; std::sqrt is a parameter with relative error u (exists_sqrt shows that there is one). The stored samples are given; how they were rounded when they were computed is not part of the claim."},
{"property": "C104", "status": "proved", "theorems": ["K52.Dsp.C104_error", "K52.Dsp.C104_digits", "K52.Dsp.C104_exact", "K52.Dsp.C104_not_commutative"], "note": "Relative rounding error u; complex products as four products and two sums, no fused operations."},
{"property": "C105", "status": "proved", "theorems": ["K52.Dsp.C105_forward", "K52.Dsp.C105_inverse", "K52.Dsp.C105_round_trip", "K52.Dsp.C105_digits"], "note": "cos, sin and pi of the C library are parameters with an accuracy assumption (LibM, satisfiable: exists_libM); overflow and underflow aside"},
{"property": "C106", "status": "proved", "theorems": ["K52.Dsp.C106_error", "K52.Dsp.C105_digits"], "note": "same assumptions as C105; the factor in digits is the third part of C105_digits"},
{"property": "C107", "status": "proved", "theorems": ["K52.Gradient.Sd.Round.C107_ends", "K52.Gradient.Sd.Round.C107_loses_minimum"], "note": "Termination and range for every function and precision in rounded arithmetic; a kernel-evaluated run in double that loses the minimum."},
{"property": "C108", "status": "proved", "theorems": ["K52.Akima.Rounded.C108_knots", "K52.Akima.Rounded.C108_accuracy", "K52.Akima.Rounded.C108_digits", "K52.Akima.Rounded.C108_last_knot"], "note": "Running error analysis for every knot set, point and precision; counterexample at the last knot evaluated by the kernel in double."},
{"property": "C109", "status": "proved", "theorems": ["K52.Akima.Rounded.C109_values", "K52.Akima.Rounded.C109_end_throws"], "note": "All sample vectors and precisions; kernel-evaluated double case that throws at 4."},
{"property": "C11", "status": "proved", "theorems": ["K52.ArrParam.C11_array_roundtrip", "K52.ArrParam.C11_array_layout"], "note": ""},
{"property": "C110", "status": "proved", "theorems": ["K52.Cwt.Rounded.C110_build", "K52.Cwt.Rounded.C110_sampled", "K52.Cwt.Rounded.C110_throws"], "note": "Linear scales only; logarithmic scales in exact arithmetic are C68."},
{"property": "C111", "status": "proved", "theorems": ["K52.IeeeGradient.C111_stationary", "K52.IeeeGradient.C111_small_increment", "K52.IeeeGradient.C111_never_returns", "K52.IeeeGradient.C111_affine", "K52.IeeeGradient.C111_exact"], "note": "abs is taken to be the function for double (with the one for int the golden section of NaN is undefined behaviour); std::sqrt and abs of NaN are NaN; zero has no sign"},
{"property": "C112", "status": "proved", "theorems": ["K52.IeeeGradient.Cg.C112_flat", "K52.IeeeGradient.Cg.C112_odd", "K52.IeeeGradient.Cg.C112_stationary", "K52.IeeeGradient.Cg.C112_small_increment", "K52.IeeeGradient.Cg.C112_result", "K52.IeeeGradient.Cg.C112_small_gradient", "K52.IeeeGradient.Cg.C112_exact"], "note": "zero has no sign in the model; std::abs, sqrt and pow(x,2) are assumed correct at 0, NaN and the infinities only"},
{"property": "C113", "status": "proved", "theorems": ["K52.HookeJeeves.C113_not_finite", "K52.HookeJeeves.C113_terminates", "K52.HookeJeeves.C113_divider_one"], "note": "over all binary formats with emin+2p+3<=0; sqrt and abs by their values at 0, NaN, infinity"},
{"property": "C114", "status": "proved", "theorems": ["K52.NelderMead.C114_terminates", "K52.NelderMead.C114_projected", "K52.NelderMead.C114_bounds", "K52.NelderMead.C114_leaves", "K52.NelderMead.C114_overflow"], "note": ""},
{"property": "C115", "status": "proved", "theorems": ["K52.IeeeRosenbrock.C115_returns", "K52.IeeeRosenbrock.C115_not_finite", "K52.IeeeRosenbrock.C115_overflow", "K52.IeeeRosenbrock.C115_small", "K52.IeeeRosenbrock.C115_large", "K52.IeeeRosenbrock.C115_max_step", "K52.IeeeRosenbrock.C115_retreat", "K52.IeeeRosenbrock.C115_exact"], "note": "Arithmetic is abstract (IEEE comparisons, NaN propagation) in C115_returns, else the format of Spec/Double.lean; abs exact, sqrt assumed right at 0 and infinity only. A sort of numbers and NaN together is undefined behaviour in the model."},
{"property": "C116", "status": "proved", "theorems": ["K52.ExampleFns.C116_square", "K52.ExampleFns.C116_simple_square", "K52.ExampleFns.C116_square_summ", "K52.ExampleFns.C116_difraction", "K52.ExampleFns.C116_solutions", "K52.ExampleFns.C116_square_unbounded", "K52.ExampleFns.C116_simple_square_real", "K52.ExampleFns.C116_square_summ_real", "K52.ExampleFns.C116_difraction_real", "K52.ExampleFns.C116_multiminimum", "K52.ExampleFns.C116_clone", "K52.ExampleFns.C116_multi_start"], "note": "Double precision for the first four functions; the fifth and the exact values over the reals. abs exact, |sin x| <= |x| assumed of libm; sin of a non-finite number is NaN."},
{"property": "C117", "status": "proved", "theorems": ["K52.ExampleFns.C117_results", "K52.ExampleFns.C117_fresh", "K52.ExampleFns.C117_throw", "K52.ExampleFns.C117_returns", "K52.ExampleFns.C117_output", "K52.ExampleFns.C117_output_empty"], "note": "Optimizers are arbitrary stateful functions that may throw; console output of the verbose mode is not modelled."},
{"property": "C118", "status": "proved", "theorems": ["K52.ExampleGA.C118_main", "K52.ExampleGA.C118_initial", "K52.ExampleGA.C118_start", "K52.ExampleGA.C118_catches"], "note": "Exact arithmetic; timing, console formatting and the unused printStatistics are not modelled. Optimality and the number of generations assume no hash collision among the chromosomes of the run (C23)."},
{"property": "C119", "status": "proved", "theorems": ["K52.Mpi.C119_results", "K52.Mpi.C119_clean", "K52.Mpi.C119_performed", "K52.Mpi.C119_work", "K52.Mpi.C119_progress", "K52.Mpi.C119_can_return", "K52.Mpi.C119_terminates", "K52.Mpi.C119_optimization", "K52.Mpi.C119_values"], "note": "MPI pool with blocking receive calls (OptimizationTaskResult), on top of the invariant of C28"},
{"property": "C12", "status": "proved", "theorems": ["K52.ArrParam.C12_wrong_count", "K52.ArrParam.C12_acceptance", "K52.ArrParam.C12_outside_accepted"], "note": "exact acceptance set"},
{"property": "C120", "status": "proved", "theorems": ["K52.Fft.C120_results", "K52.Fft.C120_created", "K52.Fft.C120_apart", "K52.Fft.C120_planner", "K52.Fft.C120_progress", "K52.Fft.C120_terminates", "K52.Fft.C120_steps", "K52.Fft.C120_exact", "K52.Fft.C120_shared_object", "K52.Fft.C120_data_race"], "note": "per-access interleavings of any threads; careful clients get their own results, sharing an object is refuted"},
{"property": "C121", "status": "proved", "theorems": ["K52.FftLife.C121_defined_iff", "K52.FftLife.C121_without_copies", "K52.FftLife.C121_assignment_leaks", "K52.FftLife.C121_by_value"], "note": "operations on variables; characterisation of the programs without undefined behaviour"},
{"property": "C122", "status": "proved", "theorems": ["K52.SharedFn.C122_optimization_tasks", "K52.SharedFn.C122_stateless", "K52.SharedFn.C122_one_worker", "K52.SharedFn.scratch_computes", "K52.SharedFn.C122_shared_function"], "note": "objects with memory, interleaved steps"},
{"property": "C123", "status": "proved", "theorems": ["K52.CountPools.C123_values", "K52.CountPools.C123_fitness", "K52.CountPools.C123_choice", "K52.CountPools.C123_grid"], "note": "Objective functions are mathematical functions here; functions with memory are C122. DoTasks of the MPI pool is the model with blocking receives (C119)."},
{"property": "C124", "status": "proved", "theorems": ["K52.ExampleMain.C124_returns", "K52.ExampleMain.C124_main", "K52.ExampleMain.C124_random", "K52.ExampleMain.C124_conjugate_square", "K52.ExampleMain.C124_conjugate_sum"], "note": "the whole example program in binary64; loops of Nelder-Mead, Hooke-Jeeves and the gradient methods carry fuel, and the theorems hold for all sufficiently large fuel; conjugate gradients/steepest descent on the sine functions are left as the second alternative because it depends on the library's sine"},
{"property": "C125", "status": "proved", "theorems": ["K52.IndividualObj.C125_fitness", "K52.IndividualObj.C125_negative", "K52.IndividualObj.C125_broken_initialization", "K52.IndividualObj.C125_again", "K52.IndividualObj.C125_uninitialized", "K52.IndividualObj.C125_assign", "K52.IndividualObj.C125_drops", "K52.IndividualObj.C125_sizes", "K52.IndividualObj.C125_defined", "K52.IndividualObj.C125_empty"], "note": "individuals as objects with their state after exceptions; parameters, mutators and random numbers are arbitrary arguments"},
{"property": "C126", "status": "proved", "theorems": ["K52.GA.C126_returns", "K52.GA.C126_source", "K52.GA.C126_same_function", "K52.GA.C126_hits", "K52.GA.C126_full", "K52.GA.C126_set", "K52.GA.C126_stays", "K52.GA.C126_set_failed", "K52.GA.Examples.C126_left_over", "K52.GA.Examples.C126_old_values"], "note": "Any sequence of Optimize and SetInitialParameters calls on one object; objective function, callback, Clone, cache and files may throw anywhere; worker pool sequential."},
{"property": "C127", "status": "proved", "theorems": ["K52.CompObj.C127_sound", "K52.CompObj.C127_as_value", "K52.CompObj.C127_defined", "K52.CompObj.C127_uninitialized", "K52.CompObj.C127_retry", "K52.CompObj.C127_latch", "K52.CompObj.C127_second", "K52.CompObj.C127_second_equal", "K52.CompObj.C127_second_longer", "K52.CompObj.C127_second_shorter", "K52.CompObj.C127_second_stopped", "K52.CompObj.C127_edit"], "note": "One object, sequential calls. Parameters are the library's classes; the contents of a range after a SetChromosome that throws, Initialize with pointers to the object itself, and copies of a composite are not modelled. Non-vacuity: Examples.tame, shorter, longer."},
{"property": "C128", "status": "proved", "theorems": ["K52.StartPools.C128_results", "K52.StartPools.C128_choice", "K52.StartPools.C128_agree"], "note": "Starts are continuous arrays and the function is a continuous objective function (the only ones the five methods accept, C82). For the MPI pool, histories and batches with a task that does not return on a worker are outside. Loops of the methods carry fuel; double is the exact reals."},
{"property": "C129", "status": "proved", "theorems": ["K52.FwtThreads.C129_right", "K52.FwtThreads.C129_single", "K52.FwtThreads.C129_room", "K52.FwtThreads.C129_progress", "K52.FwtThreads.C129_alone", "K52.FwtThreads.C129_race"], "note": "Whole cache calls are the steps (as if each method took a mutex). C129_race: a common history and two calls for which both orders return but one interleaving throws; C129_alone ties an uninterrupted call to Dsp.getSamples of C53."},
{"property": "C13", "status": "proved", "theorems": ["K52.Param.C13_tree_roundtrip", "K52.Param.C13_slices", "K52.Param.C13_initialize", "K52.Param.C13_reinitialize_corrupts"], "note": ""},
{"property": "C130", "status": "proved", "theorems": ["K52.Heap.C130_initialize", "K52.Heap.C130_getParameter", "K52.Heap.C130_shared", "K52.Heap.C130_history", "K52.Heap.C130_seen", "K52.Heap.C130_sample"], "note": "Heap model of C15. C130_initialize: fresh, pairwise disjoint, equal members; C130_shared/history/seen: pointers from GetParameter are the members. State after an exception in Initialize and a second Initialize are C127."},
{"property": "C14", "status": "proved", "theorems": ["K52.Param.C14_constraints", "K52.Param.C14_getParameter"], "note": ""},
{"property": "C15", "status": "proved", "theorems": ["K52.Param.C15_clone_equal", "K52.Heap.C15_clone_deep", "K52.Heap.C15_clone_independent", "K52.Heap.C15_clone_uninitialised"], "note": ""},
{"property": "C16", "status": "proved", "theorems": ["K52.Text.C16_roundtrip", "K52.Text.C16_accepts", "K52.Text.C16_empty", "K52.Text.C16_negative", "K52.Text.C16_population", "K52.Text.C16_population_valid", "K52.Text.C16_number_chars", "K52.Text.C16_damaged", "K52.Text.C16_no_fitness", "K52.Text.C16_failed", "K52.Text.C16_truncated"], "note": "number printing/parsing abstract (Format.Sane); labels are not checked by the code"},
{"property": "C17", "status": "proved", "theorems": ["K52.Indiv.C17_crossover", "K52.Indiv.C17_pointwise"], "note": "crossover for every pair of individuals, every draw"},
{"property": "C18", "status": "proved", "theorems": ["K52.Indiv.C18_random", "K52.Indiv.C18_mutate", "K52.Indiv.C18_crossover", "K52.GA.C18_generations"], "note": "random initialisation, mutation, crossover, and all generations of a run"},
{"property": "C19", "status": "proved", "theorems": ["K52.GA.C19_create", "K52.GA.C19_initial", "K52.GA.Examples.C19_initial_composite"], "note": "exact characterisation of Create and SetInitialParameters"},
{"property": "C20", "status": "proved", "theorems": ["K52.GA.C20_population"], "note": "all runs"},
{"property": "C21", "status": "proved", "theorems": ["K52.GA.C21_best", "K52.GA.C21_monotone", "K52.GA.C23_run", "K52.GA.Examples.C21_initial_max_wrong"], "note": "all runs; the violation for initial values that do not survive encoding is a theorem"},
{"property": "C22", "status": "proved", "theorems": ["K52.GA.C22_select"], "note": "all populations and rand() streams"},
{"property": "C23", "status": "proved", "theorems": ["K52.GA.C23_obtain", "K52.GA.C23_run", "K52.GA.C23_stale", "K52.GA.Examples.C23_collision_wrong", "K52.GA.Examples.C23_second_function_wrong"], "note": "all runs under the stated provisos; both provisos shown necessary"},
{"property": "C24", "status": "proved", "theorems": ["K52.Pool.C24_results", "K52.Pool.C24_once", "K52.Pool.C24_exclusion"], "note": "transition system with mutexes, condition variables, spurious wake-ups; any number of workers, tasks and earlier calls"},
{"property": "C25", "status": "proved", "theorems": ["K52.Pool.C25_progress", "K52.Pool.C25_terminates", "K52.Pool.C25_returns", "K52.Pool.C25_can_return", "K52.Pool.C25_throw"], "note": "progress, termination bound, return, and non-return when a task throws"},
{"property": "C26", "status": "proved", "theorems": ["K52.TQueue.C26_exclusion", "K52.TQueue.C26_fifo", "K52.TQueue.C26_prefix", "K52.TQueue.C26_results", "K52.TQueue.C26_blocking"], "note": "linearizability against a sequential FIFO, for arbitrary client threads"},
{"property": "C27", "status": "proved", "theorems": ["K52.SeqPool.C27_in_order", "K52.SeqPool.C27_results", "K52.SeqPool.C27_statistics", "K52.SeqPool.C27_calls"], "note": "any world state, tasks may throw"},
{"property": "C28", "status": "proved", "theorems": ["K52.Mpi.C28_results", "K52.Mpi.C28_clean", "K52.Mpi.C28_worker_ready", "K52.Mpi.C28_one_task", "K52.Mpi.C28_work", "K52.Mpi.C28_progress", "K52.Mpi.C28_can_return", "K52.Mpi.C28_terminates", "K52.Mpi.C28_no_workers"], "note": "Interleaving model of server, workers and messages. Assumes all tasks are IMpiTasks, Perform returns, MPI keeps the order of messages between two processes and buffers sends."},
{"property": "C29", "status": "proved", "theorems": ["K52.Aggregator.C29_statistics_exact", "K52.Aggregator.C29_sums"], "note": ""},
{"property": "C30", "status": "proved", "theorems": ["K52.Chain.C30_in_order_once", "K52.Chain.C30_one_at_a_time", "K52.Chain.C30_no_repeated_test", "K52.Chain.C30_progress"], "note": "any interleaving of calls with the completion of communications"},
{"property": "C31", "status": "proved", "theorems": ["K52.Delay.C31_delay", "K52.Delay.C31_bounds"], "note": ""},
{"property": "C32", "status": "proved", "theorems": ["K52.Registry.C32_last_registration", "K52.Registry.C32_lookup_harmless"], "note": "stored objects are values; pointers to an overwritten object are not tracked"},
{"property": "C33", "status": "proved", "theorems": ["K52.Transfer.C33_optimizer", "K52.Transfer.C33_unsupported", "K52.Transfer.C33_parameters", "K52.Transfer.C33_count_task", "K52.Transfer.C33_remote_value", "K52.Transfer.C33_function_state_lost", "K52.Transfer.C33_created_ignores_received", "K52.Transfer.C33_optimization_task", "K52.Transfer.C33_result", "K52.Transfer.C33_unregistered", "K52.Transfer.C33_foreign_bounds", "K52.Transfer.C33_count_task_unusable", "K52.Transfer.C33_optimization_task_unusable", "K52.Transfer.C33_result_unusable"], "note": "Messages are typed values; MPI/boost serialisation of one value is trusted."},
{"property": "C34", "status": "proved", "theorems": ["K52.Settings.C34_last_wins", "K52.Settings.C34_argument", "K52.Settings.C34_put_other", "K52.Settings.C34_typed", "K52.Settings.C34_put_fails", "K52.Settings.C34_parses"], "note": "boost::property_tree modelled as an ordered tree; XML reading not modelled"},
{"property": "C35", "status": "proved", "theorems": ["K52.Settings.C35_merge", "K52.Settings.C35_left_kept", "K52.Settings.C35_dotted_name_throws"], "note": ""},
{"property": "C36", "status": "proved", "theorems": ["K52.Random.C36_continuous", "K52.Random.C36_vector", "K52.Random.C36_discrete_range", "K52.Random.C36_discrete_coverage", "K52.Random.C36_discrete_empty_ub", "K52.Random.C36_event"], "note": "all rand() streams"},
{"property": "C37", "status": "proved", "theorems": ["K52.Random.C37_constructor", "K52.Random.C37_glibc_undefined", "K52.Random.C37_bits", "K52.Random.C37_no_reuse"], "note": "all rand() streams; shows glibc RAND_MAX reaches undefined behaviour in the constructor"},
{"property": "C38", "status": "proved", "theorems": ["K52.Mutator.C38_only_flips", "K52.Mutator.C38_flip_constructor", "K52.Mutator.C38_flip_invariant", "K52.Mutator.C38_flip_spacing", "K52.Mutator.C38_linear_schedule", "K52.Mutator.C38_linear_decisions", "K52.Mutator.C38_linear_single_generation", "K52.Mutator.C38_linear_divide_by_zero", "K52.Mutator.C38_linear_extrapolates", "K52.Mutator.C38_decisions"], "note": "flip and linear mutators"},
{"property": "C39", "status": "proved", "theorems": ["K52.Processor.C39_simple", "K52.Processor.C39_simple_best", "K52.Processor.C39_optimization"], "note": ""},
{"property": "C40", "status": "proved", "theorems": ["K52.Grid.C40_grid", "K52.Grid.C40_best", "K52.Grid.C40_rejects", "K52.Grid.C40_overflow"], "note": ""},
{"property": "C41", "status": "proved", "theorems": ["K52.HookeJeeves.C41_never_worse", "K52.HookeJeeves.C41_dimension", "K52.HookeJeeves.C41_optimize"], "note": ""},
{"property": "C42", "status": "proved", "theorems": ["K52.NelderMead.C42_projection", "K52.NelderMead.C42_run", "K52.NelderMead.C42_reflection_in_bounds", "K52.NelderMead.C42_not_projected"], "note": ""},
{"property": "C43", "status": "proved", "theorems": ["K52.NelderMead.C43_indexes"], "note": ""},
{"property": "C44", "status": "proved", "theorems": ["K52.NelderMead.C44_result", "K52.NelderMead.C44_returns_worst", "K52.NelderMead.C44_worse_than_start", "K52.NelderMead.C44_converged"], "note": "the natural claim (best vertex) is refuted by C44_returns_worst and C44_worse_than_start"},
{"property": "C45", "status": "proved", "theorems": ["K52.NelderMead.C45_terminates"], "note": ""},
{"property": "C46", "status": "proved", "theorems": ["K52.RandomSearch.C46_random_search", "K52.RandomSearch.C46_random_search_inner", "K52.Annealing.C46_annealing", "K52.Annealing.C46_annealing_optimize", "K52.Annealing.C46_acceptance", "K52.Annealing.C46_temperature", "K52.Annealing.C46_empty"], "note": ""},
{"property": "C47", "status": "proved", "theorems": ["K52.ContinuousOptimizer.C47_optimize", "K52.ContinuousOptimizer.C47_constraint_violation", "K52.ContinuousOptimizer.C47_sign", "K52.ContinuousOptimizer.C47_rejects", "K52.ContinuousOptimizer.C47_both_signs"], "note": ""},
{"property": "C48", "status": "proved", "theorems": ["K52.Rosenbrock.C48_gram_schmidt", "K52.Rosenbrock.C48_new_basis", "K52.Rosenbrock.C48_correct_step", "K52.Rosenbrock.C48_iteration", "K52.Rosenbrock.C48_run", "K52.Rosenbrock.C48_first_direction"], "note": ""},
{"property": "C49", "status": "proved", "theorems": ["K52.Dsp.C49_forward_formula", "K52.Dsp.C49_inverse_formula", "K52.Dsp.C49_inverse_forward", "K52.Dsp.C49_forward_inverse", "K52.Dsp.C49_linear", "K52.Dsp.C49_parseval", "K52.Dsp.C49_fast_fourier", "K52.Dsp.C49_without_fftw"], "note": "Exact arithmetic; FFTW trusted to compute the forward DFT."},
{"property": "C50", "status": "proved", "theorems": ["K52.Dsp.C50_fourier_equals_direct", "K52.Dsp.C50_direct_formula", "K52.Dsp.C50_fast_fourier"], "note": "Exact arithmetic."},
{"property": "C51", "status": "proved", "theorems": ["K52.Dsp.C51_commutative", "K52.Dsp.C51_bilinear", "K52.Dsp.C51_shift", "K52.Dsp.C51_impulse", "K52.Dsp.C51_associative"], "note": ""},
{"property": "C52", "status": "proved", "theorems": ["K52.Dsp.C52_linear_accepts", "K52.Dsp.C52_linear_scales", "K52.Dsp.C52_log_outcome", "K52.Dsp.C52_log_scales", "K52.Dsp.C52_log_scales_out_of_range", "K52.Dsp.C52_linear_message"], "note": "LinearScale over the reals; LogarithmicScale in binary64 semantics of powers of two."},
{"property": "C53", "status": "proved", "theorems": ["K52.Dsp.C53_transform", "K52.Dsp.C53_one_scale", "K52.Dsp.C53_scale_rejected"], "note": "Exact arithmetic; IWavelet::GetValue assumed pure; cache as in C01-C04."},
{"property": "C54", "status": "proved", "theorems": ["K52.Akima.C54_accepts", "K52.Akima.C54_interpolates", "K52.Akima.C54_affine", "K52.Akima.C54_linear_exact", "K52.Akima.C54_smooth"], "note": "exact arithmetic over an ordered field / the reals; rounding is not modelled"},
{"property": "C55", "status": "proved", "theorems": ["K52.Akima.C55_piece", "K52.Akima.C55_domain", "K52.Akima.C55_uninitialised"], "note": "exact arithmetic over an ordered field / the reals; rounding is not modelled"},
{"property": "C56", "status": "proved", "theorems": ["K52.Cwt.C56_rows", "K52.Cwt.C56_progress", "K52.Cwt.C56_zero_step", "K52.Cwt.C56_negative_step", "K52.Cwt.C56_empty_signal", "K52.Cwt.C56_not_ready", "K52.Cwt.C56_homogeneous"], "note": "exact real/complex arithmetic; max_length = 1 and logarithmic scales of non-positive lengths (infinities and NaN in the code) excluded by hypothesis"},
{"property": "C57", "status": "proved", "theorems": ["K52.FloatingPoint.C57_scalar", "K52.FloatingPoint.C57_isZero", "K52.FloatingPoint.C57_vector", "K52.FloatingPoint.C57_refl", "K52.FloatingPoint.C57_symm", "K52.FloatingPoint.C57_not_transitive"], "note": ""},
{"property": "C58", "status": "proved", "theorems": ["K52.Factory.C58_best", "K52.Factory.C58_mpi_once", "K52.Factory.C58_can_create"], "note": "server process only"},
{"property": "C59", "status": "proved", "theorems": ["K52.GA.C59_elite", "K52.GA.C59_fittest"], "note": "before mutation"},
{"property": "C60", "status": "proved", "theorems": ["K52.Pool.C60_progress", "K52.Pool.C60_joined", "K52.Pool.C60_checks", "K52.Pool.C25_terminates"], "note": ""},
{"property": "C61", "status": "proved", "theorems": ["K52.Param.C61_same_meta_iff", "K52.Param.C61_same_meta_same_decoding", "K52.Param.C61_validate_initial"], "note": ""},
{"property": "C62", "status": "proved", "theorems": ["K52.CParams.C62_continuous_parameters"], "note": ""},
{"property": "C63", "status": "proved", "theorems": ["K52.HookeJeeves.C63_terminates", "K52.HookeJeeves.C63_may_diverge", "K52.HookeJeeves.C63_climb"], "note": ""},
{"property": "C64", "status": "proved", "theorems": ["K52.NelderMead.C64_second_call", "K52.NelderMead.C64_larger_dimension"], "note": ""},
{"property": "C65", "status": "proved", "theorems": ["K52.NelderMead.C65_regular_simplex"], "note": ""},
{"property": "C66", "status": "proved", "theorems": ["K52.Rosenbrock.C66_leaves_the_minimum", "K52.Rosenbrock.C66_always_moves"], "note": ""},
{"property": "C67", "status": "proved", "theorems": ["K52.Akima.C67_accepts", "K52.Akima.C67_values"], "note": "exact arithmetic over an ordered field / the reals; rounding is not modelled (with rounding the last knot may fall below 4)"},
{"property": "C68", "status": "proved", "theorems": ["K52.Cwt.C68_build_outcome", "K52.Cwt.C68_contents", "K52.Cwt.C68_log_scales", "K52.Cwt.C68_linear_scales"], "note": "exact arithmetic over an ordered field / the reals; rounding is not modelled"},
{"property": "C69", "status": "proved", "theorems": ["K52.Cwt.C69_haar_real", "K52.Cwt.C69_haar_imag", "K52.Cwt.C69_haar_mean", "K52.Cwt.C69_haar_energy", "K52.Cwt.C69_morlet", "K52.Cwt.C69_morlet_mean", "K52.Cwt.C69_mhat_shape", "K52.Cwt.C69_mhat_mean", "K52.Cwt.C69_mhat_energy"], "note": "exact real arithmetic; PI and exp are the real ones"},
{"property": "C70", "status": "proved", "theorems": ["K52.Gradient.Cg.C70_exact_gradient", "K52.Gradient.Cg.C70_quadratic"], "note": "exact real arithmetic"},
{"property": "C71", "status": "proved", "theorems": ["K52.Gradient.Cg.C71_result", "K52.Gradient.Cg.C71_stationary_start", "K52.Gradient.Cg.C71_almost_stationary"], "note": "exact real arithmetic; infinities/NaN after a division by zero are explicit outcomes"},
{"property": "C72", "status": "proved", "theorems": ["K52.Gradient.Cg.C72_limit_one_is_none", "K52.Gradient.Cg.C72_limit", "K52.Gradient.Cg.C72_never_returns"], "note": "exact real arithmetic"},
{"property": "C73", "status": "proved", "theorems": ["K52.Gradient.Sd.C73_stationary_start", "K52.Gradient.Sd.C73_affine"], "note": "exact real arithmetic"},
{"property": "C74", "status": "proved", "theorems": ["K52.Gradient.Sd.C74_golden_section", "K52.Gradient.Sd.C74_localization"], "note": "exact real arithmetic; both readings of unqualified abs"},
{"property": "C75", "status": "proved", "theorems": ["K52.Gradient.Sd.C75_result", "K52.Gradient.Sd.C75_limit_one", "K52.Gradient.Sd.C75_never_converged"], "note": "exact real arithmetic"},
{"property": "C76", "status": "proved", "theorems": ["K52.Gradient.Sd.C76_terminates"], "note": "exact real arithmetic"},
{"property": "C77", "status": "proved", "theorems": ["K52.Random.C77_glibc_bits", "K52.Random.C77_glibc_bias", "K52.Random.C77_agrees"], "note": "About a reading of undefined behaviour (two's complement wrap-around, shift counts mod 32), stated as such."},
{"property": "C78", "status": "proved", "theorems": ["K52.GA.C78_no_interference", "K52.GA.C78_report", "K52.GA.C78_first_invalid", "K52.GA.Examples.C78_previous_generation", "K52.GA.C78_left_over"], "note": "Callback assumed not to throw; counters as unbounded naturals."},
{"property": "C79", "status": "proved", "theorems": ["K52.GA.C79_valid", "K52.GA.C79_missing", "K52.GA.C79_resume"], "note": "Number formatting abstract (Text.Format.Sane)."},
{"property": "C80", "status": "proved", "theorems": ["K52.GradientProg.C80_steepest_descent", "K52.GradientProg.C80_conjugate_gradient", "K52.GradientProg.C80_constraint_violation"], "note": "The programs are proved to compute what the functional models of C70-C76 compute; real arithmetic, loops with fuel."},
{"property": "C81", "status": "proved", "theorems": ["K52.GradientProg.C81_ignores_maximize", "K52.GradientProg.C81_same_outcome", "K52.GradientProg.C81_minimizes_to_the_maximum"], "note": "Exact arithmetic; C81_minimizes_to_the_maximum uses C70."},
{"property": "C82", "status": "proved", "theorems": ["K52.Tasks.C82_clone", "K52.Tasks.C82_clone_history", "K52.Tasks.C82_wrong_arguments", "K52.Tasks.C82_process", "K52.Tasks.C82_process_history", "K52.Tasks.C82_process_unsupported", "K52.Tasks.C82_perform"], "note": "Optimizers as objects with settings and memory; both directions of the multi-start characterization."},
{"property": "C83", "status": "proved", "theorems": ["K52.Tasks.C83_inner", "K52.Tasks.C83_hooke_jeeves", "K52.Tasks.C83_hooke_jeeves_returns", "K52.Tasks.C83_nelder_mead", "K52.Tasks.C83_unsupported"], "note": "Random search with an inner optimizer; termination for Nelder-Mead and, under C63's conditions, for Hooke-Jeeves."},
{"property": "C84", "status": "proved", "theorems": ["K52.Tasks.C84_remote", "K52.Tasks.C84_rejected", "K52.Tasks.C84_rejected_here"], "note": "Composition of C33 (messages) with running the received task."},
{"property": "C85", "status": "proved", "theorems": ["K52.Mpi.C85_throws", "K52.Mpi.C85_nothing_left", "K52.Mpi.C85_freed", "K52.Mpi.C85_reachable", "K52.Mpi.C85_stale"], "note": "Transition system on top of C28; the last two claims are existence statements about reachable states."},
{"property": "C86", "status": "proved", "theorems": ["K52.Mpi.C86_not_early", "K52.Mpi.C86_all_leave", "K52.Mpi.C86_destroy"], "note": "Transition system on top of C28."},
{"property": "C87", "status": "proved", "theorems": ["K52.Processor.C87_max_first", "K52.Processor.C87_max_skip", "K52.Processor.C87_min_forgets", "K52.Processor.C87_min_last", "K52.Processor.C87_numbers", "K52.Processor.C87_optimization", "K52.Grid.C87_max_element", "K52.Grid.C87_grid_first"], "note": "over any order with IEEE comparisons; std::max_element taken as the scan all implementations use"},
{"property": "C88", "status": "proved", "theorems": ["K52.HookeJeeves.C88_exploration_stuck", "K52.HookeJeeves.C88_nan_start", "K52.HookeJeeves.C88_nan_start_returns", "K52.HookeJeeves.C88_unlimited", "K52.HookeJeeves.C88_numbers_never_worse", "K52.HookeJeeves.C88_pattern_runs_on", "K52.HookeJeeves.C88_falls_off", "K52.HookeJeeves.C88_may_get_worse"], "note": "rounding and overflow arbitrary; the falling-off and getting-worse runs are exact computations in a concrete type with NaN"},
{"property": "C89", "status": "proved", "theorems": ["K52.NelderMead.C89_not_continued", "K52.NelderMead.C89_one_iteration", "K52.NelderMead.C89_nan_start", "K52.NelderMead.C89_at_most_one", "K52.NelderMead.C89_enters", "K52.NelderMead.C89_vertex_one", "K52.NelderMead.C89_result"], "note": "rounding and overflow arbitrary"},
{"property": "C90", "status": "proved", "theorems": ["K52.GA.C90_sort", "K52.GA.C90_nan_accepted", "K52.GA.C90_select_throws", "K52.GA.C90_no_next", "K52.GA.C90_throws", "K52.GA.C90_first_is_best", "K52.GA.C90_best_stuck", "K52.GA.C90_optimize", "K52.GA.C90_nan_result", "K52.GA.C90_infinite", "K52.GA.NanExamples.C90_nan_wins"], "note": "NaN part for every arithmetic with IEEE comparisons and NaN propagation; the infinite-fitness part for exact arithmetic with infinities"},
{"property": "C91", "status": "proved", "theorems": ["K52.IeeeAnnealing.C91_step", "K52.IeeeAnnealing.C91_nan_start", "K52.IeeeAnnealing.C91_number_start", "K52.IeeeAnnealing.C91_returns", "K52.IeeeAnnealing.C91_minus_infinity", "K52.IeeeAnnealing.C91_agrees"], "note": "no-exception part assumes exp of a non-positive number is in [0,1] or NaN; the minus-infinity part is for exact arithmetic with infinities; C91_agrees ties the IEEE model to the exact model of C46"},
{"property": "C92", "status": "proved", "theorems": ["K52.Random.C92_base", "K52.Random.C92_continuous", "K52.Random.C92_within", "K52.Random.C92_attained", "K52.Random.C92_vector", "K52.Random.C92_event", "K52.Random.C92_overshoot"], "note": "Rounded arithmetic: Spec/Rounding.lean; overflow and underflow are outside it."},
{"property": "C93", "status": "proved", "theorems": ["K52.GA.C93_select", "K52.GA.C93_absorbed", "K52.GA.C93_double", "K52.GA.C93_best"], "note": "Rounded arithmetic: Spec/Rounding.lean (no overflow, underflow or NaN; NaN is in C90)."},
{"property": "C94", "status": "proved", "theorems": ["K52.GA.C94_progress", "K52.GA.C94_terminates", "K52.GA.C94_library", "K52.GA.C94_flip", "K52.GA.C94_linear", "K52.GA.selects_field", "K52.GA.selects_rounded", "K52.GA.Examples.C94_small_cache_throws"], "note": "Selection never fails is proved for ordered fields (selects_field) and rounded arithmetic (selects_rounded); retry loops are cut by a fuel argument, and need not terminate when integer ranges have gaps."},
{"property": "C95", "status": "proved", "theorems": ["K52.RoundParam.C95_decode", "K52.RoundParam.C95_setValue", "K52.RoundParam.C95_precision", "K52.RoundParam.C95_constructor", "K52.RoundParam.C95_exact_grid", "K52.RoundParam.C95_start_above_max", "K52.RoundParam.C95_step_lost"], "note": "Binary rounding with p >= 32 digits (p = 53 for the two violations); overflow and underflow not modelled."},
{"property": "C96", "status": "proved", "theorems": ["K52.RoundArr.C96_decode", "K52.RoundArr.C96_max_rejected", "K52.RoundArr.C96_step_lost", "K52.RoundArr.C96_wrap_around"], "note": "Binary rounding with p >= 34 digits (p = 53 for the failures); overflow and underflow not modelled."},
{"property": "C97", "status": "proved", "theorems": ["K52.WaveletObj.C97_setters", "K52.WaveletObj.C97_recreate", "K52.WaveletObj.C97_build_agrees", "K52.WaveletObj.C97_cwt", "K52.WaveletObj.C97_cwt_step_one", "K52.WaveletObj.C97_failed_create"], "note": "double is ℝ; a negative length set when the transformation is called is reported as undefined behaviour"},
{"property": "C98", "status": "proved", "theorems": ["K52.Mpi.C98_no_return", "K52.Mpi.C98_blocked", "K52.Mpi.C98_progress", "K52.Mpi.C98_can_settle", "K52.Mpi.C98_settles", "K52.Mpi.C98_example", "K52.Mpi.C98_example_blocked"], "note": "all schedules; tasks that hang are chosen by an arbitrary predicate. A worker that dies (rather than hangs) is usually taken down with all others by MPI and is not modelled."},
{"property": "C99", "status": "proved", "theorems": ["K52.Mutator.C99_constructor", "K52.Mutator.C99_throws_iff", "K52.Mutator.C99_exact", "K52.Mutator.C99_monotone", "K52.Mutator.C99_start_side", "K52.Mutator.C99_from_zero", "K52.Mutator.C99_from_one", "K52.Mutator.C99_error", "K52.Mutator.C99_safe", "K52.Mutator.C99_below_zero", "K52.Mutator.C99_above_one", "K52.GA.C99_run", "K52.GA.Examples.C99_run_dies"], "note": "arithmetic with every operation rounded (Fl r); counterexamples in Nearest.double, evaluated by the kernel"}
]}
