{"id": "C01", "title": "Cache lookups return the last value stored under that key", "statement": "After any history of Cache calls (AddValue, AddValues, IsCached, GetCachedValue, including calls that threw), GetCachedValue(k) either throws or returns exactly the value given by the most recent successful store to k; it never returns a value stored under another key or an overwritten one.", "quantifier": "every history of calls, every key and value type, every size limit", "why_tests_cant": "The result depends on an unbounded history of inserts, placeholder entries created by lookups, evictions and failed inserts.", "anchors": ["include/k52/common/cache.h: Cache::GetCachedValue, Cache::AddValue, Cache::AddValues, Cache::ClearUnusedCacheValues"]}
{"id": "C02", "title": "IsCached agrees with GetCachedValue", "statement": "In every reachable state IsCached(k) returns true if and only if GetCachedValue(k) would return (not throw), and calling either does not change the answer the other gives next for any key. (The usage counter is an int: the 2^31st read of one stored value is undefined behaviour.)", "quantifier": "every reachable cache state and every pair of keys", "why_tests_cant": "IsCached mutates the map (operator[] inserts a placeholder), so agreement has to be shown for every state those insertions can produce.", "anchors": ["include/k52/common/cache.h: Cache::IsCached, Cache::GetCachedValue"]}
{"id": "C03", "title": "Eviction never drops a value that has been read", "statement": "A value that was returned by GetCachedValue at least once since it was last stored stays retrievable until it is overwritten, whatever calls follow; only never-read entries are evicted. (Up to 2^31-1 reads of it, after which the int usage counter overflows.)", "quantifier": "every history following the read", "why_tests_cant": "Needs all continuations, including those that drive the cache over its limit many times.", "anchors": ["include/k52/common/cache.h: Cache::ClearUnusedCacheValues, Cache::ClearCacheUpToLimit"]}
{"id": "C04", "title": "Cache growth is bounded by the limit plus one entry, and overflow is permanent", "statement": "After every AddValue that returns normally the number of entries is at most (largest entry count not over the limit) + 1. Once AddValue throws because everything has been used, every later AddValue throws too, whatever calls come in between, and a throwing AddValue changes no stored value that had been read.", "quantifier": "every history and every limit", "why_tests_cant": "Liveness-style 'for ever after' statement over unbounded histories.", "anchors": ["include/k52/common/cache.h: Cache::AddValue, Cache::ClearCacheUpToLimit, Cache::IsSizeLimitExceeded, Cache::Create"]}
{"id": "C05", "title": "Integer parameter: value -> chromosome -> value, with its one exception", "statement": "For every IntParameter(v,min,max) with min <= v <= max that can be built, SetChromosome followed by SetFromChromosome on a parameter with the same bounds restores v, except exactly when v = max and max - min is a power of two; then it restores min.", "quantifier": "all integers min < max and v in [min,max]", "why_tests_cant": "2^64 bound pairs and values; the failing corner is one point per power of two.", "anchors": ["src/optimization/params/int_parameter.cpp: IntParameter::CountChromosomeSize, SetChromosomeFromInt, GetIntFromChromosome"]}
{"id": "C06", "title": "Integer parameter: chromosome -> value -> chromosome is the identity", "statement": "Every chromosome of the declared size is decoded to a value that encodes to the same chromosome, decoding is injective, and the decoded value lies in [min, min + 2^size). (If that value does not fit an int, decoding is undefined behaviour.)", "quantifier": "all bounds and all bit strings of the declared length", "why_tests_cant": "Exponentially many chromosomes for each of unboundedly many sizes.", "anchors": ["src/optimization/params/int_parameter.cpp: SetFromChromosome, SetChromosome, GetIntFromChromosome, SetChromosomeFromInt"]}
{"id": "C07", "title": "Integer parameter: the chromosome is the shortest that spans the range, and sizing terminates", "statement": "GetChromosomeSize is the least s with max - min <= 2^s; the computation finishes without signed overflow exactly when max - min <= 2^30 (and the subtraction itself fits), otherwise it runs into undefined behaviour.", "quantifier": "all int bounds", "why_tests_cant": "Statement over every 32-bit bound pair including the overflow corner.", "anchors": ["src/optimization/params/int_parameter.cpp: IntParameter::CountChromosomeSize"]}
{"id": "C08", "title": "A chromosome of the wrong length is rejected and changes nothing", "statement": "SetFromChromosome and SetChromosome on IntParameter, DoubleParameter and DoubleParametersArray, given iterators whose distance differs from GetChromosomeSize, throw and leave the stored value(s) and the chromosome unchanged. The chromosome size can be set only once.", "quantifier": "all parameters, all chromosomes, all lengths", "why_tests_cant": "All lengths and all states.", "anchors": ["src/optimization/params/const_chromosome_size_paremeters.cpp", "src/optimization/params/int_parameter.cpp", "src/optimization/params/double_parameters_array.cpp"]}
{"id": "C09", "title": "Double parameter: quantisation error is below the declared precision", "statement": "For every DoubleParameter that can be built the actual precision is at most the desired one, and more than half of it unless it equals the whole range max - min; for every value v in [min,max) SetValue then GetValue, and SetValue, encode, decode, GetValue return the same grid point g with g <= v < g + precision and min <= g < max.", "quantifier": "all real bounds, desired precisions and values (real arithmetic)", "why_tests_cant": "A continuum of bounds, precisions and values.", "anchors": ["src/optimization/params/double_parameter.cpp: DoubleParameter, GetValue, SetValue, CountBestMaxInt, GetMaxInt"]}
{"id": "C10", "title": "Double parameter: the upper bound does not survive the chromosome round trip", "statement": "For every DoubleParameter that can be built, SetValue(max) passes CheckConstraints, but encoding and decoding it gives min; every value decoded from a chromosome lies in [min,max).", "quantifier": "all double parameters", "why_tests_cant": "Corner value for every bound pair.", "anchors": ["src/optimization/params/double_parameter.cpp: DoubleParameter::DoubleParameter", "src/optimization/params/int_parameter.cpp: CountChromosomeSize"]}
{"id": "C11", "title": "Double array: values survive the chromosome round trip within the precision and only the own slice is written", "statement": "For every DoubleParametersArray with all values in [min,max), SetChromosome then SetFromChromosome restores every value up to the precision (exactly for grid points), in order; element i is coded in bits [i*s,(i+1)*s).", "quantifier": "all array lengths, values, bounds and precisions", "why_tests_cant": "Unbounded array lengths and a continuum of values.", "anchors": ["src/optimization/params/double_parameters_array.cpp: SetChromosome, SetFromChromosome"]}
{"id": "C12", "title": "Double array: which values SetValues accepts", "statement": "SetValues throws on a wrong number of values without changing anything. With the right number it returns normally iff every value lies strictly between min - precision and max + precision (so values up to one precision outside the bounds pass); otherwise it throws, with the rejected values already stored. (Values further from min than 2^31 precisions overflow a conversion to int and are undefined behaviour.)", "quantifier": "all arrays and value vectors", "why_tests_cant": "Continuum of values near the bounds.", "anchors": ["src/optimization/params/double_parameters_array.cpp: SetValues, CheckConstraints"]}
{"id": "C13", "title": "Composite parameters: members own consecutive disjoint slices", "statement": "The chromosome size of a CompositeDiscreteParameters is the sum of its members' sizes; SetFromChromosome gives member i exactly its own slice, SetChromosome writes exactly the members' encodings in order, and nested round trips follow from members' round trips.", "quantifier": "all lists of members (including nested composites) and all chromosomes", "why_tests_cant": "Unbounded nesting and member counts.", "anchors": ["src/optimization/params/composite_discrete_parameters.cpp"]}
{"id": "C14", "title": "Composite parameters: constraints hold iff every member's constraints hold", "statement": "CheckConstraints on a composite returns true iff it is true of each member; it, size queries and encoding throw before Initialize.", "quantifier": "all member lists, nested", "why_tests_cant": "Unbounded nesting.", "anchors": ["src/optimization/params/composite_discrete_parameters.cpp: CheckConstraints, Initialize, GetParameter", "src/optimization/initialization_checker.cpp"]}
{"id": "C15", "title": "Clone is a deep, equal and independent copy", "statement": "Clone of an IntParameter/DoubleParameter/DoubleParametersArray/composite has the same meta parameters, value and encoding, and no sequence of later updates to either object is observable through the other.", "quantifier": "all parameters and all later update sequences", "why_tests_cant": "Arbitrary update histories after the clone.", "anchors": ["src/optimization/params/int_parameter.cpp: Clone", "src/optimization/params/double_parameter.cpp: Clone", "src/optimization/params/double_parameters_array.cpp: Clone", "src/optimization/params/composite_discrete_parameters.cpp: Clone"]}
{"id": "C16", "title": "Individual text form round-trips", "statement": "Writing an Individual with a non-empty chromosome to a stream and reading it into an individual with a chromosome of the same size restores the chromosome, and the fitness up to the printed digits; text whose chromosome word has the wrong length or a character other than 0/1 throws and changes nothing (a negative fitness throws after the chromosome has been replaced; an empty chromosome cannot be read back). The same holds, individual by individual and in order, of a whole population file. A text with a proper chromosome whose fitness does not parse, or that ends after the chromosome, is accepted with the fitness 0 and leaves the stream failed, so that a population file cut off within its last line is read without an error; from a failed stream no further individual can be read.", "quantifier": "all non-empty chromosomes, all fitness values the number printer round-trips", "why_tests_cant": "All chromosomes of all lengths.", "anchors": ["src/optimization/genetic_algorithm/individual.cpp: operator<<, operator>>"]}
{"id": "C17", "title": "Crossover exchanges tails and invents no bits", "statement": "After crossover of two equal-length chromosomes at the drawn point, each position holds the same two bits as before (possibly exchanged), the part before the point is unchanged and the rest is exchanged; lengths are unchanged; crossover of different lengths throws.", "quantifier": "all chromosome pairs and random draws", "why_tests_cant": "All chromosomes, all crossover points.", "anchors": ["src/optimization/genetic_algorithm/individual.cpp: Individual::Crossover, Individual::BoolCrossover"]}
{"id": "C18", "title": "Only valid individuals are produced", "statement": "Every individual produced by random initialisation or mutation, and every child a successful crossover delivers, satisfies its constraints and holds exactly the parameters its chromosome encodes, for every stream of random numbers (if the call returns); in a run of the genetic algorithm this covers all generations, except that a first generation made from supplied initial parameters is taken as supplied. (A failed crossover leaves the exchanged chromosomes behind and an invalid mutation is mutated further, not undone.)", "quantifier": "all random streams, all parameter constraints, all individuals", "why_tests_cant": "Every random stream.", "anchors": ["src/optimization/genetic_algorithm/individual.cpp: SetRandomChromosome, Crossover, Mutate"]}
{"id": "C19", "title": "Genetic algorithm construction accepts exactly the documented configurations", "statement": "GeneticAlgorithm::Create returns a non-null pointer exactly when the population size is even and positive, the generation count is positive and the mutator is non-null; the elitism count is not validated. SetInitialParameters keeps copies of the first population_size objects and reads past the end when fewer are given; composite initial parameters are always rejected when Optimize validates them.", "quantifier": "all integer argument combinations", "why_tests_cant": "All argument combinations.", "anchors": ["src/optimization/genetic_algorithm/genetic_algorithm.cpp: GeneticAlgorithm::Create, GeneticAlgorithm::GeneticAlgorithm"]}
{"id": "C20", "title": "Population size is constant over generations", "statement": "Each generation has exactly population_size individuals, all with chromosomes of the same length as the parameters.", "quantifier": "all random streams, fitness functions, numbers of generations", "why_tests_cant": "All random streams and generation counts.", "anchors": ["src/optimization/genetic_algorithm/genetic_algorithm.cpp: GenerateNextPopulation, Initialize"]}
{"id": "C21", "title": "The genetic algorithm returns the best individual it evaluated", "statement": "When Optimize returns, the best individual is one of the evaluated individuals, no individual of any generation has a larger fitness, the best fitness never decreases from one generation to the next, and the parameters are left holding what its chromosome decodes to; the run ends early exactly when the stop value was reached. (If a supplied initial parameter does not survive encoding, e.g. an integer at an upper bound that is a power of two above the lower, the parameters left differ from those evaluated.)", "quantifier": "all random streams, fitness functions, numbers of generations", "why_tests_cant": "All runs.", "anchors": ["src/optimization/genetic_algorithm/genetic_algorithm.cpp: RunIterations, UpdateBestIndivid, Optimize"]}
{"id": "C22", "title": "Roulette selection always selects and only fit individuals", "statement": "For non-negative fitnesses with positive sum the selection always yields an index in range for every draw in [0, sum], and individual i is selected exactly for draws in its own half-open share of the wheel.", "quantifier": "all non-negative fitness vectors, all draws", "why_tests_cant": "Continuum of fitness vectors and draws.", "anchors": ["src/optimization/genetic_algorithm/genetic_algorithm.cpp: SelectRandomIndividualIndexForCrossover"]}
{"id": "C23", "title": "Cached fitness evaluation equals direct evaluation", "statement": "Obtaining fitness through the objective function counter gives each individual the same fitness as calling the objective function on its own parameters, in every generation of every run, provided the chromosome hash has no collision among chromosomes seen and the counter was only used with the same function. (Both provisos are needed: a collision, or a second function on the same object, gives wrong fitnesses.)", "quantifier": "all populations, histories, hash functions", "why_tests_cant": "Histories and hash collisions.", "anchors": ["src/optimization/objective_function_counter.cpp: ObjectiveFunctionCounter::ObtainFitness"]}
{"id": "C24", "title": "Thread pool: results come back in task order under every schedule", "statement": "DoTasks on the thread pool, for any number of workers and tasks, returns only after every task has been performed exactly once, and results[i] is the result of tasks[i], for every interleaving of the workers.", "quantifier": "all task lists, worker counts and interleavings", "why_tests_cant": "Unboundedly many interleavings.", "anchors": ["src/parallel/thread/thread_worker_pool_templated.h: DoTasks", "src/parallel/thread/worker.h: Worker::operator()", "src/parallel/thread/thread_safe_queue.h", "src/parallel/thread/thread_worker_pool.cpp: DoTasks"]}
{"id": "C25", "title": "Thread pool: DoTasks makes progress", "statement": "As long as no task throws, in every reachable state before DoTasks returns some thread can take a step, and every maximal execution is finite and ends with DoTasks returning. If some task throws, DoTasks never returns under any schedule.", "quantifier": "all schedules", "why_tests_cant": "Deadlock freedom and termination over all interleavings.", "anchors": ["src/parallel/thread/worker.h", "src/parallel/thread/thread_worker_pool_templated.h"]}
{"id": "C26", "title": "Thread-safe queue is a FIFO that neither loses nor duplicates elements", "statement": "For every interleaving of Push, WaitAndPop and TryPop by any number of threads, the sequence of popped values is a prefix of the sequence of pushed values; WaitAndPop blocks while empty; TryPop returns false iff empty.", "quantifier": "all histories of all threads", "why_tests_cant": "All interleavings.", "anchors": ["src/parallel/thread/thread_safe_queue.h"]}
{"id": "C27", "title": "Sequential pool performs tasks in order", "statement": "DoTasks of the sequential pool performs the tasks in order, each once, and returns results[i] of tasks[i]; if a task throws, the exception leaves DoTasks at once, the later tasks are not performed. The statistics have one entry with no errors and as many counts as tasks that returned, over all calls.", "quantifier": "all task lists and histories", "why_tests_cant": "Unbounded histories.", "anchors": ["src/parallel/sequential_worker_pool.cpp"]}
{"id": "C28", "title": "MPI pool: right results, one task per worker, termination", "statement": "DoTasks of the MPI pool, for any number of workers >= 1, any task list and any order in which workers and messages progress: when it returns, results[i] holds exactly the result of tasks[i], every task was performed exactly once and one statistics entry per task was made; at all times each worker has at most one outstanding task, and a task is only sent to an existing worker waiting for one; nothing is left behind for the next call; the call cannot deadlock, makes exactly 3p+2 non-polling steps per task plus one, and under fair progress of workers and messages it returns.", "quantifier": "all worker counts, task lists, result sizes, schedules and completion orders, any number of successive calls", "why_tests_cant": "All completion orders.", "anchors": ["src/parallel/mpi/mpi_worker_pool.cpp: DoTasks, SendTask, WaitAndPopNextExpectation"]}
{"id": "C29", "title": "Worker statistics add up", "statement": "The statistics of a pool list every worker with at least one event in increasing id order; the sum of counts equals the number of RegisterCount calls, and each worker's figures equal the number of its own events.", "quantifier": "all event histories", "why_tests_cant": "Unbounded histories.", "anchors": ["src/parallel/statistics_aggregator.cpp", "src/parallel/worker_statistics.cpp"]}
{"id": "C30", "title": "Asynchronous call chain performs each call once, in order", "statement": "An AsyncCallChain makes its calls in the order they were added, each once; a call is made only when the communication of the previous one is over (otherwise MakeNextCall throws), IsCurrentCallFinished tells exactly that, no request is tested again after a positive test, and a finished chain with calls left can always make the next one.", "quantifier": "all histories of AddAsyncCall/MakeNextCall/completion", "why_tests_cant": "All histories.", "anchors": ["src/parallel/mpi/async_call_chain.cpp"]}
{"id": "C31", "title": "Polling delay stays within its bounds and resets", "statement": "DelaySupplier's delay is 10^k ms capped at 1000, k the number of increases since the last reset: always between 1 and 1000 ms, never decreasing between resets, 1 after a reset.", "quantifier": "all call histories", "why_tests_cant": "All histories.", "anchors": ["src/parallel/mpi/delay_supplier.cpp"]}
{"id": "C32", "title": "Transferable object registry: last registration wins and objects are independent", "statement": "GetObject(id) returns a clone of the last object registered under id or throws when none was; lookups never change later answers.", "quantifier": "all histories of registrations and lookups", "why_tests_cant": "Histories.", "anchors": ["src/parallel/mpi/identifyable_objects_manager.cpp"]}
{"id": "C33", "title": "MPI messages decode to what was sent", "statement": "Receiving what was sent restores it and consumes exactly the sent messages: all settings of the five transferable optimizers (the others throw on Send and Receive), continuous parameters, discrete parameters when the receiver registered an object with the same bounds (double arrays rounded down by less than the precision; with other bounds an integer arrives as its distance from the lower bound), evaluation tasks, optimisation tasks (function type, parameters, optimizer, direction) and results. Of an objective function only the type travels: the receiver evaluates its own registered object; if functions of a type agree, the remote value is the local one. An unregistered type makes the receiver throw.", "quantifier": "all settings, values, array lengths, composite shapes, registries and messages that follow", "why_tests_cant": "All objects.", "anchors": ["src/optimization/hooke_jeeves_method.cpp: Send, Receive", "src/optimization/bounded_nelder_mead.cpp: Send, Receive", "src/optimization/optimization_task.cpp: Send, Receive", "src/optimization/count_objective_function_task.cpp: Send, Receive", "src/optimization/optimization_task_result.cpp", "src/optimization/params/continuous_parameters_array.cpp"]}
{"id": "C34", "title": "Settings: the last value given for a name wins", "statement": "After parsing any command line a property holds the value given last for its (dotted) name; a property that was not given but is the beginning of a longer given name is the empty string; every other is missing. --name=value gives value (further '=' included) to name, --name gives its own name as the value, other arguments are ignored. put changes only the named property (and creates empty ones on the way). Reading a mandatory property throws exactly when it is missing or not convertible; an optional one then yields the default; a value whose text reads back is read back.", "quantifier": "all command lines, names, values, trees and translators", "why_tests_cant": "All histories and strings.", "anchors": ["include/k52/common/settings_manager.inl", "include/k52/common/settings_manager.h"]}
{"id": "C35", "title": "Settings merge prefers the left side and loses nothing", "statement": "Merge of settings succeeds and gives every property its value from the left side if it has one there, else from the right side (plain, non-repeated names on the right); with repeated names the left side still never changes. A child name containing a dot on both sides makes Merge throw.", "quantifier": "all trees", "why_tests_cant": "Unbounded trees.", "anchors": ["include/k52/common/settings_manager.h: Merge"]}
{"id": "C36", "title": "Random quantities stay in their ranges", "statement": "For every stream of rand() values, GetContinuousRandomQuantity(min,max) lies in [min,max] and GetUniformlyDistributedDiscreteRandomQuantity(min,max) lies in {min..max}, with every value reachable; probabilities outside [0,1] are rejected; events of probability 1 always happen.", "quantifier": "all random streams and bounds", "why_tests_cant": "All streams and bounds.", "anchors": ["src/common/random.cpp"]}
{"id": "C37", "title": "Random booleans consume each random bit once", "statement": "With RAND_MAX < 2^30, GetRandomBool calls return the negated bits of the successive rand() values, low bit first, never skipping or reusing a bit. With RAND_MAX >= 2^30 (glibc) the constructor's int overflow is undefined behaviour.", "quantifier": "all streams, all numbers of calls", "why_tests_cant": "All histories of calls.", "anchors": ["src/common/random.cpp: Random::Random, GetNextBitFromBoolBase, GetRandomBool"]}
{"id": "C38", "title": "Mutation only flips, and its probability schedule stays between the end points", "statement": "A mutator never changes the chromosome length, flips a bit exactly when the random event says so; LinearMutator's probability lies between its start and end values for every generation number in range, is monotone and hits both ends. For other generation numbers it is extrapolated, not clamped, and mutation throws when the result is not a probability; with one generation it never mutates at generation 0, and at any other number it never mutates when the end points are equal and throws when they differ.", "quantifier": "all chromosomes, random streams, generations", "why_tests_cant": "All streams.", "anchors": ["src/optimization/genetic_algorithm/flip_bit_mutator.cpp", "src/optimization/genetic_algorithm/gen_mutator_base.cpp", "src/optimization/genetic_algorithm/linear_mutator.cpp"]}
{"id": "C39", "title": "Parameter processors return the best candidate", "statement": "Given a non-empty list of candidates, a processor returns one of them (the optimizing processor: the optimization result of one of them) than which none is better; ties go to the first candidate when maximising and to the last when minimising. With no candidates the simple processor throws; for the optimizing processor the behaviour is undefined.", "quantifier": "all candidate lists and objective functions", "why_tests_cant": "All lists.", "anchors": ["src/optimization/simple_parameters_processor.cpp", "src/optimization/optimization_parameters_processor.cpp"]}
{"id": "C40", "title": "Grid search evaluates every grid point exactly once and returns a best one", "statement": "For a positive precision and ordered bounds (and a grid small enough for machine integers) grid search evaluates the objective at every point of the grid lower + m*precision <= upper exactly once and nowhere else, and leaves in the parameters the first of the points with the largest value: it always maximises. Non-continuous parameters and empty grids are rejected; a grid whose size overflows is searched only partially or not at all.", "quantifier": "all dimensions, numbers of points, bounds and objective functions", "why_tests_cant": "points^dimension grows without bound.", "anchors": ["src/optimization/grid_search.cpp"]}
{"id": "C41", "title": "Hooke-Jeeves never returns a worse point than it started from", "statement": "When the search returns, the objective at the result is at least as good as at the initial point (maximising and minimising), for every objective function that never gives NaN (C88 says what NaN does) and any arithmetic.", "quantifier": "all objective functions, initial points, steps", "why_tests_cant": "All functions.", "anchors": ["src/optimization/hooke_jeeves_method.cpp"]}
{"id": "C42", "title": "Nelder-Mead stays within the bounds when it starts there", "statement": "In exact arithmetic: if the initial simplex lies within the bounds, every point at which Nelder-Mead evaluates the function and the point it returns lie in [lower_bound, upper_bound] in every coordinate; a reflected point always does. Projection is the nearest point within the bounds, idempotent, and leaves in-bounds points alone. The initial simplex itself is not projected: its vertices are evaluated as they are, and a constant function returns the start even out of bounds. (In double, rounding can lead out of the bounds: C114.)", "quantifier": "all functions, starts, bounds, square roots, previous histories of the object", "why_tests_cant": "Continuum.", "anchors": ["src/optimization/bounded_nelder_mead.cpp: CorrectByProjectingToBounds, FindOptimalParameters, GetRegularSimplex"]}
{"id": "C43", "title": "Nelder-Mead picks the right vertices", "statement": "GetIndexes identifies a largest, a second largest (largest among the others) and the first smallest function value, the largest being distinct from the other two; fewer than two values are rejected.", "quantifier": "all value vectors", "why_tests_cant": "All vectors.", "anchors": ["src/optimization/bounded_nelder_mead.cpp: GetIndexes"]}
{"id": "C44", "title": "Nelder-Mead returns the vertex with the largest recorded value", "statement": "The returned point is the vertex of the final polygon with the first largest recorded value of the minimised function (the worst, not the best: minimising x from 0 returns 0 while -2 is a vertex), and since records are not refreshed after a reduction it can even be worse than the start. The final polygon always contains a vertex at least as good as every vertex of the initial simplex, and after convergence the recorded value of the returned point exceeds it by at most sqrt(2(n+1))*precision.", "quantifier": "all functions, starts, configurations and histories of the object", "why_tests_cant": "All objective functions.", "anchors": ["src/optimization/bounded_nelder_mead.cpp: FindOptimalParameters"]}
{"id": "C45", "title": "Nelder-Mead terminates", "statement": "Every call on an object used only in this dimension returns after at most 1000*n+1 iterations with at most (n+1)+2*iterations evaluations, all of the dimension of the start, and for one of three reasons: iteration limit, a polygon (almost) equal to an earlier one, or little difference of the recorded values. An empty start throws.", "quantifier": "all objective functions, starts, configurations and histories", "why_tests_cant": "All functions.", "anchors": ["src/optimization/bounded_nelder_mead.cpp: FindOptimalParameters"]}
{"id": "C46", "title": "Simulated annealing and random search stay within the bounds", "statement": "For every random stream: random search looks at exactly the configured number of points, all within the bounds, and returns one of them than which none is better; simulated annealing moves one coordinate at a time, every coordinate of every point it evaluates or returns is the initial one or lies within the bounds, better moves are always accepted, worse ones with the stated probability test, and the number of evaluations is fixed by the configuration; an empty point is undefined behaviour.", "quantifier": "all random streams, functions, bounds", "why_tests_cant": "All streams.", "anchors": ["src/optimization/simulated_annealing.cpp", "src/optimization/random_search.cpp"]}
{"id": "C47", "title": "A continuous optimizer leaves the optimum in the parameters", "statement": "After Optimize, the parameters hold the point found by the algorithm on the function with the requested sign; minimising f is maximising -f.", "quantifier": "all objective functions and algorithms", "why_tests_cant": "All functions and algorithms.", "anchors": ["src/optimization/continuous_optimizer.cpp"]}
{"id": "C48", "title": "Rosenbrock's method keeps an orthonormal basis and bounded steps", "statement": "With a non-zero first step and a positive max_step, for every function and start, at the beginning of every iteration the basis is orthonormal with as many vectors as dimensions; each iteration moves the point by exactly the new step along each basis vector, steps are lengthened by half when their test improved the value and reversed and halved otherwise, and never exceed max_step; the first vector of the new basis points along the last move; a call makes at most max_iteration_number iterations of n+1 evaluations each, and when it stops earlier no coordinate changed by more than the precision in the last one. Gram-Schmidt yields orthonormal vectors from any independent rows.", "quantifier": "all dimensions, functions, starts and configurations (exact arithmetic)", "why_tests_cant": "All dimensions, continuum of directions.", "anchors": ["src/optimization/hleborodov_rosenbrock_method.cpp: CorrectStep, CreateNewBasis"]}
{"id": "C49", "title": "Inverse Fourier transform undoes the forward transform", "statement": "FourierTransform returns, without out-of-range access, the sequence of textbook DFT sums; it is linear and satisfies Parseval; InverseFourierTransform is the textbook inverse; inverse after forward and forward after inverse return exactly the input for every sequence (also the empty one). FastFourierTransform rejects size 0 at construction and every sequence of another size, and otherwise behaves the same; built without FFTW every transformation throws.", "quantifier": "all lengths and complex sequences (exact arithmetic; FFTW trusted to compute the DFT)", "why_tests_cant": "Ranges over every length and every complex sequence.", "anchors": ["src/dsp/transform/fourier_transform.cpp", "src/dsp/transform/inverse_fourier_transform.cpp"]}
{"id": "C50", "title": "Fourier-based circular convolution equals the direct one", "statement": "For all argument pairs the Fourier-based convolution and the direct convolution have the same outcome: the sequence of sums over indices modulo the length, or an exception when the lengths differ. The FFTW-based object agrees on sequences of its size and throws on all others.", "quantifier": "all lengths and sequences (exact arithmetic)", "why_tests_cant": "Ranges over every pair of sequences of every length.", "anchors": ["src/dsp/transform/fourier_based_circular_convolution.cpp", "src/dsp/transform/circular_convolution.cpp"]}
{"id": "C51", "title": "Circular convolution is commutative, associative, bilinear and shift-equivariant", "statement": "The direct circular convolution commutes, associates, is linear in each argument, commutes with rotation of an argument and has the unit impulse as identity.", "quantifier": "all lengths and sequences", "why_tests_cant": "Ranges over every tuple of sequences of every length.", "anchors": ["src/dsp/transform/circular_convolution.cpp"]}
{"id": "C52", "title": "Wavelet scales: the requested range is covered in order", "statement": "LinearScale accepts exactly 0 < min < max with at least 2 scales (otherwise throws) and yields the requested number of positive, strictly increasing, equally spaced scales from min to max inclusive. LogarithmicScale throws for min >= max, overflows int for more than 2^31-1 exponents, and otherwise yields exactly 2^min, 2^(min+1), ..., 2^max when these fit a double; with min below the double range all scales are 0, scales above it are infinite.", "quantifier": "all scale parameters", "why_tests_cant": "Ranges over a continuum of bounds and all exponents.", "anchors": ["src/dsp/transform/wavelet/linear_scale.cpp", "src/dsp/transform/wavelet/logarithmic_scale.cpp"]}
{"id": "C53", "title": "Fast wavelet transform equals the correlation with the scaled wavelet, whatever was cached before", "statement": "After any history of calls on the same object, Transform either returns one row per scale, where element k of a row is sum over m of x[m] * conj(psi(d/s)/sqrt(s)) with d the circular distance from k to m in (-N/2, N/2] (plus half a sample when N is odd), or throws; it throws for a non-positive scale or wrong signal length, and with valid arguments only when a cache was requested (cache full). TransformOneScale returns the same row before rotation by N/2. Cached samples are never used for another wavelet, scale or length.", "quantifier": "all signals, scales, wavelets, cache limits and call histories with fewer than 2^31 cache reads", "why_tests_cant": "Ranges over all call histories, signals and wavelets.", "anchors": ["src/dsp/transform/wavelet/fast_wavelet_transform.cpp"]}
{"id": "C54", "title": "Akima spline interpolates its knots, is C1 and reproduces straight lines", "statement": "Initialize accepts exactly vectors of equal length with at least five points and throws otherwise. For strictly increasing abscissae the spline takes the given value at every knot, is continuously differentiable on the knot range, reproduces data on a straight line exactly, and scaling and shifting the ordinates scales and shifts the spline.", "quantifier": "all knot sets (exact arithmetic over an ordered field; smoothness over the reals) and all points of the range", "why_tests_cant": "Continuum of knots and points.", "anchors": ["src/dsp/akima_spline.cpp: Initialize, Value"]}
{"id": "C55", "title": "Akima spline evaluates each point with the right piece", "statement": "For strictly increasing abscissae, between knots i and i+1 (both included) Value is the cubic Hermite interpolant of the two knots with Akima's weighted slopes; points outside [first knot, last knot], and every point before Initialize, throw.", "quantifier": "all knot sets and points", "why_tests_cant": "Continuum of points and knots.", "anchors": ["src/dsp/akima_spline.cpp: Value, ResolveInterval"]}
{"id": "C56", "title": "CWT gives ceil(n/step) rows of correlations with the zero-padded signal", "statement": "For a built wavelet and step > 0 the continuous transformation of n samples returns ceil(n/step) rows; row r holds, per scale, the modulus of the correlation of the sampled wavelet with the signal around sample r*step, zeros outside; the progress callback gets 100*r*step/n. Step 0 never returns, a negative step gives exactly one row, an empty signal an empty result, a wavelet without scales throws. Scaling the signal by c scales the rows by |c|.", "quantifier": "all signals, base functions, lengths, counts and steps", "why_tests_cant": "Ranges over all signals, base functions and steps; includes non-termination.", "anchors": ["src/dsp/cwt.cpp", "include/k52/dsp/cwt.h", "src/dsp/wavelet.cpp: Transform"]}
{"id": "C57", "title": "Floating comparison is a tolerance relation", "statement": "AreEqual is reflexive and symmetric; vectors are equal iff they have the same length and are elementwise equal within tolerance; it is not transitive.", "quantifier": "all real values and vectors", "why_tests_cant": "Continuum.", "anchors": ["src/common/floating_point.cpp"]}
{"id": "C58", "title": "Worker pool factory picks the best available pool", "statement": "CreateBestWorkerPool returns a pool of the first kind in the order MPI, thread, sequential that can be created and has at least two workers (sequential always qualifies); it throws only if threads are built in, MPI does not qualify and the number of cores is unknown. In any history of factory calls in a process an MPI pool is handed out at most once, and CanCreateWorkerPool predicts whether CreateWorkerPool succeeds (up to the unknown number of cores).", "quantifier": "all build configurations, numbers of cores and processes, and histories of factory calls", "why_tests_cant": "A test runs one build on one machine; the flag makes the outcome depend on the whole history.", "anchors": ["src/parallel/worker_pool_factory.cpp"]}
{"id": "C59", "title": "Elitism copies the fittest unchanged into the next generation", "statement": "Before mutation, the first 2 x elitism_pairs individuals of the next population are unchanged copies of the fittest individuals of the current one, in decreasing order of fitness; a negative count copies none, a count above half the population copies all. (Mutation is then applied to the copies too.)", "quantifier": "every population, elitism count, sort order of ties, stream of random numbers", "why_tests_cant": "Ranges over all populations, counts and random streams.", "anchors": ["src/optimization/genetic_algorithm/genetic_algorithm.cpp: GenerateNextPopulation, Mutate"]}
{"id": "C60", "title": "Destroying the thread pool joins every worker", "statement": "Destroying a thread pool while no call is in progress always finishes: under every schedule the destructor returns after finitely many steps, and then every worker thread has ended and no task is queued. A pool with a non-positive number of workers cannot be constructed, and DoTasks refuses to run with fewer than two workers.", "quantifier": "all histories of calls, numbers of workers and interleavings of the interruption requests with the workers", "why_tests_cant": "A lost interruption or wake-up shows up under rare schedules only.", "anchors": ["src/parallel/thread/thread_worker_pool_templated.h: ~ThreadWorkerPoolTemplated", "src/parallel/thread/worker.h: Stop, Join, ProcessTasksQueue"]}
{"id": "C61", "title": "HasSameMetaParameters tells exactly whether chromosomes mean the same", "statement": "For constructed parameters HasSameMetaParameters answers true exactly when both are of the same leaf class with equal bounds, precision and number of values, false when only the settings differ, and throws for different classes and for composites; when it answers true, both have the same chromosome size and every chromosome decodes to the same values in both. Initial parameters of the genetic algorithm are accepted exactly when their number is the population size and each has the class and settings of the parameters to optimise.", "quantifier": "all pairs of parameter objects, chromosomes and initial populations", "why_tests_cant": "Ranges over all bounds, precisions and chromosomes.", "anchors": ["src/optimization/params/int_parameter.cpp: HasSameMetaParameters", "src/optimization/params/double_parameter.cpp", "src/optimization/params/double_parameters_array.cpp", "src/optimization/genetic_algorithm/genetic_algorithm.cpp: ValidateInitialParameters"]}
{"id": "C62", "title": "Continuous parameters store values exactly", "statement": "ContinuousParameters::SetValues stores a vector of the right length exactly and changes nothing else; a wrong length throws and leaves the object as it was; Clone has the same values and constraints; the constructors give the passed values, respectively zeros.", "quantifier": "all value vectors and sizes", "why_tests_cant": "must hold for every vector and every object state", "anchors": ["src/optimization/params/continuous_parameters_array.cpp: SetValues, GetValues, Clone, constructors"]}
{"id": "C63", "title": "Hooke-Jeeves terminates on functions without infinite descent, but its iteration limit does not bound it", "statement": "If the objective has no infinite strictly improving sequence of values and repeated division makes the steps small enough, the Hooke-Jeeves search returns; otherwise the configured maximum number of iterations does not stop it: with acceleration 0 it runs forever on a linear function of exact numbers whatever the limit.", "quantifier": "all objective functions, starting points and configurations", "why_tests_cant": "termination for every function, and non-termination, cannot be observed by finite tests", "anchors": ["src/optimization/hooke_jeeves_method.cpp: FindOptimalParameters, ExitCriteria, CoordinatewiseMinimization"]}
{"id": "C64", "title": "Nelder-Mead objects remember the polygons of earlier calls", "statement": "Repeating a call on the same optimizer object with the same function and start stops after one iteration if the first call took at most ten, whatever the precision; after a call in dimension n, a call in a larger dimension reads out of range (undefined behaviour).", "quantifier": "all functions, starts, configurations, dimensions", "why_tests_cant": "depends on the history of the object; has to be settled for every function and start", "anchors": ["src/optimization/bounded_nelder_mead.cpp: WasSamePolygonBefore, GetTerminationCriteria, CountPolygonDifferance", "include/k52/optimization/bounded_nelder_mead.h: previous_polygons_"]}
{"id": "C65", "title": "Nelder-Mead's initial simplex is regular", "statement": "The initial simplex has n+1 vertices, the first being the start, and any two different vertices are at Euclidean distance l.", "quantifier": "all dimensions, starts and edge lengths (exact arithmetic)", "why_tests_cant": "must hold in every dimension and for every l", "anchors": ["src/optimization/bounded_nelder_mead.cpp: GetRegularSimplex"]}
{"id": "C66", "title": "Rosenbrock's method moves in every iteration, even from an optimum", "statement": "Every iteration changes the point whatever the function; so started at the strict minimum and limited to one iteration the method returns a worse point than it was given.", "quantifier": "all functions, starts, configurations with non-zero first step and positive max_step", "why_tests_cant": "a claim about every function and every iteration", "anchors": ["src/optimization/hleborodov_rosenbrock_method.cpp: MakeStep, FindOptimalParameters"]}
{"id": "C67", "title": "A wavelet function made from samples is the Akima spline of the rescaled samples", "statement": "Init from an empty sample vector is undefined behaviour, one or two samples throw, three or more are accepted. Then GetValue is defined at every point: it takes sample i at -4+8i/n, is 0 at 4 and outside [-4,4], and is the Akima spline in between (exact arithmetic).", "quantifier": "all sample vectors and points", "why_tests_cant": "Continuum of samples and points.", "anchors": ["src/dsp/spline_based_wavelet_function.cpp", "src/dsp/akima_wavelet_function.cpp"]}
{"id": "C68", "title": "BuildWavelet samples the base function at the documented scales", "statement": "BuildWavelet throws for a null base function, a negative number of scales or negative length; linear scales with minimal length 0 are undefined behaviour. Otherwise it holds, per scale, max_length samples of the base function. Logarithmic scales start at 1, increase strictly and stay below max/min (excluded); linear scales are equally spaced, positive and end at floor(max/min).", "quantifier": "all base functions, lengths, counts and scale types", "why_tests_cant": "Ranges over all base functions and integer arguments.", "anchors": ["src/dsp/wavelet.cpp: BuildWavelet, createWavelet, createScale"]}
{"id": "C69", "title": "The built-in wavelet functions have the shape, symmetry, mean and energy of wavelets", "statement": "Haar: the odd step function on [-1/2,1/2] and, as imaginary part, the same delayed by 1/4; both have integral 0 and energy 1. Morlet: modulus exp(-t^2/2), conjugate symmetric, 1 at 0, with integral sqrt(2 pi) exp(-25/2), small but not zero. Mexican hat: real, even, positive inside (-3,3), negative outside, integral 0 and energy pi (not 1).", "quantifier": "all real arguments; integrals over the real line", "why_tests_cant": "Continuum of arguments; improper integrals.", "anchors": ["src/dsp/haar_wavelet_function.cpp", "src/dsp/morlet_wavelet_function.cpp", "src/dsp/mhat_wavelet_function.cpp"]}
{"id": "C70", "title": "Conjugate gradients solve n-dimensional quadratics in n iterations", "statement": "On a quadratic function with symmetric definite matrix, from a start whose squared gradient is at least 1e-10 and with precision at least 1e-5, the conjugate gradient method returns; with an iteration limit above the dimension (or 0 or 1, meaning no limit) the gradient at the result is below the precision; on a positive definite one the value has decreased. Central differences are the exact gradient of a quadratic function. A negative definite function is treated the same way: minimisation ends at the maximum.", "quantifier": "all dimensions, definite matrices, linear parts, starts and configurations (exact arithmetic)", "why_tests_cant": "Ranges over all quadratic functions in all dimensions.", "anchors": ["src/optimization/conjugate_gradient_method.cpp: FindOptimalParameters, PerformOneDimensionalSearch, CalculateGradient"]}
{"id": "C71", "title": "Conjugate gradient result and its failure near an optimum", "statement": "A returned point has a central-difference gradient below the precision unless a limit of at least 2 stopped the method. Started where all central differences vanish (e.g. at the optimum) the method throws; started where their squares sum to less than 1e-10 it never returns a point.", "quantifier": "all functions, starts and configurations", "why_tests_cant": "A claim about every function and start.", "anchors": ["src/optimization/conjugate_gradient_method.cpp: FindOptimalParameters, CalculateWeightingCoefficient"]}
{"id": "C72", "title": "What the conjugate gradient iteration limit does", "statement": "The limits 0 and 1 both mean no limit; a limit N>=2 allows at most N-1 iterations, so the method returns if every one-dimensional search does; the one-dimensional search is not limited: on exp(-x), in exact arithmetic, the method never returns, whatever the limit, from every start where the precision times the slope is below 1.", "quantifier": "all functions, starts and limits; all positive increments in the non-termination claim", "why_tests_cant": "Non-termination cannot be observed by a test.", "anchors": ["src/optimization/conjugate_gradient_method.cpp: FindOptimalParameters, PerformOneDimensionalSearch"]}
{"id": "C73", "title": "In exact arithmetic steepest descent never returns from a stationary point or on an affine function", "statement": "In exact arithmetic: started where all central differences vanish (the optimum of a quadratic, any point of a constant function), or (with a non-zero increment) on any affine function, the method never returns, whatever its configuration. (What happens with overflow to infinity and NaN is C111.)", "quantifier": "all functions with a stationary start, all affine functions, all configurations", "why_tests_cant": "Non-termination cannot be observed by a test.", "anchors": ["src/optimization/steepest_descent_method.cpp: FindOptimalParameters, Localization"]}
{"id": "C74", "title": "Golden-section search finds the minimum of a unimodal function", "statement": "For a positive segment and precision the line search ends with a step length strictly inside the segment; if the function is strictly unimodal on the segment, the step is within half the precision of the minimiser (half of precision+1 where unqualified abs is the int version). It never stops early although 0.382 is not the exact golden constant. The segment itself is found by halving the step until the function is not above its value at the start (or the step is within the precision), then multiplying by the golden ratio until the function grows; its length is that step times the length of the direction, a distance where a multiple of the direction is meant.", "quantifier": "all functions, directions, segments and precisions (exact arithmetic)", "why_tests_cant": "Continuum of functions; an early stop would need a rare coincidence of the two inner points.", "anchors": ["src/optimization/steepest_descent_method.cpp: FindStepLength, Localization"]}
{"id": "C75", "title": "Steepest descent drops its last point", "statement": "A returned point is reached by fewer moves along the negative gradient than the iteration limit (0 means no limit), and it is the start or a point that does not satisfy the exit criterion; with limit 1 the start is returned.", "quantifier": "all functions, starts and configurations", "why_tests_cant": "A claim about every function and run.", "anchors": ["src/optimization/steepest_descent_method.cpp: FindOptimalParameters, IsExitCriteriaFulfilled"]}
{"id": "C76", "title": "Steepest descent terminates on radially unbounded functions", "statement": "If the values grow beyond all bounds along every ray, the precision is positive and the limit at least 1, the method returns from every start where the central differences do not all vanish.", "quantifier": "all radially unbounded functions, starts and configurations with positive precision", "why_tests_cant": "Termination for all functions.", "anchors": ["src/optimization/steepest_descent_method.cpp: FindOptimalParameters, Localization, FindStepLength"]}
{"id": "C77", "title": "Random booleans on glibc", "statement": "Where RAND_MAX is 2^31-1 (glibc), building Random and drawing booleans is undefined by the language (C37). Read with wrap-around products and shift counts modulo 32, as x86 code computes them, GetRandomBool delivers 33 booleans per rand() value: the 31 negated bits of the value from the lowest up, then always true, then the first one again; so 2 of every 33 bits of a randomly initialised chromosome are not random. Where the constructor is defined the wrap-around reading builds the same object.", "quantifier": "all rand() streams, all numbers of draws", "why_tests_cant": "every stream and every position; a test sees one seed", "anchors": ["src/common/random.cpp: Random::Random, GetNextBitFromBoolBase, GetRandomBool"]}
{"id": "C78", "title": "What the genetic algorithm tells its statistics callback", "statement": "In a GeneticAlgorithm run that returns, the function connected with OnNextGenerationReadyConnect is called exactly once per evaluated generation, in order, with: the generation number; the average fitness of that generation; fitness and parameters of the best individual of all generations so far; the fitness-counter hits (hits reported plus evaluations made add up to population size times generations); and per-individual figures sorted by decreasing number of selections whose selections add up to twice the crossovers tried; and the number of invalid chromosomes, which is the number of crossovers plus the number of mutations that had to be repeated on the way to that generation. Every file the callback asks for and that can be opened receives that generation's text, the others are skipped silently. The per-individual figures belong to the previous generation (zeros for the first one), although the header promises the current population, and the first generation's count of invalid chromosomes includes what an earlier Optimize call left over. Connecting a callback, whatever it does with its own state, changes nothing in the course or result of the run.", "quantifier": "all configurations accepted by the factories, parameter families, objective functions, random sequences, callbacks (with any state) that do not throw, sets of files that can be opened, generations", "why_tests_cant": "it relates every generation of every run to what the callback saw, and says that no callback changes the course of any run", "anchors": ["src/optimization/genetic_algorithm/genetic_algorithm.cpp: RunIterationsAndSetBestIndivid, ProcessStatistics, GatherAllIndividualsStatistics", "src/optimization/genetic_algorithm/generation_statistics.cpp", "include/k52/optimization/generation_statistics.h", "include/k52/optimization/individual_statistics.h"]}
{"id": "C79", "title": "Starting the genetic algorithm from a population file", "statement": "A run whose population file holds the text a callback had saved in some generation of an earlier run (same population and chromosome size, valid individuals, fitnesses that are non-negative when printed) accepts the file and starts with exactly the chromosomes and parameters of that generation, in order. Whatever text the file holds, if the run returns then its first generation is what was read, every generation has the configured size, and all individuals of all generations, the first included, satisfy their constraints and hold what their chromosomes encode. If the file cannot be opened Optimize throws.", "quantifier": "all earlier and later runs, generations, file texts, sane number formats", "why_tests_cant": "arbitrary file contents and every saved generation of every run", "anchors": ["src/optimization/genetic_algorithm/genetic_algorithm.cpp: Optimize, ReadPopulationFromFile, InputPopulation, OutputPopulation, SavePopulationToFile", "src/optimization/genetic_algorithm/individual.cpp: operator<<, operator>>"]}
{"id": "C80", "title": "Gradient methods through Optimize: result, exceptions and constraint violations", "statement": "SteepestDescentMethod and ConjugateGradientMethod called through Optimize leave in the parameters exactly the point the method (C70-C76) finds for the function with the requested sign; the exception of the conjugate gradient method is passed on, and a search that does not end makes Optimize not end. Both evaluate the function half an increment away from the start: if CheckConstraints rejects that point, Optimize throws std::logic_error and the parameters are left at the rejected point.", "quantifier": "every objective function, starting point and dimension, settings, requested sign, constraint predicate, and number of loop iterations", "why_tests_cant": "ranges over all objective functions on real vectors, all dimensions and all constraint predicates", "anchors": ["src/optimization/steepest_descent_method.cpp: SteepestDescentMethod::FindOptimalParameters", "src/optimization/conjugate_gradient_method.cpp: ConjugateGradientMethod::FindOptimalParameters", "src/optimization/continuous_optimizer.cpp: ContinuousOptimizer::Optimize, CountObjectiveFunctionValue"]}
{"id": "C81", "title": "Conjugate gradients do not distinguish maximum and minimum", "statement": "For ConjugateGradientMethod, Optimize(f, p, true) and Optimize(f, p, false) succeed together and leave the very same parameters, for every objective function, constraints, settings and start (exact arithmetic). In particular, asked to minimize a concave quadratic function, it returns normally with a point whose value is larger than at the start - (up to the precision) the maximum.", "quantifier": "every objective function, parameters with any constraints, settings, start, dimension, number of iterations", "why_tests_cant": "equality of two runs for every objective function; tests on convex functions show the right minimum and never reveal that the flag is ignored", "anchors": ["src/optimization/conjugate_gradient_method.cpp: ConjugateGradientMethod::FindOptimalParameters, PerformOneDimensionalSearch", "src/optimization/continuous_optimizer.cpp: CountObjectiveFunctionValueToMinimize"]}
{"id": "C82", "title": "Cloned optimizers, dispatch on wrong arguments and multi-start optimization", "statement": "Cloning Nelder-Mead, Hooke-Jeeves, Rosenbrock, steepest descent or conjugate gradients gives an object with the same settings that remembers nothing of earlier calls; cloning any other optimizer throws std::logic_error. Optimize on parameters of the wrong kind throws std::logic_error, on a function of the wrong kind std::bad_cast, in that order. Optimizing a list of start parameters returns exactly the best result of running an unused clone from every start (first of equals when maximizing, last when minimizing), independent of how the optimizer was used before; it throws if the optimizer cannot be cloned and is undefined for an empty list. Performing a task twice continues from the first result.", "quantifier": "all optimizers with any settings and any history, all functions, parameters, start lists and directions", "why_tests_cant": "the statement ranges over all histories of the optimizer object and all start lists; tests sample a few fresh objects", "anchors": ["src/optimization/optimization_task.cpp: OptimizationTask::OptimizationTask, Perform", "src/optimization/optimization_parameters_processor.cpp: ProcessParameters", "src/optimization/continuous_optimizer.cpp: Optimize", "src/optimization/discrete_optimizer.cpp: Optimize", "src/optimization/bounded_nelder_mead.cpp: Clone"]}
{"id": "C83", "title": "Random search with an inner optimizer", "statement": "Random search given one of the five cloneable methods returns exactly when there is at least one point and the method returns from every random start; all starts lie in the bounds, and the parameters end as the method's result from one start, than which none of its results is better. With Hooke-Jeeves inside the result is at least as good as every random start; with Nelder-Mead inside the call always returns on unconstrained parameters, even if the object given was used in another dimension before. With simulated annealing or random search inside every call throws std::logic_error and leaves the parameters unchanged; zero points are undefined behaviour.", "quantifier": "all random streams, bounds, numbers of points, settings, functions, parameters and directions", "why_tests_cant": "random starts differ in every run; only a proof covers all streams and functions", "anchors": ["src/optimization/random_search.cpp: RandomSearch, FindOptimalParameters", "src/optimization/optimization_parameters_processor.cpp: ProcessParameters"]}
{"id": "C84", "title": "Remote optimization equals local optimization", "statement": "An optimization task over a continuous array with one of the five methods, sent to another process in which a function with the same values is registered for its type, gives there exactly what it gives here - the same values, the same exception or the same undefined behaviour - and the result sent back arrives with the same values.", "quantifier": "all functions, values, methods with any settings and history, directions and registered prototype objects", "why_tests_cant": "needs two processes and all settings; no test in the repository runs under MPI", "anchors": ["src/optimization/optimization_task.cpp: Send, Receive, Perform", "src/optimization/optimization_task_result.cpp: Send, Receive"]}
{"id": "C85", "title": "MPI pool given a task it cannot send", "statement": "When a batch contains a task that is not an IMpiTask, DoTasks throws when it comes to the first such task (index i), after the tasks before it were sent; it has then not waited for the results of min(i, size-2) of them. With i = 0 or a single worker nothing is left behind. Otherwise a receive still posted at that time stays posted until the pool is destroyed and the workers by themselves bring about a write into the destroyed result; and even when none is posted, a program that catches the exception and calls DoTasks again may be given messages of the failed call as its results.", "quantifier": "all numbers of processes, batches, task and result contents and interleavings of server, workers and messages", "why_tests_cant": "depends on the order in which messages travel between processes at the moment of the exception", "anchors": ["src/parallel/mpi/mpi_worker_pool.cpp: DoTasks, GetMpiTask, SendTask, WaitAndPopNextExpectation"]}
{"id": "C86", "title": "Destroying an MPI pool ends every worker", "statement": "A worker process exits only after the pool's destructor has sent it the end-of-work message, and (if no call threw) never with a task unperformed or unanswered. Once the destructor has been called, at most 2*(size-1) further steps happen, one of them is possible until every message is sent and every worker has exited, and no result of an earlier call is lost.", "quantifier": "all numbers of processes, histories of calls, and interleavings", "why_tests_cant": "the end of worker processes depends on schedules across processes; tests do not run under MPI", "anchors": ["src/parallel/mpi/mpi_worker_pool.cpp: ~MpiWorkerPool, FinalizeWorkers, RunWorkerLoop"]}
{"id": "C87", "title": "Choosing the best of several parameters when values are NaN", "statement": "For SimpleParametersProcessor (and for the multi-start processor on its optimized candidates): when maximizing, a NaN value of the first candidate makes it the result whatever the others are, and any other NaN candidate is ignored; when minimizing, everything up to and including the last NaN candidate is forgotten, and a NaN of the last candidate makes it the result. If no value is NaN the result is a candidate than which none is better, infinities and signed zeros included. Grid search behaves like the maximizing scan: a NaN at the first grid point makes that point the result.", "quantifier": "all candidate lists, objective functions and positions of NaN", "why_tests_cant": "where NaN occurs depends on the objective function; every position and number of NaNs would have to be tried", "anchors": ["src/optimization/simple_parameters_processor.cpp: ProcessParameters", "src/optimization/optimization_parameters_processor.cpp: ProcessParameters", "src/optimization/grid_search.cpp: Optimize"]}
{"id": "C88", "title": "Hooke-Jeeves with an objective function that can be NaN", "statement": "A search started where the function is NaN can only return the starting point, and returns it once the steps are small. Started where it is a number, a search without iteration limit can only return a point where it is a number; if no NaN is met the result is not worse than the start, with IEEE infinities and rounding allowed. But the pattern search does not stop when it enters a region of NaN: it goes on in the same direction to the iteration limit and returns a NaN point (for every limit there is such a run from a start with a number), and it can come out worse than it started.", "quantifier": "all objective functions, starting points, settings, and arithmetics that obey IEEE comparison and NaN propagation (rounding arbitrary)", "why_tests_cant": "ranges over all functions, all positions of NaN and all roundings", "anchors": ["src/optimization/hooke_jeeves_method.cpp: FindOptimalParameters, CoordinatewiseOptimization, ExploratoryStep"]}
{"id": "C89", "title": "Nelder-Mead with an objective function that can be NaN", "statement": "As soon as a recorded value is NaN, BoundedNelderMead does not start another iteration. So NaN at the starting point (or at any vertex of the initial simplex but vertex 1) ends the search after one iteration, and a NaN start is returned. A single NaN at vertex 1 is treated as the worst vertex and replaced. A NaN enters only at contracted points: reflected or expanded points with value NaN are never taken. A search of several iterations ends with at most one NaN. The result is vertex 0 if its value is NaN and otherwise a vertex whose value is a number not below any other recorded value (its objective being the negated function).", "quantifier": "all objective functions, starting points, settings, and arithmetics that obey IEEE comparison and NaN propagation (rounding arbitrary)", "why_tests_cant": "ranges over all functions, all positions of NaN, all numbers of iterations and all roundings", "anchors": ["src/optimization/bounded_nelder_mead.cpp: FindOptimalParameters, StopCriteria"]}
{"id": "C90", "title": "Genetic algorithm with fitness NaN or infinite", "statement": "NaN is accepted as a fitness although negative values are rejected. Unless the elite fills the population, a NaN fitness in a generation makes every parent selection throw std::logic_error, so no next generation is formed: if Optimize returns at all, a NaN occurred at most in the last generation and the run ended by the fitness stop criterion. A NaN of the first individual of the first generation is the best individual from then on and, with an elite filling the population, the result. Sorting by fitness is defined exactly when no fitness is NaN or no two fitnesses differ. With an infinite fitness every selection takes the first individual of infinite fitness, or throws when rand() gives 0.", "quantifier": "all populations, configurations, random streams, objective functions and positions of NaN or infinity", "why_tests_cant": "depends on the random stream and on where the function is NaN", "anchors": ["src/optimization/genetic_algorithm/genetic_algorithm.cpp: SelectRandomIndividualIndexForCrossover, FormNewPopulation, ObtainBestIndividual, Optimize", "src/optimization/genetic_algorithm/individual.cpp: set_fitness"]}
{"id": "C91", "title": "Simulated annealing with values NaN or infinite", "statement": "If the value of the current point or of the proposed neighbour is NaN the point is kept: annealing started where the function is NaN returns the starting point whatever else it meets, and started where it is a number returns a point where it is a number. No values, infinities and NaN included, make it throw. A point with value minus infinity is left only when rand() gives 0.", "quantifier": "all objective functions, starting points, settings, random streams, and arithmetics that obey IEEE comparison and NaN propagation (rounding arbitrary)", "why_tests_cant": "ranges over all random streams, all functions and all positions of NaN", "anchors": ["src/optimization/simulated_annealing.cpp: FindOptimalParameters, CountAcceptanceProbability", "src/common/random.cpp: CheckEventOutcome"]}
{"id": "C92", "title": "Random numbers in floating-point arithmetic", "statement": "In any monotone rounding arithmetic (so also in double without overflow or underflow): the base random quantity stays in [0, 1], is exactly 0 or 1 at the two ends of rand() and grows with rand(); GetContinuousRandomQuantity(min, max) and every component of GenerateRandomVector is never below min and never above the rounded (max - min) + min, a bound that is attained; it stays in [min, max] when max - min is representable; but it can exceed max: with min = -3 and max = 0.1 it returns a number larger than 0.1 whenever rand() returns RAND_MAX. An event of probability 1 always happens, one of probability 0 exactly when rand() returns 0.", "quantifier": "every monotone rounding (in particular round-to-nearest-even with any number of digits), every rand() stream and RAND_MAX, every min <= max", "why_tests_cant": "the overshoot needs one particular rand() value out of 2^31 and particular bounds; the bounds must hold for all values and all roundings", "anchors": ["src/common/random.cpp:28-47", "src/common/random.cpp:60-65"]}
{"id": "C93", "title": "Genetic selection and runs in floating-point arithmetic", "statement": "In any monotone rounding arithmetic, selection from a non-empty population with non-negative fitnesses returns an index in range for every rand() value, consuming one; individual m is selected exactly when the drawn point lies above the rounded running sum of the fitnesses before it and not above the rounded running sum including it (point 0 goes to the first). An individual whose fitness is absorbed when added to the running sum is never selected: in double, after an individual of fitness 2^53, one of fitness 1 is never selected, though in exact arithmetic it can be. The results of whole runs are as in exact arithmetic: the best individual was evaluated, no evaluated one is better, the returned parameters are what its chromosome decodes to, and every generation has the configured size.", "quantifier": "every monotone rounding (so round-to-nearest with any precision), every population and rand() stream, every run", "why_tests_cant": "the wheel's boundaries depend on every partial sum's rounding and on every rand() value; absorbed individuals only show with extreme fitness ratios", "anchors": ["src/optimization/genetic_algorithm/genetic_algorithm.cpp: SelectRandomIndividualIndexForCrossover", "src/optimization/genetic_algorithm/genetic_algorithm.cpp: GetTotalFitness", "src/common/random.cpp:28-36"]}
{"id": "C94", "title": "The genetic algorithm does not fail", "statement": "Optimize of the genetic algorithm neither throws nor runs into undefined behaviour, for a non-negative objective function, parameters whose values are in range, the library's mutators (or any that never fail), initial parameters (if any) with the same meta parameters, and a cache that is off or has room for population size times generations entries: it returns, or is still in one of the loops that redraw until constraints hold. If decoded values cannot violate their constraints (doubles, arrays of doubles, integers whose range has no gap above the maximum, and composites of these, nested to any depth) it always returns. The room in the cache is needed: with a cache limit of two entries a small run dies with runtime_error.", "quantifier": "every configuration Create accepts, every nested composite of library parameters, every rand() and boolean stream, every non-negative objective function, exact and rounded arithmetic", "why_tests_cant": "absence of exceptions and overflow, and termination, over all random streams, parameter trees and objective functions", "anchors": ["src/optimization/genetic_algorithm/genetic_algorithm.cpp:122-379", "src/optimization/genetic_algorithm/individual.cpp:70-165", "src/optimization/genetic_algorithm/objective_function_counter.cpp:40-130", "include/k52/common/cache.h:100-170", "src/optimization/genetic_algorithm/flip_bit_mutator.cpp", "src/optimization/genetic_algorithm/linear_mutator.cpp"]}
{"id": "C95", "title": "Double parameters in rounded arithmetic", "statement": "In binary floating point with at least 32 digits (double has 53; overflow and underflow aside): every chromosome of the right length decodes to a value inside the bounds that passes CheckConstraints and encodes back to itself, and larger chromosomes never decode to smaller values; SetValue of a value inside the bounds is defined and GetValue then returns at most ten rounding units of the larger bound more, and at most that plus one precision step less; the actual precision exceeds the desired one at most by a rounding unit. With short bounds (integers up to 2^22 in double) nothing is rounded. Otherwise: a parameter built with its start at the maximum may have a value above the maximum and violate its constraints, and setting the value just read may move the parameter a whole step down.", "quantifier": "all digit counts from 32, bounds, precisions, chromosomes, values and histories of calls", "why_tests_cant": "Rounding errors depend on all bits of the bounds; tests use short bounds, where nothing is rounded.", "anchors": ["src/optimization/params/double_parameter.cpp: DoubleParameter::DoubleParameter, SetValue, GetValue, CheckConstraints, GetMaxInt, CountBestMaxInt"]}
{"id": "C96", "title": "Double arrays in rounded arithmetic", "statement": "In binary floating point with at least 34 digits (overflow and underflow aside) every chromosome of the right length decodes into an array whose values lie inside the bounds, which passes CheckConstraints and whose values SetValues accepts again. But in double the upper bound itself can be rejected by SetValues, and encoding a decoded array can give another chromosome: one step less, or all zeros for all ones when the bounds are large.", "quantifier": "all digit counts from 34, bounds, precisions, lengths, chromosomes and histories of calls", "why_tests_cant": "The constraint check re-encodes every value with four roundings; whether a value can fall outside depends on all bits of the bounds.", "anchors": ["src/optimization/params/double_parameters_array.cpp: SetFromChromosome, SetChromosome, CheckConstraints, SetValues", "src/optimization/params/double_parameter.cpp: SetValue, GetValue"]}
{"id": "C97", "title": "Changing a wavelet after it was built", "statement": "Calling any setters of a built wavelet in any order does not change what transform computes, except that transform returns as many entries as the count set now: the first entries of the same row for a smaller count, undefined behaviour for a larger one, an exception for a negative one. Building again gives exactly the wavelet a fresh build with the current settings gives, whatever happened before. ContiniousWaveletTransformation however pads the signal for the length set now: when the old samples fit at every position its rows are the correlations with the signal shifted by half of the new length, otherwise it reads outside its copy of the signal (with step 1: exactly if the length was reduced by more than one). A createWavelet that throws because of a negative length leaves a wavelet whose transform silently returns the absolute value of the imaginary part only; after a negative count it leaves a wavelet that is not ready whatever is set afterwards; without a base function nothing changes.", "quantifier": "all base functions, settings, scale types, setter sequences, signals, steps and positions", "why_tests_cant": "the setter sequences, lengths and signals are unbounded; the wrong results raise no error", "anchors": ["include/k52/dsp/wavelet.h: Wavelet setters, transform", "src/dsp/wavelet.cpp: BuildWavelet, createWavelet", "src/dsp/cwt.cpp: ContiniousWaveletTransformation"]}
{"id": "C98", "title": "MPI pool with tasks that are never answered", "statement": "If performing some of the tasks never returns on the worker that got them, DoTasks of the MPI pool never returns (there is no time limit). On w workers, exactly the tasks with fewer than w such tasks before them in the list are started, each once, whatever the order in which workers and messages progress; all of those that do return are answered and their complete results are stored in their places: under fair progress this is reached and stays so. A task with w or more hanging tasks before it is never performed and its result stays empty - with a single worker that is every task after the first hanging one.", "quantifier": "all task lists, sets of hanging tasks, numbers of workers, result sizes, schedules and completion orders, any number of earlier calls", "why_tests_cant": "All completion orders, and a call that never returns cannot be observed to the end.", "anchors": ["src/parallel/mpi/mpi_worker_pool.cpp: DoTasks, WaitAndPopNextExpectation, RunWorkerLoop"]}
{"id": "C99", "title": "The linear mutation schedule in floating point", "statement": "LinearMutator(start, stop) accepts exactly end points from 0 to 1. In rounded arithmetic (every operation rounded) the probability it uses is exactly start in generation 0, is monotone over the generations, and with round to nearest on p >= 3 digits is within 5 * 2^-p of the exact linear schedule for up to 2^p generations. With start 0 or start 1, or with both end points at least 5 * 2^-p away from 0 and 1, it stays within 0 .. 1. Otherwise it need not: with LinearMutator(0.1, 0.0) in double the probability in the last of 4, 7, 13, 25 or 49 generations is negative (LinearMutator(0.2, 1.0): above 1 in the last of 4 or 7), and Mutate throws std::invalid_argument at the first gene. If the probability leaves 0 .. 1 in generation g, every run of the genetic algorithm that returns has met the stop criterion after at most g + 1 generations: Optimize cannot get through its configured generations.", "quantifier": "all end points, generation numbers and counts, roundings (any monotone idempotent rounding; round to nearest of any precision for the bounds), chromosomes, random sequences, objective functions, parameter classes and runs", "why_tests_cant": "the schedule is used in generations and for end points no test enumerates, and the failure depends on single rounding errors", "anchors": ["src/optimization/genetic_algorithm/linear_mutator.cpp: LinearMutator, GetCurrentMutationProbability, ShouldMutate", "src/optimization/genetic_algorithm/genetic_algorithm.cpp: RunIterationsAndSetBestIndivid, Mutate", "src/common/random.cpp: validate_probability, event"]}
{"id": "C100", "title": "Grid search in floating point", "statement": "In rounded arithmetic (difference, quotient, product and sum each rounded), for positive precision and ordered bounds, GridSearch::Optimize counts the objective function exactly at the points whose coordinates are the rounded values lower + d * precision for d below the computed number of values, that number to the power of the dimension times in all, and returns the first counted point with the largest value. The values start exactly at the lower bound and never decrease. With round to nearest on p digits a value is within (2 d precision + |lower + d precision|) 2^-p of the exact one, the number of values is off by at most one (up to 2^(p-2) steps), and no value exceeds the upper bound by more than (8 (upper - lower) + |upper|) 2^-p. If bounds and precision are multiples of one power of two, the grid is exactly that of exact arithmetic. Otherwise, in double: steps of 0.1 from 0 to 0.3 never try 0.3; steps of 0.01 from -1.2 to -0.85 try a point above -0.85; steps of 1 from 2^53 count the function twice at the same point.", "quantifier": "all bounds, precisions, dimensions (as long as the sizes fit the machine integers), objective functions, and roundings (any monotone one; round to nearest of any precision for the bounds)", "why_tests_cant": "rounding errors depend on every digit of bounds and precision", "anchors": ["src/optimization/grid_search.cpp: Optimize, IntegerPow"]}
{"id": "C101", "title": "The flip-bit mutator's probability in floating point", "statement": "In rounded arithmetic FlipBitMutator(q) is constructed exactly when the integer part of the rounded 1/q is at least 2, and then skips at most that number minus one genes. With round to nearest it accepts exactly 0 < q <= 1/2, the integer part is that of the exact 1/q or one more, and for q written as 1.0 / n it is n or n - 1: in double FlipBitMutator(1.0 / 93) skips at most 91 genes instead of 92, FlipBitMutator(0.00001) at most 99998 instead of 99999.", "quantifier": "all representable probabilities, all n up to 2^(p-2), all precisions p, all random sequences", "why_tests_cant": "whether the reciprocal is rounded below an integer depends on every digit of the probability", "anchors": ["src/optimization/genetic_algorithm/flip_bit_mutator.cpp: FlipBitMutator"]}
{"id": "C102", "title": "Linear scales in floating point", "statement": "In floating point (overflow and underflow aside) LinearScale accepts the same arguments as in exact arithmetic and gives the requested number of scales, the first exactly min, never decreasing and all positive. Each scale is within 6 * max * 2^-53 of min + i * (max - min) / (count - 1), so the last one can miss or exceed max by that much (4 scales from 0.1 to 0.3 end above 0.3, 4 scales from 0.1 to 1 end below 1); scales are distinct when they should be more than 12 * max * 2^-53 apart, and can coincide otherwise; for whole numbers, halves, quarters, ... nothing is rounded.", "quantifier": "all finite bounds, all scale counts up to 2^53, every monotone rounding (order) or rounding to nearest with p digits (accuracy)", "why_tests_cant": "Rounding behaves differently for each choice of bounds and count; tests use round numbers for which nothing is rounded.", "anchors": ["src/dsp/transform/wavelet/linear_scale.cpp: LinearScale::LinearScale, LinearScale::CalculateScales, LinearScale::GetScales"]}
{"id": "C103", "title": "The continuous wavelet transform in floating point", "statement": "In floating point (overflow and underflow aside, square root correctly rounded) Wavelet::transform of a wavelet with n samples per scale returns one non-negative number per scale that differs from the exact modulus of the correlation of the data with the stored samples by at most ((1+u)^(n+2) - 1), u = 2^-53, times the sum of the absolute values of the products; for fewer than 2^52 samples the factor is at most (n+2) * 2^-52. When samples and data are whole multiples of powers of two and the sums fit 53 digits (the Haar wavelet with integer data), the sums are exact and only the modulus is rounded.", "quantifier": "all stored samples, all data, all offsets, numbers of scales and samples", "why_tests_cant": "The error of a long sum depends on every summand and on their order; tests compare a few signals with a tolerance.", "anchors": ["include/k52/dsp/wavelet.h: Wavelet::transform"]}
{"id": "C104", "title": "Circular convolution in floating point", "statement": "In floating point (overflow and underflow aside, no fused operations) CircularConvolution::EvaluateConvolution rejects sequences of different lengths and otherwise returns N numbers whose real and imaginary parts differ from the exact ones by at most ((1+u)^(N+1) - 1), u = 2^-53, times the sum of the absolute values of the products they are made of. Sequences of whole multiples of powers of two whose sums fit 53 digits are convolved exactly. In general the result is not commutative: swapping the arguments can change it.", "quantifier": "all complex sequences", "why_tests_cant": "Rounding depends on the values and the order of summation; tests compare a few sequences with a tolerance.", "anchors": ["src/dsp/transform/circular_convolution.cpp: CircularConvolution::EvaluateConvolution"]}
{"id": "C105", "title": "Fourier transforms in floating point", "statement": "In floating point (overflow and underflow aside; the library's pi, cosine and sine accurate to 2^-52) FourierTransform::Transform of N complex numbers returns N numbers whose real and imaginary parts differ from those of the exact discrete Fourier transform by at most 38 * N * 2^-53 times the sum of the absolute values of all parts of the sequence; InverseFourierTransform has the corresponding bound divided by N, and transforming forth and back returns the original sequence up to 256 * N * 2^-53 times that sum (N up to 2^43). The exact error factor is given for every N, every precision and every accuracy of cosine and sine.", "quantifier": "all complex sequences, all lengths up to 2^p, all precisions p, all library functions of the given accuracy", "why_tests_cant": "The error depends on every element and on the accuracy of every factor exp(-2 pi i k n / N), whose argument loses accuracy as k * n / N grows; tests compare a few short sequences with a tolerance.", "anchors": ["src/dsp/transform/fourier_transform.cpp: FourierTransform::Transform", "src/dsp/transform/inverse_fourier_transform.cpp: InverseFourierTransform::Transform", "src/common/helpers.cpp: Helpers::Conjugate", "src/common/constants.cpp: Constants::Pi"]}
{"id": "C106", "title": "Fourier-based convolution in floating point", "statement": "In floating point (same assumptions as C105) FourierBasedCircularConvolution over FourierTransform rejects sequences of different lengths and otherwise returns N numbers whose real and imaginary parts differ from those of the exact circular convolution by at most 512 * N * 2^-53 times the product of the sums of the absolute values of the parts of the two sequences (N up to 2^43).", "quantifier": "all complex sequences, all lengths up to 2^p, all precisions p, all library functions of the given accuracy", "why_tests_cant": "Three transforms and a product are composed; tests compare a few short sequences with a tolerance.", "anchors": ["src/dsp/transform/fourier_based_circular_convolution.cpp: FourierBasedCircularConvolution::EvaluateConvolution", "src/dsp/transform/inverse_fourier_transform.cpp: InverseFourierTransform::Transform"]}
{"id": "C107", "title": "Golden-section search in floating point", "statement": "In floating point (at least two significant binary digits, overflow and underflow aside) the golden-section search of steepest descent ends for every objective function, including one whose values do not compare (NaN), for every positive precision and every nonnegative border, and returns a step length between 0 and the border. It need not find the minimum of a unimodal function within the precision: in double there is an objective function with a single minimum, monotonous on both sides, for which the result is more than 20000 times the precision away from it.", "quantifier": "all objective functions, precisions, borders, constriction numbers between 0 and 1/2 and numbers of significant digits", "why_tests_cant": "Termination must hold for every sequence of comparisons and every border; near the end of the search the points are a few units in the last place apart and rounding decides their order, which tests with one function do not reach.", "anchors": ["src/optimization/steepest_descent_method.cpp: SteepestDescentMethod::FindStepLength"]}
{"id": "C108", "title": "Akima spline in floating point", "statement": "In floating point (overflow and underflow aside, powers accurate to eps <= 1/2) a spline with strictly increasing abscissae takes the given ordinate exactly at every knot but the last. There are slopes at the knots, each between the two chord slopes of Akima's formula up to a relative error (16 * 2^-53 in double), such that between two knots the value differs from the exact cubic with the given ordinates and these slopes by at most 32 * 2^-53 times |y0| + 5|y1-y0| + h(4|s0| + 2|s1|) in double with powers accurate to one unit in the last place. At the last knot the ordinate can be missed: for (0,0),(1,0),(2,0),(3,2),(4,1) in double the value at 4 is 1 + 2^-52.", "quantifier": "all knot sets with strictly increasing abscissae, all points of the range, all precisions of at least 2 digits, all library powers of the given accuracy", "why_tests_cant": "The slopes change abruptly when neighbouring chords nearly agree, so rounding errors could be amplified anywhere in a continuum of data; tests compare a few points with a tolerance.", "anchors": ["src/dsp/akima_spline.cpp: AkimaSpline::Value, ReestimatePolynomials, CalculateM, CalculateSlopes"]}
{"id": "C109", "title": "Wavelet function made from samples in floating point", "statement": "In floating point (same assumptions) a wavelet function made from n >= 3 samples, 8n <= 2^53, takes each sample exactly at a number within 21 * 2^-53 of its place -4 + 8i/n, is zero outside [-4, 4] and has a value everywhere in [-4, 4 - 74 * 2^-53]. At 4 itself it can throw out_of_range instead of being zero: in double this happens with three samples, and BuildWavelet evaluates the function at 4.", "quantifier": "all sample vectors of at least three and at most 2^p/8 samples, all points, all precisions", "why_tests_cant": "The last knot is 4 only up to rounding, in a direction that depends on the number of samples.", "anchors": ["src/dsp/spline_based_wavelet_function.cpp: SplineBased::Init, SplineBased::real", "src/dsp/wavelet.cpp: Wavelet::createWavelet"]}
{"id": "C110", "title": "Building a wavelet with linear scales in floating point", "statement": "In floating point (overflow and underflow aside), BuildWavelet(f, min, max, count, Linear) samples f for sample j of scale i at a number within five roundings of (j - max/2) * ((i+1)/count * floor(max/min)) * 4 / floor(max/2). It succeeds, with count rows of max samples, when f has a value at all of these numbers, and throws when f throws at one of them and otherwise has values. Over a function made from n >= 3 samples it succeeds whenever no exact place of a sample lies between 4 - 100 * 2^-53 and 4 + 40 * 2^-53; with three samples and BuildWavelet(f, 4, 8, 1, Linear) it throws out_of_range in double.", "quantifier": "all base functions, lengths, counts, precisions; all sample vectors for the sampled base function", "why_tests_cant": "Whether a sample point falls on the last knot depends on the rounding of every length, count and scale.", "anchors": ["src/dsp/wavelet.cpp: Wavelet::BuildWavelet, createWavelet, createScale"]}
{"id": "C111", "title": "Steepest descent in double: overflow and NaN decide", "statement": "In IEEE arithmetic with rounding, gradual underflow, overflow to infinity and NaN, and a function that is NaN when all its arguments are: started where all computed central differences are zero, steepest descent returns the start (its step overflows, infinity times zero is NaN, and NaN ends all loops). This is so for every function if the increment is less than 2^-54 of each coordinate of the start. On a function of one variable computed as a * x + b it never returns from a start with a finite computed derivative other than zero, and in general it never returns if the function does not grow along the steps 1, kAlpha, kAlpha^2, ... against the computed gradient.", "quantifier": "all objective functions, starts, configurations, and all binary formats", "why_tests_cant": "A claim about every function; non-termination cannot be observed by a test.", "anchors": ["src/optimization/steepest_descent_method.cpp: FindOptimalParameters, Localization, FindStepLength, CalculateDerivative"]}
{"id": "C112", "title": "Conjugate gradients in double: returned points that are not finite", "statement": "In IEEE arithmetic with rounding, overflow and NaN, for every objective function: if the one-dimensional search comes to a place where its computed second difference is zero or NaN (or to infinity), the method returns, without an exception, a point none of whose coordinates is finite. Started at the origin with an odd function (linear, sine, ...) it does so always, unless the squares of its first computed gradient sum to less than 1e-10, in which case it throws. Started where all computed central differences are zero it throws; so it does for every function if the increment is less than 2^-54 of each coordinate of the start. Without an effective limit, a returned point has a computed gradient norm that is less than the precision or NaN, and from a start with squares below 1e-10 no point is returned.", "quantifier": "all objective functions, starts, configurations with a finite increment and positive precision, and all binary formats", "why_tests_cant": "A claim about every function and start.", "anchors": ["src/optimization/conjugate_gradient_method.cpp: FindOptimalParameters, PerformOneDimensionalSearch, CalculateWeightingCoefficient, CalculateDerivative", "src/common/floating_point.cpp: IsZero"]}
{"id": "C113", "title": "Hooke-Jeeves in double: termination, and NaN from infinite points", "statement": "In IEEE arithmetic with rounding, gradual underflow, overflow and NaN: with an iteration limit other than 0, a finite initial step, a step divider above 1 and a precision that is not negative, FindOptimalParameters returns for every objective function that is NaN where an argument is, every start and every acceleration. From a start with a coordinate that is not finite the returned point has NaN in that coordinate (after as many pattern moves as the limit says, whatever the step divider and precision), and with limit 0 the call never returns. With step divider 1 the call never returns from a start that no step along a coordinate improves, unless the step is within the precision already, whatever the limit.", "quantifier": "all objective functions that propagate NaN, starts, configurations and binary formats with enough exponents (double among them)", "why_tests_cant": "A claim about every function, start and configuration; that the pattern search meets the limit or improves the value is an argument about all runs.", "anchors": ["src/optimization/hooke_jeeves_method.cpp: FindOptimalParameters, CoordinatewiseSearch, IsExitCriteriaFulfilled", "src/common/floating_point.cpp: AreEqual"]}
{"id": "C114", "title": "Nelder-Mead in double: termination, and how far it leaves its bounds", "statement": "BoundedNelderMead returns after at most 1000n+1 iterations and (n+1)+2*iterations evaluations in every arithmetic, whatever the operations and comparisons do (a start without coordinates throws). In IEEE arithmetic every coordinate of a reflected point is NaN or within the bounds, whatever the polygon. If the initial simplex lies within the bounds, the larger bound M in absolute value is normal and (4n+16)M is below half the overflow threshold, every evaluated point and the returned one are finite and leave the bounds by at most (4n+16)*M*2^-53 per iteration. The bounds themselves are not kept: in double the contracted point can lie above the upper bound and be returned, and with bounds near the largest double a point with a NaN coordinate is evaluated and returned, both from a simplex within the bounds.", "quantifier": "all objective functions (NaN allowed), starts, settings, histories of the object, square roots and binary formats", "why_tests_cant": "An error bound for every function and every run of up to 1000n+1 iterations; violations appear only for special bounds.", "anchors": ["src/optimization/bounded_nelder_mead.cpp: FindOptimalParameters, CorrectByProjectingToBounds, GetCenterOfMass, Contraction, Reduction, Reflexion, Expansion, GetIndexes, GetTerminationCriteria"]}
{"id": "C115", "title": "The Rosenbrock method in double: termination, tiny and huge steps, the maximal step", "statement": "In every arithmetic with IEEE comparisons and NaN propagation HleborodovRosenbrockMethod returns a point of the dimension of the start, without an exception, whatever the function and settings; it never sorts numbers together with NaN, which would be undefined. In binary floating point: a coordinate that is infinite or NaN at the start is so in the result; if the chosen multiple of the first step exceeds the maximal step and its product with the maximal step overflows, no coordinate of the result is finite; with a finite first step whose squares underflow (below 2^-539 in double) or overflow (from 2^514 on) the search makes exactly one iteration, whatever precision and limit: coordinate i moves by 1.5 times the first step if that step improves the value and by -0.5 times otherwise. With the limit 1 and no overflow each move is that multiple if it is at most the maximal step, else of the same sign and equal to the maximal step up to two roundings, and it may be larger; if the value at the start is NaN or no step improves it, every coordinate retreats by half the first step. With exact numbers the model is that of C48 and C66.", "quantifier": "all objective functions (NaN allowed), starts, settings and binary formats with correct abs, sqrt right at 0 and infinity", "why_tests_cant": "Every function and every setting; the harmful settings lie far outside usual test values and runs have unbounded iteration limits.", "anchors": ["src/optimization/hleborodov_rosenbrock_method.cpp: FindOptimalParameters, InitializeBasisAndSteps, IsExitCriteriaFulfilled, MakeStep, MakeStepPerCoordinate, CreateNewBasis, NormalizeVector, ScalarComposition, CorrectStep"]}
{"id": "C116", "title": "The example objective functions: declared solutions, clones", "statement": "For each of the first four test functions of the continuous-optimization example (sum of 1/|x^2-2|, sum of (x^2-2)^2, sum of sin(x)/x, sum of x^2) no point of double coordinates, infinities and NaN included, has a better value in double than the declared solution. With exact numbers the first has no maximum (it is unbounded near the root of 2); the second is zero exactly where every coordinate is a root of 2, so never at rational points; the third is at most the dimension, reached exactly where every coordinate is closer to 0 than Eps. The declared solution (0, 0) of the fifth, x sin 4x + 1.1 y sin 2y, is a strict local minimum only: the function is below -2000 within the bounds of the example and has no minimum. Clone returns the same function for all but the sin(x)/x function, whose clone is the function sum of (x^2-2)^2; a multi-start optimization of the former, which works on clones, returns an optimum of the latter.", "quantifier": "all points of all dimensions, in double and over the reals; all optimizers, starts and directions for multi-start", "why_tests_cant": "A declared optimum must beat every one of the 2^64 values of each coordinate; tests sample some.", "anchors": ["examples/continuous_optimization/test_objective_functions.h: operator(), Clone", "examples/continuous_optimization/test_functions_provider.cpp", "examples/continuous_optimization/test_function.cpp: TestFunction", "src/optimization/optimization_parameters_processor.cpp: ProcessParameters"]}
{"id": "C117", "title": "The example tester: results and output", "statement": "When OptimizerTester::Test returns, there is one row per test function and in it one result per optimizer, in order: its point is what Optimize returns from the start point of that function on an optimizer object used for the earlier functions in order, its value is the function at that point. If the answers of an optimizer do not depend on its history the result is that of a fresh optimizer. Test throws only what some optimizer or function throws, and returns if every optimizer does. OutputResults writes a heading with the optimizers in order and one line per function with its form, Max or Min, the value at the declared solution and the values found, in order; without functions or without optimizers it is undefined.", "quantifier": "all lists of test functions and (stateful, possibly throwing) optimizers", "why_tests_cant": "Holds for every list and every behaviour of the optimizers.", "anchors": ["examples/continuous_optimization/optimizer_tester.cpp: Test, TestSingleFunction", "examples/continuous_optimization/optimizer_test_result.cpp", "examples/continuous_optimization/main.cpp: OutputResults"]}
{"id": "C118", "title": "The genetic algorithm example ends with a valid result", "statement": "For every stream of random numbers the program examples/genetic_algorithm ends with exit code 0 and prints two numbers of the form 0.0001 + k * 99.9999 / 2^20 with k < 2^20 (so between its bounds) and as fitness the sum of 1/|x^2-2| over the two. Unless two chromosomes of the run have the same hash, it evaluates exactly ten generations of 300 individuals (the stop value, the largest double, is never reached) and no individual has a larger value than the one printed. The same end is reached if the call of SetInitialParameters, commented out in the program, is made; then the first generation consists of the given parameters (1.4, 1.4), which are accepted. The parameters object passed to Optimize holds zeros, below its own lower bound, and so violates its constraints; its encoding is the chromosome of ones. Whatever the size of a cache entry, no exception leaves the program.", "quantifier": "all streams of rand() and of random booleans, all hash functions, any sort that permutes, cache entries of up to 349 bytes; exact arithmetic", "why_tests_cant": "One run shows one random stream; absence of exceptions, of overflow, of an endless retry and of a stop criterion met must hold for all of them.", "anchors": ["examples/genetic_algorithm/genetic_algorithm.cpp: main, ExactDiscreteObjectiveFunction, GetInitialParameters", "src/optimization/genetic_algorithm/genetic_algorithm.cpp: Create, Optimize, SetInitialParameters", "src/optimization/params/double_parameters_array.cpp"]}
{"id": "C119", "title": "MPI pool with results received by blocking calls", "statement": "DoTasks of the MPI pool with results whose receiving chain mixes calls that post a receive with calls that receive several messages blockingly - as the results of optimization tasks do - for any number of workers >= 1, any task list and any order in which workers and messages progress: when it returns, results[i] is complete and is that of tasks[i], every task was performed exactly once, and nothing is left behind for the next call. Whenever the server waits in a blocking call, the worker it waits for has already performed its task, so it never stands still during a computation; it cannot deadlock; a call makes exactly 3p+2 non-polling steps per task, two per blocking call, and one more; under fair progress it returns. For a batch of optimization tasks each result object ends up with the parameters found for its task, for counting tasks with the value.", "quantifier": "all numbers of processes, task lists, result shapes (any mix of posted and blocking calls after a first posted one), schedules and histories of calls", "why_tests_cant": "the interleavings of server, workers and messages are unbounded; a deadlock of a blocking receive would show only for some of them", "anchors": ["src/parallel/mpi/mpi_worker_pool.cpp:MpiWorkerPool::DoTasks, SendTask, WaitAndPopNextExpectation, RunWorkerLoop", "src/optimization/optimization_task_result.cpp:ReceiveAsync, ReceiveParametersIdAsyncCall, ReceiveParametersAsyncCall, Send", "src/optimization/objective_function_task_result.cpp:ReceiveAsync, Send"]}
{"id": "C120", "title": "Fast Fourier transforms in several threads", "statement": "FastFourierTransform objects may be constructed, used and destroyed by any number of threads at once as long as no single object is used by two threads at the same time: under every interleaving of the individual buffer accesses each Transform returns the transform of its own argument (or throws when the argument does not have the size of the object), constructing with size 0 throws and any other size yields an object of that size; no two threads are ever in the FFTW planner, whatever the clients do; there is no deadlock and every call ends (a Transform of n values after at most 5n+4 steps of its thread). One object used by two threads is not protected, although Transform is const: for any two sequences of its size there is a schedule in which the call with the first returns the transform of the second, and a moment at which both threads are about to write the same element of the internal buffer (a data race).", "quantifier": "all numbers of threads, objects, sizes, sequences and interleavings of calls; the failure for all pairs of non-empty sequences of equal length", "why_tests_cant": "schedules are unbounded, and a data race shows only in some of them", "anchors": ["src/dsp/transform/fast_fourier_transform.cpp:FastFourierTransformImpl, ~FastFourierTransformImpl, Transform, fftw_mutex_"]}
{"id": "C121", "title": "Life of fast Fourier transform objects", "statement": "A program that constructs, uses and destroys FastFourierTransform variables without copying them is free of undefined behaviour, frees everything it allocates and gets every Transform answered according to the size its variable was constructed with. The class can also be copied and assigned (implicitly, sharing a raw pointer that every destructor deletes): a program that destroys all its variables has undefined behaviour exactly when it copy-constructs some variable or assigns one to a different one. An assignment loses the memory of its left side for ever; passing an object by value makes the original unusable once the copy is destroyed.", "quantifier": "all programs (finite sequences of construction, copy, assignment, use and destruction)", "why_tests_cant": "the histories of copies and destructions are unbounded and use after free often goes unnoticed in a test", "anchors": ["include/k52/dsp/transform/fast_fourier_transform.h:FastFourierTransform", "src/dsp/transform/fast_fourier_transform.cpp:FastFourierTransform::FastFourierTransform, ~FastFourierTransform, Transform"]}
{"id": "C122", "title": "Objective functions with internal state in a thread pool", "statement": "Evaluation of an objective function is const but may use memory of the function object. Multi-start optimization gives every task clones of function, parameters and optimizer: whatever the number of workers and the interleaving of their individual steps, each task returns what it returns alone on a clone, and the objects passed in are not changed. Fitness counting (genetic algorithm, random search, grid search) lets all tasks call the one function object: results are right if no evaluation can notice what another writes, and with one worker also if the function uses its memory only as scratch space; with two or more workers a function that keeps its argument in a member can return, for any two parameters, the value of the second for the first.", "quantifier": "all functions given as step programs over object memory, numbers of workers, task lists and interleavings; the failure for all pairs of parameters", "why_tests_cant": "the interleavings of the workers are unbounded; the wrong value appears only in some", "anchors": ["src/optimization/objective_function_counter.cpp:CreateRawTasks", "src/optimization/count_objective_function_task.cpp:CountObjectiveFunctionTask, Perform", "src/optimization/optimization_task.cpp:OptimizationTask, Perform", "src/optimization/optimization_parameters_processor.cpp:ProcessParameters"]}
{"id": "C123", "title": "The kind of worker pool does not change fitness values", "statement": "Counting objective function values for a list of parameters gives, with the sequential pool, with a thread pool (two or more workers) and with an MPI pool (two or more processes), after any history of the pool and under every interleaving, exactly the list of the values in the order of the parameters, and such an outcome exists. Hence evaluating a population (with or without cache) has exactly one outcome, the same for every pool, and so has the choice of the best candidate by the simple parameters processor.", "quantifier": "all objective functions computing the same value everywhere, parameter lists, pool kinds and sizes, previous histories, interleavings, populations, cache states, hash functions", "why_tests_cant": "the histories and interleavings of the pools are unbounded, and most of them never occur on one machine", "anchors": ["src/optimization/objective_function_counter.cpp:CountObjectiveFunctionValues, ObtainFitness", "src/optimization/simple_parameters_processor.cpp:ProcessParameters", "src/parallel/sequential_worker_pool.cpp:DoTasks", "src/parallel/thread/thread_worker_pool.cpp:DoTasks", "src/parallel/mpi/mpi_worker_pool.cpp:DoTasks"]}
{"id": "C124", "title": "The continuous optimization example as a whole, in double", "statement": "The example program (seven optimizers with the example's settings, five functions, double arithmetic) writes its table - a heading with the seven optimizer names in order and five lines with the values at the points the optimizers return - unless the conjugate gradient or the steepest descent method does not return for one of the functions; it can fail in no other way. Nelder-Mead, Rosenbrock, Hooke-Jeeves, random search and simulated annealing return a point with two coordinates on each function, whatever the optimizer object was used for before and whatever the random numbers. Random search draws ten points with coordinates in [-1000, 1000] and returns one of them, the best one if the values are numbers. Conjugate gradients on 1/|x^2-2| returns a point without finite coordinates, where the function is NaN or 0, although it is positive at the start; on the sum of squares it returns exactly (0, 0).", "quantifier": "all random number sequences, all library functions sin, exp and sqrt satisfying a few IEEE facts, all sufficiently large fuel", "why_tests_cant": "a run sees one sequence of random numbers and one implementation of the library functions; that the loops end is a statement about all runs", "anchors": ["examples/continuous_optimization/optimizers_provider.cpp:get_optimizers", "examples/continuous_optimization/main.cpp:main", "examples/continuous_optimization/consts.h", "examples/continuous_optimization/optimizer_tester.cpp:Test, OutputResults", "src/optimization/continuous_optimizer.cpp:Optimize", "src/optimization/random_search.cpp:FindOptimalParameters", "src/optimization/conjugate_gradient_method.cpp:FindOptimalParameters"]}
{"id": "C125", "title": "Individuals under every sequence of calls", "statement": "After any sequence of constructors, copies, assignments and calls on any number of individuals, exceptions included, a fitness returned by get_fitness is the number set for exactly the chromosome the individual has now, on itself or on the individual it was copied from - with two exceptions: reading a text with a negative fitness throws but leaves the new chromosome with the old fitness and parameters, and an Initialize in which the parameters cannot be encoded leaves what they wrote with the old fitness. A second Initialize throws after having re-initialized the individual. Calls on an individual that is not initialized throw logic_error and change nothing. Assignment copies everything or changes nothing; a source without parameters leaves the target its own. SetRandomChromosome and Mutate leave no fitness however they end; crossover of different sizes throws and only drops the two fitness values. An initialized individual always has parameters, so no call dereferences a null pointer; crossing over empty chromosomes is undefined.", "quantifier": "all sequences of calls on all numbers of individuals, all parameter classes and mutators (which may throw at any point), all random numbers", "why_tests_cant": "the state after an exception depends on the whole history; histories are unbounded", "anchors": ["src/optimization/genetic_algorithm/individual.cpp:Initialize, operator=, SetRandomChromosome, Mutate, Crossover, BoolCrossover, set_fitness, get_fitness, operator>>", "src/optimization/initialization_checker.cpp:InitializationCheck, SetInitialized", "include/k52/optimization/individual.h"]}
{"id": "C126", "title": "One genetic algorithm object, many calls, exceptions included", "statement": "After any history of Optimize and SetInitialParameters calls on one GeneticAlgorithm object - calls that threw in the objective function, the callback, the cache, a Clone or a file included - an Optimize call that returns is an ordinary run from what the object holds: its initial parameters, its cache, its cache-hit and invalid-chromosome numbers. Every fitness in it is a value that the objective function of this or of an earlier call returned for a chromosome of equal hash; so if all calls use one objective function, parameter objects of one family and no two chromosomes collide, every fitness is the value of the individual's own parameters, and the result is the best of them. Cache hits told to the callback plus objective-function calls equal all individuals of all generations plus the hits an earlier throwing call left over (the first statistic after such a call is too high); a returning call leaves none over. Once the values of a generation do not fit into the cache, no Optimize on this object ever returns again. SetInitialParameters that returns holds for every later Optimize until it is called again (there is no way back to random populations); if it throws on an object that had initial parameters, no Optimize returns until it succeeds; if it throws on an object that had none, later calls start at random as before.", "quantifier": "all histories of calls with any arguments, objective functions and callbacks (both may throw at any time), all cache sizes, all random numbers", "why_tests_cant": "the behaviour of a call depends on the whole, unbounded history of the object, and on where earlier calls were interrupted", "anchors": ["src/optimization/genetic_algorithm/genetic_algorithm.cpp:Optimize, SetInitialParameters, Initialize, ValidateInitialParameters, RunIterationsAndSetBestIndivid, ProcessStatistics", "src/optimization/objective_function_counter.cpp:ObtainFitness, ProcessPopulation, AddNewCacheValues", "src/optimization/fitness_cache.cpp:AddValues"]}
{"id": "C127", "title": "One composite parameters object, many calls, exceptions included", "statement": "Take a new CompositeDiscreteParameters and any sequence of its public calls, some of which may throw. Until Initialize returns normally, every call but Initialize throws and changes nothing, and failed initialisations leave no trace: Initialize does what it would do on a new object. After that, as long as Initialize is not called again and members are changed through GetParameter's pointers only to sound objects of the same size, no member is null, the chromosome size is the sum of the members' sizes, and no call is undefined (numbers fitting). Initialize never returns normally a second time: with sound parameters it throws logic_error, but it has replaced the members, while the chromosome size stays the first one for ever. If the new members have the same size in total, the object is as good as new; if they need more, encoding and decoding run past the end of every accepted range; if they need less, only the beginning of the range is used, and clones have another chromosome size. If copying one of the new parameters throws, the remaining members are null pointers: nothing can be encoded, decoded or cloned any more.", "quantifier": "all sequences of calls on one composite, all parameter objects (nested to any depth) and chromosomes", "why_tests_cant": "the state after a call depends on the whole, unbounded history, and the outcome of a failed second initialisation on the sizes of arbitrary trees", "anchors": ["src/optimization/params/composite_discrete_parameters.cpp: Initialize, CheckConstraints, SetChromosome, SetFromChromosome, GetParameter, Clone", "src/optimization/params/const_chromosome_size_paremeters.cpp: SetConstChromosomeSize", "src/optimization/initialization_checker.cpp"]}
{"id": "C128", "title": "The kind of worker pool does not change what multi-start optimization returns", "statement": "OptimizationParametersProcessor::ProcessParameters runs one optimization task per start in whichever worker pool there is. For continuous arrays, a continuous function and any of the five direct or gradient methods: with the sequential pool, a thread pool of two or more workers or an MPI pool of two or more processes (with the function, a continuous array and the optimizer classes registered at both ends), whatever the pool did before and under every schedule and order of messages, the results a call of DoTasks can return are exactly those performing each task in this process gives, the i-th for the i-th start. So ProcessParameters can return parameters with the values r exactly when performing the tasks one after the other returns parameters with these values; a program moved from one kind of pool to another returns the same. Given no start its behaviour is undefined with every pool.", "quantifier": "all three pools in all states between two calls, all schedules, all starts, functions, methods, settings and directions", "why_tests_cant": "the results depend on the schedule of threads, on the order of messages and on everything the pool was used for before", "anchors": ["src/optimization/optimization_parameters_processor.cpp: ProcessParameters", "src/optimization/optimization_task.cpp: OptimizationTask, Perform, Send, Receive", "src/optimization/optimization_task_result.cpp: Send, ReceiveAsync", "src/parallel/thread/thread_worker_pool.cpp: DoTasks", "src/parallel/mpi/mpi_worker_pool.cpp: DoTasks", "src/parallel/sequential_worker_pool.cpp: DoTasks"]}
{"id": "C129", "title": "The sample cache of one fast wavelet transform used by several threads", "statement": "FastWaveletTransform::Transform and TransformOneScale are const but fill and read the cache of the object. Take any number of threads, each calling IsCached and then GetCachedValue or AddValue as these functions do, where each of the cache's methods runs as if it took a mutex (it takes none; two at once are a data race). However the calls overlap, a call that returns samples returns those of its own wavelet, scale and length. While no two calls overlap, whichever threads make them, the only exception is 'unable to clear cache up to limit'; and a call that is not interrupted is exactly the sequential one. When the cache has room for all keys that are used, no call throws under any schedule. A thread inside a call can always make its next step (short of the 2147483648th read of one entry). But whatever the limit is, provided one entry fits, there are two calls after some history of calls that do not overlap which both return in either order, while one of them throws 'attempt to get uncached value' when the other runs between its two cache calls: a mutex around each method of the cache would not make the object safe to share.", "quantifier": "all numbers of threads, schedules, histories of calls, keys, cache limits and entry sizes", "why_tests_cant": "the outcome depends on the interleaving of threads and on everything the cache was used for before", "anchors": ["src/dsp/transform/wavelet/fast_wavelet_transform.cpp: GetWaveletSamplesForConvolution", "include/k52/common/cache.h: IsCached, GetCachedValue, AddValue, ClearCacheUpToLimit"]}
{"id": "C130", "title": "A composite copies what it is given and shares what it hands out", "statement": "CompositeDiscreteParameters::Initialize, called for the first time with any pointers to initialised parameters (also the same pointer several times, as Initialize(sample, n) does), gives the composite members with the same states that are new objects: no pointer the caller had leads to any part of them, no two of them share a part, and no existing object is changed. GetParameter(i) returns the member itself, the same pointer in every call, and throws out_of_range past the end. So whatever code does through that pointer is a change of the composite: afterwards it is the same composite with the new state as its i-th member and all others as they were, and however often and in whatever order such pointers are used the composite keeps its members, earlier pointers stay the ones GetParameter returns and members that were not used do not change. Conversely a change of the composite (SetFromChromosome) is seen through a pointer got before: it always shows the state of the i-th member.", "quantifier": "all parameter trees (any nesting and number of members), heaps, aliasing of the arguments and histories of actions through the pointers", "why_tests_cant": "aliasing is observable only by later actions, of which there are unboundedly many", "anchors": ["src/optimization/params/composite_discrete_parameters.cpp: Initialize, GetParameter, CountTotalChromosomeSize"]}
