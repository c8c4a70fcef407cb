# Formal model of PavelKovalets/k52 in Lean 4

## Layout

* `lean/Verif/Model/*.lean` – the model: one Lean definition per C++ function, each with a comment citing the file and lines it
  models and the simplifications made.  No theorem lives there (beyond what termination needs).
* `lean/Verif/Lemmas/*.lean` – helper lemmas and invariants.
* `lean/Verif/Props/*.lean` – small independent specifications, the property theorems (named `Cxx_…`), and beside them
  non-vacuity examples: concrete, non-trivial cases that meet the hypotheses.  Where the code does not do what a user would expect, the
  property states what it does do and the deviation is a theorem as well (a witness or a whole family).
* `properties.jsonl` – the English properties; `MANIFEST.json` – property → theorems; `seeded/LOG.jsonl` – log of seeded bugs.

## Trusted base

* Lean 4.33.0's kernel and Mathlib's definitions.  Every theorem depends on at most the axioms `propext`, `Classical.choice` and
  `Quot.sound` (`#print axioms`; `vcheck` replays all modules).  No axioms of our own, no `native_decide`, no `bv_decide`; concrete
  runs are evaluated by the kernel (`decide`, `decide +kernel`).
* The reading of the C++ text: nothing was compiled or run.  The tie between code and model is the citation comment on each definition.
* Conventions of the model:
  * Outcomes: `Res.ok`, `Res.throw` (C++ exception, by type name), `Res.ub` (undefined behaviour: signed overflow, out-of-range access,
    division by zero, shifts too wide, null dereference).  They are distinct; a theorem saying "returns" excludes the other two.
  * Loops without a syntactic bound take fuel.  Running out of fuel is a separate mark, never a normal result; theorems about results hold for
    every fuel, theorems about termination say that some (explicit, where possible) fuel suffices or that none does.
  * `double` is an exact linearly ordered field (`ℝ`, `ℚ` or any); rounding is outside the model, except where a property is about it
    (C92, C93, C95, C96, C99–C110: `Spec/Rounding.lean`, overflow and underflow aside;
    C111-C115: `Spec/Double.lean`, a binary format with gradual underflow, overflow, infinities and one NaN, zero unsigned).  Where infinities or
    NaN decide what happens (division by zero in the gradient methods, logarithmic scales) they are explicit outcomes.  Theorems over an arbitrary
    carrier with only a linear order (Hooke–Jeeves comparisons, processors, serialisation) hold of NaN-free doubles too.
    C87–C91 take any arithmetic in which comparisons with NaN are false and NaN propagates: these hold of `double` with any rounding.
  * `int` is 32-bit with overflow = UB where overflow matters (`IntParameter`, `Random`, grid search), else `ℤ`.  C77 alone reads overflow as
    wrap-around, and says so.
  * `rand()` is an arbitrary stream; theorems quantify over all streams.
  * Threads and processes: transition systems whose steps are the lock operations, waits (with spurious wake-ups), accesses in critical
    sections, sends and receives of the code; theorems quantify over all interleavings.  Weak-memory effects are not modelled.
  * Heap objects behind `shared_ptr` are values, or an explicit heap where sharing matters (`Clone`).
  * User-supplied code (objective functions, wavelets, mutators, callbacks, tasks) is an arbitrary function of its arguments; where it may
    keep state or throw, the state or the exception is explicit.
* Trusted, not modelled: FFTW (assumed to compute the forward DFT), `exp`, `pow`, `sqrt`, `log` of libm (the real functions), `std::sort` and
  `std::list::sort` (any permutation that is sorted / the stable sort), Boost.MPI transport and serialisation of a single value, Boost.Thread
  primitives, boost::property_tree (modelled as an ordered tree), its XML reader, iostream formatting of numbers (an abstract
  printer/parser pair with a round-trip hypothesis), `boost::hash` (an arbitrary function).
* Not modelled: console output, timing, performance, memory exhaustion, the `tests/` directories, build files, and of `examples/` everything
  but what C116-C118 name.

## Properties

| Id | What is modelled (files under `lean/Verif/Model`) | How it is proved |
|---|---|---|
| C01–C04 | `Cache`: `LimitedUsageCacheManager` as a map with usage counters and a step function | refinement to a finite map over all operation histories; invariants by induction |
| C05–C08 | `IntParam`: `IntParameter`, `ConstChromosomeSizeParameters`, 32-bit arithmetic | binary digits, induction over bits; exact exception set |
| C09–C12 | `Params`: `DoubleParameter`, `DoubleParametersArray` over an Archimedean ordered field, floor for the truncating cast | ordered-field reasoning on top of C05–C08; exact acceptance sets |
| C13–C15, C61, C62 | `Params`, `Heap`, `Continuous`: parameter trees, `Clone` on an explicit heap, `HasSameMetaParameters`, `ContinuousParameters` | structural induction; heap invariants (separation, freshness) |
| C16 | `Text`: `operator<<`, `operator>>` of `Individual`, population files | induction over characters and individuals, for every sane number format |
| C17–C23, C59 | `Individual`, `GA`: initialisation, crossover, mutation, selection, elitism, fitness counter, main loop | invariants over all generations of all runs, for every stream, mutator, hash and parameter family |
| C78, C79 | `GAStats`: the same run with statistics, callback and population files | erasure (the run without observers is the same), then a joint induction over generations; composition with C16 |
| C24–C26, C60 | `ThreadPool`, `Queue`: workers, queue, condition variables, destructor | inductive invariants over all interleavings, decreasing measures, linearisation |
| C27, C29–C32, C58 | `Parallel`: sequential pool, aggregator, call chain, delay, registry, factory | induction over histories |
| C28, C33 | `MpiPool`, `Transfer`: server, workers, message queues, writer/reader of every message | invariants over interleavings; round trips |
| C34, C35 | `Settings`: property tree, arguments, merge | induction over argument lists and trees |
| C36, C37, C77 | `Random`, `RandomWrap` | arithmetic for every `rand()` stream |
| C38 | `Mutator`: flip and linear mutators | invariants over calls |
| C39, C40 | `Processors`: parameter processors, grid search | induction, mixed-radix bijection |
| C41, C63 | `HookeJeeves` | loop invariants; termination by well-foundedness, divergence by an explicit function |
| C42–C45, C64, C65 | `NelderMead` | loop invariants, counterexample runs, potential for termination |
| C46 | `Search`: random search, simulated annealing | invariants for every stream |
| C47 | `Continuous`: `ContinuousOptimizer` | direct |
| C48, C66 | `Rosenbrock` | Gram–Schmidt over ℝ, loop invariants |
| C49–C51 | `Dsp`: transforms and convolutions over ℂ | roots of unity, finite sums |
| C52, C53, C68 | `Dsp`, `Cwt`: scales, fast wavelet transform with its cache, `BuildWavelet` | algebra; the cache theorems C01–C04 |
| C54, C55, C67 | `Akima` | algebra over an ordered field, continuity and derivatives over ℝ, libstdc++'s binary search |
| C56, C69 | `Cwt`: continuous transform, wavelet functions | induction over rows; integrals over ℝ |
| C57 | `FloatingPoint`: `AreEqual`, `IsZero` | order-field reasoning |
| C70–C76 | `Gradient`: numeric gradient, conjugate gradients, golden section, steepest descent over ℝ | conjugacy by induction; unimodality; monotone decrease and compactness; both readings of unqualified `abs` |
| C80, C81 | `GradientProg`: the same two methods on lists, every evaluation a question to `ContinuousOptimizer` | simulation of the functional models; mirror simulation between `f` and `-f` |
| C82–C84 | `Tasks`: optimizers as objects (settings, memory), `Clone`, dispatch of `Optimize`, optimization tasks, the optimizing processor, random search with an inner optimizer, received tasks (over the reals) | characterization of `process` by `Forall₂`; composition with C33, C41, C45, C63 |
| C85, C86 | `MpiLife`: tasks that are not `IMpiTask`s, the exception, the destructor and the exit of workers, around the system of C28 | invariants on top of C28's; termination measure; explicit runs for the existence claims |
| C87–C91 | the models of C41, C45, C62–C64, C18–C23 read over any arithmetic with IEEE comparisons and NaN propagation (`Spec/Ieee`); `IeeeAnnealing` | scans by induction on the list, program runs by induction on the fuel; concrete runs in `Dbl` (exact ℚ with infinities and NaN) for the existence claims |
| C92, C93 | the models of C36, C37, C18–C23 read over `Fl r`: rationals that a monotone idempotent rounding `r` fixes, each operation rounded (`Spec/Rounding`); `Nearest.fl p` is round-to-nearest-even with `p` digits | monotonicity of rounding; the tower of lemmas about whole runs is generic in the arithmetic; concrete roundings by kernel evaluation |
| C94 | the model of C18–C23, with the library's parameters and mutators | weakest-precondition style lemmas (`Fine`): every call of a run returns, or is in a retry loop; mutual induction over parameter trees; a run by kernel evaluation for the cache exception |
| C95 | the model of C08–C10 instantiated with rounded arithmetic (`Verif.Spec.Rounding`: numbers with `p` binary digits, round to nearest even) | scaling by powers of two is exact, error bound per operation, monotonicity; two violations in `double` by kernel evaluation |
| C96 | the model of C11–C12 instantiated with rounded arithmetic | as C95; if a decoded value gets the last grid index, the bounds are close together compared with their size, so their difference is exact (Sterbenz); three failures in `double` by kernel evaluation |
| C97 | the fields, setters, `createWavelet`, `transform` of `Wavelet` and the transformation, with the state an exception leaves behind | `transform` depends only on the built rows and the count; induction on the setter sequence and on the loop; agreement with the model of C56/C68 |
| C98 | the MPI system of C28 with workers inside a `Perform` that does not return | invariant (a hanging task stays expected) on top of that of C28; counting hanging tasks against busy workers; the measure of C28 for progress and fair runs |
| C99 | the linear mutator of C38 over any rounded arithmetic (`Fl r`), and the genetic algorithm of C20 with it | monotonicity of rounding; error terms of the four operations added up; induction over the generations for whole runs; counterexamples in `double` evaluated by the kernel |
| C100 | the grid search of C40 over any rounded arithmetic (`Fl r`) | digits of the point number as in C40; error terms of the four operations added up; exactness of small multiples of a power of two; counterexamples in `double` evaluated by the kernel |
| C101 | the flip-bit constructor of C38 over any rounded arithmetic | spacing of the numbers around 1/2 and 2, monotonicity, error terms; counterexamples in `double` evaluated by the kernel |
| C102 | the linear scale of C52 over any rounded arithmetic | monotonicity of rounding; error terms of the four operations; exactness of small multiples of a power of two; counterexamples in `double` evaluated by the kernel |
| C103 | `transform` of C97 over any rounded arithmetic, `std::sqrt` a parameter | a sum after `k` roundings is within `(1+u)^k - 1` of the exact one relative to the sum of absolute values (induction); a correctly rounded square root is constructed |
| C104 | the circular convolution of C50 over pairs of rounded numbers | as C103, with two roundings more per term; order dependence by kernel evaluation |
| C105 | the transforms of C49 over pairs of rounded numbers (`Model/RoundFourier.lean`): the argument of `exp` is computed with its five roundings, `cos`, `sin` and `Pi` are parameters of bounded error | error of the factors by Lipschitz bounds of cosine and sine; running sums as C104; inverse through the exact inversion theorem of C49; existence of correctly rounded functions for non-vacuity |
| C106 | the Fourier-based convolution of C50 over pairs of rounded numbers | composition of C105's bounds with the product's roundings and the exact convolution theorem |
| C107 | the golden-section loop of C74 over numbers with `p` digits, the comparisons of values arbitrary | the segment shrinks by at least one unit of the grid of the precision per round (the inner points stay inside by monotonicity of rounding), or the borders are unchanged and the loop ends; a run in `double` evaluated by the kernel |
| C108 | the spline of C54/C55 over numbers with `p` digits; the model is written for any type with the operations, powers are any functions of given accuracy | running error analysis (`Lemmas/RoundSim.lean`): each computed quantity is within a factor of the exact one relative to the sum of the absolute values of its terms; binary search and piece selection are proved for any linear order |
| C109 | the sampled wavelet function of C67 over numbers with `p` digits | error bounds of the computed abscissae give strict monotonicity of the knots; then C108 and the domain theorem of C55; `double` case evaluated by the kernel |
| C110 | `BuildWavelet` with linear scales over numbers with `p` digits and any base function | running error analysis of the sample points; loops that fill a vector succeed or throw as their steps do; C109 for sampled functions |
| C111 | steepest descent over `Flt F` (`Model/IeeeGradient.lean`, `Spec/Double.lean`): every operation rounds, underflows gradually, overflows to infinity or gives NaN | the step grows by 9/8 or more per round until it overflows, so fuel is bounded; monotonicity of the rounded operations for the affine case; runs in `double` by kernel evaluation |
| C112 | conjugate gradients over `Flt F` (`Model/IeeeGradient.lean`) | what is not finite stays so; a function value minus itself is 0 or NaN, so the loops end after at most two rounds there; oddness makes the second difference cancel; agreement with the exact model; runs in `double` by kernel evaluation |
| C113 | Hooke-Jeeves (`Model/HookeJeeves.lean`, generic in the numbers) over `Flt F` | a coordinate that is not finite stays so or becomes NaN; a NaN value never makes `<=` true, so the pattern search runs to the limit; each division of the step makes it smaller until its square underflows; every return to the loop head divides the step or uses up an iteration |
| C114 | Nelder-Mead (`Model/NelderMead.lean`, generic in the numbers) over any type with the operations, and over `Flt F` | the indices found are always those of vertices; an invariant through one iteration for arbitrary predicates on points; rounding errors of sum, quotient and midpoint (`Lemmas/DoubleError.lean`), added up over the iterations; violations in `double` by kernel evaluation |
| C115 | the Rosenbrock method (`Model/IeeeRosenbrock.lean`, generic in the numbers) over any arithmetic with IEEE comparisons and NaN propagation, and over `Flt F` | steps are all numbers or all NaN: when one becomes NaN the iteration makes all coordinates NaN and the exit criterion holds; the first iteration in closed form; then squares that underflow keep the orthogonalization from normalizing (products of steps and directions stay zero), squares that overflow turn all directions to zero; rounding errors of the corrected step; violations in `double` by kernel evaluation |
| C116 | the five objective functions of `examples/continuous_optimization`, their `Clone` and the declared solutions (`Model/ExampleFns.lean`, generic in the numbers), over `Flt F`/`double` and over the reals; multi-start as in C82 but on clones of the function | a bound on each term that is attained at the declared solution, monotonicity of rounded sums (NaN and infinities included); spacing of `double` near 2 bounds x²-2 away from 0; reals: irrationality of the root of 2, bounds of sin, explicit points |
| C117 | `OptimizerTester` and `OutputResults` of the example, with optimizers as objects that keep state | induction on the functions and on the optimizers |
| C118 | the program `examples/genetic_algorithm` (`Model/ExampleGA.lean`), with exact arithmetic, on the genetic algorithm of C19-C23 and C94 | the array and the start encoding evaluated by the kernel; C94 for termination, C18, C20, C21, C23 for the result; numbers of the grid are rational, so x²-2 is a nonzero fraction with known denominator, which bounds the fitness below the stop value |
| C119 | the MPI system of C28 with chains that contain blocking calls (`Model/MpiBlocking.lean`): the second call of an `OptimizationTaskResult` receives inside `MakeNextCall` and returns no request | the invariant of C28 is kept by every step (a blocking receive is a receive posted and waited for); queued calls account for the messages not yet asked for; measure of C28 plus two per blocking call; composed with C33 for the result classes of the library |
| C120 | `FastFourierTransform` objects with the static mutex, used by any number of threads; one step per access to a buffer and per action on the mutex (`Model/FftThreads.lean`); FFTW's plan is a function parameter computed element by element | inductive invariant (what each thread has written to its object so far), holder of the mutex = thread in its critical section, measure of the work left; explicit schedules, by induction on the length, for the race |
| C121 | variables of the class, the implicit copy constructor and assignment, the raw pointer (`Model/FftLife.lean`) | the number of variables minus the number of different implementations they own never decreases and must be 0 at the end; invariant for programs without copies |
| C122 | the objects that counting and optimization tasks work on, with memory; evaluation of an objective function as a sequence of steps on that memory, workers interleaved between the steps (`Model/SharedFn.lean`) | invariant: every running task is where it would be alone (on its clone; on any indistinguishable memory; since it was started, with one worker); an explicit interleaving for the failure |
| C123 | no new model: the relation "a call in some pool state between calls can end with these values" for the three pools, and the two callers that use the values | the relation is the graph of `map f`: induction for the sequential pool, C24/C25 for threads, C119 for MPI; the callers by substitution |
| C124 | `Model/ExampleMain.lean`: `optimizers_provider.cpp`, `consts.h`, `main.cpp` over the existing models of the seven optimizers and of the tester; `Optimize` with its dimension checks. Every optimizer has its own random stream instead of one shared `rand()`, `pow(x, 2)` is `x * x`, unbounded loops carry fuel; `sin`, `exp`, `sqrt` are parameters with a few IEEE facts as hypotheses (`Env.Good`, satisfied by `env64`) | a predicate `Prog.Asks` (every point asked has the right dimension) carried through the seven methods; C91, C103, C113-C115 for termination; C112 and kernel evaluation for conjugate gradients on two functions |
| C125 | `Model/IndividualObj.lean`: `individual.cpp` with the object's state after every call, also a throwing one, on a list of objects; user code may throw anywhere | an invariant linking fitness and chromosome to a record kept by the specification (`credit`), by induction over call sequences; the two ways to break it are theorems |
| C126 | `Model/GAObj.lean`: `GeneticAlgorithm` and `ObjectiveFunctionCounter` as a state monad with exceptions, so that the object's state after a throwing call is known; objective function and callback are functions that may throw; sequential worker pool; a record of completed objective-function calls is added for the statements | a returning call is a run of `Model/GAStats.lean` (simulation), so C18-C23, C78, C79 apply; an invariant linking cache and record (`Backed`), by induction over histories; kernel-evaluated histories for the left-over numbers |
| C127 | `Model/CompObj.lean`: the composite with a vector of possibly null members, every call giving the state also when it throws | invariant over call sequences (`Sound`: not initialised or a `WFP` value of `Model/Params.lean`), agreement with the value model, and exact descriptions of what a second `Initialize` leaves |
| C128 | no new model: `ProcessParameters` over the relation "a call in some pool state between calls can end with these parameters" for the three pools; the MPI tasks are sent, rebuilt, performed and sent back (`work`) | induction for the sequential pool, C24/C25 for threads, C84 with C119 for MPI; then the selection is that of `Tasks.process` (C82) |
| C129 | `Model/FwtThreads.lean`: transition system over the cache model of C1–C4, one step per cache call of `GetWaveletSamplesForConvolution`, any number of threads | invariants (right values; single caller; roomy cache) by induction over reachable states; the race is constructed for every limit from the largest number of entries that fits |
| C130 | `Model/HeapComp.lean`: `Initialize` and `GetParameter` over the heap of C15 | `cloneAll` yields disjoint segments of new objects (induction over the members); the ownership invariant is kept by every action through a member pointer (`Client`), by induction over histories |

Every property is expressible; none is marked not applicable.  Scope restrictions that remain are in the `note` of each manifest entry.

## Where the code departs from what a user would expect

These are theorems: C03 (look-ups can evict), C05/C10 (upper bound lost in encoding), C12 (values outside the bounds accepted, rejected ones
stored), C13 (re-initialising a composite corrupts it), C19 (initial parameters unusable with composites), C21/C23 (reported fitness can
belong to other parameters: initial values at the bound, hash collisions, a second objective function), C25 (a throwing task hangs
`DoTasks`), C28 (no workers), C33 (function state lost, parameters of foreign bounds), C35 (dotted names throw), C37/C77 (`Random` on
glibc), C38 (one-generation schedule), C40 (overflow), C42/C44/C64 (Nelder–Mead leaves the bounds, returns the worst vertex, remembers earlier
polygons), C47 (sign and constraint quirks), C52 (logarithmic scales out of range), C56 (zero and negative steps), C63 (Hooke–Jeeves' limit), C66, C71–C73, C75
(gradient methods at stationary points, dropped last point), C80 (constraints broken by numeric differentiation), C81 (conjugate gradients
ignore the maximize flag), C78 (statistics one generation late, stale counts), C82 (multi-start of an empty list, tasks that change when
performed), C83 (random search around an optimizer that cannot be cloned), C85 (MPI pool after an exception),
C87–C91 (NaN values: hide better candidates, are walked into, make selection throw, become the best individual, are never left),
C92 (random numbers above the maximum by rounding), C93 (individuals whose fitness is absorbed are never selected),
C94 (a cache that is too small ends a run with an exception),
C95 (in `double`, a start at the upper bound can violate the constraints; setting the value just read can lose a step),
C96 (in `double`, an array can reject its upper bound, and encoding a decoded array can change the chromosome),
C97 (changing the length of a built wavelet shifts its correlations or makes it read outside the signal; a failed rebuild leaves half of it),
C98 (the MPI pool waits for ever for a task that is not answered; tasks behind too many of them are never performed),
C99 (the linear mutator's probability can leave 0 .. 1 by a rounding error: `LinearMutator(0.1, 0.0)` with 4 generations makes `Optimize` throw),
C100 (in `double`, grid search can miss the upper bound, exceed it, or count a point twice),
C101 (in `double`, `FlipBitMutator(1.0 / n)` can skip one gene less than it should),
C102 (in `double`, the last linear scale can lie above or below `max`), C104 (in `double`, circular convolution is not commutative),
C107 (in `double`, the golden-section search can end far from the minimum of a unimodal function), C108 (in `double`, the Akima spline can miss its last
ordinate), C109 (in `double`, a wavelet function made from samples can throw at 4, and so can `BuildWavelet` with it; C110),
C111 (in `double`, steepest descent returns its start if the increment is too small for it),
C112 (in `double`, conjugate gradients return points of NaN without an exception),
C113 (in `double`, Hooke-Jeeves from an infinite coordinate returns NaN after the full number of iterations),
C114 (in `double`, BoundedNelderMead evaluates and returns points above its upper bound, or with NaN coordinates),
C115 (in `double`, the Rosenbrock method exceeds its maximal step, returns points without finite coordinates when maximal step times step overflows, and stops after
one iteration, whatever precision and limit, when the first step is below `2^-539` or above `2^514`),
C116 (the clone of the example's diffraction function is another function, so its multi-start optimizes that one; the declared solution of the last test
function is only a local minimum), C120 (`FastFourierTransform::Transform` is const but races on one object), C121 (copying a `FastFourierTransform` leads to a double deletion), C122 (with two workers, counting tasks evaluate an objective function that keeps scratch data wrongly), C124 (the example's conjugate gradient method returns NaN or infinities for its first function), C125 (a text with a negative fitness leaves an individual with the fitness and the parameters of another chromosome; a second `Initialize` throws after doing its work), C126 (after an `Optimize` call that threw, the next one reports the interrupted call's cache hits as its own; after a cache overflow or a failed second `SetInitialParameters` the object never optimizes again), C127 (a second `Initialize` of a composite throws but replaces the members; chromosomes may then be overrun, or null members dereferenced), C129 (`FastWaveletTransform::Transform` is const, but even with a mutex around each cache method two overlapping calls can make one throw although both return in either order).
