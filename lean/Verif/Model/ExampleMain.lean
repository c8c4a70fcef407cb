import Verif.Model.ExampleFns
import Verif.Model.HookeJeeves
import Verif.Model.IeeeAnnealing
import Verif.Model.IeeeGradient
import Verif.Model.IeeeRosenbrock
import Verif.Model.NelderMead

/-!
# Model of the example program `examples/continuous_optimization`

Sources: `optimizers_provider.cpp`, `consts.h`, `main.cpp` in `examples/continuous_optimization`; the seven optimizers as modelled elsewhere, called through
`ContinuousOptimizer::Optimize`.  `double` is any type with arithmetic and comparisons.
-/

namespace K52.ExampleMain

open ExampleFns (Opt)

variable {R : Type} [Add R] [Sub R] [Mul R] [Div R] [Neg R] [Zero R] [One R] [NatCast R] [LT R] [LE R] [DecidableLT R] [DecidableLE R]

/-- The environment of the program: what the test functions use, the value of a decimal literal, `std::sqrt`, `std::exp`, `kAlpha`
(steepest_descent_method.cpp:19), the `abs` seen by steepest descent and the fuel for the loops.  `pow(x, 2)` is taken to be `x * x`. -/
structure Env (R : Type) where
  fns : ExampleFns.Lib R
  lit : ℚ → R
  sqrt : R → R
  exp : R → R
  kAlpha : R
  sdAbs : R → Res R
  fuel : Nat

/-- What an optimizer keeps between calls: `previous_polygons_` (Nelder-Mead only) and the random numbers still to come.  The program has one stream for all
optimizers; here every optimizer has its own (random search and annealing use a fixed amount of numbers per call, so one stream can be split accordingly). -/
structure Obj (R : Type) where
  polygons : List (List (List R))
  random : Random.Lib

/-- Running `FindOptimalParameters` on parameters of dimension `n`: `CountObjectiveFunctionValueToMinimize` and `...ToMaximize`, continuous_optimizer.cpp:42-64,
with `ContinuousParametersArray::SetValues` (continuous_parameters_array.cpp:29-40; its `CheckConstraints` is always true). -/
def counted {α : Type} (f : List R → Res R) (n : Nat) (maximize : Bool) : Prog R α → Res α
  | .done r => r
  | .ask toMin x k =>
    if x.length ≠ n then .throw "invalid_argument"
    else do
      let v ← f x
      counted f n maximize (k (ContinuousOptimizer.signed maximize toMin v))

/-- An optimizer from its name and `FindOptimalParameters`: `Optimize`, continuous_optimizer.cpp:28-40, the final `SetValues` included. -/
def ofFind (name : String) (find : Obj R → List R → Prog R (List R × Obj R)) : Opt (Obj R) R where
  name := name
  optimize s f start maximize := do
    let r ← counted f start.length maximize (find s start)
    if r.1.length ≠ start.length then .throw "invalid_argument" else return r

/-- An optimizer that keeps nothing. -/
def plain (name : String) (find : List R → Prog R (List R)) : Opt (Obj R) R :=
  ofFind name fun s start => do
    let v ← find start
    return (v, s)

/-- `consts.h:11`. -/
def lower (e : Env R) : R := e.lit (-1000)

/-- `consts.h:12`. -/
def upper (e : Env R) : R := e.lit 1000

/-- `get_bounded_nelder_mead`, optimizers_provider.cpp:50-59; the name: bounded_nelder_mead.cpp:41. -/
def nelderMead (e : Env R) : Opt (Obj R) R :=
  ofFind "Bounded Nelder Mead" fun s start => do
    let r ← NelderMead.find e.sqrt ⟨e.lit 10, e.fns.eps, lower e, upper e⟩ e.fuel s.polygons start
    return (r.1, { s with polygons := r.2 })

/-- `get_hleborodov_rosenbrock`, optimizers_provider.cpp:61-72; hleborodov_rosenbrock_method.cpp:50. -/
def rosenbrock (e : Env R) : Opt (Obj R) R :=
  plain "Hleborodov Rosenbrock Method" (IeeeRosenbrock.find ⟨e.fns.abs, e.sqrt, e.lit (3 / 2), e.lit (-1 / 2)⟩ ⟨e.fns.eps, 1000, e.lit 1, e.lit 3⟩)

/-- `get_conjugate_gradient`, optimizers_provider.cpp:74-79, with the default arguments (conjugate_gradient_method.h:16-19); conjugate_gradient_method.cpp:42. -/
def conjugateGradient (e : Env R) : Opt (Obj R) R :=
  plain "Conjugate Gradient Method"
    (IeeeGradient.Cg.find ⟨e.fns.abs, e.sqrt, fun x => x * x, e.fns.eps⟩ ⟨e.lit (1 / 10000), e.lit (1 / 100000), 1000⟩ e.fuel)

/-- The random points of `RandomSearch`, random_search.cpp:46-51. -/
def candidates (n : Nat) (min max : R) : Nat → Random.Lib → List (List R) × Random.Lib
  | 0, l => ([], l)
  | k + 1, l =>
    let x := Random.vector l n min max
    let xs := candidates n min max k x.2
    (x.1 :: xs.1, xs.2)

/-- `get_random_search`, optimizers_provider.cpp:81-90; `FindOptimalParameters`, random_search.cpp:41-66, with the simple processor
(simple_parameters_processor.cpp:15-43); random_search.cpp:75. -/
def randomSearch (e : Env R) : Opt (Obj R) R where
  name := "Random Search"
  optimize s f start maximize := do
    let cs := candidates start.length (lower e) (upper e) 10 s.random
    let values ← Tasks.each f cs.1
    match values with
    | [] => .throw "invalid_argument"
    | v :: vs =>
      match cs.1[Processor.selectLoop maximize 0 v 1 vs]? with
      | some p => return (p, { s with random := cs.2 })
      | none => .ub

/-- `get_hooke_jeeves`, optimizers_provider.cpp:101-112, with `FloatingPoint::AreEqual` for vectors (floating_point.cpp:8-37); hooke_jeeves_method.cpp:51. -/
def hookeJeeves (e : Env R) : Opt (Obj R) R :=
  plain "Hooke-Jeeves Method" (HookeJeeves.find
    ⟨e.sqrt, fun v w => decide (v.length = w.length) && (List.zipWith (fun x y => decide (e.fns.abs (x - y) < e.fns.eps)) v w).all id⟩
    ⟨e.lit (7 / 2), e.lit 1, 1000, e.fns.eps, e.lit 10⟩ e.fuel)

/-- `get_simulated_annealing`, optimizers_provider.cpp:92-99; simulated_annealing.cpp:25. -/
def annealing (e : Env R) : Opt (Obj R) R :=
  ofFind "Simulated Annealing" fun s start => do
    let r ← IeeeAnnealing.find e.exp ⟨1000, lower e, upper e⟩ s.random start
    return (r.1, { s with random := r.2 })

/-- `get_steepest_descent_method`, optimizers_provider.cpp:114-126; steepest_descent_method.cpp:49. -/
def steepestDescent (e : Env R) : Opt (Obj R) R :=
  plain "Steepest Descent Method"
    (IeeeGradient.Sd.find ⟨e.kAlpha, e.lit (382 / 1000), e.sdAbs, e.sqrt⟩ ⟨e.lit (1 / 100000), 100, e.fns.eps⟩ e.fuel)

/-- `get_optimizers`, optimizers_provider.cpp:35-48. -/
def optimizers (e : Env R) : List (Opt (Obj R) R) :=
  [nelderMead e, rosenbrock e, conjugateGradient e, randomSearch e, hookeJeeves e, annealing e, steepestDescent e]

/-- `main`, main.cpp:35-52: the lines of `optimizers_output.txt`.  `random` are the random numbers of the optimizers, `print` is `operator<<` of a `double`. -/
def main (e : Env R) (print : R → String) (random : Nat → Random.Lib) : Res (List (List String)) := do
  let results ← ExampleFns.test e.fns (ExampleFns.provider e.fns) ((optimizers e).mapIdx fun i o => (o, ⟨[], random i⟩))
  ExampleFns.output e.fns print results.1

end K52.ExampleMain
