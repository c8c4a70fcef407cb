import Verif.Model.Tasks

/-!
# Model of the example `examples/continuous_optimization`

Sources: `test_objective_functions.h`, `test_function.cpp`, `test_functions_provider.cpp`, `optimizer_tester.cpp`, `optimizer_test_result.cpp`, `main.cpp`
in `examples/continuous_optimization`.  `double` is any type with arithmetic and comparisons; `std::abs`, `std::sin` and the constants that are not small
whole numbers are parameters.  Console output of a verbose tester (optimizer_tester.cpp:52-56) is not modelled.
-/

namespace K52.ExampleFns

section Functions
variable {R : Type} [Add R] [Sub R] [Mul R] [Div R] [Zero R] [One R] [NatCast R] [LT R] [DecidableLT R]

/-- `std::abs`, `std::sin`, `Constants::Eps` (constants.cpp:11), the constant 1.1 (test_objective_functions.h:153) and `M_SQRT2`. -/
structure Lib (R : Type) where
  abs : R → R
  sin : R → R
  eps : R
  elevenTenths : R
  sqrt2 : R

/-- `SquareObjectiveFunction`, test_objective_functions.h:27-39. -/
def square (l : Lib R) (values : List R) : R := values.foldl (fun summ value => summ + 1 / l.abs (value * value - 2)) 0

/-- `SimpleSquareObjectiveFunction`, test_objective_functions.h:51-64. -/
def simpleSquare (values : List R) : R := values.foldl (fun summ value => summ + (value * value - 2) * (value * value - 2)) 0

/-- `SquareSummObjectiveFunction`, test_objective_functions.h:76-87. -/
def squareSumm (values : List R) : R := values.foldl (fun summ value => summ + value * value) 0

/-- `DifractionObjectiveFunction`, test_objective_functions.h:99-121. -/
def difraction (l : Lib R) (values : List R) : R :=
  values.foldl (fun summ value => summ + if l.abs value < l.eps then 1 else l.sin value / value) 0

/-- `MultiminimumObjectiveFunction` for two numbers, test_objective_functions.h:151-156. -/
def multiminimum (l : Lib R) (x y : R) : R := x * l.sin (4 * x) + l.elevenTenths * y * l.sin (2 * y)

/-- The function classes. -/
inductive Kind where
  | square
  | simpleSquare
  | difraction
  | squareSumm
  | multiminimum
  deriving DecidableEq

/-- `operator()`, test_objective_functions.h; `TwoDimmensionalObjectiveFunction` accepts two coordinates only (132-144). -/
def Kind.call (l : Lib R) : Kind → List R → Res R
  | .square, v => .ok (ExampleFns.square l v)
  | .simpleSquare, v => .ok (ExampleFns.simpleSquare v)
  | .difraction, v => .ok (ExampleFns.difraction l v)
  | .squareSumm, v => .ok (ExampleFns.squareSumm v)
  | .multiminimum, [x, y] => .ok (ExampleFns.multiminimum l x y)
  | .multiminimum, _ => .throw "invalid_argument"

/-- `Clone`, test_objective_functions.h:41-44, 66-69, 89-92, 123-126 (the clone of a diffraction function is a `SimpleSquareObjectiveFunction`), 158-161. -/
def Kind.clone : Kind → Kind
  | .square => .square
  | .simpleSquare => .simpleSquare
  | .difraction => .simpleSquare
  | .squareSumm => .squareSumm
  | .multiminimum => .multiminimum

/-- `TestFunction`, test_function.cpp:11-23, without the value at the solution. -/
structure TestFunction (R : Type) where
  fn : Kind
  solution : List R
  start : List R
  form : String
  maximize : Bool

/-- `solution_value_`, test_function.cpp:22. -/
def TestFunction.solutionValue (l : Lib R) (t : TestFunction R) : Res R := t.fn.call l t.solution

/-- `TestFunctionsProvider`, test_functions_provider.cpp:17-40 and 42-118. -/
def provider (l : Lib R) : List (TestFunction R) :=
  [⟨.square, [l.sqrt2, l.sqrt2], [(11 : Nat), (7 : Nat)], "1/|x^2-2|", true⟩,
   ⟨.simpleSquare, [l.sqrt2, l.sqrt2], [(11 : Nat), (7 : Nat)], "(x^2-2)^2", false⟩,
   ⟨.difraction, [0, 0], [(100 : Nat), (100 : Nat)], "SUMM( sin(Xi) / Xi )", true⟩,
   ⟨.squareSumm, [0, 0], [(100 : Nat), (100 : Nat)], "SUMM( Xi^2 )", false⟩,
   ⟨.multiminimum, [0, 0], [(100 : Nat), (100 : Nat)], "x sin(4 x) + 1.1y sin(2 y)", false⟩]

/-! ### The tester -/

/-- A `ContinuousOptimizer`: its name and `Optimize` (continuous_optimizer.cpp:28-40), which may change the state `σ` of the object and
leaves the optimum in the parameters. -/
structure Opt (σ R : Type) where
  name : String
  optimize : σ → (List R → Res R) → List R → Bool → Res (List R × σ)

/-- `OptimizerTestResult`, optimizer_test_result.cpp:10-20. -/
structure Result (R : Type) where
  optimizerName : String
  function : TestFunction R
  foundSolution : List R
  foundValue : R

variable {σ : Type}

/-- `TestSingleFunction`, optimizer_tester.cpp:48-73: the result and the optimizer's state afterwards.  The start point is cloned. -/
def testSingle (l : Lib R) (t : TestFunction R) (o : Opt σ R) (s : σ) : Res (Result R × σ) := do
  let r ← o.optimize s (t.fn.call l) t.start t.maximize
  let foundValue ← t.fn.call l r.1
  return (⟨o.name, t, r.1, foundValue⟩, r.2)

/-- The inner loop of `Test`, optimizer_tester.cpp:37-40: all optimizers on one function. -/
def testRow (l : Lib R) (t : TestFunction R) : List (Opt σ R × σ) → Res (List (Result R) × List (Opt σ R × σ))
  | [] => .ok ([], [])
  | (o, s) :: os => do
    let r ← testSingle l t o s
    let rest ← testRow l t os
    return (r.1 :: rest.1, (o, r.2) :: rest.2)

/-- `Test`, optimizer_tester.cpp:24-46: the rows of results and the optimizers afterwards. -/
def test (l : Lib R) : List (TestFunction R) → List (Opt σ R × σ) → Res (List (List (Result R)) × List (Opt σ R × σ))
  | [], os => .ok ([], os)
  | t :: ts, os => do
    let row ← testRow l t os
    let rest ← test l ts row.2
    return (row.1 :: rest.1, rest.2)

/-- `OutputResults`, main.cpp:8-33, as lines of cells (each cell is followed by a tab, each line by a line break); `print` is `operator<<`.
Reading `results[0]` or `results[i][0]` of an empty vector is undefined. -/
def output (l : Lib R) (print : R → String) (results : List (List (Result R))) : Res (List (List String)) := do
  match results with
  | [] => .ub
  | first :: _ =>
    let header := ["Function ", "Target ", "Solution value "] ++ first.map (·.optimizerName)
    let lines ← Tasks.each (fun row : List (Result R) =>
      match row with
      | [] => .ub
      | r :: _ => do
        let value ← r.function.solutionValue l
        return [r.function.form, if r.function.maximize then "Max" else "Min", print value] ++ row.map fun r => print r.foundValue) results
    return header :: lines

end Functions

/-! ### Multi-start optimization of the example functions -/

open Tasks in
/-- `OptimizationParametersProcessor::ProcessParameters` (optimization_parameters_processor.cpp:27-79) where cloning the function need not copy it: the tasks
work on the clone (optimization_task.cpp:39), the results are compared by the function itself. -/
noncomputable def process {P : Type} (e : Env) (o : Optimizer) (f clone : Fn P) (ps : List (Pars P)) (maximize : Bool) : Res (Pars P) := do
  let tasks ← each (fun p => Task.new o p clone maximize) ps
  let performed ← each (fun t => Task.perform e t) tasks
  let values ← each (fun r => f.call r.1) performed
  match values with
  | [] => .ub
  | v :: vs =>
    match performed[Processor.selectLoop maximize 0 v 1 vs]? with
    | some r => return r.1
    | none => .ub

end K52.ExampleFns
