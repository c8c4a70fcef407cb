import Verif.Model.GradientProg
import Verif.Model.HookeJeeves
import Verif.Model.NelderMead
import Verif.Model.Rosenbrock
import Verif.Model.Processors
import Verif.Model.Transfer
import Verif.Model.Random

/-!
# Optimizers as objects: `Clone`, `Optimize` on arbitrary arguments, optimization tasks and their processing

Sources: `Clone` of every optimizer, `src/optimization/continuous_optimizer.cpp`, `discrete_optimizer.cpp`, `continuous_objective_function.cpp`,
`discrete_objective_function.cpp`, `optimization_task.cpp`, `optimization_task_result.cpp`, `optimization_parameters_processor.cpp`,
`random_search.cpp`.

`double` is the exact reals; loops of the methods carry fuel (the same for all calls).
-/

namespace K52.Tasks

/-! ### Objects -/

/-- An `IParameters` object: an `IContinuousParameters`, an `IDiscreteParameters` (of any class `P`), or of a class that is neither. -/
inductive Pars (P : Type) where
  | cont (p : CParams ℝ)
  | disc (p : P)
  | other

/-- An `IObjectiveFunction` object: a `ContinuousObjectiveFunction` (given by its `operator()(vector<double>)`), a
`DiscreteObjectiveFunction`, or a user's own class. -/
inductive Fn (P : Type) where
  | cont (f : List ℝ → ℝ)
  | disc (f : P → ℝ)
  | own (f : Pars P → Res ℝ)

variable {P : Type}

/-- `IObjectiveFunction::operator()(const IParameters*)`: continuous_objective_function.cpp:10-25, discrete_objective_function.cpp:10-20. -/
def Fn.call : Fn P → Pars P → Res ℝ
  | .cont f, .cont p => .ok (f p.getValues)
  | .cont _, _ => .throw "logic_error"
  | .disc f, .disc p => .ok (f p)
  | .disc _, _ => .throw "logic_error"
  | .own f, p => f p

/-- The optimizers that can be cloned, with their settings and - Nelder-Mead only - what the object remembers of earlier calls
(`previous_polygons_`).  The working storage of the others is set up anew by every call. -/
inductive Method where
  | nelderMead (cfg : NelderMead.Config ℝ) (previous : List (List (List ℝ)))
  | hookeJeeves (cfg : HookeJeeves.Config ℝ)
  | rosenbrock (cfg : Rosenbrock.Config ℝ)
  | steepestDescent (cfg : Gradient.Sd.Config)
  | conjugateGradient (cfg : Gradient.Cg.Config)

/-- An `IOptimizer` object. -/
inductive Optimizer where
  | method (m : Method)
  | simulatedAnnealing
  | randomSearch
  | gridSearch
  | genetic

/-- `Clone`: bounded_nelder_mead.cpp:34-37, hooke_jeeves_method.cpp:39-47, hleborodov_rosenbrock_method.cpp:43-46,
steepest_descent_method.cpp:39-45, conjugate_gradient_method.cpp:35-38; simulated_annealing.cpp:28-31, random_search.cpp:68-71,
grid_search.cpp:72-75, genetic_algorithm.cpp:162-165. -/
def Optimizer.clone : Optimizer → Res Method
  | .method (.nelderMead cfg _) => .ok (.nelderMead ⟨cfg.l, cfg.precision, cfg.lower, cfg.upper⟩ [])
  | .method (.hookeJeeves cfg) => .ok (.hookeJeeves ⟨cfg.acceleration, cfg.initStep, cfg.maxIterations, cfg.precision, cfg.stepDivider⟩)
  | .method (.rosenbrock cfg) => .ok (.rosenbrock ⟨cfg.precision, cfg.maxIterations, cfg.firstStep, cfg.maxStep⟩)
  | .method (.steepestDescent cfg) => .ok (.steepestDescent ⟨cfg.increment, cfg.maxIterations, cfg.precision⟩)
  | .method (.conjugateGradient cfg) => .ok (.conjugateGradient ⟨cfg.precision, cfg.increment, cfg.iterations⟩)
  | .simulatedAnnealing => .throw "logic_error"
  | .randomSearch => .throw "logic_error"
  | .gridSearch => .throw "logic_error"
  | .genetic => .throw "logic_error"

/-- What the modelled runs need besides the objects: fuel for the loops, and which `abs` steepest descent uses. -/
structure Env where
  fuel : Nat
  abs : Gradient.Sd.AbsImpl

/-- `FindOptimalParameters` of the five methods: the point and the object afterwards. -/
noncomputable def Method.find (e : Env) : Method → List ℝ → Prog ℝ (List ℝ × Method)
  | .nelderMead cfg previous, x => do
    let r ← NelderMead.find Real.sqrt cfg e.fuel previous x
    return (r.1, .nelderMead cfg r.2)
  | .hookeJeeves cfg, x => do
    let r ← HookeJeeves.find ⟨Real.sqrt, FloatingPoint.areEqualVec⟩ cfg e.fuel x
    return (r, .hookeJeeves cfg)
  | .rosenbrock cfg, x => do
    let r ← Rosenbrock.find Real.sqrt cfg x
    return (r, .rosenbrock cfg)
  | .steepestDescent cfg, x => do
    let r ← GradientProg.Sd.find e.abs cfg e.fuel x
    return (r, .steepestDescent cfg)
  | .conjugateGradient cfg, x => do
    let r ← GradientProg.Cg.find cfg e.fuel x
    return (r, .conjugateGradient cfg)

/-- `ContinuousOptimizer::Optimize` for continuous arguments, continuous_optimizer.cpp:28-40: the parameters and the object afterwards, when
it returns. -/
noncomputable def Method.optimizeCont (e : Env) (m : Method) (f : List ℝ → ℝ) (p : CParams ℝ) (maximize : Bool) :
    Res (CParams ℝ × Method) :=
  match ContinuousOptimizer.run maximize f (m.find e p.getValues) p with
  | (q, .ok r) =>
    match q.setValues r.1 with
    | (q', .ok _) => .ok (q', r.2)
    | (_, .throw w) => .throw w
    | (_, .ub) => .ub
  | (_, .throw w) => .throw w
  | (_, .ub) => .ub

/-- `ContinuousOptimizer::Optimize(const IObjectiveFunction&, IParameters*, bool)`, continuous_optimizer.cpp:12-26: the parameters are
checked first (`std::logic_error`), then the function (`std::bad_cast`). -/
noncomputable def Method.optimize (e : Env) (m : Method) (f : Fn P) (p : Pars P) (maximize : Bool) : Res (Pars P × Method) :=
  match p with
  | .cont q =>
    match f with
    | .cont g => do
      let r ← m.optimizeCont e g q maximize
      return (.cont r.1, r.2)
    | _ => .throw "bad_cast"
  | _ => .throw "logic_error"

/-- `DiscreteOptimizer::Optimize(const IObjectiveFunction&, IParameters*, bool)`, discrete_optimizer.cpp:10-24; `run` is the `Optimize` of the
derived class (`GeneticAlgorithm`, modelled in `Verif.Model.GA`). -/
def optimizeDiscrete (run : (P → ℝ) → P → Bool → Res P) (f : Fn P) (p : Pars P) (maximize : Bool) : Res (Pars P) :=
  match p with
  | .disc q =>
    match f with
    | .disc g => do
      let r ← run g q maximize
      return .disc r
    | _ => .throw "bad_cast"
  | _ => .throw "logic_error"

/-! ### Tasks -/

/-- `OptimizationTask` as created by the constructor. -/
structure Task (P : Type) where
  fn : Fn P
  pars : Pars P
  method : Method
  maximize : Bool

/-- The constructor, optimization_task.cpp:32-41.  (Cloning parameters and functions copies them; C15.) -/
def Task.new (o : Optimizer) (p : Pars P) (f : Fn P) (maximize : Bool) : Res (Task P) := do
  let m ← o.clone
  return ⟨f, p, m, maximize⟩

/-- `Perform`, optimization_task.cpp:137-149, with the constructor of the result (optimization_task_result.cpp:22-30): the result and the
task afterwards - `Perform` is `const` but works on the task's own parameters and optimizer. -/
noncomputable def Task.perform (e : Env) (t : Task P) : Res (Pars P × Task P) := do
  let r ← t.method.optimize e t.fn t.pars t.maximize
  return (r.1, { t with pars := r.1, method := r.2 })

/-- Apply a step to every element in order; the first exception (or undefined behaviour) stops. -/
def each {α β : Type} (f : α → Res β) : List α → Res (List β)
  | [] => .ok []
  | a :: as => do
    let b ← f a
    let bs ← each f as
    return b :: bs

/-- `OptimizationParametersProcessor::ProcessParameters`, optimization_parameters_processor.cpp:27-79, with tasks performed in order as
by the sequential pool (C27; the other pools return the same results, C24, C28). -/
noncomputable def process (e : Env) (o : Optimizer) (f : Fn P) (ps : List (Pars P)) (maximize : Bool) : Res (Pars P) := do
  let tasks ← each (fun p => Task.new o p f maximize) ps
  let performed ← each (fun t => Task.perform e t) tasks
  let values ← each (fun r => f.call r.1) performed
  match values with
  | [] => .ub
  | v :: vs =>
    match performed[Processor.selectLoop maximize 0 v 1 vs]? with
    | some r => return r.1
    | none => .ub

/-! ### Random search with an inner optimizer -/

/-- The filling loop of `RandomSearch::FindOptimalParameters`, random_search.cpp:46-51, as continuous parameters. -/
noncomputable def candidates (p : CParams ℝ) (n : Nat) (lower upper : ℝ) : Nat → Random.Lib → Res (List (Pars P) × Random.Lib)
  | 0, l => .ok ([], l)
  | k + 1, l =>
    let xs := Random.vector l n lower upper
    match p.clone.setValues xs.1 with
    | (q, .ok _) => do
      let rest ← candidates p n lower upper k xs.2
      return (.cont q :: rest.1, rest.2)
    | (_, .throw w) => .throw w
    | (_, .ub) => .ub

/-- The final cast of random_search.cpp:54-65. -/
def asContinuous : Pars P → Res (List ℝ)
  | .cont p => .ok p.getValues
  | _ => .throw "logic_error"

/-- `RandomSearch::FindOptimalParameters` with an inner optimizer, random_search.cpp:41-66 (constructor with an optimizer, 33-38). -/
noncomputable def randomFind (e : Env) (points : Nat) (lower upper : ℝ) (o : Optimizer) (l : Random.Lib) (maximize : Bool) (f : List ℝ → ℝ)
    (p : CParams ℝ) : Res (List ℝ × Random.Lib) := do
  let cs ← candidates (P := P) p p.getValues.length lower upper points l
  let best ← process e o (.cont f) cs.1 maximize
  let v ← asContinuous best
  return (v, cs.2)

/-- `Optimize` of such a `RandomSearch`, continuous_optimizer.cpp:28-40. -/
noncomputable def randomSearch (P : Type) (e : Env) (points : Nat) (lower upper : ℝ) (o : Optimizer) (l : Random.Lib) (maximize : Bool)
    (f : List ℝ → ℝ) (p : CParams ℝ) : CParams ℝ × Res Random.Lib :=
  match randomFind (P := P) e points lower upper o l maximize f p with
  | .ok (v, l') =>
    match p.setValues v with
    | (q, .ok _) => (q, .ok l')
    | (q, .throw w) => (q, .throw w)
    | (q, .ub) => (q, .ub)
  | .throw w => (p, .throw w)
  | .ub => (p, .ub)

/-! ### Remote tasks -/

/-- The settings of an optimizer as they are sent. -/
def Method.settings : Method → Transfer.Optimizer ℝ
  | .nelderMead c _ => .nelderMead c.l c.precision c.lower c.upper
  | .hookeJeeves c => .hookeJeeves c.acceleration c.initStep c.maxIterations c.precision c.stepDivider
  | .rosenbrock c => .rosenbrock c.precision c.maxIterations c.firstStep c.maxStep
  | .steepestDescent c => .steepestDescent c.increment c.maxIterations c.precision
  | .conjugateGradient c => .conjugateGradient c.precision c.increment c.iterations

/-- The object a receiver holds after `optimizer_->Receive` on a clone (optimization_task.cpp:129-130): the received settings in an object that
remembers nothing; `none` for classes that cannot be received. -/
def Method.ofSettings : Transfer.Optimizer ℝ → Option Method
  | .nelderMead l precision lower upper => some (.nelderMead ⟨l, precision, lower, upper⟩ [])
  | .hookeJeeves a i n p d => some (.hookeJeeves ⟨a, i, n, p, d⟩)
  | .rosenbrock p n f m => some (.rosenbrock ⟨p, n, f, m⟩)
  | .steepestDescent i n p => some (.steepestDescent ⟨i, n, p⟩)
  | .conjugateGradient p i n => some (.conjugateGradient ⟨p, i, n⟩)
  | _ => none

/-- The parameters of a transferred task that the five methods accept: a `ContinuousParametersArray`. -/
def ofTransferred : Transfer.Params ℝ → Option (CParams ℝ)
  | .cont vs => some (CParams.ofValues vs)
  | .disc _ => none

/-- A transferred `OptimizationTask` performed by the receiving process: `eval g` is the continuous function `g` there. -/
noncomputable def performReceived {F : Type} (e : Env) (eval : F → List ℝ → ℝ) (t : Transfer.OptTask ℝ F) : Res (Transfer.Params ℝ) :=
  match ofTransferred t.pars, Method.ofSettings t.opt with
  | some p, some m => do
    let r ← m.optimizeCont e (eval t.fn) p t.maximize
    return .cont r.1.getValues
  | none, _ => .throw "logic_error"
  | _, none => .throw "logic_error"

end K52.Tasks
