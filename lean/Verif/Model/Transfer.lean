import Verif.Model.Params
import Verif.Model.Parallel

/-!
# Model of sending and receiving objects over MPI

Sources: the `Send`/`Receive` pairs of `src/optimization/*.cpp` and `src/optimization/params/*.cpp`, `CountObjectiveFunctionTask`,
`OptimizationTask` and their results.

A communicator is the sequence of messages on their way from one process to another; a message carries a value of one type.  Receiving a value of
another type than was sent is an error (`throw "mpi_error"`; really MPI truncates, fails or delivers garbage), receiving when nothing
was sent waits for ever (`throw "blocked"`).  `double` is any type `R`; serialisation itself is exact.
-/

namespace K52.Transfer

/-- A message. -/
inductive Datum (R : Type) where
  | dbl (x : R)
  | nat (n : Nat)
  | bool (b : Bool)
  | str (s : String)
  | dbls (l : List R)
  | bits (l : List Bool)

/-- A receiving procedure: consumes messages from the front. -/
abbrev Recv (R α : Type) := List (Datum R) → Res (α × List (Datum R))

variable {R : Type}

/-- `communicator->recv` into a `double`. -/
def recvDbl : Recv R R
  | .dbl x :: ms => .ok (x, ms)
  | [] => .throw "blocked"
  | _ => .throw "mpi_error"

/-- `communicator->recv` into a `size_t`. -/
def recvNat : Recv R Nat
  | .nat x :: ms => .ok (x, ms)
  | [] => .throw "blocked"
  | _ => .throw "mpi_error"

/-- `communicator->recv` into a `bool`. -/
def recvBool : Recv R Bool
  | .bool x :: ms => .ok (x, ms)
  | [] => .throw "blocked"
  | _ => .throw "mpi_error"

/-- `communicator->recv` into a `std::string`. -/
def recvStr : Recv R String
  | .str x :: ms => .ok (x, ms)
  | [] => .throw "blocked"
  | _ => .throw "mpi_error"

/-- `communicator->recv` into a `std::vector<double>`. -/
def recvDbls : Recv R (List R)
  | .dbls x :: ms => .ok (x, ms)
  | [] => .throw "blocked"
  | _ => .throw "mpi_error"

/-- `communicator->recv` into a `ChromosomeType`. -/
def recvBits : Recv R (List Bool)
  | .bits x :: ms => .ok (x, ms)
  | [] => .throw "blocked"
  | _ => .throw "mpi_error"

/-- The optimizers with their settings.  (`HleborodovRosenbrockMethod` also has two fields fixed by the constructor,
hleborodov_rosenbrock_method.cpp:31-33, and working storage that every optimisation sets up anew.) -/
inductive Optimizer (R : Type) where
  | nelderMead (l precision lower upper : R)
  | hookeJeeves (acceleration initStep : R) (maxIterations : Nat) (precision divider : R)
  | conjugateGradient (precision increment : R) (iterations : Nat)
  | steepestDescent (increment : R) (maxIterations : Nat) (precision : R)
  | rosenbrock (precision : R) (maxIterations : Nat) (firstStep maxStep : R)
  | simulatedAnnealing
  | randomSearch
  | gridSearch
  | genetic

namespace Optimizer

/-- `typeid(object).name()` (identifyable_objects_manager.cpp:41-44): one name per class. -/
def typeName : Optimizer R → String
  | .nelderMead .. => "BoundedNelderMead"
  | .hookeJeeves .. => "HookeJeevesMethod"
  | .conjugateGradient .. => "ConjugateGradientMethod"
  | .steepestDescent .. => "SteepestDescentMethod"
  | .rosenbrock .. => "HleborodovRosenbrockMethod"
  | .simulatedAnnealing => "SimulatedAnnealing"
  | .randomSearch => "RandomSearch"
  | .gridSearch => "GridSearch"
  | .genetic => "GeneticAlgorithm"

/-- `Send`: bounded_nelder_mead.cpp:55-61, hooke_jeeves_method.cpp:55-62, conjugate_gradient_method.cpp:46-51,
steepest_descent_method.cpp:54-59, hleborodov_rosenbrock_method.cpp:54-60; the others throw (simulated_annealing.cpp:34-37,
random_search.cpp:79-82, grid_search.cpp:83-86, genetic_algorithm.cpp:173-176). -/
def send : Optimizer R → Res (List (Datum R))
  | .nelderMead l precision lower upper => .ok [.dbl l, .dbl precision, .dbl lower, .dbl upper]
  | .hookeJeeves acceleration initStep maxIterations precision divider =>
      .ok [.dbl acceleration, .dbl precision, .nat maxIterations, .dbl initStep, .dbl divider]
  | .conjugateGradient precision increment iterations => .ok [.dbl precision, .dbl increment, .nat iterations]
  | .steepestDescent increment maxIterations precision => .ok [.dbl increment, .nat maxIterations, .dbl precision]
  | .rosenbrock precision maxIterations firstStep maxStep => .ok [.dbl precision, .dbl firstStep, .dbl maxStep, .nat maxIterations]
  | _ => .throw "logic_error"

/-- `Receive` on an object of the same class: bounded_nelder_mead.cpp:63-69, hooke_jeeves_method.cpp:64-71,
conjugate_gradient_method.cpp:53-64, steepest_descent_method.cpp:61-66, hleborodov_rosenbrock_method.cpp:62-68; the others throw. -/
def receive : Optimizer R → Recv R (Optimizer R)
  | .nelderMead .. => fun ms => do
      let (l, ms) ← recvDbl ms
      let (precision, ms) ← recvDbl ms
      let (lower, ms) ← recvDbl ms
      let (upper, ms) ← recvDbl ms
      return (.nelderMead l precision lower upper, ms)
  | .hookeJeeves .. => fun ms => do
      let (acceleration, ms) ← recvDbl ms
      let (precision, ms) ← recvDbl ms
      let (maxIterations, ms) ← recvNat ms
      let (initStep, ms) ← recvDbl ms
      let (divider, ms) ← recvDbl ms
      return (.hookeJeeves acceleration initStep maxIterations precision divider, ms)
  | .conjugateGradient .. => fun ms => do
      let (precision, ms) ← recvDbl ms
      let (increment, ms) ← recvDbl ms
      let (iterations, ms) ← recvNat ms
      return (.conjugateGradient precision increment iterations, ms)
  | .steepestDescent .. => fun ms => do
      let (increment, ms) ← recvDbl ms
      let (maxIterations, ms) ← recvNat ms
      let (precision, ms) ← recvDbl ms
      return (.steepestDescent increment maxIterations precision, ms)
  | .rosenbrock .. => fun ms => do
      let (precision, ms) ← recvDbl ms
      let (firstStep, ms) ← recvDbl ms
      let (maxStep, ms) ← recvDbl ms
      let (maxIterations, ms) ← recvNat ms
      return (.rosenbrock precision maxIterations firstStep maxStep, ms)
  | _ => fun _ => .throw "logic_error"

end Optimizer

variable [Field R] [LinearOrder R] [IsStrictOrderedRing R] [FloorRing R]

/-- A parameters object: one of the discrete classes or a `ContinuousParametersArray`. -/
inductive Params (R : Type) where
  | disc (p : Param R)
  | cont (values : List R)

namespace Params

/-- `typeid(object).name()`. -/
def typeName : Params R → String
  | .disc (.int _) => "IntParameter"
  | .disc (.dbl _) => "DoubleParameter"
  | .disc (.arr _) => "DoubleParametersArray"
  | .disc (.comp ..) => "CompositeDiscreteParameters"
  | .cont _ => "ContinuousParametersArray"

/-- `Send`: discrete_parameters.cpp:14-21, continuous_parameters_array.cpp:61-64. -/
def send : Params R → Res (List (Datum R))
  | .disc p => do
      let n ← p.chromosomeSize
      let chr ← p.setChromosome (List.replicate n false)
      return [.bits chr]
  | .cont vs => .ok [.dbls vs]

/-- `Receive`: discrete_parameters.cpp:23-29, continuous_parameters_array.cpp:66-69. -/
def receive : Params R → Recv R (Params R)
  | .disc p => fun ms => do
      let (chr, ms) ← recvBits ms
      let _ ← (p.setFromChromosome chr).2
      return (.disc (p.setFromChromosome chr).1, ms)
  | .cont _ => fun ms => do
      let (vs, ms) ← recvDbls ms
      return (.cont vs, ms)

/-- `Clone` of parameters (continuous_parameters_array.cpp:47-52). -/
def clone : Params R → Res (Params R)
  | .disc p => do
      let q ← p.clone
      return .disc q
  | .cont vs => .ok (.cont vs)

end Params

variable {F : Type}

/-- What can be registered with `IdentifyableObjectsManager` and found there by the `dynamic_cast`s; `other` is any class that is neither. -/
inductive Obj (R F : Type) where
  | fn (f : F)
  | pars (p : Params R)
  | opt (o : Optimizer R)
  | other

/-- The objects registered in the receiving process, by id (what `GetObject` returns; see `Registry`). -/
abbrev Registered (R F : Type) := String → Option (Obj R F)

/-- `GetObject` and the `dynamic_cast` to `IObjectiveFunction` with its check, count_objective_function_task.cpp:73-77. -/
def getFn (reg : Registered R F) (id : String) : Res F :=
  match reg id with
  | none => .throw "invalid_argument"
  | some (.fn f) => .ok f
  | some _ => .throw "runtime_error"

/-- `GetObject` and the `dynamic_cast` to `IParameters`, count_objective_function_task.cpp:82-86. -/
def getPars (reg : Registered R F) (id : String) : Res (Params R) :=
  match reg id with
  | none => .throw "invalid_argument"
  | some (.pars f) => .ok f
  | some _ => .throw "runtime_error"

/-- `GetObject` and the `dynamic_cast` to `IOptimizer`, optimization_task.cpp:120-128. -/
def getOpt (reg : Registered R F) (id : String) : Res (Optimizer R) :=
  match reg id with
  | none => .throw "invalid_argument"
  | some (.opt f) => .ok f
  | some _ => .throw "runtime_error"

/-- A class of objective functions: its type names, and the value of a function. Functions are cloned by copying. -/
structure FnClass (R F : Type) where
  typeName : F → String
  eval : F → Params R → R

/-- `CountObjectiveFunctionTask`: what it was created with (`was_created_`) or what it received. -/
structure CountTask (R F : Type) where
  created : Option (F × Params R)
  received : Option (F × Params R)

namespace CountTask

/-- The default constructor, count_objective_function_task.cpp:20-24. -/
def default : CountTask R F := ⟨none, none⟩

/-- The constructor, count_objective_function_task.cpp:26-31. -/
def new (p : Params R) (f : F) : CountTask R F := ⟨some (f, p), none⟩

/-- `get_objective_function` and `get_parameters`, count_objective_function_task.cpp:105-127 (a null pointer is `none`). -/
def content (t : CountTask R F) : Option (F × Params R) :=
  match t.created with
  | some c => some c
  | none => t.received

/-- `Send`, count_objective_function_task.cpp:62-67. -/
def send (c : FnClass R F) (t : CountTask R F) : Res (List (Datum R)) :=
  match t.content with
  | none => .ub
  | some (f, p) => do
    let ms ← p.send
    return .str (c.typeName f) :: .str p.typeName :: ms

/-- `Receive`, count_objective_function_task.cpp:69-89. -/
def receive (reg : Registered R F) (t : CountTask R F) : Recv R (CountTask R F) := fun ms => do
  let (fid, ms) ← recvStr ms
  let f ← getFn reg fid
  let (pid, ms) ← recvStr ms
  let proto ← getPars reg pid
  let q ← proto.clone
  let (p, ms) ← q.receive ms
  return ({ t with received := some (f, p) }, ms)

/-- `Perform`, count_objective_function_task.cpp:91-103. -/
def perform (c : FnClass R F) (t : CountTask R F) : Res R :=
  match t.content with
  | none => .ub
  | some (f, p) => .ok (c.eval f p)

end CountTask

/-- `OptimizationTask`, optimization_task.h: null pointers are not modelled. -/
structure OptTask (R F : Type) where
  fn : F
  pars : Params R
  opt : Optimizer R
  maximize : Bool

namespace OptTask

/-- `Send`, optimization_task.cpp:67-81. -/
def send (c : FnClass R F) (t : OptTask R F) : Res (List (Datum R)) := do
  let ps ← t.pars.send
  let os ← t.opt.send
  return .str (c.typeName t.fn) :: .str t.pars.typeName :: ps ++ .str t.opt.typeName :: os ++ [.bool t.maximize]

/-- `Receive`, optimization_task.cpp:83-135. -/
def receive (reg : Registered R F) : Recv R (OptTask R F) := fun ms => do
  let (fid, ms) ← recvStr ms
  let f ← getFn reg fid
  let (pid, ms) ← recvStr ms
  let proto ← getPars reg pid
  let q ← proto.clone
  let (p, ms) ← q.receive ms
  let (oid, ms) ← recvStr ms
  let oproto ← getOpt reg oid
  let (o, ms) ← oproto.receive ms
  let (maximize, ms) ← recvBool ms
  return (⟨f, p, o, maximize⟩, ms)

end OptTask

/-- `OptimizationTaskResult::Send`, optimization_task_result.cpp:52-59. -/
def sendResult (p : Params R) : Res (List (Datum R)) := do
  let ms ← p.send
  return .str p.typeName :: ms

/-- The calls of `OptimizationTaskResult::ReceiveAsync`, optimization_task_result.cpp:39-50, 61-79, one after the other. -/
def receiveResult (reg : Registered R F) : Recv R (Params R) := fun ms => do
  let (pid, ms) ← recvStr ms
  let proto ← getPars reg pid
  let q ← proto.clone
  q.receive ms

/-- `ObjectiveFunctionTaskResult::Send`, objective_function_task_result.cpp:36-39. -/
def sendValue (v : R) : List (Datum R) := [.dbl v]

/-- `ObjectiveFunctionTaskResult::ReceiveAsync`, objective_function_task_result.cpp:28-34, 41-44. -/
def receiveValue : Recv R R := recvDbl

end K52.Transfer
