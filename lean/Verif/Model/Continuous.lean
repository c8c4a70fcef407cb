import Verif.Model.Res
import Mathlib.Algebra.Order.Field.Basic

/-!
# Model of `ContinuousParametersArray`, `ContinuousOptimizer` and the way algorithms call the objective function

Sources: `src/optimization/params/continuous_parameters_array.cpp`, `src/optimization/continuous_optimizer.cpp`,
`src/optimization/continuous_objective_function.cpp`.

An algorithm (`FindOptimalParameters` of a derived class) is a `Prog`: it may ask for the value of the objective function at a point, any
number of times, and finally return, throw or run into undefined behaviour.
-/

namespace K52

/-- Fields of `ContinuousParametersArray` (continuous_parameters_array.h); `ok` is `CheckConstraints`, a virtual function of the
interface: constantly true in `ContinuousParametersArray` (continuous_parameters_array.cpp:54-57), free in a user's class. -/
structure CParams (R : Type) where
  values : List R
  ok : List R → Bool

namespace CParams
variable {R : Type}

/-- `ContinuousParametersArray(values)`, continuous_parameters_array.cpp:18-22. -/
def ofValues (values : List R) : CParams R := ⟨values, fun _ => true⟩

/-- `ContinuousParametersArray(number_of_parameters)`, continuous_parameters_array.cpp:24-27. -/
def ofSize [Zero R] (n : Nat) : CParams R := ⟨List.replicate n 0, fun _ => true⟩

/-- The assignment loop of `SetValues`, continuous_parameters_array.cpp:36-39: assigns one by one (`old` the present values). -/
def assign : List R → List R → List R
  | _ :: old, v :: vs => v :: assign old vs
  | old, _ => old

/-- `SetValues`, continuous_parameters_array.cpp:29-40. -/
def setValues (p : CParams R) (vs : List R) : CParams R × Res Unit :=
  if vs.length ≠ p.values.length then (p, .throw "invalid_argument") else ({ p with values := assign p.values vs }, .ok ())

/-- `GetValues`, continuous_parameters_array.cpp:42-45. -/
def getValues (p : CParams R) : List R := p.values

/-- `Clone`, continuous_parameters_array.cpp:47-52. -/
def clone (p : CParams R) : CParams R := ⟨p.values, p.ok⟩

end CParams

/-- What an algorithm does: ask for objective values (`toMin`: through `CountObjectiveFunctionValueToMinimize`, otherwise
through `...ToMaximize`) and finish. -/
inductive Prog (R : Type) (α : Type) where
  | done (r : Res α)
  | ask (toMin : Bool) (x : List R) (k : R → Prog R α)

namespace Prog
variable {R α β : Type}

/-- Sequencing. -/
def bind : Prog R α → (α → Prog R β) → Prog R β
  | .done (.ok a), f => f a
  | .done (.throw w), _ => .done (.throw w)
  | .done .ub, _ => .done .ub
  | .ask m x k, f => .ask m x fun v => bind (k v) f

instance : Monad (Prog R) where
  pure a := .done (.ok a)
  bind := bind

/-- `CountObjectiveFunctionValueToMinimize(x)`. -/
def askMin (x : List R) : Prog R R := .ask true x fun v => .done (.ok v)

/-- `CountObjectiveFunctionValueToMaximize(x)`. -/
def askMax (x : List R) : Prog R R := .ask false x fun v => .done (.ok v)

/-- An exception thrown by the algorithm itself. -/
def throw (w : String) : Prog R α := .done (.throw w)

/-- Undefined behaviour in the algorithm itself. -/
def ub : Prog R α := .done .ub

/-- Embedding of a computation that does not call the objective function. -/
def lift (r : Res α) : Prog R α := .done r

end Prog

namespace ContinuousOptimizer
variable {R α : Type} [Neg R] [One R] [Mul R]

/-- The sign given to a counted value, continuous_optimizer.cpp:57 (`toMin = false`) and 63 (`toMin = true`). -/
def signed (maximize toMin : Bool) (v : R) : R :=
  if toMin then (if maximize then (-1) * v else v) else (if maximize then v else (-1) * v)

/-- `CountObjectiveFunctionValue`, continuous_optimizer.cpp:42-52, with `ContinuousObjectiveFunction::operator()`,
continuous_objective_function.cpp:22-25: the parameters are set to the point and stay there. -/
def count (f : List R → R) (p : CParams R) (x : List R) : CParams R × Res R :=
  match p.setValues x with
  | (p', .ok _) => if !p'.ok p'.values then (p', .throw "logic_error") else (p', .ok (f p'.getValues))
  | (p', .throw w) => (p', .throw w)
  | (p', .ub) => (p', .ub)

/-- Execution of an algorithm on the parameters being optimized. -/
def run (maximize : Bool) (f : List R → R) : Prog R α → CParams R → CParams R × Res α
  | .done r, p => (p, r)
  | .ask toMin x k, p =>
    match count f p x with
    | (p', .ok v) => run maximize f (k (signed maximize toMin v)) p'
    | (p', .throw w) => (p', .throw w)
    | (p', .ub) => (p', .ub)

/-- `ContinuousOptimizer::Optimize(const ContinuousObjectiveFunction&, IContinuousParameters*, bool)`, continuous_optimizer.cpp:28-40;
`find` is `FindOptimalParameters` of the derived class. -/
def optimize (find : List R → Prog R (List R)) (maximize : Bool) (f : List R → R) (p : CParams R) : CParams R × Res Unit :=
  match run maximize f (find p.getValues) p with
  | (p', .ok v) => p'.setValues v
  | (p', .throw w) => (p', .throw w)
  | (p', .ub) => (p', .ub)

/-- Arguments of the generic `Optimize(const IObjectiveFunction&, IParameters*, bool)`: `none` stands for an object of another class. -/
def optimizeAny (find : List R → Prog R (List R)) (maximize : Bool) (f : Option (List R → R)) (p : Option (CParams R)) :
    Option (CParams R) × Res Unit :=
  match p with
  | none => (none, .throw "logic_error")
  | some q =>
    match f with
    | none => (some q, .throw "bad_cast")
    | some g =>
      match optimize find maximize g q with
      | (q', r) => (some q', r)

end ContinuousOptimizer
end K52
