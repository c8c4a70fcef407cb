import Verif.Model.Res
import Verif.Model.Floor
import Mathlib.Algebra.Order.Field.Basic

/-!
# Model of the parameter processors and of `GridSearch`

Sources: `src/optimization/simple_parameters_processor.cpp`, `src/optimization/optimization_parameters_processor.cpp`,
`src/optimization/grid_search.cpp`.  Worker pools are modelled by what C24-C28 prove of them: one result per task, in order.
-/

namespace K52

/-! ### The selection loop -/

namespace Processor

variable {P R : Type} [LT R] [DecidableLT R]

/-- The loop of simple_parameters_processor.cpp:30-40 (also optimization_parameters_processor.cpp:61-71): `index`/`value` are the
current choice, `i` the position of the head of the remaining values. -/
def selectLoop (maximize : Bool) (index : Nat) (value : R) (i : Nat) : List R → Nat
  | [] => index
  | v :: vs =>
    let condition := decide (v > value)
    let condition := if maximize then condition else !condition
    if condition then selectLoop maximize i v (i + 1) vs else selectLoop maximize index value (i + 1) vs

/-- `SimpleParametersProcessor::ProcessParameters`, simple_parameters_processor.cpp:15-43; `f` is what
`CountObjectiveFunctionValues` computes for one candidate (objective_function_counter.cpp:51-66). -/
def simple (f : P → R) (parameters : List P) (maximize : Bool) : Res P :=
  match parameters.map f with
  | [] => .throw "invalid_argument"
  | v :: vs =>
    match parameters[selectLoop maximize 0 v 1 vs]? with
    | some p => .ok p
    | none => .ub

/-- `OptimizationParametersProcessor::ProcessParameters`, optimization_parameters_processor.cpp:27-79: every task optimizes a clone of
its candidate with a clone of the optimizer (optimization_task.cpp:32-41, 145-148; `optimizer p maximize` is the optimized clone), the
results are evaluated and one is selected.  `values[0]` of an empty vector is undefined. -/
def optimization (optimizer : P → Bool → P) (f : P → R) (parameters : List P) (maximize : Bool) : Res P :=
  let results := parameters.map (fun p => optimizer p maximize)
  match results.map f with
  | [] => .ub
  | v :: vs =>
    match results[selectLoop maximize 0 v 1 vs]? with
    | some p => .ok p
    | none => .ub

end Processor

/-! ### Grid search -/

namespace Grid

/-! `double` is any type with arithmetic, comparisons and a floor function: exact in C40, rounded in C100. -/

variable {R : Type} [Add R] [Sub R] [Mul R] [Div R] [Zero R] [NatCast R] [HasFloor R] [DecidableEq R]

/-- 64 bit `size_t` arithmetic wraps. -/
def sizeT (n : Nat) : Nat := n % 18446744073709551616

/-- `IntegerPow`, grid_search.cpp:94-104. -/
def intPow (value : Nat) : Nat → Nat
  | 0 => 1
  | n + 1 => sizeT (intPow value n * value)

/-- `(int)std::floor((upper_bound_ - lower_bound_)/precision_) + 1`, grid_search.cpp:36.  Division by zero yields an infinity or NaN,
whose conversion to `int` is undefined, as is the conversion of a number outside the range of `int` and overflow of `+ 1`. -/
def sizePerParameter (precision lower upper : R) : Res Int :=
  if precision = 0 then .ub
  else do
    let k ← int32 (HasFloor.floor ((upper - lower) / precision))
    int32 (k + 1)

/-- One coordinate, grid_search.cpp:55-56 (integer division by zero is undefined). -/
def coordinate (precision lower : R) (size i j : Nat) : Res R :=
  if intPow size j = 0 then .ub else .ok ((((i / intPow size j) % size : Nat) : R) * precision + lower)

/-- `values` for point `i`: coordinates `j, ..., j + n - 1`, grid_search.cpp:51-57. -/
def coordinates (precision lower : R) (size i : Nat) : Nat → Nat → Res (List R)
  | _, 0 => .ok []
  | j, n + 1 => do
    let x ← coordinate precision lower size i j
    let xs ← coordinates precision lower size i (j + 1) n
    return x :: xs

/-- The filling loop, grid_search.cpp:49-64, for points `i, ..., i + count - 1` of `n` coordinates. -/
def points (precision lower : R) (size n : Nat) : Nat → Nat → Res (List (List R))
  | _, 0 => .ok []
  | i, count + 1 => do
    let p ← coordinates precision lower size i 0 n
    let ps ← points precision lower size n (i + 1) count
    return p :: ps

/-- `max_element`, grid_search.cpp:67: position of the first of the largest values (`index`/`value` the current choice). -/
def maxElement {S : Type} [LT S] [DecidableLT S] (index : Nat) (value : S) (i : Nat) : List S → Nat
  | [] => index
  | v :: vs => if value < v then maxElement i v (i + 1) vs else maxElement index value (i + 1) vs

/-- The `IParameters` passed in: an `IContinuousParameters` with these values, or something else. -/
inductive Arg (R : Type) where
  | continuous (values : List R)
  | other

/-- Outcome of `Optimize`: the values the parameters hold afterwards, and the points whose objective value was counted, in order
(recorded for stating properties). -/
structure Outcome (R : Type) where
  values : List R
  counted : List (List R)

/-- `GridSearch::Optimize`, grid_search.cpp:26-70.  `f` is the objective function. -/
def optimize {S : Type} [LT S] [DecidableLT S] (precision lower upper : R) (f : List R → S) : Arg R → Res (Outcome R)
  | .other => .throw "runtime_error"
  | .continuous values => do
    let size ← sizePerParameter precision lower upper
    if size ≤ 0 then .throw "invalid_argument"
    else do
      let ps ← points precision lower size.toNat values.length 0 (intPow size.toNat values.length)
      match ps.map f with
      | [] => .ub
      | v :: vs =>
        match ps[maxElement 0 v 1 vs]? with
        | some p => return ⟨p, ps⟩
        | none => .ub

end Grid
end K52
