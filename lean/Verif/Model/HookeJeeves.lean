import Verif.Model.Continuous
import Mathlib.Order.Defs.LinearOrder

/-!
# Model of `HookeJeevesMethod`

Source: `src/optimization/hooke_jeeves_method.cpp`.  Arithmetic and comparisons are arbitrary
functions (no law is assumed), so the model covers IEEE arithmetic: C41 and C63 assume that the comparison is a linear order (no
objective value is NaN), C88 only that it behaves like the IEEE comparison.
`sqrt` and the vector comparison `FloatingPoint::AreEqual` are parameters.  Loops carry fuel.
-/

namespace K52.HookeJeeves

variable {R : Type} [Add R] [Sub R] [Mul R] [Div R] [Neg R] [Zero R] [LT R] [LE R] [DecidableLT R] [DecidableLE R]

/-- Constructor arguments, hooke_jeeves_method.cpp:25-37. -/
structure Config (R : Type) where
  acceleration : R
  initStep : R
  maxIterations : Nat
  precision : R
  stepDivider : R

/-- The library functions used. -/
structure Lib (R : Type) where
  sqrt : R → R
  areEqual : List R → List R → Bool

/-- The fuel ran out: the modelled loop is still running. -/
def outOfFuel {α : Type} : Prog R α := .done (.throw "(out of fuel)")

/-- `CoordinatewiseSearch`, loop body, hooke_jeeves_method.cpp:145-162, for coordinates `i, ..., i + n - 1`. -/
def coordLoop (steps : List R) : Nat → Nat → List R → Prog R (List R)
  | 0, _, new => return new
  | n + 1, i, new =>
    match new[i]?, steps[i]? with
    | some x, some s => do
      let value ← Prog.askMin new
      let plus ← Prog.askMin (new.set i (x + s))
      if plus < value then coordLoop steps n (i + 1) (new.set i (x + s))
      else do
        let minus ← Prog.askMin (new.set i (x - s))
        if minus < value then coordLoop steps n (i + 1) (new.set i (x - s))
        else coordLoop steps n (i + 1) new
    | _, _ => Prog.ub

/-- `CoordinatewiseSearch`, hooke_jeeves_method.cpp:140-164. -/
def coordinatewise (arguments steps : List R) : Prog R (List R) := coordLoop steps arguments.length 0 arguments

/-- `IsExitCriteriaFulfilled`, hooke_jeeves_method.cpp:124-138. -/
def exitCriteria (lib : Lib R) (cfg : Config R) (steps : List R) : Bool :=
  decide (lib.sqrt (steps.foldl (fun t s => t + s * s) 0) ≤ cfg.precision)

/-- The pattern move, hooke_jeeves_method.cpp:97-101. -/
def patternMove (cfg : Config R) (arguments after : List R) : List R :=
  List.zipWith (fun a b => a + cfg.acceleration * (b - a)) arguments after

/-- How the inner loop is left: by `break` or by `return`. -/
inductive Inner (R : Type) where
  | breaks (arguments after : List R) (iteration : Nat)
  | returns (v : List R)

/-- The inner loop, hooke_jeeves_method.cpp:95-119. -/
def inner (cfg : Config R) (steps : List R) : Nat → List R → List R → Nat → Prog R (Inner R)
  | 0, _, _, _ => outOfFuel
  | fuel + 1, arguments, after, iteration => do
    let nextAfter ← coordinatewise (patternMove cfg arguments after) steps
    let a ← Prog.askMin after
    let b ← Prog.askMin nextAfter
    if a ≤ b then return .breaks after after iteration
    else if iteration + 1 = cfg.maxIterations then return .returns nextAfter
    else inner cfg steps fuel after nextAfter (iteration + 1)

/-- The outer loop, hooke_jeeves_method.cpp:81-121.  `continue` in a `do ... while` evaluates the condition. -/
def outer (lib : Lib R) (cfg : Config R) : Nat → List R → List R → Nat → Prog R (List R)
  | 0, _, _, _ => outOfFuel
  | fuel + 1, arguments, steps, iteration => do
    let after ← coordinatewise arguments steps
    if lib.areEqual arguments after then
      let steps' := steps.map (· / cfg.stepDivider)
      if exitCriteria lib cfg steps' then return after else outer lib cfg fuel arguments steps' iteration
    else do
      let r ← inner cfg steps fuel arguments after iteration
      match r with
      | .returns v => return v
      | .breaks arguments' after' iteration' =>
        if exitCriteria lib cfg steps then return after' else outer lib cfg fuel arguments' steps iteration'

/-- `FindOptimalParameters`, hooke_jeeves_method.cpp:74-122. -/
def find (lib : Lib R) (cfg : Config R) (fuel : Nat) (initial : List R) : Prog R (List R) :=
  outer lib cfg fuel initial (List.replicate initial.length cfg.initStep) 0

end K52.HookeJeeves
