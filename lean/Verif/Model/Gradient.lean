import Verif.Model.FloatingPoint
import Mathlib.Data.Real.Sqrt
import Mathlib.Algebra.Order.Floor.Ring
import Mathlib.Algebra.BigOperators.Group.Finset.Basic

/-!
# Model of `SteepestDescentMethod` and `ConjugateGradientMethod`

Source: `src/optimization/steepest_descent_method.cpp`, `src/optimization/conjugate_gradient_method.cpp`.

`double` is modelled by the exact reals.  All vectors of the two files have the size of the initial parameters and are
accessed by loops over that size, so they are modelled by functions on `Fin n`.  `f` is
`CountObjectiveFunctionValueToMinimize` (continuous_optimizer.cpp, modelled in `Verif.Model.Continuous`), a pure function
here.  Loops carry fuel; `none` means "still running".  Counters are unbounded (`size_t` does not wrap).
-/

namespace K52.Gradient

open scoped BigOperators

/-- A `vector<double>` of the size of the parameters. -/
abbrev Vec (n : Nat) := Fin n → ℝ

variable {n : Nat}

/-- `CalculateDerivative`, conjugate_gradient_method.cpp:126-137 and steepest_descent_method.cpp:131-143 (there the increment
is multiplied by `0.5`). -/
noncomputable def derivative (f : Vec n → ℝ) (h : ℝ) (p : Vec n) (i : Fin n) : ℝ :=
  (f (Function.update p i (p i + h / 2)) - f (Function.update p i (p i - h / 2))) / h

/-- `CalculateGradient`, conjugate_gradient_method.cpp:159-171 and steepest_descent_method.cpp:115-126. -/
noncomputable def gradient (f : Vec n → ℝ) (h : ℝ) (p : Vec n) : Vec n := fun i => derivative f h p i

/-- The loops adding a multiple of a direction to a point, e.g. steepest_descent_method.cpp:86-89, 189, 203-204, 263, 276 and
conjugate_gradient_method.cpp:90-93, 189-194. -/
noncomputable def along (p : Vec n) (t : ℝ) (d : Vec n) : Vec n := fun i => p i + t * d i

/-- The loops summing squares, steepest_descent_method.cpp:102-105, 283-286, conjugate_gradient_method.cpp:102-105, 218-222. -/
noncomputable def squares (v : Vec n) : ℝ := ∑ i, v i * v i

/-! ## Steepest descent -/

namespace Sd

/-- Constructor arguments, steepest_descent_method.cpp:29-37. -/
structure Config where
  increment : ℝ
  maxIterations : Nat
  precision : ℝ

/-- Which function the unqualified `abs` of steepest_descent_method.cpp:246, 266 is: the one for `double`, or - when only
`<cstdlib>`'s `::abs(int)` is visible - the one for `int`, whose argument is truncated (values outside `int` are not
modelled). -/
inductive AbsImpl where
  | real | int

/-- The value of `abs`. -/
noncomputable def AbsImpl.eval : AbsImpl → ℝ → ℝ
  | .real, x => |x|
  | .int, x => ((⌊|x|⌋ : ℤ) : ℝ)

/-- `kAlpha`, steepest_descent_method.cpp:19. -/
noncomputable def kAlpha : ℝ := (1 + Real.sqrt 5) / 2

/-- First loop of `Localization`, steepest_descent_method.cpp:259-266; returns `step`. -/
noncomputable def shrink (a : AbsImpl) (precision : ℝ) (f : Vec n → ℝ) (p d : Vec n) : Nat → ℝ → Option ℝ
  | 0, _ => none
  | fuel + 1, step =>
    let step := step / 2
    if f (along p step d) > f p ∧ a.eval step > precision then shrink a precision f p d fuel step else some step

/-- Second loop of `Localization`, steepest_descent_method.cpp:269-280; returns the final `next_step_point`. -/
noncomputable def expand (f : Vec n → ℝ) (p d : Vec n) : Nat → ℝ → Vec n → Option (Vec n)
  | 0, _, _ => none
  | fuel + 1, step, next =>
    let point := next
    let step := step * kAlpha
    let next := along p step d
    if f next ≤ f point then expand f p d fuel step next else some next

/-- `Localization`, steepest_descent_method.cpp:251-289. -/
noncomputable def localization (a : AbsImpl) (precision : ℝ) (f : Vec n → ℝ) (fuel : Nat) (p : Vec n) (initStep : ℝ)
    (d : Vec n) : Option ℝ := do
  let step ← shrink a precision f p d fuel (initStep * 2)
  let next ← expand f p d fuel step (along p step d)
  return Real.sqrt (squares fun i => next i - p i)

/-- `constriction_number`, steepest_descent_method.cpp:184. -/
noncomputable def constriction : ℝ := 0.382

/-- The four borders of `FindStepLength`; `R` is the type `double` is modelled by. -/
structure BordersOf (R : Type) where
  left : R
  right : R
  nextLeft : R
  nextRight : R
  deriving DecidableEq

/-- The borders over the exact reals. -/
abbrev Borders := BordersOf ℝ

section
variable {R : Type} [Add R] [Sub R] [Mul R] [LT R] [DecidableLT R]

/-- The update of the borders, steepest_descent_method.cpp:212-241; `c` is `constriction_number`, `leftWorse` says whether the value at
`next_left_border` is greater than that at `next_right_border`, `rightWorse` the converse (with NaN both can be false). -/
def narrowBy (c : R) (b : BordersOf R) (leftWorse rightWorse : Prop) [Decidable leftWorse] [Decidable rightWorse] : BordersOf R :=
  if b.nextLeft < b.nextRight then
    if leftWorse then
      ⟨b.nextLeft, b.right, b.nextRight, b.right - c * (b.right - b.nextLeft)⟩
    else
      ⟨b.left, b.nextRight, b.left + c * (b.nextRight - b.left), b.nextLeft⟩
  else
    if rightWorse then
      ⟨b.nextRight, b.right, b.right - c * (b.right - b.nextRight), b.nextLeft⟩
    else
      ⟨b.left, b.nextLeft, b.nextRight, b.left + c * (b.nextLeft - b.left)⟩

/-- The loop of `FindStepLength`, steepest_descent_method.cpp:199-248: `worse s t` says whether the value of the objective function at step length `s` is
greater than at `t`, `wide d` whether the loop goes on with the difference `d` of the borders. -/
def goldenBy [Div R] [NatCast R] [DecidableEq R] (c : R) (worse : R → R → Prop) [DecidableRel worse] (wide : R → Prop) [DecidablePred wide] :
    Nat → BordersOf R → Option R
  | 0, _ => none
  | fuel + 1, b =>
    let b' := narrowBy c b (worse b.nextLeft b.nextRight) (worse b.nextRight b.nextLeft)
    if b'.left = b.left ∧ b'.right = b.right then some ((b'.left + b'.right) / 2)
    else if wide (b'.left - b'.right) then goldenBy c worse wide fuel b'
    else some ((b'.left + b'.right) / 2)

/-- `FindStepLength`, steepest_descent_method.cpp:173-249 (`right_border_parameters` is not used). -/
def findStepBy [Div R] [NatCast R] [DecidableEq R] [Zero R] (c : R) (worse : R → R → Prop) [DecidableRel worse] (wide : R → Prop) [DecidablePred wide]
    (fuel : Nat) (s : R) : Option R :=
  goldenBy c worse wide fuel ⟨0, s, 0 + c * (s - 0), s - c * (s - 0)⟩

end

/-- The update of the borders over the exact reals; `vl`, `vr` are the values at the inner points, steepest_descent_method.cpp:212-241. -/
noncomputable def narrow (b : Borders) (vl vr : ℝ) : Borders := narrowBy constriction b (vl > vr) (vr > vl)

/-- The loop of `FindStepLength` over the exact reals, steepest_descent_method.cpp:199-248. -/
noncomputable def golden (a : AbsImpl) (precision : ℝ) (f : Vec n → ℝ) (p d : Vec n) (fuel : Nat) (b : Borders) : Option ℝ :=
  open Classical in goldenBy constriction (fun s t => f (along p s d) > f (along p t d)) (fun x => a.eval x > precision) fuel b

/-- `FindStepLength` over the exact reals, steepest_descent_method.cpp:173-249. -/
noncomputable def findStepLength (a : AbsImpl) (precision : ℝ) (f : Vec n → ℝ) (fuel : Nat) (p : Vec n) (stepForBorders : ℝ)
    (d : Vec n) : Option ℝ :=
  open Classical in findStepBy constriction (fun s t => f (along p s d) > f (along p t d)) (fun x => a.eval x > precision) fuel stepForBorders

/-- `GoldenSectionSearch`, steepest_descent_method.cpp:157-171. -/
noncomputable def goldenSectionSearch (a : AbsImpl) (precision : ℝ) (f : Vec n → ℝ) (fuel : Nat) (p : Vec n) (step : ℝ)
    (d : Vec n) : Option ℝ := do
  let stepForBorders ← localization a precision f fuel p step d
  findStepLength a precision f fuel p stepForBorders d

/-- `IsExitCriteriaFulfilled`, steepest_descent_method.cpp:97-111. -/
def ExitCriteria (cfg : Config) (f : Vec n → ℝ) (p : Vec n) : Prop :=
  ¬ Real.sqrt (squares (gradient f cfg.increment p)) > cfg.precision

noncomputable instance (cfg : Config) (f : Vec n → ℝ) (p : Vec n) : Decidable (ExitCriteria cfg f p) := Classical.dec _

/-- The loop of `FindOptimalParameters`, steepest_descent_method.cpp:77-94; arguments `lambda`, `next_step_parameters`,
`counter`. -/
noncomputable def outer (a : AbsImpl) (cfg : Config) (f : Vec n → ℝ) : Nat → ℝ → Vec n → Nat → Option (Vec n)
  | 0, _, _, _ => none
  | fuel + 1, lambda, next, counter =>
    let p := next
    let counter := counter + 1
    let d : Vec n := fun i => gradient f cfg.increment p i * -1
    match goldenSectionSearch a cfg.precision f fuel p lambda d with
    | none => none
    | some lambda =>
      let next := along p lambda d
      if ¬ ExitCriteria cfg f next ∧ ¬ counter = cfg.maxIterations then outer a cfg f fuel lambda next counter
      else some p

/-- `FindOptimalParameters`, steepest_descent_method.cpp:70-95. -/
noncomputable def find (a : AbsImpl) (cfg : Config) (f : Vec n → ℝ) (fuel : Nat) (initial : Vec n) : Option (Vec n) :=
  outer a cfg f fuel 1 initial 0

end Sd

/-! ## Conjugate gradient -/

namespace Cg

/-- Constructor arguments, conjugate_gradient_method.cpp:25-33. -/
structure Config where
  precision : ℝ
  increment : ℝ
  iterations : Nat

/-- What the one-dimensional search computes: a number, or - after dividing by a zero second difference - NaN (`0/0`, ends the
loop) or an infinity (the loop goes on with infinite points; not followed further). -/
inductive Line where
  | finite (x : ℝ)
  | nan
  | inf

/-- `PerformOneDimensionalSearch`, conjugate_gradient_method.cpp:173-206. -/
noncomputable def lineSearch (cfg : Config) (f : Vec n → ℝ) (p d : Vec n) : Nat → ℝ → Option Line
  | 0, _ => none
  | fuel + 1, previous =>
    let value := f (along p previous d)
    let incremented := f (along p (previous + cfg.increment / 2) d)
    let decremented := f (along p (previous - cfg.increment / 2) d)
    let first := (incremented - decremented) / cfg.increment
    let second := (incremented - 2 * value + decremented) / (cfg.increment * cfg.increment / 4)
    if second = 0 then some (if first = 0 then .nan else .inf)
    else
      let x := previous - first / second
      if |previous - x| > cfg.precision then lineSearch cfg f p d fuel x else some (.finite x)

/-- How `FindOptimalParameters` ends: with a point, with an exception, or after arithmetic has left the real numbers (the code
then goes on with NaN or infinite values; not followed further). -/
inductive Outcome (n : Nat) where
  | found (p : Vec n)
  | error
  | nonfinite

/-- `FindNextSearchDirection`, conjugate_gradient_method.cpp:139-157. -/
noncomputable def nextDirection (g previous : Vec n) (weight : ℝ) (iteration : Nat) : Vec n :=
  if iteration > 1 then fun i => g i + weight * previous i else g

/-- The loop of `FindOptimalParameters`, conjugate_gradient_method.cpp:83-116, with `CalculateWeightingCoefficient` (208-230)
inlined; arguments `parameters`, `gradient`, `search_direction`, `weighting_coefficient`, `iteration`.  When the search
returns NaN the new gradient is not a number, but the check of the previous one still decides whether the exception is
thrown. -/
noncomputable def outer (cfg : Config) (f : Vec n → ℝ) : Nat → Vec n → Vec n → Vec n → ℝ → Nat → Option (Outcome n)
  | 0, _, _, _, _, _ => none
  | fuel + 1, p, g, previous, weight, iteration =>
    let d := nextDirection g previous weight iteration
    match lineSearch cfg f p d fuel 0 with
    | none => none
    | some .inf => some .nonfinite
    | some .nan => if FloatingPoint.isZero (squares g) then some .error else some .nonfinite
    | some (.finite x) =>
      let p' := along p x d
      let g' := gradient f cfg.increment p'
      if FloatingPoint.isZero (squares g) then some .error
      else
        let weight' := squares g' / squares g
        let iteration' := iteration + 1
        if iteration' = cfg.iterations then some (.found p')
        else if Real.sqrt (squares g') ≥ cfg.precision then outer cfg f fuel p' g' d weight' iteration'
        else some (.found p')

/-- `FindOptimalParameters`, conjugate_gradient_method.cpp:67-117. -/
noncomputable def find (cfg : Config) (f : Vec n → ℝ) (fuel : Nat) (initial : Vec n) : Option (Outcome n) :=
  outer cfg f fuel initial (gradient f cfg.increment initial) (fun _ => 0) 0 1

end Cg

end K52.Gradient
