import Verif.Model.Continuous
import Verif.Model.Gradient

/-!
# Model of `SteepestDescentMethod` and `ConjugateGradientMethod` in IEEE arithmetic

Source: `src/optimization/steepest_descent_method.cpp`, `src/optimization/conjugate_gradient_method.cpp`, `src/common/floating_point.cpp`.

The models in `Verif/Model/Gradient.lean` and `Verif/Model/GradientProg.lean` compute with the exact reals and do not follow a run that divides by zero.
Here `double` is any type with arithmetic and comparisons, so that every operation may round, overflow or give NaN, and nothing is cut off.
Loops carry fuel.
-/

namespace K52.IeeeGradient

variable {R : Type} [Add R] [Sub R] [Mul R] [Div R] [Neg R] [Zero R] [One R] [NatCast R] [LT R] [LE R] [DecidableLT R] [DecidableLE R]

/-- The fuel ran out: the modelled loop is still running. -/
def outOfFuel {α : Type} : Prog R α := .done (.throw "(out of fuel)")

/-- `x == y` of two doubles (false if one of them is NaN). -/
def Same (x y : R) : Prop := x ≤ y ∧ y ≤ x

instance (x y : R) : Decidable (Same x y) := inferInstanceAs (Decidable (x ≤ y ∧ y ≤ x))

/-- `CalculateDerivative`, conjugate_gradient_method.cpp:126-137 (through `CountCorrectedObjectiveFunctionValue`, 119-124),
steepest_descent_method.cpp:131-143; `half` is half the increment `h`. -/
def derivative (h half : R) (p : List R) (i : Nat) : Prog R R :=
  match p[i]? with
  | none => Prog.ub
  | some x => do
    let increment ← Prog.askMin (p.set i (x + half))
    let decrement ← Prog.askMin (p.set i (x - half))
    return (increment - decrement) / h

/-- The loop of `CalculateGradient`, conjugate_gradient_method.cpp:165-168, steepest_descent_method.cpp:120-123, for positions
`i, ..., i + k - 1`. -/
def gradientLoop (h half : R) (p : List R) : Nat → Nat → Prog R (List R)
  | 0, _ => return []
  | k + 1, i => do
    let d ← derivative h half p i
    let ds ← gradientLoop h half p k (i + 1)
    return d :: ds

/-- `CalculateGradient`, conjugate_gradient_method.cpp:159-171, steepest_descent_method.cpp:115-126. -/
def gradient (h half : R) (p : List R) : Prog R (List R) := gradientLoop h half p p.length 0

/-- The loops adding a multiple of a direction to a point, steepest_descent_method.cpp:86-89, 201-205, 261-264, 274-277,
conjugate_gradient_method.cpp:90-93, 189-194. -/
def along (p : List R) (t : R) (d : List R) : List R := List.zipWith (fun x y => x + t * y) p d

namespace Sd

/-- Constants and library functions used by steepest descent: `kAlpha` (steepest_descent_method.cpp:19), `constriction_number` (184), `abs` (246, 266) - which
of the functions of that name is meant depends on the headers, and the one for `int` is undefined for arguments outside `int` - and `sqrt`. -/
structure Lib (R : Type) where
  kAlpha : R
  constriction : R
  abs : R → Res R
  sqrt : R → R

/-- Constructor arguments, steepest_descent_method.cpp:29-37. -/
structure Config (R : Type) where
  increment : R
  maxIterations : Nat
  precision : R

/-- Half the increment, steepest_descent_method.cpp:135-138: `increment_of_the_argument_ * half`. -/
def Config.half (cfg : Config R) : R := cfg.increment * (1 / 2)

/-- The loops summing squares, steepest_descent_method.cpp:102-105, 283-286. -/
def squares (v : List R) : R := v.foldl (fun s x => s + x * x) 0

/-- First loop of `Localization`, steepest_descent_method.cpp:259-266 (the order of the two evaluations is the compiler's choice). -/
def shrink (l : Lib R) (precision : R) (p d : List R) : Nat → R → Prog R R
  | 0, _ => outOfFuel
  | fuel + 1, step => do
    let step := step / 2
    let v ← Prog.askMin (along p step d)
    let w ← Prog.askMin p
    if v > w then do
      let m ← Prog.lift (l.abs step)
      if m > precision then shrink l precision p d fuel step else return step
    else return step

/-- Second loop of `Localization`, steepest_descent_method.cpp:269-280. -/
def expand (l : Lib R) (p d : List R) : Nat → R → List R → Prog R (List R)
  | 0, _, _ => outOfFuel
  | fuel + 1, step, next => do
    let point := next
    let step := step * l.kAlpha
    let next := along p step d
    let v ← Prog.askMin next
    let w ← Prog.askMin point
    if v ≤ w then expand l p d fuel step next else return next

/-- `Localization`, steepest_descent_method.cpp:251-289. -/
def localization (l : Lib R) (precision : R) (fuel : Nat) (p : List R) (initStep : R) (d : List R) : Prog R R := do
  let step ← shrink l precision p d fuel (initStep * 2)
  let next ← expand l p d fuel step (along p step d)
  return l.sqrt (squares (List.zipWith (fun x y => x - y) next p))

/-- The loop of `FindStepLength`, steepest_descent_method.cpp:199-248. -/
def golden (l : Lib R) (precision : R) (p d : List R) : Nat → Gradient.Sd.BordersOf R → Prog R R
  | 0, _ => outOfFuel
  | fuel + 1, b => do
    let vl ← Prog.askMin (along p b.nextLeft d)
    let vr ← Prog.askMin (along p b.nextRight d)
    let b' := Gradient.Sd.narrowBy l.constriction b (vl > vr) (vr > vl)
    if Same b'.left b.left ∧ Same b'.right b.right then return (b'.left + b'.right) / 2
    else do
      let m ← Prog.lift (l.abs (b'.left - b'.right))
      if m > precision then golden l precision p d fuel b' else return (b'.left + b'.right) / 2

/-- `GoldenSectionSearch`, steepest_descent_method.cpp:157-171, with `FindStepLength`, 173-249. -/
def goldenSectionSearch (l : Lib R) (precision : R) (fuel : Nat) (p : List R) (step : R) (d : List R) : Prog R R := do
  let s ← localization l precision fuel p step d
  golden l precision p d fuel ⟨0, s, 0 + l.constriction * (s - 0), s - l.constriction * (s - 0)⟩

/-- The loop of `FindOptimalParameters`, steepest_descent_method.cpp:77-94, with `InvertVector` (146-155) and
`IsExitCriteriaFulfilled` (97-111). -/
def outer (l : Lib R) (cfg : Config R) : Nat → R → List R → Nat → Prog R (List R)
  | 0, _, _, _ => outOfFuel
  | fuel + 1, lambda, next, counter => do
    let p := next
    let counter := counter + 1
    let g ← gradient cfg.increment cfg.half p
    let d := g.map (· * -1)
    let lambda ← goldenSectionSearch l cfg.precision fuel p lambda d
    let next := along p lambda d
    let g' ← gradient cfg.increment cfg.half next
    if l.sqrt (squares g') > cfg.precision ∧ ¬ counter = cfg.maxIterations then outer l cfg fuel lambda next counter else return p

/-- `FindOptimalParameters`, steepest_descent_method.cpp:70-95. -/
def find (l : Lib R) (cfg : Config R) (fuel : Nat) (initial : List R) : Prog R (List R) := outer l cfg fuel 1 initial 0

end Sd

namespace Cg

/-- Constants and library functions used by conjugate gradients: `std::abs`, `sqrt`, `pow(x, 2)` and `Constants::Eps`. -/
structure Lib (R : Type) where
  abs : R → R
  sqrt : R → R
  sq : R → R
  eps : R

/-- Constructor arguments, conjugate_gradient_method.cpp:25-33. -/
structure Config (R : Type) where
  precision : R
  increment : R
  iterations : Nat

/-- The loops summing squares, conjugate_gradient_method.cpp:101-105, 218-222. -/
def squares (l : Lib R) (v : List R) : R := v.foldl (fun s x => s + l.sq x) 0

/-- `FloatingPoint::IsZero`, floating_point.cpp:8-16. -/
def IsZero (l : Lib R) (x : R) : Prop := l.abs (x - 0) < l.eps

instance (l : Lib R) (x : R) : Decidable (IsZero l x) := by unfold IsZero; infer_instance

/-- `PerformOneDimensionalSearch`, conjugate_gradient_method.cpp:173-206; the argument is `x`. -/
def lineSearch (l : Lib R) (cfg : Config R) (p d : List R) : Nat → R → Prog R R
  | 0, _ => outOfFuel
  | fuel + 1, previous => do
    let value ← Prog.askMin (along p previous d)
    let incremented ← Prog.askMin (along p (previous + cfg.increment / 2) d)
    let decremented ← Prog.askMin (along p (previous - cfg.increment / 2) d)
    let first := (incremented - decremented) / cfg.increment
    let second := (incremented - 2 * value + decremented) / (cfg.increment * cfg.increment / 4)
    let x := previous - first / second
    if l.abs (previous - x) > cfg.precision then lineSearch l cfg p d fuel x else return x

/-- `FindNextSearchDirection`, conjugate_gradient_method.cpp:139-157 (`iteration` is passed as `int`; more than 2^31 iterations are not modelled). -/
def nextDirection (g previous : List R) (weight : R) (iteration : Nat) : List R :=
  if iteration > 1 then along g weight previous else g

/-- The loop of `FindOptimalParameters`, conjugate_gradient_method.cpp:83-116, with `CalculateWeightingCoefficient` (208-230). -/
def outer (l : Lib R) (cfg : Config R) : Nat → List R → List R → List R → R → Nat → Prog R (List R)
  | 0, _, _, _, _, _ => outOfFuel
  | fuel + 1, p, g, previous, weight, iteration => do
    let d := nextDirection g previous weight iteration
    let x ← lineSearch l cfg p d fuel 0
    let p' := along p x d
    let g' ← gradient cfg.increment (cfg.increment / 2) p'
    if IsZero l (squares l g) then Prog.throw "runtime_error"
    else do
      let weight' := squares l g' / squares l g
      let iteration' := iteration + 1
      if iteration' = cfg.iterations then return p'
      else if l.sqrt (squares l g') ≥ cfg.precision then outer l cfg fuel p' g' d weight' iteration'
      else return p'

/-- `FindOptimalParameters`, conjugate_gradient_method.cpp:67-117. -/
def find (l : Lib R) (cfg : Config R) (fuel : Nat) (initial : List R) : Prog R (List R) := do
  let g ← gradient cfg.increment (cfg.increment / 2) initial
  outer l cfg fuel initial g (List.replicate initial.length 0) 0 1

end Cg
end K52.IeeeGradient
