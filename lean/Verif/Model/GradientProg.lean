import Verif.Model.Continuous
import Verif.Model.Gradient

/-!
# Steepest descent and conjugate gradients as programs that ask for objective values

Source: `src/optimization/steepest_descent_method.cpp`, `src/optimization/conjugate_gradient_method.cpp`.

Same code as in `Verif.Model.Gradient`, but with `vector<double>` as a list, loops over its positions, and every call of
`CountObjectiveFunctionValueToMinimize` as a question (`Prog.ask`), so that the methods can be run by
`ContinuousOptimizer::Optimize` on parameters that change with every evaluation and may violate their constraints.
`double` is the exact reals; loops carry fuel.
-/

namespace K52.GradientProg

open K52.Gradient (Sd.AbsImpl Sd.Config Sd.Borders Sd.kAlpha Sd.constriction Sd.narrow Cg.Config)

/-- The fuel ran out: the modelled loop is still running. -/
def outOfFuel {α : Type} : Prog ℝ α := .done (.throw "(out of fuel)")

/-- Arithmetic has left the real numbers (division by a zero second difference); not followed further. -/
def notFollowed {α : Type} : Prog ℝ α := .done (.throw "(not a number)")

/-- `CalculateDerivative`, conjugate_gradient_method.cpp:126-137 (through `CountCorrectedObjectiveFunctionValue`, 119-124),
steepest_descent_method.cpp:131-143. -/
noncomputable def derivative (h : ℝ) (p : List ℝ) (i : Nat) : Prog ℝ ℝ :=
  match p[i]? with
  | none => Prog.ub
  | some x => do
    let increment ← Prog.askMin (p.set i (x + h / 2))
    let decrement ← Prog.askMin (p.set i (x - h / 2))
    return (increment - decrement) / h

/-- The loop of `CalculateGradient`, conjugate_gradient_method.cpp:165-168, steepest_descent_method.cpp:120-123, for positions
`i, ..., i + k - 1`. -/
noncomputable def gradientLoop (h : ℝ) (p : List ℝ) : Nat → Nat → Prog ℝ (List ℝ)
  | 0, _ => return []
  | k + 1, i => do
    let d ← derivative h p i
    let ds ← gradientLoop h p k (i + 1)
    return d :: ds

/-- `CalculateGradient`, conjugate_gradient_method.cpp:159-171, steepest_descent_method.cpp:115-126. -/
noncomputable def gradient (h : ℝ) (p : List ℝ) : Prog ℝ (List ℝ) := gradientLoop h p p.length 0

/-- The loops adding a multiple of a direction to a point, steepest_descent_method.cpp:86-89, 201-205, 261-264, 274-277,
conjugate_gradient_method.cpp:90-93, 189-194. -/
noncomputable def along (p : List ℝ) (t : ℝ) (d : List ℝ) : List ℝ := List.zipWith (fun x y => x + t * y) p d

/-- The loops summing squares, steepest_descent_method.cpp:102-105, conjugate_gradient_method.cpp:101-105, 218-222. -/
noncomputable def squares (v : List ℝ) : ℝ := v.foldl (fun s x => s + x * x) 0

namespace Sd

/-- First loop of `Localization`, steepest_descent_method.cpp:259-266 (the order of the two evaluations is the compiler's choice). -/
noncomputable def shrink (a : Sd.AbsImpl) (precision : ℝ) (p d : List ℝ) : Nat → ℝ → Prog ℝ ℝ
  | 0, _ => outOfFuel
  | fuel + 1, step => do
    let step := step / 2
    let v ← Prog.askMin (along p step d)
    let w ← Prog.askMin p
    if v > w ∧ a.eval step > precision then shrink a precision p d fuel step else return step

/-- Second loop of `Localization`, steepest_descent_method.cpp:269-280. -/
noncomputable def expand (p d : List ℝ) : Nat → ℝ → List ℝ → Prog ℝ (List ℝ)
  | 0, _, _ => outOfFuel
  | fuel + 1, step, next => do
    let point := next
    let step := step * Sd.kAlpha
    let next := along p step d
    let v ← Prog.askMin next
    let w ← Prog.askMin point
    if v ≤ w then expand p d fuel step next else return next

/-- `Localization`, steepest_descent_method.cpp:251-289. -/
noncomputable def localization (a : Sd.AbsImpl) (precision : ℝ) (fuel : Nat) (p : List ℝ) (initStep : ℝ) (d : List ℝ) : Prog ℝ ℝ := do
  let step ← shrink a precision p d fuel (initStep * 2)
  let next ← expand p d fuel step (along p step d)
  return Real.sqrt (squares (List.zipWith (fun x y => x - y) next p))

/-- The loop of `FindStepLength`, steepest_descent_method.cpp:199-248. -/
noncomputable def golden (a : Sd.AbsImpl) (precision : ℝ) (p d : List ℝ) : Nat → Sd.Borders → Prog ℝ ℝ
  | 0, _ => outOfFuel
  | fuel + 1, b => do
    let vl ← Prog.askMin (along p b.nextLeft d)
    let vr ← Prog.askMin (along p b.nextRight d)
    let b' := Sd.narrow b vl vr
    if b'.left = b.left ∧ b'.right = b.right then return (b'.left + b'.right) / 2
    else if a.eval (b'.left - b'.right) > precision then golden a precision p d fuel b'
    else return (b'.left + b'.right) / 2

/-- `GoldenSectionSearch`, steepest_descent_method.cpp:157-171, with `FindStepLength`, 173-249. -/
noncomputable def goldenSectionSearch (a : Sd.AbsImpl) (precision : ℝ) (fuel : Nat) (p : List ℝ) (step : ℝ) (d : List ℝ) :
    Prog ℝ ℝ := do
  let s ← localization a precision fuel p step d
  golden a precision p d fuel ⟨0, s, 0 + Sd.constriction * (s - 0), s - Sd.constriction * (s - 0)⟩

/-- The loop of `FindOptimalParameters`, steepest_descent_method.cpp:77-94, with `InvertVector` (146-155) and
`IsExitCriteriaFulfilled` (97-111). -/
noncomputable def outer (a : Sd.AbsImpl) (cfg : Sd.Config) : Nat → ℝ → List ℝ → Nat → Prog ℝ (List ℝ)
  | 0, _, _, _ => outOfFuel
  | fuel + 1, lambda, next, counter => do
    let p := next
    let counter := counter + 1
    let g ← gradient cfg.increment p
    let d := g.map (· * -1)
    let lambda ← goldenSectionSearch a cfg.precision fuel p lambda d
    let next := along p lambda d
    let g' ← gradient cfg.increment next
    if Real.sqrt (squares g') > cfg.precision ∧ ¬ counter = cfg.maxIterations then outer a cfg fuel lambda next counter else return p

/-- `FindOptimalParameters`, steepest_descent_method.cpp:70-95. -/
noncomputable def find (a : Sd.AbsImpl) (cfg : Sd.Config) (fuel : Nat) (initial : List ℝ) : Prog ℝ (List ℝ) := outer a cfg fuel 1 initial 0

end Sd

namespace Cg

/-- `PerformOneDimensionalSearch`, conjugate_gradient_method.cpp:173-206.  `none` is NaN (the loop ends, for no comparison with it
holds). -/
noncomputable def lineSearch (cfg : Cg.Config) (p d : List ℝ) : Nat → ℝ → Prog ℝ (Option ℝ)
  | 0, _ => outOfFuel
  | fuel + 1, previous => do
    let value ← Prog.askMin (along p previous d)
    let incremented ← Prog.askMin (along p (previous + cfg.increment / 2) d)
    let decremented ← Prog.askMin (along p (previous - cfg.increment / 2) d)
    let first := (incremented - decremented) / cfg.increment
    let second := (incremented - 2 * value + decremented) / (cfg.increment * cfg.increment / 4)
    if second = 0 then
      if first = 0 then return none else notFollowed
    else
      let x := previous - first / second
      if |previous - x| > cfg.precision then lineSearch cfg p d fuel x else return some x

/-- `FindNextSearchDirection`, conjugate_gradient_method.cpp:139-157. -/
noncomputable def nextDirection (g previous : List ℝ) (weight : ℝ) (iteration : Nat) : List ℝ :=
  if iteration > 1 then along g weight previous else g

/-- The loop of `FindOptimalParameters`, conjugate_gradient_method.cpp:83-116, with `CalculateWeightingCoefficient` (208-230).  After
a NaN step the gradient is counted at a point of NaNs, which is not followed; only the check of the previous gradient is. -/
noncomputable def outer (cfg : Cg.Config) : Nat → List ℝ → List ℝ → List ℝ → ℝ → Nat → Prog ℝ (List ℝ)
  | 0, _, _, _, _, _ => outOfFuel
  | fuel + 1, p, g, previous, weight, iteration => do
    let d := nextDirection g previous weight iteration
    let step ← lineSearch cfg p d fuel 0
    match step with
    | none => if FloatingPoint.isZero (squares g) then Prog.throw "runtime_error" else notFollowed
    | some x => do
      let p' := along p x d
      let g' ← gradient cfg.increment p'
      if FloatingPoint.isZero (squares g) then Prog.throw "runtime_error"
      else
        let weight' := squares g' / squares g
        let iteration' := iteration + 1
        if iteration' = cfg.iterations then return p'
        else if Real.sqrt (squares g') ≥ cfg.precision then outer cfg fuel p' g' d weight' iteration'
        else return p'

/-- `FindOptimalParameters`, conjugate_gradient_method.cpp:67-117. -/
noncomputable def find (cfg : Cg.Config) (fuel : Nat) (initial : List ℝ) : Prog ℝ (List ℝ) := do
  let g ← gradient cfg.increment initial
  outer cfg fuel initial g (List.replicate initial.length 0) 0 1

end Cg
end K52.GradientProg
