import Verif.Model.IeeeGradient
import Verif.Model.Rosenbrock

/-!
# Model of `HleborodovRosenbrockMethod` in IEEE arithmetic

Source: `src/optimization/hleborodov_rosenbrock_method.cpp`.

The model in `Verif/Model/Rosenbrock.lean` computes with exact numbers.  Here `double` is any type with arithmetic and comparisons, so that every operation
may round, overflow or give NaN.  All vectors of one call have `dimension_` elements, hence the index loops are modelled by elementwise list operations.
The console message (92) is not modelled.
-/

namespace K52.IeeeRosenbrock

open IeeeGradient (Same)
open Rosenbrock (Config State)

variable {R : Type} [Add R] [Sub R] [Mul R] [Div R] [Neg R] [Zero R] [One R] [NatCast R] [LT R] [LE R] [DecidableLT R] [DecidableLE R]

/-- Library functions `std::abs` (for `double`) and `sqrt`, and the constants 1.5 and -0.5 (hleborodov_rosenbrock_method.cpp:22-23). -/
structure Lib (R : Type) where
  abs : R → R
  sqrt : R → R
  increase : R
  decrease : R

/-- `InitializeBasisAndSteps`, hleborodov_rosenbrock_method.cpp:103-114. -/
def initState (cfg : Config R) (n : Nat) : State R where
  steps := List.replicate n cfg.firstStep
  basis := (List.range n).map fun i => (List.range n).map fun j => if j = i then 1 else 0

/-- `IsExitCriteriaFulfilled`, hleborodov_rosenbrock_method.cpp:116-130. -/
def exitCriteria (l : Lib R) (cfg : Config R) (arguments previous : List R) : Bool :=
  (arguments.zip previous).foldl (fun escape p => if l.abs (p.1 - p.2) > cfg.precision then false else escape) true

/-- `CorrectStep`, hleborodov_rosenbrock_method.cpp:253-260. -/
def correctStep (l : Lib R) (cfg : Config R) (step : R) : R :=
  if l.abs step > cfg.maxStep then cfg.maxStep * step / l.abs step else step

/-- `MakeStepPerCoordinate`, hleborodov_rosenbrock_method.cpp:169-175. -/
def stepPerCoordinate (step : R) (direction arguments : List R) : List R :=
  List.zipWith (fun x d => x + step * d) arguments direction

/-- `std::sort(..., std::greater<double>())`, hleborodov_rosenbrock_method.cpp:140.  Sorting numbers and sorting NaNs only is defined; with both among the
elements it is undefined or unspecified, depending on the numbers, and reported as undefined behaviour (a simplification). -/
def sortSteps (steps : List R) : Res (List R) :=
  if (∀ x ∈ steps, x ≤ x) ∨ (∀ x ∈ steps, ¬ x ≤ x) then .ok (steps.insertionSort (· ≥ ·)) else .ub

/-- The loop of `MakeStep`, hleborodov_rosenbrock_method.cpp:142-164: over the steps and the basis vectors; returns `tested_arguments2` and the
new steps. -/
def stepLoop (l : Lib R) (cfg : Config R) (start : R) (arguments : List R) : List R → List (List R) → List R → Prog R (List R × List R)
  | step :: steps, direction :: basis, tested2 => do
    let counted ← Prog.askMin (stepPerCoordinate step direction arguments)
    let step' := correctStep l cfg (if start > counted then step * l.increase else step * l.decrease)
    let r ← stepLoop l cfg start arguments steps basis (stepPerCoordinate step' direction tested2)
    return (r.1, step' :: r.2)
  | _, _, tested2 => return (tested2, [])

/-- `MakeStep`, hleborodov_rosenbrock_method.cpp:132-167: the new arguments and steps. -/
def makeStep (l : Lib R) (cfg : Config R) (s : State R) (arguments : List R) : Prog R (List R × List R) := do
  let start ← Prog.askMin arguments
  let steps ← Prog.lift (sortSteps s.steps)
  stepLoop l cfg start arguments steps s.basis arguments

/-- `ScalarComposition`, hleborodov_rosenbrock_method.cpp:241-251. -/
def dot (p q : List R) : R := (p.zip q).foldl (fun s x => s + x.1 * x.2) 0

/-- `NormalizeVector`, hleborodov_rosenbrock_method.cpp:224-239. -/
def normalize (l : Lib R) (v : List R) : List R :=
  let temp := l.sqrt (v.foldl (fun s x => s + x * x) 0)
  v.map fun x => if ¬ Same temp 0 then x / temp else x

/-- Row `j` of `matrix_of_coeff`, hleborodov_rosenbrock_method.cpp:182-191: the sum of steps times basis vectors from `j` on. -/
def rowSum (n : Nat) (steps : List R) (basis : List (List R)) (j : Nat) : List R :=
  ((steps.zip basis).drop j).foldl (fun acc p => List.zipWith (fun a b => a + p.1 * b) acc p.2) (List.replicate n 0)

/-- `matrix_of_coeff`, hleborodov_rosenbrock_method.cpp:179-191. -/
def matrixOfCoeff (n : Nat) (steps : List R) (basis : List (List R)) : List (List R) :=
  (List.range n).map (rowSum n steps basis)

/-- The inner part of the orthogonalization of one row, hleborodov_rosenbrock_method.cpp:207-214: from a copy of the row subtract its
projections on the new basis vectors found so far. -/
def orthogonalize (found : List (List R)) (row : List R) : List R :=
  found.foldl (fun u e => List.zipWith (fun x y => x - dot row e * y) u e) row

/-- The loop over the rows, hleborodov_rosenbrock_method.cpp:193-221 (for the first row there is nothing to subtract). -/
def gramSchmidt (l : Lib R) : List (List R) → List (List R) → List (List R)
  | found, [] => found
  | found, row :: rows => gramSchmidt l (found ++ [normalize l (orthogonalize found row)]) rows

/-- `CreateNewBasis`, hleborodov_rosenbrock_method.cpp:177-222. -/
def createNewBasis (l : Lib R) (n : Nat) (steps : List R) (basis : List (List R)) : List (List R) :=
  gramSchmidt l [] (matrixOfCoeff n steps basis)

/-- The loop of `FindOptimalParameters`, hleborodov_rosenbrock_method.cpp:79-98, with `k` iterations left; returns the arguments reached. -/
def loop (l : Lib R) (cfg : Config R) : Nat → State R → List R → Prog R (List R)
  | 0, _, arguments => return arguments
  | k + 1, s, arguments => do
    let r ← makeStep l cfg s arguments
    if exitCriteria l cfg r.1 arguments then return r.1
    else loop l cfg k ⟨createNewBasis l arguments.length r.2 s.basis, r.2⟩ r.1

/-- `FindOptimalParameters`, hleborodov_rosenbrock_method.cpp:71-101. -/
def find (l : Lib R) (cfg : Config R) (initial : List R) : Prog R (List R) :=
  loop l cfg cfg.maxIterations (initState cfg initial.length) initial

end K52.IeeeRosenbrock
