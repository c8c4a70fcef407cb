import Verif.Model.Continuous
import Mathlib.Algebra.Order.Field.Basic
import Mathlib.Data.List.Sort

/-!
# Model of `HleborodovRosenbrockMethod`

Source: `src/optimization/hleborodov_rosenbrock_method.cpp`.  `double` is an arbitrary linearly ordered field, `sqrt` a parameter.  All
vectors of one call have `dimension_` elements (they are created so, 73-76, 105-107, 179-180), hence the index loops are modelled by
elementwise list operations.  The console message (92) is not modelled.
-/

namespace K52.Rosenbrock

variable {R : Type} [Field R] [LinearOrder R]

/-- Constructor arguments, hleborodov_rosenbrock_method.cpp:31-41. -/
structure Config (R : Type) where
  precision : R
  maxIterations : Nat
  firstStep : R
  maxStep : R

/-- `kArgumentsIncreaseValue`, hleborodov_rosenbrock_method.cpp:22. -/
def increase : R := 3 / 2

/-- `kArgumentsDecreaseValue`, hleborodov_rosenbrock_method.cpp:23. -/
def decrease : R := -1 / 2

/-- `basis_` and `steps_array_`. -/
structure State (R : Type) where
  basis : List (List R)
  steps : List R

/-- `InitializeBasisAndSteps`, hleborodov_rosenbrock_method.cpp:103-114. -/
def initState (cfg : Config R) (n : Nat) : State R where
  steps := List.replicate n cfg.firstStep
  basis := (List.range n).map fun i => (List.range n).map fun j => if j = i then 1 else 0

/-- `IsExitCriteriaFulfilled`, hleborodov_rosenbrock_method.cpp:116-130. -/
def exitCriteria (cfg : Config R) (arguments previous : List R) : Bool :=
  (arguments.zip previous).foldl (fun escape p => if |p.1 - p.2| > cfg.precision then false else escape) true

/-- `CorrectStep`, hleborodov_rosenbrock_method.cpp:253-260. -/
def correctStep (cfg : Config R) (step : R) : R :=
  if |step| > cfg.maxStep then cfg.maxStep * step / |step| else step

/-- `MakeStepPerCoordinate`, hleborodov_rosenbrock_method.cpp:169-175. -/
def stepPerCoordinate (step : R) (direction arguments : List R) : List R :=
  List.zipWith (fun x d => x + step * d) arguments direction

/-- The loop of `MakeStep`, hleborodov_rosenbrock_method.cpp:142-164: over the steps and the basis vectors; returns `tested_arguments2` and the
new steps. -/
def stepLoop (cfg : Config R) (start : R) (arguments : List R) : List R → List (List R) → List R → Prog R (List R × List R)
  | step :: steps, direction :: basis, tested2 => do
    let counted ← Prog.askMin (stepPerCoordinate step direction arguments)
    let step' := correctStep cfg (if start > counted then step * increase else step * decrease)
    let r ← stepLoop cfg start arguments steps basis (stepPerCoordinate step' direction tested2)
    return (r.1, step' :: r.2)
  | _, _, tested2 => return (tested2, [])

/-- `MakeStep`, hleborodov_rosenbrock_method.cpp:132-167: the new arguments and steps.  `std::sort` with `std::greater` sorts descending; the
basis vectors are not permuted along. -/
def makeStep (cfg : Config R) (s : State R) (arguments : List R) : Prog R (List R × List R) := do
  let start ← Prog.askMin arguments
  stepLoop cfg start arguments (s.steps.insertionSort (· ≥ ·)) s.basis arguments

/-- `ScalarComposition`, hleborodov_rosenbrock_method.cpp:241-251. -/
def dot (p q : List R) : R := (p.zip q).foldl (fun s x => s + x.1 * x.2) 0

/-- `NormalizeVector`, hleborodov_rosenbrock_method.cpp:224-239. -/
def normalize (sqrt : R → R) (v : List R) : List R :=
  let temp := sqrt (v.foldl (fun s x => s + x * x) 0)
  v.map fun x => if temp ≠ 0 then x / temp else x

/-- Row `j` of `matrix_of_coeff`, hleborodov_rosenbrock_method.cpp:182-191: the sum of steps times basis vectors from `j` on. -/
def rowSum (n : Nat) (steps : List R) (basis : List (List R)) (j : Nat) : List R :=
  ((steps.zip basis).drop j).foldl (fun acc p => List.zipWith (fun a b => a + p.1 * b) acc p.2) (List.replicate n 0)

/-- `matrix_of_coeff`, hleborodov_rosenbrock_method.cpp:179-191. -/
def matrixOfCoeff (n : Nat) (steps : List R) (basis : List (List R)) : List (List R) :=
  (List.range n).map (rowSum n steps basis)

/-- The inner part of the orthogonalization of one row, hleborodov_rosenbrock_method.cpp:207-214: from a copy of the row subtract its
projections on the new basis vectors found so far. -/
def orthogonalize (found : List (List R)) (row : List R) : List R :=
  found.foldl (fun u e => List.zipWith (fun x y => x - dot row e * y) u e) row

/-- The loop over the rows, hleborodov_rosenbrock_method.cpp:193-221 (for the first row there is nothing to subtract). -/
def gramSchmidt (sqrt : R → R) : List (List R) → List (List R) → List (List R)
  | found, [] => found
  | found, row :: rows => gramSchmidt sqrt (found ++ [normalize sqrt (orthogonalize found row)]) rows

/-- `CreateNewBasis`, hleborodov_rosenbrock_method.cpp:177-222. -/
def createNewBasis (sqrt : R → R) (n : Nat) (steps : List R) (basis : List (List R)) : List (List R) :=
  gramSchmidt sqrt [] (matrixOfCoeff n steps basis)

/-- The loop of `FindOptimalParameters`, hleborodov_rosenbrock_method.cpp:79-98, with `k` iterations left; returns the arguments reached
and every state the object passed through at the beginning of an iteration (a ghost output, for the statements). -/
def loop (sqrt : R → R) (cfg : Config R) : Nat → State R → List R → Prog R (List R × List (State R × List R))
  | 0, _, arguments => return (arguments, [])
  | k + 1, s, arguments => do
    let r ← makeStep cfg s arguments
    if exitCriteria cfg r.1 arguments then return (r.1, [(s, arguments)])
    else do
      let t ← loop sqrt cfg k ⟨createNewBasis sqrt arguments.length r.2 s.basis, r.2⟩ r.1
      return (t.1, (s, arguments) :: t.2)

/-- `FindOptimalParameters`, hleborodov_rosenbrock_method.cpp:71-101, with the ghost output of `loop`. -/
def run (sqrt : R → R) (cfg : Config R) (initial : List R) : Prog R (List R × List (State R × List R)) :=
  loop sqrt cfg cfg.maxIterations (initState cfg initial.length) initial

/-- `FindOptimalParameters`, hleborodov_rosenbrock_method.cpp:71-101. -/
def find (sqrt : R → R) (cfg : Config R) (initial : List R) : Prog R (List R) := do
  let r ← run sqrt cfg initial
  return r.1

end K52.Rosenbrock
