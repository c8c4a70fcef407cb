import Verif.Model.Dsp
import Mathlib.Algebra.Order.Field.Basic
import Mathlib.Algebra.Order.Group.Abs

/-!
# Model of `AkimaSpline` and the spline based wavelet function

Sources: `src/dsp/akima_spline.cpp`, `src/dsp/spline_based_wavelet_function.cpp`, `src/dsp/akima_wavelet_function.cpp`.

`K` is the type `double` is modelled by: any type with the operations used.  C54, C55 and C67 are about ordered fields (exact arithmetic), C108 about
rounded numbers.  A division by zero, which in C++ yields an infinity or NaN, gives `0` in `K`; the theorems assume distinct abscissae, so it does not
occur in them.
-/

namespace K52.Akima

open K52.Dsp (rd fillLoop)

/-- The library functions of akima_spline.cpp: `std::abs`, `std::pow(x, 2)` and `std::pow(x, 3)`, lines 52-53, 73, 104, 111-112. -/
class SplineLib (K : Type) where
  abs : K → K
  sq : K → K
  cube : K → K

/-- Exact arithmetic. -/
instance (priority := low) [Field K] [LinearOrder K] : SplineLib K := ⟨fun x => |x|, fun x => x ^ 2, fun x => x ^ 3⟩

@[simp] theorem abs_eq {K : Type} [Field K] [LinearOrder K] (x : K) : SplineLib.abs x = |x| := rfl
@[simp] theorem sq_eq {K : Type} [Field K] [LinearOrder K] (x : K) : SplineLib.sq x = x ^ 2 := rfl
@[simp] theorem cube_eq {K : Type} [Field K] [LinearOrder K] (x : K) : SplineLib.cube x = x ^ 3 := rfl

variable {K : Type} [Add K] [Sub K] [Mul K] [Div K] [Neg K] [Zero K] [One K] [NatCast K] [LinearOrder K] [SplineLib K]

/-- `v[i] = a` of a `std::vector`. -/
def wr {α : Type} (v : List α) (i : Nat) (a : α) : Res (List α) :=
  if i < v.length then .ok (v.set i a) else .ub

/-- A `Polynomial(4)`: the four coefficients, akima_spline.h and akima_spline.cpp:58-62. -/
structure Poly (K : Type) where
  c0 : K
  c1 : K
  c2 : K
  c3 : K
  deriving DecidableEq

/-- The object: akima_spline.h (`coeffs_`, `train_x_`, `train_y_`). -/
structure Spline (K : Type) where
  coeffs : List (Poly K)
  xs : List K
  ys : List K
  deriving DecidableEq

/-- `AkimaSpline::Create`, akima_spline.cpp:17-24. -/
def create {K : Type} : Spline K := ⟨[], [], []⟩

/-- `CalculateM`, akima_spline.cpp:77-96. -/
def calculateM (xs ys : List K) : Res (List K) := do
  -- lines 79-84: `result[i + 2]` for the chords; the first and last two elements are 0 so far
  let chords ← fillLoop (xs.length - 1) fun i => do
    return ((← rd ys (i + 1)) - (← rd ys i)) / ((← rd xs (i + 1)) - (← rd xs i))
  let r := [0, 0] ++ chords ++ [0, 0]
  let r ← wr r 0 (3 * (← rd r 2) - 2 * (← rd r 3))
  let r ← wr r 1 (2 * (← rd r 2) - (← rd r 3))
  let n := r.length - 1
  let r ← wr r (n - 1) (2 * (← rd r (n - 2)) - (← rd r (n - 3)))
  let r ← wr r n (3 * (← rd r (n - 2)) - 2 * (← rd r (n - 3)))
  return r

/-- `CalculateSlopes`, akima_spline.cpp:98-117. -/
def calculateSlopes (xs : List K) (m : List K) : Res (List K) :=
  fillLoop xs.length fun i => do
    let mm1 ← rd m (2 + i + 1)
    let m0 ← rd m (2 + i)
    let p1 ← rd m (2 + i - 1)
    let p2 ← rd m (2 + i - 2)
    let d := SplineLib.abs (mm1 - m0) + SplineLib.abs (p1 - p2)
    if d = 0 then return (1 / 2) * (p1 + m0)
    else return (p1 * SplineLib.abs (mm1 - m0) + m0 * SplineLib.abs (p1 - p2)) / d

/-- `ReestimatePolynomials`, akima_spline.cpp:56-75. -/
def reestimate (xs ys : List K) : Res (List (Poly K)) := do
  let s ← calculateSlopes xs (← calculateM xs ys)
  fillLoop (xs.length - 1) fun i => do
    let xi ← rd xs i
    let xi1 ← rd xs (i + 1)
    let yi ← rd ys i
    let yi1 ← rd ys (i + 1)
    let si ← rd s i
    let si1 ← rd s (i + 1)
    return {
      c0 := yi
      c1 := si
      c2 := (3 * (yi1 - yi) / (xi1 - xi) - 2 * si - si1) / (xi1 - xi)
      c3 := (si1 + si - 2 * (yi1 - yi) / (xi1 - xi)) / SplineLib.sq (xi1 - xi) }

/-- `Initialize`, akima_spline.cpp:26-44.  On an exception the object keeps its previous contents. -/
def init (tx ty : List K) : Res (Spline K) :=
  if tx.length < 5 ∨ ty.length < 5 then .throw "invalid_argument"
  else if tx.length ≠ ty.length then .throw "invalid_argument"
  else do
    let c ← reestimate tx ty
    return ⟨c, tx, ty⟩

/-- The loop of libstdc++'s `std::upper_bound` / `std::lower_bound` (`bits/stl_algo.h`): `goLeft v` is `x < v` for
`upper_bound` and `¬ (v < x)` for `lower_bound`.  The result is an index. -/
def boundLoop (goLeft : K → Bool) (xs : List K) (first len : Nat) : Nat :=
  if 0 < len then
    match xs[first + len / 2]? with
    | some v =>
      if goLeft v then boundLoop goLeft xs first (len / 2)
      else boundLoop goLeft xs (first + len / 2 + 1) (len - len / 2 - 1)
    | none => first
  else first
  termination_by len
  decreasing_by all_goals omega

def upperBound (xs : List K) (x : K) : Nat := boundLoop (fun v => decide (x < v)) xs 0 xs.length
def lowerBound (xs : List K) (x : K) : Nat := boundLoop (fun v => !decide (v < x)) xs 0 xs.length

/-- `ResolveInterval`, akima_spline.cpp:119-141.  `none` stands for the wrapped-around index `-1`. -/
def resolveInterval (xs : List K) (x : K) : Res (Option Nat) :=
  let u := upperBound xs x
  if u = 0 then .throw "out_of_range"
  else if u = xs.length then
    let l := lowerBound xs x
    if l = xs.length then .throw "out_of_range"
    else if l = 0 then .ok none
    else .ok (some (l - 1))
  else .ok (some (u - 1))

/-- `Value`, akima_spline.cpp:46-54. -/
def value (s : Spline K) (x : K) : Res K := do
  match ← resolveInterval s.xs x with
  | none => .ub
  | some i =>
    let arg := x - (← rd s.xs i)
    let c ← rd s.coeffs i
    return c.c0 + c.c1 * arg + c.c2 * SplineLib.sq arg + c.c3 * SplineLib.cube arg

/-! ## Spline based wavelet function -/

/-- `SplineBased::Init`, spline_based_wavelet_function.cpp:18-37, with an `AkimaSpline` (akima_wavelet_function.cpp:11-18).
The argument `imaj` is never used.  With an empty `real` the vectors have size 2 and `points[2]` is out of range. -/
def waveletInit (real : List K) : Res (Spline K) := do
  let delta : K := 8 / (real.length : K)
  let inner ← fillLoop real.length fun i : Nat => do return -4 + delta * (i : K)
  let points := [0] ++ inner ++ [0]
  let values := [0] ++ real ++ [0]
  let points ← wr points 0 ((← rd points 1) - ((← rd points 2) - (← rd points 1)))
  let size := points.length
  -- indices are computed in `int`; `size - 3` is negative only for the empty `real`, excluded above by `points[2]`
  let points ← wr points (size - 1) ((← rd points (size - 2)) - ((← rd points (size - 3)) - (← rd points (size - 2))))
  init points values

/-- `SplineBased::real`, spline_based_wavelet_function.cpp:39-47; `GetValue` (13-16) returns it as a complex number with
imaginary part zero. -/
def waveletReal (s : Spline K) (x : K) : Res K :=
  if -4 ≤ x ∧ x ≤ 4 then value s x else .ok 0

end K52.Akima
