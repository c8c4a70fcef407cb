import Mathlib.Algebra.Order.Field.Basic
import Mathlib.Algebra.Order.AbsoluteValue.Basic

/-!
# Model of `k52::common::FloatingPoint` and `Constants::Eps`

Source: `src/common/floating_point.cpp`, `src/common/constants.cpp`.  `double` is an arbitrary linearly ordered field.
-/

namespace K52.FloatingPoint

variable {R : Type} [Field R] [LinearOrder R] [IsStrictOrderedRing R]

/-- `Constants::Eps`, constants.cpp:11 (`1e-10`; here the exact decimal). -/
def eps : R := 1 / 10 ^ 10

/-- `AreEqual(double, double)`, floating_point.cpp:8-11. -/
def areEqual (x y : R) : Bool := decide (|x - y| < eps)

/-- `IsZero`, floating_point.cpp:13-16. -/
def isZero (x : R) : Bool := areEqual x 0

/-- The loop of `AreEqual(vector, vector)`, floating_point.cpp:27-35 (both lists have the same length there). -/
def equalLoop : List R → List R → Bool
  | x :: xs, y :: ys => if !areEqual x y then false else equalLoop xs ys
  | _, _ => true

/-- `AreEqual(vector, vector)`, floating_point.cpp:18-36. -/
def areEqualVec (v w : List R) : Bool := if v.length ≠ w.length then false else equalLoop v w

end K52.FloatingPoint
