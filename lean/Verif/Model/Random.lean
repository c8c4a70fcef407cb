import Verif.Model.Res
import Mathlib.Algebra.Order.Field.Basic
import Mathlib.Data.Rat.Defs

/-!
# Model of `k52::common::Random`

Source: `src/common/random.cpp`.  The C library's `rand()` is an arbitrary stream of numbers; every theorem quantifies over it.
`double` is an arbitrary type with arithmetic and comparisons; most theorems take a linearly ordered field (exact arithmetic) for it, C90
only the IEEE rules for comparisons and NaN.
-/

namespace K52.Random

variable {R : Type} 
  [Add R] [Sub R] [Mul R] [Div R] [Zero R] [One R] [NatCast R] [LT R] [LE R] [DecidableLT R] [DecidableLE R]

/-- `rand()` and `RAND_MAX`: the stream of values still to come. -/
structure Lib where
  randMax : Nat
  stream : Nat → Nat

/-- What the C standard promises of `rand()`. -/
def Lib.Valid (l : Lib) : Prop := 1 ≤ l.randMax ∧ ∀ i, l.stream i ≤ l.randMax

/-- One call of `rand()`. -/
def rand (l : Lib) : Nat × Lib := (l.stream 0, { l with stream := fun i => l.stream (i + 1) })

/-- `ValidateProbability`, random.cpp:20-26. -/
def validateProbability (p : R) : Res Unit :=
  if p < 0 ∨ p > 1 then .throw "invalid_argument" else .ok ()

/-- `GetBaseRandomQuantity`, random.cpp:28-31. -/
def base (l : Lib) : R × Lib := (((rand l).1 : R) / (l.randMax : R), (rand l).2)

/-- `GetContinuousRandomQuantity`, random.cpp:33-37. -/
def continuous (l : Lib) (min max : R) : R × Lib := ((base l).1 * (max - min) + min, (rand l).2)

/-- `GenerateRandomVector`, random.cpp:39-47. -/
def vector (l : Lib) : Nat → R → R → List R × Lib
  | 0, _, _ => ([], l)
  | n + 1, min, max =>
    let x := continuous l min max
    let xs := vector x.2 n min max
    (x.1 :: xs.1, xs.2)

/-- `GetUniformlyDistributedDiscreteRandomQuantity`, random.cpp:55-58, in `int` arithmetic: the subtraction, the `+ 1`
and the final addition may overflow; `%` by zero is undefined; `%` truncates towards zero. -/
def discrete (l : Lib) (min max : Int) : Res (Int × Lib) := do
  let d ← int32 (max - min)
  let n ← int32 (d + 1)
  if n = 0 then .ub
  else do
    let r ← int32 (Int.tmod (rand l).1 n + min)
    return (r, (rand l).2)

/-- `CheckEventOutcome`, random.cpp:60-65. -/
def event (l : Lib) (p : R) : Res (Bool × Lib) := do
  validateProbability p
  return (decide ((base (R := R) l).1 ≤ p), (rand l).2)

/-- The singleton's fields, random.h (`bool_base_`, `next_bit_in_bool_base_`, `max_bit_in_bool_base_`). -/
structure State where
  boolBase : Nat
  nextBit : Nat
  maxBit : Nat
  lib : Lib

/-- The loop of the constructor, random.cpp:75-86: `k` iterations left (`sizeof(int) * 8 = 32`), `value` is
`max_bool_base_value`, an `int`. -/
def maxBitLoop (randMax : Nat) : Nat → Nat → Nat → Res Nat
  | 0, _, maxBit => .ok maxBit
  | k + 1, value, maxBit =>
    if value * 2 ≤ 2147483647 then
      if value * 2 > randMax then .ok maxBit else maxBitLoop randMax k (value * 2) (maxBit + 1)
    else .ub

/-- Constructor, random.cpp:67-87 (the seeding picks the stream). -/
def new (l : Lib) : Res State := do
  let m ← maxBitLoop l.randMax 32 1 0
  return ⟨(rand l).1, 0, m, (rand l).2⟩

/-- `GetNextBitFromBoolBase`, random.cpp:89-101: the selected bit (as `bool_base_ & bitmask`).
Shifting the `int` 1 by 31 or more is undefined. -/
def nextBitOf (s : State) : Res (Nat × State) :=
  let s' := if s.nextBit > s.maxBit then { s with nextBit := 0, boolBase := (rand s.lib).1, lib := (rand s.lib).2 } else s
  if s'.nextBit < 31 then .ok (s'.boolBase &&& (1 <<< s'.nextBit), { s' with nextBit := s'.nextBit + 1 }) else .ub

/-- `GetRandomBool`, random.cpp:49-53. -/
def randomBool (s : State) : Res (Bool × State) := do
  let r ← nextBitOf s
  return (decide (r.1 = 0), r.2)

/-- `n` consecutive calls of `GetRandomBool`. -/
def randomBools : Nat → State → Res (List Bool × State)
  | 0, s => .ok ([], s)
  | n + 1, s => do
    let r ← randomBool s
    let rs ← randomBools n r.2
    return (r.1 :: rs.1, rs.2)

end K52.Random
