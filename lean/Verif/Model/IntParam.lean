import Verif.Model.Res
import Mathlib.Tactic.NormNum

/-!
# Model of `ConstChromosomeSizeParemeters` and `IntParameter`

Sources: `src/optimization/params/const_chromosome_size_paremeters.cpp`,
`src/optimization/params/int_parameter.cpp`.

A chromosome (`std::vector<bool>`) is a `List Bool`; an iterator range `[from, to)` is passed as the list of
the bits in it.  A function that writes through iterators returns the new contents of the range.
A mutator returns the new object together with its outcome, because some mutators of the family change the
object before they throw.
-/

namespace K52

/-- State of `ConstChromosomeSizeParemeters`, const_chromosome_size_paremeters.cpp:10-14. -/
structure ConstSize where
  wasSet : Bool
  size : Nat
  deriving Repr, DecidableEq

namespace ConstSize

/-- Constructor, const_chromosome_size_paremeters.cpp:10-14. -/
def new : ConstSize := ⟨false, 0⟩

/-- `GetChromosomeSize`, const_chromosome_size_paremeters.cpp:16-20 and 51-58. -/
def get (c : ConstSize) : Res Nat :=
  if c.wasSet then .ok c.size else .throw "logic_error"

/-- `SetConstChromosomeSize`, const_chromosome_size_paremeters.cpp:22-33. -/
def set (c : ConstSize) (n : Nat) : Res ConstSize :=
  if c.wasSet then .throw "logic_error" else .ok ⟨true, n⟩

/-- `CheckForConstChromosomeSize`, const_chromosome_size_paremeters.cpp:35-43. -/
def check (c : ConstSize) (n : Nat) : Res Unit :=
  if c.wasSet then (if n ≠ c.size then .throw "invalid_argument" else .ok ()) else .throw "logic_error"

end ConstSize

/-- Fields of `IntParameter`, int_parameter.h:59-61 plus the base class state. -/
structure IntParam where
  cs : ConstSize
  value : Int
  min : Int
  max : Int
  deriving Repr, DecidableEq

namespace IntParam

/-- The loop of `CountChromosomeSize`, int_parameter.cpp:93-97: `while (target > x) { x *= 2; power++; }`.
`x` starts at 1 and stays positive (`hx`, used for termination only); `x *= 2` is `int` arithmetic. -/
def countLoop (target x : Int) (hx : 0 < x) (power : Nat) : Res Nat :=
  if _h : target > x then
    if x * 2 ≤ 2147483647 then countLoop target (x * 2) (by omega) (power + 1) else .ub
  else .ok power
termination_by (target - x).toNat

/-- `CountChromosomeSize`, int_parameter.cpp:88-99. -/
def countChromosomeSize (min max : Int) : Res Nat :=
  match int32 (max - min) with
  | .ok target => countLoop target 1 (by decide) 0
  | .throw w => .throw w
  | .ub => .ub

/-- Constructor with a value and `Initialize`, int_parameter.cpp:16-19, 79-86.  No argument is validated. -/
def new (value min max : Int) : Res IntParam := do
  let s ← countChromosomeSize min max
  let cs ← ConstSize.new.set s
  return ⟨cs, value, min, max⟩

/-- Constructor without a value, int_parameter.cpp:11-14. -/
def newMin (min max : Int) : Res IntParam := new min min max

/-- `set_value`, int_parameter.cpp:26-29. -/
def setValue (p : IntParam) (v : Int) : IntParam := { p with value := v }

/-- `CheckConstraints`, int_parameter.cpp:58-61. -/
def checkConstraints (p : IntParam) : Bool := decide (p.value ≤ p.max) && decide (p.value ≥ p.min)

/-- `HasSameMetaParameters` on another `IntParameter`, int_parameter.cpp:47-56. -/
def hasSameMeta (p q : IntParam) : Bool := decide (p.max = q.max) && decide (p.min = q.min)

/-- `Clone`, int_parameter.cpp:41-45. -/
def clone (p : IntParam) : Res IntParam := new p.value p.min p.max

/-- The loop of `GetIntFromChromosome`, int_parameter.cpp:107-119, on 32 bit words.  `1 << bit_number` is an `int`
shift: undefined for `bit_number ≥ 31`. -/
def bitsLoop : List Bool → BitVec 32 → Nat → Res (BitVec 32)
  | [], result, _ => .ok result
  | b :: bs, result, n =>
    if n < 31 then
      if b then bitsLoop bs (result ||| (1#32 <<< n)) (n + 1)
      else bitsLoop bs (result &&& ~~~(1#32 <<< n)) (n + 1)
    else .ub

/-- `GetIntFromChromosome`, int_parameter.cpp:101-122. -/
def getIntFromChromosome (chr : List Bool) : Res Int := do
  let r ← bitsLoop chr 0#32 0
  return r.toInt

/-- The loop of `SetChromosomeFromInt`, int_parameter.cpp:124-141.  `value >> bit_number` is the arithmetic shift
(implementation-defined for negative values; gcc/clang/msvc all shift arithmetically); a shift by 32 or more is undefined. -/
def writeBits (value : Int) : List Bool → Nat → Res (List Bool)
  | [], _ => .ok []
  | _ :: bs, n =>
    if n < 32 then do
      let rest ← writeBits value bs (n + 1)
      return decide ((value >>> n) % 2 = 1) :: rest
    else .ub

/-- `SetChromosome`, int_parameter.cpp:63-69: returns the new contents of the range. -/
def setChromosome (p : IntParam) (chr : List Bool) : Res (List Bool) := do
  p.cs.check chr.length
  let d ← int32 (p.value - p.min)
  writeBits d chr 0

/-- `SetFromChromosome`, int_parameter.cpp:71-77. -/
def setFromChromosome (p : IntParam) (chr : List Bool) : IntParam × Res Unit :=
  match p.cs.check chr.length with
  | .ok () =>
    match getIntFromChromosome chr with
    | .ok n =>
      match int32 (n + p.min) with
      | .ok v => ({ p with value := v }, .ok ())
      | .throw w => (p, .throw w)
      | .ub => (p, .ub)
    | .throw w => (p, .throw w)
    | .ub => (p, .ub)
  | .throw w => (p, .throw w)
  | .ub => (p, .ub)

end IntParam
end K52
