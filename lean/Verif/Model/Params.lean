import Verif.Model.IntParam
import Mathlib.Algebra.Order.Floor.Ring
import Mathlib.Data.Rat.Floor

/-!
# Model of `DoubleParameter`, `DoubleParametersArray`, `CompositeDiscreteParameters`

Sources: `src/optimization/params/double_parameter.cpp`, `double_parameters_array.cpp`,
`composite_discrete_parameters.cpp`, `src/optimization/initialization_checker.cpp`.

`double` is any linearly ordered type with arithmetic operations and conversions to integers: a linearly ordered field with a floor
function (`ℚ`, `ℝ`: exact arithmetic), or rounded arithmetic (`Verif.Spec.Rounding`).  No NaN, no infinities.
Division by zero in `double` (giving inf/NaN, whose conversion to `int` is undefined) is an explicit `ub`.
-/

namespace K52

/-- Truncation towards zero. -/
def truncZ {R : Type} [Field R] [LinearOrder R] [IsStrictOrderedRing R] [FloorRing R] (x : R) : Int := if 0 ≤ x then ⌊x⌋ else ⌈x⌉

/-- The conversions of a `double` to an integer: truncation towards zero, and `std::ceil`. -/
class ToInt (R : Type) where
  trunc : R → Int
  ceil : R → Int

instance {R : Type} [Field R] [LinearOrder R] [IsStrictOrderedRing R] [FloorRing R] : ToInt R := ⟨truncZ, fun x => ⌈x⌉⟩

theorem trunc_eq {R : Type} [Field R] [LinearOrder R] [IsStrictOrderedRing R] [FloorRing R] (x : R) : ToInt.trunc x = truncZ x := rfl

theorem ceil_eq {R : Type} [Field R] [LinearOrder R] [IsStrictOrderedRing R] [FloorRing R] (x : R) : ToInt.ceil x = ⌈x⌉ := rfl

variable {R : Type} [Add R] [Sub R] [Mul R] [Div R] [Zero R] [IntCast R] [LinearOrder R] [ToInt R]

/-- C++ conversion `(int)x`: truncates; undefined when the truncated value does not fit `int`. -/
def toInt32 (x : R) : Res Int := int32 (ToInt.trunc x)

/-- Fields of `DoubleParameter`, double_parameter.h:45-48.  `base = none` is the null `shared_ptr` of the default
constructor (double_parameter.cpp:12-16); using it is a null dereference. -/
structure DblParam (R : Type) where
  cs : ConstSize
  base : Option IntParam
  min : R
  max : R
  prec : R

namespace DblParam

/-- `CheckBounds`, double_parameter.cpp:141-144. -/
def checkBounds (p : DblParam R) (v : R) : Bool := decide (v ≥ p.min) && decide (v ≤ p.max)

/-- `GetMaxInt`, double_parameter.cpp:119-127. -/
def getMaxInt (min max precision : R) : Res Int :=
  if precision = 0 then .ub
  else do
    let n ← int32 (ToInt.ceil ((max - min) / precision))
    if n < 1 then .throw "invalid_argument" else return n

/-- Loop of `CountBestMaxInt`, double_parameter.cpp:129-139. -/
def bestLoop (initial best : Int) (h : 0 < best) : Res Int :=
  if _h : initial > best then
    if best * 2 ≤ 2147483647 then bestLoop initial (best * 2) (by omega) else .ub
  else .ok best
termination_by (initial - best).toNat

/-- `CountBestMaxInt`, double_parameter.cpp:129-139. -/
def countBestMaxInt (initial : Int) : Res Int := bestLoop initial 1 (by decide)

/-- Default constructor, double_parameter.cpp:12-16. -/
def default : DblParam R := ⟨ConstSize.new, none, 0, 0, 0⟩

/-- `SetValue`, double_parameter.cpp:98-102. -/
def setValue (p : DblParam R) (v : R) : Res (DblParam R) :=
  if p.prec = 0 then .ub
  else do
    let n ← toInt32 ((v - p.min) / p.prec)
    match p.base with
    | none => .ub
    | some b => return { p with base := some (b.setValue n) }

/-- `GetValue`, double_parameter.cpp:93-96. -/
def getValue (p : DblParam R) : Res R :=
  match p.base with
  | none => .ub
  | some b => .ok ((b.value : R) * p.prec + p.min)

/-- Constructor, double_parameter.cpp:18-42. -/
def new (desired min max precision : R) : Res (DblParam R) :=
  if max ≤ min then .throw "invalid_argument"
  else if !(decide (desired ≥ min) && decide (desired ≤ max)) then .throw "invalid_argument"
  else do
    let m ← getMaxInt min max precision
    let best ← countBestMaxInt m
    let base ← IntParam.newMin 0 best
    let p ← setValue ⟨ConstSize.new, some base, min, max, (max - min) / (best : R)⟩ desired
    let s ← base.cs.get
    let cs ← p.cs.set s
    return { p with cs := cs }

/-- `CheckConstraints`, double_parameter.cpp:78-81. -/
def checkConstraints (p : DblParam R) : Res Bool := do
  let v ← p.getValue
  return p.checkBounds v

/-- `SetChromosome`, double_parameter.cpp:83-86. -/
def setChromosome (p : DblParam R) (chr : List Bool) : Res (List Bool) :=
  match p.base with
  | none => .ub
  | some b => b.setChromosome chr

/-- `SetFromChromosome`, double_parameter.cpp:88-91. -/
def setFromChromosome (p : DblParam R) (chr : List Bool) : DblParam R × Res Unit :=
  match p.base with
  | none => (p, .ub)
  | some b => ({ p with base := some (b.setFromChromosome chr).1 }, (b.setFromChromosome chr).2)

/-- `Clone`, double_parameter.cpp:44-63. -/
def clone (p : DblParam R) : Res (DblParam R) :=
  match p.base with
  | none => .ok ⟨p.cs, none, p.min, p.max, p.prec⟩
  | some b => do
    let b' ← b.clone
    return ⟨p.cs, some b', p.min, p.max, p.prec⟩

/-- `HasSameMetaParameters` on another `DoubleParameter`, double_parameter.cpp:65-76 (`&&` short-circuits before the
base pointers are used). -/
def hasSameMeta (p q : DblParam R) : Res Bool :=
  if p.max = q.max ∧ p.min = q.min ∧ p.prec = q.prec then
    match p.base, q.base with
    | some a, some b => .ok (a.hasSameMeta b)
    | none, _ => .ub
    -- `base->HasSameMetaParameters(NULL)`: dynamic_cast of null gives null, int_parameter.cpp:49-53 throws
    | some _, none => .throw "runtime_error"
  else .ok false

end DblParam

/-- Iterator arithmetic `[from, from + n)` inside a range: past-the-end is undefined. -/
def slice (chr : List Bool) (n : Nat) : Res (List Bool × List Bool) :=
  if chr.length < n then .ub else .ok (chr.take n, chr.drop n)

/-- Fields of `DoubleParametersArray`, double_parameters_array.h:43-44.  The sample parameter is scratch space: its
value is overwritten before each use and is not observable, so its mutations inside `const` methods are not tracked. -/
structure ArrParam (R : Type) where
  cs : ConstSize
  sample : DblParam R
  values : List R

namespace ArrParam

/-- Constructor, double_parameters_array.cpp:10-18 and 140-143; the values are value-initialised to 0. -/
def new (min max precision : R) (n : Nat) : Res (ArrParam R) := do
  let sample ← DblParam.new min min max precision
  let s ← sample.cs.get
  let cs ← ConstSize.new.set (s * n)
  return ⟨cs, sample, List.replicate n 0⟩

/-- The loop of `CheckConstraints`, double_parameters_array.cpp:45-56. -/
def checkLoop (sample : DblParam R) : List R → Res Bool
  | [] => .ok true
  | v :: vs => do
    let p ← sample.setValue v
    let b ← p.checkConstraints
    if b then checkLoop sample vs else return false

/-- `CheckConstraints`, double_parameters_array.cpp:45-56. -/
def checkConstraints (a : ArrParam R) : Res Bool := checkLoop a.sample a.values

/-- The loop of `SetChromosome`, double_parameters_array.cpp:67-75.  (What a range holds after an exception is not
modelled.) -/
def encLoop (sample : DblParam R) : List R → List Bool → Res (List Bool)
  | [], chr => .ok chr
  | v :: vs, chr => do
    let s ← sample.cs.get
    let (cur, rest) ← slice chr s
    let p ← sample.setValue v
    let out ← p.setChromosome cur
    let outs ← encLoop sample vs rest
    return out ++ outs

/-- `SetChromosome`, double_parameters_array.cpp:58-76. -/
def setChromosome (a : ArrParam R) (chr : List Bool) : Res (List Bool) := do
  a.cs.check chr.length
  encLoop a.sample a.values chr

/-- The loop of `SetFromChromosome`, double_parameters_array.cpp:87-95.  Returns the new values (a failing element
leaves itself and the later ones as they were) and the outcome. -/
def decLoop (sample : DblParam R) : List R → List Bool → List R × Res Unit
  | [], _ => ([], .ok ())
  | v :: vs, chr =>
    match sample.cs.get with
    | .ok s =>
      match slice chr s with
      | .ok (cur, rest) =>
        match sample.setFromChromosome cur with
        | (p, .ok ()) =>
          match p.getValue with
          | .ok x => (x :: (decLoop sample vs rest).1, (decLoop sample vs rest).2)
          | .throw w => (v :: vs, .throw w)
          | .ub => (v :: vs, .ub)
        | (_, .throw w) => (v :: vs, .throw w)
        | (_, .ub) => (v :: vs, .ub)
      | .throw w => (v :: vs, .throw w)
      | .ub => (v :: vs, .ub)
    | .throw w => (v :: vs, .throw w)
    | .ub => (v :: vs, .ub)

/-- `SetFromChromosome`, double_parameters_array.cpp:78-96. -/
def setFromChromosome (a : ArrParam R) (chr : List Bool) : ArrParam R × Res Unit :=
  match a.cs.check chr.length with
  | .ok () =>
    ({ a with values := (decLoop a.sample a.values chr).1 }, (decLoop a.sample a.values chr).2)
  | .throw w => (a, .throw w)
  | .ub => (a, .ub)

/-- `SetValues`, double_parameters_array.cpp:98-111: assigns before it checks. -/
def setValues (a : ArrParam R) (vs : List R) : ArrParam R × Res Unit :=
  if vs.length ≠ a.values.length then (a, .throw "invalid_argument")
  else
    let a' := { a with values := vs }
    match a'.checkConstraints with
    | .ok true => (a', .ok ())
    | .ok false => (a', .throw "invalid_argument")
    | .throw w => (a', .throw w)
    | .ub => (a', .ub)

/-- `Clone`, double_parameters_array.cpp:20-32. -/
def clone (a : ArrParam R) : Res (ArrParam R) := do
  let sample ← a.sample.clone
  let s ← a.sample.cs.get
  let cs ← ConstSize.new.set (s * a.values.length)
  return ⟨cs, sample, a.values⟩

/-- `HasSameMetaParameters` on another array, double_parameters_array.cpp:34-43. -/
def hasSameMeta (a b : ArrParam R) : Res Bool :=
  if a.values.length = b.values.length then a.sample.hasSameMeta b.sample else .ok false

end ArrParam

/-- A discrete parameters object (value semantics; for aliasing see `Verif.Model.Heap`). -/
inductive Param (R : Type) where
  | int (p : IntParam)
  | dbl (p : DblParam R)
  | arr (p : ArrParam R)
  /-- `CompositeDiscreteParameters`: base class state, `InitializationChecker` flag, members
  (composite_discrete_parameters.h:40-41). -/
  | comp (cs : ConstSize) (initialized : Bool) (members : List (Param R))

namespace Param

/-- `GetChromosomeSize`, const_chromosome_size_paremeters.cpp:16-20 (one implementation for all classes). -/
def chromosomeSize : Param R → Res Nat
  | .int p => p.cs.get
  | .dbl p => p.cs.get
  | .arr p => p.cs.get
  | .comp cs _ _ => cs.get

mutual
/-- `CheckConstraints`; composite: composite_discrete_parameters.cpp:24-36 with
initialization_checker.cpp:15-21. -/
def checkConstraints : Param R → Res Bool
  | .int p => .ok p.checkConstraints
  | .dbl p => p.checkConstraints
  | .arr p => p.checkConstraints
  | .comp _ init ms => if init then checkAll ms else .throw "logic_error"
/-- The member loop, composite_discrete_parameters.cpp:28-35. -/
def checkAll : List (Param R) → Res Bool
  | [] => .ok true
  | m :: ms => do
    let b ← checkConstraints m
    if b then checkAll ms else return false
end

mutual
/-- `SetChromosome`; composite: composite_discrete_parameters.cpp:38-58. -/
def setChromosome : Param R → List Bool → Res (List Bool)
  | .int p, chr => p.setChromosome chr
  | .dbl p, chr => p.setChromosome chr
  | .arr p, chr => p.setChromosome chr
  | .comp cs init ms, chr =>
    if init then do
      cs.check chr.length
      encAll ms chr
    else .throw "logic_error"
/-- The member loop, composite_discrete_parameters.cpp:48-57. -/
def encAll : List (Param R) → List Bool → Res (List Bool)
  | [], chr => .ok chr
  | m :: ms, chr => do
    let s ← m.chromosomeSize
    let (cur, rest) ← slice chr s
    let out ← setChromosome m cur
    let outs ← encAll ms rest
    return out ++ outs
end

mutual
/-- `SetFromChromosome`; composite: composite_discrete_parameters.cpp:60-80. -/
def setFromChromosome : Param R → List Bool → Param R × Res Unit
  | .int p, chr => (.int (p.setFromChromosome chr).1, (p.setFromChromosome chr).2)
  | .dbl p, chr => (.dbl (p.setFromChromosome chr).1, (p.setFromChromosome chr).2)
  | .arr p, chr => (.arr (p.setFromChromosome chr).1, (p.setFromChromosome chr).2)
  | .comp cs init ms, chr =>
    if init then
      match cs.check chr.length with
      | .ok () => (.comp cs init (decAll ms chr).1, (decAll ms chr).2)
      | .throw w => (.comp cs init ms, .throw w)
      | .ub => (.comp cs init ms, .ub)
    else (.comp cs init ms, .throw "logic_error")
/-- The member loop, composite_discrete_parameters.cpp:70-79. -/
def decAll : List (Param R) → List Bool → List (Param R) × Res Unit
  | [], _ => ([], .ok ())
  | m :: ms, chr =>
    match m.chromosomeSize with
    | .ok s =>
      match slice chr s with
      | .ok (cur, rest) =>
        match setFromChromosome m cur with
        | (m', .ok ()) => (m' :: (decAll ms rest).1, (decAll ms rest).2)
        | (m', .throw w) => (m' :: ms, .throw w)
        | (m', .ub) => (m' :: ms, .ub)
      | .throw w => (m :: ms, .throw w)
      | .ub => (m :: ms, .ub)
    | .throw w => (m :: ms, .throw w)
    | .ub => (m :: ms, .ub)
end

/-- `CountTotalChromosomeSize`, composite_discrete_parameters.cpp:129-137. -/
def totalSize : List (Param R) → Res Nat
  | [] => .ok 0
  | m :: ms => do
    let s ← m.chromosomeSize
    let t ← totalSize ms
    return s + t

/-- The tail of `Initialize` after the members were cloned, composite_discrete_parameters.cpp:91-93: the members have
already been replaced when `SetConstChromosomeSize` or `SetInitialized` throws. -/
def initWith (cs : ConstSize) (init : Bool) (clones : List (Param R)) : Param R × Res Unit :=
  match totalSize clones with
  | .ok t =>
    match cs.set t with
    | .ok cs' => if init then (.comp cs' init clones, .throw "logic_error") else (.comp cs' true clones, .ok ())
    | .throw w => (.comp cs init clones, .throw w)
    | .ub => (.comp cs init clones, .ub)
  | .throw w => (.comp cs init clones, .throw w)
  | .ub => (.comp cs init clones, .ub)

mutual
/-- `Clone`; composite: composite_discrete_parameters.cpp:10-17, i.e. `Initialize` of a new composite with the members. -/
def clone : Param R → Res (Param R)
  | .int p => do return .int (← p.clone)
  | .dbl p => do return .dbl (← p.clone)
  | .arr p => do return .arr (← p.clone)
  | .comp _ init ms =>
    if init then do
      let ms' ← cloneAll ms
      match initWith ConstSize.new false ms' with
      | (p, .ok ()) => return p
      | (_, .throw w) => .throw w
      | (_, .ub) => .ub
    else .throw "logic_error"
/-- Clone loop of `Initialize`, composite_discrete_parameters.cpp:84-89. -/
def cloneAll : List (Param R) → Res (List (Param R))
  | [] => .ok []
  | m :: ms => do
    let m' ← clone m
    let ms' ← cloneAll ms
    return m' :: ms'
end

/-- A default-constructed composite. -/
def emptyComposite : Param R := .comp ConstSize.new false []

/-- `Initialize(parameters)`, composite_discrete_parameters.cpp:82-94.  If cloning a member fails the vector already
has been resized (to null pointers); that state is in `Model/CompObj.lean`, here the object is returned as it was. -/
def initMembers (p : Param R) (params : List (Param R)) : Param R × Res Unit :=
  match p with
  | .comp cs init ms =>
    match cloneAll params with
    | .ok clones => initWith cs init clones
    | .throw w => (.comp cs init ms, .throw w)
    | .ub => (.comp cs init ms, .ub)
  | p => (p, .ub)  -- not a composite: no such member function

/-- `Initialize(sample, n)`, composite_discrete_parameters.cpp:96-108. -/
def initializeSample (p : Param R) (sample : Param R) (n : Nat) : Param R × Res Unit :=
  p.initMembers (List.replicate n sample)

/-- `GetNumberOfParameters`, composite_discrete_parameters.cpp:110-115. -/
def numberOfParameters : Param R → Res Nat
  | .comp _ init ms => if init then .ok ms.length else .throw "logic_error"
  | _ => .ub

/-- `GetParameter`, composite_discrete_parameters.cpp:117-127 on 64-bit `size_t`: `index + 1` wraps for the largest index. -/
def getParameter (p : Param R) (index : Nat) : Res (Param R) :=
  match p with
  | .comp _ init ms =>
    if init then
      if (index + 1) % 2 ^ 64 > ms.length then .throw "out_of_range"
      else match ms[index]? with
        | some m => .ok m
        | none => .ub
    else .throw "logic_error"
  | _ => .ub

/-- `HasSameMetaParameters`: classes must agree (dynamic_cast, int_parameter.cpp:49-53, double_parameter.cpp:67-71,
double_parameters_array.cpp:36-40); composites always throw (composite_discrete_parameters.cpp:19-22).
`dynamic_cast` between the three leaf classes fails, so mixed kinds throw. -/
def hasSameMeta : Param R → Param R → Res Bool
  | .int p, .int q => .ok (p.hasSameMeta q)
  | .dbl p, .dbl q => p.hasSameMeta q
  | .arr p, .arr q => p.hasSameMeta q
  | _, _ => .throw "runtime_error"

end Param
end K52
