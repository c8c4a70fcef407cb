import Verif.Model.Params

/-!
# Parameter objects on a heap: what `Clone` shares and what it copies

Same classes as `Verif.Model.Params`, with every `shared_ptr` an address.  A heap is the list of the objects allocated so
far (an address is an index; `shared_ptr` keeps referenced objects alive, and an address is never reused here).
-/

namespace K52.Heap

variable {R : Type} [Field R] [LinearOrder R] [IsStrictOrderedRing R] [FloorRing R]

/-- One heap object: `IntParameter` (int_parameter.h:59-61); `DoubleParameter` with `base_int_parameter_`
(double_parameter.h:45-48); `DoubleParametersArray` with `sample_parameter_` (double_parameters_array.h:43-44);
`CompositeDiscreteParameters` with `parameters_set_` (composite_discrete_parameters.h:40-41). -/
inductive Cell (R : Type) where
  | int (p : IntParam)
  | dbl (cs : ConstSize) (base : Option Nat) (min max prec : R)
  | arr (cs : ConstSize) (sample : Nat) (values : List R)
  | comp (cs : ConstSize) (initialized : Bool) (members : List Nat)

/-- The addresses an object holds. -/
def Cell.ptrs : Cell R → List Nat
  | .int _ => []
  | .dbl _ base _ _ _ => base.toList
  | .arr _ sample _ => [sample]
  | .comp _ _ ms => ms

/-- `GetChromosomeSize` of an object, const_chromosome_size_paremeters.cpp:16-20. -/
def Cell.size : Cell R → Res Nat
  | .int p => p.cs.get
  | .dbl cs _ _ _ _ => cs.get
  | .arr cs _ _ => cs.get
  | .comp cs _ _ => cs.get

/-- `GetChromosomeSize` through a pointer. -/
def sizeAt (h : List (Cell R)) (a : Nat) : Res Nat :=
  match h[a]? with
  | some c => c.size
  | none => .ub

/-- `CountTotalChromosomeSize`, composite_discrete_parameters.cpp:129-137. -/
def totalAt (h : List (Cell R)) : List Nat → Res Nat
  | [] => .ok 0
  | a :: as => do
    let s ← sizeAt h a
    let t ← totalAt h as
    return s + t

mutual
/-- `Clone` through a pointer: int_parameter.cpp:41-45, double_parameter.cpp:44-63, double_parameters_array.cpp:20-32,
composite_discrete_parameters.cpp:10-17 with 82-94.  `fuel` bounds the nesting depth (a cyclic structure never finishes
in the code).  The code allocates the outer object before the inner ones; the order of addresses is not observable. -/
def clone : Nat → List (Cell R) → Nat → Res (List (Cell R) × Nat)
  | 0, _, _ => .ub
  | f + 1, h, a =>
    match h[a]? with
    | none => .ub
    | some (.int p) => do
      let q ← p.clone
      return (h ++ [.int q], h.length)
    | some (.dbl cs base mn mx pr) =>
      match base with
      | none => .ok (h ++ [.dbl cs none mn mx pr], h.length)
      | some b => do
        let r ← clone f h b
        return (r.1 ++ [.dbl cs (some r.2) mn mx pr], r.1.length)
    | some (.arr _ sa vs) => do
      let r ← clone f h sa
      let s ← sizeAt h sa
      let cs' ← ConstSize.new.set (s * vs.length)
      return (r.1 ++ [.arr cs' r.2 vs], r.1.length)
    | some (.comp _ init as) =>
      if init then do
        let r ← cloneAll f h as
        let t ← totalAt r.1 r.2
        let cs' ← ConstSize.new.set t
        return (r.1 ++ [.comp cs' true r.2], r.1.length)
      else .throw "logic_error"
termination_by f _ _ => (f, 0)
/-- The loop of `Initialize`, composite_discrete_parameters.cpp:84-89. -/
def cloneAll : Nat → List (Cell R) → List Nat → Res (List (Cell R) × List Nat)
  | _, h, [] => .ok (h, [])
  | f, h, a :: as => do
    let r ← clone f h a
    let rs ← cloneAll f r.1 as
    return (rs.1, r.2 :: rs.2)
termination_by f _ as => (f, as.length + 1)
end

end K52.Heap
