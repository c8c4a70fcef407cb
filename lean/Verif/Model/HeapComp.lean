import Verif.Model.Heap

/-!
# A composite on the heap: what `Initialize` copies and what `GetParameter` shares

Source: `src/optimization/params/composite_discrete_parameters.cpp`.
-/

namespace K52.Heap

variable {R : Type} [Field R] [LinearOrder R] [IsStrictOrderedRing R] [FloorRing R]

/-- `Initialize(parameters)`, composite_discrete_parameters.cpp:82-94: each pointer is cloned, also when two of them are the same.  Only the first call on an
object is modelled; what is left after an exception, and a second call, are in `Model/CompObj.lean`.  `fuel` is that of `clone`. -/
def initMembers (fuel : Nat) (h : List (Cell R)) (a : Nat) (as : List Nat) : Res (List (Cell R)) :=
  match h[a]? with
  | some (.comp cs false _) => do
    let r ← cloneAll fuel h as
    let t ← totalAt r.1 r.2
    let cs' ← cs.set t
    return r.1.set a (.comp cs' true r.2)
  | _ => .ub

/-- `Initialize(sample, n)`, composite_discrete_parameters.cpp:96-108: the sample is cloned `n` times. -/
def initializeSample (fuel : Nat) (h : List (Cell R)) (a sample n : Nat) : Res (List (Cell R)) :=
  initMembers fuel h a (List.replicate n sample)

/-- `GetParameter`, composite_discrete_parameters.cpp:117-127: the pointer itself, not a copy. -/
def getParameter (h : List (Cell R)) (a i : Nat) : Res Nat :=
  match h[a]? with
  | some (.comp _ init as) =>
    if init then
      match as[i]? with
      | some x => .ok x
      | none => .throw "out_of_range"
    else .throw "logic_error"
  | _ => .ub

end K52.Heap
