import Verif.Model.Params

/-!
# Model of one `CompositeDiscreteParameters` object under arbitrary sequences of calls

Source: `src/optimization/params/composite_discrete_parameters.cpp`, `initialization_checker.cpp`.

`Model/Params.lean` treats an initialised composite as a value.  Here every call gives the object's state also when it throws: `Initialize`
first makes the member vector a vector of null pointers and fills it member by member, so a call that throws leaves nulls behind.
The members are parameter objects of the library (`Param`); the pointers that `GetParameter` hands out alias them, which the call `edit` stands for.
The contents of the caller's range after a `SetChromosome` that throws are not modelled, nor is `Initialize` with pointers to the object itself, nor copying a composite.
-/

namespace K52.CompObj

variable {R : Type} [Add R] [Sub R] [Mul R] [Div R] [Zero R] [IntCast R] [LinearOrder R] [ToInt R]

/-- Fields, composite_discrete_parameters.h:40-41 and the base class: `none` is a null `shared_ptr` in `parameters_set_`. -/
structure Obj (R : Type) where
  cs : ConstSize
  init : Bool
  members : List (Option (Param R))

/-- Implicit default constructor, with those of the base class and the checker (initialization_checker.cpp:10-13). -/
def fresh : Obj R := ⟨ConstSize.new, false, []⟩

/-- The clone loops of `Initialize`, composite_discrete_parameters.cpp:84-89 and 98-103: the vector afterwards (null where the loop did not get). -/
def cloneLoop : List (Option (Param R)) → List (Option (Param R)) × Res Unit
  | [] => ([], .ok ())
  | none :: ps => (none :: ps.map (fun _ => none), .ub)
  | some p :: ps =>
    match p.clone with
    | .ok q => (some q :: (cloneLoop ps).1, (cloneLoop ps).2)
    | .throw w => (none :: ps.map (fun _ => none), .throw w)
    | .ub => (none :: ps.map (fun _ => none), .ub)

/-- `CountTotalChromosomeSize`, composite_discrete_parameters.cpp:129-137. -/
def countTotal : List (Option (Param R)) → Res Nat
  | [] => .ok 0
  | none :: _ => .ub
  | some m :: ms => do
    let s ← m.chromosomeSize
    let t ← countTotal ms
    return s + t

/-- `Initialize(parameters)`, composite_discrete_parameters.cpp:82-94: the members are replaced before anything is checked; then
`SetConstChromosomeSize`, const_chromosome_size_paremeters.cpp:22-33, and `SetInitialized`, initialization_checker.cpp:23-33. -/
def initVec (o : Obj R) (ps : List (Option (Param R))) : Obj R × Res Unit :=
  match cloneLoop ps with
  | (ms, .throw w) => ({ o with members := ms }, .throw w)
  | (ms, .ub) => ({ o with members := ms }, .ub)
  | (ms, .ok ()) =>
    match countTotal ms with
    | .throw w => ({ o with members := ms }, .throw w)
    | .ub => ({ o with members := ms }, .ub)
    | .ok t =>
      match o.cs.set t with
      | .throw w => ({ o with members := ms }, .throw w)
      | .ub => ({ o with members := ms }, .ub)
      | .ok cs =>
        if o.init then (⟨cs, o.init, ms⟩, .throw "logic_error") else (⟨cs, true, ms⟩, .ok ())

/-- `Initialize(sample_parameter, number_of_parameters)`, composite_discrete_parameters.cpp:96-108: the same with one pointer read every time. -/
def initSample (o : Obj R) (p : Option (Param R)) (n : Nat) : Obj R × Res Unit := initVec o (List.replicate n p)

/-- The loop of `CheckConstraints`, composite_discrete_parameters.cpp:28-35. -/
def checkLoop : List (Option (Param R)) → Res Bool
  | [] => .ok true
  | none :: _ => .ub
  | some m :: ms => do
    let b ← m.checkConstraints
    if b then checkLoop ms else return false

/-- The loop of `SetChromosome`, composite_discrete_parameters.cpp:46-57: what it makes of the range from `current_from` on. -/
def encLoop : List (Option (Param R)) → List Bool → Res (List Bool)
  | [], chr => .ok chr
  | none :: _, _ => .ub
  | some m :: ms, chr => do
    let s ← m.chromosomeSize
    let (cur, rest) ← slice chr s
    let out ← m.setChromosome cur
    let outs ← encLoop ms rest
    return out ++ outs

/-- The loop of `SetFromChromosome`, composite_discrete_parameters.cpp:68-79. -/
def decLoop : List (Option (Param R)) → List Bool → List (Option (Param R)) × Res Unit
  | [], _ => ([], .ok ())
  | none :: ms, _ => (none :: ms, .ub)
  | some m :: ms, chr =>
    match m.chromosomeSize with
    | .throw w => (some m :: ms, .throw w)
    | .ub => (some m :: ms, .ub)
    | .ok s =>
      match slice chr s with
      | .throw w => (some m :: ms, .throw w)
      | .ub => (some m :: ms, .ub)
      | .ok (cur, rest) =>
        match m.setFromChromosome cur with
        | (m', .ok ()) => (some m' :: (decLoop ms rest).1, (decLoop ms rest).2)
        | (m', .throw w) => (some m' :: ms, .throw w)
        | (m', .ub) => (some m' :: ms, .ub)

/-- `CheckConstraints`, composite_discrete_parameters.cpp:24-36. -/
def checkConstraints (o : Obj R) : Res Bool := if o.init then checkLoop o.members else .throw "logic_error"

/-- `SetChromosome`, composite_discrete_parameters.cpp:38-58: the new contents of the range. -/
def setChromosome (o : Obj R) (chr : List Bool) : Res (List Bool) :=
  if o.init then do
    o.cs.check chr.length
    encLoop o.members chr
  else .throw "logic_error"

/-- `SetFromChromosome`, composite_discrete_parameters.cpp:60-80. -/
def setFromChromosome (o : Obj R) (chr : List Bool) : Obj R × Res Unit :=
  if o.init then
    match o.cs.check chr.length with
    | .ok () => ({ o with members := (decLoop o.members chr).1 }, (decLoop o.members chr).2)
    | .throw w => (o, .throw w)
    | .ub => (o, .ub)
  else (o, .throw "logic_error")

/-- `GetNumberOfParameters`, composite_discrete_parameters.cpp:110-115. -/
def numberOfParameters (o : Obj R) : Res Nat := if o.init then .ok o.members.length else .throw "logic_error"

/-- `GetParameter`, composite_discrete_parameters.cpp:117-127, on 64-bit `size_t`: what the returned pointer points to, `none` for null. -/
def getParameter (o : Obj R) (i : Nat) : Res (Option (Param R)) :=
  if o.init then
    if (i + 1) % 2 ^ 64 > o.members.length then .throw "out_of_range"
    else match o.members[i]? with
      | some m => .ok m
      | none => .ub
  else .throw "logic_error"

/-- `Clone`, composite_discrete_parameters.cpp:10-17: `Initialize` of a new object with this one's members.  (When that throws the new
object is leaked.) -/
def clone (o : Obj R) : Res (Obj R) :=
  if o.init then
    match initVec fresh o.members with
    | (c, .ok ()) => .ok c
    | (_, .throw w) => .throw w
    | (_, .ub) => .ub
  else .throw "logic_error"

/-- `GetParameter(i)`, and then member functions called through the pointer bring the member into the state `q`. -/
def edit (o : Obj R) (i : Nat) (q : Param R) : Obj R × Res Unit :=
  match getParameter o i with
  | .ok (some _) => ({ o with members := o.members.set i (some q) }, .ok ())
  | .ok none => (o, .ub)
  | .throw w => (o, .throw w)
  | .ub => (o, .ub)

/-- The public calls, composite_discrete_parameters.h:13-38. -/
inductive Op (R : Type) where
  | init (ps : List (Option (Param R)))
  | initSample (p : Option (Param R)) (n : Nat)
  | check
  | setChr (chr : List Bool)
  | setFrom (chr : List Bool)
  | size
  | number
  | get (i : Nat)
  | edit (i : Nat) (q : Param R)
  | clone
  | sameMeta

/-- What a call returns. -/
inductive Out (R : Type) where
  | unit
  | bool (b : Bool)
  | bits (c : List Bool)
  | nat (n : Nat)
  | ptr (p : Option (Param R))
  | obj (o : Obj R)

/-- The result of a call with another name for the value (no code of its own). -/
def wrap {α β : Type} (f : α → β) : Res α → Res β
  | .ok a => .ok (f a)
  | .throw w => .throw w
  | .ub => .ub

/-- One call; `GetChromosomeSize`: const_chromosome_size_paremeters.cpp:16-20; `HasSameMetaParameters`: composite_discrete_parameters.cpp:19-22. -/
def step (o : Obj R) : Op R → Obj R × Res (Out R)
  | .init ps => ((initVec o ps).1, wrap (fun _ => .unit) (initVec o ps).2)
  | .initSample p n => ((initSample o p n).1, wrap (fun _ => .unit) (initSample o p n).2)
  | .check => (o, wrap .bool (checkConstraints o))
  | .setChr c => (o, wrap .bits (setChromosome o c))
  | .setFrom c => ((setFromChromosome o c).1, wrap (fun _ => .unit) (setFromChromosome o c).2)
  | .size => (o, wrap .nat o.cs.get)
  | .number => (o, wrap .nat (numberOfParameters o))
  | .get i => (o, wrap .ptr (getParameter o i))
  | .edit i q => ((edit o i q).1, wrap (fun _ => .unit) (edit o i q).2)
  | .clone => (o, wrap .obj (clone o))
  | .sameMeta => (o, .throw "runtime_error")

/-- A sequence of calls, each of which may throw, on one object. -/
def run : Obj R → List (Op R) → Obj R × List (Res (Out R))
  | o, [] => (o, [])
  | o, op :: ops => ((run (step o op).1 ops).1, (step o op).2 :: (run (step o op).1 ops).2)

end K52.CompObj
