import Verif.Model.Individual

/-!
# Model of `Individual` objects under arbitrary sequences of calls

Source: `src/optimization/genetic_algorithm/individual.cpp`, `initialization_checker.cpp`.

Unlike `Model/Individual.lean` every call gives the object's state also when it throws, so objects can be used after an exception.
Parameters and mutators are arbitrary user code, which may throw at any point (leaving anything in what it was writing to); random
numbers are arguments of the call.  The loops of `SetRandomChromosome` and `Mutate` carry fuel; a call that is out of fuel shows a state inside the
loop.  `invalid_chromosomes` does not overflow.
-/

namespace K52.IndividualObj

/-- `IDiscreteParameters` as used by `Individual`: what a call leaves behind and how it ends. -/
structure ParamsI (P : Type) where
  clone : P → Res P
  size : P → Res Nat
  check : P → Res Bool
  setChromosome : P → List Bool → List Bool × Res Unit
  setFrom : P → List Bool → P × Res Unit

/-- The fields of `Individual`, individual.h:112-117, and `InitializationChecker::was_initialized_`. -/
structure Obj (P R : Type) where
  init : Bool
  params : Option P
  times : Int
  chrom : List Bool
  hasFitness : Bool
  fitness : R

variable {P R : Type} [Zero R] [LT R] [DecidableLT R]

/-- Default constructor, individual.cpp:22-28. -/
def fresh : Obj P R := ⟨false, none, 0, [], false, 0⟩

/-- `Initialize`, individual.cpp:62-72, with `SetInitialized`, initialization_checker.cpp:23-33. -/
def initWith (I : ParamsI P) (p : P) (o : Obj P R) : Obj P R × Res Unit :=
  match I.clone p with
  | .throw w => (o, .throw w)
  | .ub => (o, .ub)
  | .ok q =>
    match I.size q with
    | .throw w => ({ o with params := some q }, .throw w)
    | .ub => ({ o with params := some q }, .ub)
    | .ok s =>
      match I.setChromosome p (List.replicate s false) with
      | (c, .throw w) => ({ o with params := some q, chrom := c }, .throw w)
      | (c, .ub) => ({ o with params := some q, chrom := c }, .ub)
      | (c, .ok ()) =>
        if o.init then ({ o with params := some q, chrom := c, hasFitness := false, times := 0 }, .throw "logic_error")
        else ({ o with params := some q, chrom := c, hasFitness := false, times := 0, init := true }, .ok ())

/-- `operator=` for different objects, individual.cpp:43-60: `o = a`. -/
def assign (I : ParamsI P) (a o : Obj P R) : Obj P R × Res Unit :=
  match a.params with
  | none => ({ a with params := o.params }, .ok ())
  | some p =>
    match I.clone p with
    | .ok q => ({ a with params := some q }, .ok ())
    | .throw w => (o, .throw w)
    | .ub => (o, .ub)

/-- `SetParametersAccordingToChromosome`, individual.cpp:227-232. -/
def setParams (I : ParamsI P) (o : Obj P R) : Obj P R × Res Unit :=
  if o.init then
    match o.params with
    | none => (o, .ub)
    | some p => ({ o with params := some (I.setFrom p o.chrom).1 }, (I.setFrom p o.chrom).2)
  else (o, .throw "logic_error")

/-- `parameters_->CheckConstraints()`. -/
def check (I : ParamsI P) (o : Obj P R) : Res Bool :=
  match o.params with
  | none => .ub
  | some p => I.check p

/-- The loop of `SetRandomChromosome`, individual.cpp:95-112; `draw k i` is the random boolean for position `i` in round `k`. -/
def randomLoop (I : ParamsI P) (draw : Nat → Nat → Bool) : Nat → Nat → Obj P R → Obj P R × Res Nat
  | 0, _, o => (o, outOfFuel)
  | fuel + 1, k, o =>
    match setParams I { o with chrom := (List.range o.chrom.length).map (draw k) } with
    | (o', .throw w) => (o', .throw w)
    | (o', .ub) => (o', .ub)
    | (o', .ok ()) =>
      match check I o' with
      | .throw w => (o', .throw w)
      | .ub => (o', .ub)
      | .ok true => (o', .ok k)
      | .ok false => randomLoop I draw fuel (k + 1) o'

/-- `SetRandomChromosome`, individual.cpp:88-115. -/
def setRandom (I : ParamsI P) (draw : Nat → Nat → Bool) (fuel : Nat) (o : Obj P R) : Obj P R × Res Nat :=
  if o.init then randomLoop I draw fuel 0 { o with hasFitness := false } else (o, .throw "logic_error")

/-- The loop of `Mutate`, individual.cpp:147-160; `m k c` is what `MutateChromosome` does to the chromosome `c` in round `k`. -/
def mutateLoop (I : ParamsI P) (m : Nat → List Bool → List Bool × Res Unit) : Nat → Nat → Obj P R → Obj P R × Res Nat
  | 0, _, o => (o, outOfFuel)
  | fuel + 1, k, o =>
    match m k o.chrom with
    | (c, .throw w) => ({ o with chrom := c }, .throw w)
    | (c, .ub) => ({ o with chrom := c }, .ub)
    | (c, .ok ()) =>
      match setParams I { o with chrom := c } with
      | (o', .throw w) => (o', .throw w)
      | (o', .ub) => (o', .ub)
      | (o', .ok ()) =>
        match check I o' with
        | .throw w => (o', .throw w)
        | .ub => (o', .ub)
        | .ok true => (o', .ok k)
        | .ok false => mutateLoop I m fuel (k + 1) o'

/-- `Mutate`, individual.cpp:140-163. -/
def mutate (I : ParamsI P) (m : Nat → List Bool → List Bool × Res Unit) (fuel : Nat) (o : Obj P R) : Obj P R × Res Nat :=
  if o.init then mutateLoop I m fuel 0 { o with hasFitness := false } else (o, .throw "logic_error")

/-- `get_fitness`, individual.cpp:185-189, 219-225. -/
def getFitness (o : Obj P R) : Res R := if o.hasFitness then .ok o.fitness else .throw "logic_error"

/-- `set_fitness`, individual.cpp:191-200. -/
def setFitness (x : R) (o : Obj P R) : Obj P R × Res Unit :=
  if x < 0 then (o, .throw "logic_error") else ({ o with fitness := x, hasFitness := true }, .ok ())

/-- `GetChromosome`, individual.cpp:82-86. -/
def getChromosome (o : Obj P R) : Res (List Bool) := if o.init then .ok o.chrom else .throw "logic_error"

/-- `GetParametersAccordingToChromosome`, individual.cpp:74-80. -/
def getParameters (o : Obj P R) : Res (Option P) := if o.init then .ok o.params else .throw "logic_error"

/-- `IsValid`, individual.cpp:202-207. -/
def isValid (I : ParamsI P) (o : Obj P R) : Res Bool := if o.init then check I o else .throw "logic_error"

/-- The loop converting characters, individual.cpp:284-298. -/
def bits : List Char → Option (List Bool)
  | [] => some []
  | c :: cs =>
    if c = '1' then (bits cs).map (true :: ·)
    else if c = '0' then (bits cs).map (false :: ·)
    else none

/-- `operator>>`, individual.cpp:266-305, for a stream that gives the word `word` and the number `x`. -/
def read (I : ParamsI P) (word : List Char) (x : R) (o : Obj P R) : Obj P R × Res Unit :=
  match getChromosome o with
  | .throw w => (o, .throw w)
  | .ub => (o, .ub)
  | .ok c =>
    if word.length ≠ c.length then (o, .throw "logic_error")
    else
      match bits word with
      | none => (o, .throw "logic_error")
      | some b =>
        match setFitness x { o with chrom := b } with
        | (o', .ok ()) => setParams I o'
        | r => r

/-! ### Several objects -/

/-- The objects of a program. -/
abbrev Store (P R : Type) := List (Obj P R)

/-- What a call returns. -/
inductive Ans (P R : Type) where
  | unit
  | flag (b : Bool)
  | count (n : Nat)
  | value (x : R)
  | times (n : Int)
  | chrom (c : List Bool)
  | params (p : Option P)

/-- A call: constructors, assignment, and the public methods. -/
inductive Op (P R : Type) where
  | new
  | newWith (p : P)
  | copy (i : Nat)
  | assign (i j : Nat)
  | initialise (i : Nat) (p : P)
  | getParameters (i : Nat)
  | getChromosome (i : Nat)
  | setRandom (i : Nat) (draw : Nat → Nat → Bool) (fuel : Nat)
  | crossover (i j : Nat) (l : Random.Lib)
  | mutate (i : Nat) (m : Nat → List Bool → List Bool × Res Unit) (fuel : Nat)
  | hasFitness (i : Nat)
  | getFitness (i : Nat)
  | setFitness (i : Nat) (x : R)
  | increaseTimes (i : Nat)
  | resetTimes (i : Nat)
  | getTimes (i : Nat)
  | isValid (i : Nat)
  | read (i : Nat) (word : List Char) (x : R)

/-- A method called on object `i`. -/
def on {α : Type} (st : Store P R) (i : Nat) (f : Obj P R → Obj P R × Res α) (g : α → Ans P R) : Store P R × Res (Ans P R) :=
  match st[i]? with
  | none => (st, .ub)
  | some o => (st.set i (f o).1, (f o).2.bind fun a => .ok (g a))

/-- A constructor: no object if it throws. -/
def make (st : Store P R) (r : Obj P R × Res Unit) : Store P R × Res (Ans P R) :=
  match r.2 with
  | .ok () => (st ++ [r.1], .ok .unit)
  | .throw w => (st, .throw w)
  | .ub => (st, .ub)

/-- `Crossover`, individual.cpp:117-138, with `BoolCrossover`, individual.cpp:234-252; the two objects may be the same. -/
def crossover (I : ParamsI P) (st : Store P R) (i j : Nat) (l : Random.Lib) : Store P R × Res (Ans P R) :=
  match st[i]?, st[j]? with
  | some a, some b =>
    if a.init then
      let cleared := (st.set j { b with hasFitness := false }).set i { a with hasFitness := false }
      if a.chrom.length ≠ b.chrom.length then (cleared, .throw "invalid_argument")
      else
        match (do let hi ← int32 ((a.chrom.length : Int) - 1); Random.discrete l 0 hi : Res (Int × Random.Lib)) with
        | .throw w => (cleared, .throw w)
        | .ub => (cleared, .ub)
        | .ok d =>
          let c := Indiv.crossAt d.1.toNat a.chrom b.chrom
          let crossed := (st.set j { b with hasFitness := false, chrom := c.2 }).set i { a with hasFitness := false, chrom := c.1 }
          match on crossed i (setParams I) (fun _ => .unit) with
          | (st, .ok _) =>
            match on st j (setParams I) (fun _ => .unit) with
            | (st, .ok _) =>
              match on st i (fun o => (o, check I o)) .flag with
              | (st, .ok (.flag true)) => on st j (fun o => (o, check I o)) .flag
              | r => r
            | r => r
          | r => r
    else (st, .throw "logic_error")
  | _, _ => (st, .ub)

/-- One call. -/
def step (I : ParamsI P) (st : Store P R) : Op P R → Store P R × Res (Ans P R)
  | .new => make st (fresh, .ok ())
  | .newWith p => make st (initWith I p fresh)
  | .copy i =>
    match st[i]? with
    | none => (st, .ub)
    | some a => make st (assign I a fresh)
  | .assign i j =>
    match st[j]? with
    | none => (st, .ub)
    | some a => on st i (fun o => if i = j then (o, .ok ()) else assign I a o) fun _ => .unit
  | .initialise i p => on st i (initWith I p) fun _ => .unit
  | .getParameters i => on st i (fun o => (o, getParameters o)) .params
  | .getChromosome i => on st i (fun o => (o, getChromosome o)) .chrom
  | .setRandom i draw fuel => on st i (setRandom I draw fuel) .count
  | .crossover i j l => crossover I st i j l
  | .mutate i m fuel => on st i (mutate I m fuel) .count
  | .hasFitness i => on st i (fun o => (o, .ok o.hasFitness)) .flag
  | .getFitness i => on st i (fun o => (o, getFitness o)) .value
  | .setFitness i x => on st i (setFitness x) fun _ => .unit
  | .increaseTimes i => on st i (fun o => ({ o with times := o.times + 1 }, .ok ())) fun _ => .unit
  | .resetTimes i => on st i (fun o => ({ o with times := 0 }, .ok ())) fun _ => .unit
  | .getTimes i => on st i (fun o => (o, .ok o.times)) .times
  | .isValid i => on st i (fun o => (o, isValid I o)) .flag
  | .read i word x => on st i (read I word x) fun _ => .unit

end K52.IndividualObj
