import Verif.Model.Random
import Verif.Model.Mutator
import Verif.Model.Params

/-!
# Model of `Individual`

Source: `src/optimization/genetic_algorithm/individual.cpp`.

The parameters are any class implementing `IDiscreteParameters`; the loops that retry until constraints hold take a `fuel`
argument (they need not terminate in the code) and `outOfFuel` marks a run longer than the fuel.  What an object holds after a
call on it threw is in `Model/IndividualObj.lean` (the genetic algorithm gives up on any exception).
`times_chosen_for_crossover_` only feeds the statistics callback and is left out.
-/

namespace K52

/-- The interface `IDiscreteParameters` (i_discrete_parameters.h, i_parameters.h), as seen by the genetic algorithm. -/
class DiscreteParams (P : Type) where
  clone : P → Res P
  size : P → Res Nat
  check : P → Res Bool
  setChromosome : P → List Bool → Res (List Bool)
  setFrom : P → List Bool → P × Res Unit
  /-- `typeid` equality and `HasSameMetaParameters` -/
  sameMeta : P → P → Res Bool

/-- The library's own parameter classes implement the interface. -/
instance {R : Type} [Field R] [LinearOrder R] [IsStrictOrderedRing R] [FloorRing R] : DiscreteParams (Param R) where
  clone := Param.clone
  size := Param.chromosomeSize
  check := Param.checkConstraints
  setChromosome := Param.setChromosome
  setFrom := Param.setFromChromosome
  sameMeta := Param.hasSameMeta

/-- The random numbers an algorithm consumes: `GetRandomBool` draws from an arbitrary stream of booleans, everything else from
`rand()`.  (Treating the booleans as a separate stream is more general than the code.) -/
structure Rng where
  lib : Random.Lib
  bools : Nat → Bool

/-- `n` random booleans. -/
def Rng.takeBools (r : Rng) (n : Nat) : List Bool × Rng :=
  ((List.range n).map r.bools, { r with bools := fun i => r.bools (n + i) })

/-- Not a C++ exception: the model's mark for "has not finished within the fuel". -/
def outOfFuel {α : Type} : Res α := .throw "(out of fuel)"

/-- Fields of `Individual`, individual.h:112-117. -/
structure Indiv (P R : Type) where
  init : Bool
  params : Option P
  chrom : List Bool
  hasFitness : Bool
  fitness : R

namespace Indiv
variable {P R : Type} [DiscreteParams P] 
  [Add R] [Sub R] [Mul R] [Div R] [Zero R] [One R] [NatCast R] [LT R] [LE R] [DecidableLT R] [DecidableLE R]

/-- Default constructor, individual.cpp:22-28. -/
def new : Indiv P R := ⟨false, none, [], false, 0⟩

/-- `Initialize`, individual.cpp:62-72 with initialization_checker.cpp (a second initialisation throws). -/
def initWith (i : Indiv P R) (p : P) : Res (Indiv P R) := do
  let q ← DiscreteParams.clone p
  let s ← DiscreteParams.size q
  let chr ← DiscreteParams.setChromosome p (List.replicate s false)
  if i.init then .throw "logic_error" else return ⟨true, some q, chr, false, i.fitness⟩

/-- Copy constructor and assignment, individual.cpp:37-60.  (Assigning an individual without parameters leaves those of the target as they were (`Model/IndividualObj.lean`);
that case, which the library does not use, is left out.) -/
def copy (i : Indiv P R) : Res (Indiv P R) :=
  match i.params with
  | some p => do
    let q ← DiscreteParams.clone p
    return { i with params := some q }
  | none => .ok i

/-- `SetParametersAccordingToChromosome`, individual.cpp:227-232. -/
def setParams (i : Indiv P R) : Res (Indiv P R) :=
  if i.init then
    match i.params with
    | some p =>
      match DiscreteParams.setFrom p i.chrom with
      | (q, .ok ()) => .ok { i with params := some q }
      | (_, .throw w) => .throw w
      | (_, .ub) => .ub
    | none => .ub
  else .throw "logic_error"

/-- `parameters_->CheckConstraints()`. -/
def checkParams (i : Indiv P R) : Res Bool :=
  match i.params with
  | some p => DiscreteParams.check p
  | none => .ub

/-- `IsValid`, individual.cpp:202-207. -/
def isValid (i : Indiv P R) : Res Bool := if i.init then i.checkParams else .throw "logic_error"

/-- The loop of `SetRandomChromosome`, individual.cpp:95-112. -/
def randomLoop : Nat → Indiv P R → Rng → Nat → Res (Indiv P R × Nat × Rng)
  | 0, _, _, _ => outOfFuel
  | fuel + 1, i, rng, invalid => do
    let d := rng.takeBools i.chrom.length
    let j ← setParams { i with chrom := d.1, hasFitness := false }
    let b ← j.checkParams
    if b then return (j, invalid, d.2) else randomLoop fuel j d.2 (invalid + 1)

/-- `SetRandomChromosome`, individual.cpp:88-115. -/
def setRandom (fuel : Nat) (i : Indiv P R) (rng : Rng) : Res (Indiv P R × Nat × Rng) :=
  if i.init then randomLoop fuel i rng 0 else .throw "logic_error"

/-- One position of the crossover loop, individual.cpp:245-250. -/
def crossBit (a b : Bool) : Bool × Bool := if a ≠ b then (!a, a) else (a, b)

/-- The loop of `BoolCrossover`, individual.cpp:243-251, from `point` on. -/
def crossAt : Nat → List Bool → List Bool → List Bool × List Bool
  | 0, a :: as, b :: bs => ((crossBit a b).1 :: (crossAt 0 as bs).1, (crossBit a b).2 :: (crossAt 0 as bs).2)
  | n + 1, a :: as, b :: bs => (a :: (crossAt n as bs).1, b :: (crossAt n as bs).2)
  | _, as, bs => (as, bs)

/-- `BoolCrossover`, individual.cpp:234-252. -/
def boolCrossover (rng : Rng) (a b : List Bool) : Res (List Bool × List Bool × Rng) :=
  if a.length ≠ b.length then .throw "invalid_argument"
  else do
    let hi ← int32 ((a.length : Int) - 1)
    let d ← Random.discrete rng.lib 0 hi
    return ((crossAt d.1.toNat a b).1, (crossAt d.1.toNat a b).2, { rng with lib := d.2 })

/-- `Crossover`, individual.cpp:117-138: the flag, the two children, the random state. -/
def crossover (a b : Indiv P R) (rng : Rng) : Res (Bool × Indiv P R × Indiv P R × Rng) :=
  if a.init then do
    let c ← boolCrossover rng a.chrom b.chrom
    let a' ← setParams { a with chrom := c.1, hasFitness := false }
    let b' ← setParams { b with chrom := c.2.1, hasFitness := false }
    let ca ← a'.checkParams
    if !ca then return (false, a', b', c.2.2)
    else do
      let cb ← b'.checkParams
      return (cb, a', b', c.2.2)
  else .throw "logic_error"

/-- A mutation operator: `IMutator` (i_mutator.h:20-31). -/
structure MutatorI (Mu : Type) where
  apply : Mu → Mutator.Context → Mu
  mutate : Mu → Random.Lib → List Bool → Res (List Bool × Mu × Random.Lib)

/-- The loop of `Mutate`, individual.cpp:147-160: an invalid result is mutated further, not undone. -/
def mutateLoop {Mu : Type} (m : MutatorI Mu) : Nat → Indiv P R → Mu → Rng → Nat → Res (Indiv P R × Nat × Mu × Rng)
  | 0, _, _, _, _ => outOfFuel
  | fuel + 1, i, mu, rng, invalid => do
    let d ← m.mutate mu rng.lib i.chrom
    let j ← setParams { i with chrom := d.1, hasFitness := false }
    let b ← j.checkParams
    if b then return (j, invalid, d.2.1, { rng with lib := d.2.2 })
    else mutateLoop m fuel j d.2.1 { rng with lib := d.2.2 } (invalid + 1)

/-- `Mutate`, individual.cpp:140-163. -/
def mutate {Mu : Type} (m : MutatorI Mu) (fuel : Nat) (i : Indiv P R) (mu : Mu) (rng : Rng) :
    Res (Indiv P R × Nat × Mu × Rng) :=
  if i.init then mutateLoop m fuel i mu rng 0 else .throw "logic_error"

/-- `get_fitness`, individual.cpp:185-189, 219-225. -/
def getFitness (i : Indiv P R) : Res R := if i.hasFitness then .ok i.fitness else .throw "logic_error"

/-- `set_fitness`, individual.cpp:191-200. -/
def setFitness (i : Indiv P R) (x : R) : Res (Indiv P R) :=
  if x < 0 then .throw "logic_error" else .ok { i with fitness := x, hasFitness := true }

end Indiv
end K52
