import Verif.Model.Continuous
import Verif.Model.Processors
import Verif.Model.Random

/-!
# Model of `RandomSearch` and `SimulatedAnnealing`

Sources: `src/optimization/random_search.cpp`, `src/optimization/simulated_annealing.cpp`.
-/

namespace K52

namespace RandomSearch
variable {R : Type} [Field R] [LinearOrder R] [IsStrictOrderedRing R]

/-- Constructor arguments, random_search.cpp:19-39; `optimizer = none` selects the simple processor. -/
structure Config (R : Type) where
  points : Nat
  lower : R
  upper : R
  optimizer : Option (CParams R → Bool → CParams R)

/-- The filling loop, random_search.cpp:46-51: clones of the parameters with random values. -/
def candidates (p : CParams R) (vectorSize : Nat) (lower upper : R) : Nat → Random.Lib → Res (List (CParams R) × Random.Lib)
  | 0, l => .ok ([], l)
  | n + 1, l =>
    let xs := Random.vector l vectorSize lower upper
    match p.clone.setValues xs.1 with
    | (q, .ok _) => do
      let rest ← candidates p vectorSize lower upper n xs.2
      return (q :: rest.1, rest.2)
    | (_, .throw w) => .throw w
    | (_, .ub) => .ub

/-- `FindOptimalParameters`, random_search.cpp:41-66, called by `ContinuousOptimizer::Optimize` (continuous_optimizer.cpp:28-40) on
parameters `p`; the dynamic cast at 56 succeeds, for the processors return clones of the continuous parameters given to them. -/
def find (cfg : Config R) (l : Random.Lib) (maximize : Bool) (f : List R → R) (p : CParams R) (initial : List R) :
    Res (List R × Random.Lib) := do
  let cs ← candidates p initial.length cfg.lower cfg.upper cfg.points l
  let best ← match cfg.optimizer with
    | none => Processor.simple (fun q => f q.getValues) cs.1 maximize
    | some o => Processor.optimization o (fun q => f q.getValues) cs.1 maximize
  return (best.getValues, cs.2)

/-- `RandomSearch` through `ContinuousOptimizer::Optimize`, continuous_optimizer.cpp:28-40. -/
def optimize (cfg : Config R) (l : Random.Lib) (maximize : Bool) (f : List R → R) (p : CParams R) : CParams R × Res Random.Lib :=
  match find cfg l maximize f p p.getValues with
  | .ok (v, l') =>
    match p.setValues v with
    | (q, .ok _) => (q, .ok l')
    | (q, .throw w) => (q, .throw w)
    | (q, .ub) => (q, .ub)
  | .throw w => (p, .throw w)
  | .ub => (p, .ub)

end RandomSearch

namespace Annealing
variable {R : Type} [Field R] [LinearOrder R] [IsStrictOrderedRing R]

/-- Constructor arguments, simulated_annealing.cpp:14-21. -/
structure Config (R : Type) where
  iterations : Nat
  min : R
  max : R

/-- `size_t` converted to `int` (two's complement wrap-around). -/
def toInt (n : Int) : Int := Int.bmod n 4294967296

/-- `GetRandomNeighbour`, simulated_annealing.cpp:90-98; indexing outside the vector is undefined. -/
def neighbour (cfg : Config R) (l : Random.Lib) (values : List R) : Res (List R × Random.Lib) := do
  let d ← Random.discrete l 0 (toInt ((values.length : Int) - 1))
  let x := Random.continuous d.2 cfg.min cfg.max
  if 0 ≤ d.1 ∧ d.1 < values.length then return (values.set d.1.toNat x.1, x.2) else .ub

/-- `CountTemperature`, simulated_annealing.cpp:67-71 (`i ≤ max_number_of_iterations_` at the only call). -/
def temperature (cfg : Config R) (i : Nat) : R := ((cfg.iterations - i : Nat) : R) / (cfg.iterations : R)

/-- A probability computed in floating point may be NaN. -/
inductive Prob (R : Type) where
  | nan
  | val (p : R)

/-- `CountAcceptanceProbability`, simulated_annealing.cpp:73-88; `exp` is the library function.  With temperature zero the argument of
`exp` is `-∞` (giving 0), or NaN when the values are equal. -/
def acceptance (exp : R → R) (current new temperature : R) : Res (Prob R) :=
  if temperature < 0 then .throw "runtime_error"
  else if new < current then .ok (.val 1)
  else if temperature = 0 then .ok (if current = new then .nan else .val 0)
  else .ok (.val (exp ((current - new) / temperature)))

/-- `CheckEventOutcome` (random.cpp:60-65) of a probability that may be NaN: NaN passes the validation, and nothing is `<=` NaN. -/
def event (l : Random.Lib) : Prob R → Res (Bool × Random.Lib)
  | .nan => .ok (false, (Random.rand l).2)
  | .val p => Random.event l p

/-- The loop body, simulated_annealing.cpp:51-61. -/
def step (exp : R → R) (cfg : Config R) (i : Nat) (current : List R) (l : Random.Lib) : Prog R (List R × Random.Lib) := do
  let nb ← Prog.lift (neighbour cfg l current)
  let currentValue ← Prog.askMin current
  let neighbourValue ← Prog.askMin nb.1
  let p ← Prog.lift (acceptance exp currentValue neighbourValue (temperature cfg i))
  let e ← Prog.lift (event nb.2 p)
  return (if e.1 then nb.1 else current, e.2)

/-- The loop, simulated_annealing.cpp:49-62: `n` iterations from iteration `i` on. -/
def loop (exp : R → R) (cfg : Config R) : Nat → Nat → List R → Random.Lib → Prog R (List R × Random.Lib)
  | 0, _, current, l => return (current, l)
  | n + 1, i, current, l => do
    let s ← step exp cfg i current l
    loop exp cfg n (i + 1) s.1 s.2

/-- `FindOptimalParameters`, simulated_annealing.cpp:45-65. -/
def find (exp : R → R) (cfg : Config R) (l : Random.Lib) (initial : List R) : Prog R (List R × Random.Lib) :=
  loop exp cfg cfg.iterations 1 initial l

end Annealing
end K52
