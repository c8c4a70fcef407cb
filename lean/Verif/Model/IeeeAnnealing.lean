import Verif.Model.Search

/-!
# Model of `SimulatedAnnealing` in IEEE arithmetic

Source: `src/optimization/simulated_annealing.cpp`.  The model in `Verif/Model/Search.lean` computes in an exact ordered field and treats
the NaN of the last iteration as a special outcome; here `double` is any type with arithmetic and comparisons, so that values of the
objective function may be NaN or infinite and every operation may round.
-/

namespace K52.IeeeAnnealing
open Annealing (Config toInt)

variable {R : Type} [Add R] [Sub R] [Mul R] [Div R] [Zero R] [One R] [NatCast R] [LT R] [LE R] [DecidableLT R] [DecidableLE R]

/-- `GetRandomNeighbour`, simulated_annealing.cpp:90-98; indexing outside the vector is undefined. -/
def neighbour (cfg : Config R) (l : Random.Lib) (values : List R) : Res (List R × Random.Lib) := do
  let d ← Random.discrete l 0 (toInt ((values.length : Int) - 1))
  let x := Random.continuous d.2 cfg.min cfg.max
  if 0 ≤ d.1 ∧ d.1 < values.length then return (values.set d.1.toNat x.1, x.2) else .ub

/-- `CountTemperature`, simulated_annealing.cpp:67-71 (`i ≤ max_number_of_iterations_` at the only call). -/
def temperature (cfg : Config R) (i : Nat) : R := ((cfg.iterations - i : Nat) : R) / (cfg.iterations : R)

/-- `CountAcceptanceProbability`, simulated_annealing.cpp:73-88; `exp` is the library function. -/
def acceptance (exp : R → R) (current new temperature : R) : Res R :=
  if temperature < 0 then .throw "runtime_error"
  else if new < current then .ok 1
  else .ok (exp ((current - new) / temperature))

/-- The loop body, simulated_annealing.cpp:51-61. -/
def step (exp : R → R) (cfg : Config R) (i : Nat) (current : List R) (l : Random.Lib) : Prog R (List R × Random.Lib) := do
  let nb ← Prog.lift (neighbour cfg l current)
  let currentValue ← Prog.askMin current
  let neighbourValue ← Prog.askMin nb.1
  let p ← Prog.lift (acceptance exp currentValue neighbourValue (temperature cfg i))
  let e ← Prog.lift (Random.event nb.2 p)
  return (if e.1 then nb.1 else current, e.2)

/-- The loop, simulated_annealing.cpp:49-62: `n` iterations from iteration `i` on. -/
def loop (exp : R → R) (cfg : Config R) : Nat → Nat → List R → Random.Lib → Prog R (List R × Random.Lib)
  | 0, _, current, l => return (current, l)
  | n + 1, i, current, l => do
    let s ← step exp cfg i current l
    loop exp cfg n (i + 1) s.1 s.2

/-- `FindOptimalParameters`, simulated_annealing.cpp:45-65. -/
def find (exp : R → R) (cfg : Config R) (l : Random.Lib) (initial : List R) : Prog R (List R × Random.Lib) :=
  loop exp cfg cfg.iterations 1 initial l

end K52.IeeeAnnealing
