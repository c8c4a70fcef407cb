import Verif.Model.GA
import Verif.Model.Params
import Verif.Model.Mutator

/-!
# Model of the example `examples/genetic_algorithm/genetic_algorithm.cpp`

`double` is `ℚ` (exact arithmetic).  Timing and console formatting are not modelled; `printStatistics` (53-87) is never called.
-/

namespace K52.ExampleGA
open GA Indiv

/-- `GlobalPrecision`, genetic_algorithm.cpp:20. -/
def precision : ℚ := 1 / 10000

/-- `GlobalMinValue`, genetic_algorithm.cpp:22. -/
def minValue : ℚ := precision

/-- `GlobalMaxValue`, genetic_algorithm.cpp:23. -/
def maxValue : ℚ := 100

/-- `GlobalNumberOfParameters`, genetic_algorithm.cpp:21. -/
def number : Nat := 2

/-- `std::numeric_limits<double>::max()`. -/
def maxDouble : ℚ := (2 ^ 53 - 1) * 2 ^ 971

/-- `ExactDiscreteObjectiveFunction`, genetic_algorithm.cpp:26-51, on the values of an array. -/
def summ (values : List ℚ) : ℚ := values.foldl (fun summ value => summ + 1 / |value * value - 2|) 0

/-- `ExactDiscreteObjectiveFunction`, genetic_algorithm.cpp:34-51, on any parameters.  Simplification: for parameters that are no array, where the code throws,
the value is 0; the program has arrays only. -/
def objective : Param ℚ → ℚ
  | .arr a => summ a.values
  | _ => 0

/-- `FlipBitMutator` as the genetic algorithm sees it (gen_mutator_base.cpp:11-14 stores the context, flip_bit_mutator.cpp does not read it). -/
def mutator : MutatorI Mutator.Flip := ⟨fun f _ => f, fun f l chr => Mutator.mutateChromosome Mutator.flipGenes f l chr⟩

/-- `GetInitialParameters`, genetic_algorithm.cpp:89-104. -/
def initialParameters : Nat → Res (List (Param ℚ))
  | 0 => .ok []
  | n + 1 => do
    let a ← ArrParam.new minValue maxValue precision number
    match a.setValues (List.replicate number (14 / 10)) with
    | (b, .ok ()) => do
      let rest ← initialParameters n
      return .arr b :: rest
    | (_, .throw w) => .throw w
    | (_, .ub) => .ub

/-- What the program leaves: its exit code and, if that is 0, the printed parameters and fitness.  `run` is what `Optimize` left behind (for stating properties). -/
structure Output where
  code : Int
  values : List ℚ
  fitness : ℚ
  run : Option (Result (Param ℚ) ℚ Mutator.Flip)

/-- `catch` and the output, genetic_algorithm.cpp:143-162. -/
def finish (r : Res (Result (Param ℚ) ℚ Mutator.Flip)) : Res Output :=
  match r with
  | .ok res =>
    match res.params with
    | .arr a => .ok ⟨0, a.values, objective res.params, some res⟩
    | _ => .ub
  | .throw _ => .ok ⟨-1, [], 0, none⟩
  | .ub => .ub

/-- `main`, genetic_algorithm.cpp:106-168, with the call of `SetInitialParameters` (144) that is commented out there if `useInitial`.
`entryBytes` is the size of a cache entry. -/
def main (useInitial : Bool) (hash : List Bool → Nat) (sort : List (Indiv (Param ℚ) ℚ) → List (Indiv (Param ℚ) ℚ)) (entryBytes fuel : Nat) (rng : Rng) :
    Res Output := do
  let a ← ArrParam.new minValue maxValue precision number
  let m ← Mutator.Flip.new (1 / 1000000 : ℚ) rng.lib
  match create 300 25 10 (some mutator) maxDouble hash sort with
  | none => .ub
  | some cfg =>
    finish (do
      let cfg ← (if useInitial then do
        let ps ← initialParameters 300
        setInitialParameters cfg ps
      else .ok cfg)
      optimize cfg fuel objective (Counter.new entryBytes 1) m.1 { rng with lib := m.2 } (.arr a) true)

end K52.ExampleGA
