import Verif.Model.Text
import Mathlib.Data.List.Sort

/-!
# Model of the genetic algorithm with its observers: statistics, callback, population files

Sources: `src/optimization/genetic_algorithm/genetic_algorithm.cpp`, `generation_statistics.cpp`, `individual.cpp`:165-213,
`include/k52/optimization/individual_statistics.h`.

The functions with suffix `S` model the same C++ functions as their namesakes in `Model/GA.lean`, with the counters
(`times_chosen_for_crossover_`, `invalid_chromosomes_`), the statistics callback and the population files that were left out there.
The counters of the individuals of a population are kept in a list beside the population.  A callback is a function of its own
state (whatever global variables it uses) and the statistics; it returns the names it passed to `SaveCurrentPopulationToFile`, in
order.  A callback that throws, and `int` overflow of the counters, are left out.
-/

namespace K52.GA
open K52.Indiv

variable {P R Mu σ : Type} [DiscreteParams P] [Add R] [Sub R] [Mul R] [Div R] [Zero R] [One R] [NatCast R] [LinearOrder R]

/-- `IndividualStatistics`, individual_statistics.h:13-30. -/
structure IndStat (R : Type) where
  fitness : R
  times : Nat
  deriving DecidableEq

/-- `GenerationStatistics`, generation_statistics.h:72-82 (the best parameters are a clone, generation_statistics.cpp:22). -/
structure GenStat (P R : Type) where
  average : R
  bestParams : P
  bestFitness : R
  number : Int
  hits : Nat
  invalid : Nat
  all : List (IndStat R)

/-- What the run calls out to: the callback set by `OnNextGenerationReadyConnect` (if any), which files can be opened for writing, and
how numbers are printed. -/
structure Observer (P R σ : Type) where
  callback : Option (σ → GenStat P R → σ × List String)
  canOpen : String → Bool
  format : Text.Format R

/-- `IncreaseTimesChosenForCrossover` on individual `k` of the population, individual.cpp:170-173. -/
def bump (times : List Nat) (k : Nat) : List Nat := times.modify k (· + 1)

/-- The retry loop of one crossover, genetic_algorithm.cpp:311-331, with the counters. -/
def crossPairS (total : R) (pop : List (Indiv P R)) :
    Nat → Rng → List Nat → Nat → Res ((Indiv P R × Indiv P R × Rng) × List Nat × Nat)
  | 0, _, _, _ => outOfFuel
  | fuel + 1, rng, times, invalid => do
    let k1 ← select total pop rng
    let k2 ← select total pop k1.2
    let p1 ← at' pop k1.1
    let a ← copy p1
    let p2 ← at' pop k2.1
    let b ← copy p2
    let times := bump (bump times k1.1) k2.1
    let c ← crossover a b k2.2
    if c.1 then return ((c.2.1, c.2.2.1, c.2.2.2), times, invalid)
    else crossPairS total pop fuel c.2.2.2 times (invalid + 1)

/-- The pair loop of `GenerateNextPopulation`, genetic_algorithm.cpp:295-336, with the counters. -/
def nextPairsS (elitism : Int) (fuel : Nat) (total : R) (pop sorted : List (Indiv P R)) :
    Nat → Nat → Int → Rng → List Nat → Nat → Res ((List (Indiv P R) × Rng) × List Nat × Nat)
  | 0, _, _, rng, times, invalid => .ok (([], rng), times, invalid)
  | n + 1, i, ready, rng, times, invalid =>
    if ready < elitism then do
      let s1 ← at' sorted i
      let a ← copy s1
      let s2 ← at' sorted (i + 1)
      let b ← copy s2
      let rest ← nextPairsS elitism fuel total pop sorted n (i + 2) (ready + 1) rng times invalid
      return ((a :: b :: rest.1.1, rest.1.2), rest.2)
    else do
      let c ← crossPairS total pop fuel rng times invalid
      let rest ← nextPairsS elitism fuel total pop sorted n (i + 2) ready c.1.2.2 c.2.1 c.2.2
      return ((c.1.1 :: c.1.2.1 :: rest.1.1, rest.1.2), rest.2)

/-- `GatherAllIndividualsStatistics`, genetic_algorithm.cpp:421-427, with `get_individual_statistics`, individual.cpp:209-217. -/
def gather : List (Indiv P R) → List Nat → Res (List (IndStat R))
  | [], _ => .ok []
  | _ :: _, [] => .ub
  | i :: is, t :: ts => do
    let x ← getFitness i
    let rest ← gather is ts
    return ⟨x, t⟩ :: rest

/-- `GenerateNextPopulation`, genetic_algorithm.cpp:280-342: the next population and random state, the statistics of the old population,
the failed crossovers added to `invalid`. -/
def nextPopulationS (cfg : Config P R Mu) (fuel : Nat) (pop : List (Indiv P R)) (rng : Rng) (invalid : Nat) :
    Res ((List (Indiv P R) × Rng) × List (IndStat R) × Nat) := do
  let total ← totalFitness 0 pop
  let r ← nextPairsS cfg.elitism fuel total pop (cfg.sort pop) (cfg.popSize / 2) 0 0 rng (List.replicate pop.length 0) invalid
  let stats ← gather pop r.2.1
  return (r.1, stats, r.2.2)

/-- The loop of `Mutate`, genetic_algorithm.cpp:274-277, adding up invalid chromosomes. -/
def mutateAllS (m : MutatorI Mu) (fuel : Nat) :
    List (Indiv P R) → Mu → Rng → Nat → Res ((List (Indiv P R) × Mu × Rng) × Nat)
  | [], mu, rng, invalid => .ok (([], mu, rng), invalid)
  | i :: is, mu, rng, invalid => do
    let r ← mutate m fuel i mu rng
    let rs ← mutateAllS m fuel is r.2.2.1 r.2.2.2 (invalid + r.2.1)
    return ((r.1 :: rs.1.1, rs.1.2), rs.2)

/-- The random half of `Initialize`, genetic_algorithm.cpp:194-207, adding up invalid chromosomes. -/
def initRandomS (fuel : Nat) (p : P) : Nat → Rng → Nat → Res ((List (Indiv P R) × Rng) × Nat)
  | 0, rng, invalid => .ok (([], rng), invalid)
  | n + 1, rng, invalid => do
    let i ← initWith new p
    let r ← setRandom fuel i rng
    let rs ← initRandomS fuel p n r.2.2 (invalid + r.2.1)
    return ((r.1 :: rs.1.1, rs.1.2), rs.2)

/-- `Initialize`, genetic_algorithm.cpp:184-209. -/
def initialPopulationS (cfg : Config P R Mu) (fuel : Nat) (p : P) (rng : Rng) (invalid : Nat) :
    Res ((List (Indiv P R) × Indiv P R × Rng) × Nat) := do
  let r ← (match cfg.initial with
    | some ps => do
      validateInitial cfg.popSize p ps
      let is ← initGiven ps
      return ((is, rng), invalid)
    | none => initRandomS fuel p cfg.popSize rng invalid)
  let best ← initWith new p
  return ((r.1.1, best, r.1.2), r.2)

/-- The saving loop of `ProcessStatistics`, genetic_algorithm.cpp:402-405, with `SavePopulationToFile` (437-445): name and content of the
files written; a file that cannot be opened is skipped silently. -/
def saveAll (obs : Observer P R σ) (pop : List (Indiv P R)) : List String → Res (List (String × List Char))
  | [] => .ok []
  | name :: names =>
    if obs.canOpen name then do
      let text ← Text.writePopulation obs.format pop
      let rest ← saveAll obs pop names
      return (name, text) :: rest
    else saveAll obs pop names

/-- `std::list::sort(IndividualStatistics::Greater)`, genetic_algorithm.cpp:386-388: a stable sort by decreasing number of selections. -/
def sortStats (stats : List (IndStat R)) : List (IndStat R) := stats.insertionSort (fun a b => b.times ≤ a.times)

/-- `ProcessStatistics`, genetic_algorithm.cpp:381-408, with `GetPopulationAveradgeFitness` (410-419) and the constructor of
`GenerationStatistics` (generation_statistics.cpp:12-30). -/
def processStatistics (popSize : Nat) (obs : Observer P R σ) (cb : σ → GenStat P R → σ × List String) (st : σ) (number : Int)
    (pop : List (Indiv P R)) (best : Indiv P R) (hits invalid : Nat) (stats : List (IndStat R)) :
    Res (σ × GenStat P R × List (String × List Char)) := do
  let total ← totalFitness 0 pop
  if best.init then
    match best.params with
    | none => .ub
    | some bp => do
      let x ← getFitness best
      let q ← DiscreteParams.clone bp
      let s : GenStat P R := ⟨total / (popSize : R), q, x, number, hits, invalid, sortStats stats⟩
      let r := cb st s
      let files ← saveAll obs pop r.2
      return (r.1, s, files)
  else .throw "logic_error"

/-- The call of `ProcessStatistics` if there is a callback, genetic_algorithm.cpp:247-250. -/
def observe (popSize : Nat) (obs : Observer P R σ) (st : σ) (number : Int)
    (pop : List (Indiv P R)) (best : Indiv P R) (hits invalid : Nat) (stats : List (IndStat R)) :
    Res (σ × Option (GenStat P R) × List (String × List Char)) :=
  match obs.callback with
  | none => .ok (st, none, [])
  | some cb => do
    let r ← processStatistics popSize obs cb st number pop best hits invalid stats
    return (r.1, some r.2.1, r.2.2)

/-- What one iteration did: the evaluated population, the statistics handed to the callback (if there is one), the files written. -/
structure Gen (P R : Type) where
  pop : List (Indiv P R)
  stat : Option (GenStat P R)
  files : List (String × List Char)

/-- What is left when the main loop is over. -/
structure EndS (P R Mu σ : Type) where
  gens : List (Gen P R)
  counter : Counter R
  best : Indiv P R
  mu : Mu
  rng : Rng
  invalid : Nat
  st : σ

/-- `RunIterationsAndSetBestIndivid`, genetic_algorithm.cpp:239-268. -/
def iterateS (cfg : Config P R Mu) (obs : Observer P R σ) (fuel : Nat) (f : P → R) :
    Nat → Int → Counter R → List (Indiv P R) → Indiv P R → Mu → Rng → List (IndStat R) → Nat → σ → Res (EndS P R Mu σ)
  | 0, _, c, _, best, mu, rng, _, invalid, st => .ok ⟨[], c, best, mu, rng, invalid, st⟩
  | k + 1, n, c, pop, best, mu, rng, stats, invalid, st => do
    let e ← obtainFitness cfg.hash f c pop
    let best' ← updateBest best e.2
    let o ← observe cfg.popSize obs st n e.2 best' e.1.hits invalid stats
    let c' := { e.1 with hits := 0 }
    let x ← getFitness best'
    if x ≥ cfg.stop then return ⟨[⟨e.2, o.2.1, o.2.2⟩], c', best', mu, rng, 0, o.1⟩
    else do
      let nx ← nextPopulationS cfg fuel e.2 rng 0
      let m ← mutateAllS cfg.mutator fuel nx.1.1 (cfg.mutator.apply mu ⟨n, cfg.maxGen⟩) nx.1.2 nx.2.2
      let rest ← iterateS cfg obs fuel f k (n + 1) c' m.1.1 best' m.1.2.1 m.1.2.2 nx.2.1 m.2 o.1
      return { rest with gens := ⟨e.2, o.2.1, o.2.2⟩ :: rest.gens }

/-- The population file named in the constructor: none given; cannot be opened; its text. -/
inductive PopFile where
  | none
  | missing
  | text (t : List Char)

/-- `ReadPopulationFromFile`, genetic_algorithm.cpp:447-459, if a file name was given (133-136): the population and its statistics. -/
def readFile (F : Text.Format R) (n : Nat) (file : PopFile) (pop : List (Indiv P R)) : Res (List (Indiv P R) × List (IndStat R)) :=
  match file with
  | .none => .ok (pop, List.replicate n ⟨0, 0⟩)
  | .missing => .throw "runtime_error"
  | .text t => do
    let r ← Text.readPopulation F n pop ⟨t, false⟩
    let stats ← gather r.1 (List.replicate r.1.length 0)
    return (r.1, stats)

/-- What `Optimize` leaves behind. -/
structure ResultS (P R Mu σ : Type) where
  params : P
  fin : EndS P R Mu σ

/-- `Optimize`, genetic_algorithm.cpp:122-143, on an object whose `invalid_chromosomes_` holds `invalid` (0 in a new object). -/
def optimizeS (cfg : Config P R Mu) (obs : Observer P R σ) (file : PopFile) (fuel : Nat) (f : P → R) (c : Counter R) (mu : Mu)
    (rng : Rng) (invalid : Nat) (st : σ) (p : P) (maximize : Bool) : Res (ResultS P R Mu σ) :=
  if maximize then do
    let i ← initialPopulationS cfg fuel p rng invalid
    let l ← readFile obs.format cfg.popSize file i.1.1
    let r ← iterateS cfg obs fuel f cfg.maxGen.toNat 0 c l.1 i.1.2.1 mu i.1.2.2 l.2 i.2 st
    if r.best.init then
      match DiscreteParams.setFrom p r.best.chrom with
      | (q, .ok ()) => return ⟨q, r⟩
      | (_, .throw w) => .throw w
      | (_, .ub) => .ub
    else .throw "logic_error"
  else .throw "invalid_argument"

end K52.GA
