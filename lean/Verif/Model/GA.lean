import Verif.Model.Individual
import Verif.Model.Cache

/-!
# Model of `GeneticAlgorithm` and `ObjectiveFunctionCounter`

Sources: `src/optimization/genetic_algorithm/genetic_algorithm.cpp`, `src/optimization/objective_function_counter.cpp`.

The objective function is a total function of the parameters (a user function that throws aborts the run).  The worker pool
returns result `i` for task `i` (C24, C27, C28).  `std::sort` is any function that returns a sorted permutation.
The statistics callback and file output are left out.
-/

namespace K52.GA
open K52.Indiv

variable {P R Mu : Type} [DiscreteParams P] 
  [Add R] [Sub R] [Mul R] [Div R] [Zero R] [One R] [NatCast R] [LT R] [LE R] [DecidableLT R] [DecidableLE R]

local instance : Inhabited R := ⟨0⟩

/-! ### ObjectiveFunctionCounter -/

/-- Fields of `ObjectiveFunctionCounter`, objective_function_counter.h (`cache_` may be null). -/
structure Counter (R : Type) where
  cache : Option (Cache.State Nat R)
  hits : Nat
  counts : Nat

/-- Constructor, objective_function_counter.cpp:16-27. -/
def Counter.new (entryBytes : Nat) (limitMb : Rat) : Counter R := ⟨Cache.create entryBytes limitMb, 0, 0⟩

/-- What `ProcessPopulation` decides for one individual: its fitness came from the cache, or it must be evaluated. -/
inductive Todo (P R : Type) where
  | done (i : Indiv P R)
  | count (i : Indiv P R) (p : P)

/-- `ProcessPopulation` for one individual, objective_function_counter.cpp:93-108. -/
def processOne (hash : List Bool → Nat) (c : Counter R) (i : Indiv P R) : Res (Counter R × Todo P R) :=
  let toCount (c : Counter R) : Res (Counter R × Todo P R) :=
    if i.init then
      match i.params with
      | some p => .ok (c, .count i p)
      | none => .ub
    else .throw "logic_error"
  match c.cache with
  | none => toCount c
  | some k =>
    if i.init then
      match Cache.isCached k (hash i.chrom) with
      | (k1, .bool true) =>
        match Cache.get k1 (hash i.chrom) with
        | (k2, .value v) => do
          let j ← setFitness i v
          return ({ c with cache := some k2, hits := c.hits + 1 }, .done j)
        | (_, .threw) => .throw "invalid_argument"
        | _ => .ub
      | (k1, .bool false) => toCount { c with cache := some k1 }
      | _ => .ub
    else .throw "logic_error"

/-- `ProcessPopulation`, objective_function_counter.cpp:83-110. -/
def process (hash : List Bool → Nat) : Counter R → List (Indiv P R) → Res (Counter R × List (Todo P R))
  | c, [] => .ok (c, [])
  | c, i :: is => do
    let r ← processOne hash c i
    let rs ← process hash r.1 is
    return (rs.1, r.2 :: rs.2)

/-- The parameters to evaluate, in order (`parameters_to_count`). -/
def toCount : List (Todo P R) → List P
  | [] => []
  | .done _ :: ts => toCount ts
  | .count _ p :: ts => p :: toCount ts

/-- Storing the counted values, objective_function_counter.cpp:40-43: `vals` are the pool's results for `toCount`. -/
def assign : List (Todo P R) → List R → Res (List (Indiv P R))
  | [], _ => .ok []
  | .done i :: ts, vs => do
    let rest ← assign ts vs
    return i :: rest
  | .count i _ :: ts, v :: vs => do
    let j ← setFitness i v
    let rest ← assign ts vs
    return j :: rest
  | .count _ _ :: _, [] => .ub

/-- The records of `AddNewCacheValues`, objective_function_counter.cpp:159-167. -/
def records (hash : List Bool → Nat) : List (Todo P R) → List (Indiv P R) → List (Nat × R)
  | .count _ _ :: ts, j :: js => (hash j.chrom, j.fitness) :: records hash ts js
  | .done _ :: ts, _ :: js => records hash ts js
  | _, _ => []

/-- `ObtainFitness`, objective_function_counter.cpp:29-49, with `CountObjectiveFunctionValues` (51-66), `Count` (112-126) and
`AddNewCacheValues` (155-170). -/
def obtainFitness (hash : List Bool → Nat) (f : P → R) (c : Counter R) (pop : List (Indiv P R)) :
    Res (Counter R × List (Indiv P R)) := do
  let r ← process hash c pop
  let vals := (toCount r.2).map f
  let c1 := { r.1 with counts := r.1.counts + vals.length }
  let pop' ← assign r.2 vals
  match c1.cache with
  | none => return (c1, pop')
  | some k =>
    match Cache.addMany k (records hash r.2 pop') with
    | (k', .done) => return ({ c1 with cache := some k' }, pop')
    | _ => .throw "runtime_error"

/-! ### GeneticAlgorithm -/

/-- The fixed configuration of a GA object, genetic_algorithm.h:103-114, with the environment it calls into. -/
structure Config (P R Mu : Type) where
  popSize : Nat
  elitism : Int
  maxGen : Int
  stop : R
  initial : Option (List P)
  mutator : MutatorI Mu
  hash : List Bool → Nat
  /-- `std::sort(..., GreaterFitness)` -/
  sort : List (Indiv P R) → List (Indiv P R)

/-- Constructor and `Create`, genetic_algorithm.cpp:57-120: `none` is the null pointer returned after a caught exception.
`elitism_pairs` is not validated. -/
def create (popSize elitism maxGen : Int) (mutator : Option (MutatorI Mu)) (stop : R) (hash : List Bool → Nat)
    (sort : List (Indiv P R) → List (Indiv P R)) : Option (Config P R Mu) :=
  if Int.tmod popSize 2 ≠ 0 then none
  else if popSize ≤ 0 then none
  else if maxGen ≤ 0 then none
  else match mutator with
    | none => none
    | some m => some ⟨popSize.toNat, elitism, maxGen, stop, none, m, hash, sort⟩

/-- The loop of `SetInitialParameters`, genetic_algorithm.cpp:149-152: reads `population_size` entries of the argument. -/
def cloneN : Nat → List P → Res (List P)
  | 0, _ => .ok []
  | _ + 1, [] => .ub
  | n + 1, p :: ps => do
    let q ← DiscreteParams.clone p
    let qs ← cloneN n ps
    return q :: qs

/-- `SetInitialParameters`, genetic_algorithm.cpp:145-155. -/
def setInitialParameters (cfg : Config P R Mu) (ps : List P) : Res (Config P R Mu) := do
  let qs ← cloneN cfg.popSize ps
  return { cfg with initial := some qs }

/-- `ValidateInitialParameters`, genetic_algorithm.cpp:211-237. -/
def validateInitial (n : Nat) (p : P) (ps : List P) : Res Unit :=
  if ps.length ≠ n then .throw "invalid_argument" else go p ps
where
  /-- the loop, genetic_algorithm.cpp:220-236 -/
  go (p : P) : List P → Res Unit
    | [] => .ok ()
    | q :: qs => do
      let b ← DiscreteParams.sameMeta q p
      if b then go p qs else .throw "invalid_argument"

/-- The random half of `Initialize`, genetic_algorithm.cpp:194-207. -/
def initRandom (fuel : Nat) (p : P) : Nat → Rng → Res (List (Indiv P R) × Rng)
  | 0, rng => .ok ([], rng)
  | n + 1, rng => do
    let i ← initWith new p
    let r ← setRandom fuel i rng
    let rs ← initRandom fuel p n r.2.2
    return (r.1 :: rs.1, rs.2)

/-- The other half: individuals made from the supplied parameters, genetic_algorithm.cpp:198-201. -/
def initGiven : List P → Res (List (Indiv P R))
  | [] => .ok []
  | p :: ps => do
    let i ← initWith new p
    let is ← initGiven ps
    return i :: is

/-- `Initialize`, genetic_algorithm.cpp:184-209: the population, the (unevaluated) best individual, the random state. -/
def initialPopulation (cfg : Config P R Mu) (fuel : Nat) (p : P) (rng : Rng) : Res (List (Indiv P R) × Indiv P R × Rng) := do
  let r ← (match cfg.initial with
    | some ps => do
      validateInitial cfg.popSize p ps
      let is ← initGiven ps
      return (is, rng)
    | none => initRandom fuel p cfg.popSize rng)
  let best ← initWith new p
  return (r.1, best, r.2)

/-- Sum of the fitnesses in population order, genetic_algorithm.cpp:286-291. -/
def totalFitness : R → List (Indiv P R) → Res R
  | acc, [] => .ok acc
  | acc, i :: is => do
    let x ← getFitness i
    totalFitness (acc + x) is

/-- The wheel loop of `SelectRandomIndividualIndexForCrossover`, genetic_algorithm.cpp:366-378. -/
def wheel (target : R) : R → List (Indiv P R) → Nat → Res Nat
  | _, [], _ => .throw "logic_error"
  | current, i :: is, k => do
    let x ← getFitness i
    if target ≤ current + x then return k else wheel target (current + x) is (k + 1)

/-- `SelectRandomIndividualIndexForCrossover`, genetic_algorithm.cpp:362-379. -/
def select (total : R) (pop : List (Indiv P R)) (rng : Rng) : Res (Nat × Rng) := do
  let k ← wheel ((Random.base rng.lib).1 * total) 0 pop 0
  return (k, { rng with lib := (Random.rand rng.lib).2 })

/-- Indexing a vector: out of range is undefined. -/
def at' {α : Type} (l : List α) (k : Nat) : Res α :=
  match l[k]? with
  | some x => .ok x
  | none => .ub

/-- The retry loop of one crossover, genetic_algorithm.cpp:311-331. -/
def crossPair (total : R) (pop : List (Indiv P R)) : Nat → Rng → Res (Indiv P R × Indiv P R × Rng)
  | 0, _ => outOfFuel
  | fuel + 1, rng => do
    let k1 ← select total pop rng
    let k2 ← select total pop k1.2
    let p1 ← at' pop k1.1
    let a ← copy p1
    let p2 ← at' pop k2.1
    let b ← copy p2
    let c ← crossover a b k2.2
    if c.1 then return (c.2.1, c.2.2.1, c.2.2.2) else crossPair total pop fuel c.2.2.2

/-- The pair loop of `GenerateNextPopulation`, genetic_algorithm.cpp:295-336: `n` pairs to go, `i` the index of the next pair. -/
def nextPairs (elitism : Int) (fuel : Nat) (total : R) (pop sorted : List (Indiv P R)) :
    Nat → Nat → Int → Rng → Res (List (Indiv P R) × Rng)
  | 0, _, _, rng => .ok ([], rng)
  | n + 1, i, ready, rng =>
    if ready < elitism then do
      let s1 ← at' sorted i
      let a ← copy s1
      let s2 ← at' sorted (i + 1)
      let b ← copy s2
      let rest ← nextPairs elitism fuel total pop sorted n (i + 2) (ready + 1) rng
      return (a :: b :: rest.1, rest.2)
    else do
      let c ← crossPair total pop fuel rng
      let rest ← nextPairs elitism fuel total pop sorted n (i + 2) ready c.2.2
      return (c.1 :: c.2.1 :: rest.1, rest.2)

/-- `GenerateNextPopulation`, genetic_algorithm.cpp:280-342 (`population_size_` is even, see `create`). -/
def nextPopulation (cfg : Config P R Mu) (fuel : Nat) (pop : List (Indiv P R)) (rng : Rng) : Res (List (Indiv P R) × Rng) := do
  let total ← totalFitness 0 pop
  nextPairs cfg.elitism fuel total pop (cfg.sort pop) (cfg.popSize / 2) 0 0 rng

/-- The loop of `Mutate`, genetic_algorithm.cpp:274-277. -/
def mutateAll (m : MutatorI Mu) (fuel : Nat) : List (Indiv P R) → Mu → Rng → Res (List (Indiv P R) × Mu × Rng)
  | [], mu, rng => .ok ([], mu, rng)
  | i :: is, mu, rng => do
    let r ← mutate m fuel i mu rng
    let rs ← mutateAll m fuel is r.2.2.1 r.2.2.2
    return (r.1 :: rs.1, rs.2)

/-- The scan of `UpdateBestIndivid`, genetic_algorithm.cpp:346-354. -/
def bestOf : Indiv P R → List (Indiv P R) → Res (Indiv P R)
  | b, [] => .ok b
  | b, i :: is => do
    let x ← getFitness b
    let y ← getFitness i
    bestOf (if x < y then i else b) is

/-- `UpdateBestIndivid`, genetic_algorithm.cpp:344-360.  (The pointer to a population member may be shared; members are never
changed after the population has been replaced.) -/
def updateBest (best : Indiv P R) (pop : List (Indiv P R)) : Res (Indiv P R) :=
  match pop with
  | [] => .ub
  | i :: is => do
    let b ← bestOf i is
    if !best.hasFitness then return b
    else do
      let x ← getFitness best
      let y ← getFitness b
      return (if x < y then b else best)

/-- `RunIterationsAndSetBestIndivid`, genetic_algorithm.cpp:239-268: `k` iterations left, `n` the generation number.  Besides the
final counter, best individual, mutator and random state it returns the list of evaluated generations (for stating properties). -/
def iterate (cfg : Config P R Mu) (fuel : Nat) (f : P → R) : Nat → Int → Counter R → List (Indiv P R) → Indiv P R → Mu → Rng →
    Res (List (List (Indiv P R)) × Counter R × Indiv P R × Mu × Rng)
  | 0, _, c, _, best, mu, rng => .ok ([], c, best, mu, rng)
  | k + 1, n, c, pop, best, mu, rng => do
    let e ← obtainFitness cfg.hash f c pop
    let best' ← updateBest best e.2
    let c' := { e.1 with hits := 0 }
    let x ← getFitness best'
    if x ≥ cfg.stop then return ([e.2], c', best', mu, rng)
    else do
      let nx ← nextPopulation cfg fuel e.2 rng
      let m ← mutateAll cfg.mutator fuel nx.1 (cfg.mutator.apply mu ⟨n, cfg.maxGen⟩) nx.2
      let rest ← iterate cfg fuel f k (n + 1) c' m.1 best' m.2.1 m.2.2
      return (e.2 :: rest.1, rest.2)

/-- What `Optimize` leaves behind. -/
structure Result (P R Mu : Type) where
  params : P
  best : Indiv P R
  generations : List (List (Indiv P R))
  counter : Counter R
  mu : Mu
  rng : Rng

/-- `Optimize` without a population file, genetic_algorithm.cpp:122-143. -/
def optimize (cfg : Config P R Mu) (fuel : Nat) (f : P → R) (c : Counter R) (mu : Mu) (rng : Rng) (p : P) (maximize : Bool) :
    Res (Result P R Mu) :=
  if maximize then do
    let i ← initialPopulation cfg fuel p rng
    let r ← iterate cfg fuel f cfg.maxGen.toNat 0 c i.1 i.2.1 mu i.2.2
    if r.2.2.1.init then
      match DiscreteParams.setFrom p r.2.2.1.chrom with
      | (q, .ok ()) => return ⟨q, r.2.2.1, r.1, r.2.1, r.2.2.2.1, r.2.2.2.2⟩
      | (_, .throw w) => .throw w
      | (_, .ub) => .ub
    else .throw "logic_error"
  else .throw "invalid_argument"

end K52.GA
