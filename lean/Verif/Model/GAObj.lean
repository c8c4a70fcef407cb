import Verif.Model.GAStats

/-!
# Model of a `GeneticAlgorithm` object that is used again and again, also after exceptions

Sources: `src/optimization/genetic_algorithm/genetic_algorithm.cpp`, `src/optimization/objective_function_counter.cpp`.

Unlike `Model/GA.lean` and `Model/GAStats.lean` every function (suffix `X`) gives the state of the object also when it throws, and the objective
function and the callback may throw.  What is not a field of the object is an argument of the single call: random numbers, the state of the
mutator (a shared object), the callback with its state, the file system.  The worker pool is the sequential one when the objective function throws
(evaluation stops there).  `int` overflow of the counters is left out.
-/

namespace K52.GA
open K52.Indiv

/-- Computations on an object that leave it in some state whether they return or throw.  (A modelling device.) -/
def X (S α : Type) : Type := S → S × Res α

namespace X
variable {S α β : Type}

def bind (x : X S α) (k : α → X S β) : X S β := fun s =>
  match x s with
  | (s', .ok a) => k a s'
  | (s', .throw w) => (s', .throw w)
  | (s', .ub) => (s', .ub)

instance : Monad (X S) where
  pure a := fun s => (s, .ok a)
  bind := X.bind

/-- A computation that does not touch the object. -/
def lift (r : Res α) : X S α := fun s => (s, r)
def get : X S S := fun s => (s, .ok s)
def modify (g : S → S) : X S Unit := fun s => (g s, .ok ())

end X

/-- The fields of a `GeneticAlgorithm` that outlive a call, genetic_algorithm.h:103-122: `fitness_counter_`, `invalid_chromosomes_`,
`initial_parameters_`, `were_initial_parameters_set_`.  (`population_`, `population_statistics_` and `best_individ_` are made anew by `Initialize`.)
`log` is a record kept for stating properties: the completed calls of the objective function, with the chromosome of the individual, its
parameters and the value. -/
structure Mem (P R : Type) where
  counter : Counter R
  invalid : Nat
  initial : List (Option P)
  given : Bool
  log : List (List Bool × P × R)

variable {P R Mu σ : Type} [DiscreteParams P] [Add R] [Sub R] [Mul R] [Div R] [Zero R] [One R] [NatCast R] [LinearOrder R]

local instance instInhX : Inhabited R := ⟨0⟩

/-- After the constructor, genetic_algorithm.cpp:80-120. -/
def Mem.new (entryBytes : Nat) (limitMb : Rat) : Mem P R := ⟨Counter.new entryBytes limitMb, 0, [], false, []⟩

def setCache (k : Cache.State Nat R) : X (Mem P R) Unit := X.modify fun m => { m with counter := { m.counter with cache := some k } }

/-- An individual to evaluate, objective_function_counter.cpp:104-107. -/
def todoX (i : Indiv P R) : Res (Todo P R) :=
  if i.init then
    match i.params with
    | some p => .ok (.count i p)
    | none => .ub
  else .throw "logic_error"

/-- `ProcessPopulation` for one individual, objective_function_counter.cpp:93-108. -/
def processOneX (hash : List Bool → Nat) (i : Indiv P R) : X (Mem P R) (Todo P R) := fun m =>
  match m.counter.cache with
  | none => (X.lift (todoX i) : X (Mem P R) (Todo P R)) m
  | some k =>
    if i.init then
      match Cache.isCached k (hash i.chrom) with
      | (k1, .bool true) =>
        match Cache.get k1 (hash i.chrom) with
        | (k2, .value v) => (do
          setCache k2
          let j ← X.lift (setFitness i v)
          X.modify fun m => { m with counter := { m.counter with hits := m.counter.hits + 1 } }
          return .done j : X (Mem P R) (Todo P R)) m
        | (k2, .threw) => (do setCache k2; X.lift (.throw "invalid_argument") : X (Mem P R) (Todo P R)) m
        | (k2, _) => (do setCache k2; X.lift .ub : X (Mem P R) (Todo P R)) m
      | (k1, .bool false) => (do setCache k1; X.lift (todoX i) : X (Mem P R) (Todo P R)) m
      | (k1, _) => (do setCache k1; X.lift .ub : X (Mem P R) (Todo P R)) m
    else (m, .throw "logic_error")

/-- `ProcessPopulation`, objective_function_counter.cpp:83-110. -/
def processX (hash : List Bool → Nat) : List (Indiv P R) → X (Mem P R) (List (Todo P R))
  | [] => return []
  | i :: is => do
    let t ← processOneX hash i
    let ts ← processX hash is
    return t :: ts

/-- The tasks performed one after the other (sequential_worker_pool.cpp:11-31, count_objective_function_task.cpp). -/
def evalX (f : P → Res R) : List (Todo P R) → X (Mem P R) (List R)
  | [] => return []
  | .done _ :: ts => evalX f ts
  | .count i p :: ts => do
    let v ← X.lift (f p)
    X.modify fun m => { m with log := m.log ++ [(i.chrom, p, v)] }
    let vs ← evalX f ts
    return v :: vs

/-- `AddNewCacheValues`, objective_function_counter.cpp:155-170, if there is a cache (45-48). -/
def storeX (hash : List Bool → Nat) (ts : List (Todo P R)) (pop : List (Indiv P R)) : X (Mem P R) Unit := fun m =>
  match m.counter.cache with
  | none => (m, .ok ())
  | some k =>
    match Cache.addMany k (records hash ts pop) with
    | (k', .done) => setCache k' m
    | (k', _) => (do setCache k'; X.lift (.throw "runtime_error") : X (Mem P R) Unit) m

/-- `ObtainFitness`, objective_function_counter.cpp:29-49. -/
def obtainFitnessX (hash : List Bool → Nat) (f : P → Res R) (pop : List (Indiv P R)) : X (Mem P R) (List (Indiv P R)) := do
  let ts ← processX hash pop
  X.modify fun m => { m with counter := { m.counter with counts := m.counter.counts + (toCount ts).length } }
  let vals ← evalX f ts
  let pop' ← X.lift (assign ts vals)
  storeX hash ts pop'
  return pop'

/-- `invalid_chromosomes_ += n`. -/
def addInvalid (n : Nat) : X (Mem P R) Unit := X.modify fun m => { m with invalid := m.invalid + n }

/-- The retry loop of one crossover, genetic_algorithm.cpp:311-331. -/
def crossPairX (total : R) (pop : List (Indiv P R)) :
    Nat → Rng → List Nat → X (Mem P R) ((Indiv P R × Indiv P R × Rng) × List Nat)
  | 0, _, _ => X.lift outOfFuel
  | fuel + 1, rng, times => do
    let k1 ← X.lift (select total pop rng)
    let k2 ← X.lift (select total pop k1.2)
    let p1 ← X.lift (at' pop k1.1)
    let a ← X.lift (copy p1)
    let p2 ← X.lift (at' pop k2.1)
    let b ← X.lift (copy p2)
    let c ← X.lift (crossover a b k2.2)
    if c.1 then return ((c.2.1, c.2.2.1, c.2.2.2), bump (bump times k1.1) k2.1)
    else do
      addInvalid 1
      crossPairX total pop fuel c.2.2.2 (bump (bump times k1.1) k2.1)

/-- The pair loop of `GenerateNextPopulation`, genetic_algorithm.cpp:295-336. -/
def nextPairsX (elitism : Int) (fuel : Nat) (total : R) (pop sorted : List (Indiv P R)) :
    Nat → Nat → Int → Rng → List Nat → X (Mem P R) ((List (Indiv P R) × Rng) × List Nat)
  | 0, _, _, rng, times => return (([], rng), times)
  | n + 1, i, ready, rng, times =>
    if ready < elitism then do
      let s1 ← X.lift (at' sorted i)
      let a ← X.lift (copy s1)
      let s2 ← X.lift (at' sorted (i + 1))
      let b ← X.lift (copy s2)
      let rest ← nextPairsX elitism fuel total pop sorted n (i + 2) (ready + 1) rng times
      return ((a :: b :: rest.1.1, rest.1.2), rest.2)
    else do
      let c ← crossPairX total pop fuel rng times
      let rest ← nextPairsX elitism fuel total pop sorted n (i + 2) ready c.1.2.2 c.2
      return ((c.1.1 :: c.1.2.1 :: rest.1.1, rest.1.2), rest.2)

/-- `GenerateNextPopulation`, genetic_algorithm.cpp:280-342. -/
def nextPopulationX (cfg : Config P R Mu) (fuel : Nat) (pop : List (Indiv P R)) (rng : Rng) :
    X (Mem P R) ((List (Indiv P R) × Rng) × List (IndStat R)) := do
  let total ← X.lift (totalFitness 0 pop)
  let r ← nextPairsX cfg.elitism fuel total pop (cfg.sort pop) (cfg.popSize / 2) 0 0 rng (List.replicate pop.length 0)
  let stats ← X.lift (gather pop r.2)
  return (r.1, stats)

/-- The loop of `Mutate`, genetic_algorithm.cpp:274-277. -/
def mutateAllX (m : MutatorI Mu) (fuel : Nat) : List (Indiv P R) → Mu → Rng → X (Mem P R) (List (Indiv P R) × Mu × Rng)
  | [], mu, rng => return ([], mu, rng)
  | i :: is, mu, rng => do
    let r ← X.lift (mutate m fuel i mu rng)
    addInvalid r.2.1
    let rs ← mutateAllX m fuel is r.2.2.1 r.2.2.2
    return (r.1 :: rs.1, rs.2)

/-- `ValidateInitialParameters`, genetic_algorithm.cpp:211-237; `typeid` of a null pointer's target throws `std::bad_typeid` (226). -/
def validateX (n : Nat) (p : P) (ps : List (Option P)) : Res Unit :=
  if ps.length ≠ n then .throw "invalid_argument" else go p ps
where
  /-- the loop, genetic_algorithm.cpp:220-236 -/
  go (p : P) : List (Option P) → Res Unit
    | [] => .ok ()
    | none :: _ => .throw "bad_typeid"
    | some q :: qs => do
      let b ← DiscreteParams.sameMeta q p
      if b then go p qs else .throw "invalid_argument"

/-- The random half of `Initialize`, genetic_algorithm.cpp:194-207. -/
def initRandomX (fuel : Nat) (p : P) : Nat → Rng → X (Mem P R) (List (Indiv P R) × Rng)
  | 0, rng => return ([], rng)
  | n + 1, rng => do
    let i ← X.lift (initWith new p)
    let r ← X.lift (setRandom fuel i rng)
    addInvalid r.2.1
    let rs ← initRandomX fuel p n r.2.2
    return (r.1 :: rs.1, rs.2)

/-- The other half, genetic_algorithm.cpp:198-201 (there are no null pointers after validation). -/
def initGivenX : List (Option P) → Res (List (Indiv P R))
  | [] => .ok []
  | none :: _ => .ub
  | some p :: ps => do
    let i ← initWith new p
    let is ← initGivenX ps
    return i :: is

/-- `Initialize`, genetic_algorithm.cpp:184-209. -/
def initialPopulationX (cfg : Config P R Mu) (fuel : Nat) (p : P) (rng : Rng) : X (Mem P R) (List (Indiv P R) × Indiv P R × Rng) := do
  let m ← X.get
  let r ← (if m.given then do
      X.lift (validateX cfg.popSize p m.initial)
      let is ← X.lift (initGivenX m.initial)
      return (is, rng)
    else initRandomX fuel p cfg.popSize rng : X (Mem P R) (List (Indiv P R) × Rng))
  let best ← X.lift (initWith new p)
  return (r.1, best, r.2)

/-- One call of `Optimize`: its arguments and what it finds around it. -/
structure Call (P R Mu σ : Type) where
  f : P → Res R
  p : P
  maximize : Bool
  /-- the function set by `OnNextGenerationReadyConnect`; it may throw -/
  callback : Option (σ → GenStat P R → σ × Res (List String))
  st : σ
  canOpen : String → Bool
  format : Text.Format R
  file : PopFile
  mu : Mu
  rng : Rng
  fuel : Nat

/-- For printing and saving. -/
def Call.observer (a : Call P R Mu σ) : Observer P R σ := ⟨none, a.canOpen, a.format⟩

/-- `ProcessStatistics`, genetic_algorithm.cpp:381-408. -/
def processStatisticsX (popSize : Nat) (a : Call P R Mu σ) (cb : σ → GenStat P R → σ × Res (List String)) (st : σ) (number : Int)
    (pop : List (Indiv P R)) (best : Indiv P R) (stats : List (IndStat R)) :
    X (Mem P R) (σ × GenStat P R × List (String × List Char)) := do
  let m ← X.get
  let total ← X.lift (totalFitness 0 pop)
  if best.init then
    match best.params with
    | none => X.lift .ub
    | some bp => do
      let x ← X.lift (getFitness best)
      let q ← X.lift (DiscreteParams.clone bp)
      let s : GenStat P R := ⟨total / (popSize : R), q, x, number, m.counter.hits, m.invalid, sortStats stats⟩
      let names ← X.lift (cb st s).2
      let files ← X.lift (saveAll a.observer pop names)
      return ((cb st s).1, s, files)
  else X.lift (.throw "logic_error")

/-- The call of `ProcessStatistics` if there is a callback, genetic_algorithm.cpp:247-250. -/
def observeX (popSize : Nat) (a : Call P R Mu σ) (st : σ) (number : Int)
    (pop : List (Indiv P R)) (best : Indiv P R) (stats : List (IndStat R)) :
    X (Mem P R) (σ × Option (GenStat P R) × List (String × List Char)) :=
  match a.callback with
  | none => return (st, none, [])
  | some cb => do
    let r ← processStatisticsX popSize a cb st number pop best stats
    return (r.1, some r.2.1, r.2.2)

/-- What is left when the main loop is over, besides the object. -/
structure EndX (P R Mu σ : Type) where
  gens : List (Gen P R)
  best : Indiv P R
  mu : Mu
  rng : Rng
  st : σ

/-- `RunIterationsAndSetBestIndivid`, genetic_algorithm.cpp:239-268. -/
def iterateX (cfg : Config P R Mu) (a : Call P R Mu σ) :
    Nat → Int → List (Indiv P R) → Indiv P R → Mu → Rng → List (IndStat R) → σ → X (Mem P R) (EndX P R Mu σ)
  | 0, _, _, best, mu, rng, _, st => return ⟨[], best, mu, rng, st⟩
  | k + 1, n, pop, best, mu, rng, stats, st => do
    let e ← obtainFitnessX cfg.hash a.f pop
    let best' ← X.lift (updateBest best e)
    let o ← observeX cfg.popSize a st n e best' stats
    X.modify fun m => { m with counter := { m.counter with hits := 0 }, invalid := 0 }
    let x ← X.lift (getFitness best')
    if x ≥ cfg.stop then return ⟨[⟨e, o.2.1, o.2.2⟩], best', mu, rng, o.1⟩
    else do
      let nx ← nextPopulationX cfg a.fuel e rng
      let m ← mutateAllX cfg.mutator a.fuel nx.1.1 (cfg.mutator.apply mu ⟨n, cfg.maxGen⟩) nx.1.2
      let rest ← iterateX cfg a k (n + 1) m.1 best' m.2.1 m.2.2 nx.2 o.1
      return { rest with gens := ⟨e, o.2.1, o.2.2⟩ :: rest.gens }

/-- `Optimize`, genetic_algorithm.cpp:122-143: the parameters afterwards and what the run did. -/
def optimizeX (cfg : Config P R Mu) (a : Call P R Mu σ) : X (Mem P R) (P × EndX P R Mu σ) :=
  if a.maximize then do
    let i ← initialPopulationX cfg a.fuel a.p a.rng
    let l ← X.lift (readFile a.format cfg.popSize a.file i.1)
    let r ← iterateX cfg a cfg.maxGen.toNat 0 l.1 i.2.1 a.mu i.2.2 l.2 a.st
    if r.best.init then
      match DiscreteParams.setFrom a.p r.best.chrom with
      | (q, .ok ()) => return (q, r)
      | (_, .throw w) => X.lift (.throw w)
      | (_, .ub) => X.lift .ub
    else X.lift (.throw "logic_error")
  else X.lift (.throw "invalid_argument")

/-- The loop of `SetInitialParameters` from entry `i` on, genetic_algorithm.cpp:149-152, `n` entries to go. -/
def cloneX (ps : List (Option P)) : Nat → Nat → X (Mem P R) Unit
  | 0, _ => return ()
  | n + 1, i => do
    match ps[i]? with
    | some (some p) => do
      let q ← X.lift (DiscreteParams.clone p)
      X.modify fun m => { m with initial := m.initial.set i (some q) }
      cloneX ps n (i + 1)
    | _ => X.lift .ub

/-- `SetInitialParameters`, genetic_algorithm.cpp:145-155. -/
def setInitialX (cfg : Config P R Mu) (ps : List (Option P)) : X (Mem P R) Unit := do
  X.modify fun m => { m with initial := List.replicate cfg.popSize none }
  cloneX ps cfg.popSize 0
  X.modify fun m => { m with given := true }

/-- The calls of the public interface that change the object or use it.  (`OnNextGenerationReadyConnect` is the `callback` of the later calls.) -/
inductive ObjOp (P R Mu σ : Type) where
  | setInitial (ps : List (Option P))
  | optimize (a : Call P R Mu σ)

/-- One call: the object afterwards, and for `Optimize` how it ended. -/
def objStep (cfg : Config P R Mu) (m : Mem P R) : ObjOp P R Mu σ → Mem P R
  | .setInitial ps => (setInitialX cfg ps m).1
  | .optimize a => (optimizeX cfg a m).1

/-- A history of calls, whatever they ended with. -/
def objRun (cfg : Config P R Mu) (m : Mem P R) : List (ObjOp P R Mu σ) → Mem P R
  | [] => m
  | op :: ops => objRun cfg (objStep cfg m op) ops

end K52.GA
