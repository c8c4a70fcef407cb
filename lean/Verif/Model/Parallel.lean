import Verif.Model.Res
import Verif.Model.AMap
import Verif.Model.ThreadPool

/-!
# Model of the small parts of `k52::parallel`

Sources: `src/parallel/sequential_worker_pool.cpp`, `statistics_aggregator.cpp`, `worker_statistics.cpp`, `worker_pool_factory.cpp`,
`mpi/async_call_chain.cpp`, `mpi/delay_supplier.cpp`, `mpi/identifyable_objects_manager.cpp`.
Counters are natural numbers (overflow of `int` after 2^31 events is not modelled).
-/

namespace K52

/-! ### WorkerStatistics -/

/-- Fields of `WorkerStatistics`, worker_statistics.h:27-29. -/
structure WStats where
  counted : Nat
  errors : Nat
  id : Int
  deriving Repr, DecidableEq

namespace WStats

/-- Default constructor, worker_statistics.cpp:8-13. -/
def new : WStats := ⟨0, 0, 0⟩

/-- `IncreaseCounted`, worker_statistics.cpp:22-25. -/
def incCounted (s : WStats) : WStats := { s with counted := s.counted + 1 }

/-- `IncreaseErrors`, worker_statistics.cpp:27-30. -/
def incErrors (s : WStats) : WStats := { s with errors := s.errors + 1 }

end WStats

/-! ### SequentialWorkerPool -/

namespace SeqPool

variable {E T R : Type}

/-- The loop of `DoTasks`, sequential_worker_pool.cpp:19-23.  `perform` is `ITask::Perform`: it may change the state of the world `E`
and may throw (`none`), which ends the call at once (the vector of results is lost). -/
def doTasks (perform : E → T → E × Option R) : E → WStats → List T → E × WStats × Res (List R)
  | e, st, [] => (e, st, .ok [])
  | e, st, t :: ts =>
    match perform e t with
    | (e', none) => (e', st, .throw "thrown by the task")
    | (e', some r) =>
      match doTasks perform e' st.incCounted ts with
      | (e'', st', .ok rs) => (e'', st', .ok (r :: rs))
      | (e'', st', .throw w) => (e'', st', .throw w)
      | (e'', st', .ub) => (e'', st', .ub)

/-- `GetStatistics`, sequential_worker_pool.cpp:28-33. -/
def getStatistics (st : WStats) : List WStats := [st]

/-- Several calls of `DoTasks` on one pool (exceptions are caught by the caller in between). -/
def calls (perform : E → T → E × Option R) : E → WStats → List (List T) → E × WStats × List (Res (List R))
  | e, st, [] => (e, st, [])
  | e, st, ts :: tss =>
    let r := doTasks perform e st ts
    let rs := calls perform r.1 r.2.1 tss
    (rs.1, rs.2.1, r.2.2 :: rs.2.2)

end SeqPool

/-! ### StatisticsAggregator -/

namespace Aggregator

/-- `statistics_[id] = s` in a `std::map<int, WorkerStatistics>`: the entries in iteration order (increasing keys). -/
def store : List (Int × WStats) → Int → WStats → List (Int × WStats)
  | [], k, v => [(k, v)]
  | (k', v') :: m, k, v => if k < k' then (k, v) :: (k', v') :: m else if k' < k then (k', v') :: store m k v else (k, v) :: m

/-- `GetAppropriateStatistics`, statistics_aggregator.cpp:37-48. -/
def appropriate (m : List (Int × WStats)) (id : Int) : WStats :=
  match AMap.get? m id with
  | some s => s
  | none => ⟨0, 0, id⟩

/-- What can be registered. -/
inductive Event
  | count (id : Int)
  | error (id : Int)
  deriving DecidableEq

/-- The worker an event belongs to. -/
def Event.id : Event → Int
  | .count i => i
  | .error i => i

/-- `RegisterCount`, statistics_aggregator.cpp:10-15, and `RegisterError`, 17-22. -/
def register (m : List (Int × WStats)) : Event → List (Int × WStats)
  | .count i => store m i (appropriate m i).incCounted
  | .error i => store m i (appropriate m i).incErrors

/-- `GetStatistics`, statistics_aggregator.cpp:24-35. -/
def getStatistics (m : List (Int × WStats)) : List WStats := m.map Prod.snd

/-- A history of registrations, starting with an empty aggregator. -/
def run (evs : List Event) : List (Int × WStats) := evs.foldl register []

end Aggregator

/-! ### WorkerPoolFactory -/

namespace Factory

/-- `WorkerPoolType`, worker_pool_factory.h:15-20. -/
inductive Kind
  | thread
  | mpi
  | seq
  deriving DecidableEq, Repr

/-- What the process was built with and runs on: the preprocessor symbols, `boost::thread::hardware_concurrency()` (0 when unknown) and
the size of the MPI communicator.  The process is the MPI server (the constructor of `MpiWorkerPool` never returns in the others,
mpi_worker_pool.cpp:36-40). -/
structure Env where
  withThread : Bool
  withMpi : Bool
  cores : Nat
  mpiSize : Nat

/-- `CanCreateWorkerPool`, worker_pool_factory.cpp:94-118; `created` is the static `was_mpi_worker_pool_created_`. -/
def canCreate (env : Env) (created : Bool) : Kind → Bool
  | .thread => env.withThread
  | .mpi => if env.withMpi then !created else false
  | .seq => true

/-- `CreateWorkerPool`, worker_pool_factory.cpp:59-92 (with thread_worker_pool_templated.h:37-42, 95-98): the static flag and the kind of
pool returned. -/
def create (env : Env) (created : Bool) : Kind → Bool × Res Kind
  | .thread =>
    if env.withThread then
      match Pool.construct env.cores with
      | .ok _ => (created, .ok .thread)
      | .throw w => (created, .throw w)
      | .ub => (created, .ub)
    else (created, .throw "runtime_error")
  | .mpi =>
    if env.withMpi then
      if created then (created, .throw "runtime_error") else (true, .ok .mpi)
    else (created, .throw "runtime_error")
  | .seq => (created, .ok .seq)

/-- `IsValid` of a pool just created: mpi_worker_pool.cpp:49-52, 210-213; thread_worker_pool.cpp:12-15, 39-42;
sequential_worker_pool.cpp:10-13. -/
def isValid (env : Env) : Kind → Bool
  | .thread => decide (env.cores ≥ 2)
  | .mpi => decide (env.mpiSize ≥ 2)
  | .seq => true

/-- The loop of `CreateBestWorkerPool`, worker_pool_factory.cpp:28-56. -/
def bestLoop (env : Env) : Bool → List Kind → Bool × Res Kind
  | created, [] => (created, .throw "runtime_error")
  | created, k :: ks =>
    if canCreate env created k then
      match create env created k with
      | (created', .ok p) => if isValid env p then (created', .ok p) else bestLoop env created' ks
      | (created', .throw w) => (created', .throw w)
      | (created', .ub) => (created', .ub)
    else bestLoop env created ks

/-- `CreateBestWorkerPool`, worker_pool_factory.cpp:23-57. -/
def createBest (env : Env) (created : Bool) : Bool × Res Kind := bestLoop env created [.mpi, .thread, .seq]

/-- The calls of the factory that create something. -/
inductive Op
  | create (k : Kind)
  | best

def step (env : Env) (created : Bool) : Op → Bool × Res Kind
  | .create k => create env created k
  | .best => createBest env created

/-- A history of calls in one process: all outcomes and the final flag. -/
def run (env : Env) : Bool → List Op → Bool × List (Res Kind)
  | created, [] => (created, [])
  | created, op :: ops =>
    let r := step env created op
    let rs := run env r.1 ops
    (rs.1, r.2 :: rs.2)

end Factory

/-! ### DelaySupplier -/

namespace Delay

/-- Fields, delay_supplier.h, and constructor, delay_supplier.cpp:18-23. -/
structure State where
  initial : Nat
  maximum : Nat
  current : Nat
  deriving Repr, DecidableEq

def new : State := ⟨1, 1000, 1⟩

inductive Op
  | increase
  | reset

/-- `IncreaseDelay`, delay_supplier.cpp:30-38, and `ResetDelay`, 40-43. -/
def step (s : State) : Op → State
  | .increase =>
    let s' := { s with current := s.current * 10 }
    if s'.current > s'.maximum then { s' with current := s'.maximum } else s'
  | .reset => { s with current := s.initial }

/-- The delays `SleepWithCurrentDelay` (delay_supplier.cpp:25-28) would use: the state after any history. -/
def run (ops : List Op) : State := ops.foldl step new

end Delay

/-! ### IdentifyableObjectsManager -/

namespace Registry

variable {O : Type}

/-- An object that can be registered: `typeid(object).name()` and `Clone()`, identifyable_objects_manager.cpp:41-44, 36-39. -/
structure Class (O : Type) where
  typeName : O → String
  clone : O → O

/-- `registered_objects_`: a null pointer is `none`. -/
abbrev State (O : Type) := List (String × Option O)

/-- `GetObject`, identifyable_objects_manager.cpp:19-34 (`operator[]` inserts a null pointer for an unknown id). -/
def getObject (m : State O) (id : String) : State O × Res O :=
  let m' := AMap.touch m id none
  match AMap.get? m' id with
  | some (some o) => (m', .ok o)
  | some none => (m', .throw "invalid_argument")
  | none => (m', .ub)  -- impossible: the entry was just created

/-- `RegisterObject`, identifyable_objects_manager.cpp:36-39. -/
def registerObject (c : Class O) (m : State O) (o : O) : State O := AMap.set m (c.typeName o) (some (c.clone o))

inductive Op (O : Type)
  | get (id : String)
  | reg (o : O)

def step (c : Class O) (m : State O) : Op O → State O
  | .get id => (getObject m id).1
  | .reg o => registerObject c m o

/-- The registry after a history of calls. -/
def run (c : Class O) (ops : List (Op O)) : State O := ops.foldl (step c) []

end Registry

/-! ### AsyncCallChain -/

namespace Chain

variable {α : Type}

/-- The `boost::optional<boost::mpi::request>` of a chain. -/
inductive Req
  /-- no request -/
  | none
  /-- the communication is under way -/
  | pending
  /-- the communication is complete, but no `test()` has said so yet -/
  | complete
  /-- a `test()` has been positive; testing again throws -/
  | consumed
  deriving DecidableEq, Repr

/-- Fields of `AsyncCallChain`, async_call_chain.h. -/
structure State (α : Type) where
  queue : List α
  req : Req
  finished : Bool

/-- Constructor, async_call_chain.cpp:20-28. -/
def new (first : α) : State α := ⟨[first], .none, false⟩

/-- Observable outcomes. -/
inductive Out (α : Type)
  | unit
  | bool (b : Bool)
  /-- the call was made -/
  | started (c : α)
  /-- "You cannot make next call ..." -/
  | refused
  /-- `boost::mpi::request::test()` called after it had been positive -/
  | badTest
  /-- undefined behaviour (`front()` of an empty queue) -/
  | ub

/-- Calls on a chain; `mpi` is not a call: the communication of the current request completes. -/
inductive Op (α : Type)
  | add (c : α)
  | isFinished
  | willBeNext
  | makeNext
  | mpi

/-- `IsCurrentCallFinished`, async_call_chain.cpp:35-56; `none` when `test()` throws. -/
def isFinished (s : State α) : State α × Option Bool :=
  if s.finished then (s, some true)
  else match s.req with
    | .none => ({ s with finished := true }, some true)
    | .pending => ({ s with finished := false }, some false)
    | .complete => ({ s with req := .consumed, finished := true }, some true)
    | .consumed => (s, none)

/-- `MakeNextCall`, async_call_chain.cpp:63-75.  `hasReq c` says whether the call `c` starts a communication. -/
def makeNext (hasReq : α → Bool) (s : State α) : State α × Out α :=
  match isFinished s with
  | (s', none) => (s', .badTest)
  | (s', some false) => (s', .refused)
  | (s', some true) =>
    match s'.queue with
    | [] => (s', .ub)
    | c :: cs => (⟨cs, if hasReq c then .pending else .none, false⟩, .started c)

/-- `Add` (async_call_chain.cpp:30-33), `IsCurrentCallFinished` (35-56), `WillBeNextCall` (58-61), `MakeNextCall` (63-75). -/
def step (hasReq : α → Bool) (s : State α) : Op α → State α × Out α
  | .add c => ({ s with queue := s.queue ++ [c] }, .unit)
  | .isFinished =>
    match isFinished s with
    | (s', some b) => (s', .bool b)
    | (s', none) => (s', .badTest)
  | .willBeNext => (s, .bool (!s.queue.isEmpty))
  | .makeNext => makeNext hasReq s
  | .mpi => ((match s.req with
    | .pending => { s with req := .complete }
    | _ => s), .unit)

/-- A history: the final state and the log of operations with their outcomes. -/
def run (hasReq : α → Bool) : State α → List (Op α) → State α × List (Op α × Out α)
  | s, [] => (s, [])
  | s, op :: ops =>
    let r := step hasReq s op
    let rs := run hasReq r.1 ops
    (rs.1, (op, r.2) :: rs.2)

end Chain
end K52
