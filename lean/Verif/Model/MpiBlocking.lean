import Verif.Model.MpiPool

/-!
# Model of `MpiWorkerPool` with results that are received partly by blocking calls

Sources: `src/parallel/mpi/mpi_worker_pool.cpp`, `src/optimization/optimization_task_result.cpp`:39-79,
`src/optimization/objective_function_task_result.cpp`:28-44.

`Verif.Model.MpiPool` lets every call of the chain of a result post one receive and return.  The second call of the chain of an
`OptimizationTaskResult` does not: `ReceiveParametersAsyncCall` receives the parameters with blocking `recv`s inside `MakeNextCall` and returns no
request (optimization_task_result.cpp:66-79).  While it waits, the server does nothing else.

Here a chain starts with a call that posts a receive (the first call of both result classes of the library) and goes on with any list `rest t` of
calls of either kind.  Workers and message passing are those of `MpiPool` (`Remote`): a blocking `recv` is a receive posted and waited for.
-/

namespace K52.Mpi
variable {T M : Type}

/-- A call of a chain: `async` posts one receive and returns its request; `sync k` receives `k` messages one after the other, waiting for each,
and returns no request. -/
inductive Kind
  | async
  | sync (k : Nat)
  deriving DecidableEq, Repr

/-- The number of messages a call receives. -/
def Kind.size : Kind → Nat
  | .async => 1
  | .sync k => k

/-- The state of `MpiPool`, the calls still queued in the chain of each result, and `block`: while the server is inside a blocking call for the
result at the present position of its list, how many messages this call has still to ask for.  (`left` of an expectation is the number of
messages not yet asked for; no step depends on it.) -/
structure Blk (T M : Type) where
  s : S T M
  chain : Nat → List Kind
  block : Option Nat

/-- After the constructor, mpi_worker_pool.cpp:26-41. -/
def Blk.init (T M : Type) : Blk T M := ⟨S.init T M, fun _ => [], none⟩

/-- Steps of the server; the label tells productive steps (`true`) from fruitless polling (`false`). -/
inductive BlkServer (size : Nat) (parts : T → List M) (rest : T → List Kind) : Bool → Blk T M → Blk T M → Prop
  /-- mpi_worker_pool.cpp:67-69 with `SendTask`, 101-121: the task is sent and the first call of the chain posts a receive -/
  | sendTask {b} (i cur first t) : b.block = none → b.s.loc = .send i cur first → b.s.batch[i]? = some t →
      BlkServer size parts rest true b { b with
        s := { b.s with
          loc := afterSend size i cur first
          inbox := Function.update b.s.inbox cur (b.s.inbox cur ++ [⟨i, t⟩])
          posted := Function.update b.s.posted cur (b.s.posted cur ++ [i])
          exps := b.s.exps ++ [⟨cur, i, (parts t).length - 1⟩] }
        chain := Function.update b.chain i (rest t) }
  /-- mpi_worker_pool.cpp:65, 88 -/
  | sendEnd {b} (i cur first) : b.block = none → b.s.loc = .send i cur first → b.s.batch[i]? = none →
      BlkServer size parts rest true b { b with s := { b.s with loc := drain b.s.exps } }
  /-- mpi_worker_pool.cpp:132: the current call is not finished -/
  | scanPending {b} (pos next e) : b.block = none → b.s.loc = .scan pos next → b.s.exps[pos]? = some e → e.slot ∈ b.s.posted e.rank →
      BlkServer size parts rest false b { b with s := { b.s with loc := .scan (pos + 1) next } }
  /-- mpi_worker_pool.cpp:134-137, the next call posts a receive -/
  | scanAsync {b} (pos next e cs) : b.block = none → b.s.loc = .scan pos next → b.s.exps[pos]? = some e → e.slot ∉ b.s.posted e.rank →
      b.chain e.slot = .async :: cs →
      BlkServer size parts rest true b { b with
        s := { b.s with
          loc := .scan (pos + 1) next
          posted := Function.update b.s.posted e.rank (b.s.posted e.rank ++ [e.slot])
          exps := b.s.exps.set pos { e with left := e.left - 1 } }
        chain := Function.update b.chain e.slot cs }
  /-- mpi_worker_pool.cpp:134-137, the next call is a blocking one: the server enters it -/
  | scanSync {b} (pos next e k cs) : b.block = none → b.s.loc = .scan pos next → b.s.exps[pos]? = some e → e.slot ∉ b.s.posted e.rank →
      b.chain e.slot = .sync k :: cs →
      BlkServer size parts rest true b { b with
        chain := Function.update b.chain e.slot cs
        block := some k }
  /-- optimization_task_result.cpp:76: inside the blocking call, the next `recv` -/
  | recvPost {b} (pos next e k) : b.block = some (k + 1) → b.s.loc = .scan pos next → b.s.exps[pos]? = some e → e.slot ∉ b.s.posted e.rank →
      BlkServer size parts rest true b { b with
        s := { b.s with
          posted := Function.update b.s.posted e.rank (b.s.posted e.rank ++ [e.slot])
          exps := b.s.exps.set pos { e with left := e.left - 1 } }
        block := some k }
  /-- optimization_task_result.cpp:78: the last `recv` of the blocking call has returned -/
  | recvEnd {b} (pos next e) : b.block = some 0 → b.s.loc = .scan pos next → b.s.exps[pos]? = some e → e.slot ∉ b.s.posted e.rank →
      BlkServer size parts rest true b { b with
        s := { b.s with loc := .scan (pos + 1) next }
        block := none }
  /-- mpi_worker_pool.cpp:140-143 -/
  | scanPop {b} (pos next e) : b.block = none → b.s.loc = .scan pos next → b.s.exps[pos]? = some e → e.slot ∉ b.s.posted e.rank →
      b.chain e.slot = [] →
      BlkServer size parts rest true b { b with
        s := { b.s with
          loc := afterPop (b.s.exps.eraseIdx pos) e.rank next
          exps := b.s.exps.eraseIdx pos
          stats := b.s.stats ++ [e.rank] } }
  /-- mpi_worker_pool.cpp:148-149 -/
  | scanWrap {b} (pos next) : b.block = none → b.s.loc = .scan pos next → b.s.exps[pos]? = none →
      BlkServer size parts rest false b { b with s := { b.s with loc := .scan 0 next } }

/-- One step of anything; as in `Step`, the label is `false` for fruitless polling by the server (mpi_worker_pool.cpp:54-151). -/
inductive BlkStep (size : Nat) (parts : T → List M) (rest : T → List Kind) : Bool → Blk T M → Blk T M → Prop
  | server {l b b'} : BlkServer size parts rest l b b' → BlkStep size parts rest l b b'
  | remote {b s'} : Remote size parts b.s s' → BlkStep size parts rest true b { b with s := s' }

/-- States the processes can get into; a call of `DoTasks` is that of `Call`. -/
inductive BlkReach (size : Nat) (parts : T → List M) (rest : T → List Kind) : Blk T M → Prop
  | init : BlkReach size parts rest (Blk.init T M)
  | step {l b b'} : BlkReach size parts rest b → BlkStep size parts rest l b b' → BlkReach size parts rest b'
  | call {b s'} : BlkReach size parts rest b → Call size b.s s' → BlkReach size parts rest { b with s := s' }

/-- The shape of the chain of an `OptimizationTaskResult` after its first call, optimization_task_result.cpp:39-50, whose parameters are sent in
`n` messages. -/
def optimizationRest (n : Nat) : List Kind := [.sync n]

/-- The same for an `ObjectiveFunctionTaskResult`, objective_function_task_result.cpp:28-34: there is no second call. -/
def valueRest : List Kind := []

end K52.Mpi
