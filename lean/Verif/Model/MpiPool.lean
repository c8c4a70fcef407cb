import Verif.Model.Res
import Mathlib.Logic.Function.Basic

/-!
# Model of `MpiWorkerPool`

Source: `src/parallel/mpi/mpi_worker_pool.cpp`.  A labelled transition system: the server process (rank 0), the workers (ranks
1 .. size-1) and the message passing.

* Sending a task (its type name and `IMpiTask::Send`, lines 105-106) is one message; a result is the list of messages its `Send` produces
  (`parts`).  The call chain of the empty result has one receive per message (that the receiving side matches the sending side type by type is
  C33) and there is at least one (lines 113-116).  Each of these calls posts a receive and returns; chains with calls that receive
  blockingly are modelled in `Verif.Model.MpiBlocking`.
* MPI delivers the messages of one process to another in order; a posted receive gets the next message in order of posting.
* Sends are buffered.  (By `C28_worker_ready` the receiver of a task is always waiting for it, so rendezvous sends would not block either.)
* All tasks are `IMpiTask`s (line 173 throws otherwise) and performing them returns; a worker that crashes is not modelled.
* A slot is the index of a task and its result in the vectors of `DoTasks`; the slot inside a task message and the lists `perf` and `stats` are
  history.
-/

namespace K52.Mpi

/-- `ResultExpectation`, mpi_worker_pool.cpp:20-24: the rank, the result to fill, and how many calls of the chain are still queued. -/
structure Exp where
  rank : Nat
  slot : Nat
  left : Nat
  deriving DecidableEq, Repr

/-- A task on its way to a worker. -/
structure Msg (T : Type) where
  slot : Nat
  task : T

/-- Where the server is. -/
inductive Loc
  /-- not in `DoTasks` -/
  | idle
  /-- line 65, about to test `i < tasks.size()`; `cur` is `current_worker_rank`, `first` is `was_first_part_sent` -/
  | send (i cur : Nat) (first : Bool)
  /-- line 128 at position `pos` of the list; called from line 82 (`some i`: the loop goes on with task `i`) or line 90 (`none`) -/
  | scan (pos : Nat) (next : Option Nat)
  deriving DecidableEq

/-- The state of all processes and of the messages between them. -/
structure S (T M : Type) where
  loc : Loc
  batch : List T
  /-- `result_expectations` -/
  exps : List Exp
  /-- task messages sent to a worker and not received yet -/
  inbox : Nat → List (Msg T)
  /-- messages of its result a worker has still to send; empty: it waits for a task (line 188) -/
  work : Nat → List M
  /-- messages sent by a worker and not received yet -/
  out : Nat → List M
  /-- slots of the receives posted for messages of a worker -/
  posted : Nat → List Nat
  /-- the messages received for a result -/
  got : Nat → List M
  perf : List Nat
  stats : List Nat

variable {T M : Type}

def S.init (T M : Type) : S T M where
  loc := .idle
  batch := []
  exps := []
  inbox := fun _ => []
  work := fun _ => []
  out := fun _ => []
  posted := fun _ => []
  got := fun _ => []
  perf := []
  stats := []

/-- Lines 71-84: after sending task `i` to `cur`. -/
def afterSend (size i cur : Nat) (first : Bool) : Loc :=
  if first then .scan 0 (some (i + 1))
  else if cur + 1 ≥ size then .scan 0 (some (i + 1))
  else .send (i + 1) (cur + 1) false

/-- Lines 88-93. -/
def drain (exps : List Exp) : Loc :=
  if exps.isEmpty then .idle else .scan 0 none

/-- Lines 82-83 and 90: where a popped expectation of `rank` leads. -/
def afterPop (exps : List Exp) (rank : Nat) : Option Nat → Loc
  | some i => .send i rank true
  | none => drain exps

/-- Steps of the server. The label tells productive steps (`true`) from fruitless polling (`false`). -/
inductive Server (size : Nat) (parts : T → List M) : Bool → S T M → S T M → Prop
  /-- lines 67-69 with `SendTask`, 101-121 -/
  | sendTask {s} (i cur first t) : s.loc = .send i cur first → s.batch[i]? = some t →
      Server size parts true s { s with
        loc := afterSend size i cur first
        inbox := Function.update s.inbox cur (s.inbox cur ++ [⟨i, t⟩])
        posted := Function.update s.posted cur (s.posted cur ++ [i])
        exps := s.exps ++ [⟨cur, i, (parts t).length - 1⟩] }
  /-- lines 65, 88 -/
  | sendEnd {s} (i cur first) : s.loc = .send i cur first → s.batch[i]? = none →
      Server size parts true s { s with loc := drain s.exps }
  /-- line 132: the current call is not finished -/
  | scanPending {s} (pos next e) : s.loc = .scan pos next → s.exps[pos]? = some e → e.slot ∈ s.posted e.rank →
      Server size parts false s { s with loc := .scan (pos + 1) next }
  /-- lines 134-137 -/
  | scanNext {s} (pos next e l) : s.loc = .scan pos next → s.exps[pos]? = some e → e.slot ∉ s.posted e.rank → e.left = l + 1 →
      Server size parts true s { s with
        loc := .scan (pos + 1) next
        posted := Function.update s.posted e.rank (s.posted e.rank ++ [e.slot])
        exps := s.exps.set pos { e with left := l } }
  /-- lines 140-143 -/
  | scanPop {s} (pos next e) : s.loc = .scan pos next → s.exps[pos]? = some e → e.slot ∉ s.posted e.rank → e.left = 0 →
      Server size parts true s { s with
        loc := afterPop (s.exps.eraseIdx pos) e.rank next
        exps := s.exps.eraseIdx pos
        stats := s.stats ++ [e.rank] }
  /-- lines 148-149 -/
  | scanWrap {s} (pos next) : s.loc = .scan pos next → s.exps[pos]? = none →
      Server size parts false s { s with loc := .scan 0 next }

/-- Steps of the workers and of the message passing. -/
inductive Remote (size : Nat) (parts : T → List M) : S T M → S T M → Prop
  /-- lines 188-205: a waiting worker receives a task and performs it -/
  | receive {s} (r m ms) : 1 ≤ r → r < size → s.work r = [] → s.inbox r = m :: ms →
      Remote size parts s { s with
        inbox := Function.update s.inbox r ms
        work := Function.update s.work r (parts m.task)
        perf := s.perf ++ [m.slot] }
  /-- line 206: one message of the result -/
  | reply {s} (r m ms) : 1 ≤ r → r < size → s.work r = m :: ms →
      Remote size parts s { s with
        work := Function.update s.work r ms
        out := Function.update s.out r (s.out r ++ [m]) }
  /-- a message of a worker meets the receive posted first -/
  | deliver {s} (r m ms k ks) : 1 ≤ r → r < size → s.out r = m :: ms → s.posted r = k :: ks →
      Remote size parts s { s with
        out := Function.update s.out r ms
        posted := Function.update s.posted r ks
        got := Function.update s.got k (s.got k ++ [m]) }

/-- One step of anything; the label is `false` for fruitless polling by the server. -/
inductive Step (size : Nat) (parts : T → List M) : Bool → S T M → S T M → Prop
  | server {b s s'} : Server size parts b s s' → Step size parts b s s'
  | remote {s s'} : Remote size parts s s' → Step size parts true s s'

/-- A call of `DoTasks` (lines 54-63); lines 56-57 throw with fewer than two processes. -/
inductive Call (size : Nat) : S T M → S T M → Prop
  | doTasks {s} (tasks : List T) : s.loc = .idle → 2 ≤ size →
      Call size s { s with loc := .send 0 1 false, batch := tasks, got := fun _ => [], perf := [], stats := [] }

/-- States the system can get into. -/
inductive Reach (size : Nat) (parts : T → List M) : S T M → Prop
  | init : Reach size parts (S.init T M)
  | step {b s s'} : Reach size parts s → Step size parts b s s' → Reach size parts s'
  | call {s s'} : Reach size parts s → Call size s s' → Reach size parts s'

/-- `CheckAvailableWorkers`, lines 210-223. -/
def checkAvailable (size : Nat) : Res Unit :=
  if size ≥ 2 then .ok () else .throw "runtime_error"

end K52.Mpi
