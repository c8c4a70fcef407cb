import Verif.Model.MpiPool

/-!
# Model of `MpiWorkerPool` with tasks that are never answered

Source: `src/parallel/mpi/mpi_worker_pool.cpp`.  As `Verif.Model.MpiPool`, but the `Perform` of some tasks (`hangs t = true`) does not return on
the worker (line 205).  The server has no time limit: the loop of `WaitAndPopNextExpectation` (lines 126-150) ends only when a result is complete.
-/

namespace K52.Mpi
variable {T M : Type}

/-- All processes, and which workers are inside a `Perform` that does not return (line 205). -/
structure Hang (T M : Type) where
  s : S T M
  hung : Nat → Bool

/-- Steps of the workers and of the message passing.  `work r` of a worker that hangs holds the result it never gets to send. -/
inductive HangRemote (size : Nat) (parts : T → List M) (hangs : T → Bool) : Hang T M → Hang T M → Prop
  /-- lines 188-205: a waiting worker receives a task and starts to perform it -/
  | receive {l} (r m ms) : 1 ≤ r → r < size → l.s.work r = [] → l.s.inbox r = m :: ms →
      HangRemote size parts hangs l
        { s := { l.s with
            inbox := Function.update l.s.inbox r ms
            work := Function.update l.s.work r (parts m.task)
            perf := l.s.perf ++ [m.slot] }
          hung := Function.update l.hung r (hangs m.task) }
  /-- line 206: one message of the result, if `Perform` has returned -/
  | reply {l} (r m ms) : 1 ≤ r → r < size → l.hung r = false → l.s.work r = m :: ms →
      HangRemote size parts hangs l { l with s := { l.s with
        work := Function.update l.s.work r ms
        out := Function.update l.s.out r (l.s.out r ++ [m]) } }
  /-- a message of a worker meets the receive posted first -/
  | deliver {l} (r m ms k ks) : 1 ≤ r → r < size → l.s.out r = m :: ms → l.s.posted r = k :: ks →
      HangRemote size parts hangs l { l with s := { l.s with
        out := Function.update l.s.out r ms
        posted := Function.update l.s.posted r ks
        got := Function.update l.s.got k (l.s.got k ++ [m]) } }

/-- One step of anything; as in `Step`, the label is `false` for fruitless polling by the server (lines 54-151). -/
inductive HangStep (size : Nat) (parts : T → List M) (hangs : T → Bool) : Bool → Hang T M → Hang T M → Prop
  | server {b l s'} : Server size parts b l.s s' → HangStep size parts hangs b l { l with s := s' }
  | remote {l l'} : HangRemote size parts hangs l l' → HangStep size parts hangs true l l'

/-- States the processes can get into; a call of `DoTasks` is that of `Call`. -/
inductive HangReach (size : Nat) (parts : T → List M) (hangs : T → Bool) : Hang T M → Prop
  | init : HangReach size parts hangs ⟨S.init T M, fun _ => false⟩
  | step {b l l'} : HangReach size parts hangs l → HangStep size parts hangs b l l' → HangReach size parts hangs l'
  | call {l s'} : HangReach size parts hangs l → Call size l.s s' → HangReach size parts hangs { l with s := s' }

end K52.Mpi
