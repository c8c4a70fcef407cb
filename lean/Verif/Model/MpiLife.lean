import Verif.Model.MpiPool

/-!
# Model of the life of an `MpiWorkerPool`: tasks it cannot send, its destructor, the end of the worker processes

Source: `src/parallel/mpi/mpi_worker_pool.cpp`.  On top of `Verif.Model.MpiPool` (calls of `DoTasks`):

* a task in the batch that is not an `IMpiTask` (`mpi t = false`): `GetMpiTask` throws in the middle of the batch (lines 67, 169-179); the local
  list of expected results and the results themselves are destroyed, whatever receives are posted for them;
* the destructor (lines 43-47, 225-235) sends every worker the end-of-work message; a worker that receives it leaves (lines 195-199).

The program may go on after the exception.  A message that meets a receive posted for a destroyed result is written to freed memory
(`WritesFreed`): undefined, not followed.  The constructor runs `RunWorkerLoop` on all ranks but 0 (lines 26-41); there it never returns, so calls
on other ranks than 0 (lines 237-247) do not arise.
-/

namespace K52.Mpi
variable {T M : Type}

/-- What the server process is doing with the pool. -/
inductive Phase
  /-- the pool exists; `loc` of `S` tells where in `DoTasks` it is -/
  | working
  /-- the last `DoTasks` threw -/
  | threw
  /-- in the destructor, about to send end-of-work to rank `k` (line 229; `k = size`: all sent) -/
  | ending (k : Nat)
  deriving DecidableEq

/-- The whole state: that of `MpiPool`, the phase, which workers were sent the end-of-work message and which have left.  `failures` is history:
how many calls of `DoTasks` threw. -/
structure Life (T M : Type) where
  s : S T M
  phase : Phase
  ended : Nat → Bool
  left : Nat → Bool
  failures : Nat

/-- After the constructor, lines 26-41. -/
def Life.init (T M : Type) : Life T M := ⟨S.init T M, .working, fun _ => false, fun _ => false, 0⟩

/-- Steps. -/
inductive LifeStep (size : Nat) (parts : T → List M) (mpi : T → Bool) : Life T M → Life T M → Prop
  /-- the server in `DoTasks`; a task is only sent if it is an `IMpiTask` (line 67) -/
  | server {l b s'} : l.phase = .working → Server size parts b l.s s' →
      (∀ i cur first t, l.s.loc = .send i cur first → l.s.batch[i]? = some t → mpi t = true) → LifeStep size parts mpi l { l with s := s' }
  /-- lines 67, 169-179: the exception leaves `DoTasks` -/
  | throws {l} (i cur first t) : l.phase = .working → l.s.loc = .send i cur first → l.s.batch[i]? = some t → mpi t = false →
      LifeStep size parts mpi l { l with phase := .threw, failures := l.failures + 1 }
  /-- a waiting worker receives a task and performs it -/
  | receive {l} (r m ms) : 1 ≤ r → r < size → l.left r = false → l.s.work r = [] → l.s.inbox r = m :: ms →
      LifeStep size parts mpi l { l with s := { l.s with
        inbox := Function.update l.s.inbox r ms
        work := Function.update l.s.work r (parts m.task)
        perf := l.s.perf ++ [m.slot] } }
  /-- a worker sends one message of its result -/
  | reply {l} (r m ms) : 1 ≤ r → r < size → l.left r = false → l.s.work r = m :: ms →
      LifeStep size parts mpi l { l with s := { l.s with
        work := Function.update l.s.work r ms
        out := Function.update l.s.out r (l.s.out r ++ [m]) } }
  /-- a message meets a receive posted by the present `DoTasks` -/
  | deliver {l} (r m ms k ks) : l.phase = .working → 1 ≤ r → r < size → l.s.out r = m :: ms → l.s.posted r = k :: ks →
      LifeStep size parts mpi l { l with s := { l.s with
        out := Function.update l.s.out r ms
        posted := Function.update l.s.posted r ks
        got := Function.update l.s.got k (l.s.got k ++ [m]) } }
  /-- `DoTasks` -/
  | call {l s'} : l.phase = .working → Call size l.s s' → LifeStep size parts mpi l { l with s := s' }
  /-- `DoTasks` after one that threw, when none of its receives is outstanding -/
  | again {l s'} : l.phase = .threw → (∀ r, l.s.posted r = []) → Call size { l.s with loc := .idle, exps := [] } s' →
      LifeStep size parts mpi l { l with s := s', phase := .working }
  /-- the destructor is called, lines 43-45, 225-228 -/
  | destroy {l} : (l.phase = .working ∧ l.s.loc = .idle) ∨ l.phase = .threw → LifeStep size parts mpi l { l with phase := .ending 1 }
  /-- lines 229-232 -/
  | sendEnd {l} (k) : l.phase = .ending k → k < size →
      LifeStep size parts mpi l { l with phase := .ending (k + 1), ended := Function.update l.ended k true }
  /-- lines 188-199: a waiting worker receives end-of-work, which was sent after all its tasks, and exits -/
  | leave {l} (r) : 1 ≤ r → r < size → l.left r = false → l.s.work r = [] → l.s.inbox r = [] → l.ended r = true →
      LifeStep size parts mpi l { l with left := Function.update l.left r true }

/-- States the processes can get into. -/
inductive LifeReach (size : Nat) (parts : T → List M) (mpi : T → Bool) : Life T M → Prop
  | init : LifeReach size parts mpi (Life.init T M)
  | step {l l'} : LifeReach size parts mpi l → LifeStep size parts mpi l l' → LifeReach size parts mpi l'

/-- A message meets a receive posted for a result that was destroyed when `DoTasks` threw. -/
def Life.WritesFreed (l : Life T M) : Prop := l.phase ≠ .working ∧ ∃ r, l.s.out r ≠ [] ∧ l.s.posted r ≠ []

end K52.Mpi
