import Mathlib.Logic.Function.Basic
import Verif.Model.Res

/-!
# Model of the thread pool: queue, workers, `DoTasks` and destructor, as a transition system

Sources: `src/parallel/thread/thread_safe_queue.h`:44-97, `worker.h`:35-86, `thread_worker_pool_templated.h`:37-106,
`thread_worker_pool.cpp`:17-51, `thread_worker_pool_task.cpp`:18-21.

The threads are the one that owns the pool (`none`; it calls `DoTasks` and the destructor) and the workers (`some i`).  One step is one
action between two points where the scheduler may switch: acquiring a mutex, the body of a critical section, releasing the mutex, the
notification after it, waking up, performing a task, an interruption point.  `condition_variable::wait` releases the mutex and blocks in
one step and has to acquire the mutex again after a notification; it may also wake up spuriously (`Spurious`).

Simplifications: sequentially consistent memory; a task is a pure function of the task object that returns or throws a `std::exception`
(anything else would end the process); a thread blocked in `wait` that is interrupted leaves through the exception after taking the mutex
again; tasks contain no interruption points of their own; the pool is used by one thread at a time.
-/

namespace K52.Pool

/-- `ThreadWorkerPoolTask`: the task and the index of the result slot it writes to. -/
structure Elem (T : Type) where
  task : T
  slot : Nat

/-- Thread identities: `none` is the owner of the pool. -/
abbrev Tid (w : Nat) := Option (Fin w)

/-- Where a thread is inside `Push`, thread_safe_queue.h:44-64. -/
inductive PushPh
  /-- about to lock the mutex (47) -/
  | lock
  /-- holds the mutex, about to push (49) -/
  | body
  /-- holds the mutex, about to unlock (57) -/
  | unlock
  /-- about to `notify_one` (62) -/
  | notify
  deriving DecidableEq

/-- Where a thread is inside `WaitAndPop`, thread_safe_queue.h:72-83. -/
inductive PopPh
  /-- about to lock the mutex (75) -/
  | lock
  /-- holds the mutex, about to evaluate `queue_.empty()` (76) -/
  | test
  /-- blocked in `wait` (78) -/
  | wait
  /-- woken up, about to lock the mutex again (78) -/
  | reacq
  /-- interrupted while waiting, about to lock the mutex again (78) -/
  | abortLock
  /-- the interruption exception unwinds, the mutex is still held (75) -/
  | abortUnlock
  deriving DecidableEq

/-- Program points.  Queue `false` is `tasks_to_do_`, queue `true` is `done_tasks_`. -/
inductive Loc (T : Type)
  /-- the owner is not using the pool -/
  | idle
  | push (q : Bool) (ph : PushPh) (x : Elem T)
  /-- in `WaitAndPop`; `c` is the loop counter of `DoTasks` (templated.h:91), 0 for workers -/
  | pop (q : Bool) (ph : PopPh) (c : Nat)
  /-- an element was removed, the mutex is still held (82-83) -/
  | popped (q : Bool) (x : Elem T) (c : Nat)
  /-- worker.h:63, about to `DoTask` -/
  | run (x : Elem T)
  /-- worker.h:78, interruption point at the end of the loop body -/
  | check
  /-- worker.h:69,83: the thread function has returned -/
  | dead
  /-- destructor, templated.h:54-57 -/
  | stop (k : Nat)
  /-- destructor, templated.h:60-63 -/
  | join (k : Nat)
  /-- the destructor has returned -/
  | gone

variable {T R : Type} {w : Nat}

/-- State of the pool, its threads and the vector of results of the current call.  The last three fields are history: which elements
were performed, which were taken by `DoTasks` from the queue of finished tasks, and which threw. -/
structure S (T R : Type) (w : Nat) where
  items : Bool → List (Elem T)
  owner : Bool → Option (Tid w)
  loc : Tid w → Loc T
  flag : Fin w → Bool
  batch : List T
  results : List (Option R)
  perf : List (Elem T)
  got : List (Elem T)
  lost : List (Elem T)

/-- After construction (templated.h:44-50, 92-106): every worker thread has started, nothing is queued. -/
def S.init (T R : Type) (w : Nat) : S T R w where
  items := fun _ => []
  owner := fun _ => none
  loc := fun t => match t with
    | none => .idle
    | some _ => .pop false .lock 0
  flag := fun _ => false
  batch := []
  results := []
  perf := []
  got := []
  lost := []

/-- `DoTasks`, templated.h:79-83: push the `k`-th task next, or go on to line 85 when all are pushed; thread_worker_pool.cpp:25-28 pairs
the `k`-th task with the `k`-th result. -/
def mainPop (n c : Nat) : Loc T :=
  if c < n then .pop true .lock c else .idle

/-- See `mainPop`: the pushing loop, templated.h:79-83. -/
def mainPush (batch : List T) (k : Nat) : Loc T :=
  match batch[k]? with
  | some a => .push false .lock ⟨a, k⟩
  | none => mainPop batch.length 0

/-- Where a thread goes after `Push` has returned: the owner to the next task, a worker to line 78 of worker.h. -/
def afterPush (batch : List T) : Tid w → Elem T → Loc T
  | none, x => mainPush batch (x.slot + 1)
  | some _, _ => .check

/-- Where a thread goes after `WaitAndPop` has returned: the owner counts (templated.h:85-89), a worker performs the task (worker.h:63). -/
def afterPop (batch : List T) : Tid w → Elem T → Nat → Loc T
  | none, _, c => mainPop batch.length (c + 1)
  | some _, x, _ => .run x

/-- Is an interruption of the thread requested? (Only workers are ever interrupted.) -/
def S.intr (s : S T R w) : Tid w → Bool
  | none => false
  | some i => s.flag i

/-- Moves thread `t` to `l`. -/
def S.go (s : S T R w) (t : Tid w) (l : Loc T) : S T R w := { s with loc := Function.update s.loc t l }

/-- Sets the owner of the mutex of queue `q`. -/
def S.own (s : S T R w) (q : Bool) (o : Option (Tid w)) : S T R w := { s with owner := Function.update s.owner q o }

/-- Replaces the contents of queue `q`. -/
def S.put (s : S T R w) (q : Bool) (l : List (Elem T)) : S T R w := { s with items := Function.update s.items q l }

/-- One step of one thread. `perform` is `ITask::Perform`, `none` when it throws. -/
inductive Step (perform : T → Option R) : S T R w → S T R w → Prop
  /-- thread_safe_queue.h:47 -/
  | pushLock {s} (t q x) : s.loc t = .push q .lock x → s.owner q = none →
      Step perform s ((s.own q (some t)).go t (.push q .body x))
  /-- thread_safe_queue.h:49 -/
  | pushBody {s} (t q x) : s.loc t = .push q .body x →
      Step perform s ((s.put q (s.items q ++ [x])).go t (.push q .unlock x))
  /-- thread_safe_queue.h:57 -/
  | pushUnlock {s} (t q x) : s.loc t = .push q .unlock x →
      Step perform s ((s.own q none).go t (.push q .notify x))
  /-- thread_safe_queue.h:62, some thread is waiting -/
  | notifyOne {s} (t q x u c) : s.loc t = .push q .notify x → s.loc u = .pop q .wait c →
      Step perform s ((s.go u (.pop q .reacq c)).go t (afterPush s.batch t x))
  /-- thread_safe_queue.h:62, no thread is waiting -/
  | notifyNone {s} (t q x) : s.loc t = .push q .notify x → (∀ u c, s.loc u ≠ .pop q .wait c) →
      Step perform s (s.go t (afterPush s.batch t x))
  /-- thread_safe_queue.h:75 -/
  | popLock {s} (t q c) : s.loc t = .pop q .lock c → s.owner q = none →
      Step perform s ((s.own q (some t)).go t (.pop q .test c))
  /-- thread_safe_queue.h:78, after being woken up -/
  | popReacq {s} (t q c) : s.loc t = .pop q .reacq c → s.owner q = none →
      Step perform s ((s.own q (some t)).go t (.pop q .test c))
  /-- thread_safe_queue.h:76-78 -/
  | testEmpty {s} (t q c) : s.loc t = .pop q .test c → s.items q = [] → s.intr t = false →
      Step perform s ((s.own q none).go t (.pop q .wait c))
  /-- thread_safe_queue.h:76-78, `wait` throws at once -/
  | testIntr {s} (t q c) : s.loc t = .pop q .test c → s.items q = [] → s.intr t = true →
      Step perform s (s.go t (.pop q .abortUnlock c))
  /-- thread_safe_queue.h:81-82 by a worker -/
  | takeWorker {s} (i q c x xs) : s.loc (some i) = .pop q .test c → s.items q = x :: xs →
      Step perform s ((s.put q xs).go (some i) (.popped q x c))
  /-- thread_safe_queue.h:81-82 by the owner (who records what it took) -/
  | takeMain {s} (q c x xs) : s.loc none = .pop q .test c → s.items q = x :: xs →
      Step perform s { (s.put q xs).go none (.popped q x c) with got := s.got ++ [x] }
  /-- thread_safe_queue.h:83 -/
  | popUnlock {s} (t q x c) : s.loc t = .popped q x c →
      Step perform s ((s.own q none).go t (afterPop s.batch t x c))
  /-- worker.h:63-64, thread_worker_pool_task.cpp:20 -/
  | runOk {s} (t x r) : s.loc t = .run x → perform x.task = some r →
      Step perform s { s.go t (.push true .lock x) with results := s.results.set x.slot (some r), perf := s.perf ++ [x] }
  /-- worker.h:63, 71-74: the exception is printed and swallowed, line 64 is skipped -/
  | runThrow {s} (t x) : s.loc t = .run x → perform x.task = none →
      Step perform s { s.go t .check with perf := s.perf ++ [x], lost := s.lost ++ [x] }
  /-- worker.h:78, not interrupted -/
  | checkGo {s} (t) : s.loc t = .check → s.intr t = false → Step perform s (s.go t (.pop false .lock 0))
  /-- worker.h:78-84, interrupted -/
  | checkIntr {s} (t) : s.loc t = .check → s.intr t = true → Step perform s (s.go t .dead)
  /-- thread_safe_queue.h:78, interrupted while blocked -/
  | waitIntr {s} (t q c) : s.loc t = .pop q .wait c → s.intr t = true → Step perform s (s.go t (.pop q .abortLock c))
  /-- thread_safe_queue.h:78 -/
  | abortLock {s} (t q c) : s.loc t = .pop q .abortLock c → s.owner q = none →
      Step perform s ((s.own q (some t)).go t (.pop q .abortUnlock c))
  /-- thread_safe_queue.h:75 (unwinding), worker.h:66-70 -/
  | abortUnlock {s} (t q c) : s.loc t = .pop q .abortUnlock c →
      Step perform s ((s.own q none).go t .dead)
  /-- templated.h:54-57 -/
  | stop {s} (k : Fin w) : s.loc none = .stop k →
      Step perform s { s.go none (.stop (k + 1)) with flag := Function.update s.flag k true }
  | stopEnd {s} (k) : s.loc none = .stop k → w ≤ k → Step perform s (s.go none (.join 0))
  /-- templated.h:60-63 -/
  | join {s} (k : Fin w) : s.loc none = .join k → s.loc (some k) = .dead → Step perform s (s.go none (.join (k + 1)))
  | joinEnd {s} (k) : s.loc none = .join k → w ≤ k → Step perform s (s.go none .gone)

/-- A spurious wake-up of a waiting thread. -/
inductive Spurious : S T R w → S T R w → Prop
  | wake {s} (t q c) : s.loc t = .pop q .wait c → Spurious s (s.go t (.pop q .reacq c))

/-- What the owner of the pool may do between calls: `DoTasks` (thread_worker_pool.cpp:17-32; it throws with fewer than two workers,
lines 44-51, and the pool is unchanged) or destroy the pool. -/
inductive Call : S T R w → S T R w → Prop
  | doTasks {s} (tasks : List T) : s.loc none = .idle → 2 ≤ w →
      Call s { s.go none (mainPush tasks 0) with
        batch := tasks, results := List.replicate tasks.length none, perf := [], got := [], lost := [] }
  | destroy {s} : s.loc none = .idle → Call s (s.go none (.stop 0))

/-- Anything that can happen next. -/
inductive Next (perform : T → Option R) (s s' : S T R w) : Prop
  | step : Step perform s s' → Next perform s s'
  | spurious : Spurious s s' → Next perform s s'
  | call : Call s s' → Next perform s s'

/-- States the system can get into. -/
inductive Reach (perform : T → Option R) : S T R w → Prop
  | init : Reach perform (S.init T R w)
  | next {s s'} : Reach perform s → Next perform s s' → Reach perform s'

/-- The checks of the pool: `Initialize` (templated.h:95-98) and `CheckAvailableWorkers` (thread_worker_pool.cpp:39-51). -/
def construct (workers : Int) : Res Nat :=
  if workers ≤ 0 then .throw "invalid_argument" else .ok workers.toNat

def checkAvailable (w : Nat) : Res Unit :=
  if 2 ≤ w then .ok () else .throw "runtime_error"

end K52.Pool
