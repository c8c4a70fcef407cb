import Mathlib.Logic.Function.Basic

/-!
# Model of `ThreadSafeQueue` used by arbitrary threads

Source: `src/parallel/thread/thread_safe_queue.h`:44-97.  Any number of threads call `Push`, `WaitAndPop` and `TryPop` whenever they like.
Steps are as in `Verif.Model.ThreadPool`: acquiring the mutex, the body of a critical section, releasing it, the notification, waking up
(also spuriously).  `IsEmpty` (lines 99-104) locks a non-mutable mutex in a const member and does not compile when used; it is left out.
-/

namespace K52.TQueue

/-- Where a thread is. -/
inductive Loc (α : Type)
  /-- outside the queue -/
  | idle
  /-- `Push`: about to lock (47) -/
  | pushLock (x : α)
  /-- about to push (49) -/
  | pushBody (x : α)
  /-- about to unlock (57) -/
  | pushUnlock
  /-- about to notify (62) -/
  | pushNotify
  /-- `WaitAndPop`: about to lock (75) -/
  | popLock
  /-- about to test for emptiness (76) -/
  | popTest
  /-- blocked (78) -/
  | popWait
  /-- woken up, about to lock again (78) -/
  | popReacq
  /-- has copied and removed the first element (81-82), about to unlock and return it (83) -/
  | popped (x : α)
  /-- `TryPop`: about to lock (88) -/
  | tryLock
  /-- about to test for emptiness (89) -/
  | tryTest
  /-- about to unlock and return: `none` is `false`, `some x` is `true` with `x` in the reference parameter (91, 94-96) -/
  | tryDone (r : Option α)

/-- The effects in the order they happened; `got t r` is a pop by thread `t` (of either kind; `none` when `TryPop` found nothing). -/
inductive Ev (ι α : Type)
  | put (t : ι) (x : α)
  | got (t : ι) (r : Option α)

/-- The queue, the threads, the history of effects and what the pops of each thread have returned so far. -/
structure S (ι α : Type) where
  items : List α
  owner : Option ι
  loc : ι → Loc α
  log : List (Ev ι α)
  out : ι → List (Option α)

variable {ι α : Type} [DecidableEq ι]

def S.init (ι α : Type) : S ι α where
  items := []
  owner := none
  loc := fun _ => .idle
  log := []
  out := fun _ => []

/-- Moves thread `t` to `l`. -/
def S.go (s : S ι α) (t : ι) (l : Loc α) : S ι α := { s with loc := Function.update s.loc t l }

/-- One step of a thread that is inside the queue. -/
inductive Step : S ι α → S ι α → Prop
  /-- line 47 -/
  | pushLock {s} (t x) : s.loc t = .pushLock x → s.owner = none → Step s { s.go t (.pushBody x) with owner := some t }
  /-- line 49 -/
  | pushBody {s} (t x) : s.loc t = .pushBody x →
      Step s { s.go t .pushUnlock with items := s.items ++ [x], log := s.log ++ [.put t x] }
  /-- line 57 -/
  | pushUnlock {s} (t) : s.loc t = .pushUnlock → Step s { s.go t .pushNotify with owner := none }
  /-- line 62, somebody waits -/
  | notifyOne {s} (t u) : s.loc t = .pushNotify → s.loc u = .popWait → Step s ((s.go u .popReacq).go t .idle)
  /-- line 62, nobody waits -/
  | notifyNone {s} (t) : s.loc t = .pushNotify → (∀ u, s.loc u ≠ .popWait) → Step s (s.go t .idle)
  /-- line 75 -/
  | popLock {s} (t) : s.loc t = .popLock → s.owner = none → Step s { s.go t .popTest with owner := some t }
  /-- line 78, after having been woken up -/
  | popReacq {s} (t) : s.loc t = .popReacq → s.owner = none → Step s { s.go t .popTest with owner := some t }
  /-- lines 76-78 -/
  | popWait {s} (t) : s.loc t = .popTest → s.items = [] → Step s { s.go t .popWait with owner := none }
  /-- lines 81-82 -/
  | popTake {s} (t x xs) : s.loc t = .popTest → s.items = x :: xs →
      Step s { s.go t (.popped x) with items := xs, log := s.log ++ [.got t (some x)] }
  /-- line 83 -/
  | popReturn {s} (t x) : s.loc t = .popped x →
      Step s { s.go t .idle with owner := none, out := Function.update s.out t (s.out t ++ [some x]) }
  /-- line 88 -/
  | tryLock {s} (t) : s.loc t = .tryLock → s.owner = none → Step s { s.go t .tryTest with owner := some t }
  /-- lines 89-91 -/
  | tryEmpty {s} (t) : s.loc t = .tryTest → s.items = [] → Step s { s.go t (.tryDone none) with log := s.log ++ [.got t none] }
  /-- lines 94-96 -/
  | tryTake {s} (t x xs) : s.loc t = .tryTest → s.items = x :: xs →
      Step s { s.go t (.tryDone (some x)) with items := xs, log := s.log ++ [.got t (some x)] }
  /-- lines 91, 96 -/
  | tryReturn {s} (t r) : s.loc t = .tryDone r →
      Step s { s.go t .idle with owner := none, out := Function.update s.out t (s.out t ++ [r]) }

/-- A thread outside the queue calls an operation, or a waiting thread wakes up spuriously. -/
inductive Env : S ι α → S ι α → Prop
  | push {s} (t x) : s.loc t = .idle → Env s (s.go t (.pushLock x))
  | pop {s} (t) : s.loc t = .idle → Env s (s.go t .popLock)
  | try_ {s} (t) : s.loc t = .idle → Env s (s.go t .tryLock)
  | spurious {s} (t) : s.loc t = .popWait → Env s (s.go t .popReacq)

/-- States the queue and its threads can get into. -/
inductive Reach : S ι α → Prop
  | init : Reach (S.init ι α)
  | step {s s'} : Reach s → Step s s' → Reach s'
  | env {s s'} : Reach s → Env s s' → Reach s'

end K52.TQueue
