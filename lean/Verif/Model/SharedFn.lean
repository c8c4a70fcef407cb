import Mathlib.Logic.Function.Basic
import Verif.Model.Res

/-!
# Which objects the tasks of a thread pool share

Sources: `src/optimization/objective_function_counter.cpp`:128-140, `count_objective_function_task.cpp`:26-31, 90-103,
`optimization_task.cpp`:32-41, 140-147, `optimization_parameters_processor.cpp`:27-46.

C24 treats what a task computes as a function of the task.  Here the objects that `Perform` works on have a memory: `operator()` of an objective
function is `const`, but it may write members that are `mutable` or behind a pointer (as `FastFourierTransform::Transform` does, C120).  A task performs a
sequence of steps, each of which may change the memory of its object, and the workers of the pool are interleaved between the steps.

Simplifications: sequentially consistent memory; a task works on one object (for an optimization task: function, parameters and optimizer together); the
parameters of a counting task are only read; the order in which workers take tasks is arbitrary (the pool's own order is one of them).
-/

namespace K52.SharedFn

/-- What `Perform` does with an argument, for objects with memory `M`: where it starts, and its steps, which end with a result. -/
structure Code (P M L V : Type) where
  start : P → L
  step : M → L → M × (L ⊕ V)

/-- The objects in memory. -/
structure Heap (M : Type) where
  mem : Nat → M
  next : Nat

/-- A task: the object it works on, and its parameters. -/
structure Task (P : Type) where
  obj : Nat
  arg : P

variable {P M L V : Type}

/-- `ObjectiveFunctionCounter::CreateRawTasks`, objective_function_counter.cpp:128-140: every task gets the address of the same
function (count_objective_function_task.cpp:26-31 stores it). -/
def createRawTasks (fn : Nat) : List P → List (Task P)
  | [] => []
  | p :: ps => ⟨fn, p⟩ :: createRawTasks fn ps

/-- The tasks of `OptimizationParametersProcessor::ProcessParameters`, optimization_parameters_processor.cpp:32-43: the constructor of each one clones what it is given
(optimization_task.cpp:38-40). -/
def createOptimizationTasks (clone : M → M) (fn : Nat) : Heap M → List P → Heap M × List (Task P)
  | h, [] => (h, [])
  | h, p :: ps =>
    let h' : Heap M := ⟨Function.update h.mem h.next (clone (h.mem fn)), h.next + 1⟩
    let (h'', ts) := createOptimizationTasks clone fn h' ps
    (h'', ⟨h.next, p⟩ :: ts)

/-- What has become of a task. -/
inductive Status (L V : Type)
  | waiting
  | running (l : L)
  | done (v : V)

/-- The memory and the tasks. -/
structure S (M L V : Type) where
  mem : Nat → M
  status : Nat → Status L V

/-- Before the workers begin. -/
def S.init (h : Heap M) : S M L V := ⟨h.mem, fun _ => .waiting⟩

/-- A step of a pool with `w` workers: an idle worker takes a task (there are fewer than `w` running: they are all among fewer than `w` numbers), or
one that runs makes a step of `Perform` (count_objective_function_task.cpp:99-102, optimization_task.cpp:142-146). -/
inductive Step (code : Code P M L V) (w : Nat) (ts : List (Task P)) : S M L V → S M L V → Prop
  | take {s} (i : Nat) (t : Task P) (busy : List Nat) : ts[i]? = some t → s.status i = .waiting → busy.length < w →
      (∀ j l, s.status j = .running l → j ∈ busy) →
      Step code w ts s { s with status := Function.update s.status i (.running (code.start t.arg)) }
  | work {s} (i : Nat) (t : Task P) (l l' : L) (m : M) : ts[i]? = some t → s.status i = .running l →
      code.step (s.mem t.obj) l = (m, .inl l') →
      Step code w ts s ⟨Function.update s.mem t.obj m, Function.update s.status i (.running l')⟩
  | finish {s} (i : Nat) (t : Task P) (l : L) (v : V) (m : M) : ts[i]? = some t → s.status i = .running l →
      code.step (s.mem t.obj) l = (m, .inr v) →
      Step code w ts s ⟨Function.update s.mem t.obj m, Function.update s.status i (.done v)⟩

/-- The states a pool with `w` workers can lead to. -/
inductive Reach (code : Code P M L V) (w : Nat) (h : Heap M) (ts : List (Task P)) : S M L V → Prop
  | init : Reach code w h ts (S.init h)
  | step {s s'} : Reach code w h ts s → Step code w ts s s' → Reach code w h ts s'

end K52.SharedFn
