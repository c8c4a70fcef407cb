import Mathlib.Logic.Function.Basic
import Mathlib.Data.Fintype.Basic
import Verif.Model.Res

/-!
# Model of `FastFourierTransform` objects used by several threads

Source: `src/dsp/transform/fast_fourier_transform.cpp`:24-108 (built with FFTW).

Any number of threads construct, destroy and use objects.  Construction and destruction take a mutex shared by all objects
(`fftw_mutex_`), because FFTW's planner may not be entered by two threads; `Transform` takes none: it writes the sequence to the buffer `in_` of
the object, executes the plan, which fills the buffer `out_`, and reads that buffer.  One step is one access to a buffer or one action on
the mutex.

`R` is the type `double` is modelled by, an `fftw_complex` is a pair, and `dft` is the function that the plan computes (FFTW is trusted).  The plan
is modelled as computing the elements of `out_` one after the other from what `in_` holds at that moment; planning (`FFTW_PATIENT`) leaves
arbitrary values in both buffers.  Memory is sequentially consistent, allocation does not fail.
-/

namespace K52.Fft

/-- `FastFourierTransformImpl`, fast_fourier_transform.cpp:80-88. -/
structure Impl (R : Type) where
  size : Nat
  inp : List (R × R)
  out : List (R × R)

/-- Where a thread is.  Objects are numbered in the order of their construction. -/
inductive Loc (R : Type)
  /-- outside the class -/
  | idle
  /-- constructor, about to lock the mutex (30) -/
  | ctorLock (size : Nat)
  /-- holds the mutex, about to check the size (32) -/
  | ctorCheck (size : Nat)
  /-- the exception of line 34 unwinds, the mutex is still held -/
  | ctorThrow (size : Nat)
  /-- allocating and planning (37-39) -/
  | ctorPlan (size : Nat)
  /-- about to release the mutex at the end of the constructor (40) -/
  | ctorUnlock (size o : Nat)
  /-- destructor, about to lock the mutex (44) -/
  | dtorLock (o : Nat)
  /-- destroying the plan and freeing the buffers (46-48) -/
  | dtorPlan (o : Nat)
  /-- about to release the mutex at the end of the destructor (49) -/
  | dtorUnlock (o : Nat)
  /-- `Transform`, about to check the size of the sequence (54) -/
  | check (o : Nat) (x : List (R × R))
  /-- the loop of 60-64: about to write the real part of element `n`, or (`imag`) the imaginary part -/
  | fill (o : Nat) (x : List (R × R)) (n : Nat) (imag : Bool)
  /-- `fftw_execute` (67): `k` elements of the output buffer are computed -/
  | exec (o : Nat) (x : List (R × R)) (k : Nat)
  /-- the loop of 71-75: `acc` are the finished elements of the result, `re` the real part of the next one, if it was read already -/
  | read (o : Nat) (x : List (R × R)) (n : Nat) (re : Option R) (acc : List (R × R))

/-- What a thread has seen of its calls. -/
inductive Event (T R : Type)
  | created (t : T) (size : Nat) (r : Res Nat)
  | destroyed (t : T) (o : Nat)
  | returned (t : T) (o : Nat) (x : List (R × R)) (r : Res (List (R × R)))

/-- The whole state: the objects alive; the sizes of all objects ever constructed, in order; who holds `fftw_mutex_` (90); where
the threads are; what they have seen. -/
structure S (T R : Type) where
  objs : Nat → Option (Impl R)
  made : List Nat
  lock : Option T
  loc : T → Loc R
  log : List (Event T R)

variable {T R : Type} [DecidableEq T]

/-- Before the first call. -/
def S.init (T R : Type) : S T R := ⟨fun _ => none, [], none, fun _ => .idle, []⟩

/-- A thread goes to another place. -/
def S.goto (s : S T R) (t : T) (l : Loc R) : S T R := { s with loc := Function.update s.loc t l }

/-- An object changes. -/
def S.store (s : S T R) (o : Nat) (m : Option (Impl R)) : S T R := { s with objs := Function.update s.objs o m }

/-- The steps of a thread inside a call.  Using an object that was destroyed is undefined: there is no step. -/
inductive Step (dft : List (R × R) → List (R × R)) : T → S T R → S T R → Prop
  /-- line 30 -/
  | ctorLock {s} (t size) : s.loc t = .ctorLock size → s.lock = none →
      Step dft t s { s.goto t (.ctorCheck size) with lock := some t }
  /-- lines 32-35 -/
  | ctorFail {s} (t size) : s.loc t = .ctorCheck size → size ≤ 0 → Step dft t s (s.goto t (.ctorThrow size))
  /-- line 32 -/
  | ctorPass {s} (t size) : s.loc t = .ctorCheck size → ¬ size ≤ 0 → Step dft t s (s.goto t (.ctorPlan size))
  /-- lines 37-39 -/
  | ctorPlan {s} (t size) (a b : List (R × R)) : s.loc t = .ctorPlan size → a.length = size → b.length = size →
      Step dft t s { (s.store s.made.length (some ⟨size, a, b⟩)).goto t (.ctorUnlock size s.made.length) with made := s.made ++ [size] }
  /-- line 40 -/
  | ctorUnlock {s} (t size o) : s.loc t = .ctorUnlock size o →
      Step dft t s { s.goto t .idle with lock := none, log := s.log ++ [.created t size (.ok o)] }
  /-- line 34: the lock is released while the exception leaves the constructor -/
  | ctorThrow {s} (t size) : s.loc t = .ctorThrow size →
      Step dft t s { s.goto t .idle with lock := none, log := s.log ++ [.created t size (.throw "invalid_argument")] }
  /-- line 44 -/
  | dtorLock {s} (t o) : s.loc t = .dtorLock o → s.lock = none → Step dft t s { s.goto t (.dtorPlan o) with lock := some t }
  /-- lines 46-48 -/
  | dtorPlan {s} (t o m) : s.loc t = .dtorPlan o → s.objs o = some m → Step dft t s ((s.store o none).goto t (.dtorUnlock o))
  /-- line 49 -/
  | dtorUnlock {s} (t o) : s.loc t = .dtorUnlock o →
      Step dft t s { s.goto t .idle with lock := none, log := s.log ++ [.destroyed t o] }
  /-- lines 54-58 -/
  | checkFail {s} (t o x m) : s.loc t = .check o x → s.objs o = some m → m.size ≠ x.length →
      Step dft t s { s.goto t .idle with log := s.log ++ [.returned t o x (.throw "invalid_argument")] }
  /-- line 54 -/
  | checkPass {s} (t o x m) : s.loc t = .check o x → s.objs o = some m → ¬ m.size ≠ x.length → Step dft t s (s.goto t (.fill o x 0 false))
  /-- line 62 -/
  | fillReal {s} (t o x n m c) : s.loc t = .fill o x n false → s.objs o = some m → n < m.size → x[n]? = some c →
      Step dft t s ((s.store o (some { m with inp := m.inp.modify n fun d => (c.1, d.2) })).goto t (.fill o x n true))
  /-- line 63 -/
  | fillImag {s} (t o x n m c) : s.loc t = .fill o x n true → s.objs o = some m → x[n]? = some c →
      Step dft t s ((s.store o (some { m with inp := m.inp.modify n fun d => (d.1, c.2) })).goto t (.fill o x (n + 1) false))
  /-- line 60, the end of the loop -/
  | fillEnd {s} (t o x n m) : s.loc t = .fill o x n false → s.objs o = some m → ¬ n < m.size → Step dft t s (s.goto t (.exec o x 0))
  /-- line 67, one element -/
  | exec {s} (t o x k m v) : s.loc t = .exec o x k → s.objs o = some m → k < m.size → (dft m.inp)[k]? = some v →
      Step dft t s ((s.store o (some { m with out := m.out.set k v })).goto t (.exec o x (k + 1)))
  /-- line 67, at the end -/
  | execEnd {s} (t o x k m) : s.loc t = .exec o x k → s.objs o = some m → ¬ k < m.size → Step dft t s (s.goto t (.read o x 0 none []))
  /-- line 73 -/
  | readReal {s} (t o x n acc m c) : s.loc t = .read o x n none acc → s.objs o = some m → n < m.size → m.out[n]? = some c →
      Step dft t s (s.goto t (.read o x n (some c.1) acc))
  /-- line 74 -/
  | readImag {s} (t o x n re acc m c) : s.loc t = .read o x n (some re) acc → s.objs o = some m → m.out[n]? = some c →
      Step dft t s (s.goto t (.read o x (n + 1) none (acc ++ [(re, c.2)])))
  /-- lines 71, 77 -/
  | readEnd {s} (t o x n acc m) : s.loc t = .read o x n none acc → s.objs o = some m → ¬ n < m.size →
      Step dft t s { s.goto t .idle with log := s.log ++ [.returned t o x (.ok acc)] }

/-- The calls of a client, fast_fourier_transform.h:15-19. -/
inductive Call (R : Type)
  | create (size : Nat)
  | destroy (o : Nat)
  | transform (o : Nat) (x : List (R × R))

/-- Where a call begins: fast_fourier_transform.cpp:92-106. -/
def Call.entry : Call R → Loc R
  | .create size => .ctorLock size
  | .destroy o => .dtorLock o
  | .transform o x => .check o x

/-- The states that clients can lead to who make only calls that `may` allows. -/
inductive Reach (dft : List (R × R) → List (R × R)) (may : S T R → Call R → Prop) : S T R → Prop
  | init : Reach dft may (S.init T R)
  | call {s} (t : T) (c : Call R) : Reach dft may s → s.loc t = .idle → may s c → Reach dft may (s.goto t c.entry)
  | step {s s'} (t : T) : Reach dft may s → Step dft t s s' → Reach dft may s'

end K52.Fft
