import Mathlib.Logic.Function.Basic
import Mathlib.Data.Finset.Card
import Verif.Model.Res

/-!
# Model of the life of `FastFourierTransform` objects

Source: `include/k52/dsp/transform/fast_fourier_transform.h`:11-25, `src/dsp/transform/fast_fourier_transform.cpp`:92-106 (with FFTW).

The class holds a raw pointer to its implementation, which its destructor deletes.  It declares neither copy constructor nor copy assignment, so both
are the implicit ones, which copy the pointer.  A program is a sequence of operations on variables of the class.  The implementations of C120
are numbered in the order of their construction and represented by their size (what `Transform` computes is the subject of C120); one thread;
memory allocation does not fail, so `new` throws only what the constructor of the implementation throws.
-/

namespace K52.FftLife

/-- The implementations: their sizes, and which have not been deleted.  The variables: how many have been made, and the
pointer `fast_fourier_transform_impl_` (h:24) of those that exist. -/
structure S where
  sizes : List Nat
  alive : Finset Nat
  made : Nat
  ptr : Nat → Option Nat

/-- What a program does with the class. -/
inductive Op
  | construct (size : Nat)
  | copy (h : Nat)
  | assign (h g : Nat)
  | destroy (h : Nat)
  | transform (h : Nat) (length : Nat)

/-- What the program sees: done; an exception; the transform of the sequence given. -/
inductive Ans
  | done
  | threw
  | transformed
  deriving DecidableEq

/-- At the start of the program. -/
def S.init : S := ⟨[], ∅, 0, fun _ => none⟩

/-- The constructor, fast_fourier_transform.cpp:92-95 with 27-40: nothing is made for size 0. -/
def construct (s : S) (size : Nat) : S × Ans :=
  if size ≤ 0 then (s, .threw)
  else (⟨s.sizes ++ [size], insert s.sizes.length s.alive, s.made + 1, Function.update s.ptr s.made (some s.sizes.length)⟩, .done)

/-- The implicit copy constructor (h:11-25 declares none): a new variable with the same pointer. -/
def copy (s : S) (h : Nat) : Res (S × Ans) :=
  match s.ptr h with
  | none => .ub
  | some p => .ok ({ s with made := s.made + 1, ptr := Function.update s.ptr s.made (some p) }, .done)

/-- The implicit copy assignment `h = g` (h:11-25 declares none). -/
def assign (s : S) (h g : Nat) : Res (S × Ans) :=
  match s.ptr h, s.ptr g with
  | some _, some q => .ok ({ s with ptr := Function.update s.ptr h (some q) }, .done)
  | _, _ => .ub

/-- The destructor, fast_fourier_transform.cpp:97-100 with 42-49: deleting what was deleted before is undefined. -/
def destroy (s : S) (h : Nat) : Res (S × Ans) :=
  match s.ptr h with
  | none => .ub
  | some p => if p ∈ s.alive then .ok ({ s with alive := s.alive.erase p, ptr := Function.update s.ptr h none }, .done) else .ub

/-- `Transform`, fast_fourier_transform.cpp:102-106 with 51-58: through a pointer to something deleted it is undefined. -/
def transform (s : S) (h length : Nat) : Res (S × Ans) :=
  match s.ptr h with
  | none => .ub
  | some p =>
    if p ∈ s.alive then
      match s.sizes[p]? with
      | none => .ub
      | some size => .ok (s, if size ≠ length then .threw else .transformed)
    else .ub

/-- One operation. -/
def exec (s : S) : Op → Res (S × Ans)
  | .construct size => .ok (construct s size)
  | .copy h => copy s h
  | .assign h g => assign s h g
  | .destroy h => destroy s h
  | .transform h length => transform s h length

/-- A program: the final state and the answers. -/
def run (s : S) : List Op → Res (S × List Ans)
  | [] => .ok (s, [])
  | op :: ops => do
    let (s', a) ← exec s op
    let (s'', as) ← run s' ops
    return (s'', a :: as)

end K52.FftLife
