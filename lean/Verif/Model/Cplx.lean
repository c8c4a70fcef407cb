import Mathlib.Algebra.Notation.Defs

/-! # `std::complex<double>` over rounded numbers -/

namespace K52

/-- `std::complex<R>`.  Sum and product are those of finite numbers: the product is `(ac - bd) + (ad + bc) i` with each of the four products and
the two sums computed in `R` (no fused operations; the recovery of infinities from NaN parts does not concern finite numbers).  Used where
circular_convolution.cpp:9-32 is read in rounded arithmetic. -/
structure Cplx (R : Type) where
  re : R
  im : R
  deriving DecidableEq

instance {R : Type} [Zero R] : Zero (Cplx R) := ⟨⟨0, 0⟩⟩
instance {R : Type} [Add R] : Add (Cplx R) := ⟨fun a b => ⟨a.re + b.re, a.im + b.im⟩⟩
instance {R : Type} [Add R] [Sub R] [Mul R] : Mul (Cplx R) := ⟨fun a b => ⟨a.re * b.re - a.im * b.im, a.re * b.im + a.im * b.re⟩⟩

end K52
