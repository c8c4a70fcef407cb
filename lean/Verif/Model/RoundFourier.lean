import Verif.Model.Dsp
import Verif.Model.Cplx

/-!
# `FourierTransform` over rounded numbers

`fourierOf`, `inverse` and `fourierConvolution` of `Verif.Model.Dsp` applied to `std::complex` of a type `R` of rounded numbers.
-/

namespace K52.Dsp

variable {R : Type}

/-- `std::conj`, and the division of a `std::complex` by a `double`: part by part (helpers.cpp:15-26, inverse_fourier_transform.cpp:29). -/
instance [Neg R] [Div R] [NatCast R] : ComplexOps (Cplx R) := ⟨fun z => ⟨z.re, -z.im⟩, fun z N => ⟨z.re / (N : R), z.im / (N : R)⟩⟩

/-- The imaginary part of the argument of `exp`, fourier_transform.cpp:25: `-2 * Pi * ImaginaryUnit * k * n / N` from left to right.  The product of
`-2 * Pi` and `ImaginaryUnit` is `(-2 * Pi * 0, -2 * Pi * 1)`; products with and quotients by a `double` are part by part, so that the real part is a zero
throughout.  `pi` is `Constants::Pi`, constants.cpp:12. -/
def angle [Mul R] [Div R] [NatCast R] [IntCast R] (pi : R) (N k n : Nat) : R := ((-2 : Int) : R) * pi * (k : R) * (n : R) / (N : R)

/-- What `exp` returns for an imaginary argument `θ`, fourier_transform.cpp:25: `polar(1, θ)`, that is `cos θ` and `sin θ` (products with 1 are exact).
`cos` and `sin` are those of the C library. -/
def cis (cos sin : R → R) (θ : R) : Cplx R := ⟨cos θ, sin θ⟩

/-- `FourierTransform::Transform`, fourier_transform.cpp:14-30. -/
def roundFourier [Add R] [Sub R] [Mul R] [Div R] [Zero R] [NatCast R] [IntCast R] (pi : R) (cos sin : R → R) : TransformOf (Cplx R) :=
  fourierOf fun N k n => cis cos sin (angle pi N k n)

end K52.Dsp
