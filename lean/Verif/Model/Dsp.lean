import Verif.Model.Res
import Verif.Model.Cache
import Mathlib.Analysis.SpecialFunctions.Trigonometric.Basic
import Mathlib.Analysis.SpecialFunctions.Exponential

/-!
# Model of `k52::dsp` transforms

Sources: `src/dsp/transform/*.cpp`, `src/dsp/transform/wavelet/*.cpp`, `src/common/helpers.cpp`,
`src/common/constants.cpp`.

`std::complex<double>` is modelled by `ℂ` and `double` by `ℝ`: rounding, infinities and NaN are not modelled
(except in `LogScale`, where the only numbers are powers of two).  Every vector element access is checked:
an index outside the vector makes the outcome `ub`.
-/

namespace K52.Dsp

noncomputable section

open Complex

/-- `v[i]` of a `std::vector`: undefined behaviour outside the vector. -/
def rd {α : Type} (v : List α) (i : Nat) : Res α :=
  match v[i]? with
  | some a => .ok a
  | none => .ub

/-- The loop `acc = 0; for (n = 0; n < N; ++n) acc += f(n)` (the inner loops of fourier_transform.cpp:21-26 and
circular_convolution.cpp:23-28).  `K` is the type `std::complex<double>` is modelled by: `ℂ`, or pairs of rounded numbers. -/
def sumLoop {K : Type} [Add K] [Zero K] (N : Nat) (f : Nat → Res K) : Res K :=
  (List.range N).foldlM (fun acc n => do return acc + (← f n)) 0

/-- The loop `for (k = 0; k < N; ++k) result[k] = f(k)` over a vector of size `N`. -/
def fillLoop {α : Type} (N : Nat) (f : Nat → Res α) : Res (List α) :=
  (List.range N).mapM f

/-- An `IFourierTransform` object (i_fourier_transform.h): its `Transform` method. -/
abbrev TransformOf (K : Type) := List K → Res (List K)

/-- The same over exact complex numbers. -/
abbrev Transform := TransformOf ℂ

/-- `FourierTransform::Transform`, fourier_transform.cpp:14-30, over any type of complex numbers; `twiddle N k n` is what the call of `exp` in
line 25 returns. -/
def fourierOf {K : Type} [Add K] [Mul K] [Zero K] (twiddle : Nat → Nat → Nat → K) : TransformOf K := fun sequence =>
  let N := sequence.length
  fillLoop N fun k : Nat =>
    sumLoop N fun n : Nat => do
      return (← rd sequence n) * twiddle N k n

/-- `FourierTransform::Transform`, fourier_transform.cpp:14-30.  `Constants::Pi` (constants.cpp: `2 * asin(1)`)
is `π` and `Constants::ImaginaryUnit` is `I`. -/
def fourier : Transform := fourierOf fun N k n => Complex.exp (-2 * Real.pi * I * (k : ℂ) * (n : ℂ) / (N : ℂ))

/-- `FastFourierTransform`, fast_fourier_transform.cpp, for both settings of `BUILD_WITH_FFTW3`.
With FFTW (lines 24-108): the constructor rejects size 0; `Transform` rejects sequences of another size and otherwise
returns what `fftw_execute` writes for a forward plan.  Simplification: FFTW is trusted to compute the unnormalised
forward DFT, so the result is that of `fourier`.  Without FFTW (110-122): `Transform` always throws.
The conversion of the size to FFTW's `int` is not modelled. -/
def fastFourier (withFftw : Bool) (size : Nat) : Res Transform :=
  if withFftw then
    if size = 0 then .throw "invalid_argument"
    else .ok fun sequence => if size ≠ sequence.length then .throw "invalid_argument" else fourier sequence
  else .ok fun _ => .throw "runtime_error"

/-- `std::conj`, and the division of a complex number by a real one (part by part). -/
class ComplexOps (K : Type) where
  conj : K → K
  divNat : K → Nat → K

instance : ComplexOps ℂ := ⟨fun z => (starRingEnd ℂ) z, fun z N => z / (N : ℂ)⟩

/-- `Helpers::Conjugate`, helpers.cpp:15-26. -/
def conjugate {K : Type} [ComplexOps K] (sequence : List K) : Res (List K) :=
  fillLoop sequence.length fun i => do return ComplexOps.conj (← rd sequence i)

/-- `InverseFourierTransform::Transform`, inverse_fourier_transform.cpp:18-33, for the injected transform `F`.
The division loop writes elements `0 .. N-1` of the transform's result, hence the length test. -/
def inverse {K : Type} [ComplexOps K] (F : TransformOf K) : TransformOf K := fun sequence => do
  let N := sequence.length
  let direct ← F (← conjugate sequence)
  let inv ← conjugate direct
  if inv.length < N then .ub
  else .ok (inv.mapIdx fun n v => if n < N then ComplexOps.divNat v N else v)

/-- `CircularConvolution::EvaluateConvolution`, circular_convolution.cpp:9-32. -/
def circular {K : Type} [Add K] [Mul K] [Zero K] (a b : List K) : Res (List K) :=
  if a.length ≠ b.length then .throw "runtime_error"
  else
    let N := a.length
    fillLoop N fun n =>
      sumLoop N fun m => do
        return (← rd a m) * (← if m ≤ n then rd b (n - m) else rd b (N + n - m))

/-- `FourierBasedCircularConvolution::EvaluateConvolution`, fourier_based_circular_convolution.cpp:12-34. -/
def fourierConvolution {K : Type} [Mul K] [ComplexOps K] (F : TransformOf K) (a b : List K) : Res (List K) :=
  if a.length ≠ b.length then .throw "runtime_error"
  else do
    let N := a.length
    let fa ← F a
    let fb ← F b
    let prod ← fillLoop N fun k => do return (← rd fa k) * (← rd fb k)
    inverse F prod

/-! ## Scales -/

/-- `LinearScale` constructor and `CalculateScales`, linear_scale.cpp:12-54; the result is what `GetScales` returns.
`R` is the type `double` is modelled by: `ℝ`, or rounded numbers. -/
def linearScales {R : Type} [Add R] [Sub R] [Mul R] [Div R] [Zero R] [NatCast R] [LE R] [DecidableLE R] (minScale maxScale : R) (count : Nat) :
    Res (List R) :=
  if minScale ≤ 0 then .throw "min_scale <= 0"
  else if maxScale ≤ 0 then .throw "max_scale <= 0"
  else if minScale ≥ maxScale then .throw "min_scale >= max_scale"
  else if count < 2 then .throw "scale_count < 2"
  else
    let step := (maxScale - minScale) / ((count - 1 : Nat) : R)
    .ok ((List.range count).map fun i : Nat => minScale + step * (i : R))

/-- A non-negative `double` that is zero, a power of two or infinity: the only values that occur in
`LogarithmicScale`.  `pow2 e` stands for `2^e`. -/
inductive P2 where
  | zero
  | pow2 (e : Int)
  | inf
  deriving Repr, DecidableEq

/-- `2^e` rounded to a `double` (IEEE binary64: smallest subnormal `2^-1074`; `2^-1075` and below round to 0). -/
def P2.round (e : Int) : P2 :=
  if e < -1074 then .zero else if e > 1023 then .inf else .pow2 e

/-- `x * 2` in binary64. -/
def P2.dbl : P2 → P2
  | .zero => .zero
  | .pow2 e => P2.round (e + 1)
  | .inf => .inf

/-- The real number a `P2` stands for; infinity has none. -/
def P2.real? : P2 → Option ℝ
  | .zero => some 0
  | .pow2 e => some ((2 : ℝ) ^ e)
  | .inf => none

/-- The loop of `CalculateScales`, logarithmic_scale.cpp:34-39, with the running value `s`. -/
def logLoop : Nat → P2 → List P2
  | 0, _ => []
  | n + 1, s => s :: logLoop n s.dbl

/-- `LogarithmicScale` constructor and `CalculateScales`, logarithmic_scale.cpp:13-42.  `max - min + 1` is computed in
`int`.  `pow(2, min)` is trusted to be correctly rounded.  Failure to allocate the vector is not modelled. -/
def logScales (minExp maxExp : Int) : Res (List P2) :=
  if minExp ≥ maxExp then .throw "min_exponent >= max_exponent"
  else do
    let d ← int32 (maxExp - minExp)
    let size ← int32 (d + 1)
    .ok (logLoop size.toNat (P2.round minExp))

/-! ## Fast wavelet transform -/

open Classical in
instance {W : Type} : DecidableEq (W × ℝ × Nat) := Classical.decEq _

/-- A wavelet cache: key (wavelet object, scale, length), fast_wavelet_transform.h.  Wavelet objects are kept alive by
the `shared_ptr` in the key, so object identity is a sound key. -/
abbrev WCache (W : Type) := Cache.State (W × ℝ × Nat) (List ℂ)

/-- `FastWaveletTransform`, fast_wavelet_transform.cpp:33-49: the convolution over the injected Fourier transform, the
scales of the `IScale` and the sample cache (`none`: no cache). -/
structure FWT (W : Type) where
  transform : Transform
  scales : List ℝ
  cache : Option (WCache W)

/-- Constructor, fast_wavelet_transform.cpp:33-49. -/
def FWT.create {W : Type} (withFftw : Bool) (scales : List ℝ) (size : Nat) (entryBytes : Nat) (limitMb : Rat) :
    Res (FWT W) := do
  let F ← fastFourier withFftw size
  return ⟨F, scales, Cache.create entryBytes limitMb⟩

/-- `GetScaledWaveletValue`, fast_wavelet_transform.cpp:113-117; `psi` is the wavelet's `GetValue`. -/
def scaledValue (psi : ℝ → ℂ) (scale t : ℝ) : ℂ := psi (t / scale) / (Real.sqrt scale : ℂ)

/-- `CalculateWaveletSamplesForConvolution`, fast_wavelet_transform.cpp:101-111. -/
def samples (psi : ℝ → ℂ) (scale : ℝ) (N : Nat) : List ℂ :=
  (List.range N).map fun n : Nat =>
    let t : ℝ := (n : ℝ) - (N : ℝ) / 2
    (starRingEnd ℂ) (scaledValue psi scale (-t))

/-- `GetWaveletSamplesForConvolution`, fast_wavelet_transform.cpp:81-99.  `value w` is `GetValue` of wavelet object `w`
(assumed to be a pure function).  The first component is the cache afterwards, also when an exception is thrown. -/
def getSamples {W : Type} (value : W → ℝ → ℂ) (cache : Option (WCache W)) (w : W) (scale : ℝ) (N : Nat) :
    Option (WCache W) × Res (List ℂ) :=
  match cache with
  | none => (none, .ok (samples (value w) scale N))
  | some c =>
    let (c1, o1) := Cache.step c (.isCached (w, scale, N))
    match o1 with
    | .bool true =>
      let (c2, o2) := Cache.step c1 (.get (w, scale, N))
      match o2 with
      | .value v => (some c2, .ok v)
      | .threw => (some c2, .throw "cache")
      | _ => (some c2, .ub)
    | .bool false =>
      let s := samples (value w) scale N
      let (c2, o2) := Cache.step c1 (.add (w, scale, N) s)
      match o2 with
      | .done => (some c2, .ok s)
      | .threw => (some c2, .throw "cache")
      | _ => (some c2, .ub)
    | _ => (some c1, .ub)

/-- `TransformOneScale`, fast_wavelet_transform.cpp:69-79. -/
def oneScale {W : Type} (value : W → ℝ → ℂ) (F : Transform) (cache : Option (WCache W)) (x : List ℂ) (w : W)
    (scale : ℝ) : Option (WCache W) × Res (List ℂ) :=
  if scale ≤ 0 then (cache, .throw "scale <= 0")
  else
    match getSamples value cache w scale x.length with
    | (c, .ok s) => (c, fourierConvolution F x s)
    | (c, .throw e) => (c, .throw e)
    | (c, .ub) => (c, .ub)

/-- The loop over the scales, fast_wavelet_transform.cpp:59-64; `std::rotate(begin, begin + size/2, end)` is
`List.rotate` by `size/2`. -/
def scaleLoop {W : Type} (value : W → ℝ → ℂ) (F : Transform) (x : List ℂ) (w : W) :
    Option (WCache W) → List ℝ → Option (WCache W) × Res (List (List ℂ))
  | c, [] => (c, .ok [])
  | c, s :: ss =>
    match oneScale value F c x w s with
    | (c1, .ok row) =>
      match scaleLoop value F x w c1 ss with
      | (c2, .ok rows) => (c2, .ok (row.rotate (row.length / 2) :: rows))
      | (c2, r) => (c2, r)
    | (c1, .throw e) => (c1, .throw e)
    | (c1, .ub) => (c1, .ub)

/-- `FastWaveletTransform::Transform`, fast_wavelet_transform.cpp:51-67. -/
def FWT.run {W : Type} (value : W → ℝ → ℂ) (t : FWT W) (x : List ℂ) (w : W) : FWT W × Res (List (List ℂ)) :=
  match scaleLoop value t.transform x w t.cache t.scales with
  | (c, r) => ({ t with cache := c }, r)

/-- The public calls of a `FastWaveletTransform`, fast_wavelet_transform.h. -/
inductive WCall (W : Type) where
  | transform (x : List ℂ) (w : W)
  | oneScale (x : List ℂ) (w : W) (scale : ℝ)

/-- One public call; a single row is returned as a list of one row.  Exceptions leave the object usable. -/
def FWT.call {W : Type} (value : W → ℝ → ℂ) (t : FWT W) : WCall W → FWT W × Res (List (List ℂ))
  | .transform x w => t.run value x w
  | .oneScale x w s =>
    match Dsp.oneScale value t.transform t.cache x w s with
    | (c, r) => ({ t with cache := c }, do return [← r])

/-- A history of public calls on one object. -/
def FWT.after {W : Type} (value : W → ℝ → ℂ) : FWT W → List (WCall W) → FWT W
  | t, [] => t
  | t, c :: cs => FWT.after value (t.call value c).1 cs

end

end K52.Dsp
