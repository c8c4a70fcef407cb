import Verif.Model.Dsp
import Mathlib.Analysis.SpecialFunctions.Log.Basic

/-!
# Model of `Wavelet` and `ContiniousWaveletTransformation`

Sources: `include/k52/dsp/wavelet.h`, `src/dsp/wavelet.cpp`, `include/k52/dsp/cwt.h`, `src/dsp/cwt.cpp`,
`src/dsp/haar_wavelet_function.cpp`, `src/dsp/morlet_wavelet_function.cpp`, `src/dsp/mhat_wavelet_function.cpp`.

`double` is `ℝ` (exact arithmetic; a division by zero, infinite or NaN in C++, is `0`).
-/

namespace K52.Cwt

open K52.Dsp (rd fillLoop)

noncomputable section

/-- `Wavelet::ScaleType`, wavelet.h. -/
inductive ScaleType where
  | log
  | linear
  deriving DecidableEq

/-- The object: wavelet.h.  `real_part_` and `imaj_part_` are kept together as `parts`. -/
structure Wavelet where
  count : Int
  maxLength : Int
  parts : List (List ℂ)
  scale : List ℝ

/-- `a / b` of two `int`s: division by zero and `INT_MIN / -1` are undefined; otherwise truncated. -/
def intDiv (a b : Int) : Res Int :=
  if b = 0 then .ub else int32 (Int.tdiv a b)

section
variable {R : Type} [Sub R] [Mul R] [Div R] [NatCast R] [IntCast R]

/-- `createScale`, wavelet.cpp:79-106 (`scale_.resize(count)` and the loops); only called with `count ≥ 0`.  `R` is the type `double` is modelled by, `log`
and `exp` the library functions. -/
def createScaleBy (log exp : R → R) (type : ScaleType) (minLength maxLength : Int) (count : Nat) : Res (List R) :=
  match type with
  | .log =>
    let lg := log ((maxLength : R) / (minLength : R))
    fillLoop count fun i : Nat => .ok (exp ((i : R) / (count : R) * lg))
  | .linear => do
    let k ← intDiv maxLength minLength
    -- `for (i = 1; i <= count; ++i) scale_.at(i-1) = ...`
    fillLoop count fun i : Nat => .ok (((i + 1 : Nat) : R) / (count : R) * (k : R))

/-- Argument of the base function for scale `s` and sample `j`, wavelet.cpp:69-70; note `max_lenght / 2.0` in the first and the
integer `max_lenght / 2` in the second line.  Simplification: for `max_lenght = 1` the code divides a double by 0 and gets an
infinity; the model's numbers have none, so the theorems exclude that length (likewise logarithms of non-positive ratios). -/
def samplePointBy (maxLength : Nat) (s : R) (j : Nat) : R :=
  let x := ((j : R) - (maxLength : R) / 2) * s
  (x * 4) / ((maxLength / 2 : Nat) : R)

/-- `BuildWavelet` and `createWavelet`, wavelet.cpp:20-77; the result is `scale_` and the parts.  `none` is a null base function; a base function can
throw.  A negative `count` or length makes `resize` throw `length_error` (allocation failure for large ones is not modelled). -/
def buildBy {C : Type} (log exp : R → R) (f : Option (R → Res C)) (minLength maxLength count : Int) (type : ScaleType) :
    Res (List R × List (List C)) :=
  match f with
  | none => .throw "base function"
  | some f =>
    if count < 0 then .throw "length_error"
    else if 0 < count ∧ maxLength < 0 then .throw "length_error"
    else do
      let scale ← createScaleBy log exp type minLength maxLength count.toNat
      let parts ← fillLoop count.toNat fun i => do
        let s ← rd scale i
        fillLoop maxLength.toNat fun j => f (samplePointBy maxLength.toNat s j)
      .ok (scale, parts)

end

/-- `createScale` in exact arithmetic, wavelet.cpp:79-106. -/
def createScale (type : ScaleType) (minLength maxLength : Int) (count : Nat) : Res (List ℝ) :=
  createScaleBy Real.log Real.exp type minLength maxLength count

/-- The arguments of the base function in exact arithmetic, wavelet.cpp:69-70. -/
def samplePoint (maxLength : Nat) (s : ℝ) (j : Nat) : ℝ := samplePointBy maxLength s j

/-- `BuildWavelet` in exact arithmetic with a base function that does not throw, wavelet.cpp:20-77. -/
def build (f : Option (ℝ → ℂ)) (minLength maxLength count : Int) (type : ScaleType) : Res Wavelet := do
  let (scale, parts) ← buildBy Real.log Real.exp (f.map fun g x => .ok (g x)) minLength maxLength count type
  .ok ⟨count, maxLength, parts, scale⟩

/-- `std::inner_product(part.begin(), part.end(), data_begin, 0)` for the real and imaginary parts together, wavelet.h
(transform): reads `part.size()` elements of `data` from `offset` on. -/
def innerProduct : List ℂ → List ℝ → Nat → ℝ × ℝ → Res (ℝ × ℝ)
  | [], _, _, acc => .ok acc
  | w :: ws, data, offset, acc => do
    let d ← rd data offset
    innerProduct ws data (offset + 1) (acc.1 + w.re * d, acc.2 + w.im * d)

/-- `Wavelet::transform`, wavelet.h. -/
def transform (w : Wavelet) (data : List ℝ) (offset : Nat) : Res (List ℝ) :=
  if w.parts = [] ∨ w.scale = [] then .throw "Wavelet isn't ready"
  else
    fillLoop w.count.toNat fun i => do
      let part ← rd w.parts i
      let r ← innerProduct part data offset (0, 0)
      return Real.sqrt (r.1 * r.1 + r.2 * r.2)

/-- The zero-padded copy of the signal, cwt.cpp:14-16. -/
def padded (source : List ℝ) (maxLength : Nat) : List ℝ :=
  List.replicate (maxLength / 2) 0 ++ source ++ List.replicate (maxLength - maxLength / 2) 0

/-- The loop, cwt.cpp:18-21 and cwt.h (template version): the counter is a 64 bit `size_t`.  `none`: still running after
`fuel` iterations.  The result pairs each row with the value passed to the callback of the template version. -/
def loop (w : Wavelet) (data : List ℝ) (n : Nat) (step : Int) :
    (fuel : Nat) → (i : Nat) → Option (Res (List (List ℝ × ℝ)))
  | 0, _ => none
  | fuel + 1, i =>
    if i < n then
      match transform w data i with
      | .ok row =>
        match loop w data n step fuel (((i : Int) + step) % 18446744073709551616).toNat with
        | some r => some (do return (row, 100 * (i : ℝ) * (1 / (n : ℝ))) :: (← r))
        | none => none
      | .throw e => some (.throw e)
      | .ub => some .ub
    else some (.ok [])

/-- `ContiniousWaveletTransformation`, cwt.cpp:8-24 and cwt.h.  Simplification: a wavelet with a negative length (possible
only with `count = 0`) is reported as undefined behaviour. -/
def cwt (w : Wavelet) (source : List ℝ) (step : Int) (fuel : Nat) : Option (Res (List (List ℝ × ℝ))) :=
  if w.maxLength < 0 then some .ub
  else loop w (padded source w.maxLength.toNat) source.length step fuel 0

/-! ## Wavelet functions -/

/-- `HaarWaveletFunction`, haar_wavelet_function.cpp:8-42. -/
def haarRe (x : ℝ) : ℝ :=
  if x < -0.5 ∨ x > 0.5 ∨ x = 0 then 0 else if x ≥ -0.5 ∧ x < 0 then -1 else 1

def haarIm (x : ℝ) : ℝ :=
  if x < -0.25 ∨ x > 0.75 ∨ x = 0.25 then 0 else if x ≥ -0.25 ∧ x < 0.25 then -1 else 1

def haar (x : ℝ) : ℂ := ⟨haarRe x, haarIm x⟩

/-- `MorletWaveletFunction::GetValue`, morlet_wavelet_function.cpp:13-16. -/
def morlet (t : ℝ) : ℂ := Complex.exp (5 * t * Complex.I - t * t / 2)

/-- `MhatWaveletFunction`, mhat_wavelet_function.cpp:6-27 (`kDefaultSigma = 3`); `π^(1/4)` is written as a double square root. -/
def mhat (t : ℝ) : ℂ :=
  let k := t / 3
  let c := 2 / Real.sqrt (3 * 3) * Real.sqrt (Real.sqrt Real.pi)
  ((c * (1 - k ^ 2) * Real.exp (-0.5 * k ^ 2) : ℝ) : ℂ)

end

end K52.Cwt
