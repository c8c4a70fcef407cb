import Verif.Model.Cwt

/-!
# Model of `Wavelet` as an object that changes

Sources: `include/k52/dsp/wavelet.h`, `src/dsp/wavelet.cpp`, `src/dsp/cwt.cpp`.

`Verif.Model.Cwt` models a wavelet that is built and used.  Here the settings can be changed after the wavelet was built, it can be
built again, and building can fail half way.  `double` is `ℝ`, as there.
-/

namespace K52.WaveletObj

open K52.Dsp (rd fillLoop)
open K52.Cwt (ScaleType createScale samplePoint padded)

noncomputable section

/-- The fields, wavelet.h:56-63. -/
structure Obj where
  base : Option (ℝ → ℂ)
  count : Int
  maxLength : Int
  minLength : Int
  real : List (List ℝ)
  imag : List (List ℝ)
  scale : List ℝ

/-- The constructor, wavelet.cpp:13-18. -/
def Obj.new : Obj := ⟨none, 256, 1024, 10, [], [], []⟩

/-- `base_function`, wavelet.h:34. -/
def Obj.setBase (o : Obj) (f : Option (ℝ → ℂ)) : Obj := { o with base := f }

/-- `count`, wavelet.h:37. -/
def Obj.setCount (o : Obj) (n : Int) : Obj := { o with count := n }

/-- `max_lenght`, wavelet.h:38. -/
def Obj.setMax (o : Obj) (n : Int) : Obj := { o with maxLength := n }

/-- `min_lenght`, wavelet.h:40. -/
def Obj.setMin (o : Obj) (n : Int) : Obj := { o with minLength := n }

/-- `createWavelet`, wavelet.cpp:38-77, with what it leaves behind when it throws: a negative count makes `real_part_.resize` throw after
`clear` (47-48), a negative length makes the first `real_part_[i].resize` throw (51).  (A division by zero in the linear scale is
undefined; the object is then meaningless.) -/
def Obj.create (o : Obj) (type : ScaleType) : Obj × Res Unit :=
  match o.base with
  | none => (o, .throw "base function")
  | some f =>
    if o.count < 0 then ({ o with real := [] }, .throw "length_error")
    else if 0 < o.count ∧ o.maxLength < 0 then
      ({ o with real := List.replicate o.count.toNat [] }, .throw "length_error")
    else
      let built : Res (List ℝ × List (List ℂ)) := do
        let scale ← createScale type o.minLength o.maxLength o.count.toNat
        let parts ← fillLoop o.count.toNat fun i => do
          let s ← rd scale i
          fillLoop o.maxLength.toNat fun j => .ok (f (samplePoint o.maxLength.toNat s j))
        return (scale, parts)
      match built with
      | .ok (scale, parts) =>
        ({ o with scale := scale, real := parts.map (·.map Complex.re), imag := parts.map (·.map Complex.im) }, .ok ())
      | .throw w => (o, .throw w)
      | .ub => (o, .ub)

/-- `BuildWavelet`, wavelet.cpp:20-35. -/
def build (f : Option (ℝ → ℂ)) (minLength maxLength count : Int) (type : ScaleType) : Res Obj :=
  match ((((Obj.new.setBase f).setCount count).setMax maxLength).setMin minLength).create type with
  | (o, .ok ()) => .ok o
  | (_, .throw w) => .throw w
  | (_, .ub) => .ub

/-- `std::inner_product(part.begin(), part.end(), data_begin, acc)`, wavelet.h:82-83.  `R` is the type `double` is modelled by: `ℝ`, or
rounded numbers. -/
def inner {R : Type} [Add R] [Mul R] : List R → List R → Nat → R → Res R
  | [], _, _, acc => .ok acc
  | w :: ws, data, offset, acc => do
    let d ← rd data offset
    inner ws data (offset + 1) (acc + w * d)

/-- `transform`, wavelet.h:66-91, of a wavelet with these fields; `vector<T> result(count_)` of a negative count throws `length_error`.
`sqrt` is `std::sqrt`. -/
def transformOf {R : Type} [Add R] [Mul R] [Zero R] (sqrt : R → R) (count : Int) (real imag : List (List R)) (scale : List R) (data : List R)
    (offset : Nat) : Res (List R) :=
  if real.isEmpty ∨ imag.isEmpty ∨ scale.isEmpty then .throw "Wavelet isn't ready"
  else if count < 0 then .throw "length_error"
  else
    fillLoop count.toNat fun i => do
      let re ← rd real i
      let a ← inner re data offset 0
      let im ← rd imag i
      let b ← inner im data offset 0
      return sqrt (a * a + b * b)

/-- `transform`, wavelet.h:66-91. -/
def Obj.transform (o : Obj) (data : List ℝ) (offset : Nat) : Res (List ℝ) :=
  transformOf Real.sqrt o.count o.real o.imag o.scale data offset

/-- The loop of `ContiniousWaveletTransformation`, cwt.cpp:18-21 (64 bit counter); `none`: still running after `fuel` iterations. -/
def loop (o : Obj) (data : List ℝ) (n : Nat) (step : Int) : (fuel : Nat) → (i : Nat) → Option (Res (List (List ℝ)))
  | 0, _ => none
  | fuel + 1, i =>
    if i < n then
      match o.transform data i with
      | .ok row =>
        match loop o data n step fuel (((i : Int) + step) % 18446744073709551616).toNat with
        | some r => some (do return row :: (← r))
        | none => none
      | .throw e => some (.throw e)
      | .ub => some .ub
    else some (.ok [])

/-- `ContiniousWaveletTransformation`, cwt.cpp:8-24: the copy of the signal is padded according to the length that is set now.
Simplification: a negative length is reported as undefined behaviour. -/
def cwt (o : Obj) (source : List ℝ) (step : Int) (fuel : Nat) : Option (Res (List (List ℝ))) :=
  if o.maxLength < 0 then some .ub
  else loop o (padded source o.maxLength.toNat) source.length step fuel 0

end

end K52.WaveletObj
