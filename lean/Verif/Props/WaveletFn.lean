import Verif.Model.Cwt
import Mathlib.Analysis.SpecialFunctions.Gaussian.FourierTransform
import Mathlib.Analysis.SpecialFunctions.Gaussian.PoissonSummation

/-!
# C69: the built-in wavelet functions
-/

namespace K52.Cwt

open MeasureTheory Filter Topology

/-! ## Haar -/

/-- The real part is the odd step function on `[-1/2, 1/2]`. -/
theorem C69_haar_real (x : ℝ) :
    (haar x).re = if -(1 / 2) ≤ x ∧ x < 0 then -1 else if 0 < x ∧ x ≤ 1 / 2 then 1 else 0 := by
  simp only [haar, haarRe]
  norm_num
  split_ifs <;> first | rfl | (exfalso; grind)

/-- The imaginary part is the real part delayed by a quarter. -/
theorem C69_haar_imag (x : ℝ) : (haar x).im = (haar (x - 1 / 4)).re := by
  rw [C69_haar_real]
  simp only [haar, haarIm]
  norm_num
  split_ifs <;> first | rfl | (exfalso; grind)

theorem haarRe_eq (x : ℝ) :
    haarRe x = if -(1 / 2) ≤ x ∧ x < 0 then -1 else if 0 < x ∧ x ≤ 1 / 2 then 1 else 0 := C69_haar_real x

/-- Both parts have mean zero. -/
theorem C69_haar_mean : (∫ x, (haar x).re) = 0 ∧ (∫ x, (haar x).im) = 0 := by
  have h1 : (∫ x, (haar x).re) = 0 := by
    have hodd : ∀ x, (haar (-x)).re = -(haar x).re := by
      intro x
      rw [C69_haar_real, C69_haar_real]
      split_ifs <;> first | (exfalso; grind) | simp
    have h := integral_neg_eq_self (fun x => (haar x).re) volume
    simp only [hodd, integral_neg] at h
    linarith
  refine ⟨h1, ?_⟩
  simp only [C69_haar_imag]
  rw [integral_sub_right_eq_self (fun x => (haar x).re) (1 / 4 : ℝ)]
  exact h1

/-- Both parts have unit energy. -/
theorem C69_haar_energy : (∫ x, (haar x).re ^ 2) = 1 ∧ (∫ x, (haar x).im ^ 2) = 1 := by
  have h1 : (∫ x, (haar x).re ^ 2) = 1 := by
    have hae : (fun x => (haar x).re ^ 2) =ᵐ[volume] Set.indicator (Set.Icc (-(1 / 2) : ℝ) (1 / 2)) (fun _ => (1 : ℝ)) := by
      have h0 : ∀ᵐ x : ℝ ∂volume, x ≠ 0 := by
        have : ({0} : Set ℝ)ᶜ ∈ ae (volume : Measure ℝ) := by
          rw [mem_ae_iff]
          simp
        filter_upwards [this] with x hx
        exact hx
      filter_upwards [h0] with x hx
      rw [C69_haar_real, Set.indicator_apply]
      split_ifs with a b c d e <;> simp only [Set.mem_Icc] at * <;> first | (exfalso; grind) | norm_num
    rw [integral_congr_ae hae, integral_indicator measurableSet_Icc]
    simp
    norm_num
  refine ⟨h1, ?_⟩
  simp only [C69_haar_imag]
  rw [integral_sub_right_eq_self (fun x => (haar x).re ^ 2) (1 / 4 : ℝ)]
  exact h1

/-! ## Morlet -/

/-- Modulus, symmetry and value at 0. -/
theorem C69_morlet (t : ℝ) :
    ‖morlet t‖ = Real.exp (-(t ^ 2 / 2)) ∧ morlet (-t) = (starRingEnd ℂ) (morlet t) ∧ morlet 0 = 1 := by
  refine ⟨?_, ?_, ?_⟩
  · unfold morlet
    rw [Complex.norm_exp]
    congr 1
    have : (5 * (t : ℂ) * Complex.I - t * t / 2) = ((-(t ^ 2 / 2) : ℝ) : ℂ) + ((5 * t : ℝ) : ℂ) * Complex.I := by
      push_cast
      ring
    rw [this, Complex.add_re, Complex.ofReal_re, Complex.re_ofReal_mul, Complex.I_re]
    ring
  · unfold morlet
    rw [← Complex.exp_conj]
    congr 1
    simp only [map_sub, map_mul, Complex.conj_I, Complex.conj_ofReal, map_div₀, Complex.conj_ofNat]
    push_cast
    ring
  · simp [morlet]

/-- The mean of the Morlet function is `√(2π)·e^(-25/2)`: small, but not zero. -/
theorem C69_morlet_mean : (∫ t, morlet t) = ((Real.sqrt (2 * Real.pi) * Real.exp (-(25 / 2)) : ℝ) : ℂ) ∧
    (∫ t, morlet t) ≠ 0 := by
  have h : (∫ t, morlet t) = ((Real.sqrt (2 * Real.pi) * Real.exp (-(25 / 2)) : ℝ) : ℂ) := by
    have hg := fourierIntegral_gaussian (b := 1 / 2) (by norm_num) 5
    have he : (fun t : ℝ => morlet t) = fun x : ℝ => Complex.exp (Complex.I * 5 * x) * Complex.exp (-(1 / 2) * (x : ℂ) ^ 2) := by
      funext t
      unfold morlet
      rw [← Complex.exp_add]
      congr 1
      ring
    rw [he, hg]
    push_cast
    congr 1
    · rw [show (Real.pi : ℂ) / (1 / 2) = ((2 * Real.pi : ℝ) : ℂ) by push_cast; ring]
      rw [Real.sqrt_eq_rpow, Complex.ofReal_cpow (by positivity)]
      push_cast
      rfl
    · congr 1
      norm_num
  refine ⟨h, ?_⟩
  rw [h]
  have : Real.sqrt (2 * Real.pi) * Real.exp (-(25 / 2)) ≠ 0 := by positivity
  exact_mod_cast this

/-! ## Mexican hat -/

theorem integrable_pow_gauss (n : Nat) {s : ℝ} (hs : 0 < s) : Integrable fun x : ℝ => x ^ n * Real.exp (-s * x ^ 2) := by
  have := integrable_rpow_mul_exp_neg_mul_sq hs (s := (n : ℝ)) (by have : (0 : ℝ) ≤ n := by positivity
                                                                   linarith)
  simpa using this

theorem tendsto_pow_gauss (n : Nat) {s : ℝ} (hs : 0 < s) :
    Tendsto (fun x : ℝ => x ^ n * Real.exp (-s * x ^ 2)) (cocompact ℝ) (𝓝 0) := by
  have h := tendsto_rpow_abs_mul_exp_neg_mul_sq_cocompact hs (n : ℝ)
  rw [tendsto_zero_iff_abs_tendsto_zero]
  refine h.congr fun x => ?_
  simp [abs_mul, abs_pow]

/-- The integral of a derivative of `(a k + b k³) e^(-s k²)` vanishes. -/
theorem integral_gauss_deriv (a b : ℝ) {s : ℝ} (hs : 0 < s) :
    Integrable (fun x : ℝ => (a + (3 * b - 2 * s * a) * x ^ 2 - 2 * s * b * x ^ 4) * Real.exp (-s * x ^ 2)) ∧
    ∫ x : ℝ, (a + (3 * b - 2 * s * a) * x ^ 2 - 2 * s * b * x ^ 4) * Real.exp (-s * x ^ 2) = 0 := by
  have hd : ∀ x : ℝ, HasDerivAt (fun x : ℝ => a * (x ^ 1 * Real.exp (-s * x ^ 2)) + b * (x ^ 3 * Real.exp (-s * x ^ 2)))
      ((a + (3 * b - 2 * s * a) * x ^ 2 - 2 * s * b * x ^ 4) * Real.exp (-s * x ^ 2)) x := by
    intro x
    have he : HasDerivAt (fun x : ℝ => Real.exp (-s * x ^ 2)) (Real.exp (-s * x ^ 2) * (-s * (2 * x))) x := by
      have h1 := ((hasDerivAt_pow 2 x).const_mul (-s)).exp
      simpa using h1
    have h := (((hasDerivAt_pow 1 x).mul he).const_mul a).add (((hasDerivAt_pow 3 x).mul he).const_mul b)
    refine h.congr_deriv ?_
    simp
    ring
  have hi : Integrable (fun x : ℝ => (a + (3 * b - 2 * s * a) * x ^ 2 - 2 * s * b * x ^ 4) * Real.exp (-s * x ^ 2)) := by
    have h := (((integrable_pow_gauss 0 hs).const_mul a).add ((integrable_pow_gauss 2 hs).const_mul (3 * b - 2 * s * a))).sub
      ((integrable_pow_gauss 4 hs).const_mul (2 * s * b))
    refine h.congr (Eventually.of_forall fun x => ?_)
    simp only [Pi.add_apply, Pi.sub_apply]
    ring
  have ht : Tendsto (fun x : ℝ => a * (x ^ 1 * Real.exp (-s * x ^ 2)) + b * (x ^ 3 * Real.exp (-s * x ^ 2)))
      (cocompact ℝ) (𝓝 0) := by
    have := ((tendsto_pow_gauss 1 hs).const_mul a).add ((tendsto_pow_gauss 3 hs).const_mul b)
    simpa using this
  refine ⟨hi, ?_⟩
  rw [integral_of_hasDerivAt_of_tendsto hd hi (ht.mono_left ?_) (ht.mono_left ?_)]
  · simp
  · rw [cocompact_eq_atBot_atTop]; exact le_sup_left
  · rw [cocompact_eq_atBot_atTop]; exact le_sup_right

/-- The amplitude factor of the Mexican hat. -/
noncomputable def mhatC : ℝ := 2 / Real.sqrt (3 * 3) * Real.sqrt (Real.sqrt Real.pi)

theorem mhat_re (t : ℝ) : (mhat t).re = mhatC * ((1 - (t / 3) ^ 2) * Real.exp (-(1 / 2) * (t / 3) ^ 2)) := by
  simp only [mhat, mhatC, Complex.ofReal_re]
  norm_num
  ring

/-- Real, even, positive inside `(-3, 3)`, zero at `±3` and negative outside. -/
theorem C69_mhat_shape (t : ℝ) :
    (mhat t).im = 0 ∧ mhat (-t) = mhat t ∧ (|t| < 3 → 0 < (mhat t).re) ∧ (|t| = 3 → (mhat t).re = 0) ∧
      (3 < |t| → (mhat t).re < 0) := by
  have hc : 0 < mhatC := by
    unfold mhatC
    have := Real.pi_pos
    positivity
  have hsq : t ^ 2 = |t| ^ 2 := (sq_abs t).symm
  refine ⟨by unfold mhat; exact Complex.ofReal_im _, by simp [mhat, neg_div], fun h => ?_, fun h => ?_, fun h => ?_⟩
  · rw [mhat_re]
    have : 0 < 1 - (t / 3) ^ 2 := by
      rw [div_pow, hsq]
      have := abs_nonneg t
      nlinarith
    have := Real.exp_pos (-(1 / 2) * (t / 3) ^ 2)
    positivity
  · rw [mhat_re]
    have : 1 - (t / 3) ^ 2 = 0 := by
      rw [div_pow, hsq, h]
      norm_num
    rw [this]
    simp
  · rw [mhat_re]
    have h1 : 1 - (t / 3) ^ 2 < 0 := by
      rw [div_pow, hsq]
      nlinarith
    have h2 := Real.exp_pos (-(1 / 2) * (t / 3) ^ 2)
    nlinarith [mul_pos hc (mul_pos (neg_pos.2 h1) h2)]

/-- The Mexican hat has mean zero. -/
theorem C69_mhat_mean : (∫ t, (mhat t).re) = 0 := by
  simp only [mhat_re]
  rw [integral_const_mul, Measure.integral_comp_div (fun k => (1 - k ^ 2) * Real.exp (-(1 / 2) * k ^ 2)) 3]
  have h := (integral_gauss_deriv 1 0 (s := 1 / 2) (by norm_num)).2
  have he : (fun k : ℝ => (1 - k ^ 2) * Real.exp (-(1 / 2) * k ^ 2)) =
      fun x : ℝ => (1 + (3 * 0 - 2 * (1 / 2) * 1) * x ^ 2 - 2 * (1 / 2) * 0 * x ^ 4) * Real.exp (-(1 / 2) * x ^ 2) := by
    funext k
    ring
  rw [he, h]
  simp

/-- The energy of the Mexican hat is `π` (not 1: the factor `π^(1/4)` is a numerator in the code). -/
theorem C69_mhat_energy : (∫ t, (mhat t).re ^ 2) = Real.pi := by
  have he : (fun t : ℝ => (mhat t).re ^ 2) =
      fun t : ℝ => mhatC ^ 2 * ((fun k : ℝ => (1 - k ^ 2) ^ 2 * Real.exp (-1 * k ^ 2)) (t / 3)) := by
    funext t
    rw [mhat_re]
    have : Real.exp (-(1 / 2) * (t / 3) ^ 2) ^ 2 = Real.exp (-1 * (t / 3) ^ 2) := by
      rw [← Real.exp_nat_mul]
      congr 1
      push_cast
      ring
    rw [mul_pow, mul_pow, this]
  rw [he, integral_const_mul, Measure.integral_comp_div (fun k : ℝ => (1 - k ^ 2) ^ 2 * Real.exp (-1 * k ^ 2)) 3]
  obtain ⟨hi, h0⟩ := integral_gauss_deriv (1 / 4) (-(1 / 2)) (s := 1) (by norm_num)
  have hs : (fun k : ℝ => (1 - k ^ 2) ^ 2 * Real.exp (-1 * k ^ 2)) = fun x : ℝ => 3 / 4 * Real.exp (-1 * x ^ 2) +
      ((1 / 4 + (3 * -(1 / 2) - 2 * 1 * (1 / 4)) * x ^ 2 - 2 * 1 * -(1 / 2) * x ^ 4) * Real.exp (-1 * x ^ 2)) := by
    funext k
    ring
  rw [hs, integral_add ((integrable_exp_neg_mul_sq (by norm_num)).const_mul _) hi, h0, integral_const_mul, integral_gaussian]
  have hsq : mhatC ^ 2 = 4 / 9 * Real.sqrt Real.pi := by
    unfold mhatC
    rw [mul_pow, div_pow, Real.sq_sqrt (by norm_num), Real.sq_sqrt (Real.sqrt_nonneg _)]
    norm_num
  rw [hsq]
  simp only [div_one, add_zero, smul_eq_mul]
  rw [abs_of_pos (by norm_num : (0 : ℝ) < 3)]
  have := Real.mul_self_sqrt Real.pi_pos.le
  linear_combination this

end K52.Cwt
