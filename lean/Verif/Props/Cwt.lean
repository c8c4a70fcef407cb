import Verif.Model.Cwt
import Verif.Lemmas.Dsp
import Mathlib.Analysis.SpecialFunctions.Pow.Real

/-!
# C56: continuous wavelet transformation; C68: the sampled wavelet
-/

namespace K52.Cwt

open K52.Dsp (rd fillLoop fillLoop_ok)
open Finset

noncomputable section

/-! ## Specification -/

/-- The signal extended by zero to all integers. -/
def sig (source : List ℝ) (k : Int) : ℝ := if 0 ≤ k then source.getD k.toNat 0 else 0

/-- The scales of a `Wavelet` with positive lengths: geometric from `1` towards `max/min` (excluded), or arithmetic up to
`⌊max/min⌋` (included). -/
def refScale (type : ScaleType) (minLength maxLength : Int) (count i : Nat) : ℝ :=
  match type with
  | .log => Real.exp ((i : ℝ) / (count : ℝ) * Real.log ((maxLength : ℝ) / (minLength : ℝ)))
  | .linear => ((i + 1 : Nat) : ℝ) / (count : ℝ) * ((Int.tdiv maxLength minLength : Int) : ℝ)

/-- The point where the base function is sampled for scale `s` and sample `j` of `maxLength`. -/
def refPoint (maxLength : Nat) (s : ℝ) (j : Nat) : ℝ :=
  ((j : ℝ) - (maxLength : ℝ) / 2) * s * 4 / ((maxLength / 2 : Nat) : ℝ)

/-- The row of the transformation centred at sample `p` of the signal: per scale, the modulus of the correlation of the
sampled wavelet with the `maxLength` signal samples starting at `p - ⌊maxLength/2⌋`, zeros outside the signal. -/
def refRow (f : ℝ → ℂ) (type : ScaleType) (minLength maxLength : Int) (count : Nat) (source : List ℝ) (p : Nat) : List ℝ :=
  (List.range count).map fun i : Nat =>
    ‖∑ j ∈ range maxLength.toNat, f (refPoint maxLength.toNat (refScale type minLength maxLength count i) j) *
      (sig source ((p : Int) + j - (maxLength.toNat / 2 : Nat)) : ℂ)‖

/-! ## The wavelet -/

/-- Division of lengths in the `linear` scale is defined. -/
def DivOk (type : ScaleType) (minLength maxLength : Int) : Prop :=
  type = .linear → minLength ≠ 0 ∧ Int.tdiv maxLength minLength ≤ 2147483647 ∧ -2147483648 ≤ Int.tdiv maxLength minLength

/-- The arguments for which every quantity is a finite number: a maximal length of 1 makes the code divide by the integer
`1 / 2 = 0` and evaluate the base function at infinity; logarithmic scales of non-positive lengths are not numbers. -/
def RealArgs (type : ScaleType) (minLength maxLength : Int) : Prop :=
  maxLength ≠ 1 ∧ (type = .log → 0 < minLength ∧ 0 < maxLength)

theorem createScale_eq {type : ScaleType} {mn mx : Int} {count : Nat} (h : DivOk type mn mx) :
    createScale type mn mx count = .ok ((List.range count).map (refScale type mn mx count)) := by
  cases type with
  | log =>
    unfold createScale
    exact fillLoop_ok fun i _ => rfl
  | linear =>
    obtain ⟨h1, h2, h3⟩ := h rfl
    unfold createScale createScaleBy intDiv int32
    simp only [h1, if_false]
    rw [if_pos ⟨h3, h2⟩]
    simp only [Res.ok_bind]
    exact fillLoop_ok fun i _ => rfl

theorem build_none (mn mx count : Int) (type : ScaleType) : build none mn mx count type = .throw "base function" := rfl

/-- Building with a base function, written out. -/
theorem build_some (f : ℝ → ℂ) (mn mx count : Int) (type : ScaleType) : build (some f) mn mx count type =
    if count < 0 then .throw "length_error"
    else if 0 < count ∧ mx < 0 then .throw "length_error"
    else (do
      let scale ← createScale type mn mx count.toNat
      let parts ← fillLoop count.toNat fun i => do
        let s ← rd scale i
        fillLoop mx.toNat fun j => .ok (f (samplePoint mx.toNat s j))
      .ok ⟨count, mx, parts, scale⟩) := by
  unfold build buildBy createScale samplePoint
  simp only [Option.map_some]
  split_ifs
  · rfl
  · rfl
  · cases createScaleBy Real.log Real.exp type mn mx count.toNat with
    | throw e => rfl
    | ub => rfl
    | ok scale =>
      simp only [Res.ok_bind]
      cases (fillLoop count.toNat fun i => do
        let s ← rd scale i
        fillLoop mx.toNat fun j => .ok (f (samplePointBy mx.toNat s j))) <;> rfl

/-- What a successfully built wavelet contains. -/
theorem build_eq {f : ℝ → ℂ} {mn mx count : Int} {type : ScaleType} (hc : 0 ≤ count) (hm : 0 ≤ mx) (h : DivOk type mn mx) :
    build (some f) mn mx count type = .ok ⟨count, mx,
      (List.range count.toNat).map fun i => (List.range mx.toNat).map fun j =>
        f (refPoint mx.toNat (refScale type mn mx count.toNat i) j),
      (List.range count.toNat).map (refScale type mn mx count.toNat)⟩ := by
  rw [build_some]
  rw [if_neg (by omega), if_neg (by omega), createScale_eq h]
  simp only [Res.ok_bind]
  rw [fillLoop_ok (g := fun i => (List.range mx.toNat).map fun j =>
    f (refPoint mx.toNat (refScale type mn mx count.toNat i) j))]
  · rfl
  · intro i hi
    have : rd ((List.range count.toNat).map (refScale type mn mx count.toNat)) i =
        .ok (refScale type mn mx count.toNat i) := by
      simp [rd, hi]
    rw [this]
    simp only [Res.ok_bind]
    exact fillLoop_ok fun j _ => rfl

theorem innerProduct_eq (ws : List ℂ) (data : List ℝ) (offset : Nat) (acc : ℝ × ℝ)
    (h : offset + ws.length ≤ data.length) :
    innerProduct ws data offset acc =
      .ok (acc.1 + (∑ j ∈ range ws.length, ws.getD j 0 * (data.getD (offset + j) 0 : ℂ)).re,
        acc.2 + (∑ j ∈ range ws.length, ws.getD j 0 * (data.getD (offset + j) 0 : ℂ)).im) := by
  induction ws generalizing offset acc with
  | nil => simp [innerProduct]
  | cons w ws ih =>
    simp only [List.length_cons] at h
    unfold innerProduct
    have hr : rd data offset = .ok (data.getD offset 0) := by
      unfold rd
      rw [List.getElem?_eq_getElem (by omega)]
      simp [List.getD, show offset < data.length by omega]
    rw [hr]
    simp only [Res.ok_bind]
    rw [ih _ _ (by omega)]
    congr 2
    · rw [List.length_cons, sum_range_succ']
      simp only [List.getD_cons_succ, List.getD_cons_zero, add_zero, Complex.add_re, Complex.mul_re, Complex.ofReal_re,
        Complex.ofReal_im, mul_zero, sub_zero]
      have : ∀ j, offset + 1 + j = offset + (j + 1) := fun j => by omega
      simp only [this]
      ring
    · rw [List.length_cons, sum_range_succ']
      simp only [List.getD_cons_succ, List.getD_cons_zero, add_zero, Complex.add_im, Complex.mul_im, Complex.ofReal_re,
        Complex.ofReal_im, mul_zero, zero_add]
      have : ∀ j, offset + 1 + j = offset + (j + 1) := fun j => by omega
      simp only [this]
      ring

theorem padded_getD (source : List ℝ) (m k : Nat) (h : k < source.length + m) :
    (padded source m).getD k 0 = sig source ((k : Int) - (m / 2 : Nat)) := by
  unfold padded sig
  by_cases h1 : k < m / 2
  · rw [if_neg (by omega)]
    rw [List.getD_eq_getElem?_getD, List.append_assoc, List.getElem?_append_left (by simpa using h1)]
    simp [List.getElem?_replicate, h1]
  · rw [if_pos (by omega)]
    have e : ((k : Int) - (m / 2 : Nat)).toNat = k - m / 2 := by omega
    rw [e, List.getD_eq_getElem?_getD, List.append_assoc, List.getElem?_append_right (by simpa using Nat.not_lt.1 h1)]
    simp only [List.length_replicate]
    by_cases h2 : k - m / 2 < source.length
    · rw [List.getElem?_append_left h2, List.getD_eq_getElem?_getD]
    · rw [List.getElem?_append_right (by omega), List.getD_eq_getElem?_getD, List.getElem?_eq_none (l := source) (by omega),
        List.getElem?_replicate]
      split <;> rfl

theorem padded_length (source : List ℝ) (m : Nat) : (padded source m).length = source.length + m := by
  simp only [padded, List.length_append, List.length_replicate]
  omega

theorem transform_eq {f : ℝ → ℂ} {mn mx count : Int} {type : ScaleType} (hc : 0 < count) (hm : 0 ≤ mx)
    (h : DivOk type mn mx) {w : Wavelet} (hw : build (some f) mn mx count type = .ok w) (source : List ℝ) (p : Nat)
    (hp : p < source.length) :
    transform w (padded source mx.toNat) p = .ok (refRow f type mn mx count.toNat source p) := by
  rw [build_eq hc.le hm h] at hw
  cases hw
  unfold transform
  have hne : ∀ {α : Type} (g : Nat → α), (List.range count.toNat).map g ≠ [] := by
    intro α g hh
    have := congrArg List.length hh
    simp at this
    omega
  rw [if_neg (by
    rintro (hh | hh)
    · exact hne _ hh
    · exact hne _ hh)]
  simp only
  unfold refRow
  refine fillLoop_ok fun i hi => ?_
  have hr : rd ((List.range count.toNat).map fun i => (List.range mx.toNat).map fun j =>
      f (refPoint mx.toNat (refScale type mn mx count.toNat i) j)) i =
      .ok ((List.range mx.toNat).map fun j => f (refPoint mx.toNat (refScale type mn mx count.toNat i) j)) := by
    simp [rd, hi]
  rw [hr]
  simp only [Res.ok_bind]
  rw [innerProduct_eq _ _ _ _ (by rw [padded_length]; simp; omega)]
  simp only [Res.ok_bind, zero_add, Res.pure_eq, List.length_map, List.length_range]
  congr 1
  have hsum : (∑ j ∈ range mx.toNat,
      ((List.range mx.toNat).map fun j => f (refPoint mx.toNat (refScale type mn mx count.toNat i) j)).getD j 0 *
        ((padded source mx.toNat).getD (p + j) 0 : ℂ)) =
      ∑ j ∈ range mx.toNat, f (refPoint mx.toNat (refScale type mn mx count.toNat i) j) *
        (sig source ((p : Int) + j - (mx.toNat / 2 : Nat)) : ℂ) := by
    refine sum_congr rfl fun j hj => ?_
    rw [mem_range] at hj
    rw [K52.Dsp.getD_map_range _ hj, padded_getD _ _ _ (by omega)]
    push_cast
    rfl
  rw [hsum, ← Complex.normSq_apply, ← Complex.norm_def]

/-! ## C56 -/

/-- Rows and progress values at the positions `i, i + step, ...` below `n`. -/
def refRows (f : ℝ → ℂ) (type : ScaleType) (mn mx : Int) (count : Nat) (source : List ℝ) (step i : Nat) :
    List (List ℝ × ℝ) :=
  (List.range ((source.length - i + step - 1) / step)).map fun r =>
    (refRow f type mn mx count source (i + r * step), 100 * ((i + r * step : Nat) : ℝ) * (1 / (source.length : ℝ)))

theorem refRows_nil (f : ℝ → ℂ) (type : ScaleType) (mn mx : Int) (count : Nat) (source : List ℝ) {step i : Nat}
    (hs : 0 < step) (h : source.length ≤ i) : refRows f type mn mx count source step i = [] := by
  unfold refRows
  have : (source.length - i + step - 1) / step = 0 := Nat.div_eq_of_lt (by omega)
  rw [this]
  rfl

theorem refRows_cons (f : ℝ → ℂ) (type : ScaleType) (mn mx : Int) (count : Nat) (source : List ℝ) {step i : Nat}
    (hs : 0 < step) (h : i < source.length) : refRows f type mn mx count source step i =
      (refRow f type mn mx count source i, 100 * (i : ℝ) * (1 / (source.length : ℝ))) ::
        refRows f type mn mx count source step (i + step) := by
  unfold refRows
  have e : (source.length - i + step - 1) / step = (source.length - (i + step) + step - 1) / step + 1 := by
    by_cases h2 : i + step ≤ source.length
    · have : source.length - i + step - 1 = (source.length - (i + step) + step - 1) + step := by omega
      rw [this, Nat.add_div_right _ hs]
    · have h3 : source.length - (i + step) = 0 := by omega
      rw [h3, Nat.div_eq_of_lt (show 0 + step - 1 < step by omega)]
      have h4 : source.length - i + step - 1 = (source.length - i - 1) + step := by omega
      rw [h4, Nat.add_div_right _ hs, Nat.div_eq_of_lt (by omega)]
  rw [e, List.range_succ_eq_map, List.map_cons, List.map_map]
  congr 1
  · simp
  · apply List.map_congr_left
    intro r _
    simp only [Function.comp, Nat.succ_eq_add_one]
    have : i + (r + 1) * step = i + step + r * step := by ring
    rw [this]

theorem loop_pos {f : ℝ → ℂ} {mn mx count : Int} {type : ScaleType} (hc : 0 < count) (hm : 0 ≤ mx) (h : DivOk type mn mx)
    {w : Wavelet} (hw : build (some f) mn mx count type = .ok w) (source : List ℝ) (step : Nat) (hs : 0 < step)
    (hn : source.length + step < 18446744073709551616) (fuel i : Nat) (hi : i < source.length + step)
    (hf : source.length - i < fuel) :
    loop w (padded source mx.toNat) source.length step fuel i =
      some (.ok (refRows f type mn mx count.toNat source step i)) := by
  induction fuel generalizing i with
  | zero => omega
  | succ fuel ih =>
    unfold loop
    by_cases hin : i < source.length
    · rw [if_pos hin, transform_eq hc hm h hw source i hin]
      simp only
      have e : (((i : Int) + (step : Int)) % 18446744073709551616).toNat = i + step := by
        rw [Int.emod_eq_of_lt (by omega) (by omega)]
        omega
      rw [e, ih (i + step) (by omega) (by omega)]
      simp only [Res.ok_bind, Res.pure_eq]
      rw [refRows_cons f type mn mx count.toNat source hs hin]
    · rw [if_neg hin, refRows_nil f type mn mx count.toNat source hs (by omega)]

/-- **C56.** With a built wavelet (at least one scale) and a positive step the transformation returns one row per position
`0, step, 2·step, ...` below the signal length, that is `⌈n/step⌉` rows; row `r` is the reference row centred at sample
`r·step`; no element outside the padded signal is read.  The callback of the template version gets `100·r·step/n` after
row `r`. -/
theorem C56_rows (f : ℝ → ℂ) (mn mx count : Int) (type : ScaleType) (hc : 0 < count) (hm : 0 ≤ mx) (h : DivOk type mn mx)
    (_hr : RealArgs type mn mx) (source : List ℝ) (step : Nat) (hs : 0 < step) (hn : source.length + step < 2 ^ 64) :
    ∃ w, build (some f) mn mx count type = .ok w ∧ ∃ fuel₀, ∀ fuel ≥ fuel₀,
      cwt w source step fuel = some (.ok ((List.range ((source.length + step - 1) / step)).map fun r =>
        (refRow f type mn mx count.toNat source (r * step), 100 * ((r * step : Nat) : ℝ) / (source.length : ℝ)))) := by
  refine ⟨_, build_eq hc.le hm h, source.length + 1, fun fuel hf => ?_⟩
  unfold cwt
  simp only
  rw [if_neg (by omega), loop_pos hc hm h (build_eq hc.le hm h) source step hs (by omega) fuel 0 (by omega) (by omega)]
  congr 2
  unfold refRows
  simp only [Nat.zero_add, Nat.sub_zero]
  apply List.map_congr_left
  intro r _
  congr 1
  ring

/-- The progress values passed to the callback start at 0, increase strictly and stay below 100. -/
theorem C56_progress (n step r : Nat) (hs : 0 < step) (hr : r < (n + step - 1) / step) :
    0 ≤ 100 * ((r * step : Nat) : ℝ) / (n : ℝ) ∧ 100 * ((r * step : Nat) : ℝ) / (n : ℝ) < 100 ∧
    100 * ((r * step : Nat) : ℝ) / (n : ℝ) < 100 * (((r + 1) * step : Nat) : ℝ) / (n : ℝ) := by
  have h1 : r * step < n := by
    have h2 : (r + 1) * step ≤ (n + step - 1) / step * step := Nat.mul_le_mul_right _ hr
    have h3 := Nat.div_mul_le_self (n + step - 1) step
    have : (r + 1) * step = r * step + step := by ring
    omega
  have hn : (0 : ℝ) < n := by
    have : 0 < n := by omega
    exact_mod_cast this
  have h1' : ((r * step : Nat) : ℝ) < n := by exact_mod_cast h1
  refine ⟨by positivity, ?_, ?_⟩
  · rw [div_lt_iff₀ hn]
    linarith
  · apply div_lt_div_of_pos_right _ hn
    have : ((r * step : Nat) : ℝ) < (((r + 1) * step : Nat) : ℝ) := by
      have : r * step < (r + 1) * step := by nlinarith
      exact_mod_cast this
    linarith

/-- With step 0 and a non-empty signal the transformation never returns. -/
theorem C56_zero_step (f : ℝ → ℂ) (mn mx count : Int) (type : ScaleType) (hc : 0 < count) (hm : 0 ≤ mx)
    (h : DivOk type mn mx) (source : List ℝ) (hn : source ≠ []) :
    ∃ w, build (some f) mn mx count type = .ok w ∧ ∀ fuel, cwt w source 0 fuel = none := by
  refine ⟨_, build_eq hc.le hm h, fun fuel => ?_⟩
  have hpos : 0 < source.length := List.length_pos_iff.2 hn
  unfold cwt
  simp only
  rw [if_neg (by omega)]
  induction fuel with
  | zero => rfl
  | succ fuel ih =>
    unfold loop
    rw [if_pos hpos, transform_eq hc hm h (build_eq hc.le hm h) source 0 hpos]
    simp only [Nat.cast_zero, add_zero, Int.zero_emod, Int.toNat_zero]
    rw [ih]

/-- With a negative step only the first row is computed. -/
theorem C56_negative_step (f : ℝ → ℂ) (mn mx count : Int) (type : ScaleType) (hc : 0 < count) (hm : 0 ≤ mx)
    (h : DivOk type mn mx) (_hr : RealArgs type mn mx) (source : List ℝ) (hn : source ≠ []) (hsz : source.length < 2 ^ 63) (step : Int)
    (h1 : step < 0) (h2 : -2147483648 ≤ step) :
    ∃ w, build (some f) mn mx count type = .ok w ∧ ∀ fuel ≥ 2,
      cwt w source step fuel = some (.ok [(refRow f type mn mx count.toNat source 0, 0)]) := by
  refine ⟨_, build_eq hc.le hm h, fun fuel hf => ?_⟩
  have hpos : 0 < source.length := List.length_pos_iff.2 hn
  obtain ⟨fuel, rfl⟩ : ∃ k, fuel = k + 2 := ⟨fuel - 2, by omega⟩
  unfold cwt
  simp only
  rw [if_neg (by omega)]
  unfold loop
  rw [if_pos hpos, transform_eq hc hm h (build_eq hc.le hm h) source 0 hpos]
  simp only
  unfold loop
  rw [if_neg (by omega)]
  simp

/-- An empty signal gives an empty result for every step and every wavelet, ready or not. -/
theorem C56_empty_signal (w : Wavelet) (hw : 0 ≤ w.maxLength) (step : Int) (fuel : Nat) :
    cwt w [] step (fuel + 1) = some (.ok []) := by
  unfold cwt loop
  rw [if_neg (by omega)]
  simp

/-- A wavelet with no scales is "not ready": transforming a non-empty signal throws. -/
theorem C56_not_ready (f : ℝ → ℂ) (mn mx : Int) (type : ScaleType) (hm : 0 ≤ mx) (h : DivOk type mn mx) (source : List ℝ)
    (hn : source ≠ []) (step : Int) (fuel : Nat) :
    ∃ w, build (some f) mn mx 0 type = .ok w ∧ ∃ e, cwt w source step (fuel + 1) = some (.throw e) := by
  refine ⟨_, build_eq le_rfl hm h, ?_⟩
  have hpos : 0 < source.length := List.length_pos_iff.2 hn
  unfold cwt loop
  simp only
  rw [if_neg (by omega), if_pos hpos]
  simp [transform]

/-- Multiplying the signal by a number multiplies every row by its absolute value. -/
theorem C56_homogeneous (f : ℝ → ℂ) (mn mx : Int) (count : Nat) (type : ScaleType) (source : List ℝ) (c : ℝ) (p : Nat) :
    refRow f type mn mx count (source.map (c * ·)) p = (refRow f type mn mx count source p).map (|c| * ·) := by
  unfold refRow
  rw [List.map_map]
  apply List.map_congr_left
  intro i _
  simp only [Function.comp]
  have hsig : ∀ k, sig (source.map (c * ·)) k = c * sig source k := by
    intro k
    unfold sig
    split
    · rw [List.getD_eq_getElem?_getD, List.getD_eq_getElem?_getD, List.getElem?_map]
      cases source[k.toNat]? <;> simp
    · simp
  have : (∑ j ∈ range mx.toNat, f (refPoint mx.toNat (refScale type mn mx count i) j) *
      (sig (source.map (c * ·)) ((p : Int) + j - (mx.toNat / 2 : Nat)) : ℂ)) =
      (c : ℂ) * ∑ j ∈ range mx.toNat, f (refPoint mx.toNat (refScale type mn mx count i) j) *
        (sig source ((p : Int) + j - (mx.toNat / 2 : Nat)) : ℂ) := by
    rw [mul_sum]
    refine sum_congr rfl fun j _ => ?_
    rw [hsig]
    push_cast
    ring
  rw [this, norm_mul, Complex.norm_real, Real.norm_eq_abs]

/-! ## C68: building a wavelet -/

/-- Which arguments `BuildWavelet` accepts: a null base function, a negative count, or a negative length (with some scale to
fill) throws; a zero minimal length with linear scales divides by zero; valid `int` arguments otherwise succeed. -/
theorem C68_build_outcome (f : ℝ → ℂ) (mn mx count : Int) (type : ScaleType) :
    (build none mn mx count type).threw ∧
    (count < 0 ∨ (0 < count ∧ mx < 0) → (build (some f) mn mx count type).threw) ∧
    (¬ (count < 0 ∨ (0 < count ∧ mx < 0)) → type = .linear → mn = 0 → build (some f) mn mx count type = .ub) ∧
    (0 ≤ count → 0 ≤ mx → mx ≤ 2147483647 → (type = .linear → mn ≠ 0) → ∃ w, build (some f) mn mx count type = .ok w) := by
  refine ⟨by simp [build_none], fun h => ?_, fun h ht hmn => ?_, fun h1 h2 h3 h4 => ?_⟩
  · rw [build_some]
    rcases h with h | h
    · rw [if_pos h]; simp
    · rw [if_neg (by omega), if_pos h]; simp
  · rw [build_some]
    rw [if_neg (by omega), if_neg (by omega)]
    subst ht hmn
    simp [createScale, createScaleBy, intDiv]
  · refine ⟨_, build_eq h1 h2 ?_⟩
    intro ht
    have hne := h4 ht
    have hle : Int.tdiv mx mn ≤ mx ∧ -mx ≤ Int.tdiv mx mn := by
      have h5 : (Int.tdiv mx mn).natAbs ≤ mx.natAbs := by
        rw [Int.natAbs_tdiv]
        exact Nat.div_le_self _ _
      omega
    exact ⟨hne, by omega, by omega⟩

/-- A built wavelet holds the reference scales and, per scale, the base function sampled at the reference points. -/
theorem C68_contents (f : ℝ → ℂ) (mn mx count : Int) (type : ScaleType) (hc : 0 ≤ count) (hm : 0 ≤ mx)
    (h : DivOk type mn mx) (_hr : RealArgs type mn mx) (w : Wavelet) (hw : build (some f) mn mx count type = .ok w) :
    w.scale = (List.range count.toNat).map (refScale type mn mx count.toNat) ∧
    w.parts = (List.range count.toNat).map fun i => (List.range mx.toNat).map fun j =>
        f (refPoint mx.toNat (refScale type mn mx count.toNat i) j) := by
  rw [build_eq hc hm h] at hw
  cases hw
  exact ⟨rfl, rfl⟩

/-- Logarithmic scales with `0 < min < max`: the first is 1, they increase strictly and stay below `max/min`. -/
theorem C68_log_scales (mn mx : Int) (count : Nat) (h0 : 0 < mn) (h1 : mn < mx) (i : Nat) (hi : i < count) :
    refScale .log mn mx count 0 = 1 ∧ 1 ≤ refScale .log mn mx count i ∧
    refScale .log mn mx count i < (mx : ℝ) / mn ∧ refScale .log mn mx count i < refScale .log mn mx count (i + 1) := by
  have hmn : (0 : ℝ) < mn := by exact_mod_cast h0
  have hlt : (mn : ℝ) < mx := by exact_mod_cast h1
  have hq : 1 < (mx : ℝ) / mn := by rwa [one_lt_div hmn]
  have hlog : 0 < Real.log ((mx : ℝ) / mn) := Real.log_pos hq
  have hc : (0 : ℝ) < count := by
    have : 0 < count := by omega
    exact_mod_cast this
  have hr0 : (0 : ℝ) ≤ (i : ℝ) / count := by positivity
  have hr1 : (i : ℝ) / count < 1 := by
    rw [div_lt_one hc]
    exact_mod_cast hi
  simp only [refScale]
  refine ⟨by simp, ?_, ?_, ?_⟩
  · rw [Real.one_le_exp_iff]
    positivity
  · rw [← Real.exp_log (show (0 : ℝ) < mx / mn by linarith)]
    rw [Real.log_exp, Real.exp_lt_exp]
    nlinarith
  · rw [Real.exp_lt_exp]
    apply mul_lt_mul_of_pos_right _ hlog
    apply div_lt_div_of_pos_right _ hc
    push_cast
    linarith

/-- Linear scales with `0 < min ≤ max`: positive, strictly increasing, equally spaced, the last is `⌊max/min⌋`. -/
theorem C68_linear_scales (mn mx : Int) (count : Nat) (h0 : 0 < mn) (h1 : mn ≤ mx) (i : Nat) (hi : i < count) :
    0 < refScale .linear mn mx count i ∧ refScale .linear mn mx count i < refScale .linear mn mx count (i + 1) ∧
    refScale .linear mn mx count (count - 1) = ((mx / mn : Int) : ℝ) ∧
    refScale .linear mn mx count i = (i + 1) * refScale .linear mn mx count 0 := by
  have hk : 1 ≤ mx / mn := by
    rw [Int.le_ediv_iff_mul_le h0]
    omega
  have ht : Int.tdiv mx mn = mx / mn := Int.tdiv_eq_ediv_of_nonneg (by omega)
  have hkr : (1 : ℝ) ≤ ((mx / mn : Int) : ℝ) := by exact_mod_cast hk
  have hc : (0 : ℝ) < count := by
    have : 0 < count := by omega
    exact_mod_cast this
  simp only [refScale, ht]
  refine ⟨by positivity, ?_, ?_, ?_⟩
  · apply mul_lt_mul_of_pos_right _ (by linarith)
    apply div_lt_div_of_pos_right _ hc
    push_cast
    linarith
  · have : count - 1 + 1 = count := by omega
    rw [this]
    field_simp
  · push_cast
    ring

end

/-! ## Concrete case -/

/-- A wavelet with constant base function 1, length 2 and one scale, on the signal `[3, 4]`: two rows. -/
example : ∃ w, build (some fun _ => 1) 2 2 1 .linear = .ok w ∧ ∃ fuel,
    cwt w [3, 4] 1 fuel = some (.ok [([3], 0), ([7], 50)]) := by
  obtain ⟨w, hw, fuel, hfuel⟩ := C56_rows (fun _ => 1) 2 2 1 .linear (by norm_num) (by norm_num)
    (fun _ => ⟨by norm_num, by decide, by decide⟩) ⟨by norm_num, by simp⟩ [3, 4] 1 (by norm_num) (by norm_num)
  refine ⟨w, hw, fuel, ?_⟩
  have h := hfuel fuel le_rfl
  simp only [Nat.cast_one] at h
  rw [h]
  have e2 : Int.toNat 2 = 2 := rfl
  have e1 : Int.toNat 1 = 1 := rfl
  simp only [refRow, sig, e1, e2]
  norm_num [List.range_succ, Finset.sum_range_succ]

end K52.Cwt
