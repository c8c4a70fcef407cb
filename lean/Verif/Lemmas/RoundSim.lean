import Verif.Lemmas.RoundSum

/-!
# Running error analysis

`Sim E x' x w`: the computed `x'` differs from the exact `x`, a sum of terms whose absolute values add up to at most `w`, by at most the fraction `E - 1`
of `w`.
-/

namespace K52

/-- `x'` approximates `x` up to the fraction `E - 1` of `w`, and `|x| ≤ w`. -/
structure Sim (E x' x w : ℚ) : Prop where
  one : 1 ≤ E
  err : |x' - x| ≤ (E - 1) * w
  le : |x| ≤ w

namespace Sim

variable {r : Rounding} {u E F x x' y y' w v : ℚ}

theorem exact (x : ℚ) : Sim 1 x x |x| := ⟨le_rfl, by simp, le_rfl⟩

theorem nonneg (h : Sim E x' x w) : 0 ≤ w := (abs_nonneg _).trans h.le

theorem mono (h : Sim E x' x w) (hE : E ≤ F) : Sim F x' x w :=
  ⟨h.one.trans hE, h.err.trans (mul_le_mul_of_nonneg_right (by linarith) h.nonneg), h.le⟩

theorem wide (h : Sim E x' x w) (hw : w ≤ v) : Sim E x' x v :=
  ⟨h.one, h.err.trans (mul_le_mul_of_nonneg_left hw (by linarith [h.one])), h.le.trans hw⟩

theorem abs_le (h : Sim E x' x w) : |x'| ≤ E * w := by
  have := abs_sub_abs_le_abs_sub x' x
  have h1 := h.err
  have h2 := h.le
  have e : E * w = (E - 1) * w + w := by ring
  linarith

theorem fl (hu : r.Unit u) (h : Sim E x' x w) : Sim (E * (1 + u)) (r.fl x') x w := by
  have h0 := hu.nonneg
  refine ⟨?_, ?_, h.le⟩
  · have := mul_le_mul h.one (show (1 : ℚ) ≤ 1 + u by linarith) (by norm_num) (by linarith [h.one])
    linarith
  · have h1 := hu.err x'
    have h2 := mul_le_mul_of_nonneg_left h.abs_le h0
    have h3 := abs_sub_le (r.fl x') x' x
    have h4 := h.err
    have e : (E * (1 + u) - 1) * w = (E - 1) * w + u * (E * w) := by ring
    linarith

theorem add (h : Sim E x' x w) (g : Sim E y' y v) : Sim E (x' + y') (x + y) (w + v) := by
  refine ⟨h.one, ?_, (abs_add_le _ _).trans (add_le_add h.le g.le)⟩
  have e : x' + y' - (x + y) = (x' - x) + (y' - y) := by ring
  rw [e]
  have := abs_add_le (x' - x) (y' - y)
  have h1 := h.err
  have h2 := g.err
  have e2 : (E - 1) * (w + v) = (E - 1) * w + (E - 1) * v := by ring
  linarith

theorem neg (h : Sim E x' x w) : Sim E (-x') (-x) w := by
  refine ⟨h.one, ?_, by rw [abs_neg]; exact h.le⟩
  rw [show -x' - -x = -(x' - x) by ring, abs_neg]
  exact h.err

theorem sub (h : Sim E x' x w) (g : Sim E y' y v) : Sim E (x' - y') (x - y) (w + v) := by
  rw [sub_eq_add_neg, sub_eq_add_neg]
  exact h.add g.neg

theorem mul (h : Sim E x' x w) (g : Sim F y' y v) : Sim (E * F) (x' * y') (x * y) (w * v) := by
  refine ⟨?_, ?_, ?_⟩
  · have := mul_le_mul h.one g.one (by norm_num) (by linarith [h.one])
    linarith
  · have e : x' * y' - x * y = x' * (y' - y) + (x' - x) * y := by ring
    rw [e]
    have h1 := abs_add_le (x' * (y' - y)) ((x' - x) * y)
    rw [abs_mul, abs_mul] at h1
    have h2 := mul_le_mul h.abs_le g.err (abs_nonneg _) ((abs_nonneg _).trans h.abs_le)
    have h3 := mul_le_mul h.err g.le (abs_nonneg _) ((abs_nonneg _).trans h.err)
    have e2 : (E * F - 1) * (w * v) = E * w * ((F - 1) * v) + (E - 1) * w * v := by ring
    linarith
  · rw [abs_mul]
    exact mul_le_mul h.le g.le (abs_nonneg _) h.nonneg

/-- Reciprocal of a number known up to a relative error below 1. -/
theorem inv {d e : ℚ} (hx : |x' - x| ≤ d * |x|) (hd1 : d < 1) (he : d / (1 - d) ≤ e) (h0 : 0 ≤ d) : Sim (1 + e) x'⁻¹ x⁻¹ |x|⁻¹ := by
  have hd : 0 < 1 - d := by linarith
  have he0 : 0 ≤ e := le_trans (div_nonneg h0 hd.le) he
  refine ⟨by linarith, ?_, by rw [abs_inv]⟩
  rcases eq_or_ne x 0 with rfl | hne
  · have : x' = 0 := by simpa using hx
    rw [this]
    simp
  have hxp := abs_pos.2 hne
  have hlow : (1 - d) * |x| ≤ |x'| := by
    have := abs_sub_abs_le_abs_sub x x'
    rw [abs_sub_comm] at this
    linarith
  have hx'p : 0 < |x'| := lt_of_lt_of_le (mul_pos hd hxp) hlow
  have hne' : x' ≠ 0 := abs_pos.1 hx'p
  have e1 : x'⁻¹ - x⁻¹ = -(x' - x) * x'⁻¹ * x⁻¹ := by field_simp; ring
  rw [e1, abs_mul, abs_mul, abs_neg, abs_inv, abs_inv]
  have h2 : |x' - x| * |x'|⁻¹ ≤ e := by
    rw [← div_eq_mul_inv, div_le_iff₀ hx'p]
    rw [div_le_iff₀ hd] at he
    calc |x' - x| ≤ d * |x| := hx
      _ ≤ e * (1 - d) * |x| := mul_le_mul_of_nonneg_right he hxp.le
      _ = e * ((1 - d) * |x|) := by ring
      _ ≤ e * |x'| := mul_le_mul_of_nonneg_left hlow he0
  have := mul_le_mul_of_nonneg_right h2 (inv_nonneg.2 hxp.le)
  calc _ ≤ e * |x|⁻¹ := this
    _ = _ := by ring

end Sim

end K52
