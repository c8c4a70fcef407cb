import Verif.Lemmas.Double

/-!
# Rounding errors of the operations of `Flt`
-/

namespace K52.Flt

variable {F : Format}

theorem half_ulp : (2 : ℚ) ^ F.emin / 2 = F.least / 2 ^ F.p := by
  unfold Format.least
  rw [show F.emin + F.p - 1 = F.emin + (F.p : Int) + -1 by ring, zpow_add₀ (by norm_num), zpow_add₀ (by norm_num), zpow_natCast, zpow_neg, zpow_one]
  have : (0 : ℚ) < 2 ^ F.p := by positivity
  field_simp

/-- Rounding: relative error `2^-p`, plus half of the least positive number. -/
theorem fl_error (q : ℚ) : |F.fl q - q| ≤ |q| / 2 ^ F.p + F.least / 2 ^ F.p := by
  have hp : (0 : ℚ) < 2 ^ F.p := by positivity
  have hu := zpow_pos Nearest.two_pos F.emin
  have hl := F.least_pos
  unfold Format.fl
  split_ifs
  · have h1 := Nearest.nearestInt_neg_bound (q / 2 ^ F.emin)
    have e : (Nearest.nearestInt (q / 2 ^ F.emin) : ℚ) * 2 ^ F.emin - q = ((Nearest.nearestInt (q / 2 ^ F.emin) : ℚ) - q / 2 ^ F.emin) * 2 ^ F.emin := by
      field_simp
    rw [e, abs_mul, abs_of_pos hu, ← half_ulp]
    have h2 := mul_le_mul_of_nonneg_right h1 hu.le
    have h3 : 0 ≤ |q| / 2 ^ F.p := by positivity
    linarith
  · have h1 := Nearest.fl_error (p := F.p) q
    have h3 : 0 ≤ F.least / 2 ^ F.p := by positivity
    linarith

/-- Sums of machine numbers have a relative error of `2^-p`, even in the subnormal range. -/
theorem fl_add_error {a b : ℚ} (ha : F.fl a = a) (hb : F.fl b = b) : |F.fl (a + b) - (a + b)| ≤ |a + b| / 2 ^ F.p := by
  have hp : (0 : ℚ) < 2 ^ F.p := by positivity
  have hu := zpow_pos Nearest.two_pos F.emin
  have grid : ∀ q : ℚ, F.fl q = q → ∃ N : Int, q = N * 2 ^ F.emin := by
    intro q hq
    obtain ⟨N, k, -, hk, e⟩ := F.fl_form q
    rw [hq] at e
    obtain ⟨d, hd⟩ := Int.eq_ofNat_of_zero_le (sub_nonneg.2 hk)
    refine ⟨N * 2 ^ d, ?_⟩
    have : (2 : ℚ) ^ k = 2 ^ d * 2 ^ F.emin := by
      rw [← zpow_natCast, ← zpow_add₀ (by norm_num)]
      congr 1
      omega
    rw [e, this]
    push_cast
    ring
  unfold Format.fl
  split_ifs
  · obtain ⟨N, hN⟩ := grid a ha
    obtain ⟨K, hK⟩ := grid b hb
    have e : (a + b) / 2 ^ F.emin = ((N + K : Int) : ℚ) := by
      rw [hN, hK]
      push_cast
      field_simp
    rw [e, Nearest.nearestInt_int, ← e, div_mul_cancel₀ _ hu.ne', _root_.sub_self, abs_zero]
    positivity
  · exact Nearest.fl_error (p := F.p) (a + b)

/-- No overflow up to `2^(emax-1)`. -/
theorem round_num_of_le {q : ℚ} (h : |q| ≤ 2 ^ (F.emax - 1)) : F.round (.num q) = .num (F.fl q) := by
  have hN : F.fl ((1 : Int) * 2 ^ (F.emax - 1)) = (1 : Int) * 2 ^ (F.emax - 1) := by
    refine F.fl_repr 1 _ ?_ ?_
    · rw [abs_one]; exact one_le_pow₀ (by norm_num)
    · have := F.emin_le; have := F.le_emax; omega
  push_cast at hN
  rw [_root_.one_mul] at hN
  obtain ⟨h1, h2⟩ := abs_le.1 h
  have m1 := F.fl_mono h2
  have m2 := F.fl_mono h1
  rw [F.fl_neg] at m2
  rw [hN] at m1 m2
  have hlt : (2 : ℚ) ^ (F.emax - 1) < 2 ^ F.emax := zpow_lt_zpow_right₀ (by norm_num) (by omega)
  simp only [Format.round]
  rw [if_pos (lt_of_le_of_lt (abs_le.2 ⟨m2, m1⟩) hlt)]

theorem add_num {x y : Flt F} {a b : ℚ} (hx : x.val = .num a) (hy : y.val = .num b) (h : |a + b| ≤ 2 ^ (F.emax - 1)) :
    ∃ q, (x + y).val = .num q ∧ |q - (a + b)| ≤ |a + b| / 2 ^ F.p := by
  refine ⟨F.fl (a + b), ?_, fl_add_error (Finite.repr hx).1 (Finite.repr hy).1⟩
  rw [val_add, hx, hy]
  exact round_num_of_le h

theorem sub_num {x y : Flt F} {a b : ℚ} (hx : x.val = .num a) (hy : y.val = .num b) (h : |a - b| ≤ 2 ^ (F.emax - 1)) :
    ∃ q, (x - y).val = .num q ∧ |q - (a - b)| ≤ |a - b| / 2 ^ F.p := by
  have e : a - b = a + -b := sub_eq_add_neg a b
  refine ⟨F.fl (a - b), ?_, ?_⟩
  · rw [val_sub, hx, hy]
    have := round_num_of_le (F := F) h
    rw [e] at this ⊢
    exact this
  · rw [e]
    exact fl_add_error (Finite.repr hx).1 (by rw [F.fl_neg, (Finite.repr hy).1])

theorem mul_num {x y : Flt F} {a b : ℚ} (hx : x.val = .num a) (hy : y.val = .num b) (h : |a * b| ≤ 2 ^ (F.emax - 1)) :
    ∃ q, (x * y).val = .num q ∧ |q - a * b| ≤ |a * b| / 2 ^ F.p + F.least / 2 ^ F.p := by
  refine ⟨F.fl (a * b), ?_, fl_error _⟩
  rw [val_mul, hx, hy]
  exact round_num_of_le h

theorem div_num {x y : Flt F} {a b : ℚ} (hx : x.val = .num a) (hy : y.val = .num b) (hb : b ≠ 0) (h : |a / b| ≤ 2 ^ (F.emax - 1)) :
    ∃ q, (x / y).val = .num q ∧ |q - a / b| ≤ |a / b| / 2 ^ F.p + F.least / 2 ^ F.p := by
  refine ⟨F.fl (a / b), ?_, fl_error _⟩
  rw [val_div, hx, hy]
  show F.round (if b = 0 then _ else .num (a / b)) = _
  rw [if_neg hb]
  exact round_num_of_le h

theorem half_val : (1 / 2 : Flt F).val = .num (1 / 2) := by
  rw [val_div, val_one, two_val]
  have e : (Dbl.num 1 / Dbl.num 2 : Dbl) = .num (1 / 2) := by
    show (if (2 : ℚ) = 0 then (if (1 : ℚ) = 0 then Dbl.nan else .inf (decide ((1 : ℚ) < 0))) else .num (1 / 2)) = _
    rw [if_neg (by norm_num)]
  rw [e]
  have := F.fl_repr 1 (-1) (by rw [abs_one]; exact one_le_pow₀ (by norm_num)) (by have := F.emin_le; omega)
  rw [zpow_neg, zpow_one] at this
  push_cast at this
  rw [_root_.one_mul] at this
  refine F.round_of (by rw [one_div]; exact this) ?_
  have : (1 : ℚ) < 2 ^ F.emax := one_lt_zpow₀ (by norm_num) (by have := F.le_emax; omega)
  rw [abs_of_pos (by norm_num)]
  linarith

theorem nat_val {n : Nat} (h : n ≤ 2 ^ F.p) (h' : (n : ℚ) ≤ 2 ^ (F.emax - 1)) : ((n : Nat) : Flt F).val = .num n := by
  show F.round (.num (n : ℚ)) = _
  have := F.fl_repr n 0 (by rw [abs_of_nonneg (by positivity)]; exact_mod_cast h) (by have := F.emin_le; omega)
  push_cast at this
  rw [_root_.mul_one] at this
  rw [round_num_of_le (by rw [abs_of_nonneg (by positivity)]; exact h'), this]

end K52.Flt
