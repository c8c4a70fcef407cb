import Verif.Spec.Double

/-!
# Arithmetic of `Flt`
-/

namespace K52.Flt

variable {F : Format}

/-- NaN. -/
def nanF : Flt F := ⟨.nan, rfl⟩

theorem nan_nanF : nan (nanF : Flt F) := rfl

theorem eq_nanF {a : Flt F} (h : nan a) : a = nanF := ext h

theorem nan_iff_eq {a : Flt F} : nan a ↔ a = nanF := ⟨eq_nanF, by rintro rfl; exact nan_nanF⟩

@[simp] theorem nanF_add (a : Flt F) : nanF + a = nanF := eq_nanF (IeeeArith.add_left _ nan_nanF)
@[simp] theorem add_nanF (a : Flt F) : a + nanF = nanF := eq_nanF (IeeeArith.add_right _ nan_nanF)
@[simp] theorem nanF_sub (a : Flt F) : nanF - a = nanF := eq_nanF (IeeeArith.sub_left _ nan_nanF)
@[simp] theorem sub_nanF (a : Flt F) : a - nanF = nanF := eq_nanF (IeeeArith.sub_right _ nan_nanF)
@[simp] theorem nanF_mul (a : Flt F) : nanF * a = nanF := eq_nanF (IeeeArith.mul_left _ nan_nanF)
@[simp] theorem mul_nanF (a : Flt F) : a * nanF = nanF := eq_nanF (IeeeArith.mul_right _ nan_nanF)
@[simp] theorem nanF_div (a : Flt F) : nanF / a = nanF := eq_nanF (IeeeArith.div_left _ nan_nanF)
@[simp] theorem div_nanF (a : Flt F) : a / nanF = nanF := eq_nanF (IeeeArith.div_right _ nan_nanF)
@[simp] theorem not_nanF_lt (a : Flt F) : ¬ nanF < a := IeeeOrder.not_lt_nan_left nan_nanF
@[simp] theorem not_lt_nanF (a : Flt F) : ¬ a < nanF := IeeeOrder.not_lt_nan_right nan_nanF
@[simp] theorem not_nanF_le (a : Flt F) : ¬ nanF ≤ a := IeeeOrder.not_le_nan_left nan_nanF
@[simp] theorem not_le_nanF (a : Flt F) : ¬ a ≤ nanF := IeeeOrder.not_le_nan_right nan_nanF

theorem round_val (a : Flt F) : F.round a.val = a.val := a.2

/-- Adding zero changes nothing. -/
theorem add_zero (a : Flt F) : a + 0 = a := by
  refine ext ?_
  rw [val_add, val_zero]
  obtain ⟨x, hx⟩ := a
  rcases x with _ | s | q
  · rfl
  · rfl
  · show F.round (.num (q + 0)) = .num q
    rw [_root_.add_zero]
    exact hx

theorem sub_zero (a : Flt F) : a - 0 = a := by
  refine ext ?_
  rw [val_sub, val_zero]
  obtain ⟨x, hx⟩ := a
  rcases x with _ | s | q
  · rfl
  · rfl
  · show F.round (.num (q + -0)) = .num q
    rw [neg_zero, _root_.add_zero]
    exact hx

/-- A finite number times zero is zero. -/
theorem mul_zero {a : Flt F} (h : Finite a) : a * 0 = 0 := by
  obtain ⟨q, hq⟩ := h
  refine ext ?_
  rw [val_mul, hq, val_zero]
  show F.round (.num (q * 0)) = .num 0
  rw [MulZeroClass.mul_zero]
  exact val_zero (F := F)

theorem zero_mul {a : Flt F} (h : Finite a) : 0 * a = 0 := by
  obtain ⟨q, hq⟩ := h
  refine ext ?_
  rw [val_mul, hq, val_zero]
  show F.round (.num (0 * q)) = .num 0
  rw [MulZeroClass.zero_mul]
  exact val_zero (F := F)

/-- An infinity times zero is NaN. -/
theorem inf_mul_zero {a : Flt F} {s : Bool} (h : a.val = .inf s) : a * 0 = nanF := by
  refine ext ?_
  rw [val_mul, h, val_zero]
  rfl

/-- Zero divided by a number other than zero. -/
theorem zero_div {a : Flt F} (hn : ¬ nan a) (h0 : a ≠ 0) : 0 / a = 0 := by
  refine ext ?_
  rw [val_div, val_zero]
  obtain ⟨x, hx⟩ := a
  rcases x with _ | s | q
  · exact absurd rfl hn
  · exact val_zero (F := F)
  · show F.round (if q = 0 then _ else .num (0 / q)) = .num 0
    rw [if_neg, _root_.zero_div]
    · exact val_zero (F := F)
    · rintro rfl
      exact h0 (ext (by rw [val_zero]; rfl))

/-- The difference of a finite number and itself. -/
theorem sub_self {a : Flt F} (h : Finite a) : a - a = 0 := by
  obtain ⟨q, hq⟩ := h
  refine ext ?_
  rw [val_sub, hq, val_zero]
  show F.round (.num (q + -q)) = .num 0
  rw [add_neg_cancel]
  exact val_zero (F := F)

theorem finite_of {a : Flt F} {q : ℚ} (h : a.val = .num q) : Finite a := ⟨q, h⟩

theorem finite_zero : Finite (0 : Flt F) := ⟨0, val_zero⟩
theorem finite_one : Finite (1 : Flt F) := ⟨1, val_one⟩

theorem Finite.not_nan {a : Flt F} (h : Finite a) : ¬ nan a := by
  obtain ⟨q, hq⟩ := h
  rw [nan_iff, hq]
  exact Dbl.noConfusion

/-- An infinity plus a finite number, and the like. -/
theorem inf_add {a b : Flt F} {s : Bool} (ha : a.val = .inf s) (hb : Finite b) : a + b = a := by
  obtain ⟨q, hq⟩ := hb
  refine ext ?_
  rw [val_add, ha, hq]
  rfl

theorem inf_sub {a b : Flt F} {s : Bool} (ha : a.val = .inf s) (hb : Finite b) : a - b = a := by
  obtain ⟨q, hq⟩ := hb
  refine ext ?_
  rw [val_sub, ha, hq]
  rfl

/-- The difference of a number that is not finite and itself. -/
theorem sub_self_nan {a : Flt F} (h : ¬ Finite a) : a - a = nanF := by
  refine ext ?_
  rw [val_sub]
  obtain ⟨x, hx⟩ := a
  rcases x with _ | s | q
  · rfl
  · show F.round (if s = !s then _ else .nan) = .nan
    cases s <;> rfl
  · exact absurd ⟨q, rfl⟩ h

/-- `2 / 2` and `1 * 2` are exact. -/
theorem one_mul_two_div : (1 : Flt F) * 2 / 2 = 1 := by
  refine ext ?_
  rw [val_div, val_mul, val_one, two_val]
  have h : F.round (.num 1 * .num 2) = .num 2 := by
    show F.round (.num (1 * 2)) = .num 2
    rw [one_mul]
    have := round_val (2 : Flt F)
    rwa [two_val] at this
  rw [h]
  show F.round (if (2 : ℚ) = 0 then (if (2 : ℚ) = 0 then .nan else .inf (decide ((2 : ℚ) < 0))) else .num (2 / 2)) = .num 1
  rw [if_neg (by norm_num), div_self (by norm_num)]
  exact val_one (F := F)

/-- Rounding of a finite result of at least 1 loses at most a quarter. -/
theorem fl_ge {q : ℚ} (h : 1 ≤ q) : 3 / 4 * q ≤ F.fl q := by
  have hl : F.least ≤ 1 := zpow_le_one_of_nonpos₀ (by norm_num) (by have := F.one_normal; omega)
  unfold Format.fl
  rw [if_neg (by rw [abs_of_pos (by linarith)]; linarith)]
  have he := Nearest.fl_error (p := F.p) q
  rw [abs_of_pos (by linarith : 0 < q)] at he
  have h4 : (4 : ℚ) ≤ 2 ^ F.p := by
    have := pow_le_pow_right₀ (show (1 : ℚ) ≤ 2 by norm_num) F.two_le_p
    linarith
  have h5 : q / 2 ^ F.p ≤ q / 4 := div_le_div_of_nonneg_left (by linarith) (by norm_num) h4
  have := (abs_le.1 he).1
  linarith

/-- Multiplying a number of at least 1 by a factor of at least 3/2 gives an infinity or at least 9/8 times the number. -/
theorem grow {a b : Flt F} {q k : ℚ} (ha : a.val = .num q) (hq : 1 ≤ q) (hb : b.val = .num k) (hk : 3 / 2 ≤ k) :
    (a * b).val = .inf false ∨ ∃ q', (a * b).val = .num q' ∧ 9 / 8 * q ≤ q' := by
  have h1 : 3 / 2 * q ≤ q * k := by nlinarith
  have h2 : 3 / 4 * (q * k) ≤ F.fl (q * k) := fl_ge (by linarith)
  rw [val_mul, ha, hb]
  show F.round (.num (q * k)) = _ ∨ _
  have e : F.round (.num q * .num k) = F.round (.num (q * k)) := rfl
  rw [e]
  simp only [Format.round]
  split_ifs with h
  · right
    refine ⟨_, rfl, by linarith⟩
  · left
    rw [decide_eq_false (by nlinarith)]

/-! ### Absorption -/

theorem nearestInt_near {z : ℚ} {N : Int} (h : |z - N| < 1 / 2) : Nearest.nearestInt z = N := by
  have h1 := Nearest.nearestInt_neg_bound z
  have h2 : |((Nearest.nearestInt z - N : Int) : ℚ)| < 1 := by
    have := abs_add_le ((Nearest.nearestInt z : ℚ) - z) (z - N)
    have e : (Nearest.nearestInt z : ℚ) - z + (z - N) = ((Nearest.nearestInt z - N : Int) : ℚ) := by push_cast; ring
    rw [e] at this
    linarith
  have h3 : |Nearest.nearestInt z - N| < 1 := by exact_mod_cast h2
  rw [Int.abs_lt_one_iff] at h3
  omega

theorem log_eq {y : ℚ} {k : Int} (h1 : (2 : ℚ) ^ k ≤ y) (h2 : y < 2 ^ (k + 1)) : Int.log 2 y = k := by
  have hy : 0 < y := lt_of_lt_of_le (zpow_pos Nearest.two_pos k) h1
  have a := (Int.zpow_le_iff_le_log (b := 2) (by norm_num) hy (x := k)).1 (by exact_mod_cast h1)
  have b := (Int.lt_zpow_iff_log_lt (b := 2) (by norm_num) hy (x := k + 1)).1 (by exact_mod_cast h2)
  omega

theorem fl_normal {y : ℚ} {k N : Int} (hk : F.emin + F.p - 1 ≤ k) (h1 : (2 : ℚ) ^ k ≤ y) (h2 : y < 2 ^ (k + 1))
    (hN : |y / 2 ^ (k - (F.p - 1)) - N| < 1 / 2) : F.fl y = N * 2 ^ (k - (F.p - 1)) := by
  have hy : 0 < y := lt_of_lt_of_le (zpow_pos Nearest.two_pos k) h1
  unfold Format.fl Nearest.fl Nearest.ulpExp
  have hle : F.least ≤ 2 ^ k := zpow_le_zpow_right₀ (by norm_num) hk
  rw [abs_of_pos hy, if_neg (by linarith), log_eq h1 h2, nearestInt_near hN]

theorem fl_subnormal {y : ℚ} {N : Int} (hy : |y| < F.least) (hN : |y / 2 ^ F.emin - N| < 1 / 2) : F.fl y = N * 2 ^ F.emin := by
  unfold Format.fl
  rw [if_pos hy, nearestInt_near hN]

/-- A number added to one `2^(p+1)` times as large is lost. -/
theorem absorb {x δ : ℚ} (hx : F.fl x = x) (h : |δ| < |x| / 2 ^ (F.p + 1)) : F.fl (x + δ) = x := by
  have key : ∀ x δ : ℚ, 0 < x → F.fl x = x → |δ| < x / 2 ^ (F.p + 1) → F.fl (x + δ) = x := by
    intro x δ hx0 hx h
    have hpp := F.two_le_p
    rcases lt_or_ge x F.least with hs | hs
    · have hu := zpow_pos Nearest.two_pos F.emin
      have e : x = Nearest.nearestInt (x / 2 ^ F.emin) * 2 ^ F.emin := by
        conv_lhs => rw [← hx]
        unfold Format.fl
        rw [abs_of_pos hx0, if_pos hs]
      generalize Nearest.nearestInt (x / 2 ^ F.emin) = N at e
      have hl : F.least / 2 ^ (F.p + 1) = 2 ^ F.emin / 4 := by
        unfold Format.least
        rw [show F.emin + F.p - 1 = F.emin + (F.p : Int) + -1 by ring, zpow_add₀ (by norm_num), zpow_add₀ (by norm_num), zpow_natCast, pow_succ, zpow_neg, zpow_one]
        have : (0 : ℚ) < 2 ^ F.p := by positivity
        field_simp
        ring
      have hδ : |δ| < 2 ^ F.emin / 4 := by
        have := div_le_div_of_nonneg_right hs.le (show (0 : ℚ) ≤ 2 ^ (F.p + 1) by positivity)
        linarith
      obtain ⟨d1, d2⟩ := abs_lt.1 hδ
      have hN : x ≤ F.least - 2 ^ F.emin := by
        rw [F.least_eq] at hs ⊢
        rw [e] at hs ⊢
        have := lt_of_mul_lt_mul_right hs hu.le
        have h2 : N + 1 ≤ 2 ^ (F.p - 1) := by
          have : N < 2 ^ (F.p - 1) := by exact_mod_cast this
          omega
        have h3 : ((N + 1 : Int) : ℚ) ≤ ((2 ^ (F.p - 1) : Int) : ℚ) := by exact_mod_cast h2
        have h4 := mul_le_mul_of_nonneg_right h3 hu.le
        push_cast at h4 ⊢
        linarith
      have h1 : (2 : ℚ) ^ F.emin ≤ x := by
        have : 0 < (N : ℚ) := by
          by_contra hn
          have := mul_nonpos_of_nonpos_of_nonneg (not_lt.1 hn) hu.le
          linarith
        have : 1 ≤ N := by exact_mod_cast this
        have : (1 : ℚ) ≤ N := by exact_mod_cast this
        have := mul_le_mul_of_nonneg_right this hu.le
        linarith
      rw [fl_subnormal (N := N), ← e]
      · rw [abs_of_pos (by linarith)]
        linarith
      · have e2 : (x + δ) / 2 ^ F.emin - N = δ / 2 ^ F.emin := by
          rw [e]
          field_simp
          ring
        rw [e2, abs_div, abs_of_pos hu, div_lt_iff₀ hu]
        linarith
    · obtain ⟨l1, l2⟩ := Nearest.log_bounds hx0
      have hk : F.emin + F.p - 1 ≤ Int.log 2 x := by
        refine (Int.zpow_le_iff_le_log (b := 2) (by norm_num) hx0).1 ?_
        exact_mod_cast hs
      have e : x = Nearest.nearestInt (x / 2 ^ (Int.log 2 x - (F.p - 1))) * 2 ^ (Int.log 2 x - (F.p - 1)) := by
        conv_lhs => rw [← hx]
        unfold Format.fl Nearest.fl Nearest.ulpExp
        rw [abs_of_pos hx0, if_neg (not_lt.2 hs)]
      generalize Nearest.nearestInt (x / 2 ^ (Int.log 2 x - (F.p - 1))) = N at e
      generalize Int.log 2 x = k at *
      have hu := zpow_pos Nearest.two_pos (k - ((F.p : Int) - 1))
      have ek : (2 : ℚ) ^ k = ((2 ^ (F.p - 1) : Int) : ℚ) * 2 ^ (k - ((F.p : Int) - 1)) := by
        push_cast
        rw [← zpow_natCast, ← zpow_add₀ (by norm_num)]
        congr 1
        omega
      have ek1 : (2 : ℚ) ^ (k + 1) = ((2 ^ F.p : Int) : ℚ) * 2 ^ (k - ((F.p : Int) - 1)) := by
        push_cast
        rw [← zpow_natCast, ← zpow_add₀ (by norm_num)]
        congr 1
        omega
      have ek2 : (2 : ℚ) ^ (k + 1) / 2 ^ (F.p + 1) = 2 ^ (k - ((F.p : Int) - 1)) / 2 := by
        rw [ek1]
        push_cast
        rw [pow_succ]
        have : (0 : ℚ) < 2 ^ F.p := by positivity
        field_simp
      have hδ : |δ| < 2 ^ (k - ((F.p : Int) - 1)) / 2 := by
        have := div_le_div_of_nonneg_right l2.le (show (0 : ℚ) ≤ 2 ^ (F.p + 1) by positivity)
        linarith
      obtain ⟨d1, d2⟩ := abs_lt.1 hδ
      have hNlt : N + 1 ≤ 2 ^ F.p := by
        rw [ek1, e] at l2
        have := lt_of_mul_lt_mul_right l2 hu.le
        have : N < 2 ^ F.p := by exact_mod_cast this
        omega
      have hNge : 2 ^ (F.p - 1) ≤ N := by
        rw [ek, e] at l1
        have := le_of_mul_le_mul_right l1 hu
        exact_mod_cast this
      rcases le_or_gt ((2 : ℚ) ^ k) (x + δ) with hy | hy
      · rw [fl_normal (k := k) (N := N) hk hy, ← e]
        · rw [ek1]
          have h3 : ((N + 1 : Int) : ℚ) ≤ ((2 ^ F.p : Int) : ℚ) := by exact_mod_cast hNlt
          have h4 := mul_le_mul_of_nonneg_right h3 hu.le
          push_cast at h4 ⊢
          linarith
        · have e2 : (x + δ) / 2 ^ (k - ((F.p : Int) - 1)) - N = δ / 2 ^ (k - ((F.p : Int) - 1)) := by
            rw [e]
            field_simp
            ring
          rw [e2, abs_div, abs_of_pos hu, div_lt_iff₀ hu]
          linarith
      · have hN : N = 2 ^ (F.p - 1) := by
          by_contra hne
          have h2 : 2 ^ (F.p - 1) + 1 ≤ N := by omega
          have h3 : ((2 ^ (F.p - 1) + 1 : Int) : ℚ) ≤ N := by exact_mod_cast h2
          have h4 := mul_le_mul_of_nonneg_right h3 hu.le
          rw [ek] at hy
          push_cast at h4 hy
          linarith
        have hxk : x = 2 ^ k := by rw [ek, e, hN]
        have hδ4 : |δ| < 2 ^ (k - ((F.p : Int) - 1)) / 4 := by
          have : x / 2 ^ (F.p + 1) = 2 ^ (k - ((F.p : Int) - 1)) / 4 := by
            rw [hxk]
            have e1 : (2 : ℚ) ^ (k + 1) = 2 * 2 ^ k := by rw [zpow_add₀ (by norm_num), zpow_one]; ring
            rw [e1, mul_div_assoc] at ek2
            linarith
          linarith
        obtain ⟨f1, f2⟩ := abs_lt.1 hδ4
        rcases eq_or_lt_of_le hk with hk' | hk'
        · have hu' : k - ((F.p : Int) - 1) = F.emin := by omega
          rw [hu'] at e hu f1 f2 hδ4
          rw [fl_subnormal (N := N), ← e]
          · have hle : F.least = 2 ^ k := by unfold Format.least; rw [hk']
            rw [hle, abs_of_pos]
            · exact hy
            · have : (2 : ℚ) ^ F.emin ≤ x := by
                rw [hxk]
                exact zpow_le_zpow_right₀ (by norm_num) (by omega)
              linarith
          · have e2 : (x + δ) / 2 ^ F.emin - N = δ / 2 ^ F.emin := by
              rw [e]
              field_simp
              ring
            rw [e2, abs_div, abs_of_pos hu, div_lt_iff₀ hu]
            linarith
        · have eh : (2 : ℚ) ^ (k - 1 - ((F.p : Int) - 1)) = 2 ^ (k - ((F.p : Int) - 1)) / 2 := by
            rw [show k - 1 - ((F.p : Int) - 1) = k - ((F.p : Int) - 1) + -1 by ring, zpow_add₀ (by norm_num), zpow_neg, zpow_one]
            ring
          have ekm : (2 : ℚ) ^ (k - 1) = 2 ^ k / 2 := by
            rw [show k - 1 = k + -1 by ring, zpow_add₀ (by norm_num), zpow_neg, zpow_one]
            ring
          have hge : (2 : ℚ) ^ (k - ((F.p : Int) - 1)) ≤ 2 ^ k := zpow_le_zpow_right₀ (by norm_num) (by omega)
          rw [fl_normal (k := k - 1) (N := 2 * N) (by omega), eh]
          · push_cast
            rw [e]
            ring
          · rw [ekm]
            linarith
          · rw [show k - 1 + 1 = k by ring]
            exact hy
          · rw [eh]
            have e2 : (x + δ) / (2 ^ (k - ((F.p : Int) - 1)) / 2) - (2 * N : Int) = δ / (2 ^ (k - ((F.p : Int) - 1)) / 2) := by
              rw [e]
              push_cast
              field_simp
              ring
            rw [e2, abs_div, abs_of_pos (half_pos hu), div_lt_iff₀ (half_pos hu)]
            linarith
  rcases lt_trichotomy x 0 with h0 | h0 | h0
  · have := key (-x) (-δ) (by linarith) (by rw [F.fl_neg, hx]) (by rw [abs_neg]; rwa [abs_of_neg h0] at h)
    rw [← neg_add, F.fl_neg] at this
    linarith
  · rw [h0, abs_zero, _root_.zero_div] at h
    exact absurd h (not_lt.2 (abs_nonneg _))
  · rw [abs_of_pos h0] at h
    exact key x δ h0 hx h

/-! ### Order -/

theorem _root_.K52.Dbl.num_le {a b : ℚ} : Dbl.num a ≤ Dbl.num b ↔ a ≤ b := by
  rw [Dbl.le_def]
  simp [Dbl.leb]

theorem _root_.K52.Dbl.le_cases {x y : Dbl} (h : x ≤ y) :
    x = .inf true ∧ y ≠ .nan ∨ y = .inf false ∧ x ≠ .nan ∨ ∃ a b, x = .num a ∧ y = .num b ∧ a ≤ b := by
  rw [Dbl.le_def] at h
  rcases x with _ | s | a <;> rcases y with _ | t | b
  · simp [Dbl.leb] at h
  · simp [Dbl.leb] at h
  · simp [Dbl.leb] at h
  · simp [Dbl.leb] at h
  · cases s <;> cases t <;> simp [Dbl.leb] at h ⊢
  · cases s <;> simp [Dbl.leb] at h ⊢
  · simp [Dbl.leb] at h
  · cases t <;> simp [Dbl.leb] at h ⊢
  · right; right
    exact ⟨a, b, rfl, rfl, by simpa [Dbl.leb] using h⟩

theorem _root_.K52.Dbl.minf_le {y : Dbl} (h : y ≠ .nan) : Dbl.inf true ≤ y := by
  rw [Dbl.le_def]
  rcases y with _ | t | b
  · exact absurd rfl h
  · rfl
  · rfl

theorem _root_.K52.Dbl.le_pinf {y : Dbl} (h : y ≠ .nan) : y ≤ Dbl.inf false := by
  rw [Dbl.le_def]
  rcases y with _ | t | b
  · exact absurd rfl h
  · simp [Dbl.leb]
  · rfl

/-- Rounding is monotone. -/
theorem round_mono {x y : Dbl} (h : x ≤ y) : F.round x ≤ F.round y := by
  rcases Dbl.le_cases h with ⟨rfl, hy⟩ | ⟨rfl, hx⟩ | ⟨a, b, rfl, rfl, hab⟩
  · exact Dbl.minf_le (fun e => hy (round_nan.1 e))
  · exact Dbl.le_pinf (fun e => hx (round_nan.1 e))
  · have hm := F.fl_mono hab
    have h0 : ∀ q : ℚ, 0 ≤ q → 0 ≤ F.fl q := fun q hq => by
      have := F.fl_mono hq
      rwa [F.fl_zero] at this
    have h0' : ∀ q : ℚ, q ≤ 0 → F.fl q ≤ 0 := fun q hq => by
      have := F.fl_mono hq
      rwa [F.fl_zero] at this
    have hE := zpow_pos Nearest.two_pos F.emax
    simp only [Format.round]
    split_ifs with h1 h2 h2
    · exact Dbl.num_le.2 hm
    · have : 0 ≤ b := by
        by_contra hb
        have hb := not_le.1 hb
        have h3 := h0' b hb.le
        rw [abs_of_nonpos h3] at h2
        have h4 := h0' a (by linarith)
        rw [abs_of_nonpos h4] at h1
        linarith
      rw [decide_eq_false (by linarith)]
      exact Dbl.le_pinf (fun e => Dbl.noConfusion e)
    · have : a < 0 := by
        by_contra ha
        have ha := not_lt.1 ha
        have h3 := h0 a ha
        rw [abs_of_nonneg h3] at h1
        have h4 := h0 b (by linarith)
        rw [abs_of_nonneg h4] at h2
        linarith
      rw [decide_eq_true this]
      exact Dbl.minf_le (fun e => Dbl.noConfusion e)
    · rcases lt_or_ge a 0 with ha | ha
      · rw [decide_eq_true ha]
        exact Dbl.minf_le (fun e => Dbl.noConfusion e)
      · rw [decide_eq_false (by linarith : ¬ b < 0)]
        exact Dbl.le_pinf (fun e => Dbl.noConfusion e)

theorem _root_.K52.Dbl.add_mono {x y : Dbl} (c : ℚ) (h : x ≤ y) : x + .num c ≤ y + .num c := by
  rcases Dbl.le_cases h with ⟨rfl, hy⟩ | ⟨rfl, hx⟩ | ⟨a, b, rfl, rfl, hab⟩
  · refine Dbl.minf_le ?_
    rcases y with _ | t | b
    · exact absurd rfl hy
    · exact Dbl.noConfusion
    · exact Dbl.noConfusion
  · refine Dbl.le_pinf ?_
    rcases x with _ | t | b
    · exact absurd rfl hx
    · exact Dbl.noConfusion
    · exact Dbl.noConfusion
  · exact Dbl.num_le.2 (by linarith)

theorem _root_.K52.Dbl.num_add (c : ℚ) (x : Dbl) : .num c + x = x + .num c := by
  rcases x with _ | s | a
  · rfl
  · rfl
  · show Dbl.num (c + a) = Dbl.num (a + c)
    rw [add_comm]

theorem _root_.K52.Dbl.num_mul (c : ℚ) (x : Dbl) : .num c * x = x * .num c := by
  rcases x with _ | s | a
  · rfl
  · rfl
  · show Dbl.num (c * a) = Dbl.num (a * c)
    rw [mul_comm]

theorem _root_.K52.Dbl.inf_mul {c : ℚ} (hc : c ≠ 0) (s : Bool) : Dbl.inf s * .num c = .inf (s != decide (c < 0)) := by
  show (if c = 0 then Dbl.nan else _) = _
  rw [if_neg hc]

theorem _root_.K52.Dbl.mul_ne_nan {c : ℚ} (hc : c ≠ 0) {x : Dbl} (hx : x ≠ .nan) : x * .num c ≠ .nan := by
  rcases x with _ | s | a
  · exact absurd rfl hx
  · rw [Dbl.inf_mul hc]; exact Dbl.noConfusion
  · exact Dbl.noConfusion

theorem _root_.K52.Dbl.mul_mono_pos {x y : Dbl} {c : ℚ} (hc : 0 < c) (h : x ≤ y) : x * .num c ≤ y * .num c := by
  rcases Dbl.le_cases h with ⟨rfl, hy⟩ | ⟨rfl, hx⟩ | ⟨a, b, rfl, rfl, hab⟩
  · rw [Dbl.inf_mul hc.ne', decide_eq_false (by linarith)]
    exact Dbl.minf_le (Dbl.mul_ne_nan hc.ne' hy)
  · rw [Dbl.inf_mul hc.ne', decide_eq_false (by linarith)]
    exact Dbl.le_pinf (Dbl.mul_ne_nan hc.ne' hx)
  · exact Dbl.num_le.2 (mul_le_mul_of_nonneg_right hab hc.le)

theorem _root_.K52.Dbl.mul_mono_neg {x y : Dbl} {c : ℚ} (hc : c < 0) (h : x ≤ y) : y * .num c ≤ x * .num c := by
  rcases Dbl.le_cases h with ⟨rfl, hy⟩ | ⟨rfl, hx⟩ | ⟨a, b, rfl, rfl, hab⟩
  · rw [Dbl.inf_mul hc.ne, decide_eq_true hc]
    exact Dbl.le_pinf (Dbl.mul_ne_nan hc.ne hy)
  · rw [Dbl.inf_mul hc.ne, decide_eq_true hc]
    exact Dbl.minf_le (Dbl.mul_ne_nan hc.ne hx)
  · exact Dbl.num_le.2 (mul_le_mul_of_nonpos_right hab hc.le)

/-- A nonnegative difference. -/
theorem _root_.K52.Dbl.sub_nonneg {x y : Dbl} (h : x ≤ y) (hn : y - x ≠ .nan) : .num 0 ≤ y - x := by
  have e : y - x = y + -x := rfl
  rcases Dbl.le_cases h with ⟨rfl, hy⟩ | ⟨rfl, hx⟩ | ⟨a, b, rfl, rfl, hab⟩
  · rcases y with _ | t | b
    · exact absurd rfl hy
    · cases t
      · rfl
      · exact absurd rfl hn
    · rfl
  · rcases x with _ | t | b
    · exact absurd rfl hx
    · cases t
      · exact absurd rfl hn
      · rfl
    · rfl
  · exact (Dbl.num_le (b := b + -a)).2 (by linarith)

theorem _root_.K52.Dbl.div_nonneg {x : Dbl} {c : ℚ} (hc : 0 < c) (h : Dbl.num 0 ≤ x) : .num 0 ≤ x / .num c := by
  rcases Dbl.le_cases h with ⟨hh, -⟩ | ⟨rfl, -⟩ | ⟨a, b, ha, rfl, hab⟩
  · cases hh
  · show Dbl.num 0 ≤ Dbl.inf (false != decide (c < 0))
    rw [decide_eq_false (by linarith)]
    rfl
  · cases ha
    show Dbl.num 0 ≤ (if c = 0 then _ else Dbl.num (b / c))
    rw [if_neg hc.ne']
    exact Dbl.num_le.2 (_root_.div_nonneg hab hc.le)

/-- A nonpositive difference. -/
theorem _root_.K52.Dbl.sub_nonpos {x y : Dbl} (h : y ≤ x) (hn : y - x ≠ .nan) : y - x ≤ .num 0 := by
  rcases Dbl.le_cases h with ⟨rfl, hy⟩ | ⟨rfl, hx⟩ | ⟨b, a, rfl, rfl, hab⟩
  · rcases x with _ | t | b
    · exact absurd rfl hy
    · cases t
      · rfl
      · exact absurd rfl hn
    · rfl
  · rcases y with _ | t | b
    · exact absurd rfl hx
    · cases t
      · exact absurd rfl hn
      · rfl
    · rfl
  · exact (Dbl.num_le (a := b + -a)).2 (by linarith)

theorem _root_.K52.Dbl.div_nonpos {x : Dbl} {c : ℚ} (hc : 0 < c) (h : x ≤ Dbl.num 0) : x / .num c ≤ .num 0 := by
  rcases Dbl.le_cases h with ⟨rfl, -⟩ | ⟨hh, -⟩ | ⟨a, b, rfl, hb, hab⟩
  · show Dbl.inf (true != decide (c < 0)) ≤ Dbl.num 0
    rw [decide_eq_false (by linarith)]
    rfl
  · cases hh
  · cases hb
    show (if c = 0 then _ else Dbl.num (a / c)) ≤ Dbl.num 0
    rw [if_neg hc.ne']
    exact Dbl.num_le.2 (div_nonpos_of_nonpos_of_nonneg hab hc.le)

theorem add_mono {x y c : Flt F} (hc : Finite c) (h : x ≤ y) : x + c ≤ y + c := by
  obtain ⟨q, hq⟩ := hc
  rw [le_iff, val_add, val_add, hq]
  exact round_mono (Dbl.add_mono q h)

theorem mono_add {x y c : Flt F} (hc : Finite c) (h : x ≤ y) : c + x ≤ c + y := by
  obtain ⟨q, hq⟩ := hc
  rw [le_iff, val_add, val_add, hq, Dbl.num_add, Dbl.num_add]
  exact round_mono (Dbl.add_mono q h)

theorem mul_mono_pos {x y c : Flt F} {q : ℚ} (hc : c.val = .num q) (hq : 0 < q) (h : x ≤ y) : x * c ≤ y * c := by
  rw [le_iff, val_mul, val_mul, hc]
  exact round_mono (Dbl.mul_mono_pos hq h)

theorem mul_mono_neg {x y c : Flt F} {q : ℚ} (hc : c.val = .num q) (hq : q < 0) (h : x ≤ y) : y * c ≤ x * c := by
  rw [le_iff, val_mul, val_mul, hc]
  exact round_mono (Dbl.mul_mono_neg hq h)

theorem mono_mul_pos {x y c : Flt F} {q : ℚ} (hc : c.val = .num q) (hq : 0 < q) (h : x ≤ y) : c * x ≤ c * y := by
  rw [le_iff, val_mul, val_mul, hc, Dbl.num_mul, Dbl.num_mul]
  exact round_mono (Dbl.mul_mono_pos hq h)

theorem mono_mul_neg {x y c : Flt F} {q : ℚ} (hc : c.val = .num q) (hq : q < 0) (h : x ≤ y) : c * y ≤ c * x := by
  rw [le_iff, val_mul, val_mul, hc, Dbl.num_mul, Dbl.num_mul]
  exact round_mono (Dbl.mul_mono_neg hq h)

theorem le_refl {a : Flt F} (h : ¬ nan a) : a ≤ a := IeeeOrder.le_iff.2 ⟨h, h, IeeeOrder.lt_irrefl _⟩

theorem not_lt_of_le {a b : Flt F} (h : a ≤ b) : ¬ b < a := (IeeeOrder.le_iff.1 h).2.2

/-- A quotient of a nonnegative difference. -/
theorem quotient_nonneg {u v c : Flt F} {q : ℚ} (hc : c.val = .num q) (hq : 0 < q) (h : v ≤ u) (hn : ¬ nan ((u - v) / c)) : 0 ≤ (u - v) / c := by
  have h1 : u.val - v.val ≠ .nan := by
    intro e
    refine hn (IeeeArith.div_left _ ?_)
    rw [nan_iff, val_sub, e]
    rfl
  have h2 := round_mono (F := F) (Dbl.sub_nonneg h h1)
  have h3 : F.round (.num 0) = .num 0 := val_zero (F := F)
  rw [h3] at h2
  change Dbl.num 0 ≤ (u - v).val at h2
  have h4 := round_mono (F := F) (Dbl.div_nonneg hq h2)
  rw [h3, ← hc, ← val_div] at h4
  rw [le_iff, val_zero]
  exact h4

/-- A quotient of a nonpositive difference. -/
theorem quotient_nonpos {u v c : Flt F} {q : ℚ} (hc : c.val = .num q) (hq : 0 < q) (h : u ≤ v) (hn : ¬ nan ((u - v) / c)) : (u - v) / c ≤ 0 := by
  have h1 : u.val - v.val ≠ .nan := by
    intro e
    refine hn (IeeeArith.div_left _ ?_)
    rw [nan_iff, val_sub, e]
    rfl
  have h2 := round_mono (F := F) (Dbl.sub_nonpos h h1)
  have h3 : F.round (.num 0) = .num 0 := val_zero (F := F)
  rw [h3] at h2
  change (u - v).val ≤ Dbl.num 0 at h2
  have h4 := round_mono (F := F) (Dbl.div_nonpos hq h2)
  rw [h3, ← hc, ← val_div] at h4
  rw [le_iff, val_zero]
  exact h4

/-- Multiplying a number of at least 1 by a factor of at least 1 does not make it smaller. -/
theorem le_mul {a b : Flt F} {k : ℚ} (ha : 1 ≤ a) (hb : b.val = .num k) (hk : 1 ≤ k) : a ≤ a * b := by
  rw [le_iff, val_one] at ha
  rw [le_iff, val_mul, hb]
  have key : a.val ≤ a.val * .num k := by
    rcases Dbl.le_cases ha with ⟨hh, -⟩ | ⟨e, -⟩ | ⟨x, y, hx, e, hxy⟩
    · cases hh
    · rw [e, Dbl.inf_mul (by linarith), decide_eq_false (by linarith)]
      rfl
    · cases hx
      rw [e]
      exact (Dbl.num_le (b := y * k)).2 (by nlinarith)
  have := round_mono (F := F) key
  rwa [round_val] at this

theorem le_trans {a b c : Flt F} (h1 : a ≤ b) (h2 : b ≤ c) : a ≤ c := by
  obtain ⟨n1, n2, n3⟩ := IeeeOrder.le_iff.1 h1
  obtain ⟨n4, n5, n6⟩ := IeeeOrder.le_iff.1 h2
  exact IeeeOrder.le_iff.2 ⟨n1, n5, IeeeOrder.not_lt_trans n3 n6 n2⟩

end K52.Flt
