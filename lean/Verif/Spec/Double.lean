import Verif.Spec.Ieee
import Verif.Spec.Rounding

/-!
# Binary floating-point numbers with overflow and gradual underflow

`Flt F` are the numbers of an IEEE 754 binary format `F`: finitely many rational numbers, the infinities and NaN.  Every operation is the operation of `Dbl`
(exact, with infinities and NaN), rounded to nearest, ties to even; results of absolute value `2^emax` or more become infinite, and results below the least
normal number are rounded to a multiple of the least positive number.  Simplification: zero has no sign (it counts as positive in a division), and there is one NaN.
`binary64` is `double`.
-/

namespace K52

/-- A binary format: `p` significant digits, least positive number `2^emin`, numbers of absolute value below `2^emax`. -/
structure Format where
  p : Nat
  emin : Int
  emax : Int
  two_le_p : 2 ≤ p
  emin_le : emin ≤ -2
  p_le : emin + p ≤ emax
  one_normal : emin + p ≤ 1
  le_emax : 2 ≤ emax

/-- `double`. -/
def binary64 : Format := ⟨53, -1074, 1024, by norm_num, by norm_num, by norm_num, by norm_num, by norm_num⟩

namespace Format
variable (F : Format)

/-- The least normal number. -/
def least : ℚ := 2 ^ (F.emin + F.p - 1)

/-- Rounding of a rational number, without overflow. -/
def fl (q : ℚ) : ℚ := if |q| < F.least then Nearest.nearestInt (q / 2 ^ F.emin) * 2 ^ F.emin else Nearest.fl F.p q

/-- Rounding of an exact result. -/
def round : Dbl → Dbl
  | .nan => .nan
  | .inf s => .inf s
  | .num q => if |F.fl q| < 2 ^ F.emax then .num (F.fl q) else .inf (decide (q < 0))

theorem one_le_p : 1 ≤ F.p := le_trans (by norm_num) F.two_le_p

theorem least_pos : 0 < F.least := zpow_pos Nearest.two_pos _

theorem fl_zero : F.fl 0 = 0 := by
  have : Nearest.nearestInt 0 = 0 := by simpa using Nearest.nearestInt_int 0
  simp [fl, F.least_pos, this]

theorem fl_neg (q : ℚ) : F.fl (-q) = -F.fl q := by
  unfold fl
  rw [abs_neg]
  split_ifs
  · rw [neg_div, Nearest.nearestInt_neg]; push_cast; ring
  · exact Nearest.fl_neg _ _

/-- Multiples of powers of two with at most `p` digits are not changed. -/
theorem fl_repr (N k : Int) (hN : |N| ≤ 2 ^ F.p) (hk : F.emin ≤ k) : F.fl (N * 2 ^ k) = N * 2 ^ k := by
  unfold fl
  split_ifs
  · obtain ⟨d, hd⟩ := Int.eq_ofNat_of_zero_le (sub_nonneg.2 hk)
    have hu := zpow_pos Nearest.two_pos F.emin
    have e : (N : ℚ) * 2 ^ k = ((N * 2 ^ d : Int) : ℚ) * 2 ^ F.emin := by
      have : (2 : ℚ) ^ k = 2 ^ d * 2 ^ F.emin := by
        rw [← zpow_natCast, ← zpow_add₀ (by norm_num)]
        congr 1
        omega
      rw [this]
      push_cast
      ring
    rw [e, mul_div_assoc, div_self hu.ne', mul_one, Nearest.nearestInt_int]
  · exact Nearest.fl_repr F.one_le_p N k hN

theorem least_eq : F.least = ((2 ^ (F.p - 1) : Int) : ℚ) * 2 ^ F.emin := by
  unfold least
  push_cast
  rw [← zpow_natCast, ← zpow_add₀ (by norm_num)]
  congr 1
  have := F.one_le_p
  omega

theorem small_bound {q : ℚ} (h : |q| ≤ F.least) : |Nearest.nearestInt (q / 2 ^ F.emin)| ≤ 2 ^ (F.p - 1) := by
  have hu := zpow_pos Nearest.two_pos F.emin
  rw [F.least_eq, abs_le] at h
  have h1 : q / 2 ^ F.emin ≤ ((2 ^ (F.p - 1) : Int) : ℚ) := by rw [div_le_iff₀ hu]; exact h.2
  have h2 : ((-(2 ^ (F.p - 1)) : Int) : ℚ) ≤ q / 2 ^ F.emin := by
    rw [le_div_iff₀ hu]; push_cast at h ⊢; linarith [h.1]
  have h3 := Nearest.nearestInt_mono h1
  have h4 := Nearest.nearestInt_mono h2
  rw [Nearest.nearestInt_int] at h3 h4
  exact abs_le.2 ⟨h4, h3⟩

theorem two_pow_pred : (2 : Int) ^ (F.p - 1) ≤ 2 ^ F.p := pow_le_pow_right₀ (by norm_num) (by omega)

/-- The results of rounding. -/
theorem fl_form (q : ℚ) : ∃ N k : Int, |N| ≤ 2 ^ F.p ∧ F.emin ≤ k ∧ F.fl q = N * 2 ^ k := by
  unfold fl
  split_ifs with h
  · exact ⟨_, F.emin, (F.small_bound h.le).trans F.two_pow_pred, le_rfl, rfl⟩
  · have hq : 0 < |q| := lt_of_lt_of_le F.least_pos (not_lt.1 h)
    refine ⟨_, Nearest.ulpExp F.p q, ?_, ?_, rfl⟩
    · have hlt := (Nearest.log_bounds hq).2
      have hu := zpow_pos Nearest.two_pos (Nearest.ulpExp F.p q)
      have e2 : (2 : ℚ) ^ (Int.log 2 |q| + 1) = ((2 ^ F.p : Int) : ℚ) * 2 ^ Nearest.ulpExp F.p q := by
        push_cast
        rw [← zpow_natCast, ← zpow_add₀ (by norm_num)]
        congr 1
        unfold Nearest.ulpExp
        omega
      rw [e2] at hlt
      have hx : |q / 2 ^ Nearest.ulpExp F.p q| < ((2 ^ F.p : Int) : ℚ) := by
        rw [abs_div, abs_of_pos hu, div_lt_iff₀ hu]; exact hlt
      rw [abs_lt] at hx
      have h3 := Nearest.nearestInt_mono hx.2.le
      have h4 := Nearest.nearestInt_mono (x := ((-(2 ^ F.p) : Int) : ℚ)) (by push_cast at hx ⊢; exact hx.1.le)
      rw [Nearest.nearestInt_int] at h3 h4
      exact abs_le.2 ⟨h4, h3⟩
    · have := Int.zpow_le_iff_le_log (b := 2) (by norm_num) hq (x := F.emin + F.p - 1)
      have h2 := this.1 (by exact_mod_cast not_lt.1 h)
      unfold Nearest.ulpExp
      omega

theorem fl_idem (q : ℚ) : F.fl (F.fl q) = F.fl q := by
  obtain ⟨N, k, hN, hk, e⟩ := F.fl_form q
  rw [e]
  exact F.fl_repr N k hN hk

theorem fl_least : F.fl F.least = F.least := by
  have := F.fl_repr 1 (F.emin + F.p - 1) (by rw [abs_one]; exact one_le_pow₀ (by norm_num)) (by have := F.one_le_p; omega)
  simpa [least] using this

theorem fl_le_least {q : ℚ} (h : |q| < F.least) : |F.fl q| ≤ F.least := by
  have hu := zpow_pos Nearest.two_pos F.emin
  unfold fl
  rw [if_pos h, F.least_eq, abs_mul, abs_of_pos hu]
  refine mul_le_mul_of_nonneg_right ?_ hu.le
  exact_mod_cast F.small_bound h.le

theorem least_le_fl {q : ℚ} (h : F.least ≤ q) : F.least ≤ F.fl q := by
  unfold fl
  have h0 := F.least_pos
  rw [if_neg (by rw [abs_of_nonneg (by linarith)]; linarith)]
  have := Nearest.fl_mono F.one_le_p h
  have e := F.fl_least
  unfold fl at e
  rw [if_neg (by rw [abs_of_pos h0]; exact lt_irrefl _)] at e
  rwa [e] at this

theorem fl_mono : Monotone F.fl := by
  intro x y h
  rcases lt_or_ge |x| F.least with hx | hx <;> rcases lt_or_ge |y| F.least with hy | hy
  · unfold fl
    rw [if_pos hx, if_pos hy]
    have hu := zpow_pos Nearest.two_pos F.emin
    refine mul_le_mul_of_nonneg_right ?_ hu.le
    exact_mod_cast Nearest.nearestInt_mono (div_le_div_of_nonneg_right h hu.le)
  · have h1 := (abs_le.1 (F.fl_le_least hx)).2
    have h2 : F.least ≤ y := by
      rcases le_abs.1 hy with h2 | h2
      · exact h2
      · have := (abs_lt.1 hx).1
        linarith
    exact h1.trans (F.least_le_fl h2)
  · have h1 := (abs_le.1 (F.fl_le_least hy)).1
    have h2 : F.least ≤ -x := by
      rcases le_abs.1 hx with h2 | h2
      · have := (abs_lt.1 hy).2
        linarith
      · exact h2
    have := F.least_le_fl h2
    rw [fl_neg] at this
    linarith
  · unfold fl
    rw [if_neg (not_lt.2 hx), if_neg (not_lt.2 hy)]
    exact Nearest.fl_mono F.one_le_p h

theorem round_idem (x : Dbl) : F.round (F.round x) = F.round x := by
  rcases x with _ | s | q
  · rfl
  · rfl
  · simp only [round]
    by_cases h : |F.fl q| < 2 ^ F.emax
    · rw [if_pos h]
      simp only [fl_idem]
      rw [if_pos h]
    · rw [if_neg h]

theorem round_num {q : ℚ} (h : F.round (.num q) = .num q) : F.fl q = q ∧ |q| < 2 ^ F.emax := by
  simp only [round] at h
  split_ifs at h with h1
  have e : F.fl q = q := Dbl.num.inj h
  exact ⟨e, by rwa [e] at h1⟩

theorem round_of {q : ℚ} (h : F.fl q = q) (h1 : |q| < 2 ^ F.emax) : F.round (.num q) = .num q := by
  simp only [round]
  rw [h, if_pos h1]

end Format

/-- The numbers of a format. -/
def Flt (F : Format) : Type := { x : Dbl // F.round x = x }

namespace Flt
variable {F : Format}

/-- The value. -/
def val (a : Flt F) : Dbl := a.1

/-- An exact result, rounded. -/
def rnd (x : Dbl) : Flt F := ⟨F.round x, F.round_idem x⟩

instance : DecidableEq (Flt F) := inferInstanceAs (DecidableEq { x : Dbl // F.round x = x })
instance : Add (Flt F) := ⟨fun a b => rnd (a.1 + b.1)⟩
instance : Sub (Flt F) := ⟨fun a b => rnd (a.1 - b.1)⟩
instance : Mul (Flt F) := ⟨fun a b => rnd (a.1 * b.1)⟩
instance : Div (Flt F) := ⟨fun a b => rnd (a.1 / b.1)⟩
instance : Neg (Flt F) := ⟨fun a => rnd (-a.1)⟩
instance : Zero (Flt F) := ⟨rnd (.num 0)⟩
instance : One (Flt F) := ⟨rnd (.num 1)⟩
instance : NatCast (Flt F) := ⟨fun n => rnd (.num n)⟩
instance : IntCast (Flt F) := ⟨fun n => rnd (.num n)⟩
instance : LT (Flt F) := ⟨fun a b => a.1 < b.1⟩
instance : LE (Flt F) := ⟨fun a b => a.1 ≤ b.1⟩
instance : DecidableLT (Flt F) := fun a b => inferInstanceAs (Decidable (a.1 < b.1))
instance : DecidableLE (Flt F) := fun a b => inferInstanceAs (Decidable (a.1 ≤ b.1))

theorem ext {a b : Flt F} (h : a.val = b.val) : a = b := Subtype.ext h
theorem lt_iff {a b : Flt F} : a < b ↔ a.val < b.val := Iff.rfl
theorem le_iff {a b : Flt F} : a ≤ b ↔ a.val ≤ b.val := Iff.rfl
theorem val_add (a b : Flt F) : (a + b).val = F.round (a.val + b.val) := rfl
theorem val_sub (a b : Flt F) : (a - b).val = F.round (a.val - b.val) := rfl
theorem val_mul (a b : Flt F) : (a * b).val = F.round (a.val * b.val) := rfl
theorem val_div (a b : Flt F) : (a / b).val = F.round (a.val / b.val) := rfl
theorem val_neg (a : Flt F) : (-a).val = F.round (-a.val) := rfl

theorem round_nan {x : Dbl} : F.round x = .nan ↔ x = .nan := by
  rcases x with _ | s | q
  · simp [Format.round]
  · simp [Format.round]
  · simp only [Format.round]
    split_ifs <;> simp

instance : IeeeOrder (Flt F) where
  nan a := a.val = .nan
  lt_num {a b} h := IeeeOrder.lt_num (R := Dbl) (a := a.1) (b := b.1) h
  le_iff {a b} := IeeeOrder.le_iff (R := Dbl) (a := a.1) (b := b.1)
  lt_irrefl a := IeeeOrder.lt_irrefl (R := Dbl) a.1
  lt_trans {a b c} := IeeeOrder.lt_trans (R := Dbl) (a := a.1) (b := b.1) (c := c.1)
  lt_split {a b c} := IeeeOrder.lt_split (R := Dbl) (a := a.1) (b := b.1) (c := c.1)

theorem val_one : (1 : Flt F).val = .num 1 := by
  refine F.round_of ?_ ?_
  · have := F.fl_repr 1 0 (by rw [abs_one]; exact one_le_pow₀ (by norm_num)) (by have := F.emin_le; omega)
    simpa using this
  · rw [abs_one]
    exact one_lt_zpow₀ (by norm_num) (by have := F.le_emax; omega)

theorem val_zero : (0 : Flt F).val = .num 0 := by
  refine F.round_of F.fl_zero ?_
  rw [abs_zero]
  exact zpow_pos Nearest.two_pos _

theorem two_val : (2 : Flt F).val = .num 2 := by
  show F.round (.num ((2 : Nat) : ℚ)) = .num 2
  norm_num only [Nat.cast_ofNat]
  refine F.round_of ?_ ?_
  · have := F.fl_repr 1 1 (by rw [abs_one]; exact one_le_pow₀ (by norm_num)) (by have := F.emin_le; omega)
    simpa using this
  · rw [abs_of_pos (by norm_num)]
    have : (2 : ℚ) ^ (1 : Int) < 2 ^ F.emax := zpow_lt_zpow_right₀ (by norm_num) (by have := F.le_emax; omega)
    simpa using this

/-- Sign changes are exact. -/
theorem neg_val (a : Flt F) : (-a).val = -a.val := by
  rw [val_neg]
  obtain ⟨x, hx⟩ := a
  rcases x with _ | s | q
  · rfl
  · rfl
  · obtain ⟨h1, h2⟩ := F.round_num hx
    exact F.round_of (by rw [F.fl_neg, h1]) (by rwa [abs_neg])

instance : IeeeArith (Flt F) where
  add_left {a} b h := round_nan.2 (IeeeArith.add_left (R := Dbl) b.1 h)
  add_right a {b} h := round_nan.2 (IeeeArith.add_right (R := Dbl) a.1 h)
  sub_left {a} b h := round_nan.2 (IeeeArith.sub_left (R := Dbl) b.1 h)
  sub_right a {b} h := round_nan.2 (IeeeArith.sub_right (R := Dbl) a.1 h)
  mul_left {a} b h := round_nan.2 (IeeeArith.mul_left (R := Dbl) b.1 h)
  mul_right a {b} h := round_nan.2 (IeeeArith.mul_right (R := Dbl) a.1 h)
  div_left {a} b h := round_nan.2 (IeeeArith.div_left (R := Dbl) b.1 h)
  div_right a {b} h := round_nan.2 (IeeeArith.div_right (R := Dbl) a.1 h)
  neg_mul {a} h := by
    have h1 : (-1 : Flt F).val = -1 := by
      rw [neg_val, val_one]
      rfl
    have h2 : F.round ((-1 : Flt F).val * a.val) = .nan := h
    rw [h1] at h2
    exact IeeeArith.neg_mul (R := Dbl) (round_nan.1 h2)

/-- A finite number. -/
def Finite (a : Flt F) : Prop := ∃ q, a.val = .num q

instance : DecidablePred (Finite (F := F)) := fun a =>
  match h : a.val with
  | .nan => isFalse (by rintro ⟨q, hq⟩; rw [h] at hq; cases hq)
  | .inf s => isFalse (by rintro ⟨q, hq⟩; rw [h] at hq; cases hq)
  | .num q => isTrue ⟨q, h⟩

theorem Finite.repr {a : Flt F} {q : ℚ} (h : a.val = .num q) : F.fl q = q ∧ |q| < 2 ^ F.emax := by
  obtain ⟨x, hx⟩ := a
  cases (show x = .num q from h)
  exact F.round_num hx

/-- NaN. -/
theorem nan_iff {a : Flt F} : nan a ↔ a.val = .nan := Iff.rfl

end Flt

/-- A rational number as a double. -/
def f64 (q : ℚ) : Flt binary64 := Flt.rnd (.num q)

/-- Overflow, underflow and NaN. -/
example : (f64 (10 ^ 308) * f64 10).val = .inf false ∧ (f64 (2 ^ (-1074 : Int)) / 2).val = .num 0 ∧
    (f64 (10 ^ 308) * f64 10 - f64 (10 ^ 308) * f64 10).val = .nan ∧ (f64 1 / f64 0).val = .inf false := by decide +kernel

/-- Gradual underflow: `3 * 2^-1074 / 2` rounds to even. -/
example : (f64 (3 * 2 ^ (-1074 : Int)) / 2).val = .num (2 * 2 ^ (-1074 : Int)) := by decide +kernel

end K52
