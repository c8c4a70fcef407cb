import Mathlib.Algebra.Order.Floor.Ring
import Mathlib.Data.Rat.Floor
import Mathlib.Data.Int.Log
import Mathlib.Tactic.Linarith
import Mathlib.Tactic.Positivity
import Mathlib.Tactic.Ring
import Mathlib.Tactic.FieldSimp
import Mathlib.Tactic.NormNum

/-!
# Rounded arithmetic

A `Rounding` is a monotone way to round rational numbers to representable ones; `Fl r` are the representable numbers with rounded
operations: `a + b` is the exact sum, rounded, and so on.  `nearest p` rounds to the nearest number with `p` significant binary digits,
ties to even: `double` has `p = 53`, apart from overflow and underflow, which are outside this model.
-/

namespace K52

/-- A monotone rounding of rational numbers that leaves 0, 1 and its own results alone. -/
structure Rounding where
  fl : ℚ → ℚ
  mono : Monotone fl
  idem (x : ℚ) : fl (fl x) = fl x
  zero : fl 0 = 0
  one : fl 1 = 1

/-- The representable numbers. -/
def Fl (r : Rounding) : Type := { x : ℚ // r.fl x = x }

namespace Fl
variable {r : Rounding}

/-- The exact value. -/
def val (a : Fl r) : ℚ := a.1

/-- A rational number, rounded. -/
def round (r : Rounding) (x : ℚ) : Fl r := ⟨r.fl x, r.idem x⟩

instance : LinearOrder (Fl r) := inferInstanceAs (LinearOrder { x : ℚ // r.fl x = x })
instance : Add (Fl r) := ⟨fun a b => round r (a.1 + b.1)⟩
instance : Sub (Fl r) := ⟨fun a b => round r (a.1 - b.1)⟩
instance : Mul (Fl r) := ⟨fun a b => round r (a.1 * b.1)⟩
instance : Div (Fl r) := ⟨fun a b => round r (a.1 / b.1)⟩
instance : Neg (Fl r) := ⟨fun a => round r (-a.1)⟩
instance : Zero (Fl r) := ⟨⟨0, r.zero⟩⟩
instance : One (Fl r) := ⟨⟨1, r.one⟩⟩
instance : NatCast (Fl r) := ⟨fun n => round r n⟩
instance : IntCast (Fl r) := ⟨fun n => round r n⟩

theorem le_iff {a b : Fl r} : a ≤ b ↔ a.val ≤ b.val := Iff.rfl
theorem lt_iff {a b : Fl r} : a < b ↔ a.val < b.val := Iff.rfl
theorem ext {a b : Fl r} (h : a.val = b.val) : a = b := Subtype.ext h
theorem fl_val (a : Fl r) : r.fl a.val = a.val := a.2
theorem val_round (x : ℚ) : (round r x).val = r.fl x := rfl
theorem val_add (a b : Fl r) : (a + b).val = r.fl (a.val + b.val) := rfl
theorem val_sub (a b : Fl r) : (a - b).val = r.fl (a.val - b.val) := rfl
theorem val_mul (a b : Fl r) : (a * b).val = r.fl (a.val * b.val) := rfl
theorem val_div (a b : Fl r) : (a / b).val = r.fl (a.val / b.val) := rfl
theorem val_zero : (0 : Fl r).val = 0 := rfl
theorem val_one : (1 : Fl r).val = 1 := rfl
theorem val_nat (n : Nat) : ((n : Nat) : Fl r).val = r.fl n := rfl
theorem val_int (n : Int) : ((n : Int) : Fl r).val = r.fl n := rfl

/-- A rounded result is not above a representable bound of the exact result. -/
theorem round_le {x : ℚ} {b : Fl r} (h : x ≤ b.val) : r.fl x ≤ b.val := by
  rw [← fl_val b]; exact r.mono h

/-- ... nor below one. -/
theorem le_round {x : ℚ} {b : Fl r} (h : b.val ≤ x) : b.val ≤ r.fl x := by
  rw [← fl_val b]; exact r.mono h

end Fl

/-! ### Round to nearest, ties to even -/

namespace Nearest

/-- Nearest integer, ties to even. -/
def nearestInt (x : ℚ) : Int :=
  let f := ⌊x⌋
  if x - f < 1 / 2 then f else if 1 / 2 < x - f then f + 1 else if f % 2 = 0 then f else f + 1

/-- The exponent of the last digit of a number: `2^(p-1) ≤ |x| / 2^e < 2^p`. -/
def ulpExp (p : Nat) (x : ℚ) : Int := Int.log 2 |x| - (p - 1)

/-- Round to `p` significant binary digits. -/
def fl (p : Nat) (x : ℚ) : ℚ := nearestInt (x / 2 ^ ulpExp p x) * 2 ^ ulpExp p x

theorem nearestInt_mono {x y : ℚ} (h : x ≤ y) : nearestInt x ≤ nearestInt y := by
  have hf : ⌊x⌋ ≤ ⌊y⌋ := Int.floor_mono h
  have hx : nearestInt x ≤ ⌊x⌋ + 1 := by simp only [nearestInt]; split_ifs <;> omega
  have hy : ⌊y⌋ ≤ nearestInt y := by simp only [nearestInt]; split_ifs <;> omega
  rcases lt_or_eq_of_le hf with h1 | h1
  · omega
  · simp only [nearestInt, ← h1]
    split_ifs <;> first | omega | (exfalso; linarith)

theorem nearestInt_int (n : Int) : nearestInt (n : ℚ) = n := by
  simp [nearestInt]

theorem nearestInt_neg_bound (x : ℚ) : |(nearestInt x : ℚ) - x| ≤ 1 / 2 := by
  have h1 := Int.floor_le x
  have h2 := Int.lt_floor_add_one x
  simp only [nearestInt]
  rw [abs_le]
  split_ifs <;> push_cast <;> constructor <;> linarith

theorem nearestInt_neg (x : ℚ) : nearestInt (-x) = -nearestInt x := by
  have h1 := Int.floor_le x
  have h2 := Int.lt_floor_add_one x
  by_cases hi : x = ⌊x⌋
  · rw [hi, ← Int.cast_neg, nearestInt_int, nearestInt_int]
  · have hlt : (⌊x⌋ : ℚ) < x := lt_of_le_of_ne h1 (Ne.symm hi)
    have hf : ⌊-x⌋ = -⌊x⌋ - 1 := by
      rw [Int.floor_eq_iff]
      push_cast
      constructor <;> linarith
    simp only [nearestInt, hf]
    push_cast
    split_ifs <;> first | omega | (exfalso; linarith)

theorem two_pos : (0 : ℚ) < 2 := by norm_num

theorem fl_zero (p : Nat) : fl p 0 = 0 := by
  have : nearestInt 0 = 0 := by simpa using nearestInt_int 0
  simp [fl, this]

theorem fl_neg (p : Nat) (x : ℚ) : fl p (-x) = -fl p x := by
  simp only [fl, ulpExp, abs_neg, neg_div, nearestInt_neg]
  push_cast
  ring

/-- Integer multiples of a power of two with at most `p` digits are representable. -/
theorem fl_repr {p : Nat} (hp : 1 ≤ p) (N k : Int) (hN : |N| ≤ 2 ^ p) : fl p (N * 2 ^ k) = N * 2 ^ k := by
  rcases eq_or_ne N 0 with rfl | h0
  · simp [fl_zero]
  have habs : |(N : ℚ) * 2 ^ k| = |(N : ℚ)| * 2 ^ k := by
    rw [abs_mul, abs_of_pos (zpow_pos two_pos k)]
  have hNq : |(N : ℚ)| ≤ 2 ^ p := by exact_mod_cast hN
  have hpos : 0 < |(N : ℚ) * 2 ^ k| := by
    rw [habs]; have := zpow_pos two_pos k; positivity
  have hlog : Int.log 2 |(N : ℚ) * 2 ^ k| ≤ k + p := by
    have : |(N : ℚ) * 2 ^ k| < 2 ^ (k + p + 1) := by
      rw [habs]
      calc |(N : ℚ)| * 2 ^ k ≤ 2 ^ p * 2 ^ k := mul_le_mul_of_nonneg_right hNq (zpow_pos two_pos k).le
        _ = 2 ^ (k + p) := by rw [zpow_add₀ (by norm_num), zpow_natCast]; ring
        _ < 2 ^ (k + p + 1) := zpow_lt_zpow_right₀ (by norm_num) (by omega)
    have := (Int.lt_zpow_iff_log_lt (b := 2) (by norm_num) hpos).1 (by exact_mod_cast this)
    omega
  obtain ⟨M, hM⟩ : ∃ M : Int, (N : ℚ) * 2 ^ k / 2 ^ ulpExp p (N * 2 ^ k) = M := by
    rcases lt_or_eq_of_le hlog with h | h
    · obtain ⟨d, hd⟩ : ∃ d : Nat, k - ulpExp p (N * 2 ^ k) = d := by
        refine ⟨(k - ulpExp p (N * 2 ^ k)).toNat, ?_⟩
        rw [Int.toNat_of_nonneg]
        unfold ulpExp
        omega
      refine ⟨N * 2 ^ d, ?_⟩
      rw [mul_div_assoc, ← zpow_sub₀ (by norm_num), hd]
      push_cast
      rw [zpow_natCast]
    · have hge : (2 : ℚ) ^ (k + p) ≤ |(N : ℚ) * 2 ^ k| := by
        have := Int.zpow_log_le_self (b := 2) (by norm_num) hpos
        rw [h] at this
        exact_mod_cast this
      rw [habs, zpow_add₀ (by norm_num), zpow_natCast, mul_comm] at hge
      have hge' : (2 : ℚ) ^ p ≤ |(N : ℚ)| := le_of_mul_le_mul_right hge (zpow_pos two_pos k)
      have heq : |N| = 2 ^ p := by
        have : (2 : Int) ^ p ≤ |N| := by exact_mod_cast hge'
        omega
      obtain ⟨q, rfl⟩ : ∃ q, p = q + 1 := ⟨p - 1, by omega⟩
      obtain ⟨N', hN'⟩ : ∃ N', N = 2 * N' := by
        rcases abs_choice N with e | e
        · exact ⟨2 ^ q, by rw [← e, heq]; ring⟩
        · exact ⟨-2 ^ q, by rw [e] at heq; have : (2:Int) ^ (q + 1) = 2 * 2 ^ q := by ring
                            omega⟩
      refine ⟨N', ?_⟩
      have hu : ulpExp (q + 1) (N * 2 ^ k) = k + 1 := by
        unfold ulpExp; rw [h]; push_cast; ring
      rw [hu, hN', zpow_add₀ (by norm_num)]
      have := (zpow_pos two_pos k).ne'
      push_cast
      field_simp
  unfold fl
  rw [hM, nearestInt_int, ← hM, div_mul_cancel₀]
  exact (zpow_pos two_pos _).ne'

theorem log_bounds {x : ℚ} (hx : 0 < x) : (2 : ℚ) ^ Int.log 2 x ≤ x ∧ x < 2 ^ (Int.log 2 x + 1) := by
  have h1 := Int.zpow_log_le_self (b := 2) (by norm_num) hx
  have h2 := Int.lt_zpow_succ_log_self (b := 2) (by norm_num) x
  exact ⟨by exact_mod_cast h1, by exact_mod_cast h2⟩

/-- A positive number stays in its binade (or becomes the next power of two). -/
theorem fl_binade {p : Nat} (hp : 1 ≤ p) {x : ℚ} (hx : 0 < x) :
    (2 : ℚ) ^ Int.log 2 x ≤ fl p x ∧ fl p x ≤ 2 ^ (Int.log 2 x + 1) := by
  obtain ⟨h1, h2⟩ := log_bounds hx
  have hu := zpow_pos two_pos (ulpExp p x)
  have e1 : (2 : ℚ) ^ Int.log 2 x = ((2 ^ (p - 1) : Int) : ℚ) * 2 ^ ulpExp p x := by
    push_cast
    rw [← zpow_natCast, ← zpow_add₀ (by norm_num)]
    congr 1
    unfold ulpExp
    rw [abs_of_pos hx]
    omega
  have e2 : (2 : ℚ) ^ (Int.log 2 x + 1) = ((2 ^ p : Int) : ℚ) * 2 ^ ulpExp p x := by
    push_cast
    rw [← zpow_natCast, ← zpow_add₀ (by norm_num)]
    congr 1
    unfold ulpExp
    rw [abs_of_pos hx]
    omega
  unfold fl
  rw [e1, e2]
  constructor
  · refine mul_le_mul_of_nonneg_right ?_ hu.le
    have : (((2 ^ (p - 1) : Int) : ℚ)) ≤ x / 2 ^ ulpExp p x := by rw [le_div_iff₀ hu, ← e1]; exact h1
    have := nearestInt_mono this
    rw [nearestInt_int] at this
    exact_mod_cast this
  · refine mul_le_mul_of_nonneg_right ?_ hu.le
    have : x / 2 ^ ulpExp p x ≤ (((2 ^ p : Int) : ℚ)) := by rw [div_le_iff₀ hu, ← e2]; exact h2.le
    have := nearestInt_mono this
    rw [nearestInt_int] at this
    exact_mod_cast this

theorem fl_mono_pos {p : Nat} (hp : 1 ≤ p) {x y : ℚ} (hx : 0 < x) (h : x ≤ y) : fl p x ≤ fl p y := by
  have hy : 0 < y := lt_of_lt_of_le hx h
  have hl : Int.log 2 x ≤ Int.log 2 y := Int.log_mono_right hx h
  rcases lt_or_eq_of_le hl with hl | hl
  · refine (fl_binade hp hx).2.trans (le_trans ?_ (fl_binade hp hy).1)
    exact zpow_le_zpow_right₀ (by norm_num) (by omega)
  · have hu : ulpExp p x = ulpExp p y := by unfold ulpExp; rw [abs_of_pos hx, abs_of_pos hy, hl]
    unfold fl
    rw [hu]
    have hpos := zpow_pos two_pos (ulpExp p y)
    refine mul_le_mul_of_nonneg_right ?_ hpos.le
    exact_mod_cast nearestInt_mono (div_le_div_of_nonneg_right h hpos.le)

theorem fl_nonneg {p : Nat} (hp : 1 ≤ p) {x : ℚ} (hx : 0 ≤ x) : 0 ≤ fl p x := by
  rcases hx.eq_or_lt with rfl | hx
  · rw [fl_zero]
  · exact (zpow_pos two_pos _).le.trans (fl_binade hp hx).1

theorem fl_mono {p : Nat} (hp : 1 ≤ p) : Monotone (fl p) := by
  intro x y h
  rcases lt_or_ge 0 x with hx | hx
  · exact fl_mono_pos hp hx h
  · rcases lt_or_ge y 0 with hy | hy
    · have := fl_mono_pos hp (x := -y) (y := -x) (by linarith) (by linarith)
      rw [fl_neg, fl_neg] at this
      linarith
    · have h1 := fl_nonneg hp (x := -x) (by linarith)
      have h2 := fl_nonneg hp hy
      rw [fl_neg] at h1
      linarith

theorem fl_idem {p : Nat} (hp : 1 ≤ p) (x : ℚ) : fl p (fl p x) = fl p x := by
  have key : ∀ x : ℚ, 0 < x → fl p (fl p x) = fl p x := by
    intro x hx
    refine fl_repr hp _ _ ?_
    have h := (fl_binade hp hx).2
    have h0 := fl_nonneg hp hx.le
    have hu := zpow_pos two_pos (ulpExp p x)
    have e2 : (2 : ℚ) ^ (Int.log 2 x + 1) = ((2 ^ p : Int) : ℚ) * 2 ^ ulpExp p x := by
      push_cast
      rw [← zpow_natCast, ← zpow_add₀ (by norm_num)]
      congr 1
      unfold ulpExp
      rw [abs_of_pos hx]
      omega
    rw [e2] at h
    unfold fl at h h0
    have h1 : ((nearestInt (x / 2 ^ ulpExp p x) : Int) : ℚ) ≤ ((2 ^ p : Int) : ℚ) := le_of_mul_le_mul_right h hu
    have h2 : (0 : ℚ) ≤ (nearestInt (x / 2 ^ ulpExp p x) : ℚ) := nonneg_of_mul_nonneg_left h0 hu
    rw [abs_of_nonneg (by exact_mod_cast h2)]
    exact_mod_cast h1
  rcases lt_trichotomy x 0 with hx | rfl | hx
  · have := key (-x) (by linarith)
    rw [fl_neg, fl_neg] at this
    linarith
  · rw [fl_zero, fl_zero]
  · exact key x hx

/-- Round to nearest with `p` binary digits, ties to even (`double`: 53). -/
def nearest (p : Nat) (hp : 1 ≤ p) : Rounding where
  fl := fl p
  mono := fl_mono hp
  idem := fl_idem hp
  zero := fl_zero p
  one := by
    have := fl_repr hp 1 0 (by rw [abs_one]; exact_mod_cast Nat.one_le_two_pow)
    simpa using this

/-- The relative error is at most `2^-p`. -/
theorem fl_error {p : Nat} (x : ℚ) : |fl p x - x| ≤ |x| / 2 ^ p := by
  rcases eq_or_ne x 0 with rfl | h0
  · simp [fl_zero]
  have hx : 0 < |x| := abs_pos.2 h0
  have hu := zpow_pos two_pos (ulpExp p x)
  have h := nearestInt_neg_bound (x / 2 ^ ulpExp p x)
  have e : fl p x - x = (nearestInt (x / 2 ^ ulpExp p x) - x / 2 ^ ulpExp p x) * 2 ^ ulpExp p x := by
    unfold fl
    rw [sub_mul, div_mul_cancel₀ _ hu.ne']
  rw [e, abs_mul, abs_of_pos hu]
  have hb : (2 : ℚ) ^ ulpExp p x ≤ 2 * (|x| / 2 ^ p) := by
    have h1 := (log_bounds hx).1
    have e3 : (2 : ℚ) ^ ulpExp p x = 2 * (2 ^ Int.log 2 |x| / 2 ^ p) := by
      unfold ulpExp
      rw [show Int.log 2 |x| - ((p : Int) - 1) = Int.log 2 |x| - p + 1 by ring, zpow_add₀ (by norm_num), zpow_sub₀ (by norm_num), zpow_natCast]
      ring
    rw [e3]
    have : (0 : ℚ) < 2 ^ p := by positivity
    have := div_le_div_of_nonneg_right h1 this.le
    linarith
  calc _ ≤ 1 / 2 * (2 : ℚ) ^ ulpExp p x := mul_le_mul_of_nonneg_right h hu.le
    _ ≤ _ := by linarith

/-- The arithmetic of `double`, without overflow and underflow. -/
abbrev double : Rounding := nearest 53 (by norm_num)

/-- The double nearest to 1/10. -/
example : double.fl (1 / 10) = 3602879701896397 / 36028797018963968 := by decide +kernel

end Nearest
end K52
