import Verif.Props.Akima
import Verif.Lemmas.RoundSim
import Verif.Lemmas.RoundSum

/-!
# C108: the Akima spline in rounded arithmetic

`Num p hp`: numbers with `p` significant binary digits, every operation rounded to nearest (`double`: `p = 53`), overflow and underflow aside.
-/

set_option linter.unusedSectionVars false

namespace K52.Akima.Rounded

variable {p : Nat} {hp : 1 ≤ p}

/-- Numbers with `p` significant binary digits. -/
abbrev Num (p : Nat) (hp : 1 ≤ p) := Fl (Nearest.nearest p hp)

/-! ## Specification -/

/-- What is assumed of the library: `abs` is exact, the powers have a relative error of at most `ε`. -/
structure Accurate (p : Nat) (hp : 1 ≤ p) [SplineLib (Num p hp)] (ε : ℚ) : Prop where
  abs : ∀ x : Num p hp, (SplineLib.abs x).val = |x.val|
  sq : ∀ x : Num p hp, |(SplineLib.sq x).val - x.val ^ 2| ≤ ε * |x.val ^ 2|
  cube : ∀ x : Num p hp, |(SplineLib.cube x).val - x.val ^ 3| ≤ ε * |x.val ^ 3|
  small : ε ≤ 1 / 2

/-- The error factor after `a` operations and `b` divisors and powers. -/
def factor (p : Nat) (ε : ℚ) (a b : Nat) : ℚ := (1 + 1 / 2 ^ p) ^ a * (1 + 2 * max ε (1 / 2 ^ p)) ^ b

/-- Number `i` of a list, exactly. -/
def at' (v : List (Num p hp)) (i : Nat) : ℚ := (v.getD i 0).val

/-- Exact slope of chord `i`. -/
def chordQ (xs ys : List (Num p hp)) (i : Nat) : ℚ := (at' ys (i + 1) - at' ys i) / (at' xs (i + 1) - at' xs i)

/-- The size of the chords the slope at knot `i` is made of: the larger of the two adjacent chords, at the ends twice the outer chord plus the next. -/
def chordSize (xs ys : List (Num p hp)) (i : Nat) : ℚ :=
  if i = 0 then 2 * |chordQ xs ys 0| + |chordQ xs ys 1|
  else if i + 1 = xs.length then 2 * |chordQ xs ys (xs.length - 2)| + |chordQ xs ys (xs.length - 3)|
  else max |chordQ xs ys (i - 1)| |chordQ xs ys i|

/-! ## Error factors -/

section Factor
variable {ε : ℚ}

theorem factor_zero : factor p ε 0 0 = 1 := by simp [factor]

theorem u_pos : (0 : ℚ) < 1 / 2 ^ p := by positivity

theorem e_nonneg : (0 : ℚ) ≤ 2 * max ε (1 / 2 ^ p) := by
  have := le_max_right ε (1 / 2 ^ p)
  have := u_pos (p := p)
  linarith

theorem factor_mono {a b c d : Nat} (h : a ≤ c) (g : b ≤ d) : factor p ε a b ≤ factor p ε c d := by
  have h1 := u_pos (p := p)
  have h2 := e_nonneg (p := p) (ε := ε)
  unfold factor
  exact mul_le_mul (pow_le_pow_right₀ (by linarith) h) (pow_le_pow_right₀ (by linarith) g) (by positivity) (by positivity)

theorem factor_mul (a b c d : Nat) : factor p ε a b * factor p ε c d = factor p ε (a + c) (b + d) := by
  unfold factor
  rw [pow_add, pow_add]
  ring

theorem factor_one : factor p ε 1 0 = 1 + 1 / 2 ^ p := by simp [factor]

theorem factor_e : factor p ε 0 1 = 1 + 2 * max ε (1 / 2 ^ p) := by simp [factor]

end Factor

section Steps
variable {ε : ℚ} {x' x w y' y v : ℚ} {a b c d : Nat}

theorem ex (p : Nat) (ε x : ℚ) : Sim (factor p ε 0 0) x x |x| := by
  rw [factor_zero]
  exact Sim.exact x

theorem rnd (h : Sim (factor p ε a b) x' x w) : Sim (factor p ε (a + 1) b) ((Nearest.nearest p hp).fl x') x w := by
  have := h.fl (Nearest.unit p hp)
  rwa [← factor_one (ε := ε), factor_mul] at this

theorem tms (h : Sim (factor p ε a b) x' x w) (g : Sim (factor p ε c d) y' y v) : Sim (factor p ε (a + c) (b + d)) (x' * y') (x * y) (w * v) := by
  have := h.mul g
  rwa [factor_mul] at this

theorem up {a' b' : Nat} (h : Sim (factor p ε a b) x' x w) (ha : a ≤ a') (hb : b ≤ b') : Sim (factor p ε a' b') x' x w := h.mono (factor_mono ha hb)

/-- A further relative error of at most `2 max(ε, u)`. -/
theorem more {x'' : ℚ} (h : Sim (factor p ε a b) x' x w) (g : |x'' - x'| ≤ 2 * max ε (1 / 2 ^ p) * |x'|) : Sim (factor p ε a (b + 1)) x'' x w := by
  have h0 := e_nonneg (p := p) (ε := ε)
  have e : factor p ε a (b + 1) = factor p ε a b * (1 + 2 * max ε (1 / 2 ^ p)) := by
    rw [← factor_e (p := p) (ε := ε), factor_mul]
    rfl
  rw [e]
  generalize factor p ε a b = E at h
  generalize 2 * max ε (1 / 2 ^ p) = δ at *
  refine ⟨?_, ?_, h.le⟩
  · have := mul_le_mul h.one (show (1 : ℚ) ≤ 1 + δ by linarith) (by norm_num) (by linarith [h.one])
    linarith
  · have h2 := mul_le_mul_of_nonneg_left h.abs_le h0
    have h3 := abs_sub_le x'' x' x
    have h4 := h.err
    have e : (E * (1 + δ) - 1) * w = (E - 1) * w + δ * (E * w) := by ring
    linarith

theorem half_u : (1 : ℚ) / 2 ^ p ≤ 1 / 2 ∨ p = 0 := by
  rcases Nat.eq_zero_or_pos p with h | h
  · exact Or.inr h
  · left
    have : (2 : ℚ) ^ 1 ≤ 2 ^ p := pow_le_pow_right₀ (by norm_num) h
    rw [pow_one] at this
    exact one_div_le_one_div_of_le (by norm_num) this

/-- `δ / (1 - δ) ≤ 2 δ` for `δ ≤ 1/2`. -/
theorem recip_bound {δ M : ℚ} (h0 : 0 ≤ δ) (h : δ ≤ 1 / 2) (hM : δ ≤ M) : δ / (1 - δ) ≤ 2 * M := by
  rw [div_le_iff₀ (by linarith)]
  nlinarith

/-- The reciprocal of a rounded number. -/
theorem inv_rnd (hp : 1 ≤ p) (x : ℚ) : Sim (factor p ε 0 1) ((Nearest.nearest p hp).fl x)⁻¹ x⁻¹ |x|⁻¹ := by
  have hu := Nearest.unit p hp
  have h2 : (1 : ℚ) / 2 ^ p ≤ 1 / 2 := by
    rcases half_u (p := p) with h | h
    · exact h
    · omega
  rw [factor_e]
  exact Sim.inv (hu.err x) (by linarith) (recip_bound hu.nonneg h2 (le_max_right _ _)) hu.nonneg

end Steps

theorem two_val : (2 : Num p hp).val = 2 := by
  show Nearest.fl p ((2 : Nat) : ℚ) = 2
  have := Nearest.fl_repr hp 1 1 (by rw [abs_one]; exact one_le_pow₀ (by norm_num))
  simpa using this

theorem three_val (hp2 : 2 ≤ p) : (3 : Num p hp).val = 3 := by
  show Nearest.fl p ((3 : Nat) : ℚ) = 3
  have h4 : (2 : Int) ^ 2 ≤ 2 ^ p := pow_le_pow_right₀ (by norm_num) hp2
  have := Nearest.fl_repr hp 3 0 (by rw [abs_of_pos (by norm_num)]; linarith)
  simpa using this

theorem half_val : (1 / 2 : Num p hp).val = 1 / 2 := by
  rw [Fl.val_div, Fl.val_one, two_val]
  show Nearest.fl p (1 / 2) = 1 / 2
  have := Nearest.fl_repr hp 1 (-1) (by rw [abs_one]; exact one_le_pow₀ (by norm_num))
  simpa using this

section Main
variable [SplineLib (Num p hp)] {ε : ℚ}

theorem eps_nonneg (ha : Accurate p hp ε) : 0 ≤ ε := by
  have := ha.sq 1
  rw [Fl.val_one] at this
  have h := (abs_nonneg _).trans this
  simpa using h

theorem sq_zero (ha : Accurate p hp ε) : SplineLib.sq (0 : Num p hp) = 0 := by
  have := ha.sq 0
  rw [Fl.val_zero] at this
  apply Fl.ext
  rw [Fl.val_zero]
  simpa using this

theorem cube_zero (ha : Accurate p hp ε) : SplineLib.cube (0 : Num p hp) = 0 := by
  have := ha.cube 0
  rw [Fl.val_zero] at this
  apply Fl.ext
  rw [Fl.val_zero]
  simpa using this

/-- The polynomial of a piece, evaluated in rounded arithmetic. -/
theorem piece_err (hp2 : 2 ≤ p) (ha : Accurate p hp ε) (x₀ x₁ y₀ y₁ s₀ s₁ x : Num p hp) (h0 : x₀.val ≤ x.val) (h1 : x.val ≤ x₁.val)
    (hlt : x₀.val < x₁.val) :
    |(y₀ + s₀ * (x - x₀) + (3 * (y₁ - y₀) / (x₁ - x₀) - 2 * s₀ - s₁) / (x₁ - x₀) * SplineLib.sq (x - x₀) +
        (s₁ + s₀ - 2 * (y₁ - y₀) / (x₁ - x₀)) / SplineLib.sq (x₁ - x₀) * SplineLib.cube (x - x₀)).val -
      hermite x₀.val x₁.val y₀.val y₁.val s₀.val s₁.val x.val| ≤
    (factor p ε 11 5 - 1) * (|y₀.val| + 5 * |y₁.val - y₀.val| + (x₁.val - x₀.val) * (4 * |s₀.val| + 2 * |s₁.val|)) := by
  have hε := eps_nonneg ha
  have hεM : ε ≤ 2 * max ε (1 / 2 ^ p) := by linarith [le_max_left ε (1 / 2 ^ p)]
  set h : ℚ := x₁.val - x₀.val with hh
  have hpos : 0 < h := by linarith
  set dy : ℚ := y₁.val - y₀.val with hdy
  set a : ℚ := x.val - x₀.val with haa
  have ha0 : 0 ≤ a := by linarith
  have hah : a ≤ h := by linarith
  have DY : Sim (factor p ε 1 0) (y₁ - y₀).val dy |dy| := rnd (hp := hp) (ex p ε _)
  have I : Sim (factor p ε 0 1) (x₁ - x₀).val⁻¹ h⁻¹ |h|⁻¹ := inv_rnd hp h
  have A : Sim (factor p ε 1 0) (x - x₀).val a |a| := rnd (hp := hp) (ex p ε _)
  have T3 : Sim (factor p ε 3 1) (3 * (y₁ - y₀) / (x₁ - x₀)).val (3 * dy * h⁻¹) (|(3 : ℚ)| * |dy| * |h|⁻¹) := by
    rw [Fl.val_div, Fl.val_mul, three_val hp2, div_eq_mul_inv]
    exact rnd (hp := hp) (tms (rnd (hp := hp) (tms (ex p ε 3) DY)) I)
  have T2 : Sim (factor p ε 3 1) (2 * (y₁ - y₀) / (x₁ - x₀)).val (2 * dy * h⁻¹) (|(2 : ℚ)| * |dy| * |h|⁻¹) := by
    rw [Fl.val_div, Fl.val_mul, two_val, div_eq_mul_inv]
    exact rnd (hp := hp) (tms (rnd (hp := hp) (tms (ex p ε 2) DY)) I)
  have S2 : Sim (factor p ε 1 0) (2 * s₀).val (2 * s₀.val) (|(2 : ℚ)| * |s₀.val|) := by
    rw [Fl.val_mul, two_val]
    exact rnd (hp := hp) (tms (ex p ε 2) (ex p ε _))
  have C2 : Sim (factor p ε 6 2) ((3 * (y₁ - y₀) / (x₁ - x₀) - 2 * s₀ - s₁) / (x₁ - x₀)).val ((3 * dy * h⁻¹ - 2 * s₀.val - s₁.val) * h⁻¹)
      ((|(3 : ℚ)| * |dy| * |h|⁻¹ + |(2 : ℚ)| * |s₀.val| + |s₁.val|) * |h|⁻¹) := by
    rw [Fl.val_div, Fl.val_sub (_ - _) s₁, Fl.val_sub _ (2 * s₀), div_eq_mul_inv]
    exact rnd (hp := hp) (tms (rnd (hp := hp) (Sim.sub (rnd (hp := hp) (Sim.sub T3 (up S2 (by norm_num) (by norm_num)))) (up (ex p ε _) (by norm_num) (by norm_num)))) I)
  have A2 : Sim (factor p ε 2 1) (SplineLib.sq (x - x₀)).val (a * a) (|a| * |a|) := by
    refine more (tms A A) ?_
    have := ha.sq (x - x₀)
    rw [pow_two] at this
    exact this.trans (mul_le_mul_of_nonneg_right hεM (abs_nonneg _))
  have A3 : Sim (factor p ε 3 1) (SplineLib.cube (x - x₀)).val (a * a * a) (|a| * |a| * |a|) := by
    refine more (tms (tms A A) A) ?_
    have := ha.cube (x - x₀)
    rw [pow_succ, pow_two] at this
    exact this.trans (mul_le_mul_of_nonneg_right hεM (abs_nonneg _))
  have I2 : Sim (factor p ε 0 3) (SplineLib.sq (x₁ - x₀)).val⁻¹ (h⁻¹ * h⁻¹) (|h|⁻¹ * |h|⁻¹) := by
    refine more (tms I I) ?_
    have h1 := (Sim.inv (ha.sq (x₁ - x₀)) (by linarith [ha.small]) (recip_bound (M := max ε (1 / 2 ^ p)) hε ha.small (le_max_left _ _)) hε).err
    have e : (x₁ - x₀).val⁻¹ * (x₁ - x₀).val⁻¹ = ((x₁ - x₀).val ^ 2)⁻¹ := by rw [pow_two, mul_inv]
    rw [e]
    rw [abs_inv]
    linarith
  have C3 : Sim (factor p ε 5 4) ((s₁ + s₀ - 2 * (y₁ - y₀) / (x₁ - x₀)) / SplineLib.sq (x₁ - x₀)).val ((s₁.val + s₀.val - 2 * dy * h⁻¹) * (h⁻¹ * h⁻¹))
      ((|s₁.val| + |s₀.val| + |(2 : ℚ)| * |dy| * |h|⁻¹) * (|h|⁻¹ * |h|⁻¹)) := by
    rw [Fl.val_div, Fl.val_sub (s₁ + s₀), Fl.val_add, div_eq_mul_inv]
    exact rnd (hp := hp) (tms (rnd (hp := hp) (Sim.sub (up (rnd (hp := hp) (Sim.add (ex p ε _) (ex p ε _))) (by norm_num) (by norm_num)) T2)) I2)
  have P1 : Sim (factor p ε 2 0) (s₀ * (x - x₀)).val (s₀.val * a) (|s₀.val| * |a|) := by
    rw [Fl.val_mul]
    exact rnd (hp := hp) (tms (ex p ε _) A)
  have P2 := rnd (hp := hp) (tms C2 A2)
  have P3 := rnd (hp := hp) (tms C3 A3)
  have F := rnd (hp := hp) (Sim.add (up (rnd (hp := hp) (Sim.add (up (rnd (hp := hp) (Sim.add (up (ex p ε y₀.val) (Nat.zero_le 2) le_rfl) P1)) (show 3 ≤ 9 by norm_num)
    (Nat.zero_le 3)) P2)) (show 10 ≤ 10 by norm_num) (show 3 ≤ 5 by norm_num)) (up P3 (show 9 ≤ 10 by norm_num) le_rfl))
  have herm : y₀.val + s₀.val * a + (3 * dy * h⁻¹ - 2 * s₀.val - s₁.val) * h⁻¹ * (a * a) + (s₁.val + s₀.val - 2 * dy * h⁻¹) * (h⁻¹ * h⁻¹) * (a * a * a) =
      hermite x₀.val x₁.val y₀.val y₁.val s₀.val s₁.val x.val := by
    unfold hermite
    simp only [← hh, ← haa]
    have e : y₁.val = y₀.val + dy := by rw [hdy]; ring
    rw [e]
    field_simp
    ring
  rw [← herm]
  refine le_trans F.err (mul_le_mul_of_nonneg_left ?_ (by linarith [F.one]))
  rw [abs_of_pos hpos, abs_of_nonneg ha0, abs_of_pos (show (0 : ℚ) < 3 by norm_num), abs_of_pos (show (0 : ℚ) < 2 by norm_num)]
  have ht0 : 0 ≤ a * h⁻¹ := mul_nonneg ha0 (inv_nonneg.2 hpos.le)
  have ht1 : a * h⁻¹ ≤ 1 := by rw [← div_eq_mul_inv, div_le_one hpos]; exact hah
  have e : a = a * h⁻¹ * h := by field_simp
  generalize a * h⁻¹ = t at ht0 ht1 e
  have hne := hpos.ne'
  rw [e]
  have e1 : |y₀.val| + |s₀.val| * (t * h) + (3 * |dy| * h⁻¹ + 2 * |s₀.val| + |s₁.val|) * h⁻¹ * (t * h * (t * h)) +
      (|s₁.val| + |s₀.val| + 2 * |dy| * h⁻¹) * (h⁻¹ * h⁻¹) * (t * h * (t * h) * (t * h)) =
      |y₀.val| + |s₀.val| * h * t + (3 * |dy| + h * (2 * |s₀.val| + |s₁.val|)) * t ^ 2 + (h * (|s₁.val| + |s₀.val|) + 2 * |dy|) * t ^ 3 := by
    field_simp
    ring
  rw [e1]
  have t2 : t ^ 2 ≤ 1 := pow_le_one₀ ht0 ht1
  have t3 : t ^ 3 ≤ 1 := pow_le_one₀ ht0 ht1
  have q1 := mul_le_mul_of_nonneg_left ht1 (mul_nonneg (abs_nonneg s₀.val) hpos.le)
  have q2 := mul_le_mul_of_nonneg_left t2 (show 0 ≤ 3 * |dy| + h * (2 * |s₀.val| + |s₁.val|) by positivity)
  have q3 := mul_le_mul_of_nonneg_left t3 (show 0 ≤ h * (|s₁.val| + |s₀.val|) + 2 * |dy| by positivity)
  have e2 : |y₀.val| + 5 * |dy| + h * (4 * |s₀.val| + 2 * |s₁.val|) = |y₀.val| + |s₀.val| * h * 1 + (3 * |dy| + h * (2 * |s₀.val| + |s₁.val|)) * 1 +
      (h * (|s₁.val| + |s₀.val|) + 2 * |dy|) * 1 := by ring
  rw [e2]
  linarith

/-- A computed slope lies between the two slopes it is the mean of. -/
theorem slope_near (ha : Accurate p hp ε) {P Q W : ℚ} {a b : Nat} (q₀ q₁ q₂ q₃ : Num p hp) (h1 : Sim (factor p ε a b) q₁.val P W)
    (h2 : Sim (factor p ε a b) q₂.val Q W) (s : Num p hp)
    (hs : s = if SplineLib.abs (q₃ - q₂) + SplineLib.abs (q₁ - q₀) = 0 then (1 / 2) * (q₁ + q₂)
      else (q₁ * SplineLib.abs (q₃ - q₂) + q₂ * SplineLib.abs (q₁ - q₀)) / (SplineLib.abs (q₃ - q₂) + SplineLib.abs (q₁ - q₀))) :
    min P Q - (factor p ε (a + 3) (b + 1) - 1) * W ≤ s.val ∧ s.val ≤ max P Q + (factor p ε (a + 3) (b + 1) - 1) * W := by
  suffices H : ∃ T, min P Q ≤ T ∧ T ≤ max P Q ∧ Sim (factor p ε (a + 3) (b + 1)) s.val T W by
    obtain ⟨T, t1, t2, t3⟩ := H
    have := abs_le.1 t3.err
    constructor <;> linarith
  set A := SplineLib.abs (q₃ - q₂) with hA
  set B := SplineLib.abs (q₁ - q₀) with hB
  have hA0 : 0 ≤ A.val := by rw [hA, ha.abs]; exact abs_nonneg _
  have hB0 : 0 ≤ B.val := by rw [hB, ha.abs]; exact abs_nonneg _
  have hW := h1.nonneg
  by_cases hd : A + B = 0
  · rw [if_pos hd] at hs
    refine ⟨1 / 2 * (P + Q), by linarith [min_le_left P Q, min_le_right P Q], by linarith [le_max_left P Q, le_max_right P Q], ?_⟩
    rw [hs, Fl.val_mul, half_val, Fl.val_add]
    have := rnd (hp := hp) (tms (ex p ε (1 / 2)) (rnd (hp := hp) (Sim.add h1 h2)))
    refine (up this (by omega) (by omega)).wide ?_
    rw [abs_of_pos (by norm_num)]
    linarith
  · rw [if_neg hd] at hs
    have hne : A.val + B.val ≠ 0 := by
      intro h
      apply hd
      apply Fl.ext
      rw [Fl.val_add, h, Fl.val_zero]
      exact (Nearest.nearest p hp).zero
    have hpos : 0 < A.val + B.val := lt_of_le_of_ne (by linarith) (Ne.symm hne)
    refine ⟨(P * A.val + Q * B.val) * (A.val + B.val)⁻¹, ?_, ?_, ?_⟩
    · rw [← div_eq_mul_inv, le_div_iff₀ hpos]
      have g1 := mul_le_mul_of_nonneg_right (min_le_left P Q) hA0
      have g2 := mul_le_mul_of_nonneg_right (min_le_right P Q) hB0
      linarith
    · rw [← div_eq_mul_inv, div_le_iff₀ hpos]
      have g1 := mul_le_mul_of_nonneg_right (le_max_left P Q) hA0
      have g2 := mul_le_mul_of_nonneg_right (le_max_right P Q) hB0
      linarith
    · rw [hs, Fl.val_div, div_eq_mul_inv, Fl.val_add (q₁ * A), Fl.val_mul, Fl.val_mul]
      have := rnd (hp := hp) (tms (rnd (hp := hp) (Sim.add (rnd (hp := hp) (tms h1 (ex p ε A.val))) (rnd (hp := hp) (tms h2 (ex p ε B.val)))))
        (inv_rnd (ε := ε) hp (A.val + B.val)))
      refine (up this (by omega) (by omega)).wide ?_
      rw [abs_of_nonneg hA0, abs_of_nonneg hB0, abs_of_pos hpos, ← div_eq_mul_inv, div_le_iff₀ hpos]
      linarith

/-- A computed chord. -/
theorem chord_near (xs ys : List (Num p hp)) (i : Nat) : Sim (factor p ε 2 1) (chord xs ys i).val (chordQ xs ys i) |chordQ xs ys i| := by
  unfold chord chordQ at'
  rw [Fl.val_div, div_eq_mul_inv, div_eq_mul_inv, abs_mul, abs_inv]
  refine up (rnd (hp := hp) (tms (rnd (hp := hp) (ex p ε _)) (inv_rnd (ε := ε) hp _))) (by norm_num) (by norm_num)

/-- The computed slopes: within rounding of the hull of the two slopes of Akima's formula. -/
theorem slopes_near (hp2 : 2 ≤ p) (ha : Accurate p hp ε) (xs ys : List (Num p hp)) (h5 : 5 ≤ xs.length) (i : Nat) (hi : i < xs.length) :
    let D := delta xs.length (at' xs) (at' ys)
    min (D (i - 1)) (D i) - (factor p ε 7 2 - 1) * chordSize xs ys i ≤ (slopeAt xs ys i).val ∧
      (slopeAt xs ys i).val ≤ max (D (i - 1)) (D i) + (factor p ε 7 2 - 1) * chordSize xs ys i := by
  intro D
  have two : ∀ j k, Sim (factor p ε 4 1) (2 * chord xs ys j - chord xs ys k).val (2 * chordQ xs ys j - chordQ xs ys k)
      (2 * |chordQ xs ys j| + |chordQ xs ys k|) := by
    intro j k
    rw [Fl.val_sub, Fl.val_mul, two_val]
    have := rnd (hp := hp) (Sim.sub (rnd (hp := hp) (tms (ex p ε 2) (chord_near xs ys j))) (up (chord_near xs ys k) (show 2 ≤ 3 by norm_num) le_rfl))
    rw [abs_of_pos (show (0 : ℚ) < 2 by norm_num)] at this
    exact up this (by norm_num) (by norm_num)
  have key : ∃ P Q, D (i - 1) = P ∧ D i = Q ∧ Sim (factor p ε 4 1) (mAt xs ys (i + 1)).val P (chordSize xs ys i) ∧
      Sim (factor p ε 4 1) (mAt xs ys (i + 2)).val Q (chordSize xs ys i) := by
    refine ⟨_, _, rfl, rfl, ?_⟩
    have near : ∀ j, Sim (factor p ε 4 1) (chord xs ys j).val (chordQ xs ys j) |chordQ xs ys j| :=
      fun j => up (chord_near xs ys j) (by norm_num) le_rfl
    by_cases h0 : i = 0
    · subst h0
      have e1 : D ((0 : Nat) - 1 : Int) = 2 * chordQ xs ys 0 - chordQ xs ys 1 := by
        simp only [D, delta, chordQ]
        norm_num
      have e2 : D ((0 : Nat) : Int) = chordQ xs ys 0 := by
        simp only [D, delta, chordQ]
        rw [if_neg (by norm_num), if_neg (by norm_num), if_neg (by push_cast; omega), if_neg (by push_cast; omega)]
        norm_num
      have e3 : mAt xs ys (0 + 1) = 2 * chord xs ys 0 - chord xs ys 1 := by simp [mAt]
      have e4 : mAt xs ys (0 + 2) = chord xs ys 0 := by
        simp only [mAt]
        rw [if_neg (by norm_num), if_neg (by norm_num), if_neg (by omega), if_neg (by omega)]
      have e5 : chordSize xs ys 0 = 2 * |chordQ xs ys 0| + |chordQ xs ys 1| := by simp [chordSize]
      rw [e1, e2, e3, e4, e5]
      exact ⟨two 0 1, (near 0).wide (by linarith [abs_nonneg (chordQ xs ys 0), abs_nonneg (chordQ xs ys 1)])⟩
    by_cases hl : i + 1 = xs.length
    · have e1 : D ((i : Int) - 1) = chordQ xs ys (xs.length - 2) := by
        simp only [D, delta, chordQ]
        rw [if_neg (by omega), if_neg (by omega), if_neg (by omega), if_neg (by omega)]
        rw [show ((i : Int) - 1).toNat = xs.length - 2 by omega]
      have e2 : D (i : Int) = 2 * chordQ xs ys (xs.length - 2) - chordQ xs ys (xs.length - 3) := by
        simp only [D, delta, chordQ]
        rw [if_neg (by omega), if_neg (by omega), if_pos (by omega)]
      have e3 : mAt xs ys (i + 1) = chord xs ys (xs.length - 2) := by
        simp only [mAt]
        rw [if_neg (by omega), if_neg (by omega), if_neg (by omega), if_neg (by omega)]
        rw [show i + 1 - 2 = xs.length - 2 by omega]
      have e4 : mAt xs ys (i + 2) = 2 * chord xs ys (xs.length - 2) - chord xs ys (xs.length - 3) := by
        simp only [mAt]
        rw [if_neg (by omega), if_neg (by omega), if_pos (by omega)]
      have e5 : chordSize xs ys i = 2 * |chordQ xs ys (xs.length - 2)| + |chordQ xs ys (xs.length - 3)| := by
        unfold chordSize
        rw [if_neg h0, if_pos hl]
      rw [e1, e2, e3, e4, e5]
      exact ⟨(near _).wide (by linarith [abs_nonneg (chordQ xs ys (xs.length - 2)), abs_nonneg (chordQ xs ys (xs.length - 3))]), two _ _⟩
    · have e1 : D ((i : Int) - 1) = chordQ xs ys (i - 1) := by
        simp only [D, delta, chordQ]
        rw [if_neg (by omega), if_neg (by omega), if_neg (by omega), if_neg (by omega)]
        rw [show ((i : Int) - 1).toNat = i - 1 by omega]
      have e2 : D (i : Int) = chordQ xs ys i := by
        simp only [D, delta, chordQ]
        rw [if_neg (by omega), if_neg (by omega), if_neg (by omega), if_neg (by omega)]
        rw [Int.toNat_natCast]
      have e3 : mAt xs ys (i + 1) = chord xs ys (i - 1) := by
        simp only [mAt]
        rw [if_neg (by omega), if_neg (by omega), if_neg (by omega), if_neg (by omega)]
        rw [show i + 1 - 2 = i - 1 by omega]
      have e4 : mAt xs ys (i + 2) = chord xs ys i := by
        simp only [mAt]
        rw [if_neg (by omega), if_neg (by omega), if_neg (by omega), if_neg (by omega)]
        rw [show i + 2 - 2 = i by omega]
      have e5 : chordSize xs ys i = max |chordQ xs ys (i - 1)| |chordQ xs ys i| := by
        unfold chordSize
        rw [if_neg h0, if_neg hl]
      rw [e1, e2, e3, e4, e5]
      exact ⟨(near _).wide (le_max_left _ _), (near _).wide (le_max_right _ _)⟩
  obtain ⟨P, Q, hP, hQ, k1, k2⟩ := key
  rw [hP, hQ]
  exact slope_near ha (mAt xs ys i) (mAt xs ys (i + 1)) (mAt xs ys (i + 2)) (mAt xs ys (i + 3)) k1 k2 _ rfl

/-! ## C108 -/

/-- **C108.** With strictly increasing abscissae the spline takes the given ordinate exactly at every knot but the last. -/
theorem C108_knots (ha : Accurate p hp ε) (xs ys : List (Num p hp)) (hk : ValidKnots xs ys) (s : Spline (Num p hp)) (hs : init xs ys = .ok s)
    (i : Nat) (x y : Num p hp) (hx : xs[i]? = some x) (hy : ys[i]? = some y) (hi : i + 1 < xs.length) : value s x = .ok y := by
  rw [getElem?_getD (by omega)] at hx
  rw [getElem?_getD (by rw [hk.len]; omega)] at hy
  cases hx
  cases hy
  rw [(value_piece hk hs hi le_rfl (Or.inl (lt_knots hk.inc (Nat.lt_succ_self i) hi))).2]
  congr 1
  have hz : xs.getD i 0 - xs.getD i 0 = 0 := by
    apply Fl.ext
    rw [Fl.val_sub, sub_self, Fl.val_zero]
    exact (Nearest.nearest p hp).zero
  have mz : ∀ c : Num p hp, c * 0 = 0 := by
    intro c
    apply Fl.ext
    rw [Fl.val_mul, Fl.val_zero, mul_zero]
    exact (Nearest.nearest p hp).zero
  have az : ∀ c : Num p hp, c + 0 = c := by
    intro c
    apply Fl.ext
    rw [Fl.val_add, Fl.val_zero, add_zero]
    exact c.fl_val
  unfold pieceVal
  simp only [hz, sq_zero ha, cube_zero ha, mz, az]
  rfl

/-- **C108.** The spline in rounded arithmetic: there are slopes `S` - at every knot between the two slopes of Akima's formula, up to rounding - such that at
every point `x` between knots `i` and `i + 1` the spline has a value, and it differs from that of the exact cubic with the given ordinates and the
slopes `S i`, `S (i + 1)` at the knots by at most `factor p ε 11 5 - 1` times the size of the data of the piece. -/
theorem C108_accuracy (hp2 : 2 ≤ p) (ha : Accurate p hp ε) (xs ys : List (Num p hp)) (hk : ValidKnots xs ys) (s : Spline (Num p hp))
    (hs : init xs ys = .ok s) :
    ∃ S : Nat → ℚ,
      (∀ i < xs.length,
        min (delta xs.length (at' xs) (at' ys) (i - 1)) (delta xs.length (at' xs) (at' ys) i) - (factor p ε 7 2 - 1) * chordSize xs ys i ≤ S i ∧
        S i ≤ max (delta xs.length (at' xs) (at' ys) (i - 1)) (delta xs.length (at' xs) (at' ys) i) + (factor p ε 7 2 - 1) * chordSize xs ys i) ∧
      ∀ (i : Nat) (x₀ x₁ y₀ y₁ x : Num p hp), xs[i]? = some x₀ → xs[i + 1]? = some x₁ → ys[i]? = some y₀ → ys[i + 1]? = some y₁ → x₀ ≤ x → x ≤ x₁ →
        ∃ v, value s x = .ok v ∧
          |v.val - hermite x₀.val x₁.val y₀.val y₁.val (S i) (S (i + 1)) x.val| ≤
            (factor p ε 11 5 - 1) * (|y₀.val| + 5 * |y₁.val - y₀.val| + (x₁.val - x₀.val) * (4 * |S i| + 2 * |S (i + 1)|)) := by
  refine ⟨fun i => (slopeAt xs ys i).val, fun i hi => slopes_near hp2 ha xs ys hk.five i hi, ?_⟩
  intro i x₀ x₁ y₀ y₁ x h0 h1 g0 g1 hx0 hx1
  have hi : i + 1 < xs.length := (List.getElem?_eq_some_iff.1 h1).1
  have h0' := h0
  have h1' := h1
  have g0' := g0
  have g1' := g1
  rw [getElem?_getD (by omega)] at h0 h1
  rw [getElem?_getD (by rw [hk.len]; omega)] at g0 g1
  cases h0
  cases h1
  cases g0
  cases g1
  have hlt := lt_knots hk.inc (Nat.lt_succ_self i) hi
  have hone : 1 ≤ factor p ε 11 5 := by
    rw [← factor_zero (p := p) (ε := ε)]
    exact factor_mono (by norm_num) (by norm_num)
  have herr := piece_err hp2 ha (xs.getD i 0) (xs.getD (i + 1) 0) (ys.getD i 0) (ys.getD (i + 1) 0) (slopeAt xs ys i) (slopeAt xs ys (i + 1)) x hx0 hx1 hlt
  rcases lt_or_eq_of_le hx1 with hx | hx
  · exact ⟨_, (value_piece hk hs hi hx0 (Or.inl hx)).2, herr⟩
  · by_cases hl : i + 2 = xs.length
    · exact ⟨_, (value_piece hk hs hi hx0 (Or.inr ⟨hx, hl⟩)).2, herr⟩
    · subst hx
      refine ⟨_, C108_knots ha xs ys hk s hs (i + 1) _ _ h1' g1' (by omega), ?_⟩
      have e : hermite (xs.getD i 0).val (xs.getD (i + 1) 0).val (ys.getD i 0).val (ys.getD (i + 1) 0).val (slopeAt xs ys i).val (slopeAt xs ys (i + 1)).val
          (xs.getD (i + 1) 0).val = (ys.getD (i + 1) 0).val := by
        have hne : (xs.getD (i + 1) 0).val - (xs.getD i 0).val ≠ 0 := sub_ne_zero.2 (ne_of_gt hlt)
        unfold hermite
        simp only [div_self hne]
        ring
      rw [e, sub_self, abs_zero]
      have hpos : 0 ≤ (xs.getD (i + 1) 0).val - (xs.getD i 0).val := sub_nonneg.2 (le_of_lt hlt)
      exact mul_nonneg (by linarith) (by positivity)

end Main

/-! ## A library, and `double` -/

/-- Correctly rounded powers. -/
@[reducible] def correct (p : Nat) (hp : 1 ≤ p) : SplineLib (Num p hp) :=
  ⟨fun x => Fl.round _ |x.val|, fun x => Fl.round _ (x.val ^ 2), fun x => Fl.round _ (x.val ^ 3)⟩

theorem correct_accurate (p : Nat) (hp : 1 ≤ p) : @Accurate p hp (correct p hp) (1 / 2 ^ p) := by
  letI := correct p hp
  refine ⟨fun x => ?_, fun x => (Nearest.unit p hp).err _, fun x => (Nearest.unit p hp).err _, ?_⟩
  · show Nearest.fl p |x.val| = |x.val|
    rcases abs_choice x.val with h | h <;> rw [h]
    · exact x.fl_val
    · rw [Nearest.fl_neg]
      exact congrArg Neg.neg x.fl_val
  · rcases half_u (p := p) with h | h
    · exact h
    · omega

/-- In `double`, with powers that are accurate to one unit in the last place, the two factors are below `32 * 2^-53` and `16 * 2^-53`. -/
theorem C108_digits : factor 53 (2 / 2 ^ 53) 11 5 - 1 ≤ 32 / 2 ^ 53 ∧ factor 53 (2 / 2 ^ 53) 7 2 - 1 ≤ 16 / 2 ^ 53 := by
  have h : max (2 / 2 ^ 53 : ℚ) (1 / 2 ^ 53) = 2 / 2 ^ 53 := max_eq_left (by norm_num)
  unfold factor
  rw [h]
  constructor <;> norm_num

section Examples
attribute [local instance] correct

/-- A rational number as a `double`. -/
abbrev dbl (x : ℚ) : Num 53 (by norm_num) := Fl.round _ x

/-- Non-vacuity: a set of knots, as `double`s. -/
example : ValidKnots [dbl 0, dbl (1 / 10), dbl (2 / 10), dbl (3 / 10), dbl 1] [dbl 0, dbl (7 / 10), dbl 0, dbl (2 / 3), dbl 1] :=
  ⟨by norm_num, rfl, by decide +kernel⟩

/-- **C108.** At the last knot the ordinate can be missed: in `double`, with correctly rounded powers, the spline through the points
`(0,0), (1,0), (2,0), (3,2), (4,1)` has the value `1 + 2^-52` at 4. -/
theorem C108_last_knot : (do
    let s ← init [dbl 0, dbl 1, dbl 2, dbl 3, dbl 4] [dbl 0, dbl 0, dbl 0, dbl 2, dbl 1]
    value s (dbl 4)) = .ok (dbl (1 + 1 / 2 ^ 52)) ∧ (dbl (1 + 1 / 2 ^ 52)).val ≠ 1 := by
  decide +kernel

end Examples

end K52.Akima.Rounded
