import Verif.Model.RoundFourier
import Verif.Props.RoundConv
import Mathlib.Analysis.SpecialFunctions.Trigonometric.Bounds
import Mathlib.Analysis.Real.Pi.Bounds

/-!
# C105, C106: Fourier transforms in rounded arithmetic

`Fl (Nearest.nearest p hp)`: numbers with `p` significant binary digits, every operation rounded to nearest (`double`: `p = 53`); `Cplx` of it:
complex numbers made of them.  The exact results are those of `fourier`, `inverse fourier` and `circular` over `ℂ` (C49-C51).
-/

namespace K52.Dsp

open Finset

variable {p : Nat} {hp : 1 ≤ p}

/-! ### Specification -/

/-- Numbers with `p` significant binary digits. -/
abbrev Num (p : Nat) (hp : 1 ≤ p) := Fl (Nearest.nearest p hp)

/-- The complex number that is represented. -/
noncomputable def toC (z : Cplx (Num p hp)) : ℂ := ⟨(z.re.val : ℝ), (z.im.val : ℝ)⟩

/-- The sum of the absolute values of all parts of a sequence. -/
noncomputable def size (x : List (Cplx (Num p hp))) : ℝ := (x.map fun z => |(z.re.val : ℝ)| + |(z.im.val : ℝ)|).sum

/-- Same length, and real and imaginary parts differ by at most `d`. -/
def Within (d : ℝ) (x' : List (Cplx (Num p hp))) (x : List ℂ) : Prop :=
  x'.length = x.length ∧ ∀ (k : Nat) (z' : Cplx (Num p hp)) (z : ℂ), x'[k]? = some z' → x[k]? = some z → |(z'.re.val : ℝ) - z.re| ≤ d ∧ |(z'.im.val : ℝ) - z.im| ≤ d

/-- `Constants::Pi` has relative error at most `2^-p`; `cos` and `sin` have absolute error at most `ε`. -/
structure LibM (p : Nat) (hp : 1 ≤ p) (ε : ℝ) (pi : Num p hp) (cos sin : Num p hp → Num p hp) : Prop where
  pi : |(pi.val : ℝ) - Real.pi| ≤ 1 / 2 ^ p * Real.pi
  cos : ∀ x, |((cos x).val : ℝ) - Real.cos x.val| ≤ ε
  sin : ∀ x, |((sin x).val : ℝ) - Real.sin x.val| ≤ ε

/-- The error of the factors `exp(-2 π i k n / N)`. -/
noncomputable def eta (p : Nat) (ε : ℝ) (N : Nat) : ℝ := ε + ((1 + 1 / 2 ^ p) ^ 5 - 1) * (2 * Real.pi * N)

/-- The relative error of a transform of length `N`. -/
noncomputable def dftErr (p : Nat) (ε : ℝ) (N : Nat) : ℝ := (1 + 1 / 2 ^ p) ^ (N + 1) * (1 + eta p ε N) - 1

/-! ### One transform -/

theorem fl_err (x : ℚ) : |(((Nearest.nearest p hp).fl x : ℚ) : ℝ) - x| ≤ 1 / 2 ^ p * |(x : ℝ)| := by
  have := (Nearest.unit p hp).err x
  have h : ((|(Nearest.nearest p hp).fl x - x| : ℚ) : ℝ) ≤ ((1 / 2 ^ p * |x| : ℚ) : ℝ) := by exact_mod_cast this
  push_cast at h
  exact h

theorem nat_val {n : Nat} (h : n ≤ 2 ^ p) : ((n : Nat) : Num p hp).val = n := by
  have := Nearest.fl_repr hp (n : Int) 0 (by rw [Nat.abs_cast]; exact_mod_cast h)
  rw [Fl.val_nat]
  show Nearest.fl p n = n
  simpa using this

theorem neg_val (x : Num p hp) : (-x).val = -x.val := by
  show Nearest.fl p (-x.val) = -x.val
  rw [Nearest.fl_neg]
  congr 1
  exact x.fl_val

theorem minus_two_val : (((-2 : Int)) : Num p hp).val = -2 := by
  have := Nearest.fl_repr hp (-1) 1 (by rw [abs_neg, abs_one]; exact one_le_pow₀ (by norm_num))
  rw [Fl.val_int]
  norm_num at this ⊢
  exact this

/-- One rounding in a product: `k` relative errors become `k + 1`. -/
theorem rel_step {x : ℚ} {t : ℝ} {k : Nat} (h : |(x : ℝ) - t| ≤ ((1 + 1 / 2 ^ p) ^ k - 1) * |t|) :
    |(((Nearest.nearest p hp).fl x : ℚ) : ℝ) - t| ≤ ((1 + 1 / 2 ^ p) ^ (k + 1) - 1) * |t| := by
  have h1 := fl_err (hp := hp) x
  have h2 : |(x : ℝ)| ≤ |t| + ((1 + 1 / 2 ^ p) ^ k - 1) * |t| := by
    have := abs_sub_abs_le_abs_sub (x : ℝ) t
    linarith
  have h3 := mul_le_mul_of_nonneg_left h2 (show (0 : ℝ) ≤ 1 / 2 ^ p by positivity)
  have h4 := abs_sub_le (((Nearest.nearest p hp).fl x : ℚ) : ℝ) x t
  have e : ((1 + 1 / 2 ^ p : ℝ) ^ (k + 1) - 1) * |t| =
      ((1 + 1 / 2 ^ p) ^ k - 1) * |t| + 1 / 2 ^ p * (|t| + ((1 + 1 / 2 ^ p) ^ k - 1) * |t|) := by rw [pow_succ]; ring
  rw [e]
  linarith

/-- Multiplication by an exact number. -/
theorem mul_exact {x c : ℚ} {t : ℝ} {k : Nat} (h : |(x : ℝ) - t| ≤ ((1 + 1 / 2 ^ p) ^ k - 1) * |t|) :
    |((x * c : ℚ) : ℝ) - t * c| ≤ ((1 + 1 / 2 ^ p) ^ k - 1) * |t * c| := by
  push_cast
  rw [← sub_mul, abs_mul, abs_mul, ← mul_assoc]
  exact mul_le_mul_of_nonneg_right h (abs_nonneg _)

theorem angle_err {ε : ℝ} {pi : Num p hp} {cos sin : Num p hp → Num p hp} (hl : LibM p hp ε pi cos sin) {N k n : Nat} (hN : N ≤ 2 ^ p) (hk : k < N)
    (hn : n < N) : |((angle pi N k n).val : ℝ) - (-2 * Real.pi * k * n / N)| ≤ ((1 + 1 / 2 ^ p) ^ 5 - 1) * (2 * Real.pi * N) := by
  have h1 : |(pi.val : ℝ) - Real.pi| ≤ ((1 + 1 / 2 ^ p) ^ 1 - 1) * |Real.pi| := by
    rw [abs_of_pos Real.pi_pos, pow_one, add_sub_cancel_left]
    exact hl.pi
  have h2 := rel_step (hp := hp) (mul_exact (c := -2) h1)
  have h3 := rel_step (hp := hp) (mul_exact (c := (k : ℚ)) h2)
  have h4 := rel_step (hp := hp) (mul_exact (c := (n : ℚ)) h3)
  have h5 := rel_step (hp := hp) (mul_exact (c := 1 / (N : ℚ)) h4)
  have e : (angle pi N k n).val = (Nearest.nearest p hp).fl ((Nearest.nearest p hp).fl ((Nearest.nearest p hp).fl
      ((Nearest.nearest p hp).fl (pi.val * -2) * k) * n) * (1 / N)) := by
    unfold angle
    rw [Fl.val_div, Fl.val_mul, Fl.val_mul, Fl.val_mul, minus_two_val, nat_val hN, nat_val (by omega), nat_val (by omega), mul_comm (-2 : ℚ),
      mul_one_div]
  rw [← e] at h5
  push_cast at h5
  have e2 : Real.pi * -2 * k * n * (1 / N) = -2 * Real.pi * k * n / N := by ring
  rw [e2] at h5
  refine h5.trans (mul_le_mul_of_nonneg_left ?_ ?_)
  · have hN0 : (0 : ℝ) < N := by exact_mod_cast (by omega : 0 < N)
    have hkN : (k : ℝ) ≤ N := by exact_mod_cast hk.le
    have hnN : (n : ℝ) ≤ N := by exact_mod_cast hn.le
    rw [show -2 * Real.pi * k * n / N = -(2 * Real.pi * (k * n / N)) by ring, abs_neg, abs_of_nonneg (by positivity)]
    refine mul_le_mul_of_nonneg_left ?_ (by positivity)
    rw [div_le_iff₀ hN0]
    exact mul_le_mul hkN hnN (by positivity) hN0.le
  · have : (1 : ℝ) ≤ (1 + 1 / 2 ^ p) ^ 5 := one_le_pow₀ (by simp)
    linarith

/-- The factors are known up to `η`. -/
def Factors (tw : Nat → Nat → Nat → Cplx (Num p hp)) (η : ℝ) (N : Nat) : Prop := ∀ k < N, ∀ n < N,
  |((tw N k n).re.val : ℝ) - Real.cos (-2 * Real.pi * k * n / N)| ≤ η ∧ |((tw N k n).im.val : ℝ) - Real.sin (-2 * Real.pi * k * n / N)| ≤ η

theorem factors {ε : ℝ} {pi : Num p hp} {cos sin : Num p hp → Num p hp} (hl : LibM p hp ε pi cos sin) {N : Nat} (hN : N ≤ 2 ^ p) :
    Factors (fun N k n => cis cos sin (angle pi N k n)) (eta p ε N) N := by
  intro k hk n hn
  have h := angle_err hl hN hk hn
  have h1 := hl.cos (angle pi N k n)
  have h2 := hl.sin (angle pi N k n)
  have h3 := Real.abs_cos_sub_cos_le ((angle pi N k n).val : ℝ) (-2 * Real.pi * k * n / N)
  have h4 := Real.abs_sin_sub_sin_le ((angle pi N k n).val : ℝ) (-2 * Real.pi * k * n / N)
  unfold eta cis
  constructor
  · refine (abs_sub_le _ _ _).trans (add_le_add h1 (h3.trans h))
  · refine (abs_sub_le _ _ _).trans (add_le_add h2 (h4.trans h))

theorem size_eq (x : List (Cplx (Num p hp))) :
    size x = ∑ n ∈ range x.length, (|((x.getD n 0).re.val : ℝ)| + |((x.getD n 0).im.val : ℝ)|) := by
  unfold size
  induction x with
  | nil => simp
  | cons z x ih => rw [List.map_cons, List.sum_cons, List.length_cons, sum_range_succ', ih]; simp [add_comm]

theorem size_nonneg (x : List (Cplx (Num p hp))) : 0 ≤ size x := by
  rw [size_eq]
  exact sum_nonneg fun _ _ => by positivity

/-- A sum of products, where the second factors are known up to `η`. -/
theorem sum_part (N : Nat) (s : ℚ) (hs : s = 1 ∨ s = -1) (x y w v : Nat → Num p hp) (W V : Nat → ℝ) (η : ℝ)
    (hw : ∀ n < N, |((w n).val : ℝ) - W n| ≤ η ∧ |W n| ≤ 1) (hv : ∀ n < N, |((v n).val : ℝ) - V n| ≤ η ∧ |V n| ≤ 1)
    (t : Nat → Num p hp)
    (ht : ∀ n < N, (t n).val = (Nearest.nearest p hp).fl ((Nearest.nearest p hp).fl ((x n).val * (w n).val) + s * (Nearest.nearest p hp).fl ((y n).val * (v n).val))) :
    |(((List.range N).foldl (fun acc n => acc + t n) 0).val : ℝ) - ∑ n ∈ range N, (((x n).val : ℝ) * W n + s * ((y n).val * V n))| ≤
      ((1 + 1 / 2 ^ p) ^ (N + 1) * (1 + η) - 1) * ∑ n ∈ range N, (|((x n).val : ℝ)| + |((y n).val : ℝ)|) := by
  have hu := Nearest.unit p hp
  have habs : ∀ a : ℚ, |s * a| = |a| := by
    intro a
    rcases hs with rfl | rfl <;> simp
  have h1 := Round.sum_round hu t (fun n => (x n).val * (w n).val + s * ((y n).val * (v n).val))
    (fun n => |(x n).val * (w n).val| + |(y n).val * (v n).val|) (List.range N) 2 (by
      intro n hn
      rw [List.mem_range] at hn
      constructor
      · rw [ht n hn]
        rcases hs with rfl | rfl
        · simpa using (product_round hu (x n).val (w n).val (y n).val (v n).val).2
        · simpa [sub_eq_add_neg] using (product_round hu (x n).val (w n).val (y n).val (v n).val).1
      · refine (abs_add_le _ _).trans ?_
        rw [habs])
  rw [Round.list_sum_range, Round.list_sum_range, List.length_range] at h1
  rcases Nat.eq_zero_or_pos N with rfl | hN
  · simp [Fl.val_zero]
  rw [show 2 + (N - 1) = N + 1 by omega] at h1
  have h2 : |(((List.range N).foldl (fun acc n => acc + t n) 0).val : ℝ) - ∑ n ∈ range N, (((x n).val : ℝ) * (w n).val + s * ((y n).val * (v n).val))| ≤
      ((1 + 1 / 2 ^ p) ^ (N + 1) - 1) * ∑ n ∈ range N, (|((x n).val : ℝ) * (w n).val| + |((y n).val : ℝ) * (v n).val|) := by
    have : ((|((List.range N).foldl (fun acc n => acc + t n) 0).val - ∑ n ∈ range N, ((x n).val * (w n).val + s * ((y n).val * (v n).val))| : ℚ) : ℝ) ≤
      (((1 + 1 / 2 ^ p) ^ (N + 1) - 1) * ∑ n ∈ range N, (|(x n).val * (w n).val| + |(y n).val * (v n).val|) : ℚ) := by exact_mod_cast h1
    push_cast at this
    exact this
  have hsR : |(s : ℝ)| = 1 := by rcases hs with rfl | rfl <;> simp
  have bound : ∀ {a W : ℝ}, |a - W| ≤ η → |W| ≤ 1 → |a| ≤ 1 + η := by
    intro a W ha hW
    have := abs_sub_abs_le_abs_sub a W
    linarith
  have h3 : ∑ n ∈ range N, (|((x n).val : ℝ) * (w n).val| + |((y n).val : ℝ) * (v n).val|) ≤
      (1 + η) * ∑ n ∈ range N, (|((x n).val : ℝ)| + |((y n).val : ℝ)|) := by
    rw [mul_sum]
    refine sum_le_sum fun n hn => ?_
    rw [mem_range] at hn
    rw [abs_mul, abs_mul]
    have := mul_le_mul_of_nonneg_left (bound (hw n hn).1 (hw n hn).2) (abs_nonneg ((x n).val : ℝ))
    have := mul_le_mul_of_nonneg_left (bound (hv n hn).1 (hv n hn).2) (abs_nonneg ((y n).val : ℝ))
    linarith
  have h4 : |(∑ n ∈ range N, (((x n).val : ℝ) * (w n).val + s * ((y n).val * (v n).val))) - ∑ n ∈ range N, (((x n).val : ℝ) * W n + s * ((y n).val * V n))| ≤
      η * ∑ n ∈ range N, (|((x n).val : ℝ)| + |((y n).val : ℝ)|) := by
    rw [← sum_sub_distrib, mul_sum]
    refine (abs_sum_le_sum_abs _ _).trans (sum_le_sum fun n hn => ?_)
    rw [mem_range] at hn
    have e : ((x n).val : ℝ) * (w n).val + s * ((y n).val * (v n).val) - ((x n).val * W n + s * ((y n).val * V n)) =
      (x n).val * ((w n).val - W n) + s * ((y n).val * ((v n).val - V n)) := by ring
    rw [e]
    refine (abs_add_le _ _).trans ?_
    rw [abs_mul, abs_mul, abs_mul, hsR, one_mul]
    have := mul_le_mul_of_nonneg_left (hw n hn).1 (abs_nonneg ((x n).val : ℝ))
    have := mul_le_mul_of_nonneg_left (hv n hn).1 (abs_nonneg ((y n).val : ℝ))
    linarith
  have hc : (0 : ℝ) ≤ (1 + 1 / 2 ^ p) ^ (N + 1) - 1 := by
    have : (1 : ℝ) ≤ (1 + 1 / 2 ^ p) ^ (N + 1) := one_le_pow₀ (by simp)
    linarith
  have h5 := mul_le_mul_of_nonneg_left h3 hc
  refine (abs_sub_le _ _ _).trans ((add_le_add (h2.trans h5) h4).trans (le_of_eq ?_))
  ring

/-- Element `k` of the computed transform. -/
def dftElem (tw : Nat → Nat → Nat → Cplx (Num p hp)) (x : List (Cplx (Num p hp))) (k : Nat) : Cplx (Num p hp) :=
  (List.range x.length).foldl (fun acc n => acc + x.getD n 0 * tw x.length k n) 0

theorem fourierOf_eq (tw : Nat → Nat → Nat → Cplx (Num p hp)) (x : List (Cplx (Num p hp))) :
    fourierOf tw x = .ok ((List.range x.length).map (dftElem tw x)) := by
  unfold fourierOf
  refine fillLoop_ok fun k _ => ?_
  unfold dftElem
  refine sumLoop_foldl fun n hn => ?_
  rw [rd_getD 0 hn, Res.ok_bind]
  rfl

theorem getD_toC (x : List (Cplx (Num p hp))) (n : Nat) : (x.map toC).getD n 0 = toC (x.getD n 0) := by
  simp only [List.getD, List.getElem?_map]
  cases x[n]? with
  | none =>
    refine Complex.ext ?_ ?_
    · show (0 : ℝ) = (((0 : Num p hp).val : ℚ) : ℝ)
      rw [Fl.val_zero]; simp
    · show (0 : ℝ) = (((0 : Num p hp).val : ℚ) : ℝ)
      rw [Fl.val_zero]; simp
  | some z => simp

theorem exp_parts (N k n : Nat) : (Complex.exp (-2 * Real.pi * Complex.I * (k : ℂ) * (n : ℂ) / (N : ℂ))) =
    ⟨Real.cos (-2 * Real.pi * k * n / N), Real.sin (-2 * Real.pi * k * n / N)⟩ := by
  have e : -2 * Real.pi * Complex.I * (k : ℂ) * (n : ℂ) / (N : ℂ) = ((-2 * Real.pi * k * n / N : ℝ) : ℂ) * Complex.I := by push_cast; ring
  rw [e]
  apply Complex.ext
  · rw [Complex.exp_ofReal_mul_I_re]
  · rw [Complex.exp_ofReal_mul_I_im]

/-- The exact element. -/
theorem dft_parts (y : List ℂ) {k : Nat} (hk : k < y.length) :
    ((dftL y).getD k 0).re = ∑ n ∈ range y.length, ((y.getD n 0).re * Real.cos (-2 * Real.pi * k * n / y.length) - (y.getD n 0).im * Real.sin (-2 * Real.pi * k * n / y.length)) ∧
    ((dftL y).getD k 0).im = ∑ n ∈ range y.length, ((y.getD n 0).re * Real.sin (-2 * Real.pi * k * n / y.length) + (y.getD n 0).im * Real.cos (-2 * Real.pi * k * n / y.length)) := by
  unfold dftL
  rw [getD_map_range _ hk, Complex.re_sum, Complex.im_sum]
  simp only [exp_parts]
  exact ⟨rfl, rfl⟩

/-- One transform. -/
theorem dft_err {tw : Nat → Nat → Nat → Cplx (Num p hp)} {η : ℝ} (x : List (Cplx (Num p hp))) (hf : Factors tw η x.length) {k : Nat}
    (hk : k < x.length) :
    |((dftElem tw x k).re.val : ℝ) - ((dftL (x.map toC)).getD k 0).re| ≤ ((1 + 1 / 2 ^ p) ^ (x.length + 1) * (1 + η) - 1) * size x ∧
    |((dftElem tw x k).im.val : ℝ) - ((dftL (x.map toC)).getD k 0).im| ≤ ((1 + 1 / 2 ^ p) ^ (x.length + 1) * (1 + η) - 1) * size x := by
  obtain ⟨e1, e2⟩ := dft_parts (x.map toC) (k := k) (by simpa using hk)
  simp only [getD_toC, List.length_map] at e1 e2
  rw [e1, e2, size_eq]
  unfold dftElem
  rw [foldl_re, foldl_im]
  constructor
  · have := sum_part x.length (-1) (Or.inr rfl) (fun n => (x.getD n 0).re) (fun n => (x.getD n 0).im) (fun n => (tw x.length k n).re)
      (fun n => (tw x.length k n).im) (fun n => Real.cos (-2 * Real.pi * k * n / x.length)) (fun n => Real.sin (-2 * Real.pi * k * n / x.length)) η
      (fun n hn => ⟨(hf k hk n hn).1, Real.abs_cos_le_one _⟩) (fun n hn => ⟨(hf k hk n hn).2, Real.abs_sin_le_one _⟩)
      (fun n => (x.getD n 0 * tw x.length k n).re) (fun n _ => by rw [neg_one_mul, ← sub_eq_add_neg]; rfl)
    push_cast at this
    simp only [neg_one_mul, ← sub_eq_add_neg] at this
    exact this
  · have := sum_part x.length 1 (Or.inl rfl) (fun n => (x.getD n 0).re) (fun n => (x.getD n 0).im) (fun n => (tw x.length k n).im)
      (fun n => (tw x.length k n).re) (fun n => Real.sin (-2 * Real.pi * k * n / x.length)) (fun n => Real.cos (-2 * Real.pi * k * n / x.length)) η
      (fun n hn => ⟨(hf k hk n hn).2, Real.abs_sin_le_one _⟩) (fun n hn => ⟨(hf k hk n hn).1, Real.abs_cos_le_one _⟩)
      (fun n => (x.getD n 0 * tw x.length k n).im) (fun n _ => by rw [one_mul]; rfl)
    push_cast at this
    simp only [one_mul] at this
    exact this

/-- The bound of the exact transform. -/
theorem dft_bound (y : List ℂ) (S : ℝ) (hS : ∑ n ∈ range y.length, (|(y.getD n 0).re| + |(y.getD n 0).im|) ≤ S) {k : Nat} (hk : k < y.length) :
    |((dftL y).getD k 0).re| ≤ S ∧ |((dftL y).getD k 0).im| ≤ S := by
  obtain ⟨e1, e2⟩ := dft_parts y hk
  rw [e1, e2]
  constructor
  · refine (abs_sum_le_sum_abs _ _).trans (le_trans (sum_le_sum fun n _ => ?_) hS)
    refine (abs_sub _ _).trans (add_le_add ?_ ?_) <;> rw [abs_mul]
    · exact mul_le_of_le_one_right (abs_nonneg _) (Real.abs_cos_le_one _)
    · exact mul_le_of_le_one_right (abs_nonneg _) (Real.abs_sin_le_one _)
  · refine (abs_sum_le_sum_abs _ _).trans (le_trans (sum_le_sum fun n _ => ?_) hS)
    refine (abs_add_le _ _).trans (add_le_add ?_ ?_) <;> rw [abs_mul]
    · exact mul_le_of_le_one_right (abs_nonneg _) (Real.abs_sin_le_one _)
    · exact mul_le_of_le_one_right (abs_nonneg _) (Real.abs_cos_le_one _)

/-- The exact transforms of two sequences differ at most by the sum of the differences. -/
theorem dft_diff (y z : List ℂ) (hl : y.length = z.length) (S : ℝ)
    (hS : ∑ n ∈ range y.length, (|(y.getD n 0).re - (z.getD n 0).re| + |(y.getD n 0).im - (z.getD n 0).im|) ≤ S) {k : Nat} (hk : k < y.length) :
    |((dftL y).getD k 0).re - ((dftL z).getD k 0).re| ≤ S ∧ |((dftL y).getD k 0).im - ((dftL z).getD k 0).im| ≤ S := by
  obtain ⟨e1, e2⟩ := dft_parts y hk
  obtain ⟨e3, e4⟩ := dft_parts z (hl ▸ hk)
  rw [e1, e2, e3, e4, ← hl, ← sum_sub_distrib, ← sum_sub_distrib]
  have h1 : ∀ n : Nat, |Real.cos (-2 * Real.pi * k * n / y.length)| ≤ 1 := fun _ => Real.abs_cos_le_one _
  have h2 : ∀ n : Nat, |Real.sin (-2 * Real.pi * k * n / y.length)| ≤ 1 := fun _ => Real.abs_sin_le_one _
  constructor
  · refine (abs_sum_le_sum_abs _ _).trans (le_trans (sum_le_sum fun n _ => ?_) hS)
    rw [show ∀ a b c d C D : ℝ, a * C - b * D - (c * C - d * D) = (a - c) * C - (b - d) * D from fun _ _ _ _ _ _ => by ring]
    refine (abs_sub _ _).trans (add_le_add ?_ ?_) <;> rw [abs_mul]
    · exact mul_le_of_le_one_right (abs_nonneg _) (h1 n)
    · exact mul_le_of_le_one_right (abs_nonneg _) (h2 n)
  · refine (abs_sum_le_sum_abs _ _).trans (le_trans (sum_le_sum fun n _ => ?_) hS)
    rw [show ∀ a b c d C D : ℝ, a * C + b * D - (c * C + d * D) = (a - c) * C + (b - d) * D from fun _ _ _ _ _ _ => by ring]
    refine (abs_add_le _ _).trans (add_le_add ?_ ?_) <;> rw [abs_mul]
    · exact mul_le_of_le_one_right (abs_nonneg _) (h2 n)
    · exact mul_le_of_le_one_right (abs_nonneg _) (h1 n)

/-! ### The inverse transform -/

/-- `std::conj` is exact. -/
theorem toC_conj (z : Cplx (Num p hp)) : toC (ComplexOps.conj z) = (starRingEnd ℂ) (toC z) := by
  refine Complex.ext rfl ?_
  show (((-z.im : Num p hp).val : ℚ) : ℝ) = -(z.im.val : ℝ)
  rw [neg_val]
  push_cast
  rfl

theorem conjugate_map {K : Type} [ComplexOps K] (x : List K) : conjugate x = .ok (x.map ComplexOps.conj) := by
  cases x with
  | nil => rfl
  | cons a x =>
    unfold conjugate
    rw [fillLoop_ok (g := fun i => ComplexOps.conj ((a :: x).getD i a)) (fun i hi => by rw [rd_getD a hi]; rfl)]
    congr 1
    refine List.ext_getElem (by simp) fun i h1 h2 => ?_
    simp only [List.getElem_map, List.getElem_range]
    congr 1
    simp only [List.length_map] at h2
    rw [List.getD_eq_getElem?_getD, List.getElem?_eq_getElem h2, Option.getD_some]

theorem getD_conj_num (x : List (Cplx (Num p hp))) {n : Nat} (h : n < x.length) : (x.map ComplexOps.conj).getD n 0 = ComplexOps.conj (x.getD n 0) := by
  simp only [List.getD, List.getElem?_map, List.getElem?_eq_getElem h, Option.map_some, Option.getD_some]

/-- Element `n` of the computed inverse. -/
def invElem (tw : Nat → Nat → Nat → Cplx (Num p hp)) (x : List (Cplx (Num p hp))) (n : Nat) : Cplx (Num p hp) :=
  ComplexOps.divNat (ComplexOps.conj (dftElem tw (x.map ComplexOps.conj) n)) x.length

theorem inverse_num (tw : Nat → Nat → Nat → Cplx (Num p hp)) (x : List (Cplx (Num p hp))) :
    inverse (fourierOf tw) x = .ok ((List.range x.length).map (invElem tw x)) := by
  unfold inverse
  simp only [conjugate_map, Res.ok_bind, fourierOf_eq, List.length_map, List.length_range, lt_irrefl, if_false]
  congr 1
  refine List.ext_getElem (by simp) fun i h1 h2 => ?_
  have hi : i < x.length := by simpa using h2
  simp only [List.getElem_mapIdx, hi, if_true, List.getElem_map, List.getElem_range]
  rfl

/-- The accuracy of an inverse transform of approximate values. -/
theorem inv_err_sum {tw : Nat → Nat → Nat → Cplx (Num p hp)} {η : ℝ} (hη : 0 ≤ η) (y : List (Cplx (Num p hp))) (Y : List ℂ) (hl : y.length = Y.length)
    (hf : Factors tw η y.length) (hN : y.length ≤ 2 ^ p) (A D : ℝ)
    (hA : ∑ k ∈ range y.length, (|(Y.getD k 0).re| + |(Y.getD k 0).im|) ≤ A)
    (hD : ∑ k ∈ range y.length, (|((y.getD k 0).re.val : ℝ) - (Y.getD k 0).re| + |((y.getD k 0).im.val : ℝ) - (Y.getD k 0).im|) ≤ D) {n : Nat}
    (hn : n < y.length) :
    |((invElem tw y n).re.val : ℝ) - ((idftL Y).getD n 0).re| ≤
      ((1 + 1 / 2 ^ p) * ((1 + 1 / 2 ^ p) ^ (y.length + 1) * (1 + η)) * (A + D) - A) / y.length ∧
    |((invElem tw y n).im.val : ℝ) - ((idftL Y).getD n 0).im| ≤
      ((1 + 1 / 2 ^ p) * ((1 + 1 / 2 ^ p) ^ (y.length + 1) * (1 + η)) * (A + D) - A) / y.length := by
  have hN0 : (0 : ℝ) < y.length := by exact_mod_cast (by omega : 0 < y.length)
  set c : ℝ := (1 + 1 / 2 ^ p) ^ (y.length + 1) * (1 + η) - 1 with hc
  have hc0 : 0 ≤ c := by
    have h1 : (1 : ℝ) ≤ (1 + 1 / 2 ^ p) ^ (y.length + 1) := one_le_pow₀ (by simp)
    nlinarith
  set q := y.map ComplexOps.conj with hq
  set Q := Y.map (starRingEnd ℂ) with hQ
  have hql : q.length = y.length := by simp [hq]
  have hQl : Q.length = y.length := by simp [hQ, hl]
  have hqre : ∀ k < y.length, (q.getD k 0).re = (y.getD k 0).re := by
    intro k hk; rw [hq, getD_conj_num _ hk]; rfl
  have hqim : ∀ k < y.length, ((q.getD k 0).im.val : ℝ) = -(y.getD k 0).im.val := by
    intro k hk
    rw [hq, getD_conj_num _ hk]
    show (((-(y.getD k 0).im : Num p hp).val : ℚ) : ℝ) = _
    rw [neg_val]; push_cast; rfl
  have hQre : ∀ k, (Q.getD k 0).re = (Y.getD k 0).re := by intro k; rw [hQ, getD_conj]; simp
  have hQim : ∀ k, (Q.getD k 0).im = -(Y.getD k 0).im := by intro k; rw [hQ, getD_conj]; simp
  -- size of the argument
  have hsize : size q ≤ A + D := by
    rw [size_eq, hql]
    refine le_trans (sum_le_sum fun k hk => ?_) ((sum_add_distrib (s := range y.length)).le.trans (add_le_add hA hD))
    rw [mem_range] at hk
    rw [hqre k hk, hqim k hk, abs_neg]
    have h3 := abs_sub_abs_le_abs_sub ((y.getD k 0).re.val : ℝ) (Y.getD k 0).re
    have h4 := abs_sub_abs_le_abs_sub ((y.getD k 0).im.val : ℝ) (Y.getD k 0).im
    linarith
  have e1 := dft_err q (hql.symm ▸ hf) (k := n) (by omega)
  rw [hql, ← hc] at e1
  have e2 := dft_diff (q.map toC) Q (by simp [hql, hQl]) D (by
    rw [List.length_map, hql]
    refine le_trans (sum_le_sum fun k hk => le_of_eq ?_) hD
    rw [mem_range] at hk
    rw [getD_toC]
    show |((q.getD k 0).re.val : ℝ) - _| + |((q.getD k 0).im.val : ℝ) - _| = _
    rw [hqre k hk, hqim k hk, hQre, hQim, ← neg_sub', abs_neg]) (k := n) (by simp [hql, hn])
  have e3 := dft_bound Q A (by
    rw [hQl]
    refine le_trans (sum_le_sum fun k hk => le_of_eq ?_) hA
    rw [hQre, hQim, abs_neg]) (k := n) (by omega)
  have hcs := mul_le_mul_of_nonneg_left hsize hc0
  -- the division
  have key : ∀ (v : ℚ) (s X : ℝ), |(v : ℝ) - s| ≤ c * size q → |s - X| ≤ D → |X| ≤ A →
      |(((Nearest.nearest p hp).fl (v / y.length) : ℚ) : ℝ) - X / y.length| ≤ ((1 + 1 / 2 ^ p) * (1 + c) * (A + D) - A) / y.length := by
    intro v s X h1 h2 h3
    have h4 := fl_err (hp := hp) (v / y.length)
    push_cast at h4
    rw [abs_div, abs_of_pos hN0] at h4
    have h5 : |(v : ℝ) - X| ≤ c * (A + D) + D := by
      have := abs_sub_le (v : ℝ) s X
      linarith
    have h7 : |(v : ℝ)| ≤ A + (c * (A + D) + D) := by
      have := abs_sub_abs_le_abs_sub (v : ℝ) X
      linarith
    have h8 := mul_le_mul_of_nonneg_left h7 (show (0 : ℝ) ≤ 1 / 2 ^ p by positivity)
    have h9 := abs_sub_le (((Nearest.nearest p hp).fl (v / y.length) : ℚ) : ℝ) (v / y.length) (X / y.length)
    have h10 : |(v : ℝ) / y.length - X / y.length| = |(v : ℝ) - X| / y.length := by rw [← sub_div, abs_div, abs_of_pos hN0]
    rw [h10] at h9
    refine h9.trans ((add_le_add h4 le_rfl).trans ?_)
    rw [← mul_div_assoc, ← add_div]
    refine div_le_div_of_nonneg_right ?_ hN0.le
    have e : (1 + 1 / 2 ^ p) * (1 + c) * (A + D) - A = 1 / 2 ^ p * (A + (c * (A + D) + D)) + (c * (A + D) + D) := by ring
    rw [e]
    linarith
  have hexact : (idftL Y).getD n 0 = (starRingEnd ℂ) ((dftL Q).getD n 0) / (y.length : ℂ) := by
    rw [idftL_getD _ (by omega), dftL_getD _ (by omega), hQl, map_sum, hl]
    congr 1
    refine sum_congr rfl fun k _ => ?_
    rw [hQ, getD_conj, map_mul, Complex.conj_conj, e_conj]
    congr 2
    ring
  have hre : ((idftL Y).getD n 0).re = ((dftL Q).getD n 0).re / y.length := by
    rw [hexact]
    have := Complex.div_ofReal_re ((starRingEnd ℂ) ((dftL Q).getD n 0)) (y.length : ℝ)
    rw [Complex.conj_re] at this
    exact_mod_cast this
  have him : ((idftL Y).getD n 0).im = -(((dftL Q).getD n 0).im / y.length) := by
    rw [hexact]
    have := Complex.div_ofReal_im ((starRingEnd ℂ) ((dftL Q).getD n 0)) (y.length : ℝ)
    rw [Complex.conj_im, neg_div] at this
    exact_mod_cast this
  have hc1 : (1 + 1 / 2 ^ p : ℝ) ^ (y.length + 1) * (1 + η) = 1 + c := by rw [hc]; ring
  rw [hc1, hre, him]
  constructor
  · have := key (dftElem tw q n).re.val _ _ e1.1 e2.1 e3.1
    have e : (invElem tw y n).re.val = (Nearest.nearest p hp).fl ((dftElem tw q n).re.val / y.length) := by
      show (Nearest.nearest p hp).fl ((dftElem tw q n).re.val / ((y.length : Nat) : Num p hp).val) = _
      rw [nat_val hN]
    rw [e]
    exact this
  · have := key (dftElem tw q n).im.val _ _ e1.2 e2.2 e3.2
    have e : (invElem tw y n).im.val = -(Nearest.nearest p hp).fl ((dftElem tw q n).im.val / y.length) := by
      show (Nearest.nearest p hp).fl ((-(dftElem tw q n).im : Num p hp).val / ((y.length : Nat) : Num p hp).val) = _
      rw [nat_val hN, neg_val, neg_div]
      exact Nearest.fl_neg p _
    rw [e]
    push_cast
    rw [← neg_sub', abs_neg]
    exact this

/-- The same from bounds of every element. -/
theorem inv_err {tw : Nat → Nat → Nat → Cplx (Num p hp)} {η : ℝ} (hη : 0 ≤ η) (y : List (Cplx (Num p hp))) (Y : List ℂ) (hl : y.length = Y.length)
    (hf : Factors tw η y.length) (hN : y.length ≤ 2 ^ p) (M d : ℝ)
    (hY : ∀ k < y.length, |(Y.getD k 0).re| ≤ M ∧ |(Y.getD k 0).im| ≤ M)
    (hd : ∀ k < y.length, |((y.getD k 0).re.val : ℝ) - (Y.getD k 0).re| ≤ d ∧ |((y.getD k 0).im.val : ℝ) - (Y.getD k 0).im| ≤ d) {n : Nat}
    (hn : n < y.length) :
    |((invElem tw y n).re.val : ℝ) - ((idftL Y).getD n 0).re| ≤
      2 * ((1 + 1 / 2 ^ p) * ((1 + 1 / 2 ^ p) ^ (y.length + 1) * (1 + η)) * (M + d) - M) ∧
    |((invElem tw y n).im.val : ℝ) - ((idftL Y).getD n 0).im| ≤
      2 * ((1 + 1 / 2 ^ p) * ((1 + 1 / 2 ^ p) ^ (y.length + 1) * (1 + η)) * (M + d) - M) := by
  have hN0 : (0 : ℝ) < y.length := by exact_mod_cast (by omega : 0 < y.length)
  have h := inv_err_sum hη y Y hl hf hN (y.length * (2 * M)) (y.length * (2 * d)) (by
      refine (sum_le_card_nsmul _ _ (2 * M) fun k hk => ?_).trans (by simp)
      rw [mem_range] at hk
      have h2 := hY k hk
      linarith [h2.1, h2.2]) (by
      refine (sum_le_card_nsmul _ _ (2 * d) fun k hk => ?_).trans (by simp)
      rw [mem_range] at hk
      have h2 := hd k hk
      linarith [h2.1, h2.2]) hn
  have e : ((1 + 1 / 2 ^ p) * ((1 + 1 / 2 ^ p) ^ (y.length + 1) * (1 + η)) * (y.length * (2 * M) + y.length * (2 * d)) - y.length * (2 * M)) / y.length =
      2 * ((1 + 1 / 2 ^ p) * ((1 + 1 / 2 ^ p) ^ (y.length + 1) * (1 + η)) * (M + d) - M) := by
    field_simp
  rw [e] at h
  exact h

/-! ### Theorems -/

theorem eta_nonneg {p : Nat} {ε : ℝ} (hε : 0 ≤ ε) (N : Nat) : 0 ≤ eta p ε N := by
  have : (1 : ℝ) ≤ (1 + 1 / 2 ^ p) ^ 5 := one_le_pow₀ (by simp)
  have h2 : (0 : ℝ) ≤ ((1 + 1 / 2 ^ p) ^ 5 - 1) * (2 * Real.pi * N) := mul_nonneg (by linarith) (by positivity)
  unfold eta
  linarith

theorem LibM.eps {ε : ℝ} {pi : Num p hp} {cos sin : Num p hp → Num p hp} (hl : LibM p hp ε pi cos sin) : 0 ≤ ε := (abs_nonneg _).trans (hl.cos 0)

/-- From elements to lists. -/
theorem within_of {d : ℝ} {N : Nat} {f : Nat → Cplx (Num p hp)} {X : List ℂ} (hX : X.length = N)
    (h : ∀ k < N, |((f k).re.val : ℝ) - (X.getD k 0).re| ≤ d ∧ |((f k).im.val : ℝ) - (X.getD k 0).im| ≤ d) : Within d ((List.range N).map f) X := by
  refine ⟨by simp [hX], fun k z' z h1 h2 => ?_⟩
  have hk : k < N := by simpa using (List.getElem?_eq_some_iff.1 h1).1
  rw [List.getElem?_map, List.getElem?_range hk] at h1
  simp only [Option.map_some, Option.some.injEq] at h1
  subst h1
  have := h k hk
  rw [List.getD_eq_getElem?_getD, h2, Option.getD_some] at this
  exact this

section main
variable {ε : ℝ} {pi : Num p hp} {cos sin : Num p hp → Num p hp}

/-- **C105** (forward transform).  Every part of every element of the computed transform of a sequence of length `N ≤ 2^p` is within `dftErr` times the sum of
the absolute values of the parts of the sequence of the exact transform. -/
theorem C105_forward (hl : LibM p hp ε pi cos sin) (x : List (Cplx (Num p hp))) (hN : x.length ≤ 2 ^ p) :
    ∃ X' X, roundFourier pi cos sin x = .ok X' ∧ fourier (x.map toC) = .ok X ∧ Within (dftErr p ε x.length * size x) X' X :=
  ⟨_, _, fourierOf_eq _ x, fourier_eq _, within_of (by simp) fun _ hk => dft_err x (factors hl hN) hk⟩

/-- **C105** (inverse transform). -/
theorem C105_inverse (hl : LibM p hp ε pi cos sin) (x : List (Cplx (Num p hp))) (hN : x.length ≤ 2 ^ p) :
    ∃ X' X, inverse (roundFourier pi cos sin) x = .ok X' ∧ inverse fourier (x.map toC) = .ok X ∧
      Within (((1 + 1 / 2 ^ p) * (1 + dftErr p ε x.length) - 1) * size x / x.length) X' X := by
  refine ⟨_, _, inverse_num _ x, inverse_eq _, within_of (by simp) fun n hn => ?_⟩
  have h := inv_err_sum (eta_nonneg hl.eps x.length) x (x.map toC) (by simp) (factors hl hN) hN (size x) 0 (by
      rw [size_eq]
      refine le_of_eq (sum_congr rfl fun k _ => ?_)
      rw [getD_toC]
      rfl) (by
      refine le_of_eq (sum_eq_zero fun k _ => ?_)
      rw [getD_toC]
      show |((x.getD k 0).re.val : ℝ) - (x.getD k 0).re.val| + |((x.getD k 0).im.val : ℝ) - (x.getD k 0).im.val| = 0
      simp) hn
  have e : ((1 + 1 / 2 ^ p) * ((1 + 1 / 2 ^ p) ^ (x.length + 1) * (1 + eta p ε x.length)) * (size x + 0) - size x) / x.length =
      ((1 + 1 / 2 ^ p) * (1 + dftErr p ε x.length) - 1) * size x / x.length := by unfold dftErr; ring
  rw [e] at h
  exact h

/-- **C105** (round trip).  The inverse transform of the transform gives the sequence back up to `2 ((1 + u) (1 + dftErr)² - 1)` times the sum of the
absolute values of its parts, `u = 2^-p`. -/
theorem C105_round_trip (hl : LibM p hp ε pi cos sin) (x : List (Cplx (Num p hp))) (hN : x.length ≤ 2 ^ p) :
    ∃ y, (roundFourier pi cos sin x >>= inverse (roundFourier pi cos sin)) = .ok y ∧
      Within (2 * ((1 + 1 / 2 ^ p) * (1 + dftErr p ε x.length) ^ 2 - 1) * size x) y (x.map toC) := by
  set tw : Nat → Nat → Nat → Cplx (Num p hp) := fun N k n => cis cos sin (angle pi N k n) with htw
  have hf := factors hl hN
  set y := (List.range x.length).map (dftElem tw x) with hy
  have hyl : y.length = x.length := by simp [hy]
  refine ⟨(List.range y.length).map (invElem tw y), ?_, ?_⟩
  · show (fourierOf tw x >>= inverse (fourierOf tw)) = _
    rw [fourierOf_eq, Res.ok_bind, ← hy, inverse_num]
  rw [← idftL_dftL (x.map toC)]
  refine within_of (by simp [hyl]) fun n hn => ?_
  have h := inv_err (eta_nonneg hl.eps x.length) y (dftL (x.map toC)) (by simp [hyl]) (by rw [hyl]; exact hf) (by omega) (size x)
    (dftErr p ε x.length * size x) (fun k hk => dft_bound _ _ (by
      rw [size_eq, List.length_map]
      refine le_of_eq (sum_congr rfl fun k _ => ?_)
      rw [getD_toC]
      rfl) (by simpa [hyl] using hk)) (fun k hk => by
      rw [hyl] at hk
      have e : y.getD k 0 = dftElem tw x k := by
        rw [hy, List.getD_eq_getElem?_getD, List.getElem?_map, List.getElem?_range hk]; rfl
      rw [e]
      exact dft_err x hf hk) hn
  rw [hyl] at h
  have e : 2 * ((1 + 1 / 2 ^ p) * ((1 + 1 / 2 ^ p) ^ (x.length + 1) * (1 + eta p ε x.length)) * (size x + dftErr p ε x.length * size x) - size x) =
      2 * ((1 + 1 / 2 ^ p) * (1 + dftErr p ε x.length) ^ 2 - 1) * size x := by unfold dftErr; ring
  rw [e] at h
  exact h

/-- **C106** (Fourier-based convolution).  In rounded arithmetic too it throws for sequences of different lengths, and otherwise its result is, part by part,
within `4 ((1 + u)³ (1 + dftErr)³ - 1)` times the product of the sums of the absolute values of the parts of the exact circular convolution. -/
theorem C106_error (hl : LibM p hp ε pi cos sin) (a b : List (Cplx (Num p hp))) (hN : a.length ≤ 2 ^ p) :
    (a.length ≠ b.length → (fourierConvolution (roundFourier pi cos sin) a b).threw) ∧
    (a.length = b.length → ∃ c' c, fourierConvolution (roundFourier pi cos sin) a b = .ok c' ∧ circular (a.map toC) (b.map toC) = .ok c ∧
      Within (4 * ((1 + 1 / 2 ^ p) ^ 3 * (1 + dftErr p ε a.length) ^ 3 - 1) * (size a * size b)) c' c) := by
  constructor
  · intro h
    unfold fourierConvolution
    rw [if_pos h]
    trivial
  intro hab
  set tw : Nat → Nat → Nat → Cplx (Num p hp) := fun N k n => cis cos sin (angle pi N k n) with htw
  have hf := factors hl hN
  have hfb : Factors tw (eta p ε a.length) b.length := hab ▸ hf
  set y := (List.range a.length).map fun k => dftElem tw a k * dftElem tw b k with hy
  have hyl : y.length = a.length := by simp [hy]
  refine ⟨(List.range y.length).map (invElem tw y), convL (a.map toC) (b.map toC), ?_, circular_eq (by simpa using hab), ?_⟩
  · show fourierConvolution (fourierOf tw) a b = _
    unfold fourierConvolution
    rw [if_neg (by simpa using hab)]
    simp only [fourierOf_eq, Res.ok_bind]
    rw [fillLoop_ok (g := fun k => dftElem tw a k * dftElem tw b k) (fun k hk => by
      rw [rd_getD 0 (by simpa using hk), rd_getD 0 (by simpa [← hab] using hk)]
      simp only [Res.ok_bind, Res.pure_eq, List.getD_eq_getElem?_getD, List.getElem?_map, List.getElem?_range hk,
        List.getElem?_range (hab ▸ hk : k < b.length), Option.map_some, Option.getD_some]), Res.ok_bind, ← hy, inverse_num]
  rw [← idftL_dftL (convL (a.map toC) (b.map toC))]
  refine within_of (by simp [hyl]) fun n hn => ?_
  have hsz : ∀ x : List (Cplx (Num p hp)), ∑ n ∈ range (x.map toC).length, (|((x.map toC).getD n 0).re| + |((x.map toC).getD n 0).im|) ≤ size x := by
    intro x
    rw [size_eq, List.length_map]
    refine le_of_eq (sum_congr rfl fun k _ => ?_)
    rw [getD_toC]
    rfl
  have hSa := size_nonneg a
  have hSb := size_nonneg b
  set c := dftErr p ε a.length with hc
  have hc0 : 0 ≤ c := by
    have h1 : (1 : ℝ) ≤ (1 + 1 / 2 ^ p) ^ (a.length + 1) := one_le_pow₀ (by simp)
    have := eta_nonneg (p := p) hl.eps a.length
    rw [hc]
    unfold dftErr
    nlinarith
  -- two products of exact and approximate numbers
  have prod : ∀ (x x' X X' : ℝ), |x| ≤ size a → |X - x| ≤ c * size a → |x'| ≤ size b → |X' - x'| ≤ c * size b →
      |x * x'| ≤ size a * size b ∧ |X * X' - x * x'| ≤ ((1 + c) ^ 2 - 1) * (size a * size b) ∧ |X * X'| ≤ (1 + c) ^ 2 * (size a * size b) := by
    intro x x' X X' h1 h2 h3 h4
    have hX : |X| ≤ (1 + c) * size a := by
      have := abs_sub_abs_le_abs_sub X x
      linarith
    have hX' : |X'| ≤ (1 + c) * size b := by
      have := abs_sub_abs_le_abs_sub X' x'
      linarith
    refine ⟨?_, ?_, ?_⟩
    · rw [abs_mul]; exact mul_le_mul h1 h3 (abs_nonneg _) hSa
    · rw [show X * X' - x * x' = X * (X' - x') + (X - x) * x' by ring]
      refine (abs_add_le _ _).trans ?_
      rw [abs_mul, abs_mul]
      have g1 := mul_le_mul hX h4 (abs_nonneg _) (by positivity)
      have g2 := mul_le_mul h2 h3 (abs_nonneg _) (by positivity)
      have e : ((1 + c) ^ 2 - 1) * (size a * size b) = (1 + c) * size a * (c * size b) + c * size a * size b := by ring
      rw [e]
      linarith
    · rw [abs_mul]
      refine (mul_le_mul hX hX' (abs_nonneg _) (by positivity)).trans (le_of_eq (by ring))
  have h := inv_err (eta_nonneg hl.eps a.length) y (dftL (convL (a.map toC) (b.map toC))) (by simp [hyl]) (by rw [hyl]; exact hf) (by omega)
    (2 * (size a * size b)) (2 * ((1 + 1 / 2 ^ p) ^ 2 * (1 + c) ^ 2 - 1) * (size a * size b)) (fun k hk => by
      rw [hyl] at hk
      rw [dftL_convL (by simpa using hab) (by simpa using hk)]
      have b1 := dft_bound (a.map toC) (size a) (hsz a) (k := k) (by simpa using hk)
      have b2 := dft_bound (b.map toC) (size b) (hsz b) (k := k) (by simpa [← hab] using hk)
      have z : ∀ X S : ℝ, 0 ≤ S → |X - X| ≤ c * S := fun X S hS => by rw [sub_self, abs_zero]; positivity
      have p1 := (prod _ _ _ _ b1.1 (z _ _ hSa) b2.1 (z _ _ hSb)).1
      have p2 := (prod _ _ _ _ b1.2 (z _ _ hSa) b2.2 (z _ _ hSb)).1
      have p3 := (prod _ _ _ _ b1.1 (z _ _ hSa) b2.2 (z _ _ hSb)).1
      have p4 := (prod _ _ _ _ b1.2 (z _ _ hSa) b2.1 (z _ _ hSb)).1
      rw [Complex.mul_re, Complex.mul_im]
      exact ⟨(abs_sub _ _).trans (by linarith), (abs_add_le _ _).trans (by linarith)⟩) (fun k hk => by
      rw [hyl] at hk
      have e : y.getD k 0 = dftElem tw a k * dftElem tw b k := by
        rw [hy, List.getD_eq_getElem?_getD, List.getElem?_map, List.getElem?_range hk]; rfl
      rw [e, dftL_convL (by simpa using hab) (by simpa using hk)]
      have b1 := dft_bound (a.map toC) (size a) (hsz a) (k := k) (by simpa using hk)
      have b2 := dft_bound (b.map toC) (size b) (hsz b) (k := k) (by simpa [← hab] using hk)
      have d1 := dft_err a hf hk
      have d2 := dft_err b hfb (k := k) (by omega)
      rw [← hab] at d2
      change _ ≤ c * size a ∧ _ ≤ c * size a at d1
      change _ ≤ c * size b ∧ _ ≤ c * size b at d2
      obtain ⟨-, p1, q1⟩ := prod _ _ _ _ b1.1 d1.1 b2.1 d2.1
      obtain ⟨-, p2, q2⟩ := prod _ _ _ _ b1.2 d1.2 b2.2 d2.2
      obtain ⟨-, p3, q3⟩ := prod _ _ _ _ b1.1 d1.1 b2.2 d2.2
      obtain ⟨-, p4, q4⟩ := prod _ _ _ _ b1.2 d1.2 b2.1 d2.1
      have hu := Nearest.unit p hp
      have r1 := (product_round hu (dftElem tw a k).re.val (dftElem tw b k).re.val (dftElem tw a k).im.val (dftElem tw b k).im.val).1
      have r2 := (product_round hu (dftElem tw a k).re.val (dftElem tw b k).im.val (dftElem tw a k).im.val (dftElem tw b k).re.val).2
      have hv : (0 : ℝ) ≤ (1 + 1 / 2 ^ p) ^ 2 - 1 := by
        have : (1 : ℝ) ≤ (1 + 1 / 2 ^ p) ^ 2 := one_le_pow₀ (by simp)
        linarith
      rw [Complex.mul_re, Complex.mul_im]
      have e2 : 2 * ((1 + 1 / 2 ^ p) ^ 2 * (1 + c) ^ 2 - 1) * (size a * size b) =
        ((1 + 1 / 2 ^ p) ^ 2 - 1) * ((1 + c) ^ 2 * (size a * size b) + (1 + c) ^ 2 * (size a * size b)) +
        (((1 + c) ^ 2 - 1) * (size a * size b) + ((1 + c) ^ 2 - 1) * (size a * size b)) := by ring
      rw [e2]
      constructor
      · have r1' : |((dftElem tw a k * dftElem tw b k).re.val : ℝ) - (((dftElem tw a k).re.val : ℝ) * (dftElem tw b k).re.val - (dftElem tw a k).im.val * (dftElem tw b k).im.val)| ≤
            ((1 + 1 / 2 ^ p) ^ 2 - 1) * (|((dftElem tw a k).re.val : ℝ) * (dftElem tw b k).re.val| + |((dftElem tw a k).im.val : ℝ) * (dftElem tw b k).im.val|) := by
          have : ((|(dftElem tw a k * dftElem tw b k).re.val - ((dftElem tw a k).re.val * (dftElem tw b k).re.val - (dftElem tw a k).im.val * (dftElem tw b k).im.val)| : ℚ) : ℝ) ≤
            (((1 + 1 / 2 ^ p) ^ 2 - 1) * (|(dftElem tw a k).re.val * (dftElem tw b k).re.val| + |(dftElem tw a k).im.val * (dftElem tw b k).im.val|) : ℚ) := by
            exact_mod_cast r1
          push_cast at this
          exact this
        refine (abs_sub_le _ _ _).trans (add_le_add (r1'.trans (mul_le_mul_of_nonneg_left (by linarith) hv)) ?_)
        rw [show ∀ A B C D : ℝ, A - B - (C - D) = (A - C) - (B - D) from fun _ _ _ _ => by ring]
        exact (abs_sub _ _).trans (add_le_add p1 p2)
      · have r2' : |((dftElem tw a k * dftElem tw b k).im.val : ℝ) - (((dftElem tw a k).re.val : ℝ) * (dftElem tw b k).im.val + (dftElem tw a k).im.val * (dftElem tw b k).re.val)| ≤
            ((1 + 1 / 2 ^ p) ^ 2 - 1) * (|((dftElem tw a k).re.val : ℝ) * (dftElem tw b k).im.val| + |((dftElem tw a k).im.val : ℝ) * (dftElem tw b k).re.val|) := by
          have : ((|(dftElem tw a k * dftElem tw b k).im.val - ((dftElem tw a k).re.val * (dftElem tw b k).im.val + (dftElem tw a k).im.val * (dftElem tw b k).re.val)| : ℚ) : ℝ) ≤
            (((1 + 1 / 2 ^ p) ^ 2 - 1) * (|(dftElem tw a k).re.val * (dftElem tw b k).im.val| + |(dftElem tw a k).im.val * (dftElem tw b k).re.val|) : ℚ) := by
            exact_mod_cast r2
          push_cast at this
          exact this
        refine (abs_sub_le _ _ _).trans (add_le_add (r2'.trans (mul_le_mul_of_nonneg_left (by linarith) hv)) ?_)
        rw [show ∀ A B C D : ℝ, A + B - (C + D) = (A - C) + (B - D) from fun _ _ _ _ => by ring]
        exact (abs_add_le _ _).trans (add_le_add p3 p4)) hn
  rw [hyl] at h
  have e : 2 * ((1 + 1 / 2 ^ p) * ((1 + 1 / 2 ^ p) ^ (a.length + 1) * (1 + eta p ε a.length)) *
        (2 * (size a * size b) + 2 * ((1 + 1 / 2 ^ p) ^ 2 * (1 + c) ^ 2 - 1) * (size a * size b)) - 2 * (size a * size b)) =
      4 * ((1 + 1 / 2 ^ p) ^ 3 * (1 + c) ^ 3 - 1) * (size a * size b) := by
    have : (1 + 1 / 2 ^ p : ℝ) ^ (a.length + 1) * (1 + eta p ε a.length) = 1 + c := by rw [hc]; unfold dftErr; ring
    rw [this]
    ring
  rw [e] at h
  exact h

end main

/-! ### In digits -/

/-- **C105** (in digits).  If `cos` and `sin` are accurate to `2^(1-p)` and `1024 N ≤ 2^p`, the factor of the forward transform is at most `38 N 2^-p`, that of
the round trip at most `256 N 2^-p`; **C106**: that of the convolution at most `512 N 2^-p`. -/
theorem C105_digits (p : Nat) {ε : ℝ} (h0 : 0 ≤ ε) (hε : ε ≤ 2 / 2 ^ p) {N : Nat} (hN1 : 1 ≤ N) (hN : 1024 * N ≤ 2 ^ p) :
    dftErr p ε N ≤ 38 * N / 2 ^ p ∧ 2 * ((1 + 1 / 2 ^ p) * (1 + dftErr p ε N) ^ 2 - 1) ≤ 256 * N / 2 ^ p ∧
    4 * ((1 + 1 / 2 ^ p) ^ 3 * (1 + dftErr p ε N) ^ 3 - 1) ≤ 512 * N / 2 ^ p := by
  have hpow : (0 : ℝ) < 2 ^ p := by positivity
  set u : ℝ := 1 / 2 ^ p with hu
  have hu0 : 0 ≤ u := by positivity
  have hN1' : (1 : ℝ) ≤ N := by exact_mod_cast hN1
  set v : ℝ := N * u with hv
  have huv : u ≤ v := by rw [hv]; exact le_mul_of_one_le_left hu0 hN1'
  have hv1 : v ≤ 1 / 1024 := by
    have : (1024 * N : ℝ) ≤ 2 ^ p := by exact_mod_cast hN
    rw [hv, hu, mul_one_div, div_le_iff₀ hpow]
    linarith
  have hv0 : 0 ≤ v := hu0.trans huv
  -- powers
  have hg : (1 + u) ^ (N + 1) - 1 ≤ 4 * v := by
    have h := Round.gamma_le (u := 1 / 2 ^ p) (by positivity) (n := N + 1) (by
      have h1 : ((1024 * N : Nat) : ℚ) ≤ 2 ^ p := by exact_mod_cast hN
      have h2 : (1 : ℚ) ≤ N := by exact_mod_cast hN1
      push_cast at h1 ⊢
      rw [mul_one_div, div_le_iff₀ (by positivity)]
      linarith)
    have h' : (((1 + 1 / 2 ^ p) ^ (N + 1) - 1 : ℚ) : ℝ) ≤ ((2 * (N + 1 : Nat) * (1 / 2 ^ p) : ℚ) : ℝ) := by exact_mod_cast h
    push_cast at h'
    rw [← hu] at h'
    refine h'.trans ?_
    rw [hv]
    nlinarith
  have h5 : (1 + u) ^ 5 - 1 ≤ 5.02 * u := by
    have e : (1 + u) ^ 5 - 1 = u * (5 + u * (10 + u * (10 + u * (5 + u)))) := by ring
    have hu1 : u ≤ 1 / 1024 := huv.trans hv1
    have a1 : u * (5 + u) ≤ 1 := by nlinarith
    have a2 : u * (10 + u * (5 + u)) ≤ 1 := by nlinarith
    have a3 : u * (10 + u * (10 + u * (5 + u))) ≤ 0.02 := by nlinarith
    rw [e]
    nlinarith
  have hpi := Real.pi_lt_d2
  have heta : eta p ε N ≤ 33.7 * v := by
    unfold eta
    have h51 : 0 ≤ (1 + u) ^ 5 - 1 := by
      have : (1 : ℝ) ≤ (1 + u) ^ 5 := one_le_pow₀ (by linarith)
      linarith
    have a1 : ((1 + u) ^ 5 - 1) * (2 * Real.pi * N) ≤ 5.02 * u * (2 * 3.15 * N) := by
      refine mul_le_mul h5 ?_ (by positivity) (by positivity)
      have := Real.pi_pos
      nlinarith
    have a2 : 5.02 * u * (2 * 3.15 * N) = 31.626 * v := by rw [hv]; ring
    have a3 : ε ≤ 2 * v := by
      have : (2 : ℝ) / 2 ^ p = 2 * u := by rw [hu]; ring
      linarith
    linarith
  have heta0 := eta_nonneg (p := p) h0 N
  have hc : dftErr p ε N ≤ 38 * v := by
    unfold dftErr
    rw [← hu]
    have a1 : (1 + u) ^ (N + 1) * (1 + eta p ε N) ≤ (1 + 4 * v) * (1 + 33.7 * v) :=
      mul_le_mul (by linarith) (by linarith) (by linarith) (by linarith)
    nlinarith
  have hc0 : 0 ≤ dftErr p ε N := by
    have h1 : (1 : ℝ) ≤ (1 + u) ^ (N + 1) := one_le_pow₀ (by linarith)
    unfold dftErr
    rw [← hu]
    nlinarith
  set c := dftErr p ε N
  have e1 : ∀ k : ℝ, k * N / 2 ^ p = k * v := by intro k; rw [hv, hu]; ring
  rw [e1, e1, e1]
  have hc1 : c ≤ 0.0372 := by nlinarith
  refine ⟨hc, ?_, ?_⟩
  · have a1 : (1 + c) ^ 2 ≤ 1 + 77.5 * v := by nlinarith
    have a2 : (1 + u) * (1 + c) ^ 2 ≤ (1 + v) * (1 + 77.5 * v) := mul_le_mul (by linarith) a1 (by positivity) (by linarith)
    nlinarith
  · have a1 : (1 + c) ^ 2 ≤ 1 + 77.5 * v := by nlinarith
    have a2 : (1 + c) ^ 3 ≤ (1 + 77.5 * v) * (1 + 38 * v) := by
      rw [pow_succ]
      exact mul_le_mul a1 (by linarith) (by linarith) (by linarith)
    have a3 : (1 + u) ^ 3 ≤ 1 + 3.01 * v := by nlinarith
    have a4 : (1 + u) ^ 3 * (1 + c) ^ 3 ≤ (1 + 3.01 * v) * ((1 + 77.5 * v) * (1 + 38 * v)) := mul_le_mul a3 a2 (by positivity) (by linarith)
    have a5 : (1 + 77.5 * v) * (1 + 38 * v) ≤ 1 + 119 * v := by nlinarith
    have a6 := mul_le_mul_of_nonneg_left a5 (show 0 ≤ 1 + 3.01 * v by linarith)
    nlinarith

/-! ### The hypotheses can be met -/

/-- Every real number has a representable number at relative distance at most `2^-p`. -/
theorem exists_near (p : Nat) (hp : 1 ≤ p) (t : ℝ) : ∃ y : Num p hp, |(y.val : ℝ) - t| ≤ 1 / 2 ^ p * |t| := by
  have key : ∀ t : ℝ, 0 < t → ∃ y : Num p hp, |(y.val : ℝ) - t| ≤ 1 / 2 ^ p * |t| := by
    intro t hs
    set L := Int.log 2 t with hL
    have h1 := Int.zpow_log_le_self (b := 2) (by norm_num) hs
    have h2 := Int.lt_zpow_succ_log_self (b := 2) (by norm_num) t
    rw [← hL] at h1 h2
    push_cast at h1 h2
    set e : Int := L - (p - 1) with he
    have hue : (0 : ℝ) < 2 ^ e := zpow_pos (by norm_num) e
    set N : Int := round (t / 2 ^ e) with hN
    have hround := abs_sub_round (t / 2 ^ e)
    rw [← hN] at hround
    obtain ⟨r1, r2⟩ := abs_le.1 hround
    have hN0 : 0 ≤ N := by
      have : (0 : ℝ) < t / 2 ^ e := by positivity
      have : (-1 : ℝ) < N := by linarith
      have : (-1 : Int) < N := by exact_mod_cast this
      omega
    have etop : (2 : ℝ) ^ (L + 1) = 2 ^ p * 2 ^ e := by
      rw [← zpow_natCast, ← zpow_add₀ (by norm_num)]
      congr 1
      omega
    have hN1 : N ≤ 2 ^ p := by
      have h3 : t / 2 ^ e < 2 ^ p := by rw [div_lt_iff₀ hue, ← etop]; exact h2
      have : (N : ℝ) < 2 ^ p + 1 := by linarith
      have : (N : ℝ) < ((2 ^ p + 1 : Int) : ℝ) := by push_cast; exact this
      have : N < 2 ^ p + 1 := by exact_mod_cast this
      omega
    refine ⟨⟨N * 2 ^ e, Nearest.fl_repr hp N e (by rw [abs_of_nonneg hN0]; exact hN1)⟩, ?_⟩
    show |(((N : ℚ) * 2 ^ e : ℚ) : ℝ) - t| ≤ _
    push_cast
    have e1 : (N : ℝ) * 2 ^ e - t = -((t / 2 ^ e - N) * 2 ^ e) := by field_simp; ring
    rw [e1, abs_neg, abs_mul, abs_of_pos hue, abs_of_pos hs]
    have e2 : (2 : ℝ) ^ L = 2 ^ p * 2 ^ e / 2 := by
      rw [← etop, zpow_add₀ (by norm_num)]; simp
    rw [e2] at h1
    calc _ ≤ 1 / 2 * (2 : ℝ) ^ e := mul_le_mul_of_nonneg_right hround hue.le
      _ = 1 / 2 ^ p * (2 ^ p * 2 ^ e / 2) := by field_simp
      _ ≤ _ := mul_le_mul_of_nonneg_left h1 (by positivity)
  rcases lt_trichotomy t 0 with h | rfl | h
  · obtain ⟨y, hy⟩ := key (-t) (by linarith)
    refine ⟨-y, ?_⟩
    rw [neg_val]
    push_cast
    rw [abs_neg] at hy
    rwa [show -(y.val : ℝ) - t = -(y.val - -t) by ring, abs_neg]
  · exact ⟨0, by rw [Fl.val_zero]; simp⟩
  · exact key t h

/-- Correctly rounded `Pi`, `cos` and `sin` exist, and meet `LibM` with `ε = 2^-p`. -/
theorem exists_libM (p : Nat) (hp : 1 ≤ p) : ∃ pi cos sin, LibM p hp (1 / 2 ^ p) pi cos sin := by
  obtain ⟨pi, hpi⟩ := exists_near p hp Real.pi
  choose cos hcos using fun x : Num p hp => exists_near p hp (Real.cos x.val)
  choose sin hsin using fun x : Num p hp => exists_near p hp (Real.sin x.val)
  refine ⟨pi, cos, sin, ?_, fun x => (hcos x).trans ?_, fun x => (hsin x).trans ?_⟩
  · rwa [abs_of_pos Real.pi_pos] at hpi
  · exact mul_le_of_le_one_right (by positivity) (Real.abs_cos_le_one _)
  · exact mul_le_of_le_one_right (by positivity) (Real.abs_sin_le_one _)

/-- Non-vacuity of C105 and C106 in `double`: any sequence of a million elements comes back from the two transforms with an error below `2^-25` of the sum
of the absolute values of its parts. -/
example (hp : 1 ≤ 53) : ∃ pi cos sin, LibM 53 hp (1 / 2 ^ 53) pi cos sin ∧ ∀ x : List (Cplx (Num 53 hp)), x.length = 1000000 →
    ∃ y, (roundFourier pi cos sin x >>= inverse (roundFourier pi cos sin)) = .ok y ∧ Within (1 / 2 ^ 25 * size x) y (x.map toC) := by
  obtain ⟨pi, cos, sin, h⟩ := exists_libM 53 hp
  refine ⟨pi, cos, sin, h, fun x hx => ?_⟩
  obtain ⟨y, h1, h2, h3⟩ := C105_round_trip h x (by rw [hx]; norm_num)
  refine ⟨y, h1, h2, fun k z' z hz' hz => ?_⟩
  have hd := (C105_digits 53 (ε := 1 / 2 ^ 53) (by norm_num) (by norm_num) (N := x.length) (by rw [hx]; norm_num) (by rw [hx]; norm_num)).2.1
  have hle : 2 * ((1 + 1 / 2 ^ 53) * (1 + dftErr 53 (1 / 2 ^ 53) x.length) ^ 2 - 1) * size x ≤ 1 / 2 ^ 25 * size x := by
    refine mul_le_mul_of_nonneg_right (hd.trans ?_) (size_nonneg x)
    rw [hx]
    norm_num
  exact ⟨(h3 k z' z hz' hz).1.trans hle, (h3 k z' z hz' hz).2.trans hle⟩

end K52.Dsp
