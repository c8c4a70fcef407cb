import Verif.Model.ExampleFns
import Verif.Props.IeeeRosenbrock
import Mathlib.Analysis.SpecialFunctions.Trigonometric.Bounds
import Mathlib.Analysis.Real.Pi.Bounds
import Mathlib.NumberTheory.Real.Irrational

/-!
# C116: the example objective functions and their solutions
-/

set_option linter.unusedSectionVars false

namespace K52.ExampleFns

/-! ## Floating point -/

section Float
open Flt IeeeGradient IeeeRosenbrock

variable {F : Format}

/-- Sums are monotone. -/
theorem dbl_add_le {a a' b b' : Dbl} (h1 : a ≤ a') (h2 : b ≤ b') (hn : a + b ≠ .nan) (hn' : a' + b' ≠ .nan) : a + b ≤ a' + b' := by
  rcases Dbl.le_cases h1 with ⟨rfl, ha⟩ | ⟨rfl, ha⟩ | ⟨q, q', rfl, rfl, hq⟩
  · have : Dbl.inf true + b = .inf true := by
      rcases b with _ | s | r
      · exact absurd rfl hn
      · cases s
        · exact absurd rfl hn
        · rfl
      · rfl
    rw [this]
    exact Dbl.minf_le hn'
  · have : Dbl.inf false + b' = .inf false := by
      rcases b' with _ | s | r
      · exact absurd rfl hn'
      · cases s
        · rfl
        · exact absurd rfl hn'
      · rfl
    rw [this]
    exact Dbl.le_pinf hn
  · rcases Dbl.le_cases h2 with ⟨rfl, hb⟩ | ⟨rfl, hb⟩ | ⟨r, r', rfl, rfl, hr⟩
    · exact Dbl.minf_le hn'
    · exact Dbl.le_pinf hn
    · exact Dbl.num_le.2 (add_le_add hq hr)

theorem add_le {a a' b b' : Flt F} (h1 : a ≤ a') (h2 : b ≤ b') (hn : ¬ nan (a + b)) (hn' : ¬ nan (a' + b')) : a + b ≤ a' + b' := by
  rw [Flt.le_iff, val_add, val_add]
  exact round_mono (dbl_add_le h1 h2 (fun h => hn (by rw [nan_iff, val_add, h]; rfl)) (fun h => hn' (by rw [nan_iff, val_add, h]; rfl)))

theorem _root_.K52.IeeeRosenbrock.NotNeg.not_nan {a : Flt F} (h : NotNeg a) : ¬ nan a := by
  rw [nan_iff]
  rcases h with h | ⟨q, h, _⟩ <;> rw [h] <;> exact Dbl.noConfusion

theorem _root_.K52.IeeeRosenbrock.NotNeg.nonneg {a : Flt F} (h : NotNeg a) : 0 ≤ a := by
  rw [Flt.le_iff, val_zero]
  rcases h with h | ⟨q, h, hq⟩ <;> rw [h]
  · exact Dbl.le_pinf Dbl.noConfusion
  · exact Dbl.num_le.2 hq

/-- A sum of terms that are NaN or at most `T` is NaN or at most the sum of as many `T`. -/
theorem fold_upper {T : Flt F} (hT : NotNeg T) (term : Flt F → Flt F) : ∀ (v : List (Flt F)) (s s' : Flt F), (∀ x ∈ v, nan (term x) ∨ term x ≤ T) →
    NotNeg s' → (nan s ∨ s ≤ s') →
    nan (v.foldl (fun a x => a + term x) s) ∨ v.foldl (fun a x => a + term x) s ≤ (List.replicate v.length T).foldl (fun a x => a + x) s'
  | [], _, _, _, _, h => h
  | x :: v, s, s', hv, hs', h => by
    rw [List.foldl_cons, List.length_cons, List.replicate_succ, List.foldl_cons]
    have hok := (add_notNeg hs' hT).1
    refine fold_upper hT term v _ _ (fun y hy => hv y (by simp [hy])) hok ?_
    by_cases hn : nan (s + term x)
    · exact .inl hn
    right
    rcases h with h | h
    · exact absurd (IeeeArith.add_left _ h) hn
    rcases hv x (by simp) with h2 | h2
    · exact absurd (IeeeArith.add_right _ h2) hn
    exact add_le h h2 hn hok.not_nan

/-- A sum of terms that are NaN or at least `T` is NaN or at least the sum of as many `T`. -/
theorem fold_lower {T : Flt F} (hT : NotNeg T) (term : Flt F → Flt F) : ∀ (v : List (Flt F)) (s s' : Flt F), (∀ x ∈ v, nan (term x) ∨ T ≤ term x) →
    NotNeg s' → (nan s ∨ s' ≤ s) →
    nan (v.foldl (fun a x => a + term x) s) ∨ (List.replicate v.length T).foldl (fun a x => a + x) s' ≤ v.foldl (fun a x => a + term x) s
  | [], _, _, _, _, h => h
  | x :: v, s, s', hv, hs', h => by
    rw [List.foldl_cons, List.length_cons, List.replicate_succ, List.foldl_cons]
    have hok := (add_notNeg hs' hT).1
    refine fold_lower hT term v _ _ (fun y hy => hv y (by simp [hy])) hok ?_
    by_cases hn : nan (s + term x)
    · exact .inl hn
    right
    rcases h with h | h
    · exact absurd (IeeeArith.add_left _ h) hn
    rcases hv x (by simp) with h2 | h2
    · exact absurd (IeeeArith.add_right _ h2) hn
    exact add_le h h2 hok.not_nan hn

theorem fold_const (term : Flt F → Flt F) (x : Flt F) : ∀ (n : Nat) (s : Flt F),
    (List.replicate n x).foldl (fun a x => a + term x) s = (List.replicate n (term x)).foldl (fun a x => a + x) s
  | 0, _ => rfl
  | n + 1, s => by
    rw [List.replicate_succ, List.replicate_succ, List.foldl_cons, List.foldl_cons]
    exact fold_const term x n _

theorem notNeg_zero : NotNeg (0 : Flt F) := .inr ⟨0, val_zero, le_refl _⟩

theorem not_lt_upper {T : Flt F} (hT : NotNeg T) (term : Flt F → Flt F) (v : List (Flt F)) (hv : ∀ x ∈ v, nan (term x) ∨ term x ≤ T) (y : Flt F)
    (hy : term y = T) :
    ¬ (List.replicate v.length y).foldl (fun a x => a + term x) 0 < v.foldl (fun a x => a + term x) 0 := by
  rw [fold_const, hy]
  rcases fold_upper hT term v 0 0 hv notNeg_zero (.inr (Flt.le_refl notNeg_zero.not_nan)) with h | h
  · exact IeeeOrder.not_lt_nan_right h
  · exact Flt.not_lt_of_le h

theorem not_lt_lower {T : Flt F} (hT : NotNeg T) (term : Flt F → Flt F) (v : List (Flt F)) (hv : ∀ x ∈ v, nan (term x) ∨ T ≤ term x) (y : Flt F)
    (hy : term y = T) :
    ¬ v.foldl (fun a x => a + term x) 0 < (List.replicate v.length y).foldl (fun a x => a + term x) 0 := by
  rw [fold_const, hy]
  rcases fold_lower hT term v 0 0 hv notNeg_zero (.inr (Flt.le_refl notNeg_zero.not_nan)) with h | h
  · exact IeeeOrder.not_lt_nan_left h
  · exact Flt.not_lt_of_le h

/-! ### `x² - 2` in `double` -/

/-- `M_SQRT2`. -/
def sqrt2 : Flt binary64 := f64 (6369051672525773 / 2 ^ 52)

/-- No `double` lies between the two neighbours of the root of 2. -/
theorem gap {q : ℚ} (h : binary64.fl q = q) : |q| ≤ 6369051672525772 / 2 ^ 52 ∨ 6369051672525773 / 2 ^ 52 ≤ |q| := by
  obtain ⟨N, k, hN, hk, e⟩ := binary64.fl_form q
  rw [h] at e
  have hN' : (|N| : ℤ) ≤ 9007199254740992 := by
    refine hN.trans ?_
    show (2 : ℤ) ^ 53 ≤ _
    norm_num
  have hpos := zpow_pos Nearest.two_pos k
  have eabs : |q| = (|N| : ℤ) * 2 ^ k := by
    rw [e, abs_mul, abs_of_pos hpos]
    push_cast
    rfl
  rcases lt_or_ge k (-52) with h1 | h1
  · left
    have h2 : (2 : ℚ) ^ k ≤ 2 ^ (-53 : Int) := zpow_le_zpow_right₀ (by norm_num) (by omega)
    have h3 : ((|N| : ℤ) : ℚ) ≤ 9007199254740992 := by exact_mod_cast hN'
    rw [eabs]
    calc ((|N| : ℤ) : ℚ) * 2 ^ k ≤ 9007199254740992 * 2 ^ (-53 : Int) := mul_le_mul h3 h2 hpos.le (by norm_num)
      _ ≤ 6369051672525772 / 2 ^ 52 := by norm_num
  · obtain ⟨d, hd⟩ := Int.eq_ofNat_of_zero_le (show 0 ≤ k + 52 by omega)
    have e2 : |q| = ((|N| * 2 ^ d : ℤ) : ℚ) / 2 ^ 52 := by
      rw [eabs]
      have : (2 : ℚ) ^ k = 2 ^ d / 2 ^ 52 := by
        rw [show k = (d : ℤ) - 52 by omega, zpow_sub₀ (by norm_num), zpow_natCast]
        norm_num
      rw [this]
      push_cast
      ring
    rw [e2]
    rcases le_or_gt (|N| * 2 ^ d) 6369051672525772 with h3 | h3
    · left
      have : ((|N| * 2 ^ d : ℤ) : ℚ) ≤ 6369051672525772 := by exact_mod_cast h3
      exact div_le_div_of_nonneg_right this (by norm_num)
    · right
      have : (6369051672525773 : ℚ) ≤ ((|N| * 2 ^ d : ℤ) : ℚ) := by exact_mod_cast h3
      exact div_le_div_of_nonneg_right this (by norm_num)

theorem round_pos_cases {q : ℚ} (h : 0 ≤ q) : F.round (.num q) = .inf false ∨ F.round (.num q) = .num (F.fl q) := by
  simp only [Format.round]
  split_ifs
  · exact .inr rfl
  · rw [decide_eq_false (not_lt.2 h)]
    exact .inl rfl

/-- `x² - 2` is never closer to zero than at `M_SQRT2`. -/
theorem diff_cases (x : Flt binary64) : nan (x * x - 2) ∨ (x * x - 2).val = .inf false ∨ ∃ q, (x * x - 2).val = .num q ∧ 1 / 2 ^ 51 ≤ |q| := by
  have h2 : (2 : Flt binary64).val = .num 2 := two_val
  rcases hx : x.val with _ | s | q
  · left
    rw [eq_nanF (show nan x from hx)]
    rw [nanF_mul, nanF_sub]
    exact nan_nanF
  · right; left
    have : (x * x).val = .inf false := by
      rw [val_mul, hx]
      cases s <;> rfl
    rw [val_sub, this, h2]
    rfl
  · right
    obtain ⟨hr, _⟩ := Finite.repr hx
    have hq2 : q * q = |q| * |q| := (abs_mul_abs_self q).symm
    rcases gap hr with h | h
    · right
      have hle : q * q ≤ (6369051672525772 / 2 ^ 52) * (6369051672525772 / 2 ^ 52) := by
        rw [hq2]
        exact mul_le_mul h h (abs_nonneg _) (by norm_num)
      have hval : binary64.fl ((6369051672525772 / 2 ^ 52) * (6369051672525772 / 2 ^ 52)) = 2 - 1 / 2 ^ 51 := by decide +kernel
      have h1 := binary64.fl_mono hle
      rw [hval] at h1
      have h0 := binary64.fl_mono (mul_self_nonneg q)
      rw [binary64.fl_zero] at h0
      have hmul : (x * x).val = .num (binary64.fl (q * q)) := by
        rw [val_mul, hx]
        show binary64.round (.num (q * q)) = _
        rcases round_pos_cases (F := binary64) (mul_self_nonneg q) with h3 | h3
        · exfalso
          simp only [Format.round] at h3
          split_ifs at h3 with h4
          refine h4 ?_
          rw [abs_of_nonneg h0]
          refine lt_of_le_of_lt h1 ?_
          have : (2 : ℚ) ^ (1 : Int) < 2 ^ binary64.emax := zpow_lt_zpow_right₀ (by norm_num) (by decide)
          norm_num at this ⊢
          linarith
        · exact h3
      generalize binary64.fl (q * q) = r at *
      have hd : r - 2 ≤ -(1 / 2 ^ 51) := by linarith
      have hd2 := binary64.fl_mono hd
      have hd3 := binary64.fl_mono (show -2 ≤ r - 2 by linarith)
      rw [show binary64.fl (-(1 / 2 ^ 51)) = -(1 / 2 ^ 51) by decide +kernel] at hd2
      rw [show binary64.fl (-2) = -2 by decide +kernel] at hd3
      refine ⟨binary64.fl (r - 2), ?_, ?_⟩
      · rw [val_sub, hmul, h2]
        show binary64.round (.num (r + -2)) = _
        rw [← sub_eq_add_neg]
        simp only [Format.round]
        rw [if_pos]
        rw [abs_of_nonpos (by linarith [show (0 : ℚ) < 1 / 2 ^ 51 by norm_num])]
        have : (2 : ℚ) ^ (1 : Int) < 2 ^ binary64.emax := zpow_lt_zpow_right₀ (by norm_num) (by decide)
        norm_num at this ⊢
        linarith
      · rw [abs_of_nonpos (by linarith [show (0 : ℚ) < 1 / 2 ^ 51 by norm_num])]
        linarith
    · have hle : (6369051672525773 / 2 ^ 52) * (6369051672525773 / 2 ^ 52) ≤ q * q := by
        rw [hq2]
        exact mul_le_mul h h (by norm_num) (abs_nonneg _)
      have hval : binary64.fl ((6369051672525773 / 2 ^ 52) * (6369051672525773 / 2 ^ 52)) = 2 + 1 / 2 ^ 51 := by decide +kernel
      have h1 := binary64.fl_mono hle
      rw [hval] at h1
      rcases round_pos_cases (F := binary64) (mul_self_nonneg q) with h3 | h3
      · left
        have : (x * x).val = .inf false := by
          rw [val_mul, hx]
          exact h3
        rw [val_sub, this, h2]
        rfl
      · have hmul : (x * x).val = .num (binary64.fl (q * q)) := by
          rw [val_mul, hx]
          exact h3
        generalize binary64.fl (q * q) = r at *
        have hd : 1 / 2 ^ 51 ≤ r - 2 := by linarith
        have hd2 := binary64.fl_mono hd
        rw [show binary64.fl (1 / 2 ^ 51) = 1 / 2 ^ 51 by decide +kernel] at hd2
        have hsub : (x * x - 2).val = binary64.round (.num (r - 2)) := by
          rw [val_sub, hmul, h2, sub_eq_add_neg]
          rfl
        rcases round_pos_cases (F := binary64) (q := r - 2) (le_trans (by norm_num) hd) with h4 | h4
        · exact .inl (by rw [hsub, h4])
        · exact .inr ⟨_, by rw [hsub, h4], by rw [abs_of_nonneg (le_trans (by norm_num) hd2)]; exact hd2⟩

/-- What is assumed of `abs` and `sin`: `abs` is exact; the sine of a finite number is finite and at most the number in absolute value, and
that of an infinity or NaN is NaN. -/
structure Lib.Good (l : Lib (Flt binary64)) : Prop where
  abs_nan : l.abs nanF = nanF
  abs_num : ∀ x q, x.val = .num q → (l.abs x).val = .num |q|
  abs_inf : ∀ x s, x.val = .inf s → (l.abs x).val = .inf false
  sin_num : ∀ x q, x.val = .num q → ∃ r, (l.sin x).val = .num r ∧ |r| ≤ |q|
  sin_not_finite : ∀ x : Flt binary64, ¬ Flt.Finite x → nan (l.sin x)
  eps : l.eps = f64 (1 / 10 ^ 10)
  sqrt2 : l.sqrt2 = ExampleFns.sqrt2

variable {l : Lib (Flt binary64)}

theorem square_term (hl : l.Good) (x : Flt binary64) : nan (1 / l.abs (x * x - 2)) ∨ 1 / l.abs (x * x - 2) ≤ f64 (2 ^ 51) := by
  rcases diff_cases x with h | h | ⟨q, h, hq⟩
  · left
    rw [eq_nanF h, hl.abs_nan, div_nanF]
    exact nan_nanF
  · right
    rw [div_inf finite_one (hl.abs_inf _ _ h)]
    decide +kernel
  · right
    have hpos : 0 < |q| := lt_of_lt_of_le (by norm_num) hq
    have e : (1 / l.abs (x * x - 2)).val = binary64.round (.num (1 / |q|)) := by
      rw [val_div, val_one, hl.abs_num _ _ h]
      show binary64.round (if |q| = 0 then _ else .num (1 / |q|)) = _
      rw [if_neg hpos.ne']
    rw [Flt.le_iff, e]
    show binary64.round (.num (1 / |q|)) ≤ binary64.round (.num (2 ^ 51))
    refine round_mono (Dbl.num_le.2 ?_)
    rw [div_le_iff₀ hpos]
    calc (1 : ℚ) = 2 ^ 51 * (1 / 2 ^ 51) := by norm_num
      _ ≤ 2 ^ 51 * |q| := mul_le_mul_of_nonneg_left hq (by norm_num)

theorem simple_term (x : Flt binary64) : nan ((x * x - 2) * (x * x - 2)) ∨ f64 (1 / 2 ^ 102) ≤ (x * x - 2) * (x * x - 2) := by
  rcases diff_cases x with h | h | ⟨q, h, hq⟩
  · left
    rw [eq_nanF h, nanF_mul]
    exact nan_nanF
  · right
    have : ((x * x - 2) * (x * x - 2)).val = .inf false := by
      rw [val_mul, h]
      rfl
    rw [Flt.le_iff, this]
    exact Dbl.le_pinf (by decide +kernel)
  · right
    rw [Flt.le_iff, val_mul, h]
    show binary64.round (.num (1 / 2 ^ 102)) ≤ binary64.round (.num (q * q))
    refine round_mono (Dbl.num_le.2 ?_)
    rw [← abs_mul_abs_self q]
    calc (1 : ℚ) / 2 ^ 102 = (1 / 2 ^ 51) * (1 / 2 ^ 51) := by norm_num
      _ ≤ |q| * |q| := mul_le_mul hq hq (by norm_num) (abs_nonneg _)

theorem square_at (hl : l.Good) : 1 / l.abs (sqrt2 * sqrt2 - 2) = f64 (2 ^ 51) := by
  have h : (sqrt2 * sqrt2 - 2).val = .num (1 / 2 ^ 51) := by decide +kernel
  refine ext ?_
  rw [val_div, val_one, hl.abs_num _ _ h]
  decide +kernel

theorem difraction_term (hl : l.Good) (x : Flt binary64) :
    nan (if l.abs x < l.eps then 1 else l.sin x / x) ∨ (if l.abs x < l.eps then 1 else l.sin x / x) ≤ 1 := by
  split_ifs with h
  · right
    decide +kernel
  · by_cases hf : Finite x
    · obtain ⟨q, hq⟩ := hf
      right
      obtain ⟨r, hr, hle⟩ := hl.sin_num x q hq
      have hq0 : q ≠ 0 := by
        rintro rfl
        refine h ?_
        show (l.abs x).val < (l.eps).val
        rw [hl.abs_num _ _ hq, hl.eps, abs_zero]
        decide +kernel
      rw [Flt.le_iff, val_div, hr, hq]
      show binary64.round (if q = 0 then _ else .num (r / q)) ≤ (1 : Flt binary64).val
      rw [if_neg hq0]
      have h1 : binary64.round (.num 1) = (1 : Flt binary64).val := by decide +kernel
      rw [← h1]
      refine round_mono (Dbl.num_le.2 ?_)
      refine le_trans (le_abs_self _) ?_
      rw [abs_div]
      exact (div_le_one (abs_pos.2 hq0)).2 hle
    · left
      exact IeeeArith.div_left _ (hl.sin_not_finite x hf)

/-- **C116 (`1/|x²-2|`).** In `double`, no point of any dimension has a value above the one at (M_SQRT2, ...): the maximum is attained there. -/
theorem C116_square (hl : l.Good) (v : List (Flt binary64)) : ¬ square l (List.replicate v.length sqrt2) < square l v :=
  not_lt_upper (T := f64 (2 ^ 51)) (.inr ⟨2 ^ 51, by decide +kernel, by norm_num⟩) (fun x => 1 / l.abs (x * x - 2)) v
    (fun x _ => square_term hl x) sqrt2 (square_at hl)

/-- **C116 (`(x²-2)²`).** In `double`, no point has a value below the one at (M_SQRT2, ...), which is not zero. -/
theorem C116_simple_square (v : List (Flt binary64)) : ¬ simpleSquare v < simpleSquare (List.replicate v.length sqrt2) :=
  not_lt_lower (T := f64 (1 / 2 ^ 102)) (.inr ⟨1 / 2 ^ 102, by decide +kernel, by norm_num⟩) (fun x => (x * x - 2) * (x * x - 2)) v
    (fun x _ => simple_term x) sqrt2 (by decide +kernel)

/-- **C116 (`Σ x²`).** In every format, no point has a value below the one at the origin. -/
theorem C116_square_summ (v : List (Flt F)) : ¬ squareSumm v < squareSumm (List.replicate v.length 0) := by
  refine not_lt_lower (T := 0) notNeg_zero (fun x => x * x) v (fun x _ => ?_) 0 (Flt.mul_zero finite_zero)
  by_cases h : nan x
  · exact .inl (IeeeArith.mul_left _ h)
  · right
    refine NotNeg.nonneg ?_
    by_cases hf : Finite x
    · exact square_notNeg hf
    · rcases not_finite_cases hf with rfl | ⟨s, hs⟩
      · exact absurd nan_nanF h
      · left
        rw [val_mul, hs]
        cases s <;> rfl

/-- **C116 (`Σ sin x / x`).** In `double`, with a sine that does not exceed its argument, no point has a value above the one at the origin. -/
theorem C116_difraction (hl : l.Good) (v : List (Flt binary64)) : ¬ difraction l (List.replicate v.length 0) < difraction l v := by
  refine not_lt_upper (T := 1) (.inr ⟨1, val_one, by norm_num⟩) (fun x => if l.abs x < l.eps then 1 else l.sin x / x) v
    (fun x _ => difraction_term hl x) 0 ?_
  have h : l.abs 0 < l.eps := by
    show (l.abs 0).val < (l.eps).val
    rw [hl.abs_num _ _ val_zero, hl.eps, abs_zero]
    decide +kernel
  rw [if_pos h]

/-- **C116 (the example's solutions).** For every test function of the example except the last, the solution it declares is one: no two-dimensional point
of `double` coordinates has a better value. -/
theorem C116_solutions (hl : l.Good) (t : TestFunction (Flt binary64)) (ht : t ∈ provider l) (hm : t.fn ≠ .multiminimum) (v : List (Flt binary64))
    (hv : v.length = 2) : ∃ a b, t.fn.call l v = .ok a ∧ t.solutionValue l = .ok b ∧ ¬ (if t.maximize then b < a else a < b) := by
  simp only [provider, List.mem_cons, List.not_mem_nil, or_false] at ht
  rcases ht with rfl | rfl | rfl | rfl | rfl
  · refine ⟨_, _, rfl, rfl, ?_⟩
    have := C116_square hl v
    rw [hv] at this
    simpa [hl.sqrt2, List.replicate] using this
  · refine ⟨_, _, rfl, rfl, ?_⟩
    have := C116_simple_square v
    rw [hv] at this
    simpa [hl.sqrt2, List.replicate] using this
  · refine ⟨_, _, rfl, rfl, ?_⟩
    have := C116_difraction hl v
    rw [hv] at this
    simpa [List.replicate] using this
  · refine ⟨_, _, rfl, rfl, ?_⟩
    have := C116_square_summ v
    rw [hv] at this
    simpa [List.replicate] using this
  · exact absurd rfl hm

end Float

/-! ## Real numbers -/

section Real

/-- The library of exact numbers. -/
noncomputable def realLib : Lib ℝ := ⟨fun x => |x|, Real.sin, 1 / 10 ^ 10, 11 / 10, √2⟩

theorem fold_sum (term : ℝ → ℝ) : ∀ (v : List ℝ) (s : ℝ), v.foldl (fun a x => a + term x) s = s + (v.map term).sum
  | [], s => by simp
  | x :: v, s => by rw [List.foldl_cons, fold_sum term v, List.map_cons, List.sum_cons]; ring

theorem sum_zero_iff {term : ℝ → ℝ} (h : ∀ x, 0 ≤ term x) : ∀ v : List ℝ, 0 ≤ (v.map term).sum ∧ ((v.map term).sum = 0 ↔ ∀ x ∈ v, term x = 0)
  | [] => by simp
  | x :: v => by
    obtain ⟨h1, h2⟩ := sum_zero_iff h v
    have hx := h x
    rw [List.map_cons, List.sum_cons]
    refine ⟨by linarith, ?_⟩
    rw [List.forall_mem_cons, ← h2]
    constructor
    · intro h3
      exact ⟨by linarith, by linarith⟩
    · rintro ⟨h3, h4⟩
      rw [h3, h4, add_zero]

/-- **C116 (exact numbers: `1/|x²-2|`).** The first function has no maximum: in every neighbourhood of the root of 2 it exceeds every bound. -/
theorem C116_square_unbounded (B ε : ℝ) (hε : 0 < ε) : ∃ x, |x - √2| < ε ∧ x * x ≠ 2 ∧ B < square realLib [x, x] := by
  have h2 : (1 : ℝ) < √2 := by
    rw [show (1 : ℝ) = √1 by simp]
    exact Real.sqrt_lt_sqrt (by norm_num) (by norm_num)
  have h2' : √2 * √2 = 2 := Real.mul_self_sqrt (by norm_num)
  have h3 : √2 < 2 := by nlinarith
  set M := |B| + 1 with hM
  have hM1 : 1 ≤ M := by rw [hM]; linarith [abs_nonneg B]
  set δ := min (ε / 2) (1 / (5 * M)) with hδ
  have hδ0 : 0 < δ := lt_min (by linarith) (by positivity)
  have hδ1 : δ ≤ 1 / (5 * M) := min_le_right _ _
  have hδ2 : δ ≤ ε / 2 := min_le_left _ _
  have hδ3 : δ * (5 * M) ≤ 1 := by
    rw [le_div_iff₀ (by positivity)] at hδ1
    exact hδ1
  have hδ4 : δ ≤ 1 := by nlinarith
  have hd : 0 < (√2 + δ) * (√2 + δ) - 2 := by nlinarith
  have hd2 : (√2 + δ) * (√2 + δ) - 2 ≤ 5 * δ := by nlinarith
  refine ⟨√2 + δ, ?_, by linarith [hd], ?_⟩
  · rw [add_sub_cancel_left, abs_of_pos hδ0]
    linarith
  · have hM2 : M ≤ 1 / ((√2 + δ) * (√2 + δ) - 2) := by
      rw [le_div_iff₀ hd]
      nlinarith
    have e : square realLib [√2 + δ, √2 + δ] = 1 / ((√2 + δ) * (√2 + δ) - 2) + 1 / ((√2 + δ) * (√2 + δ) - 2) := by
      show (0 : ℝ) + 1 / |(√2 + δ) * (√2 + δ) - 2| + 1 / |(√2 + δ) * (√2 + δ) - 2| = _
      rw [abs_of_pos hd, zero_add]
    rw [e]
    have := le_abs_self B
    linarith

/-- **C116 (exact numbers: `(x²-2)²`).** The value is never negative, and zero exactly when every coordinate is a root of 2; so it is positive for
rational coordinates, in particular at every point of `double` coordinates. -/
theorem C116_simple_square_real (v : List ℝ) :
    0 ≤ simpleSquare v ∧ (simpleSquare v = 0 ↔ ∀ x ∈ v, x = √2 ∨ x = -√2) ∧ ((∃ q : ℚ, (q : ℝ) ∈ v) → 0 < simpleSquare v) := by
  have hterm : ∀ x : ℝ, 0 ≤ (x * x - 2) * (x * x - 2) := fun x => mul_self_nonneg _
  have e : simpleSquare v = (v.map fun x => (x * x - 2) * (x * x - 2)).sum := by
    unfold simpleSquare
    rw [fold_sum (fun x => (x * x - 2) * (x * x - 2)), zero_add]
  obtain ⟨h1, h2⟩ := sum_zero_iff hterm v
  have hroot : ∀ x : ℝ, (x * x - 2) * (x * x - 2) = 0 ↔ x = √2 ∨ x = -√2 := by
    intro x
    have hs : √2 * √2 = 2 := Real.mul_self_sqrt (by norm_num)
    have e : x * x - 2 = (x - √2) * (x + √2) := by linear_combination hs
    rw [mul_self_eq_zero, e, mul_eq_zero, sub_eq_zero, add_eq_zero_iff_eq_neg]
  have h3 : simpleSquare v = 0 ↔ ∀ x ∈ v, x = √2 ∨ x = -√2 := by
    rw [e, h2]
    exact forall₂_congr fun x _ => hroot x
  refine ⟨by rw [e]; exact h1, h3, ?_⟩
  rintro ⟨q, hq⟩
  refine lt_of_le_of_ne (by rw [e]; exact h1) fun h => ?_
  rcases h3.1 h.symm q hq with h | h
  · exact irrational_sqrt_two ⟨q, h⟩
  · exact irrational_sqrt_two ⟨-q, by rw [Rat.cast_neg, h, neg_neg]⟩

/-- **C116 (exact numbers: `Σ x²`).** -/
theorem C116_square_summ_real (v : List ℝ) : 0 ≤ squareSumm v ∧ (squareSumm v = 0 ↔ ∀ x ∈ v, x = 0) := by
  have e : squareSumm v = (v.map fun x => x * x).sum := by
    unfold squareSumm
    rw [fold_sum (fun x => x * x), zero_add]
  obtain ⟨h1, h2⟩ := sum_zero_iff (term := fun x => x * x) (fun x => mul_self_nonneg x) v
  refine ⟨by rw [e]; exact h1, ?_⟩
  rw [e, h2]
  exact forall₂_congr fun x _ => mul_self_eq_zero

/-- **C116 (exact numbers: `Σ sin x / x`).** The value is at most the dimension, with equality exactly when every coordinate is closer to zero than the constant
`Eps`: the maximum is not attained at the origin alone. -/
theorem C116_difraction_real (v : List ℝ) : difraction realLib v ≤ v.length ∧ (difraction realLib v = v.length ↔ ∀ x ∈ v, |x| < 1 / 10 ^ 10) := by
  set term : ℝ → ℝ := fun x => if |x| < 1 / 10 ^ 10 then 1 else Real.sin x / x with hterm
  have hle : ∀ x, term x ≤ 1 ∧ (term x = 1 ↔ |x| < 1 / 10 ^ 10) := by
    intro x
    simp only [hterm]
    split_ifs with h
    · exact ⟨le_refl _, iff_of_true rfl h⟩
    · have hx : 0 < |x| := lt_of_lt_of_le (by norm_num) (not_lt.1 h)
      have hx0 : x ≠ 0 := abs_pos.1 hx
      have hlt : Real.sin x / x < 1 := by
        rcases lt_or_gt_of_ne hx0 with h1 | h1
        · rw [div_lt_one_of_neg h1]
          have := Real.sin_lt (x := -x) (by linarith)
          rw [Real.sin_neg] at this
          linarith
        · rw [div_lt_one h1]
          exact Real.sin_lt h1
      exact ⟨hlt.le, iff_of_false hlt.ne h⟩
  have e : difraction realLib v = (v.map term).sum := by
    have := fold_sum term v 0
    rw [zero_add] at this
    exact this
  rw [e]
  clear e
  induction v with
  | nil => simp
  | cons x v ih =>
    obtain ⟨h1, h2⟩ := ih
    obtain ⟨h3, h4⟩ := hle x
    rw [List.map_cons, List.sum_cons, List.length_cons, List.forall_mem_cons, ← h2, ← h4]
    push_cast
    refine ⟨by linarith, ?_⟩
    constructor
    · intro h
      exact ⟨by linarith, by linarith⟩
    · rintro ⟨h5, h6⟩
      linarith

/-- **C116 (the solution that is none).** The last test function has the value 0 at the origin, the solution the example declares; that is a strict local
minimum, but the function takes values below -2000 within the bounds of the example's optimizers, and has no minimum at all. -/
theorem C116_multiminimum : (Kind.multiminimum).call realLib [0, 0] = .ok 0 ∧
    (∀ x y, |x| < 1 / 2 → |y| < 1 → 0 ≤ multiminimum realLib x y ∧ (multiminimum realLib x y = 0 ↔ x = 0 ∧ y = 0)) ∧
    (∃ x y, x ∈ Set.Icc (-1000 : ℝ) 1000 ∧ y ∈ Set.Icc (-1000 : ℝ) 1000 ∧ multiminimum realLib x y < -2000) ∧
    ∀ B, ∃ x y, multiminimum realLib x y < B := by
  have val : ∀ x y, multiminimum realLib x y = x * Real.sin (4 * x) + 11 / 10 * y * Real.sin (2 * y) := fun x y => rfl
  have key : ∀ (a x : ℝ), 0 < a → a * |x| < 2 → 0 ≤ x * Real.sin (a * x) ∧ (x * Real.sin (a * x) = 0 ↔ x = 0) := by
    intro a x ha hx
    have pos : ∀ z : ℝ, 0 < z → a * z < 2 → 0 < z * Real.sin (a * z) := fun z hz h =>
      mul_pos hz (Real.sin_pos_of_pos_of_lt_pi (mul_pos ha hz) (lt_trans h (by linarith [Real.pi_gt_three])))
    rcases lt_trichotomy x 0 with h | rfl | h
    · rw [abs_of_neg h] at hx
      have := pos (-x) (by linarith) hx
      rw [mul_neg, Real.sin_neg, neg_mul_neg] at this
      exact ⟨this.le, iff_of_false this.ne' h.ne⟩
    · simp
    · rw [abs_of_pos h] at hx
      have := pos x h hx
      exact ⟨this.le, iff_of_false this.ne' h.ne'⟩
  have hsin : ∀ k : ℕ, Real.sin (3 * Real.pi / 2 + k * (2 * Real.pi)) = -1 := by
    intro k
    rw [Real.sin_add_nat_mul_two_pi, show 3 * Real.pi / 2 = Real.pi / 2 + Real.pi by ring, Real.sin_add_pi, Real.sin_pi_div_two]
  have low : ∀ k m : ℕ, multiminimum realLib (3 * Real.pi / 8 + k * Real.pi / 2) (3 * Real.pi / 4 + m * Real.pi) =
      -(3 * Real.pi / 8 + k * Real.pi / 2) - 11 / 10 * (3 * Real.pi / 4 + m * Real.pi) := by
    intro k m
    rw [val, show 4 * (3 * Real.pi / 8 + k * Real.pi / 2) = 3 * Real.pi / 2 + k * (2 * Real.pi) by ring,
      show 2 * (3 * Real.pi / 4 + m * Real.pi) = 3 * Real.pi / 2 + m * (2 * Real.pi) by ring, hsin, hsin]
    ring
  refine ⟨?_, ?_, ?_, ?_⟩
  · show Res.ok (multiminimum realLib 0 0) = _
    rw [val]
    norm_num
  · intro x y hx hy
    obtain ⟨h1, h2⟩ := key 4 x (by norm_num) (by linarith)
    obtain ⟨h3, h4⟩ := key 2 y (by norm_num) (by linarith)
    rw [val, mul_assoc (11 / 10 : ℝ)]
    refine ⟨by linarith, ?_⟩
    rw [← h2, ← h4]
    constructor
    · intro h
      exact ⟨by linarith, by linarith⟩
    · rintro ⟨h5, h6⟩
      rw [h5, h6]
      norm_num
  · have h1 := Real.pi_gt_d2
    have h2 := Real.pi_lt_d2
    refine ⟨3 * Real.pi / 8 + (634 : ℕ) * Real.pi / 2, 3 * Real.pi / 4 + (316 : ℕ) * Real.pi, ⟨?_, ?_⟩, ⟨?_, ?_⟩, ?_⟩
    · push_cast; linarith
    · push_cast; linarith
    · push_cast; linarith
    · push_cast; linarith
    · rw [low]
      push_cast
      linarith
  · intro B
    obtain ⟨k, hk⟩ := exists_nat_gt (-B)
    refine ⟨_, _, lt_of_eq_of_lt (low k 0) ?_⟩
    have h1 := Real.pi_gt_three
    have h0 : (0 : ℝ) ≤ k := Nat.cast_nonneg k
    push_cast
    nlinarith

/-- **C116 (clones).** A clone computes the same function as the original, except for the diffraction function. -/
theorem C116_clone (k : Kind) : (∀ v, k.clone.call realLib v = k.call realLib v) ↔ k ≠ .difraction := by
  constructor
  · rintro h rfl
    have h1 := h [0]
    have h2 : simpleSquare [(0 : ℝ)] = difraction realLib [0] := Res.ok.inj h1
    have h3 : difraction realLib [0] = 1 := by
      show (0 : ℝ) + (if |(0 : ℝ)| < 1 / 10 ^ 10 then 1 else Real.sin 0 / 0) = 1
      rw [if_pos (by rw [abs_zero]; norm_num), zero_add]
    rw [h3] at h2
    unfold simpleSquare at h2
    norm_num at h2
  · intro h v
    cases k <;> first | rfl | exact absurd rfl h

open Tasks in
theorem each_mem {α β : Type} {f : α → Res β} : ∀ {as : List α} {bs : List β}, each f as = .ok bs → ∀ b ∈ bs, ∃ a ∈ as, f a = .ok b
  | [], bs, h, b, hb => by
    cases h
    cases hb
  | a :: as, bs, h, b, hb => by
    unfold each at h
    obtain ⟨x, hx, h⟩ := Res.bind_eq_ok.1 h
    obtain ⟨xs, hxs, h⟩ := Res.bind_eq_ok.1 h
    cases h
    rcases List.mem_cons.1 hb with rfl | hb
    · exact ⟨a, by simp, hx⟩
    · obtain ⟨a', ha', e⟩ := each_mem hxs b hb
      exact ⟨a', by simp [ha'], e⟩

open Tasks in
/-- **C116 (multi-start).** Multi-start optimization of the diffraction function returns parameters found by optimizing the other function,
`Σ (x²-2)²`, from one of the given points; where the clone is a copy it is that of C82. -/
theorem C116_multi_start {P : Type} (e : Env) (o : Optimizer) (ps : List (Pars P)) (maximize : Bool) :
    (∀ v, Kind.difraction.call realLib v = .ok (difraction realLib v) ∧ Kind.difraction.clone.call realLib v = .ok (simpleSquare v)) ∧
    (∀ f : Fn P, process e o f f ps maximize = Tasks.process e o f ps maximize) ∧
    ∀ r, process e o (.cont (difraction realLib)) (.cont simpleSquare) ps maximize = .ok r →
      ∃ p ∈ ps, ∃ m m', o.clone = .ok m ∧ m.optimize e (.cont simpleSquare) p maximize = .ok (r, m') := by
  refine ⟨fun v => ⟨rfl, rfl⟩, fun f => rfl, fun r h => ?_⟩
  unfold process at h
  obtain ⟨tasks, ht, h⟩ := Res.bind_eq_ok.1 h
  obtain ⟨performed, hp, h⟩ := Res.bind_eq_ok.1 h
  obtain ⟨values, hv, h⟩ := Res.bind_eq_ok.1 h
  split at h
  · cases h
  · rename_i v vs
    split at h
    · rename_i x hx
      cases h
      obtain ⟨t, htm, htp⟩ := each_mem hp x (List.mem_of_getElem? hx)
      obtain ⟨p, hpm, hpt⟩ := each_mem ht t htm
      unfold Task.new at hpt
      obtain ⟨m, hm, hpt⟩ := Res.bind_eq_ok.1 hpt
      cases hpt
      unfold Task.perform at htp
      obtain ⟨y, hy, htp⟩ := Res.bind_eq_ok.1 htp
      cases htp
      exact ⟨p, hpm, m, y.2, hm, hy⟩
    · cases h

end Real

/-! ## Concrete cases -/

section Examples
open Flt IeeeGradient IeeeRosenbrock

/-- A stand-in for the sine: its third-order approximation near zero. -/
def sin64 (x : Flt binary64) : Flt binary64 :=
  match x.val with
  | .num q => if |q| ≤ 1 then f64 (q * (1 - q * q / 6)) else 0
  | _ => nanF

/-- A library in `double`. -/
def lib64 : Lib (Flt binary64) := ⟨abs64, sin64, f64 (1 / 10 ^ 10), f64 (11 / 10), sqrt2⟩

theorem lib64_good : lib64.Good where
  abs_nan := by decide +kernel
  abs_num := by
    intro x q h
    show (abs64 x).val = _
    unfold abs64
    rcases lt_or_ge q 0 with hq | hq
    · rw [if_pos (by
        show x.val < (0 : Flt binary64).val
        rw [h, val_zero]
        exact decide_eq_true hq), abs_of_neg hq, neg_val, h]
      rfl
    · rw [if_neg (Flt.not_lt_of_le (num_le_of val_zero h hq)), abs_of_nonneg hq]
      exact h
  abs_inf := by
    intro x s h
    have : x = rnd (.inf s) := ext h
    subst this
    revert s
    decide +kernel
  sin_num := by
    intro x q h
    have e : lib64.sin x = if |q| ≤ 1 then f64 (q * (1 - q * q / 6)) else 0 := by
      show sin64 x = _
      unfold sin64
      rw [h]
    rw [e]
    split_ifs with h1
    · obtain ⟨r1, r2⟩ := Finite.repr h
      have hq : q * q ≤ 1 := by
        rw [← abs_mul_abs_self]
        exact mul_le_one₀ h1 (abs_nonneg _) h1
      have hle : |q * (1 - q * q / 6)| ≤ |q| := by
        rw [abs_mul]
        refine mul_le_of_le_one_right (abs_nonneg _) ?_
        rw [abs_le]
        constructor <;> nlinarith [mul_self_nonneg q]
      have h2 := fl_abs_le (F := binary64) (by rw [← fl_abs, r1]) hle
      refine ⟨binary64.fl (q * (1 - q * q / 6)), ?_, h2⟩
      show binary64.round (.num (q * (1 - q * q / 6))) = _
      simp only [Format.round]
      rw [if_pos (lt_of_le_of_lt h2 r2)]
    · exact ⟨0, val_zero, by rw [abs_zero]; exact abs_nonneg _⟩
  sin_not_finite := by
    intro x h
    show nan (sin64 x)
    unfold sin64
    rcases hx : x.val with _ | s | q
    · exact nan_nanF
    · exact nan_nanF
    · exact absurd ⟨q, hx⟩ h
  eps := rfl
  sqrt2 := rfl

/-- The values at the declared solutions. -/
example : (provider lib64).map (·.solutionValue lib64) = [.ok (f64 (2 ^ 52)), .ok (f64 (1 / 2 ^ 101)), .ok (f64 2), .ok 0, .ok 0] := by decide +kernel

/-- The next smaller `double` is as good as `M_SQRT2`; an infinite coordinate gives 0, NaN gives NaN. -/
example : square lib64 [f64 (6369051672525772 / 2 ^ 52), sqrt2] = f64 (2 ^ 52) ∧ square lib64 [rnd (.inf true), f64 2] = f64 (1 / 2) ∧
    square lib64 [nanF, f64 2] = nanF := by decide +kernel

end Examples

end K52.ExampleFns
