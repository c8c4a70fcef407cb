import Verif.Model.Gradient
import Mathlib.Tactic.Linarith
import Mathlib.Tactic.LinearCombination
import Mathlib.Tactic.FieldSimp
import Mathlib.Tactic.NormNum
import Mathlib.Tactic.Positivity
import Mathlib.Data.Matrix.Mul
import Mathlib.LinearAlgebra.Matrix.DotProduct
import Mathlib.LinearAlgebra.Dimension.Finite
import Mathlib.LinearAlgebra.Dimension.Constructions
import Mathlib.Analysis.SpecialFunctions.Trigonometric.DerivHyp

/-!
# C70 - C72: the conjugate gradient method
-/

namespace K52.Gradient.Cg

open scoped BigOperators
open Matrix

variable {n : Nat}

/-! ## Specification -/

/-- The quadratic function with matrix `A`, linear part `b` and constant `c`. -/
noncomputable def quad (A : Matrix (Fin n) (Fin n) ℝ) (b : Vec n) (c : ℝ) (x : Vec n) : ℝ :=
  1 / 2 * (x ⬝ᵥ A *ᵥ x) + b ⬝ᵥ x + c

/-- Symmetric and definite (positive or negative): the form vanishes at 0 only. -/
structure Definite (A : Matrix (Fin n) (Fin n) ℝ) : Prop where
  symm : A.transpose = A
  ne : ∀ d : Vec n, d ≠ 0 → d ⬝ᵥ A *ᵥ d ≠ 0

/-- Euclidean norm. -/
noncomputable def norm2 (v : Vec n) : ℝ := Real.sqrt (∑ i, v i ^ 2)

/-! ## Basic facts -/

theorem squares_eq (v : Vec n) : squares v = v ⬝ᵥ v := rfl

theorem sqrt_squares (v : Vec n) : Real.sqrt (squares v) = norm2 v := by
  unfold norm2 squares
  congr 1
  exact Finset.sum_congr rfl fun i _ => (sq (v i)).symm

theorem along_eq (p : Vec n) (t : ℝ) (d : Vec n) : along p t d = p + t • d := rfl

theorem dot_A_comm {A : Matrix (Fin n) (Fin n) ℝ} (hA : A.transpose = A) (u v : Vec n) : u ⬝ᵥ A *ᵥ v = v ⬝ᵥ A *ᵥ u := by
  rw [dotProduct_comm, Matrix.dotProduct_mulVec, ← Matrix.mulVec_transpose, hA, dotProduct_comm]

/-- The quadratic function along a line. -/
theorem quad_along {A : Matrix (Fin n) (Fin n) ℝ} (hA : A.transpose = A) (b : Vec n) (c : ℝ) (p d : Vec n) (t : ℝ) :
    quad A b c (p + t • d) = quad A b c p + t * (d ⬝ᵥ (A *ᵥ p + b)) + t ^ 2 / 2 * (d ⬝ᵥ A *ᵥ d) := by
  unfold quad
  have h := dot_A_comm hA p d
  simp only [Matrix.mulVec_add, Matrix.mulVec_smul, dotProduct_add, add_dotProduct, smul_dotProduct, dotProduct_smul,
    smul_eq_mul]
  rw [h, dotProduct_comm b d]
  ring

/-- **C70.** The central differences of a quadratic function are its exact gradient, for every non-zero increment. -/
theorem C70_exact_gradient (A : Matrix (Fin n) (Fin n) ℝ) (hA : A.transpose = A) (b : Vec n) (c h : ℝ) (hh : h ≠ 0) (p : Vec n) :
    gradient (quad A b c) h p = A *ᵥ p + b := by
  funext i
  have hu : ∀ y : ℝ, Function.update p i y = p + (y - p i) • (Pi.single i 1 : Vec n) := by
    intro y
    funext j
    by_cases hj : j = i
    · subst hj
      simp
    · simp [Function.update_of_ne hj, Pi.single_eq_of_ne hj]
  simp only [gradient, derivative]
  rw [hu, hu, quad_along hA, quad_along hA, single_dotProduct]
  field_simp
  ring

/-! ## The exact conjugate gradient recursion -/

/-- Point, gradient and direction of the exact recursion. -/
structure CgState (n : Nat) where
  p : Vec n
  g : Vec n
  d : Vec n

/-- The exact minimising parameter of a quadratic function on a line. -/
noncomputable def exactStep (A : Matrix (Fin n) (Fin n) ℝ) (g d : Vec n) : ℝ := -(d ⬝ᵥ g) / (d ⬝ᵥ A *ᵥ d)

/-- The exact recursion of Fletcher and Reeves with the code's signs. -/
noncomputable def cgSeq (A : Matrix (Fin n) (Fin n) ℝ) (b p₀ : Vec n) : Nat → CgState n
  | 0 => ⟨p₀, A *ᵥ p₀ + b, A *ᵥ p₀ + b⟩
  | k + 1 =>
    let s := cgSeq A b p₀ k
    let p' := s.p + exactStep A s.g s.d • s.d
    let g' := A *ᵥ p' + b
    ⟨p', g', g' + ((g' ⬝ᵥ g') / (s.g ⬝ᵥ s.g)) • s.d⟩

section Seq

variable {A : Matrix (Fin n) (Fin n) ℝ} (hA : Definite A) (b p₀ : Vec n)

theorem seq_g (k : Nat) : (cgSeq A b p₀ k).g = A *ᵥ (cgSeq A b p₀ k).p + b := by
  cases k <;> rfl

theorem seq_g_succ (k : Nat) : (cgSeq A b p₀ (k + 1)).g =
    (cgSeq A b p₀ k).g + exactStep A (cgSeq A b p₀ k).g (cgSeq A b p₀ k).d • (A *ᵥ (cgSeq A b p₀ k).d) := by
  have h := seq_g (A := A) b p₀ k
  rw [seq_g b p₀ (k + 1)]
  simp only [cgSeq]
  rw [Matrix.mulVec_add, Matrix.mulVec_smul]
  generalize exactStep A (cgSeq A b p₀ k).g (cgSeq A b p₀ k).d • (A *ᵥ (cgSeq A b p₀ k).d) = z
  rw [h]
  abel

theorem seq_d_succ (k : Nat) : (cgSeq A b p₀ (k + 1)).d = (cgSeq A b p₀ (k + 1)).g +
    (((cgSeq A b p₀ (k + 1)).g ⬝ᵥ (cgSeq A b p₀ (k + 1)).g) / ((cgSeq A b p₀ k).g ⬝ᵥ (cgSeq A b p₀ k).g)) •
      (cgSeq A b p₀ k).d := rfl

theorem dot_self_ne {v : Vec n} (h : v ≠ 0) : v ⬝ᵥ v ≠ 0 := fun h0 => h (dotProduct_self_eq_zero.1 h0)

/-- What is known about step `m`. -/
structure Orth (A : Matrix (Fin n) (Fin n) ℝ) (G D : Nat → Vec n) (m : Nat) : Prop where
  gg : ∀ j < m, G m ⬝ᵥ G j = 0
  dd : ∀ j < m, D m ⬝ᵥ A *ᵥ D j = 0
  gd : ∀ j < m, G m ⬝ᵥ D j = 0
  self : D m ⬝ᵥ G m = G m ⬝ᵥ G m

omit b p₀ in
include hA in
/-- Orthogonality of the gradients and conjugacy of the directions, as long as no gradient vanishes. -/
theorem orth (G D : Nat → Vec n) (x β : Nat → ℝ) (h0 : D 0 = G 0) (hG : ∀ k, G (k + 1) = G k + x k • (A *ᵥ D k))
    (hD : ∀ k, D (k + 1) = G (k + 1) + β k • D k) (hx : ∀ k, x k = -(D k ⬝ᵥ G k) / (D k ⬝ᵥ A *ᵥ D k))
    (hβ : ∀ k, β k = (G (k + 1) ⬝ᵥ G (k + 1)) / (G k ⬝ᵥ G k)) (k : Nat) (hne : ∀ j ≤ k, G j ≠ 0) :
    ∀ m ≤ k, Orth A G D m := by
  induction k with
  | zero =>
    intro m hm
    obtain rfl : m = 0 := by omega
    exact ⟨fun j h => by omega, fun j h => by omega, fun j h => by omega, by rw [h0]⟩
  | succ k ih =>
    have ih := ih fun j hj => hne j (by omega)
    intro m hm
    rcases Nat.lt_or_ge k m with hlt | hle
    swap
    · exact ih m hle
    obtain rfl : m = k + 1 := by omega
    have hs : ∀ u v : Vec n, u ⬝ᵥ A *ᵥ v = v ⬝ᵥ A *ᵥ u := dot_A_comm hA.symm
    have hgn : ∀ j ≤ k, G j ⬝ᵥ G j ≠ 0 := fun j hj => dot_self_ne (hne j (by omega))
    have hdn : ∀ j ≤ k, D j ⬝ᵥ A *ᵥ D j ≠ 0 := by
      intro j hj
      apply hA.ne
      intro h
      have := (ih j hj).self
      rw [h, zero_dotProduct] at this
      exact hgn j hj this.symm
    have hxn : ∀ j ≤ k, x j * (D j ⬝ᵥ A *ᵥ D j) = -(G j ⬝ᵥ G j) := by
      intro j hj
      rw [hx, (ih j hj).self]
      have := hdn j hj
      field_simp
    have hx0 : ∀ j ≤ k, x j ≠ 0 := by
      intro j hj h
      have := hxn j hj
      rw [h, zero_mul] at this
      exact hgn j hj (by linarith)
    -- gradient against earlier directions
    have gd : ∀ j < k + 1, G (k + 1) ⬝ᵥ D j = 0 := by
      intro j hj
      rw [hG, add_dotProduct, smul_dotProduct, dotProduct_comm (A *ᵥ D k) (D j), smul_eq_mul]
      by_cases hjk : j = k
      · subst hjk
        rw [hxn j le_rfl, dotProduct_comm, (ih j le_rfl).self]
        ring
      · rw [(ih k le_rfl).gd j (by omega), hs, (ih k le_rfl).dd j (by omega)]
        ring
    have gg : ∀ j < k + 1, G (k + 1) ⬝ᵥ G j = 0 := by
      intro j hj
      cases j with
      | zero => rw [← h0]; exact gd 0 hj
      | succ j =>
        have : G (j + 1) = D (j + 1) - β j • D j := by rw [hD]; abel
        rw [this, dotProduct_sub, dotProduct_smul, gd _ hj, gd j (by omega)]
        simp
    have hAd : ∀ j ≤ k, x j * (G (k + 1) ⬝ᵥ A *ᵥ D j) = G (k + 1) ⬝ᵥ G (j + 1) - G (k + 1) ⬝ᵥ G j := by
      intro j _
      rw [hG j, dotProduct_add, dotProduct_smul, smul_eq_mul]
      ring
    refine ⟨gg, ?_, gd, ?_⟩
    · intro j hj
      rw [hD, add_dotProduct, smul_dotProduct, smul_eq_mul]
      by_cases hjk : j = k
      · subst hjk
        have h1 := hAd j le_rfl
        rw [gg j hj, sub_zero] at h1
        have h2 := hxn j le_rfl
        have h3 := hgn j le_rfl
        have h4 := hx0 j le_rfl
        apply mul_left_cancel₀ h4
        rw [mul_add, h1, mul_zero, mul_left_comm, h2, hβ]
        field_simp
        ring
      · have h1 := hAd j (by omega)
        rw [gg j hj, gg (j + 1) (by omega), sub_zero] at h1
        rcases mul_eq_zero.1 h1 with h | h
        · exact absurd h (hx0 j (by omega))
        · rw [h, (ih k le_rfl).dd j (by omega)]
          ring
    · rw [hD, add_dotProduct, smul_dotProduct, dotProduct_comm (D k), gd k (by omega), smul_zero, add_zero]

include hA in
theorem seq_orth (k : Nat) (hne : ∀ j ≤ k, (cgSeq A b p₀ j).g ≠ 0) :
    ∀ m ≤ k, Orth A (fun j => (cgSeq A b p₀ j).g) (fun j => (cgSeq A b p₀ j).d) m :=
  orth hA (fun j => (cgSeq A b p₀ j).g) (fun j => (cgSeq A b p₀ j).d) (fun j => exactStep A (cgSeq A b p₀ j).g (cgSeq A b p₀ j).d)
    (fun j => ((cgSeq A b p₀ (j + 1)).g ⬝ᵥ (cgSeq A b p₀ (j + 1)).g) / ((cgSeq A b p₀ j).g ⬝ᵥ (cgSeq A b p₀ j).g))
    rfl (seq_g_succ b p₀) (seq_d_succ b p₀) (fun _ => rfl) (fun _ => rfl) k hne

/-- At most `n` gradients are non-zero. -/
theorem card_orth (G : Nat → Vec n) (k : Nat) (hne : ∀ j ≤ k, G j ≠ 0) (ho : ∀ i ≤ k, ∀ j < i, G i ⬝ᵥ G j = 0) : k < n := by
  have ho' : ∀ i ≤ k, ∀ j ≤ k, i ≠ j → G i ⬝ᵥ G j = 0 := by
    intro i hi j hj hij
    rcases Nat.lt_or_gt_of_ne hij with h | h
    · rw [dotProduct_comm]; exact ho j hj i h
    · exact ho i hi j h
  have hli : LinearIndependent ℝ fun i : Fin (k + 1) => G i := by
    rw [Fintype.linearIndependent_iff]
    intro c hc i
    have h1 := congrArg (fun v => v ⬝ᵥ G i) hc
    simp only [sum_dotProduct, smul_dotProduct, zero_dotProduct, smul_eq_mul] at h1
    rw [Finset.sum_eq_single i] at h1
    · rcases mul_eq_zero.1 h1 with h | h
      · exact h
      · exact absurd h (dot_self_ne (hne i (by omega)))
    · intro j _ hji
      rw [ho' j (by omega) i (by omega) (fun h => hji (Fin.ext h)), mul_zero]
    · intro h
      exact absurd (Finset.mem_univ i) h
  have := hli.fintype_card_le_finrank
  simp at this
  omega

end Seq

/-! ## The code follows the recursion -/

theorem lineSearch_quad_succ (cfg : Config) (hh : cfg.increment ≠ 0) {A : Matrix (Fin n) (Fin n) ℝ} (hA : A.transpose = A)
    (b : Vec n) (c : ℝ) (p d : Vec n) (hd : d ⬝ᵥ A *ᵥ d ≠ 0) (k : Nat) (x : ℝ) :
    lineSearch cfg (quad A b c) p d (k + 1) x =
      if |x - exactStep A (A *ᵥ p + b) d| > cfg.precision then
        lineSearch cfg (quad A b c) p d k (exactStep A (A *ᵥ p + b) d)
      else some (.finite (exactStep A (A *ᵥ p + b) d)) := by
  have hsecond : (quad A b c (along p (x + cfg.increment / 2) d) - 2 * quad A b c (along p x d) +
      quad A b c (along p (x - cfg.increment / 2) d)) / (cfg.increment * cfg.increment / 4) = d ⬝ᵥ A *ᵥ d := by
    simp only [along_eq, quad_along hA]
    field_simp
    ring
  have hfirst : (quad A b c (along p (x + cfg.increment / 2) d) - quad A b c (along p (x - cfg.increment / 2) d)) /
      cfg.increment = d ⬝ᵥ (A *ᵥ p + b) + x * (d ⬝ᵥ A *ᵥ d) := by
    simp only [along_eq, quad_along hA]
    field_simp
    ring
  have hstep : x - (d ⬝ᵥ (A *ᵥ p + b) + x * (d ⬝ᵥ A *ᵥ d)) / (d ⬝ᵥ A *ᵥ d) = exactStep A (A *ᵥ p + b) d := by
    unfold exactStep
    field_simp
    ring
  conv_lhs => unfold lineSearch
  simp only
  rw [hsecond, hfirst, if_neg hd, hstep]

theorem lineSearch_quad (cfg : Config) (hp : 0 ≤ cfg.precision) (hh : cfg.increment ≠ 0) {A : Matrix (Fin n) (Fin n) ℝ}
    (hA : A.transpose = A) (b : Vec n) (c : ℝ) (p d : Vec n) (hd : d ⬝ᵥ A *ᵥ d ≠ 0) (k : Nat) :
    lineSearch cfg (quad A b c) p d (k + 2) 0 = some (.finite (exactStep A (A *ᵥ p + b) d)) := by
  rw [lineSearch_quad_succ cfg hh hA b c p d hd, lineSearch_quad_succ cfg hh hA b c p d hd]
  rw [sub_self, abs_zero, if_neg (not_lt.2 hp), ite_self]

theorem isZero_false {x : ℝ} (h : 1 / 10 ^ 10 ≤ x) : FloatingPoint.isZero x = false := by
  unfold FloatingPoint.isZero FloatingPoint.areEqual FloatingPoint.eps
  rw [sub_zero, decide_eq_false_iff_not, not_lt, abs_of_nonneg (le_trans (by norm_num) h)]
  exact h

theorem norm2_sq (v : Vec n) : norm2 v ^ 2 = squares v := by
  rw [← sqrt_squares, Real.sq_sqrt]
  exact Finset.sum_nonneg fun i _ => mul_self_nonneg _

theorem big_of_norm {cfg : Config} (hp : 1 / 10 ^ 5 ≤ cfg.precision) {v : Vec n} (h : cfg.precision ≤ norm2 v) :
    1 / 10 ^ 10 ≤ squares v := by
  rw [← norm2_sq]
  have h0 : (0 : ℝ) < 1 / 10 ^ 5 := by norm_num
  have h1 : ((1 : ℝ) / 10 ^ 5) ^ 2 ≤ norm2 v ^ 2 := pow_le_pow_left₀ h0.le (by linarith) 2
  norm_num at h1 ⊢
  linarith

theorem ne_of_big {v : Vec n} (h : 1 / 10 ^ 10 ≤ squares v) : v ≠ 0 := by
  rintro rfl
  simp [squares] at h
  norm_num at h

/-- The outer loop from step `k` on: it ends within the dimension, at a point of the recursion. -/
theorem outer_quad (cfg : Config) (hp : 1 / 10 ^ 5 ≤ cfg.precision) (hh : cfg.increment ≠ 0) {A : Matrix (Fin n) (Fin n) ℝ}
    (hA : Definite A) (b : Vec n) (c : ℝ) (p₀ : Vec n) (m : Nat) :
    ∀ k, k + m = n → (∀ j ≤ k, 1 / 10 ^ 10 ≤ squares (cgSeq A b p₀ j).g) → ∀ prev w,
      nextDirection (cgSeq A b p₀ k).g prev w (k + 1) = (cgSeq A b p₀ k).d →
      ∃ K, k < K ∧ K ≤ n ∧ (∀ j < K, 1 / 10 ^ 10 ≤ squares (cgSeq A b p₀ j).g) ∧
        (norm2 (cgSeq A b p₀ K).g < cfg.precision ∨ K + 1 = cfg.iterations) ∧
        ∀ fuel ≥ m + 3, outer cfg (quad A b c) fuel (cgSeq A b p₀ k).p (cgSeq A b p₀ k).g prev w (k + 1) =
          some (.found (cgSeq A b p₀ K).p) := by
  have hp0 : 0 ≤ cfg.precision := le_trans (by norm_num) hp
  induction m with
  | zero =>
    intro k hk hbig prev w _
    have hne : ∀ j ≤ k, (cgSeq A b p₀ j).g ≠ 0 := fun j hj => ne_of_big (hbig j hj)
    have := card_orth (fun j => (cgSeq A b p₀ j).g) k hne fun i hi j hj => (seq_orth hA b p₀ k hne i hi).gg j hj
    omega
  | succ m ih =>
    intro k hk hbig prev w hdir
    have hne : ∀ j ≤ k, (cgSeq A b p₀ j).g ≠ 0 := fun j hj => ne_of_big (hbig j hj)
    have ho := seq_orth hA b p₀ k hne k le_rfl
    have hdn : (cgSeq A b p₀ k).d ⬝ᵥ A *ᵥ (cgSeq A b p₀ k).d ≠ 0 := by
      apply hA.ne
      intro h
      have := ho.self
      simp only [h, zero_dotProduct] at this
      exact dot_self_ne (hne k le_rfl) this.symm
    have hstep : ∀ fuel ≥ 2, outer cfg (quad A b c) (fuel + 1) (cgSeq A b p₀ k).p (cgSeq A b p₀ k).g prev w (k + 1) =
        if k + 1 + 1 = cfg.iterations then some (.found (cgSeq A b p₀ (k + 1)).p)
        else if Real.sqrt (squares (cgSeq A b p₀ (k + 1)).g) ≥ cfg.precision then
          outer cfg (quad A b c) fuel (cgSeq A b p₀ (k + 1)).p (cgSeq A b p₀ (k + 1)).g (cgSeq A b p₀ k).d
            (squares (cgSeq A b p₀ (k + 1)).g / squares (cgSeq A b p₀ k).g) (k + 1 + 1)
        else some (.found (cgSeq A b p₀ (k + 1)).p) := by
      intro fuel hf
      obtain ⟨fuel, rfl⟩ : ∃ j, fuel = j + 2 := ⟨fuel - 2, by omega⟩
      conv_lhs => unfold outer
      simp only [hdir]
      rw [lineSearch_quad cfg hp0 hh hA.symm b c _ _ hdn, ← seq_g b p₀ k]
      simp only
      rw [isZero_false (hbig k le_rfl)]
      simp only [Bool.false_eq_true, if_false]
      rw [C70_exact_gradient A hA.symm b c _ hh]
      rfl
    have hfuel : ∀ fuel ≥ m + 1 + 3, ∃ f', fuel = f' + 1 ∧ f' ≥ m + 3 := fun fuel hf => ⟨fuel - 1, by omega, by omega⟩
    by_cases hlim : k + 1 + 1 = cfg.iterations
    · refine ⟨k + 1, by omega, by omega, fun j hj => hbig j (by omega), Or.inr hlim, fun fuel hf => ?_⟩
      obtain ⟨f', rfl, hf'⟩ := hfuel fuel hf
      rw [hstep f' (by omega), if_pos hlim]
    · by_cases hge : Real.sqrt (squares (cgSeq A b p₀ (k + 1)).g) ≥ cfg.precision
      · have hbig' : ∀ j ≤ k + 1, 1 / 10 ^ 10 ≤ squares (cgSeq A b p₀ j).g := by
          intro j hj
          rcases Nat.lt_or_ge j (k + 1) with h | h
          · exact hbig j (by omega)
          · obtain rfl : j = k + 1 := by omega
            rw [sqrt_squares] at hge
            exact big_of_norm hp hge
        obtain ⟨K, h1, h2, h3, h4, h5⟩ := ih (k + 1) (by omega) hbig' (cgSeq A b p₀ k).d
          (squares (cgSeq A b p₀ (k + 1)).g / squares (cgSeq A b p₀ k).g) (by
            unfold nextDirection
            rw [if_pos (by omega)]
            rfl)
        refine ⟨K, by omega, h2, h3, h4, fun fuel hf => ?_⟩
        obtain ⟨f', rfl, hf'⟩ := hfuel fuel hf
        rw [hstep f' (by omega), if_neg hlim, if_pos hge]
        exact h5 f' hf'
      · refine ⟨k + 1, by omega, by omega, fun j hj => hbig j (by omega), Or.inl ?_, fun fuel hf => ?_⟩
        · rw [← sqrt_squares]
          exact not_le.1 hge
        · obtain ⟨f', rfl, hf'⟩ := hfuel fuel hf
          rw [hstep f' (by omega), if_neg hlim, if_neg hge]

/-- On a positive definite quadratic the values of the recursion decrease. -/
theorem seq_descent {A : Matrix (Fin n) (Fin n) ℝ} (hA : Definite A) (hpos : ∀ d : Vec n, d ≠ 0 → 0 < d ⬝ᵥ A *ᵥ d) (b : Vec n)
    (c : ℝ) (p₀ : Vec n) (K : Nat) (hbig : ∀ j < K + 1, (cgSeq A b p₀ j).g ≠ 0) :
    quad A b c (cgSeq A b p₀ (K + 1)).p < quad A b c p₀ := by
  have hstep : ∀ k, (∀ j ≤ k, (cgSeq A b p₀ j).g ≠ 0) →
      quad A b c (cgSeq A b p₀ (k + 1)).p < quad A b c (cgSeq A b p₀ k).p := by
    intro k hne
    have ho := seq_orth hA b p₀ k hne k le_rfl
    have hself := ho.self
    have hdn : (cgSeq A b p₀ k).d ≠ 0 := by
      intro h
      simp only [h, zero_dotProduct] at hself
      exact dot_self_ne (hne k le_rfl) hself.symm
    have ha := hpos _ hdn
    have hg := dot_self_ne (hne k le_rfl)
    have e : (cgSeq A b p₀ (k + 1)).p = (cgSeq A b p₀ k).p + exactStep A (cgSeq A b p₀ k).g (cgSeq A b p₀ k).d • (cgSeq A b p₀ k).d := rfl
    rw [e, quad_along hA.symm, ← seq_g]
    unfold exactStep
    rw [hself]
    generalize (cgSeq A b p₀ k).d ⬝ᵥ A *ᵥ (cgSeq A b p₀ k).d = a at *
    generalize (cgSeq A b p₀ k).g ⬝ᵥ (cgSeq A b p₀ k).g = g at *
    have h1 : -g / a * g + (-g / a) ^ 2 / 2 * a = -(g ^ 2 / (2 * a)) := by
      field_simp
      ring
    have h2 : 0 < g ^ 2 / (2 * a) := by positivity
    linarith
  induction K with
  | zero => exact hstep 0 fun j hj => hbig j (by omega)
  | succ K ih => exact lt_trans (hstep (K + 1) fun j hj => hbig j (by omega)) (ih fun j hj => hbig j (by omega))

/-- **C70.** On a quadratic function with symmetric definite matrix, started where the gradient is not (almost) zero and with a
precision of at least `1e-5`, the method returns; unless the iteration limit stops it earlier the gradient at the result is
below the precision, and with a limit above the dimension (or 0 or 1, which mean "no limit") this is always so: conjugate
gradients need at most `n` iterations.  If the matrix is positive definite, the value has decreased.  (A negative definite
matrix is treated the same way: the "minimisation" then ends at the maximum.) -/
theorem C70_quadratic (cfg : Config) (hp : 1 / 10 ^ 5 ≤ cfg.precision) (hh : cfg.increment ≠ 0) (A : Matrix (Fin n) (Fin n) ℝ)
    (hA : Definite A) (b : Vec n) (c : ℝ) (p : Vec n) (hstart : 1 / 10 ^ 10 ≤ ∑ i, (A *ᵥ p + b) i ^ 2) :
    ∃ q, (∀ fuel ≥ n + 3, find cfg (quad A b c) fuel p = some (.found q)) ∧
      (norm2 (A *ᵥ q + b) < cfg.precision ∨ (2 ≤ cfg.iterations ∧ cfg.iterations ≤ n)) ∧
      (cfg.iterations = 0 ∨ cfg.iterations = 1 ∨ n < cfg.iterations → norm2 (A *ᵥ q + b) < cfg.precision) ∧
      ((∀ d : Vec n, d ≠ 0 → 0 < d ⬝ᵥ A *ᵥ d) → quad A b c q < quad A b c p) := by
  have hp0 : 0 < cfg.precision := lt_of_lt_of_le (by norm_num) hp
  have hs : 1 / 10 ^ 10 ≤ squares (cgSeq A b p 0).g := by
    have : squares (cgSeq A b p 0).g = ∑ i, (A *ᵥ p + b) i ^ 2 := Finset.sum_congr rfl fun i _ => (sq _).symm
    rw [this]
    exact hstart
  obtain ⟨K, h1, h2, h3, h4, h5⟩ := outer_quad cfg hp hh hA b c p n 0 (by omega)
    (fun j hj => by obtain rfl : j = 0 := by omega
                    exact hs) (fun _ => 0) 0 (by unfold nextDirection; rw [if_neg (by omega)]; rfl)
  have hconv : norm2 (A *ᵥ (cgSeq A b p K).p + b) < cfg.precision ∨ (2 ≤ cfg.iterations ∧ cfg.iterations ≤ n) := by
    rw [← seq_g]
    rcases h4 with h | h
    · exact Or.inl h
    · rcases Nat.lt_or_ge K n with hK | hK
      · exact Or.inr ⟨by omega, by omega⟩
      · left
        have hz : (cgSeq A b p K).g = 0 := by
          by_contra hne
          have hall : ∀ j ≤ K, (cgSeq A b p j).g ≠ 0 := by
            intro j hj
            rcases Nat.lt_or_ge j K with h' | h'
            · exact ne_of_big (h3 j h')
            · obtain rfl : j = K := by omega
              exact hne
          have := card_orth (fun j => (cgSeq A b p j).g) K hall fun i hi j hj => (seq_orth hA b p K hall i hi).gg j hj
          omega
        rw [hz]
        simpa [norm2] using hp0
  refine ⟨(cgSeq A b p K).p, fun fuel hf => ?_, hconv, fun hc => ?_, fun hpos => ?_⟩
  · unfold find
    rw [C70_exact_gradient A hA.symm b c _ hh]
    exact h5 fuel hf
  · rcases hconv with h | h
    · exact h
    · omega
  · obtain ⟨K, rfl⟩ : ∃ j, K = j + 1 := ⟨K - 1, by omega⟩
    exact seq_descent hA hpos b c p K fun j hj => ne_of_big (h3 j hj)

/-! ## C71: results and failures on arbitrary functions -/

/-- **C71.** A returned point has a central-difference gradient below the precision, unless an iteration limit of at least 2 stopped
the method. -/
theorem C71_result (cfg : Config) (f : Vec n → ℝ) (fuel : Nat) (p q : Vec n) (h : find cfg f fuel p = some (.found q)) :
    norm2 (gradient f cfg.increment q) < cfg.precision ∨ 2 ≤ cfg.iterations := by
  have key : ∀ fuel p g d w k, 1 ≤ k → outer cfg f fuel p g d w k = some (.found q) →
      norm2 (gradient f cfg.increment q) < cfg.precision ∨ 2 ≤ cfg.iterations := by
    intro fuel
    induction fuel with
    | zero => intro p g d w k _ h; simp [outer] at h
    | succ fuel ih =>
      intro p g d w k hk h
      unfold outer at h
      simp only at h
      split at h
      · cases h
      · cases h
      · split at h <;> cases h
      · split at h
        · cases h
        · split at h
          · exact Or.inr (by omega)
          · split at h
            · exact ih _ _ _ _ _ (by omega) h
            · next hlt =>
              cases h
              rw [sqrt_squares] at hlt
              exact Or.inl (not_le.1 hlt)
  exact key fuel p _ _ _ 1 le_rfl h

/-- **C71.** Started where all central differences vanish - at an optimum, say - the method throws. -/
theorem C71_stationary_start (cfg : Config) (f : Vec n → ℝ) (p : Vec n)
    (h : ∀ i, f (Function.update p i (p i + cfg.increment / 2)) = f (Function.update p i (p i - cfg.increment / 2)))
    (fuel : Nat) : find cfg f (fuel + 2) p = some .error := by
  have hg : gradient f cfg.increment p = fun _ => 0 := by
    funext i
    simp [gradient, derivative, h i]
  have ha : ∀ t, along p t (fun _ => 0) = p := by
    intro t
    funext i
    simp [along]
  unfold find outer
  simp only [hg]
  have hd : nextDirection (fun _ => 0 : Vec n) (fun _ => 0) 0 1 = fun _ => 0 := by
    unfold nextDirection
    rw [if_neg (by omega)]
  rw [hd]
  unfold lineSearch
  simp only [ha]
  have hz : (f p - 2 * f p + f p) / (cfg.increment * cfg.increment / 4) = 0 := by
    rw [show f p - 2 * f p + f p = 0 by ring, zero_div]
  rw [hz]
  simp [squares, FloatingPoint.isZero, FloatingPoint.areEqual, FloatingPoint.eps]

/-- **C71.** Started where the sum of the squared central differences is below `1e-10` - that is, almost at an optimum - the method
never returns a point. -/
theorem C71_almost_stationary (cfg : Config) (f : Vec n → ℝ) (p : Vec n)
    (h : ∑ i, gradient f cfg.increment p i ^ 2 < 1 / 10 ^ 10) (fuel : Nat) (q : Vec n) : find cfg f fuel p ≠ some (.found q) := by
  have hz : FloatingPoint.isZero (squares (gradient f cfg.increment p)) = true := by
    have e : squares (gradient f cfg.increment p) = ∑ i, gradient f cfg.increment p i ^ 2 :=
      Finset.sum_congr rfl fun i _ => (sq _).symm
    have h0 : 0 ≤ ∑ i, gradient f cfg.increment p i ^ 2 := Finset.sum_nonneg fun i _ => sq_nonneg _
    unfold FloatingPoint.isZero FloatingPoint.areEqual FloatingPoint.eps
    rw [e, sub_zero, decide_eq_true_eq, abs_of_nonneg h0]
    exact h
  intro hf
  unfold find at hf
  cases fuel with
  | zero => simp [outer] at hf
  | succ fuel =>
    unfold outer at hf
    simp only [hz, if_true] at hf
    split at hf <;> cases hf

/-! ## C72: the iteration limit -/

/-- **C72.** The limits 0 and 1 both mean "no limit": the method behaves identically. -/
theorem C72_limit_one_is_none (precision increment : ℝ) (f : Vec n → ℝ) (fuel : Nat) (p : Vec n) :
    find ⟨precision, increment, 1⟩ f fuel p = find ⟨precision, increment, 0⟩ f fuel p := by
  have hline : ∀ fuel p d x, lineSearch ⟨precision, increment, 1⟩ f p d fuel x = lineSearch ⟨precision, increment, 0⟩ f p d fuel x := by
    intro fuel
    induction fuel with
    | zero => intros; rfl
    | succ k ih => intro p d x; unfold lineSearch; simp only [ih]
  have key : ∀ fuel p g d w k, 1 ≤ k →
      outer ⟨precision, increment, 1⟩ f fuel p g d w k = outer ⟨precision, increment, 0⟩ f fuel p g d w k := by
    intro fuel
    induction fuel with
    | zero => intros; rfl
    | succ fuel ih =>
      intro p g d w k hk
      unfold outer
      simp only [hline]
      split
      · rfl
      · rfl
      · rfl
      · rw [if_neg (show ¬ k + 1 = 1 by omega), if_neg (show ¬ k + 1 = 0 by omega), ih _ _ _ _ _ (by omega)]
  exact key fuel p _ _ _ 1 le_rfl

/-- A limit `N ≥ 2` allows at most `N - 1` rounds: if every one-dimensional search ends, so does the method. -/
theorem C72_limit (cfg : Config) (hN : 2 ≤ cfg.iterations) (f : Vec n → ℝ)
    (hl : ∀ p d : Vec n, ∃ fuel₀ r, ∀ fuel ≥ fuel₀, lineSearch cfg f p d fuel 0 = some r) (p : Vec n) :
    ∃ fuel₀ r, ∀ fuel ≥ fuel₀, find cfg f fuel p = some r := by
  have key : ∀ m p g d w k, k + 1 + m = cfg.iterations → ∃ fuel₀ r, ∀ fuel ≥ fuel₀, outer cfg f fuel p g d w k = some r := by
    intro m
    induction m with
    | zero =>
      intro p g d w k hk
      obtain ⟨n₀, r, hr⟩ := hl p (nextDirection g d w k)
      cases r with
      | inf =>
        refine ⟨n₀ + 1, .nonfinite, fun fuel hf => ?_⟩
        obtain ⟨fuel, rfl⟩ : ∃ j, fuel = j + 1 := ⟨fuel - 1, by omega⟩
        unfold outer
        simp only [hr fuel (by omega)]
      | nan =>
        refine ⟨n₀ + 1, if FloatingPoint.isZero (squares g) then .error else .nonfinite, fun fuel hf => ?_⟩
        obtain ⟨fuel, rfl⟩ : ∃ j, fuel = j + 1 := ⟨fuel - 1, by omega⟩
        unfold outer
        simp only [hr fuel (by omega)]
        split <;> rfl
      | finite x =>
        refine ⟨n₀ + 1, if FloatingPoint.isZero (squares g) then .error else .found (along p x (nextDirection g d w k)), fun fuel hf => ?_⟩
        obtain ⟨fuel, rfl⟩ : ∃ j, fuel = j + 1 := ⟨fuel - 1, by omega⟩
        unfold outer
        simp only [hr fuel (by omega)]
        rw [if_pos (show k + 1 = cfg.iterations by omega)]
        split <;> rfl
    | succ m ih =>
      intro p g d w k hk
      obtain ⟨n₀, r, hr⟩ := hl p (nextDirection g d w k)
      cases r with
      | inf =>
        refine ⟨n₀ + 1, .nonfinite, fun fuel hf => ?_⟩
        obtain ⟨fuel, rfl⟩ : ∃ j, fuel = j + 1 := ⟨fuel - 1, by omega⟩
        unfold outer
        simp only [hr fuel (by omega)]
      | nan =>
        refine ⟨n₀ + 1, if FloatingPoint.isZero (squares g) then .error else .nonfinite, fun fuel hf => ?_⟩
        obtain ⟨fuel, rfl⟩ : ∃ j, fuel = j + 1 := ⟨fuel - 1, by omega⟩
        unfold outer
        simp only [hr fuel (by omega)]
        split <;> rfl
      | finite x =>
        obtain ⟨n₁, r₁, hr₁⟩ := ih (along p x (nextDirection g d w k))
          (gradient f cfg.increment (along p x (nextDirection g d w k))) (nextDirection g d w k)
          (squares (gradient f cfg.increment (along p x (nextDirection g d w k))) / squares g) (k + 1) (by omega)
        refine ⟨n₀ + n₁ + 1, if FloatingPoint.isZero (squares g) then .error
          else if Real.sqrt (squares (gradient f cfg.increment (along p x (nextDirection g d w k)))) ≥ cfg.precision then r₁
          else .found (along p x (nextDirection g d w k)), fun fuel hf => ?_⟩
        obtain ⟨fuel, rfl⟩ : ∃ j, fuel = j + 1 := ⟨fuel - 1, by omega⟩
        unfold outer
        simp only [hr fuel (by omega)]
        rw [if_neg (show ¬ k + 1 = cfg.iterations by omega), hr₁ fuel (by omega)]
        split
        · rfl
        · split <;> rfl
  exact key (cfg.iterations - 2) p _ _ _ 1 (by omega)

/-- `2 (1 - e^(-v)) ≤ v (1 + e^(-v))` for `v ≥ 0`. -/
theorem exp_bound {v : ℝ} (hv : 0 ≤ v) : 2 * (1 - Real.exp (-v)) ≤ v * (1 + Real.exp (-v)) := by
  have hmono : MonotoneOn (fun v : ℝ => (v - 2) * Real.exp v + v + 2) (Set.Ici 0) := by
    apply monotoneOn_of_deriv_nonneg (convex_Ici 0)
    · fun_prop
    · fun_prop
    · intro x _
      have hd : HasDerivAt (fun v : ℝ => (v - 2) * Real.exp v + v + 2) (1 * Real.exp x + (x - 2) * Real.exp x + 1) x :=
        ((((hasDerivAt_id x).sub_const 2).mul (Real.hasDerivAt_exp x)).add (hasDerivAt_id x)).add_const 2
      rw [hd.deriv]
      have h1 := Real.add_one_le_exp (-x)
      have h2 := Real.exp_pos x
      have h3 : Real.exp (-x) * Real.exp x = 1 := by rw [← Real.exp_add]; simp
      nlinarith
  have h := hmono (Set.mem_Ici.2 le_rfl) (Set.mem_Ici.2 hv) hv
  simp only [Real.exp_zero] at h
  have h3 : Real.exp (-v) * Real.exp v = 1 := by rw [← Real.exp_add]; simp
  have h2 := Real.exp_pos (-v)
  have h4 : 0 ≤ Real.exp (-v) * ((v - 2) * Real.exp v + v + 2) := by
    apply mul_nonneg h2.le
    linarith
  have h5 : Real.exp (-v) * ((v - 2) * Real.exp v + v + 2) = (v - 2) + (v + 2) * Real.exp (-v) := by
    linear_combination (v - 2) * h3
  linarith

/-- One round of the search on `e^(-x)` in direction `d < 0` moves by a constant of at least `1/|d|`. -/
theorem lineSearch_exp (cfg : Config) (hh : 0 < cfg.increment) (p : ℝ) (d : ℝ) (hd : d < 0) (hp : cfg.precision * -d < 1)
    (k : Nat) (x : ℝ) :
    lineSearch cfg (fun x : Vec 1 => Real.exp (-x 0)) (fun _ => p) (fun _ => d) k x = none := by
  induction k generalizing x with
  | zero => rfl
  | succ k ih =>
    unfold lineSearch
    simp only
    set v : ℝ := cfg.increment / 2 * -d with hv
    have hv0 : 0 < v := by
      rw [hv]
      have : 0 < -d := by linarith
      positivity
    set E := Real.exp (-v) with hE
    have hE0 : 0 < E := Real.exp_pos _
    have hE1 : E < 1 := by
      rw [hE, Real.exp_lt_one_iff]
      linarith
    set F := Real.exp (-along (fun _ : Fin 1 => p) x (fun _ => d) 0) with hF
    have hF0 : 0 < F := Real.exp_pos _
    have e1 : Real.exp (-along (fun _ : Fin 1 => p) (x + cfg.increment / 2) (fun _ => d) 0) = F * E⁻¹ := by
      rw [hF, hE, ← Real.exp_neg, ← Real.exp_add]
      congr 1
      rw [hv]
      simp only [along]
      ring
    have e2 : Real.exp (-along (fun _ : Fin 1 => p) (x - cfg.increment / 2) (fun _ => d) 0) = F * E := by
      rw [hF, hE, ← Real.exp_add]
      congr 1
      rw [hv]
      simp only [along]
      ring
    rw [e1, e2]
    have hsec : (F * E⁻¹ - 2 * F + F * E) / (cfg.increment * cfg.increment / 4) =
        4 * F * (1 - E) ^ 2 / (E * cfg.increment ^ 2) := by
      field_simp
      ring
    have hfst : (F * E⁻¹ - F * E) / cfg.increment = F * (1 - E) * (1 + E) / (E * cfg.increment) := by
      field_simp
      ring
    have h1E : 1 - E ≠ 0 := by linarith
    have hne : 4 * F * (1 - E) ^ 2 / (E * cfg.increment ^ 2) ≠ 0 := by
      have : 0 < 1 - E := by linarith
      positivity
    rw [hsec, hfst, if_neg hne]
    have hr : F * (1 - E) * (1 + E) / (E * cfg.increment) / (4 * F * (1 - E) ^ 2 / (E * cfg.increment ^ 2)) =
        cfg.increment * (1 + E) / (4 * (1 - E)) := by
      field_simp
    rw [hr]
    have hbig : cfg.precision < cfg.increment * (1 + E) / (4 * (1 - E)) := by
      have hb := exp_bound hv0.le
      rw [← hE] at hb
      rw [lt_div_iff₀ (by linarith)]
      have hd' : 0 < -d := by linarith
      have h3 : cfg.precision * -d * (4 * (1 - E)) < 4 * (1 - E) := by
        have : 0 < 4 * (1 - E) := by linarith
        nlinarith
      have h4 : 4 * (1 - E) ≤ cfg.increment * -d * (1 + E) := by
        have : 2 * (v * (1 + E)) = cfg.increment * -d * (1 + E) := by rw [hv]; ring
        linarith
      have h5 : -d * (cfg.precision * (4 * (1 - E))) < -d * (cfg.increment * (1 + E)) := by
        nlinarith
      exact lt_of_mul_lt_mul_left h5 hd'.le
    have habs : |x - (x - cfg.increment * (1 + E) / (4 * (1 - E)))| = cfg.increment * (1 + E) / (4 * (1 - E)) := by
      rw [sub_sub_cancel, abs_of_pos]
      have : 0 < 1 - E := by linarith
      positivity
    rw [if_pos (by rw [habs]; exact hbig)]
    exact ih _

/-- **C72.** The iteration limit does not bound the one-dimensional search: on `e^(-x)` (bounded below) the method never returns,
whatever the limit, when the product of the precision and the slope at the start is below 1. -/
theorem C72_never_returns (cfg : Config) (hh : 0 < cfg.increment) (p : ℝ)
    (hp : cfg.precision * (Real.exp (-p) * (Real.exp (cfg.increment / 2) - Real.exp (-(cfg.increment / 2))) / cfg.increment) < 1) :
    ∀ fuel, find cfg (fun x : Vec 1 => Real.exp (-x 0)) fuel (fun _ => p) = none := by
  intro fuel
  have hg : gradient (fun x : Vec 1 => Real.exp (-x 0)) cfg.increment (fun _ => p) =
      fun _ => -(Real.exp (-p) * (Real.exp (cfg.increment / 2) - Real.exp (-(cfg.increment / 2))) / cfg.increment) := by
    funext i
    rw [Subsingleton.elim i 0]
    simp only [gradient, derivative, Function.update_self]
    rw [show -(p + cfg.increment / 2) = -p + -(cfg.increment / 2) by ring, show -(p - cfg.increment / 2) = -p + cfg.increment / 2 by ring,
      Real.exp_add, Real.exp_add]
    ring
  have hpos : 0 < Real.exp (-p) * (Real.exp (cfg.increment / 2) - Real.exp (-(cfg.increment / 2))) / cfg.increment := by
    have h1 : Real.exp (-(cfg.increment / 2)) < Real.exp (cfg.increment / 2) := Real.exp_lt_exp.2 (by linarith)
    have h2 := Real.exp_pos (-p)
    have : 0 < Real.exp (cfg.increment / 2) - Real.exp (-(cfg.increment / 2)) := by linarith
    positivity
  unfold find
  cases fuel with
  | zero => rfl
  | succ k =>
    unfold outer
    rw [hg]
    have hd : ∀ g prev : Vec 1, nextDirection g prev 0 1 = g := by
      intro g prev
      unfold nextDirection
      rw [if_neg (by omega)]
    simp only [hd]
    rw [lineSearch_exp cfg hh p _ (by linarith) (by rw [neg_neg]; exact hp)]

/-! ## Concrete cases -/

theorem one_definite : Definite (1 : Matrix (Fin 2) (Fin 2) ℝ) := by
  refine ⟨Matrix.transpose_one, fun d hd => ?_⟩
  rw [Matrix.one_mulVec]
  exact dot_self_ne hd

/-- `½|x|²` in the plane from `(1, 1)` with precision `1e-4`: the result has gradient below the precision. -/
example : ∃ q, (∀ fuel ≥ 5, find ⟨1 / 10 ^ 4, 1 / 10 ^ 5, 1000⟩ (quad (1 : Matrix (Fin 2) (Fin 2) ℝ) 0 0) fuel (fun _ => 1) =
    some (.found q)) ∧ norm2 ((1 : Matrix (Fin 2) (Fin 2) ℝ) *ᵥ q + 0) < 1 / 10 ^ 4 := by
  obtain ⟨q, h1, -, h3, -⟩ := C70_quadratic ⟨1 / 10 ^ 4, 1 / 10 ^ 5, 1000⟩ (by norm_num) (by norm_num) 1 one_definite 0 0 (fun _ => 1)
    (by rw [Matrix.one_mulVec]; norm_num [Fin.sum_univ_two])
  exact ⟨q, h1, h3 (by norm_num)⟩

/-- A definite matrix whose form is negative. -/
example : Definite (-1 : Matrix (Fin 2) (Fin 2) ℝ) := by
  refine ⟨by simp, fun d hd => ?_⟩
  rw [Matrix.neg_mulVec, Matrix.one_mulVec, dotProduct_neg]
  exact neg_ne_zero.2 (dot_self_ne hd)

end K52.Gradient.Cg
