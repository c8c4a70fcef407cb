import Verif.Model.FloatingPoint
import Mathlib.Tactic.NormNum
import Mathlib.Tactic.Linarith
import Mathlib.Tactic.Positivity
import Mathlib.Algebra.Order.Ring.Rat

/-! # C57: floating comparison is a tolerance relation -/

namespace K52.FloatingPoint
variable {R : Type} [Field R] [LinearOrder R] [IsStrictOrderedRing R]

theorem eps_pos : (0 : R) < eps := by unfold eps; positivity

/-- **C57 (meaning).** Two numbers are equal iff they are less than 10⁻¹⁰ apart. -/
theorem C57_scalar (x y : R) : areEqual x y = true ↔ y - 1 / 10 ^ 10 < x ∧ x < y + 1 / 10 ^ 10 := by
  unfold areEqual eps
  rw [decide_eq_true_iff, abs_lt]
  constructor
  · rintro ⟨a, b⟩; constructor <;> linarith
  · rintro ⟨a, b⟩; constructor <;> linarith

/-- **C57 (IsZero).** -/
theorem C57_isZero (x : R) : isZero x = true ↔ |x| < 1 / 10 ^ 10 := by
  simp [isZero, areEqual, eps]

theorem equalLoop_iff : ∀ (v w : List R), v.length = w.length →
    (equalLoop v w = true ↔ ∀ i, ∀ (h : i < v.length) (h' : i < w.length), areEqual v[i] w[i] = true)
  | [], [], _ => by simp [equalLoop]
  | x :: xs, y :: ys, h => by
    have h' : xs.length = ys.length := by simpa using h
    simp only [equalLoop]
    split
    · next hn =>
      simp only [Bool.not_eq_true'] at hn
      constructor
      · intro q; simp at q
      · intro q; have := q 0 (by simp) (by simp); simp [hn] at this
    · next hn =>
      simp only [Bool.not_eq_true', Bool.not_eq_false] at hn
      rw [equalLoop_iff xs ys h']
      constructor
      · intro q i
        cases i with
        | zero => intro _ _; simpa using hn
        | succ i => intro h1 h2; simpa using q i (by simpa using h1) (by simpa using h2)
      · intro q i h1 h2
        exact q (i + 1) (by simpa using h1) (by simpa using h2)

/-- **C57 (vectors).** Vectors are equal iff they have the same length and are equal elementwise. -/
theorem C57_vector (v w : List R) :
    areEqualVec v w = true ↔
      v.length = w.length ∧ ∀ i, ∀ (h : i < v.length) (h' : i < w.length), areEqual v[i] w[i] = true := by
  unfold areEqualVec
  split
  · next h => simp [h]
  · next h =>
    push Not at h
    rw [equalLoop_iff v w h]
    simp [h]

/-- **C57 (reflexive).** -/
theorem C57_refl (x : R) (v : List R) : areEqual x x = true ∧ areEqualVec v v = true := by
  have h : ∀ y : R, areEqual y y = true := fun y => by simp [areEqual, eps_pos]
  exact ⟨h x, (C57_vector v v).2 ⟨rfl, fun i h1 _ => h _⟩⟩

/-- **C57 (symmetric).** -/
theorem C57_symm (x y : R) (v w : List R) : areEqual x y = areEqual y x ∧ areEqualVec v w = areEqualVec w v := by
  have h : ∀ a b : R, areEqual a b = areEqual b a := fun a b => by simp [areEqual, abs_sub_comm]
  refine ⟨h x y, ?_⟩
  rw [Bool.eq_iff_iff, C57_vector, C57_vector]
  constructor
  · rintro ⟨a, b⟩; exact ⟨a.symm, fun i h1 h2 => by rw [h]; exact b i h2 h1⟩
  · rintro ⟨a, b⟩; exact ⟨a.symm, fun i h1 h2 => by rw [h]; exact b i h2 h1⟩

/-- **C57 (not transitive).** Around every number there are three of which the middle one equals both others, which are not equal. -/
theorem C57_not_transitive (x : R) :
    areEqual x (x + 3 / 4 * eps) = true ∧ areEqual (x + 3 / 4 * eps) (x + 3 / 2 * eps) = true ∧
    areEqual x (x + 3 / 2 * eps) = false := by
  have h : (0 : R) < eps := eps_pos
  refine ⟨?_, ?_, ?_⟩
  · simp only [areEqual, decide_eq_true_eq, abs_lt]; constructor <;> linarith
  · simp only [areEqual, decide_eq_true_eq, abs_lt]; constructor <;> linarith
  · simp only [areEqual, decide_eq_false_iff_not, abs_lt, not_and, not_lt]; intro _; linarith

/-- Non-vacuity of the vector statement: vectors that differ slightly, and vectors that differ. -/
example : areEqualVec [1, (2 : ℚ)] [1 + 1 / 10 ^ 11, 2] = true ∧ areEqualVec [1, (2 : ℚ)] [1, 2 + 1 / 10 ^ 10] = false ∧
    areEqualVec [1, (2 : ℚ)] [1] = false := by
  refine ⟨?_, ?_, ?_⟩ <;> norm_num [areEqualVec, equalLoop, areEqual, eps]

end K52.FloatingPoint
