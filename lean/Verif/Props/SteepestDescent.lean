import Verif.Lemmas.Golden
import Verif.Model.Gradient
import Mathlib.Tactic.Linarith
import Mathlib.Tactic.LinearCombination
import Mathlib.Tactic.FieldSimp
import Mathlib.Tactic.NormNum
import Mathlib.Tactic.Positivity
import Mathlib.Algebra.Order.BigOperators.Ring.Finset
import Mathlib.Analysis.SpecificLimits.Basic
import Mathlib.NumberTheory.Real.GoldenRatio

/-!
# C73 - C76: steepest descent
-/

namespace K52.Gradient.Sd

open scoped BigOperators

variable {n : Nat}

/-! ## Specification -/

/-- Euclidean norm. -/
noncomputable def norm2 (v : Vec n) : ℝ := Real.sqrt (∑ i, v i ^ 2)

/-- `φ` decreases strictly from 0 to `m` and increases strictly from `m` to `s`. -/
structure Unimodal (φ : ℝ → ℝ) (s m : ℝ) : Prop where
  lo : 0 ≤ m
  hi : m ≤ s
  dec : ∀ x y, 0 ≤ x → x < y → y ≤ m → φ y < φ x
  inc : ∀ x y, m ≤ x → x < y → y ≤ s → φ x < φ y

/-- The values grow beyond all bounds along every ray. -/
def RadiallyUnbounded (f : Vec n → ℝ) : Prop :=
  ∀ p d : Vec n, d ≠ 0 → ∀ M : ℝ, ∃ T : ℝ, ∀ t ≥ T, M < f fun i => p i + t * d i

/-- `k` moves along the negative central-difference gradient with positive step lengths. -/
inductive Moves (f : Vec n → ℝ) (h : ℝ) : Nat → Vec n → Vec n → Prop where
  | refl (p : Vec n) : Moves f h 0 p p
  | step {k : Nat} {p q : Vec n} (lambda : ℝ) (pos : 0 < lambda)
      (next : Moves f h k (fun i => p i - lambda * gradient f h p i) q) : Moves f h (k + 1) p q

/-- Slack of the two readings of `abs`. -/
def AbsImpl.slack : AbsImpl → ℝ
  | .real => 0
  | .int => 1

/-! ## Basic facts -/

theorem AbsImpl.eval_le (a : AbsImpl) (x : ℝ) : a.eval x ≤ |x| := by
  cases a
  · exact le_rfl
  · exact Int.floor_le _

theorem AbsImpl.le_eval (a : AbsImpl) (x : ℝ) : |x| ≤ a.eval x + a.slack := by
  cases a
  · simp [AbsImpl.eval, AbsImpl.slack]
  · simp only [AbsImpl.eval, AbsImpl.slack]
    exact (Int.lt_floor_add_one _).le

theorem one_lt_kAlpha : 1 < kAlpha := by
  unfold kAlpha
  have : 1 < Real.sqrt 5 := by
    rw [Real.lt_sqrt (by norm_num)]
    norm_num
  linarith

theorem along_zero (p : Vec n) (t : ℝ) : along p t (0 : Vec n) = p := by
  funext i
  simp [along]

theorem sqrt_squares (v : Vec n) : Real.sqrt (squares v) = norm2 v := by
  unfold norm2 squares
  congr 1
  exact Finset.sum_congr rfl fun i _ => (sq (v i)).symm

theorem norm2_pos {v : Vec n} (h : v ≠ 0) : 0 < norm2 v := by
  obtain ⟨i, hi⟩ := Function.ne_iff.1 h
  unfold norm2
  apply Real.sqrt_pos.2
  refine Finset.sum_pos' (fun j _ => sq_nonneg _) ⟨i, Finset.mem_univ i, ?_⟩
  exact pow_pos_of_ne_zero_sq hi
where
  pow_pos_of_ne_zero_sq {x : ℝ} (h : x ≠ 0) : 0 < x ^ 2 := by positivity

theorem norm2_zero : norm2 (0 : Vec n) = 0 := by simp [norm2]

/-! ## C73: runs that never end -/

theorem expand_stuck (f : Vec n → ℝ) (p d : Vec n) (hstuck : ∀ s t, 0 < s → s ≤ t → f (along p t d) ≤ f (along p s d))
    (fuel : Nat) (step : ℝ) (hs : 0 < step) : expand f p d fuel step (along p step d) = none := by
  induction fuel generalizing step with
  | zero => rfl
  | succ k ih =>
    unfold expand
    simp only
    have h1 := one_lt_kAlpha
    have hlt : step ≤ step * kAlpha := by nlinarith
    rw [if_pos (hstuck step (step * kAlpha) hs hlt)]
    exact ih (step * kAlpha) (by nlinarith)

theorem shrink_first (a : AbsImpl) (precision : ℝ) (f : Vec n → ℝ) (p d : Vec n) (fuel : Nat) (step : ℝ)
    (h : f (along p step d) ≤ f p) : shrink a precision f p d (fuel + 1) (step * 2) = some step := by
  unfold shrink
  have : step * 2 / 2 = step := by ring
  simp only [this]
  rw [if_neg (fun hh => absurd hh.1 (not_lt.2 h))]

theorem find_stuck (a : AbsImpl) (cfg : Config) (f : Vec n → ℝ) (p : Vec n)
    (h : ∀ s t, 0 ≤ s → s ≤ t → f (along p t fun i => gradient f cfg.increment p i * -1) ≤
      f (along p s fun i => gradient f cfg.increment p i * -1)) (fuel : Nat) : find a cfg f fuel p = none := by
  unfold find
  cases fuel with
  | zero => rfl
  | succ k =>
    unfold outer
    simp only
    have hg : goldenSectionSearch a cfg.precision f k p 1 (fun i => gradient f cfg.increment p i * -1) = none := by
      unfold goldenSectionSearch localization
      cases k with
      | zero => rfl
      | succ k =>
        rw [shrink_first]
        · simp only [Option.bind_eq_bind, Option.bind_some]
          rw [expand_stuck f p _ (fun s t hs hst => h s t hs.le hst) (k + 1) 1 one_pos]
          rfl
        · have := h 0 1 le_rfl zero_le_one
          have e : along p 0 (fun i => gradient f cfg.increment p i * -1) = p := by
            funext i
            simp [along]
          rwa [e] at this
    rw [hg]

/-- **C73.** Started where the central differences vanish - for instance at the optimum of a quadratic function, or anywhere on a
constant function - the method never returns, whatever the configuration. -/
theorem C73_stationary_start (a : AbsImpl) (cfg : Config) (f : Vec n → ℝ) (p : Vec n)
    (h : ∀ i, f (Function.update p i (p i + cfg.increment / 2)) = f (Function.update p i (p i - cfg.increment / 2))) :
    ∀ fuel, find a cfg f fuel p = none := by
  apply find_stuck
  intro s t _ _
  have : (fun i => gradient f cfg.increment p i * -1) = (0 : Vec n) := by
    funext i
    simp [gradient, derivative, h i]
  rw [this, along_zero, along_zero]

/-- **C73.** On a non-constant affine function the method never returns: the iteration limit is not reached. -/
theorem C73_affine (a : AbsImpl) (cfg : Config) (hh : cfg.increment ≠ 0) (b : Vec n) (c : ℝ) (p : Vec n) :
    ∀ fuel, find a cfg (fun x => (∑ i, b i * x i) + c) fuel p = none := by
  apply find_stuck
  intro s t _ hst
  have hg : ∀ i, gradient (fun x : Vec n => (∑ i, b i * x i) + c) cfg.increment p i = b i := by
    intro i
    simp only [gradient, derivative]
    have hu : ∀ y : ℝ, (∑ j, b j * Function.update p i y j) = (∑ j, b j * p j) + b i * (y - p i) := by
      intro y
      rw [← Finset.add_sum_erase _ _ (Finset.mem_univ i), ← Finset.add_sum_erase _ (fun j => b j * p j) (Finset.mem_univ i)]
      have : ∑ x ∈ Finset.univ.erase i, b x * Function.update p i y x = ∑ x ∈ Finset.univ.erase i, b x * p x := by
        refine Finset.sum_congr rfl fun j hj => ?_
        rw [Function.update_of_ne (Finset.ne_of_mem_erase hj)]
      rw [this, Function.update_self]
      ring
    rw [hu, hu]
    field_simp
    ring
  have hv : ∀ r : ℝ, (∑ i, b i * along p r (fun i => gradient (fun x : Vec n => (∑ i, b i * x i) + c) cfg.increment p i * -1) i) =
      (∑ i, b i * p i) - r * ∑ i, b i ^ 2 := by
    intro r
    rw [Finset.mul_sum, ← Finset.sum_sub_distrib]
    refine Finset.sum_congr rfl fun i _ => ?_
    rw [along, hg]
    ring
  rw [hv, hv]
  have : 0 ≤ ∑ i, b i ^ 2 := Finset.sum_nonneg fun i _ => sq_nonneg _
  nlinarith

/-! ## C74: the golden-section search -/

/-- The inner points of the borders, in either order. -/
def Inner (b : Borders) (u w : ℝ) : Prop := (b.nextLeft = u ∧ b.nextRight = w) ∨ (b.nextLeft = w ∧ b.nextRight = u)

/-- One inner point `w` is fresh, at 0.618 or 0.382 of the interval; the other, `u`, lies at a rational fraction whose numerator
is not a multiple of 3, so it never meets the fresh one. -/
structure Inv (b : Borders) (u w : ℝ) : Prop where
  inner : Inner b u w
  lt : b.left < b.right
  lu : b.left < u
  ur : u < b.right
  fresh : (w = b.right - constriction * (b.right - b.left) ∧
      ∃ A B : ℤ, ¬ (3 : ℤ) ∣ A ∧ (u - b.left) * B = A * (b.right - b.left)) ∨
    (w = b.left + constriction * (b.right - b.left) ∧
      ∃ A B : ℤ, ¬ (3 : ℤ) ∣ A ∧ (b.right - u) * B = A * (b.right - b.left))

theorem Inv.bounds {b : Borders} {u w : ℝ} (h : Inv b u w) : b.left < w ∧ w < b.right ∧
    w - b.left ≤ 0.618 * (b.right - b.left) ∧ b.right - w ≤ 0.618 * (b.right - b.left) := by
  have := h.lt
  rcases h.fresh with ⟨e, _⟩ | ⟨e, _⟩ <;> rw [e] <;> unfold constriction <;>
    refine ⟨?_, ?_, ?_, ?_⟩ <;> norm_num <;> linarith

theorem Inv.ne {b : Borders} {u w : ℝ} (h : Inv b u w) : u ≠ w := by
  have hlt := h.lt
  rintro rfl
  have key : ∀ (A B : ℤ) (v d : ℝ), d ≠ 0 → v = 0.618 * d → v * B = A * d → (3 : ℤ) ∣ A := by
    intro A B v d hd hv he
    rw [hv] at he
    have h1 : (0.618 : ℝ) * B = A := by
      apply mul_right_cancel₀ hd
      linarith
    have h2 : (309 : ℝ) * B = 500 * A := by
      rw [← h1]
      ring
    have h3 : 309 * B = 500 * A := by exact_mod_cast h2
    omega
  rcases h.fresh with ⟨e, A, B, hA, he⟩ | ⟨e, A, B, hA, he⟩
  · exact hA (key A B _ _ (sub_ne_zero.2 hlt.ne') (by rw [e]; unfold constriction; ring) he)
  · refine hA (key A B _ _ (sub_ne_zero.2 hlt.ne') ?_ he)
    generalize b.right = r at *
    generalize b.left = l at *
    rw [e]; unfold constriction; ring

/-- What one round does, in terms of the smaller (`x`) and the larger (`y`) inner point. -/
theorem narrow_cases (φ : ℝ → ℝ) (b : Borders) (hne : b.nextLeft ≠ b.nextRight) :
    let b' := narrow b (φ b.nextLeft) (φ b.nextRight)
    let x := min b.nextLeft b.nextRight
    let y := max b.nextLeft b.nextRight
    (φ y < φ x ∧ b'.left = x ∧ b'.right = b.right ∧ Inner b' y (b.right - constriction * (b.right - x))) ∨
    (φ x ≤ φ y ∧ b'.left = b.left ∧ b'.right = y ∧ Inner b' x (b.left + constriction * (y - b.left))) := by
  intro b' x y
  simp only [b', x, y]
  unfold narrow narrowBy
  by_cases h : b.nextLeft < b.nextRight
  · rw [if_pos h, min_eq_left h.le, max_eq_right h.le]
    by_cases hv : φ b.nextLeft > φ b.nextRight
    · rw [if_pos hv]
      exact Or.inl ⟨hv, rfl, rfl, Or.inl ⟨rfl, rfl⟩⟩
    · rw [if_neg hv]
      exact Or.inr ⟨not_lt.1 hv, rfl, rfl, Or.inr ⟨rfl, rfl⟩⟩
  · have h' : b.nextRight < b.nextLeft := lt_of_le_of_ne (not_lt.1 h) (Ne.symm hne)
    rw [if_neg h, min_eq_right h'.le, max_eq_left h'.le]
    by_cases hv : φ b.nextRight > φ b.nextLeft
    · rw [if_pos hv]
      exact Or.inl ⟨hv, rfl, rfl, Or.inr ⟨rfl, rfl⟩⟩
    · rw [if_neg hv]
      exact Or.inr ⟨not_lt.1 hv, rfl, rfl, Or.inl ⟨rfl, rfl⟩⟩

theorem not_dvd₁ {A B : ℤ} (h : ¬ (3 : ℤ) ∣ A) : ¬ (3 : ℤ) ∣ 309 * B - 500 * A := by omega
theorem not_dvd₂ {A B : ℤ} (h : ¬ (3 : ℤ) ∣ A) : ¬ (3 : ℤ) ∣ 500 * A - 309 * B := by omega

/-- One round keeps the invariant; either the reused or the fresh point becomes a border. -/
theorem narrow_inv (φ : ℝ → ℝ) (b : Borders) (u w : ℝ) (h : Inv b u w) :
    let b' := narrow b (φ b.nextLeft) (φ b.nextRight)
    ∃ u' w' x y, Inv b' u' w' ∧ x < y ∧ ((x = u ∧ y = w) ∨ (x = w ∧ y = u)) ∧
      ((φ y < φ x ∧ b'.left = x ∧ b'.right = b.right ∧ u' = y) ∨ (φ x ≤ φ y ∧ b'.left = b.left ∧ b'.right = y ∧ u' = x)) := by
  intro b'
  obtain ⟨hw1, hw2, -, -⟩ := h.bounds
  have hu1 := h.lu
  have hu2 := h.ur
  have hne := h.ne
  have hne' : b.nextLeft ≠ b.nextRight := by
    rcases h.inner with ⟨e1, e2⟩ | ⟨e1, e2⟩ <;> rw [e1, e2]
    · exact hne
    · exact hne.symm
  have hc := narrow_cases φ b hne'
  have hmm : min b.nextLeft b.nextRight = min u w ∧ max b.nextLeft b.nextRight = max u w := by
    rcases h.inner with ⟨e1, e2⟩ | ⟨e1, e2⟩ <;> rw [e1, e2]
    · exact ⟨rfl, rfl⟩
    · exact ⟨min_comm _ _, max_comm _ _⟩
  simp only [hmm.1, hmm.2] at hc
  rcases lt_or_gt_of_ne hne with huw | huw
  · rw [min_eq_left huw.le, max_eq_right huw.le] at hc
    rcases hc with ⟨hv, e1, e2, hi⟩ | ⟨hv, e1, e2, hi⟩
    · refine ⟨w, _, u, w, ⟨hi, ?_, ?_, ?_, Or.inl ⟨?_, ?_⟩⟩, huw, Or.inl ⟨rfl, rfl⟩, Or.inl ⟨hv, e1, e2, rfl⟩⟩
      · rw [e1, e2]; exact hu2
      · rw [e1]; exact huw
      · rw [e2]; exact hw2
      · rw [e1, e2]
      · rw [e1, e2]
        rcases h.fresh with ⟨e, A, B, hA, he⟩ | ⟨e, A, B, hA, he⟩
        · refine ⟨_, 500 * (B - A), not_dvd₁ (B := B) hA, ?_⟩
          rw [e]; unfold constriction; push_cast; linear_combination (-191) * he
        · refine ⟨_, 500 * A, not_dvd₂ (B := B) hA, ?_⟩
          rw [e]; unfold constriction; push_cast; linear_combination 309 * he
    · refine ⟨u, _, u, w, ⟨hi, ?_, ?_, ?_, Or.inr ⟨?_, ?_⟩⟩, huw, Or.inl ⟨rfl, rfl⟩, Or.inr ⟨hv, e1, e2, rfl⟩⟩
      · rw [e1, e2]; exact hw1
      · rw [e1]; exact hu1
      · rw [e2]; exact huw
      · rw [e1, e2]
      · rw [e1, e2]
        rcases h.fresh with ⟨e, A, B, hA, he⟩ | ⟨e, A, B, hA, he⟩
        · refine ⟨_, 309 * B, not_dvd₁ (B := B) hA, ?_⟩
          rw [e]; unfold constriction; push_cast; linear_combination (-309) * he
        · refine ⟨_, 191 * B, not_dvd₂ (B := B) hA, ?_⟩
          rw [e]; unfold constriction; push_cast; linear_combination 191 * he
  · rw [min_eq_right huw.le, max_eq_left huw.le] at hc
    rcases hc with ⟨hv, e1, e2, hi⟩ | ⟨hv, e1, e2, hi⟩
    · refine ⟨u, _, w, u, ⟨hi, ?_, ?_, ?_, Or.inl ⟨?_, ?_⟩⟩, huw, Or.inr ⟨rfl, rfl⟩, Or.inl ⟨hv, e1, e2, rfl⟩⟩
      · rw [e1, e2]; exact hw2
      · rw [e1]; exact huw
      · rw [e2]; exact hu2
      · rw [e1, e2]
      · rw [e1, e2]
        rcases h.fresh with ⟨e, A, B, hA, he⟩ | ⟨e, A, B, hA, he⟩
        · refine ⟨_, 191 * B, not_dvd₂ (B := B) hA, ?_⟩
          rw [e]; unfold constriction; push_cast; linear_combination 191 * he
        · refine ⟨_, 309 * B, not_dvd₁ (B := B) hA, ?_⟩
          rw [e]; unfold constriction; push_cast; linear_combination (-309) * he
    · refine ⟨w, _, w, u, ⟨hi, ?_, ?_, ?_, Or.inr ⟨?_, ?_⟩⟩, huw, Or.inr ⟨rfl, rfl⟩, Or.inr ⟨hv, e1, e2, rfl⟩⟩
      · rw [e1, e2]; exact hu1
      · rw [e1]; exact hw1
      · rw [e2]; exact huw
      · rw [e1, e2]
      · rw [e1, e2]
        rcases h.fresh with ⟨e, A, B, hA, he⟩ | ⟨e, A, B, hA, he⟩
        · refine ⟨_, 500 * A, not_dvd₂ (B := B) hA, ?_⟩
          rw [e]; unfold constriction; push_cast; linear_combination 309 * he
        · refine ⟨_, 500 * (B - A), not_dvd₁ (B := B) hA, ?_⟩
          rw [e]; unfold constriction; push_cast; linear_combination (-191) * he

/-- The invariant at the start. -/
theorem start_inv {s : ℝ} (hs : 0 < s) :
    Inv ⟨0, s, 0 + constriction * (s - 0), s - constriction * (s - 0)⟩ (0 + constriction * (s - 0)) (s - constriction * (s - 0)) := by
  refine ⟨Or.inl ⟨rfl, rfl⟩, hs, ?_, ?_, Or.inl ⟨rfl, 191, 500, by norm_num, ?_⟩⟩
  · simp only; unfold constriction; linarith
  · simp only; unfold constriction; linarith
  · simp only; unfold constriction; push_cast; ring

/-- One round of the loop when the invariant holds: no early `break`. -/
theorem golden_succ (a : AbsImpl) (precision : ℝ) (f : Vec n → ℝ) (p d : Vec n) (fuel : Nat) (b : Borders) (u w : ℝ)
    (h : Inv b u w) :
    let b' := narrow b (f (along p b.nextLeft d)) (f (along p b.nextRight d))
    golden a precision f p d (fuel + 1) b =
      if a.eval (b'.left - b'.right) > precision then golden a precision f p d fuel b' else some ((b'.left + b'.right) / 2) := by
  intro b'
  obtain ⟨hw1, hw2, -, -⟩ := h.bounds
  obtain ⟨u', w', x, y, -, -, hxy, hc⟩ := narrow_inv (fun t => f (along p t d)) b u w h
  have hne : ¬ (b'.left = b.left ∧ b'.right = b.right) := by
    rintro ⟨g1, g2⟩
    have hx : b.left < x := by rcases hxy with ⟨rfl, rfl⟩ | ⟨rfl, rfl⟩; exacts [h.lu, hw1]
    have hy : y < b.right := by rcases hxy with ⟨rfl, rfl⟩ | ⟨rfl, rfl⟩; exacts [hw2, h.ur]
    rcases hc with ⟨_, e, _, _⟩ | ⟨_, _, e, _⟩
    · have : b'.left = x := e
      linarith
    · have : b'.right = y := e
      linarith
  rw [golden_round, if_neg hne]

theorem golden_mono (a : AbsImpl) (precision : ℝ) (f : Vec n → ℝ) (p d : Vec n) {k k' : Nat} (hk : k ≤ k') {b : Borders}
    {v : ℝ} (h : golden a precision f p d k b = some v) : golden a precision f p d k' b = some v := by
  induction k generalizing k' b with
  | zero => simp [golden_zero] at h
  | succ k ih =>
    obtain ⟨k', rfl⟩ : ∃ j, k' = j + 1 := ⟨k' - 1, by omega⟩
    rw [golden_round] at h ⊢
    split at h
    · rw [if_pos ‹_›]; exact h
    · rw [if_neg ‹_›]
      split at h
      · rw [if_pos ‹_›]; exact ih (by omega) h
      · rw [if_neg ‹_›]; exact h

/-- The loop ends: in two rounds the interval shrinks at least to 64 percent. -/
theorem golden_ends (a : AbsImpl) {precision : ℝ} (hp : 0 < precision) (f : Vec n → ℝ) (p d : Vec n) (k : Nat) (b : Borders)
    (u w : ℝ) (h : Inv b u w) (h1 : 4 / 5 * (b.right - b.left) ≤ 4 / 5 * precision * (5 / 4) ^ k)
    (h2 : u - b.left ≤ 4 / 5 * precision * (5 / 4) ^ k) (h3 : b.right - u ≤ 4 / 5 * precision * (5 / 4) ^ k) :
    ∃ v, golden a precision f p d (k + 1) b = some v := by
  induction k generalizing b u w with
  | zero =>
    rw [golden_succ a precision f p d 0 b u w h]
    obtain ⟨hw1, hw2, hw3, hw4⟩ := h.bounds
    obtain ⟨u', w', x, y, hinv, -, hxy, hc⟩ := narrow_inv (fun t => f (along p t d)) b u w h
    generalize narrow b (f (along p b.nextLeft d)) (f (along p b.nextRight d)) = b' at *
    have hlt := hinv.lt
    rw [pow_zero] at h1 h2 h3
    have hW : b'.right - b'.left ≤ precision := by
      rcases hc with ⟨_, e1, e2, _⟩ | ⟨_, e1, e2, _⟩ <;> rcases hxy with ⟨rfl, rfl⟩ | ⟨rfl, rfl⟩ <;> rw [e1, e2] <;> linarith
    rw [if_neg]
    · exact ⟨_, rfl⟩
    · have := a.eval_le (b'.left - b'.right)
      rw [abs_of_neg (by linarith)] at this
      linarith
  | succ k ih =>
    rw [golden_succ a precision f p d (k + 1) b u w h]
    obtain ⟨hw1, hw2, hw3, hw4⟩ := h.bounds
    have hu1 := h.lu
    have hu2 := h.ur
    obtain ⟨u', w', x, y, hinv, hlt', hxy, hc⟩ := narrow_inv (fun t => f (along p t d)) b u w h
    generalize narrow b (f (along p b.nextLeft d)) (f (along p b.nextRight d)) = b' at *
    split
    · rw [pow_succ] at h1 h2 h3
      refine ih b' u' w' hinv ?_ ?_ ?_ <;>
      (rcases hc with ⟨_, e1, e2, e3⟩ | ⟨_, e1, e2, e3⟩ <;> rcases hxy with ⟨rfl, rfl⟩ | ⟨rfl, rfl⟩ <;> linarith)
    · exact ⟨_, rfl⟩

/-- The result: positive, below the right border, and close to the minimum kept in the interval. -/
theorem golden_result (a : AbsImpl) {precision : ℝ} (f : Vec n → ℝ) (p d : Vec n) (k : Nat) (b : Borders)
    (u w : ℝ) (h : Inv b u w) {v : ℝ} (hv : golden a precision f p d k b = some v) :
    b.left < v ∧ v < b.right ∧ ∀ m, b.left ≤ m → m ≤ b.right →
      (∀ x y, b.left ≤ x → x < y → y ≤ m → f (along p y d) < f (along p x d)) →
      (∀ x y, m ≤ x → x < y → y ≤ b.right → f (along p x d) < f (along p y d)) → |v - m| ≤ (precision + a.slack) / 2 := by
  induction k generalizing b u w with
  | zero => simp [golden_zero] at hv
  | succ k ih =>
    rw [golden_succ a precision f p d k b u w h] at hv
    obtain ⟨hw1, hw2, -, -⟩ := h.bounds
    obtain ⟨u', w', x, y, hinv, hlt', hxy, hc⟩ := narrow_inv (fun t => f (along p t d)) b u w h
    generalize narrow b (f (along p b.nextLeft d)) (f (along p b.nextRight d)) = b' at *
    have hlt := hinv.lt
    have hxl : b.left < x := by rcases hxy with ⟨rfl, rfl⟩ | ⟨rfl, rfl⟩; exacts [h.lu, hw1]
    have hyr : y < b.right := by rcases hxy with ⟨rfl, rfl⟩ | ⟨rfl, rfl⟩; exacts [hw2, h.ur]
    have hsub : b.left ≤ b'.left ∧ b'.right ≤ b.right := by
      rcases hc with ⟨_, e1, e2, _⟩ | ⟨_, e1, e2, _⟩ <;> rw [e1, e2] <;> constructor <;> linarith
    have hm : ∀ m, b.left ≤ m → m ≤ b.right →
        (∀ x y, b.left ≤ x → x < y → y ≤ m → f (along p y d) < f (along p x d)) →
        (∀ x y, m ≤ x → x < y → y ≤ b.right → f (along p x d) < f (along p y d)) → b'.left ≤ m ∧ m ≤ b'.right := by
      intro m m1 m2 g1 g2
      rcases hc with ⟨hv, e1, e2, _⟩ | ⟨hv, e1, e2, _⟩ <;> rw [e1, e2]
      · refine ⟨?_, m2⟩
        by_contra hmx
        have := g2 x y (not_le.1 hmx).le hlt' hyr.le
        linarith
      · refine ⟨m1, ?_⟩
        by_contra hmy
        have := g1 x y hxl.le hlt' (not_le.1 hmy).le
        linarith
    split at hv
    · obtain ⟨i1, i2, i3⟩ := ih b' u' w' hinv hv
      refine ⟨by linarith, by linarith, fun m m1 m2 g1 g2 => ?_⟩
      obtain ⟨q1, q2⟩ := hm m m1 m2 g1 g2
      exact i3 m q1 q2 (fun x y hx => g1 x y (by linarith)) (fun x y hx hxy hy => g2 x y hx hxy (by linarith))
    · next hstop =>
      cases hv
      refine ⟨by linarith, by linarith, fun m m1 m2 g1 g2 => ?_⟩
      obtain ⟨q1, q2⟩ := hm m m1 m2 g1 g2
      have := a.le_eval (b'.left - b'.right)
      rw [abs_of_neg (by linarith)] at this
      have h2 := not_lt.1 hstop
      rw [abs_le]
      constructor <;> linarith

/-- **C74.** For a positive border and precision the golden-section search ends and returns a step length strictly between 0 and the
border; if the function is strictly unimodal on the searched segment, the step length is within half the precision of the
minimiser (within half of `precision + 1` if `abs` is the one for `int`). -/
theorem C74_golden_section (a : AbsImpl) (precision : ℝ) (hp : 0 < precision) (f : Vec n → ℝ) (p d : Vec n) (s : ℝ) (hs : 0 < s) :
    ∃ v, (∃ fuel₀, ∀ fuel ≥ fuel₀, findStepLength a precision f fuel p s d = some v) ∧ 0 < v ∧ v < s ∧
      ∀ m, Unimodal (fun t => f fun i => p i + t * d i) s m →
        |v - m| ≤ match a with
          | .real => precision / 2
          | .int => (precision + 1) / 2 := by
  obtain ⟨k, hk⟩ := pow_unbounded_of_one_lt (s / precision) (show (1 : ℝ) < 5 / 4 by norm_num)
  have hsp : s ≤ precision * (5 / 4) ^ k := by
    rw [div_lt_iff₀ hp] at hk
    linarith
  have hinv := start_inv hs
  have hpow : 4 / 5 * precision * (5 / 4) ^ (k + 1) = precision * (5 / 4) ^ k := by ring
  obtain ⟨v, hv⟩ := golden_ends a hp f p d (k + 1) _ _ _ hinv (by rw [hpow]; simp only; linarith)
    (by rw [hpow]; simp only; unfold constriction; linarith) (by rw [hpow]; simp only; unfold constriction; linarith)
  obtain ⟨r1, r2, r3⟩ := golden_result a f p d _ _ _ _ hinv hv
  refine ⟨v, ⟨k + 2, fun fuel hf => golden_mono a precision f p d hf hv⟩, r1, r2, fun m hm => ?_⟩
  have := r3 m hm.lo hm.hi (fun x y => hm.dec x y) (fun x y => hm.inc x y)
  cases a <;> simp only [AbsImpl.slack] at this ⊢ <;> linarith

/-! ## C75: what is returned -/

theorem shrink_pos (a : AbsImpl) (precision : ℝ) (f : Vec n → ℝ) (p d : Vec n) (fuel : Nat) {step t : ℝ} (hs : 0 < step)
    (h : shrink a precision f p d fuel step = some t) : 0 < t := by
  induction fuel generalizing step with
  | zero => simp [shrink] at h
  | succ k ih =>
    unfold shrink at h
    simp only at h
    split at h
    · exact ih (by linarith) h
    · cases h
      linarith

theorem expand_form (f : Vec n → ℝ) (p d : Vec n) (fuel : Nat) {step : ℝ} {next v : Vec n} (hs : 0 < step)
    (h : expand f p d fuel step next = some v) : ∃ t, 0 < t ∧ v = along p t d := by
  induction fuel generalizing step next with
  | zero => simp [expand] at h
  | succ k ih =>
    have h1 := one_lt_kAlpha
    have hpos : 0 < step * kAlpha := by nlinarith
    unfold expand at h
    simp only at h
    split at h
    · exact ih hpos h
    · cases h
      exact ⟨_, hpos, rfl⟩

theorem localization_pos (a : AbsImpl) (precision : ℝ) (f : Vec n → ℝ) (fuel : Nat) (p d : Vec n) {step s : ℝ} (hs : 0 < step)
    (h : localization a precision f fuel p step d = some s) : 0 < s := by
  unfold localization at h
  simp only [Option.bind_eq_bind, Option.bind_eq_some_iff, Option.pure_def, Option.some.injEq] at h
  obtain ⟨t, ht, v, hv, rfl⟩ := h
  have htp := shrink_pos a precision f p d fuel (by linarith) ht
  obtain ⟨r, hr, rfl⟩ := expand_form f p d fuel htp hv
  have hd : d ≠ 0 := by
    rintro rfl
    rw [expand_stuck f p 0 (fun s t _ _ => by rw [along_zero, along_zero]) fuel t htp] at hv
    cases hv
  rw [sqrt_squares]
  apply norm2_pos
  obtain ⟨i, hi⟩ := Function.ne_iff.1 hd
  refine Function.ne_iff.2 ⟨i, ?_⟩
  simp only [along, Pi.zero_apply, add_sub_cancel_left]
  exact mul_ne_zero hr.ne' hi

theorem shrink_spec (a : AbsImpl) (precision : ℝ) (f : Vec n → ℝ) (p d : Vec n) (fuel : Nat) {step t : ℝ}
    (h : shrink a precision f p d fuel (step * 2) = some t) :
    ∃ j : Nat, t = step / 2 ^ j ∧
      (∀ i < j, f p < f (along p (step / 2 ^ i) d) ∧ precision < a.eval (step / 2 ^ i)) ∧
      (f (along p t d) ≤ f p ∨ a.eval t ≤ precision) := by
  induction fuel generalizing step with
  | zero => simp [shrink] at h
  | succ fuel ih =>
    unfold shrink at h
    simp only [mul_div_cancel_right₀ step (two_ne_zero' ℝ)] at h
    split at h
    · next hc =>
      rw [show step = step / 2 * 2 by ring] at h
      obtain ⟨j, h1, h2, h3⟩ := ih h
      refine ⟨j + 1, by rw [h1, pow_succ]; field_simp, fun i hi => ?_, h3⟩
      rcases i with _ | i
      · simpa using hc
      · have := h2 i (by omega)
        rwa [show step / 2 / 2 ^ i = step / 2 ^ (i + 1) by rw [pow_succ]; field_simp] at this
    · next hc =>
      cases h
      refine ⟨0, by simp, fun i hi => absurd hi (by omega), ?_⟩
      by_contra hn
      simp only [not_or, not_le] at hn
      exact hc hn

theorem expand_spec (f : Vec n → ℝ) (p d : Vec n) (fuel : Nat) {step : ℝ} {v : Vec n}
    (h : expand f p d fuel step (along p step d) = some v) :
    ∃ k : Nat, v = along p (step * kAlpha ^ (k + 1)) d ∧
      (∀ i < k, f (along p (step * kAlpha ^ (i + 1)) d) ≤ f (along p (step * kAlpha ^ i) d)) ∧
      f (along p (step * kAlpha ^ k) d) < f (along p (step * kAlpha ^ (k + 1)) d) := by
  induction fuel generalizing step with
  | zero => simp [expand] at h
  | succ fuel ih =>
    unfold expand at h
    simp only at h
    split at h
    · next hc =>
      obtain ⟨k, h1, h2, h3⟩ := ih h
      have e : ∀ i, step * kAlpha * kAlpha ^ i = step * kAlpha ^ (i + 1) := fun i => by ring
      simp only [e] at h1 h2 h3
      refine ⟨k + 1, h1, fun i hi => ?_, h3⟩
      rcases i with _ | i
      · simpa using hc
      · exact h2 i (by omega)
    · next hc =>
      cases h
      exact ⟨0, by simp, fun i hi => absurd hi (by omega), by simpa using hc⟩

/-- **C74.** The segment handed to the golden-section search: the step is halved until the function is not larger than at the start or
the step is within the precision, then it is multiplied by the golden ratio until the function grows, and the segment is the last step
*times the length of the direction* - the Euclidean distance of the last point from the start, although the search uses it as a
multiple of the direction. -/
theorem C74_localization (a : AbsImpl) (precision : ℝ) (f : Vec n → ℝ) (fuel : Nat) (p d : Vec n) (step s : ℝ) (hs : 0 < step)
    (g : ℝ → ℝ) (hg : g = fun t => f fun i => p i + t * d i) (h : localization a precision f fuel p step d = some s) :
    ∃ j k : Nat,
      (∀ i < j, g 0 < g (step / 2 ^ i) ∧ precision < a.eval (step / 2 ^ i)) ∧
      (g (step / 2 ^ j) ≤ g 0 ∨ a.eval (step / 2 ^ j) ≤ precision) ∧
      (∀ i < k, g (step / 2 ^ j * Real.goldenRatio ^ (i + 1)) ≤ g (step / 2 ^ j * Real.goldenRatio ^ i)) ∧
      g (step / 2 ^ j * Real.goldenRatio ^ k) < g (step / 2 ^ j * Real.goldenRatio ^ (k + 1)) ∧
      s = step / 2 ^ j * Real.goldenRatio ^ (k + 1) * norm2 d := by
  unfold localization at h
  simp only [Option.bind_eq_bind, Option.bind_eq_some_iff, Option.pure_def, Option.some.injEq] at h
  obtain ⟨t, ht, v, hv, rfl⟩ := h
  obtain ⟨j, rfl, j1, j2⟩ := shrink_spec a precision f p d fuel ht
  obtain ⟨k, rfl, k1, k2⟩ := expand_spec f p d fuel hv
  have hk : kAlpha = Real.goldenRatio := rfl
  have h0 : (fun i => p i + 0 * d i) = p := by funext i; ring
  rw [hk] at k1 k2 ⊢
  subst hg
  refine ⟨j, k, ?_, ?_, k1, k2, ?_⟩
  · simp only [h0]; exact j1
  · simp only [h0]; exact j2
  · rw [sqrt_squares]
    unfold norm2 along
    have hpos : 0 ≤ step / 2 ^ j * Real.goldenRatio ^ (k + 1) := by
      have := Real.goldenRatio_pos; positivity
    have e : ∀ i, (p i + step / 2 ^ j * Real.goldenRatio ^ (k + 1) * d i - p i) ^ 2
        = (step / 2 ^ j * Real.goldenRatio ^ (k + 1)) ^ 2 * d i ^ 2 := fun i => by ring
    simp only [e]
    rw [← Finset.mul_sum, Real.sqrt_mul (sq_nonneg _), Real.sqrt_sq hpos]

theorem search_pos (a : AbsImpl) (precision : ℝ) (f : Vec n → ℝ) (fuel : Nat) (p d : Vec n) {step v : ℝ} (hs : 0 < step)
    (h : goldenSectionSearch a precision f fuel p step d = some v) : 0 < v := by
  unfold goldenSectionSearch at h
  simp only [Option.bind_eq_bind, Option.bind_eq_some_iff] at h
  obtain ⟨s, h1, h2⟩ := h
  have hsp := localization_pos a precision f fuel p d hs h1
  exact (golden_result a f p d fuel _ _ _ (start_inv hsp) h2).1

theorem Moves.zero_eq {f : Vec n → ℝ} {h : ℝ} {k : Nat} {p q : Vec n} (hm : Moves f h k p q) (hk : k = 0) : q = p := by
  cases hm with
  | refl => rfl
  | step => omega

theorem outer_result (a : AbsImpl) (cfg : Config) (f : Vec n → ℝ) (fuel : Nat) {lambda : ℝ} (hl : 0 < lambda) {p q : Vec n}
    {counter : Nat} (h : outer a cfg f fuel lambda p counter = some q) :
    ∃ k, Moves f cfg.increment k p q ∧ (counter < cfg.maxIterations → counter + k < cfg.maxIterations) ∧
      (k = 0 ∨ cfg.precision < norm2 (gradient f cfg.increment q)) := by
  induction fuel generalizing lambda p counter with
  | zero => simp [outer] at h
  | succ fuel ih =>
    unfold outer at h
    simp only at h
    split at h
    · cases h
    · next lam hs =>
      have hlam := search_pos a cfg.precision f fuel p _ hl hs
      split at h
      · next hc =>
        obtain ⟨k, hm, h1, h2⟩ := ih hlam h
        have e : along p lam (fun i => gradient f cfg.increment p i * -1) = fun i => p i - lam * gradient f cfg.increment p i := by
          funext i
          simp only [along]
          ring
        have hex := hc.1
        unfold ExitCriteria at hex
        rw [not_not, sqrt_squares] at hex
        refine ⟨k + 1, .step lam hlam (e ▸ hm), fun hlt => ?_, Or.inr ?_⟩
        · have := h1 (by have := hc.2; omega)
          omega
        · rcases h2 with h2 | h2
          · rw [hm.zero_eq h2]
            exact hex
          · exact h2
      · cases h
        exact ⟨0, .refl _, fun hlt => by omega, Or.inl rfl⟩

/-- **C75.** A returned point is reached from the start by moves along the negative gradient, fewer than the iteration limit (if
that is not 0, which means "no limit"), and it is either the start itself or a point that does *not* satisfy the method's own
exit criterion: the last computed point is dropped. -/
theorem C75_result (a : AbsImpl) (cfg : Config) (f : Vec n → ℝ) (fuel : Nat) (p q : Vec n)
    (h : find a cfg f fuel p = some q) :
    ∃ k, Moves f cfg.increment k p q ∧ (cfg.maxIterations = 0 ∨ k < cfg.maxIterations) ∧
      (k = 0 ∨ cfg.precision < norm2 (gradient f cfg.increment q)) := by
  obtain ⟨k, h1, h2, h3⟩ := outer_result a cfg f fuel one_pos h
  refine ⟨k, h1, ?_, h3⟩
  by_cases hm : cfg.maxIterations = 0
  · exact Or.inl hm
  · have := h2 (by omega)
    exact Or.inr (by omega)

/-- **C75.** With an iteration limit of 1 nothing but the start is ever returned. -/
theorem C75_limit_one (a : AbsImpl) (cfg : Config) (hm : cfg.maxIterations = 1) (f : Vec n → ℝ) (fuel : Nat) (p q : Vec n)
    (h : find a cfg f fuel p = some q) : q = p := by
  obtain ⟨k, h1, h2, -⟩ := C75_result a cfg f fuel p q h
  exact h1.zero_eq (by omega)

/-- **C75.** A returned point other than the start violates the exit criterion. -/
theorem C75_never_converged (a : AbsImpl) (cfg : Config) (f : Vec n → ℝ) (fuel : Nat) (p q : Vec n)
    (h : find a cfg f fuel p = some q) (hq : q ≠ p) : cfg.precision < norm2 (gradient f cfg.increment q) := by
  obtain ⟨k, h1, -, h2 | h2⟩ := C75_result a cfg f fuel p q h
  · exact absurd (h1.zero_eq h2) hq
  · exact h2

/-! ## C76: termination -/

theorem shrink_mono (a : AbsImpl) (precision : ℝ) (f : Vec n → ℝ) (p d : Vec n) {k k' : Nat} (hk : k ≤ k') {step t : ℝ}
    (h : shrink a precision f p d k step = some t) : shrink a precision f p d k' step = some t := by
  induction k generalizing k' step with
  | zero => simp [shrink] at h
  | succ k ih =>
    obtain ⟨k', rfl⟩ : ∃ j, k' = j + 1 := ⟨k' - 1, by omega⟩
    unfold shrink at h ⊢
    simp only at h ⊢
    split at h
    · rw [if_pos ‹_›]; exact ih (by omega) h
    · rw [if_neg ‹_›]; exact h

theorem expand_mono (f : Vec n → ℝ) (p d : Vec n) {k k' : Nat} (hk : k ≤ k') {step : ℝ} {next v : Vec n}
    (h : expand f p d k step next = some v) : expand f p d k' step next = some v := by
  induction k generalizing k' step next with
  | zero => simp [expand] at h
  | succ k ih =>
    obtain ⟨k', rfl⟩ : ∃ j, k' = j + 1 := ⟨k' - 1, by omega⟩
    unfold expand at h ⊢
    simp only at h ⊢
    split at h
    · rw [if_pos ‹_›]; exact ih (by omega) h
    · rw [if_neg ‹_›]; exact h

theorem search_mono (a : AbsImpl) (precision : ℝ) (f : Vec n → ℝ) (p d : Vec n) {k k' : Nat} (hk : k ≤ k') {step v : ℝ}
    (h : goldenSectionSearch a precision f k p step d = some v) : goldenSectionSearch a precision f k' p step d = some v := by
  unfold goldenSectionSearch localization findStepLength at h ⊢
  simp only [Option.bind_eq_bind, Option.bind_eq_some_iff, Option.pure_def] at h ⊢
  obtain ⟨s, ⟨t, h1, w, h2, h3⟩, h4⟩ := h
  exact ⟨s, ⟨t, shrink_mono a precision f p d hk h1, w, expand_mono f p d hk h2, h3⟩, golden_mono a precision f p d hk h4⟩

theorem outer_mono (a : AbsImpl) (cfg : Config) (f : Vec n → ℝ) {k k' : Nat} (hk : k ≤ k') {lambda : ℝ} {p q : Vec n}
    {counter : Nat} (h : outer a cfg f k lambda p counter = some q) : outer a cfg f k' lambda p counter = some q := by
  induction k generalizing k' lambda p counter with
  | zero => simp [outer] at h
  | succ k ih =>
    obtain ⟨k', rfl⟩ : ∃ j, k' = j + 1 := ⟨k' - 1, by omega⟩
    unfold outer at h ⊢
    simp only at h ⊢
    split at h
    · cases h
    · next lam hs =>
      rw [search_mono a cfg.precision f p _ (show k ≤ k' by omega) hs]
      simp only
      split at h
      · rw [if_pos ‹_›]; exact ih (by omega) h
      · rw [if_neg ‹_›]; exact h

theorem shrink_ends (a : AbsImpl) {precision : ℝ} (f : Vec n → ℝ) (p d : Vec n) (k : Nat) (step : ℝ)
    (h : |step| ≤ precision * 2 ^ (k + 1)) : ∃ t, shrink a precision f p d (k + 1) step = some t := by
  induction k generalizing step with
  | zero =>
    unfold shrink
    simp only
    rw [if_neg]
    · exact ⟨_, rfl⟩
    · rintro ⟨-, h2⟩
      have := a.eval_le (step / 2)
      rw [abs_div, abs_of_pos (show (0 : ℝ) < 2 by norm_num)] at this
      norm_num at h
      linarith
  | succ k ih =>
    unfold shrink
    simp only
    split
    · apply ih
      rw [abs_div, abs_of_pos (show (0 : ℝ) < 2 by norm_num)]
      rw [pow_succ] at h
      linarith
    · exact ⟨_, rfl⟩

theorem expand_ends (f : Vec n → ℝ) (p d : Vec n) (k : Nat) (step : ℝ) (next : Vec n)
    (h : f next < f (along p (step * kAlpha ^ (k + 1)) d)) : ∃ v, expand f p d (k + 1) step next = some v := by
  induction k generalizing step next with
  | zero =>
    unfold expand
    simp only
    rw [zero_add, pow_one] at h
    rw [if_neg (not_le.2 h)]
    exact ⟨_, rfl⟩
  | succ k ih =>
    unfold expand
    simp only
    split
    · next hle =>
      apply ih
      have e : step * kAlpha * kAlpha ^ (k + 1) = step * kAlpha ^ (k + 1 + 1) := by ring
      rw [e]
      exact lt_of_le_of_lt hle h
    · exact ⟨_, rfl⟩

theorem search_ends (a : AbsImpl) {precision : ℝ} (hp : 0 < precision) (f : Vec n → ℝ) (hf : RadiallyUnbounded f) (p d : Vec n)
    (hd : d ≠ 0) (step : ℝ) (hs : 0 < step) : ∃ fuel v, goldenSectionSearch a precision f fuel p step d = some v := by
  obtain ⟨k, hk⟩ := pow_unbounded_of_one_lt (|step * 2| / precision) (show (1 : ℝ) < 2 by norm_num)
  obtain ⟨t, ht⟩ := shrink_ends a f p d k (step * 2) (precision := precision) (by
    rw [div_lt_iff₀ hp] at hk
    rw [pow_succ]
    have : 0 < (2 : ℝ) ^ k * precision := by positivity
    linarith)
  have htp := shrink_pos a precision f p d _ (by linarith) ht
  obtain ⟨T, hT⟩ := hf p d hd (f (along p t d))
  obtain ⟨j, hj⟩ := pow_unbounded_of_one_lt (T / t) one_lt_kAlpha
  obtain ⟨v, hv⟩ := expand_ends f p d j t (along p t d) (by
    apply hT
    rw [div_lt_iff₀ htp] at hj
    have h1 := one_lt_kAlpha
    have h2 : (0 : ℝ) < kAlpha ^ j := by positivity
    rw [pow_succ]
    have : t * kAlpha ^ j ≤ t * (kAlpha ^ j * kAlpha) := by
      apply mul_le_mul_of_nonneg_left _ htp.le
      nlinarith
    linarith)
  have hloc : ∀ m, k + 1 ≤ m → j + 1 ≤ m → localization a precision f m p step d =
      some (Real.sqrt (squares fun i => v i - p i)) := by
    intro m h1 h2
    unfold localization
    rw [shrink_mono a precision f p d h1 ht]
    simp only [Option.bind_eq_bind, Option.bind_some]
    rw [expand_mono f p d h2 hv]
    rfl
  have hsp := localization_pos a precision f (k + j + 1) p d hs (hloc _ (by omega) (by omega))
  obtain ⟨l, ⟨m, hm⟩, -⟩ := C74_golden_section a precision hp f p d _ hsp
  refine ⟨k + j + 1 + m, l, ?_⟩
  unfold goldenSectionSearch
  rw [hloc _ (by omega) (by omega)]
  simp only [Option.bind_eq_bind, Option.bind_some]
  exact hm _ (by omega)

theorem outer_ends (a : AbsImpl) (cfg : Config) (hp : 0 < cfg.precision) (f : Vec n → ℝ) (hf : RadiallyUnbounded f) (m : Nat)
    (lambda : ℝ) (hl : 0 < lambda) (p : Vec n) (hg : gradient f cfg.increment p ≠ 0) (counter : Nat)
    (hm : counter + m + 1 = cfg.maxIterations) : ∃ fuel q, outer a cfg f fuel lambda p counter = some q := by
  induction m generalizing lambda p counter with
  | zero =>
    have hd : (fun i => gradient f cfg.increment p i * -1) ≠ (0 : Vec n) := by
      intro h
      apply hg
      funext i
      have := congrFun h i
      simpa using this
    obtain ⟨k, v, hk⟩ := search_ends a hp f hf p _ hd lambda hl
    refine ⟨k + 1, p, ?_⟩
    unfold outer
    simp only [hk]
    rw [if_neg (fun h => h.2 (by omega))]
  | succ m ih =>
    have hd : (fun i => gradient f cfg.increment p i * -1) ≠ (0 : Vec n) := by
      intro h
      apply hg
      funext i
      have := congrFun h i
      simpa using this
    obtain ⟨k, v, hk⟩ := search_ends a hp f hf p _ hd lambda hl
    by_cases hc : ¬ ExitCriteria cfg f (along p v fun i => gradient f cfg.increment p i * -1) ∧ ¬ counter + 1 = cfg.maxIterations
    · have hg' : gradient f cfg.increment (along p v fun i => gradient f cfg.increment p i * -1) ≠ 0 := by
        intro h0
        have h1 := hc.1
        unfold ExitCriteria at h1
        rw [not_not, h0, sqrt_squares, norm2_zero] at h1
        linarith
      obtain ⟨k', q, hq⟩ := ih v (search_pos a _ f k p _ hl hk) _ hg' (counter + 1) (by omega)
      refine ⟨k + k' + 1, q, ?_⟩
      unfold outer
      simp only [search_mono a cfg.precision f p _ (show k ≤ k + k' by omega) hk]
      rw [if_pos hc]
      exact outer_mono a cfg f (by omega) hq
    · refine ⟨k + 1, p, ?_⟩
      unfold outer
      simp only [hk]
      rw [if_neg hc]

/-- **C76.** If the function grows beyond all bounds along every ray, the precision is positive and the limit is at least 1, the
method returns from every start where the central differences do not all vanish. -/
theorem C76_terminates (a : AbsImpl) (cfg : Config) (hp : 0 < cfg.precision) (hm : 1 ≤ cfg.maxIterations) (f : Vec n → ℝ)
    (hf : RadiallyUnbounded f) (p : Vec n) (hg : ∃ i, gradient f cfg.increment p i ≠ 0) :
    ∃ q fuel₀, ∀ fuel ≥ fuel₀, find a cfg f fuel p = some q := by
  obtain ⟨i, hi⟩ := hg
  obtain ⟨k, q, hq⟩ := outer_ends a cfg hp f hf (cfg.maxIterations - 1) 1 one_pos p (Function.ne_iff.2 ⟨i, hi⟩) 0 (by omega)
  exact ⟨q, k, fun fuel hk => outer_mono a cfg f hk hq⟩

/-! ## Concrete case: `x²` in one dimension -/

theorem square_unbounded : RadiallyUnbounded fun x : Vec 1 => x 0 ^ 2 := by
  intro p d hd M
  have h0 : d 0 ≠ 0 := by
    intro h
    apply hd
    funext i
    rw [Subsingleton.elim i 0]
    exact h
  refine ⟨(|M| + 1 + |p 0|) / |d 0|, fun t ht => ?_⟩
  have hpos : 0 < |d 0| := abs_pos.2 h0
  rw [ge_iff_le, div_le_iff₀ hpos] at ht
  have ht0 : 0 ≤ t := by
    by_contra hneg
    have := abs_nonneg M
    have := abs_nonneg (p 0)
    nlinarith
  have h1 : |M| + 1 ≤ |p 0 + t * d 0| := by
    have h2 : |t * d 0| = t * |d 0| := by rw [abs_mul, abs_of_nonneg ht0]
    have h3 : |t * d 0| ≤ |p 0 + t * d 0| + |p 0| := by
      have := abs_sub (p 0 + t * d 0) (p 0)
      simpa using this
    linarith
  have h4 := abs_nonneg M
  have h5 := le_abs_self M
  simp only
  rw [← sq_abs]
  nlinarith

/-- Minimising `x²` from 1 returns; from 0 it never does. -/
example (a : AbsImpl) : (∃ q fuel₀, ∀ fuel ≥ fuel₀, find a ⟨1, 100, 1 / 10⟩ (fun x : Vec 1 => x 0 ^ 2) fuel (fun _ => 1) = some q) ∧
    ∀ fuel, find a ⟨1, 100, 1 / 10⟩ (fun x : Vec 1 => x 0 ^ 2) fuel (fun _ => 0) = none := by
  constructor
  · refine C76_terminates a _ (by norm_num) (by norm_num) _ square_unbounded _ ⟨0, ?_⟩
    simp only [gradient, derivative, Function.update_self]
    norm_num
  · apply C73_stationary_start
    intro i
    rw [Subsingleton.elim i 0, Function.update_self, Function.update_self]
    norm_num

/-- `(t - 1)²` on the ray from 1 in direction -1 is unimodal with minimum 1. -/
example : Unimodal (fun t => (fun x : Vec 1 => x 0 ^ 2) fun i => (fun _ => 1 : Vec 1) i + t * (fun _ => -1 : Vec 1) i) 2 1 := by
  refine ⟨by norm_num, by norm_num, fun x y h0 h1 h2 => ?_, fun x y h0 h1 h2 => ?_⟩ <;> simp only <;> nlinarith

end K52.Gradient.Sd
