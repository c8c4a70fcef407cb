import Verif.Spec.Rounding
import Mathlib.Algebra.Order.BigOperators.Group.List
import Mathlib.Algebra.Order.Ring.Pow
import Mathlib.Algebra.BigOperators.Group.Finset.Basic
import Mathlib.Algebra.Order.BigOperators.Group.Finset

/-!
# Accumulated rounding errors

`r.Unit u`: every rounding changes a number by at most the fraction `u` of it (`2^-53` for `double`, `Nearest.unit`).
-/

namespace K52

/-- The relative error of one rounding is at most `u`. -/
structure Rounding.Unit (r : Rounding) (u : ℚ) : Prop where
  nonneg : 0 ≤ u
  err : ∀ x, |r.fl x - x| ≤ u * |x|

theorem Nearest.unit (p : Nat) (hp : 1 ≤ p) : (Nearest.nearest p hp).Unit (1 / 2 ^ p) :=
  ⟨by positivity, fun x => by
    have := Nearest.fl_error (p := p) x
    calc _ ≤ |x| / 2 ^ p := this
      _ = _ := by ring⟩

namespace Round

variable {r : Rounding} {u : ℚ}

theorem pow_mono (hu : 0 ≤ u) {k l : Nat} (h : k ≤ l) : (1 + u) ^ k ≤ (1 + u) ^ l := pow_le_pow_right₀ (by linarith) h

theorem pow_ge_one (hu : 0 ≤ u) (k : Nat) : 1 ≤ (1 + u) ^ k := one_le_pow₀ (by linarith)

/-- One more rounding after a result of accuracy `k`. -/
theorem fl_step (hu : r.Unit u) {x t T : ℚ} {k : Nat} (hx : |x - t| ≤ ((1 + u) ^ k - 1) * T) (ht : |t| ≤ T) :
    |r.fl x - t| ≤ ((1 + u) ^ (k + 1) - 1) * T := by
  have h1 := hu.err x
  have h0 := hu.nonneg
  have h2 : |x| ≤ T + ((1 + u) ^ k - 1) * T := by
    have := abs_sub_abs_le_abs_sub x t
    linarith
  have h3 := mul_le_mul_of_nonneg_left h2 h0
  have h4 := abs_sub_le (r.fl x) x t
  have e : ((1 + u) ^ (k + 1) - 1) * T = ((1 + u) ^ k - 1) * T + u * (T + ((1 + u) ^ k - 1) * T) := by rw [pow_succ]; ring
  rw [e]
  linarith

/-- A rounded sum of two results of accuracy `k`. -/
theorem add_step (hu : r.Unit u) {acc A B x t T : ℚ} {k : Nat} (ha : |acc - A| ≤ ((1 + u) ^ k - 1) * B) (hA : |A| ≤ B)
    (hx : |x - t| ≤ ((1 + u) ^ k - 1) * T) (ht : |t| ≤ T) :
    |r.fl (acc + x) - (A + t)| ≤ ((1 + u) ^ (k + 1) - 1) * (B + T) := by
  refine fl_step hu ?_ ((abs_add_le _ _).trans (by linarith))
  have : acc + x - (A + t) = (acc - A) + (x - t) := by ring
  rw [this]
  have := abs_add_le (acc - A) (x - t)
  linarith

theorem weaken (hu : 0 ≤ u) {x t T : ℚ} {k l : Nat} (hkl : k ≤ l) (hT : 0 ≤ T) (hx : |x - t| ≤ ((1 + u) ^ k - 1) * T) :
    |x - t| ≤ ((1 + u) ^ l - 1) * T :=
  hx.trans (mul_le_mul_of_nonneg_right (by linarith [pow_mono hu hkl]) hT)

/-- A running sum. -/
theorem foldl_round (hu : r.Unit u) {ι : Type} (x : ι → Fl r) (t T : ι → ℚ) (l : List ι) :
    ∀ (k : Nat) (acc : Fl r) (A B : ℚ), |acc.val - A| ≤ ((1 + u) ^ k - 1) * B → |A| ≤ B →
      (∀ i ∈ l, |(x i).val - t i| ≤ ((1 + u) ^ k - 1) * T i ∧ |t i| ≤ T i) →
      |(l.foldl (fun acc i => acc + x i) acc).val - (A + (l.map t).sum)| ≤ ((1 + u) ^ (k + l.length) - 1) * (B + (l.map T).sum) := by
  induction l with
  | nil => intro k acc A B ha _ _; simpa using ha
  | cons i l ih =>
    intro k acc A B ha hA hl
    obtain ⟨h1, h2⟩ := hl i (by simp)
    have hT : ∀ j ∈ i :: l, 0 ≤ T j := fun j hj => (abs_nonneg _).trans (hl j hj).2
    have h := ih (k + 1) (acc + x i) (A + t i) (B + T i) (add_step hu ha hA h1 h2) ((abs_add_le _ _).trans (by linarith))
      (fun j hj => ⟨weaken hu.nonneg (Nat.le_succ k) (hT j (by simp [hj])) (hl j (by simp [hj])).1, (hl j (by simp [hj])).2⟩)
    rw [List.foldl_cons, List.map_cons, List.map_cons, List.sum_cons, List.sum_cons, List.length_cons,
      show k + (l.length + 1) = k + 1 + l.length by omega, ← add_assoc A, ← add_assoc B]
    exact h

/-- A sum that starts from 0: the first addition is exact. -/
theorem sum_round (hu : r.Unit u) {ι : Type} (x : ι → Fl r) (t T : ι → ℚ) (l : List ι) (k : Nat)
    (hl : ∀ i ∈ l, |(x i).val - t i| ≤ ((1 + u) ^ k - 1) * T i ∧ |t i| ≤ T i) :
    |(l.foldl (fun acc i => acc + x i) 0).val - (l.map t).sum| ≤ ((1 + u) ^ (k + (l.length - 1)) - 1) * (l.map T).sum := by
  cases l with
  | nil => simp [Fl.val_zero]
  | cons i l =>
    obtain ⟨h1, h2⟩ := hl i (by simp)
    have e : (0 + x i : Fl r) = x i := Fl.ext (by rw [Fl.val_add, Fl.val_zero, zero_add, Fl.fl_val])
    rw [List.foldl_cons, e]
    have h := foldl_round hu x t T l k (x i) (t i) (T i) h1 h2 (fun j hj => hl j (by simp [hj]))
    simpa using h

/-- A sum of multiples of one power of two is exact while it has at most `p` digits. -/
theorem foldl_exact {p : Nat} (hp : 1 ≤ p) (k : Int) (x : Nat → Fl (Nearest.nearest p hp)) (z : Nat → Int) (l : List Nat)
    (hx : ∀ j ∈ l, (x j).val = z j * 2 ^ k) :
    ∀ (acc : Fl (Nearest.nearest p hp)) (a : Int), acc.val = a * 2 ^ k → |a| + (l.map fun j => |z j|).sum ≤ 2 ^ p →
      (l.foldl (fun acc j => acc + x j) acc).val = ((a + (l.map z).sum : Int) : ℚ) * 2 ^ k := by
  induction l with
  | nil => intro acc a ha _; simpa using ha
  | cons j l ih =>
    intro acc a ha hs
    rw [List.map_cons, List.sum_cons] at hs
    have hnn : 0 ≤ (l.map fun j => |z j|).sum := List.sum_nonneg (by simp)
    have habs := abs_add_le a (z j)
    have hacc : (acc + x j).val = ((a + z j : Int) : ℚ) * 2 ^ k := by
      rw [Fl.val_add, ha, hx j (by simp), ← add_mul]
      have := Nearest.fl_repr hp (a + z j) k (by linarith)
      push_cast at this ⊢
      exact this
    rw [List.foldl_cons, ih (fun i hi => hx i (by simp [hi])) _ _ hacc (by linarith), List.map_cons, List.sum_cons]
    push_cast
    ring

theorem list_sum_range (n : Nat) (f : Nat → ℚ) : ((List.range n).map f).sum = ∑ j ∈ Finset.range n, f j := by
  induction n with
  | zero => simp
  | succ n ih => rw [List.range_succ, Finset.sum_range_succ, ← ih]; simp

/-- The accuracy in the usual form. -/
theorem gamma_le (hu : 0 ≤ u) {n : Nat} (h : n * u ≤ 1 / 2) : (1 + u) ^ n - 1 ≤ 2 * n * u := by
  rcases Nat.eq_zero_or_pos n with rfl | hn
  · simp
  have hu1 : u ≤ 1 / 2 := by
    have : (1 : ℚ) ≤ n := by exact_mod_cast hn
    nlinarith
  have hb : 1 - n * u ≤ (1 - u) ^ n := by
    have := one_add_mul_le_pow (a := -u) (by linarith) n
    have e : 1 + (-u) = 1 - u := by ring
    rw [e] at this
    linarith
  have hprod : (1 + u) ^ n * (1 - u) ^ n ≤ 1 := by
    rw [← mul_pow]
    exact pow_le_one₀ (mul_nonneg (by linarith) (by linarith)) (by nlinarith)
  have hx := pow_ge_one hu n
  set x := (1 + u) ^ n
  have h1 : x * (1 - n * u) ≤ 1 := (mul_le_mul_of_nonneg_left hb (by linarith)).trans hprod
  have hnu : 0 ≤ n * u := by positivity
  have h2 : x ≤ 2 := by nlinarith
  nlinarith

end Round
end K52
