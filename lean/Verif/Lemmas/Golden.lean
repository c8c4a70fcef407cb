import Verif.Model.Gradient

/-!
# One round of the golden-section search over the exact reals
-/

namespace K52.Gradient.Sd

variable {n : Nat}

theorem golden_zero (a : AbsImpl) (precision : ℝ) (f : Vec n → ℝ) (p d : Vec n) (b : Borders) : golden a precision f p d 0 b = none := rfl

/-- One round, with `narrow`. -/
theorem golden_round (a : AbsImpl) (precision : ℝ) (f : Vec n → ℝ) (p d : Vec n) (fuel : Nat) (b : Borders) :
    golden a precision f p d (fuel + 1) b =
      if (narrow b (f (along p b.nextLeft d)) (f (along p b.nextRight d))).left = b.left ∧
        (narrow b (f (along p b.nextLeft d)) (f (along p b.nextRight d))).right = b.right then
        some (((narrow b (f (along p b.nextLeft d)) (f (along p b.nextRight d))).left +
          (narrow b (f (along p b.nextLeft d)) (f (along p b.nextRight d))).right) / 2)
      else if a.eval ((narrow b (f (along p b.nextLeft d)) (f (along p b.nextRight d))).left -
          (narrow b (f (along p b.nextLeft d)) (f (along p b.nextRight d))).right) > precision then
        golden a precision f p d fuel (narrow b (f (along p b.nextLeft d)) (f (along p b.nextRight d)))
      else some (((narrow b (f (along p b.nextLeft d)) (f (along p b.nextRight d))).left +
          (narrow b (f (along p b.nextLeft d)) (f (along p b.nextRight d))).right) / 2) := by
  have e : @narrowBy ℝ _ _ _ _ _ constriction b (f (along p b.nextLeft d) > f (along p b.nextRight d)) (f (along p b.nextRight d) > f (along p b.nextLeft d))
      (Classical.dec _) (Classical.dec _) = narrow b (f (along p b.nextLeft d)) (f (along p b.nextRight d)) := by
    unfold narrow
    congr 1
  unfold golden
  conv_lhs => unfold goldenBy
  simp only
  rw [e]

end K52.Gradient.Sd
