import Verif.Model.IeeeGradient
import Verif.Model.GradientProg

/-!
# The models of the gradient methods in any arithmetic, read over the exact reals, are the models of C71–C75, C80, C81
-/

namespace K52.IeeeGradient

/-- `abs` over the exact reals. -/
noncomputable def Sd.exact (a : Gradient.Sd.AbsImpl) : Sd.Lib ℝ :=
  ⟨Gradient.Sd.kAlpha, Gradient.Sd.constriction, fun x => .ok (a.eval x), Real.sqrt⟩

theorem derivative_exact (h : ℝ) (p : List ℝ) (i : Nat) : derivative h (h / 2) p i = GradientProg.derivative h p i := by
  unfold derivative GradientProg.derivative
  cases p[i]? <;> rfl

theorem gradientLoop_exact (h : ℝ) (p : List ℝ) : ∀ k i, gradientLoop h (h / 2) p k i = GradientProg.gradientLoop h p k i
  | 0, _ => rfl
  | k + 1, i => by
    unfold gradientLoop GradientProg.gradientLoop
    rw [derivative_exact]
    simp only [gradientLoop_exact h p k]

theorem gradient_exact (h : ℝ) (p : List ℝ) : gradient h (h / 2) p = GradientProg.gradient h p := gradientLoop_exact h p _ _

theorem shrink_exact (a : Gradient.Sd.AbsImpl) (precision : ℝ) (p d : List ℝ) :
    ∀ fuel step, Sd.shrink (Sd.exact a) precision p d fuel step = GradientProg.Sd.shrink a precision p d fuel step
  | 0, _ => rfl
  | fuel + 1, step => by
    unfold Sd.shrink GradientProg.Sd.shrink
    simp only [shrink_exact a precision p d fuel]
    refine congrArg _ (funext fun v => congrArg _ (funext fun w => ?_))
    by_cases h1 : v > w
    · by_cases h2 : a.eval (step / 2) > precision
      · rw [if_pos h1, if_pos ⟨h1, h2⟩]
        exact if_pos h2
      · rw [if_pos h1, if_neg (fun h => h2 h.2)]
        exact if_neg h2
    · rw [if_neg h1, if_neg (fun h => h1 h.1)]

theorem expand_exact (a : Gradient.Sd.AbsImpl) (p d : List ℝ) :
    ∀ fuel step next, Sd.expand (Sd.exact a) p d fuel step next = GradientProg.Sd.expand p d fuel step next
  | 0, _, _ => rfl
  | fuel + 1, step, next => by
    unfold Sd.expand GradientProg.Sd.expand
    simp only [expand_exact a p d fuel]
    rfl

theorem golden_exact (a : Gradient.Sd.AbsImpl) (precision : ℝ) (p d : List ℝ) :
    ∀ fuel b, Sd.golden (Sd.exact a) precision p d fuel b = GradientProg.Sd.golden a precision p d fuel b
  | 0, _ => rfl
  | fuel + 1, b => by
    unfold Sd.golden GradientProg.Sd.golden
    simp only [golden_exact a precision p d fuel]
    refine congrArg _ (funext fun v => congrArg _ (funext fun w => ?_))
    have hs : ∀ x y : ℝ, Same x y ↔ x = y := fun x y => (le_antisymm_iff).symm
    by_cases h : (Gradient.Sd.narrow b v w).left = b.left ∧ (Gradient.Sd.narrow b v w).right = b.right
    · rw [if_pos h]
      exact if_pos ⟨(hs _ _).2 h.1, (hs _ _).2 h.2⟩
    · rw [if_neg h]
      exact if_neg (fun h' => h ⟨(hs _ _).1 h'.1, (hs _ _).1 h'.2⟩)

/-- **C111.** With exact numbers the model is the one of C73–C75 and C80. -/
theorem C111_exact (a : Gradient.Sd.AbsImpl) (cfg : Gradient.Sd.Config) (fuel : Nat) (p : List ℝ) :
    Sd.find (Sd.exact a) ⟨cfg.increment, cfg.maxIterations, cfg.precision⟩ fuel p = GradientProg.Sd.find a cfg fuel p := by
  have half : Sd.Config.half (⟨cfg.increment, cfg.maxIterations, cfg.precision⟩ : Sd.Config ℝ) = cfg.increment / 2 := by
    unfold Sd.Config.half
    ring
  have loc : ∀ fuel p s d, Sd.localization (Sd.exact a) cfg.precision fuel p s d = GradientProg.Sd.localization a cfg.precision fuel p s d := by
    intro fuel p s d
    unfold Sd.localization GradientProg.Sd.localization
    simp only [shrink_exact, expand_exact]
    rfl
  have search : ∀ fuel p s d, Sd.goldenSectionSearch (Sd.exact a) cfg.precision fuel p s d
      = GradientProg.Sd.goldenSectionSearch a cfg.precision fuel p s d := by
    intro fuel p s d
    unfold Sd.goldenSectionSearch GradientProg.Sd.goldenSectionSearch
    simp only [loc, golden_exact]
    rfl
  have out : ∀ fuel l p k, Sd.outer (Sd.exact a) ⟨cfg.increment, cfg.maxIterations, cfg.precision⟩ fuel l p k
      = GradientProg.Sd.outer a cfg fuel l p k := by
    intro fuel
    induction fuel with
    | zero => exact fun _ _ _ => rfl
    | succ fuel ih =>
      intro l p k
      unfold Sd.outer GradientProg.Sd.outer
      simp only [half, gradient_exact, search, ih]
      rfl
  exact out fuel 1 p 0

end K52.IeeeGradient
