import Verif.Props.IeeeRosenbrock

/-!
# C115: the maximal step of the Rosenbrock method in IEEE arithmetic, the exact model, concrete cases
-/

set_option linter.unusedSectionVars false

namespace K52.IeeeRosenbrock

open IeeeGradient (Same)
open Rosenbrock (Config State)

section Float
open Flt IeeeGradient

variable {F : Format}
variable {l : Lib (Flt F)} {cfg : Config (Flt F)} {g : List (Flt F) → Flt F}

/-- The rounding error in the normal range. -/
theorem fl_normal_error {q : ℚ} (h : F.least ≤ |q|) : |F.fl q - q| ≤ |q| / 2 ^ F.p := by
  unfold Format.fl
  rw [if_neg (not_lt.2 h)]
  exact Nearest.fl_error q

theorem round_finite {q r : ℚ} (h : F.round (.num q) = .num r) : r = F.fl q ∧ |F.fl q| < 2 ^ F.emax := by
  simp only [Format.round] at h
  split_ifs at h with h1
  exact ⟨(Dbl.num.inj h).symm, h1⟩

/-- A corrected step: its value. -/
theorem corrected_val (hl : l.Good) {c : Flt F} {δ μ : ℚ} (hc : c.val = .num δ) (hm : cfg.maxStep.val = .num μ) (hμ : 0 ≤ μ) (hlt : μ < |δ|)
    (hfin : Finite (cfg.maxStep * c)) : (correctStep l cfg c).val = .num (F.fl (F.fl (μ * δ) / |δ|)) := by
  have habs := hl.abs_num _ _ hc
  unfold correctStep
  rw [if_pos (by
    show cfg.maxStep.val < (l.abs c).val
    rw [hm, habs]
    exact decide_eq_true hlt)]
  obtain ⟨q, hq⟩ := hfin
  have hq' := hq
  rw [val_mul, hm, hc] at hq'
  obtain ⟨rfl, hbound⟩ := round_finite (q := μ * δ) hq'
  have hpos : 0 < |δ| := lt_of_le_of_lt hμ hlt
  rw [val_div, hq, habs]
  show F.round (if |δ| = 0 then _ else .num (F.fl (μ * δ) / |δ|)) = _
  rw [if_neg hpos.ne']
  simp only [Format.round]
  rw [if_pos]
  obtain ⟨d1, _⟩ := Finite.repr hc
  obtain ⟨p1, _⟩ := Finite.repr hq
  rcases le_total 1 |δ| with h1 | h1
  · refine lt_of_le_of_lt (fl_abs_le (b := |F.fl (μ * δ)|) (by rw [← fl_abs, p1]) ?_) hbound
    rw [abs_div, abs_abs]
    exact div_le_self (abs_nonneg _) h1
  · have h2 : |F.fl (μ * δ)| ≤ |δ| := by
      refine fl_abs_le (by rw [← fl_abs, d1]) ?_
      rw [abs_mul, abs_of_nonneg hμ]
      exact mul_le_of_le_one_left hpos.le (by linarith)
    have h3 : F.fl 1 = 1 := by
      have := F.fl_repr 1 0 (by rw [abs_one]; exact one_le_pow₀ (by norm_num)) (by have := F.emin_le; omega)
      simpa using this
    refine lt_of_le_of_lt (fl_abs_le (b := 1) h3 ?_) (one_lt_zpow₀ (by norm_num) (by have := F.le_emax; omega))
    rw [abs_div, abs_abs]
    exact (div_le_one hpos).2 h2

/-- A corrected step: its sign. -/
theorem corrected_sign {δ μ : ℚ} (hμ : 0 ≤ μ) : 0 ≤ F.fl (F.fl (μ * δ) / |δ|) * δ := by
  have z := F.fl_zero
  rcases le_total 0 δ with h | h
  · have h1 := F.fl_mono (mul_nonneg hμ h)
    rw [z] at h1
    have h2 := F.fl_mono (div_nonneg h1 (abs_nonneg δ))
    rw [z] at h2
    exact mul_nonneg h2 h
  · have h1 := F.fl_mono (mul_nonpos_of_nonneg_of_nonpos hμ h)
    rw [z] at h1
    have h2 := F.fl_mono (div_nonpos_of_nonpos_of_nonneg h1 (abs_nonneg δ))
    rw [z] at h2
    exact mul_nonneg_of_nonpos_of_nonpos h2 h

/-- A corrected step: its size. -/
theorem corrected_size {δ μ : ℚ} (hμ : 2 * F.least ≤ μ) (hlt : μ < |δ|) (hn : F.least ≤ μ * |δ|) :
    |(|F.fl (F.fl (μ * δ) / |δ|)|) - μ| ≤ ((1 + 1 / 2 ^ F.p) ^ 2 - 1) * μ := by
  have hleast := F.least_pos
  have hμ0 : 0 < μ := by linarith
  have hpos : 0 < |δ| := hμ0.trans hlt
  have hp4 : (4 : ℚ) ≤ 2 ^ F.p := by
    calc (4 : ℚ) = 2 ^ 2 := by norm_num
      _ ≤ 2 ^ F.p := pow_le_pow_right₀ (by norm_num) F.two_le_p
  set u : ℚ := 1 / 2 ^ F.p with hu
  have hu0 : 0 < u := by positivity
  have hu4 : u ≤ 1 / 4 := one_div_le_one_div_of_le (by norm_num) hp4
  rw [fl_abs, abs_div, abs_abs, fl_abs, abs_mul, abs_of_pos hμ0]
  have e1 : |F.fl (μ * |δ|) - μ * (|δ|)| ≤ (μ * |δ|) * u := by
    have := fl_normal_error (F := F) (q := μ * |δ|) (by rwa [abs_of_pos (mul_pos hμ0 hpos)])
    rwa [abs_of_pos (mul_pos hμ0 hpos), div_eq_mul_one_div] at this
  set P := F.fl (μ * |δ|) with hP
  have e2 : |P / |δ| - μ| ≤ μ * u := by
    have : P / |δ| - μ = (P - μ * |δ|) / |δ| := by field_simp
    rw [this, abs_div, abs_abs, div_le_iff₀ hpos]
    linarith
  obtain ⟨l2, r2⟩ := abs_le.1 e2
  have hq : 3 / 4 * μ ≤ P / |δ| := by nlinarith
  have hqp : 0 < P / |δ| := by linarith
  have e3 := fl_normal_error (F := F) (q := P / |δ|) (by rw [abs_of_pos hqp]; linarith)
  rw [abs_of_pos hqp, div_eq_mul_one_div _ ((2 : ℚ) ^ F.p), ← hu] at e3
  obtain ⟨l3, r3⟩ := abs_le.1 e3
  rw [abs_le]
  constructor <;> nlinarith

/-- The new steps of the first iteration are finite if the increased step and its product with the maximal step are. -/
theorem first_finite (hl : l.Good) {σ μ : ℚ} (hs : cfg.firstStep.val = .num σ) (hm : cfg.maxStep.val = .num μ) (hμ : 0 ≤ μ)
    (hfin : Finite (cfg.firstStep * l.increase)) (hfin2 : Finite (cfg.maxStep * (cfg.firstStep * l.increase)))
    (initial : List (Flt F)) (i : Nat) (x : Flt F) :
    ∃ δ, (choice l cfg g initial i x).val = .num δ ∧ Finite (cfg.maxStep * choice l cfg g initial i x) := by
  rcases choice_cases l cfg g initial i x with e | e <;> rw [e]
  · exact ⟨_, hfin.choose_spec, hfin2⟩
  · obtain ⟨d1, _⟩ := decrease_val hl hs
    refine ⟨_, d1, ?_⟩
    obtain ⟨q, hq⟩ := hfin
    obtain ⟨t, ht⟩ := hfin2
    have hq' := hq
    rw [val_mul, hs, hl.increase] at hq'
    obtain ⟨rfl, _⟩ := round_finite (q := σ * (3 / 2)) hq'
    rw [val_mul, hm, hq] at ht
    obtain ⟨rfl, hb⟩ := round_finite (q := μ * F.fl (σ * (3 / 2))) ht
    refine ⟨F.fl (μ * F.fl (σ * (-1 / 2))), ?_⟩
    rw [val_mul, hm, d1]
    show F.round (.num (μ * F.fl (σ * (-1 / 2)))) = _
    simp only [Format.round]
    rw [if_pos]
    refine lt_of_le_of_lt ?_ hb
    rw [fl_abs, fl_abs]
    refine F.fl_mono ?_
    rw [abs_mul, abs_mul, fl_abs, fl_abs]
    refine mul_le_mul_of_nonneg_left (F.fl_mono ?_) (abs_nonneg _)
    rw [abs_mul, abs_mul, show |(-1 / 2 : ℚ)| = 1 / 2 by norm_num, show |(3 / 2 : ℚ)| = 3 / 2 by norm_num]
    linarith [abs_nonneg σ]

/-- **C115 (one iteration, the maximal step).** With the limit 1 and products that do not overflow, coordinate `i` of the start is moved by a step `c`: 1.5 or
-0.5 times the first step, as the function tells, if that is at most the maximal step in absolute value; otherwise a step with the same sign (or zero)
whose absolute value is, in the normal range, the maximal step up to two roundings - it may be larger. -/
theorem C115_max_step (hl : l.Good) (hlim : cfg.maxIterations = 1) {σ μ : ℚ} (hs : cfg.firstStep.val = .num σ) (hm : cfg.maxStep.val = .num μ) (hμ : 0 ≤ μ)
    (hfin : Finite (cfg.firstStep * l.increase)) (hfin2 : Finite (cfg.maxStep * (cfg.firstStep * l.increase))) (initial : List (Flt F)) :
    ∃ r, (find l cfg initial).eval g = .ok r ∧ r.length = initial.length ∧ ∀ i x, initial[i]? = some x →
      ∃ c γ chosen δ, r[i]? = some (x + c) ∧ c.val = .num γ ∧ chosen.val = .num δ ∧
        chosen = (if g (initial.set i (x + cfg.firstStep)) < g initial then cfg.firstStep * l.increase else cfg.firstStep * l.decrease) ∧
        (|δ| ≤ μ → c = chosen) ∧
        (μ < |δ| → 0 ≤ γ * δ ∧ (2 * F.least ≤ μ → F.least ≤ μ * |δ| → |(|γ|) - μ| ≤ ((1 + 1 / 2 ^ F.p) ^ 2 - 1) * μ)) := by
  have hstep : ∀ i x, Finite (correctStep l cfg (choice l cfg g initial i x)) := by
    intro i x
    obtain ⟨δ, hδ, hp⟩ := first_finite (g := g) hl hs hm hμ hfin hfin2 initial i x
    rcases lt_or_ge μ |δ| with h | h
    · exact ⟨_, corrected_val hl hδ hm hμ h hp⟩
    · unfold correctStep
      rw [if_neg (Flt.not_lt_of_le (num_le_of (hl.abs_num _ _ hδ) hm h))]
      exact ⟨_, hδ⟩
  have hall : ∀ d ∈ firstSteps l cfg g initial, Finite d := by
    intro a ha
    obtain ⟨i, hi, rfl⟩ := List.mem_iff_getElem.1 ha
    simp only [firstSteps, List.getElem_mapIdx]
    exact hstep _ _
  have hres : (find l cfg initial).eval g = .ok (List.zipWith (· + ·) initial (firstSteps l cfg g initial)) := by
    unfold find
    rw [hlim]
    unfold loop
    rw [Prog.eval_bind, first_iteration ⟨_, hs⟩, Res.ok_bind, first_point initial hall]
    dsimp only
    split_ifs <;> rfl
  refine ⟨_, hres, by simp [firstSteps], fun i x hx => ?_⟩
  obtain ⟨δ, hδ, hp⟩ := first_finite (g := g) hl hs hm hμ hfin hfin2 initial i x
  obtain ⟨γ, hγ⟩ := hstep i x
  refine ⟨correctStep l cfg (choice l cfg g initial i x), γ, choice l cfg g initial i x, δ, zipWith_first initial _ hx, hγ, hδ, rfl, fun h => ?_, fun h => ?_⟩
  · unfold correctStep
    rw [if_neg (Flt.not_lt_of_le (num_le_of (hl.abs_num _ _ hδ) hm h))]
  · have := corrected_val hl hδ hm hμ h hp
    rw [hγ] at this
    rw [Dbl.num.inj this]
    exact ⟨corrected_sign hμ, fun h1 h2 => corrected_size h1 h h2⟩

/-- **C115 (no improvement seen).** If the value at the start is NaN, or no step along a coordinate improves it, then with the limit 1 and a first step whose
half is at most the maximal step every coordinate is moved by -0.5 times the first step. -/
theorem C115_retreat (hl : l.Good) (hlim : cfg.maxIterations = 1) {σ : ℚ} (hs : cfg.firstStep.val = .num σ)
    (hmax : l.abs (cfg.firstStep * l.decrease) ≤ cfg.maxStep) (initial : List (Flt F))
    (hg : ∀ i x, initial[i]? = some x → ¬ g (initial.set i (x + cfg.firstStep)) < g initial) :
    (find l cfg initial).eval g = .ok (initial.map (· + cfg.firstStep * l.decrease)) := by
  have hchoice : ∀ i x, initial[i]? = some x → correctStep l cfg (choice l cfg g initial i x) = cfg.firstStep * l.decrease := by
    intro i x hx
    unfold choice
    rw [if_neg (hg i x hx)]
    unfold correctStep
    rw [if_neg (Flt.not_lt_of_le hmax)]
  have hfs : firstSteps l cfg g initial = initial.map fun _ => cfg.firstStep * l.decrease := by
    unfold firstSteps
    refine List.ext_getElem (by simp) fun i h1 h2 => ?_
    rw [List.getElem_mapIdx, List.getElem_map]
    exact hchoice _ _ (List.getElem?_eq_getElem _)
  have hall : ∀ d ∈ firstSteps l cfg g initial, Finite d := by
    intro d hd
    rw [hfs] at hd
    obtain ⟨_, _, rfl⟩ := List.mem_map.1 hd
    exact ⟨_, (decrease_val hl hs).1⟩
  unfold find
  rw [hlim]
  unfold loop
  rw [Prog.eval_bind, first_iteration ⟨_, hs⟩, Res.ok_bind, first_point initial hall, hfs]
  have e : List.zipWith (· + ·) initial (initial.map fun _ => cfg.firstStep * l.decrease) = initial.map (· + cfg.firstStep * l.decrease) := by
    refine List.ext_getElem (by simp) fun i h1 h2 => ?_
    simp
  rw [e]
  dsimp only
  split_ifs <;> rfl

end Float

/-! ## Exact numbers -/

section Exact
variable {R : Type} [Field R] [LinearOrder R]

/-- The library of the exact model. -/
def exact (sqrt : R → R) : Lib R := ⟨fun x => |x|, sqrt, Rosenbrock.increase, Rosenbrock.decrease⟩

theorem stepLoop_exact (sqrt : R → R) (cfg : Config R) (start : R) (a : List R) : ∀ (steps : List R) (basis : List (List R)) (t : List R),
    stepLoop (exact sqrt) cfg start a steps basis t = Rosenbrock.stepLoop cfg start a steps basis t
  | [], [], _ => rfl
  | [], _ :: _, _ => rfl
  | _ :: _, [], _ => rfl
  | s :: steps, d :: basis, t => by
    unfold stepLoop Rosenbrock.stepLoop
    simp only [stepLoop_exact sqrt cfg start a steps basis]
    rfl

theorem normalize_exact (sqrt : R → R) (v : List R) : normalize (exact sqrt) v = Rosenbrock.normalize sqrt v := by
  unfold normalize Rosenbrock.normalize
  have : ∀ t : R, Same t 0 ↔ t = 0 := fun t => ⟨fun h => le_antisymm h.1 h.2, fun h => ⟨h.le, h.ge⟩⟩
  simp only [this]
  rfl

theorem gramSchmidt_exact (sqrt : R → R) : ∀ (rows found : List (List R)), gramSchmidt (exact sqrt) found rows = Rosenbrock.gramSchmidt sqrt found rows
  | [], _ => rfl
  | row :: rows, found => by
    unfold gramSchmidt Rosenbrock.gramSchmidt
    rw [normalize_exact, gramSchmidt_exact sqrt rows]
    rfl

theorem loop_exact (sqrt : R → R) (cfg : Config R) (g : List R → R) : ∀ (k : Nat) (s : State R) (a : List R),
    (loop (exact sqrt) cfg k s a).eval g = ((Rosenbrock.loop sqrt cfg k s a).eval g >>= fun t => .ok t.1)
  | 0, _, _ => rfl
  | k + 1, s, a => by
    unfold loop Rosenbrock.loop
    have hm : (makeStep (exact sqrt) cfg s a).eval g = (Rosenbrock.makeStep cfg s a).eval g := by
      unfold makeStep Rosenbrock.makeStep
      have hsort : sortSteps s.steps = .ok (s.steps.insertionSort (· ≥ ·)) := if_pos (.inl fun x _ => le_refl x)
      simp only [Prog.eval_bind, hsort, stepLoop_exact]
      rfl
    rw [Prog.eval_bind, Prog.eval_bind, hm]
    cases h : (Rosenbrock.makeStep cfg s a).eval g with
    | ok r =>
      simp only [Res.ok_bind]
      have he : exitCriteria (exact sqrt) cfg r.1 a = Rosenbrock.exitCriteria cfg r.1 a := rfl
      have hb : createNewBasis (exact sqrt) a.length r.2 s.basis = Rosenbrock.createNewBasis sqrt a.length r.2 s.basis :=
        gramSchmidt_exact sqrt _ _
      rw [he, hb]
      split_ifs
      · rfl
      · rw [loop_exact sqrt cfg g k, Prog.eval_bind]
        cases (Rosenbrock.loop sqrt cfg k ⟨Rosenbrock.createNewBasis sqrt a.length r.2 s.basis, r.2⟩ r.1).eval g <;> rfl
    | throw e => rfl
    | ub => rfl

/-- **C115.** With exact numbers this model is the one of C48 and C66. -/
theorem C115_exact (sqrt : R → R) (cfg : Config R) (g : List R → R) (initial : List R) :
    (find (exact sqrt) cfg initial).eval g = (Rosenbrock.find sqrt cfg initial).eval g := by
  unfold find Rosenbrock.find Rosenbrock.run
  rw [loop_exact, Prog.eval_bind]
  rfl

end Exact

/-! ## Concrete cases -/

section Examples
open Flt IeeeGradient

/-- The library in `double`. -/
def lib64 : Lib (Flt binary64) := ⟨abs64, sqrt64, f64 (3 / 2), f64 (-1 / 2)⟩

theorem lib64_good : lib64.Good where
  abs_nan := by decide +kernel
  abs_num := by
    intro x q h
    show (abs64 x).val = _
    unfold abs64
    rcases lt_or_ge q 0 with hq | hq
    · rw [if_pos (by
        show x.val < (0 : Flt binary64).val
        rw [h, val_zero]
        exact decide_eq_true hq), abs_of_neg hq]
      show (-x).val = _
      obtain ⟨r1, r2⟩ := Finite.repr h
      rw [val_neg, h]
      show binary64.round (.num (-q)) = _
      simp only [Format.round]
      rw [binary64.fl_neg, r1, abs_neg, if_pos r2]
    · rw [if_neg (Flt.not_lt_of_le (num_le_of val_zero h hq)), abs_of_nonneg hq]
      exact h
  abs_inf := by
    intro x s h
    have : x = rnd (.inf s) := ext h
    subst this
    revert s
    decide +kernel
  sqrt_zero := by decide +kernel
  sqrt_inf := by
    intro x h
    have : x = rnd (.inf false) := ext h
    subst this
    decide +kernel
  increase := by decide +kernel
  decrease := by decide +kernel

/-- Minus the coordinate: every step forward improves. -/
def minus (v : List (Flt binary64)) : Flt binary64 :=
  match v with
  | [x] => -x
  | _ => nanF

/-- The maximal step is exceeded: with the maximal step 0.1 and the first step 1 the point moves from 0 by `0.1 + 2^-56`. -/
example : (find lib64 ⟨f64 (1 / 10 ^ 4), 1, f64 1, f64 (1 / 10)⟩ [f64 0]).eval minus = .ok [f64 (1 / 10) + f64 (1 / 2 ^ 56)] ∧
    f64 (1 / 10) < f64 (1 / 10) + f64 (1 / 2 ^ 56) := by decide +kernel

/-- ... and `C115_max_step` applies. -/
example : ∃ r, (find lib64 ⟨f64 (1 / 10 ^ 4), 1, f64 1, f64 (1 / 10)⟩ [f64 0]).eval minus = .ok r ∧ r.length = 1 := by
  obtain ⟨r, h1, h2, _⟩ := C115_max_step (g := minus) (cfg := ⟨f64 (1 / 10 ^ 4), 1, f64 1, f64 (1 / 10)⟩) lib64_good rfl
    (σ := 1) (μ := binary64.fl (1 / 10)) (by decide +kernel) (by decide +kernel) (by decide +kernel) ⟨3 / 2, by decide +kernel⟩
    ⟨binary64.fl (binary64.fl (1 / 10) * (3 / 2)), by decide +kernel⟩ [f64 0]
  exact ⟨r, h1, h2⟩

/-- `x²` from 1 with the step 1: three iterations. -/
example : (find lib64 ⟨f64 (1 / 10 ^ 4), 3, f64 1, f64 10⟩ [f64 1]).eval square = .ok [f64 (-1 / 8)] := by decide +kernel

/-- A first step of `2^-540`: one iteration, although the precision is 0. -/
example : (find lib64 ⟨f64 0, 1000000, f64 (1 / 2 ^ 540), f64 1⟩ [f64 0]).eval minus = .ok [f64 (3 / 2 ^ 541)] := by
  obtain ⟨r, h1, h2, h3⟩ := C115_small (g := minus) (cfg := ⟨f64 0, 1000000, f64 (1 / 2 ^ 540), f64 1⟩) lib64_good (by decide)
    (σ := 1 / 2 ^ 540) (by decide +kernel) (by decide +kernel) (by decide +kernel) [f64 0]
  rw [h1]
  match r, h2 with
  | [y], _ =>
    have := Option.some.inj (h3 0 (f64 0) rfl)
    rw [this]
    decide +kernel

/-- A first step of `2^600`: one iteration. -/
example : (find lib64 ⟨f64 0, 1000000, f64 (2 ^ 600), f64 (2 ^ 700)⟩ [f64 0]).eval minus = .ok [f64 (3 * 2 ^ 599)] := by
  obtain ⟨r, h1, h2, h3⟩ := C115_large (g := minus) (cfg := ⟨f64 0, 1000000, f64 (2 ^ 600), f64 (2 ^ 700)⟩) lib64_good (by decide)
    (σ := 2 ^ 600) (by decide +kernel) (by decide +kernel) ⟨3 * 2 ^ 599, by decide +kernel⟩ (by decide +kernel) [f64 0]
  rw [h1]
  match r, h2 with
  | [y], _ =>
    have := Option.some.inj (h3 0 (f64 0) rfl)
    rw [this]
    decide +kernel

/-- A first step of `2^600` and the maximal step `2^500`: the product overflows and no coordinate is finite. -/
example (g : List (Flt binary64) → Flt binary64) : ∃ r, (find lib64 ⟨f64 0, 1000000, f64 (2 ^ 600), f64 (2 ^ 500)⟩ [f64 0, f64 1]).eval g = .ok r ∧
    r.length = 2 ∧ ∀ y ∈ r, ¬ y.Finite := by
  refine C115_overflow (cfg := ⟨f64 0, 1000000, f64 (2 ^ 600), f64 (2 ^ 500)⟩) lib64_good (by decide) [f64 0, f64 1] (i := 0) (x := f64 0) rfl
    ⟨2 ^ 600, by decide +kernel⟩ (μ := 2 ^ 500) (δ := if g ([f64 0, f64 1].set 0 (f64 0 + f64 (2 ^ 600))) < g [f64 0, f64 1] then 3 * 2 ^ 599 else -(2 ^ 599))
    (by decide +kernel) ?_ ?_ ?_
  all_goals
    split_ifs with h
    all_goals first | decide +kernel | skip

/-- A start with the value NaN: the point moves by -0.5. -/
example : (find lib64 ⟨f64 0, 1, f64 1, f64 1⟩ [f64 0, f64 3]).eval (fun _ => nanF) = .ok [f64 (-1 / 2), f64 (5 / 2)] := by
  rw [C115_retreat (cfg := ⟨f64 0, 1, f64 1, f64 1⟩) lib64_good rfl (σ := 1) (by decide +kernel) (by decide +kernel) [f64 0, f64 3]
    (fun _ _ _ => by decide +kernel)]
  decide +kernel

end Examples

end K52.IeeeRosenbrock
