import Verif.Lemmas.Double
import Verif.Lemmas.Continuous
import Verif.Model.IeeeGradient

/-!
# C111: steepest descent in IEEE arithmetic, with overflow and NaN
-/

namespace K52.IeeeGradient

open Flt

variable {F : Format}

/-! ## Loops -/

theorem gradientLoop_const {h half v : Flt F} {g : List (Flt F) → Flt F} {p : List (Flt F)}
    (hv : ∀ i x, p[i]? = some x → (g (p.set i (x + half)) - g (p.set i (x - half))) / h = v) :
    ∀ k i, i + k = p.length → (gradientLoop h half p k i).eval g = .ok (List.replicate k v)
  | 0, i, _ => rfl
  | k + 1, i, hk => by
    have hi : i < p.length := by omega
    have hx : p[i]? = some p[i] := List.getElem?_eq_getElem hi
    have hd : (derivative h half p i).eval g = .ok v := by
      unfold derivative
      rw [hx]
      simp only [Prog.eval_bind, Prog.eval_askMin, Res.ok_bind, Prog.pure_def, Prog.eval_done]
      rw [hv i _ hx]
    unfold gradientLoop
    rw [Prog.eval_bind, hd]
    simp only [Res.ok_bind]
    rw [Prog.eval_bind, gradientLoop_const hv k (i + 1) (by omega)]
    rfl

theorem gradient_const {h half v : Flt F} {g : List (Flt F) → Flt F} {p : List (Flt F)}
    (hv : ∀ i x, p[i]? = some x → (g (p.set i (x + half)) - g (p.set i (x - half))) / h = v) :
    (gradient h half p).eval g = .ok (List.replicate p.length v) := gradientLoop_const hv _ _ (by omega)

theorem along_zero {t : Flt F} (ht : Finite t) : ∀ p : List (Flt F), along p t (List.replicate p.length 0) = p
  | [] => rfl
  | x :: xs => by
    have := along_zero ht xs
    simp only [along, List.length_cons, List.replicate_succ, List.zipWith_cons_cons] at this ⊢
    rw [this, mul_zero ht, add_zero]

theorem along_inf {t : Flt F} {s : Bool} (ht : t.val = .inf s) : ∀ p : List (Flt F),
    along p t (List.replicate p.length 0) = List.replicate p.length nanF
  | [] => rfl
  | x :: xs => by
    have := along_inf ht xs
    simp only [along, List.length_cons, List.replicate_succ, List.zipWith_cons_cons] at this ⊢
    rw [this, inf_mul_zero ht, add_nanF]

theorem along_nan : ∀ (p d : List (Flt F)), d.length = p.length → along p nanF d = List.replicate p.length nanF
  | [], _, _ => by simp [along]
  | x :: xs, [], h => by simp at h
  | x :: xs, y :: ys, h => by
    have := along_nan xs ys (by simpa using h)
    simp only [along, List.length_cons, List.replicate_succ, List.zipWith_cons_cons] at this ⊢
    rw [this, nanF_mul, add_nanF]

theorem foldl_nan (f : Flt F → Flt F → Flt F) (hf : ∀ x, f nanF x = nanF) : ∀ l : List (Flt F), l.foldl f nanF = nanF
  | [] => rfl
  | x :: xs => by rw [List.foldl_cons, hf]; exact foldl_nan f hf xs

theorem set_nan (n i : Nat) : (List.replicate n (nanF : Flt F)).set i nanF = List.replicate n nanF := by
  apply List.ext_getElem
  · simp
  · intro j h1 h2
    rw [List.getElem_set]
    split <;> simp

/-- The gradient at a point of NaNs. -/
theorem gradient_nan (h half : Flt F) {g : List (Flt F) → Flt F} {n : Nat} (hg : g (List.replicate n nanF) = nanF) :
    (gradient h half (List.replicate n nanF)).eval g = .ok (List.replicate n nanF) := by
  have := gradient_const (h := h) (half := half) (v := nanF) (g := g) (p := List.replicate n nanF) (fun i x hx => by
    have hx' : x = nanF := by
      obtain ⟨hi, e⟩ := List.getElem?_eq_some_iff.1 hx
      rw [← e]; simp
    subst hx'
    rw [nanF_add, nanF_sub, set_nan, hg, nanF_sub, nanF_div])
  rwa [List.length_replicate] at this

namespace Sd

variable (l : Lib (Flt F)) (cfg : Config (Flt F)) (g : List (Flt F) → Flt F) (p : List (Flt F))

theorem squares_nan {n : Nat} (hn : n ≠ 0) : squares (List.replicate n (nanF : Flt F)) = nanF := by
  obtain ⟨m, rfl⟩ := Nat.exists_eq_succ_of_ne_zero hn
  unfold squares
  rw [List.replicate_succ, List.foldl_cons, nanF_mul, add_nanF]
  exact foldl_nan (fun s x => s + x * x) (fun x => nanF_add _) _

/-- The second loop of `Localization` with direction 0 ends when the step overflows. -/
theorem expand_zero {k : ℚ} (hα : l.kAlpha.val = .num k) (hk : 3 / 2 ≤ k) (hval : ¬ nan (g p)) (hnan : g (List.replicate p.length nanF) = nanF) :
    ∀ (m : Nat) (step : Flt F) (q : ℚ), step.val = .num q → 1 ≤ q → 2 ^ F.emax ≤ q * (9 / 8) ^ m → ∀ fuel, m ≤ fuel →
      (expand l p (List.replicate p.length 0) fuel step p).eval g = .ok (List.replicate p.length nanF)
  | 0, step, q, hs, hq, hm, _, _ => by
    have := (Finite.repr hs).2
    rw [abs_of_pos (by linarith)] at this
    simp at hm
    linarith
  | m + 1, step, q, hs, hq, hm, fuel, hf => by
    obtain ⟨fuel, rfl⟩ : ∃ j, fuel = j + 1 := ⟨fuel - 1, by omega⟩
    unfold expand
    simp only [Prog.eval_bind, Prog.eval_askMin, Res.ok_bind]
    rcases grow hs hq hα hk with h | ⟨q', h, hq'⟩
    · rw [along_inf h, hnan, if_neg (not_nanF_le _)]
      rfl
    · rw [along_zero ⟨q', h⟩, if_pos (IeeeOrder.le_iff.2 ⟨hval, hval, IeeeOrder.lt_irrefl _⟩)]
      refine expand_zero hα hk hval hnan m _ q' h (by linarith) ?_ fuel (by omega)
      rw [pow_succ] at hm
      have : q * (9 / 8) * (9 / 8) ^ m ≤ q' * (9 / 8) ^ m := mul_le_mul_of_nonneg_right (by linarith) (by positivity)
      linarith

/-- The golden-section search between 0 and NaN. -/
theorem golden_nan (precision : Flt F) (d : List (Flt F)) (habs : l.abs nanF = .ok nanF)
    (fuel : Nat) : (golden l precision p d (fuel + 1) ⟨0, nanF, nanF, nanF⟩).eval g = .ok nanF := by
  unfold golden
  simp only [Prog.eval_bind, Prog.eval_askMin, Res.ok_bind]
  have hb : Gradient.Sd.narrowBy l.constriction ⟨0, nanF, nanF, nanF⟩ (g (along p nanF d) > g (along p nanF d)) (g (along p nanF d) > g (along p nanF d)) =
      ⟨0, nanF, nanF, nanF⟩ := by
    unfold Gradient.Sd.narrowBy
    simp only
    rw [if_neg (not_nanF_lt _), if_neg (IeeeOrder.lt_irrefl _)]
    simp
  rw [hb]
  simp only
  rw [if_neg (fun h => not_nanF_le _ h.2.1), sub_nanF, habs]
  simp only [Prog.eval_bind, Prog.eval_lift, Res.ok_bind]
  rw [if_neg (not_lt_nanF _)]
  simp

end Sd

/-! ## C111 -/

/-- What is assumed of the library: `kAlpha` is at least 3/2, and `abs` (the one for `double`) and `sqrt` of NaN are NaN. -/
structure Sd.Lib.Good (l : Sd.Lib (Flt F)) : Prop where
  alpha : ∃ k, l.kAlpha.val = .num k ∧ 3 / 2 ≤ k
  abs_nan : l.abs nanF = .ok nanF
  sqrt_nan : l.sqrt nanF = nanF

/-- **C111.** Steepest descent started where all central differences vanish - in exact arithmetic it never returns (C73) - returns the start in floating
point: the step is multiplied by the golden ratio until it overflows, infinity times zero is NaN, and NaN ends every loop. -/
theorem C111_stationary (l : Sd.Lib (Flt F)) (hl : l.Good) (cfg : Sd.Config (Flt F)) (hh : ¬ nan cfg.increment) (h0 : cfg.increment ≠ 0)
    (g : List (Flt F) → Flt F) (p : List (Flt F)) (hp : p ≠ []) (hval : ¬ nan (g p)) (hnan : g (List.replicate p.length nanF) = nanF)
    (hst : ∀ i x, p[i]? = some x → g (p.set i (x + cfg.half)) - g (p.set i (x - cfg.half)) = 0) :
    ∃ fuel₀, ∀ fuel ≥ fuel₀, (Sd.find l cfg fuel p).eval g = .ok p := by
  obtain ⟨k, hα, hk⟩ := hl.alpha
  obtain ⟨m, hm⟩ := pow_unbounded_of_one_lt ((2 : ℚ) ^ F.emax) (show (1 : ℚ) < 9 / 8 by norm_num)
  have hlen : p.length ≠ 0 := by simpa using hp
  refine ⟨m + 2, fun fuel hf => ?_⟩
  obtain ⟨fuel, rfl⟩ : ∃ j, fuel = j + 2 := ⟨fuel - 2, by omega⟩
  unfold Sd.find Sd.outer
  have hgrad := gradient_const (h := cfg.increment) (half := cfg.half) (v := 0) (g := g) (p := p) (fun i x hx => by rw [hst i x hx, zero_div hh h0])
  simp only [Prog.eval_bind, hgrad, Res.ok_bind, List.map_replicate]
  have hz : (0 : Flt F) * -1 = 0 := zero_mul ⟨-1, by rw [neg_val, val_one]; rfl⟩
  rw [hz]
  have hsearch : (Sd.goldenSectionSearch l cfg.precision (fuel + 1) p 1 (List.replicate p.length 0)).eval g = .ok nanF := by
    unfold Sd.goldenSectionSearch Sd.localization Sd.shrink
    simp only [Prog.eval_bind, Prog.eval_askMin, Res.ok_bind, one_mul_two_div, along_zero finite_one]
    rw [if_neg (IeeeOrder.lt_irrefl _)]
    simp only [Prog.pure_def, Prog.eval_done, Res.ok_bind, along_zero finite_one]
    rw [Sd.expand_zero l g p hα hk hval hnan m 1 1 val_one le_rfl (by rw [one_mul]; exact hm.le) (fuel + 1) (by omega)]
    simp only [Res.ok_bind]
    have hz : List.zipWith (fun x y => x - y) (List.replicate p.length nanF) p = List.replicate p.length nanF := by
      apply List.ext_getElem
      · simp
      · intro j h1 h2
        simp
    rw [hz, Sd.squares_nan hlen, hl.sqrt_nan]
    simp only [nanF_sub, sub_nanF, mul_nanF, add_nanF]
    exact Sd.golden_nan l g p cfg.precision _ hl.abs_nan fuel
  rw [hsearch]
  simp only [Res.ok_bind]
  rw [along_nan p _ (by simp), gradient_nan _ _ hnan]
  simp only [Res.ok_bind]
  rw [Sd.squares_nan hlen, hl.sqrt_nan, if_neg (fun h => not_lt_nanF _ h.1)]
  rfl

theorem Sd.half_bound (cfg : Sd.Config (Flt F)) {η : ℚ} (hη : cfg.increment.val = .num η) : ∃ δ, cfg.half.val = .num δ ∧ |δ| ≤ |η| ∧ (0 ≤ η → 0 ≤ δ) := by
  obtain ⟨r1, r2⟩ := Finite.repr hη
  have h2 : ((1 : Flt F) / 2).val = .num (1 / 2) := by
    rw [val_div, val_one, two_val]
    show F.round (if (2 : ℚ) = 0 then (if (1 : ℚ) = 0 then .nan else .inf (decide ((1 : ℚ) < 0))) else .num (1 / 2)) = .num (1 / 2)
    rw [if_neg (by norm_num)]
    refine F.round_of ?_ ?_
    · have := F.fl_repr 1 (-1) (by rw [abs_one]; exact one_le_pow₀ (by norm_num)) (by have := F.emin_le; omega)
      simpa [zpow_neg] using this
    · have : (1 : ℚ) < 2 ^ F.emax := one_lt_zpow₀ (by norm_num) (by have := F.le_emax; omega)
      rw [abs_of_pos (by norm_num)]
      linarith
  have hb : |F.fl (η * (1 / 2))| ≤ |η| := by
    rw [abs_le]
    have m1 : η * (1 / 2) ≤ |η| := by
      have := le_abs_self η
      have := abs_nonneg η
      linarith
    have m2 : -|η| ≤ η * (1 / 2) := by
      have := neg_abs_le η
      have := abs_nonneg η
      linarith
    have r3 : F.fl |η| = |η| := by
      rcases abs_choice η with e | e
      · rw [e, r1]
      · rw [e, F.fl_neg, r1]
    have k1 := F.fl_mono m1
    have k2 := F.fl_mono m2
    rw [r3] at k1
    rw [F.fl_neg, r3] at k2
    exact ⟨k2, k1⟩
  refine ⟨F.fl (η * (1 / 2)), ?_, hb, fun h0 => ?_⟩
  · unfold Sd.Config.half
    rw [val_mul, hη, h2]
    show F.round (.num (η * (1 / 2))) = _
    simp only [Format.round]
    rw [if_pos (lt_of_le_of_lt hb r2)]
  · have := F.fl_mono (show (0 : ℚ) ≤ η * (1 / 2) by linarith)
    rwa [F.fl_zero] at this

/-- A shift that is lost. -/
theorem shift_lost {x s : Flt F} {q δ : ℚ} (hx : x.val = .num q) (hs : s.val = .num δ) (h : |δ| < |q| / 2 ^ (F.p + 1)) : x + s = x ∧ x - s = x := by
  obtain ⟨r1, r2⟩ := Finite.repr hx
  constructor
  · refine ext ?_
    rw [val_add, hx, hs]
    show F.round (.num (q + δ)) = .num q
    simp only [Format.round]
    rw [absorb r1 h, if_pos r2]
  · refine ext ?_
    rw [val_sub, hx, hs]
    show F.round (.num (q + -δ)) = .num q
    simp only [Format.round]
    rw [absorb r1 (by rwa [abs_neg]), if_pos r2]

/-- **C111.** If the increment is less than `2^-(p+1)` (in `double` 2^-54) of every coordinate of the start, steepest descent returns the start whatever
the function is there. -/
theorem C111_small_increment (l : Sd.Lib (Flt F)) (hl : l.Good) (cfg : Sd.Config (Flt F)) {η : ℚ} (hη : cfg.increment.val = .num η) (h0 : η ≠ 0)
    (g : List (Flt F) → Flt F) (p : List (Flt F)) (hp : p ≠ []) (hval : Finite (g p)) (hnan : g (List.replicate p.length nanF) = nanF)
    (hsmall : ∀ x ∈ p, ∃ q, x.val = .num q ∧ |η| < |q| / 2 ^ (F.p + 1)) :
    ∃ fuel₀, ∀ fuel ≥ fuel₀, (Sd.find l cfg fuel p).eval g = .ok p := by
  refine C111_stationary l hl cfg (Finite.not_nan ⟨η, hη⟩) ?_ g p hp hval.not_nan hnan (fun i x hx => ?_)
  · intro e
    rw [e, val_zero] at hη
    exact h0 (Dbl.num.inj hη).symm
  · obtain ⟨hi, e⟩ := List.getElem?_eq_some_iff.1 hx
    obtain ⟨q, hq, hlt⟩ := hsmall x (e ▸ List.getElem_mem hi)
    obtain ⟨δ, hδ, hle, -⟩ := Sd.half_bound cfg hη
    obtain ⟨s1, s2⟩ := shift_lost hq hδ (lt_of_le_of_lt hle hlt)
    have hset : p.set i x = p := by rw [← e]; exact List.set_getElem_self hi
    rw [s1, s2, hset, sub_self hval]

/-! ### Functions without a minimum -/

theorem Sd.expand_forever (l : Sd.Lib (Flt F)) (g : List (Flt F) → Flt F) (p d : List (Flt F)) (s : Nat → Flt F) (hs : ∀ k, s (k + 1) = s k * l.kAlpha)
    (h : ∀ k, g (along p (s (k + 1)) d) ≤ g (along p (s k) d)) :
    ∀ fuel k, (Sd.expand l p d fuel (s k) (along p (s k) d)).eval g = .throw "(out of fuel)"
  | 0, _ => rfl
  | fuel + 1, k => by
    unfold Sd.expand
    simp only [Prog.eval_bind, Prog.eval_askMin, Res.ok_bind, ← hs]
    rw [if_pos (h k)]
    exact Sd.expand_forever l g p d s hs h fuel (k + 1)

/-- **C111.** If the function does not grow along the steps `1, kAlpha, kAlpha^2, ...` (rounded, in the end infinite) in the direction opposite to
the computed gradient, steepest descent never returns. -/
theorem C111_never_returns (l : Sd.Lib (Flt F)) (cfg : Sd.Config (Flt F)) (g : List (Flt F) → Flt F) (p gr : List (Flt F))
    (hgr : (gradient cfg.increment cfg.half p).eval g = .ok gr) (s : Nat → Flt F) (h0 : s 0 = 1) (hs : ∀ k, s (k + 1) = s k * l.kAlpha)
    (hfirst : ¬ g p < g (along p (s 0) (gr.map (· * -1))))
    (h : ∀ k, g (along p (s (k + 1)) (gr.map (· * -1))) ≤ g (along p (s k) (gr.map (· * -1)))) (fuel : Nat) :
    (Sd.find l cfg fuel p).eval g = .throw "(out of fuel)" := by
  unfold Sd.find
  cases fuel with
  | zero => rfl
  | succ fuel =>
    unfold Sd.outer
    simp only [Prog.eval_bind, hgr, Res.ok_bind]
    have hsearch : (Sd.goldenSectionSearch l cfg.precision fuel p 1 (gr.map (· * -1))).eval g = .throw "(out of fuel)" := by
      unfold Sd.goldenSectionSearch Sd.localization
      cases fuel with
      | zero => rfl
      | succ fuel =>
        unfold Sd.shrink
        simp only [Prog.eval_bind, Prog.eval_askMin, Res.ok_bind, one_mul_two_div]
        rw [h0] at hfirst
        rw [if_neg hfirst]
        simp only [Prog.pure_def, Prog.eval_done, Res.ok_bind]
        have := Sd.expand_forever l g p _ s hs h (fuel + 1) 0
        rw [h0] at this
        rw [this]
        rfl
    rw [hsearch]
    rfl

/-- The steps `1, kAlpha, kAlpha^2, ...`, rounded. -/
def Sd.steps (l : Sd.Lib (Flt F)) : Nat → Flt F
  | 0 => 1
  | k + 1 => Sd.steps l k * l.kAlpha

/-- **C111.** On a function of one variable computed as `a * x + b`, with a positive increment, steepest descent never returns from a start where the
computed derivative is finite and not zero: the function value becomes minus infinity, which is not larger than minus infinity. -/
theorem C111_affine (l : Sd.Lib (Flt F)) (hl : l.Good) (cfg : Sd.Config (Flt F)) {η : ℚ} (hη : cfg.increment.val = .num η) (hpos : 0 < η)
    {a b x gr : Flt F} {α r : ℚ} (ha : a.val = .num α) (ha0 : α ≠ 0) (hb : Finite b) (hx : Finite x)
    (g : List (Flt F) → Flt F) (hg : ∀ y, g [y] = a * y + b)
    (hgr : (g [x + cfg.half] - g [x - cfg.half]) / cfg.increment = gr) (hr : gr.val = .num r) (hr0 : r ≠ 0) (fuel : Nat) :
    (Sd.find l cfg fuel [x]).eval g = .throw "(out of fuel)" := by
  obtain ⟨k, hα, hk⟩ := hl.alpha
  obtain ⟨δ, hδ, -, hδ0⟩ := Sd.half_bound cfg hη
  have hδ0 := hδ0 hpos.le
  have hgrad : (gradient cfg.increment cfg.half [x]).eval g = .ok [gr] := by
    have := gradient_const (h := cfg.increment) (half := cfg.half) (v := gr) (g := g) (p := [x]) (fun i y hy => by
      obtain ⟨hi, e⟩ := List.getElem?_eq_some_iff.1 hy
      have hi0 : i = 0 := by simpa using hi
      subst hi0
      cases e
      exact hgr)
    exact this
  -- the direction
  have hm1 : (-1 : Flt F).val = .num (-1) := by rw [neg_val, val_one]; rfl
  obtain ⟨hd, hd'⟩ : (gr * -1).val = .num (-r) ∧ True := by
    refine ⟨?_, trivial⟩
    rw [val_mul, hr, hm1]
    obtain ⟨r1, r2⟩ := Finite.repr hr
    show F.round (.num (r * -1)) = .num (-r)
    rw [mul_neg, mul_one]
    exact F.round_of (by rw [F.fl_neg, r1]) (by rwa [abs_neg])
  -- the function is monotone
  have hgm : ∀ y z, y ≤ z → (0 < α → g [y] ≤ g [z]) ∧ (α < 0 → g [z] ≤ g [y]) := fun y z hyz => by
    rw [hg, hg]
    exact ⟨fun h => add_mono hb (mono_mul_pos ha h hyz), fun h => add_mono hb (mono_mul_neg ha h hyz)⟩
  -- the sign of the gradient
  have hsh : x - cfg.half ≤ x + cfg.half := by
    obtain ⟨q, hq⟩ := hx
    rw [le_iff, val_sub, val_add, hq, hδ]
    exact round_mono ((Dbl.num_le (a := q + -δ) (b := q + δ)).2 (by linarith))
  have hgrn : ¬ nan gr := Finite.not_nan ⟨r, hr⟩
  have hsign : 0 < α ∧ 0 < r ∨ α < 0 ∧ r < 0 := by
    rcases lt_or_gt_of_ne ha0 with h | h
    · right
      refine ⟨h, ?_⟩
      have hm := (hgm _ _ hsh).2 h
      have := quotient_nonpos (F := F) hη hpos hm (by rw [hgr]; exact hgrn)
      rw [hgr, le_iff, val_zero, hr, Dbl.num_le] at this
      exact lt_of_le_of_ne this hr0
    · left
      refine ⟨h, ?_⟩
      have hm := (hgm _ _ hsh).1 h
      have := quotient_nonneg (F := F) hη hpos hm (by rw [hgr]; exact hgrn)
      rw [hgr, le_iff, val_zero, hr, Dbl.num_le] at this
      exact lt_of_le_of_ne this (Ne.symm hr0)
  have hs1 : ∀ k, 1 ≤ Sd.steps l k ∧ Sd.steps l k ≤ Sd.steps l (k + 1) := by
    intro j
    induction j with
    | zero =>
      have : (1 : Flt F) ≤ 1 := Flt.le_refl finite_one.not_nan
      exact ⟨this, le_mul this hα (by linarith)⟩
    | succ j ih =>
      have := Flt.le_trans ih.1 ih.2
      exact ⟨this, le_mul this hα (by linarith)⟩
  have hcomp : ∀ s t : Flt F, s ≤ t → g (along [x] t ([gr].map (· * -1))) ≤ g (along [x] s ([gr].map (· * -1))) := by
    intro s t hst
    show g [x + t * (gr * -1)] ≤ g [x + s * (gr * -1)]
    rcases hsign with ⟨h1, h2⟩ | ⟨h1, h2⟩
    · exact (hgm _ _ (mono_add hx (mul_mono_neg hd (by linarith) hst))).1 h1
    · exact (hgm _ _ (mono_add hx (mul_mono_pos hd (by linarith) hst))).2 h1
  refine C111_never_returns l cfg g [x] [gr] hgrad (Sd.steps l) rfl (fun _ => rfl) ?_ (fun j => hcomp _ _ (hs1 j).2) fuel
  have h01 : (0 : Flt F) ≤ 1 := by
    rw [le_iff, val_zero, val_one, Dbl.num_le]
    norm_num
  have hc := hcomp 0 1 h01
  have e0 : along [x] 0 ([gr].map (· * -1)) = [x] := by
    show [x + 0 * (gr * -1)] = [x]
    rw [Flt.zero_mul ⟨_, hd⟩, Flt.add_zero]
  rw [e0] at hc
  exact not_lt_of_le hc

/-! ## Concrete cases -/

section Examples

/-- An approximation of the square root. -/
def sqrt64 (x : Flt binary64) : Flt binary64 :=
  match x.val with
  | .num q => if q < 0 then nanF else f64 ((Nat.sqrt (q * 4 ^ 80).floor.toNat : ℚ) / 2 ^ 80)
  | .inf false => x
  | _ => nanF

/-- The absolute value. -/
def abs64 (x : Flt binary64) : Flt binary64 := if x < 0 then -x else x

/-- The library in `double`. -/
def lib64 : Sd.Lib (Flt binary64) := ⟨f64 (1618033988749894848 / 10 ^ 18), f64 (382 / 1000), fun x => .ok (abs64 x), sqrt64⟩

theorem lib64_good : lib64.Good where
  alpha := ⟨binary64.fl (1618033988749894848 / 10 ^ 18), by decide +kernel, by decide +kernel⟩
  abs_nan := by decide +kernel
  sqrt_nan := by decide +kernel

/-- `x²` in `double`. -/
def square (v : List (Flt binary64)) : Flt binary64 :=
  match v with
  | [x] => x * x
  | _ => nanF

/-- Minimising `x²` from its minimum in `double` returns the minimum. -/
example : ∃ fuel₀, ∀ fuel ≥ fuel₀, (Sd.find lib64 ⟨f64 (1 / 1000), 100, f64 (1 / 10000)⟩ fuel [f64 0]).eval square = .ok [f64 0] := by
  have hh : square ([f64 0].set 0 (f64 0 + Sd.Config.half ⟨f64 (1 / 1000), 100, f64 (1 / 10000)⟩))
      - square ([f64 0].set 0 (f64 0 - Sd.Config.half ⟨f64 (1 / 1000), 100, f64 (1 / 10000)⟩)) = 0 := by decide +kernel
  refine C111_stationary lib64 lib64_good _ (Finite.not_nan (by decide +kernel)) (by decide +kernel) square [f64 0] (by simp)
    (Finite.not_nan (by decide +kernel)) (by decide +kernel) ?_
  intro i x hx
  obtain ⟨hi, e⟩ := List.getElem?_eq_some_iff.1 hx
  have hi0 : i = 0 := by simpa using hi
  subst hi0
  cases e
  exact hh

/-- Minimising `x²` from `10^9` with the increment `10^-8`: the start is returned. -/
example : ∃ fuel₀, ∀ fuel ≥ fuel₀, (Sd.find lib64 ⟨f64 (1 / 10 ^ 8), 100, f64 (1 / 10000)⟩ fuel [f64 (10 ^ 9)]).eval square = .ok [f64 (10 ^ 9)] := by
  refine C111_small_increment lib64 lib64_good _ (η := binary64.fl (1 / 10 ^ 8)) (by decide +kernel) (by decide +kernel) square [f64 (10 ^ 9)] (by simp)
    (by decide +kernel) (by decide +kernel) ?_
  intro x hx
  rw [List.mem_singleton] at hx
  subst hx
  exact ⟨10 ^ 9, by decide +kernel, by decide +kernel⟩

/-- On `2 * x + 1`, from 3, it never returns. -/
example (fuel : Nat) : (Sd.find lib64 ⟨f64 (1 / 8), 100, f64 (1 / 10000)⟩ fuel [f64 3]).eval
    (fun v => match v with | [x] => f64 2 * x + f64 1 | _ => nanF) = .throw "(out of fuel)" := by
  refine C111_affine lib64 lib64_good _ (η := 1 / 8) (a := f64 2) (b := f64 1) (gr := f64 2) (α := 2) (r := 2) (by decide +kernel) (by norm_num)
    (by decide +kernel) (by norm_num) ?_ ?_ _ (fun y => rfl) (by decide +kernel) (by decide +kernel) (by norm_num) fuel
  · exact ⟨1, by decide +kernel⟩
  · exact ⟨3, by decide +kernel⟩

end Examples

end K52.IeeeGradient
