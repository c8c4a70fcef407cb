import Verif.Props.IeeeSteepest
import Verif.Props.IeeeExact

/-!
# C112: conjugate gradients in IEEE arithmetic, with overflow and NaN
-/

namespace K52.IeeeGradient

open Flt

variable {F : Format}

/-! ## Arithmetic -/

theorem zero_div_cases (a : Flt F) : 0 / a = 0 ∨ 0 / a = nanF := by
  by_cases hn : nan a
  · right; rw [eq_nanF hn, div_nanF]
  by_cases h0 : a = 0
  · right
    subst h0
    refine ext ?_
    rw [val_div, val_zero]
    rfl
  · left; exact Flt.zero_div hn h0

theorem sub_self_cases (a : Flt F) : a - a = 0 ∨ a - a = nanF := by
  by_cases h : Finite a
  · left; exact Flt.sub_self h
  · right; exact sub_self_nan h

theorem not_finite_cases {a : Flt F} (h : ¬ Finite a) : a = nanF ∨ ∃ s, a.val = .inf s := by
  rcases e : a.val with _ | s | q
  · left; exact eq_nanF e
  · right; exact ⟨s, rfl⟩
  · exact absurd ⟨q, e⟩ h

theorem not_finite_nan : ¬ Flt.Finite (nanF : Flt F) := by rintro ⟨q, h⟩; cases h

theorem not_finite_inf {a : Flt F} {s : Bool} (h : a.val = .inf s) : ¬ Finite a := by
  rintro ⟨q, h'⟩
  rw [h] at h'
  cases h'

/-- A number that is not finite times anything is not finite. -/
theorem not_finite_mul {a : Flt F} (h : ¬ Finite a) (b : Flt F) : ¬ Flt.Finite (a * b) := by
  rcases not_finite_cases h with rfl | ⟨s, hs⟩
  · rw [nanF_mul]; exact not_finite_nan
  · rintro ⟨q, hq⟩
    rw [val_mul, hs] at hq
    generalize b.val = y at hq
    rcases y with _ | t | r
    · cases hq
    · cases hq
    · by_cases hr : r = 0
      · subst hr; cases hq
      · rw [Dbl.inf_mul hr] at hq
        cases hq

/-- Anything plus a number that is not finite is not finite. -/
theorem not_finite_add (a : Flt F) {b : Flt F} (h : ¬ Finite b) : ¬ Flt.Finite (a + b) := by
  rcases not_finite_cases h with rfl | ⟨s, hs⟩
  · rw [add_nanF]; exact not_finite_nan
  · rintro ⟨q, hq⟩
    rw [val_add, hs] at hq
    generalize a.val = y at hq
    rcases y with _ | t | r
    · cases hq
    · revert hq
      show F.round (if t = s then .inf t else .nan) = _ → _
      split <;> exact fun h => by cases h
    · cases hq

/-- Division by zero. -/
theorem not_finite_div_zero (a : Flt F) : ¬ Flt.Finite (a / 0) := by
  rintro ⟨q, hq⟩
  rw [val_div, val_zero] at hq
  generalize a.val = y at hq
  rcases y with _ | t | r
  · cases hq
  · cases hq
  · revert hq
    show F.round (if (0 : ℚ) = 0 then (if r = 0 then .nan else .inf (decide (r < 0))) else .num (r / 0)) = _ → _
    rw [if_pos rfl]
    split <;> exact fun h => by cases h

theorem not_finite_sub {a b : Flt F} (h : ¬ Finite b) : ¬ Flt.Finite (a - b) := by
  rcases not_finite_cases h with rfl | ⟨s, hs⟩
  · rw [sub_nanF]; exact not_finite_nan
  · rintro ⟨q, hq⟩
    rw [val_sub, hs] at hq
    generalize a.val = y at hq
    rcases y with _ | t | r
    · cases hq
    · revert hq
      show F.round (if t = !s then .inf t else .nan) = _ → _
      split <;> exact fun h => by cases h
    · cases hq

/-- Adding a finite number to one that is not finite. -/
theorem shift_not_finite {a b : Flt F} (h : ¬ Finite a) (hb : Finite b) : a + b = a ∧ a - b = a := by
  rcases not_finite_cases h with rfl | ⟨s, hs⟩
  · simp
  · exact ⟨inf_add hs hb, inf_sub hs hb⟩

/-- `h / 2` and `h * 0.5` are the same. -/
theorem half_eq (h : Flt F) : h / 2 = h * (1 / 2) := by
  refine ext ?_
  have h2 : ((1 : Flt F) / 2).val = .num (1 / 2) := by
    rw [val_div, val_one, two_val]
    show F.round (if (2 : ℚ) = 0 then (if (1 : ℚ) = 0 then .nan else .inf (decide ((1 : ℚ) < 0))) else .num (1 / 2)) = .num (1 / 2)
    rw [if_neg (by norm_num)]
    refine F.round_of ?_ ?_
    · have := F.fl_repr 1 (-1) (by rw [abs_one]; exact one_le_pow₀ (by norm_num)) (by have := F.emin_le; omega)
      simpa [zpow_neg] using this
    · have : (1 : ℚ) < 2 ^ F.emax := one_lt_zpow₀ (by norm_num) (by have := F.le_emax; omega)
      rw [abs_of_pos (by norm_num)]
      linarith
  rw [val_div, val_mul, h2, two_val]
  rcases h.val with _ | t | r
  · rfl
  · show F.round (.inf (t != decide ((2 : ℚ) < 0))) = F.round (if (1 / 2 : ℚ) = 0 then .nan else .inf (t != decide ((1 / 2 : ℚ) < 0)))
    rw [if_neg (by norm_num)]
    norm_num
  · show F.round (if (2 : ℚ) = 0 then (if r = 0 then .nan else .inf (decide (r < 0))) else .num (r / 2)) = F.round (.num (r * (1 / 2)))
    rw [if_neg (by norm_num)]
    congr 2
    ring

theorem finite_half {h : Flt F} (hh : Finite h) : Flt.Finite (h / 2) := by
  obtain ⟨η, hη⟩ := hh
  obtain ⟨δ, hδ, -⟩ := Sd.half_bound (⟨h, 0, h⟩ : Sd.Config (Flt F)) hη
  rw [half_eq]
  exact ⟨δ, hδ⟩

/-! ## Gradients -/

theorem gradientLoop_eval (h half : Flt F) (g : List (Flt F) → Flt F) (p : List (Flt F)) :
    ∀ k i, i + k = p.length → ∃ ds, (gradientLoop h half p k i).eval g = .ok ds ∧ ds.length = k ∧
      ∀ y ∈ ds, ∃ j x, p[j]? = some x ∧ y = (g (p.set j (x + half)) - g (p.set j (x - half))) / h
  | 0, i, _ => ⟨[], rfl, rfl, by simp⟩
  | k + 1, i, hk => by
    have hi : i < p.length := by omega
    have hx : p[i]? = some p[i] := List.getElem?_eq_getElem hi
    obtain ⟨ds, h1, h2, h3⟩ := gradientLoop_eval h half g p k (i + 1) (by omega)
    refine ⟨(g (p.set i (p[i] + half)) - g (p.set i (p[i] - half))) / h :: ds, ?_, by simp [h2], ?_⟩
    · unfold gradientLoop derivative
      rw [hx]
      simp only [Prog.eval_bind, Prog.eval_askMin, Res.ok_bind, Prog.pure_def, Prog.eval_done, h1]
    · intro y hy
      rcases List.mem_cons.1 hy with rfl | hy
      · exact ⟨i, _, hx, rfl⟩
      · exact h3 y hy

theorem gradient_eval (h half : Flt F) (g : List (Flt F) → Flt F) (p : List (Flt F)) :
    ∃ ds, (gradient h half p).eval g = .ok ds ∧ ds.length = p.length ∧
      ∀ y ∈ ds, ∃ j x, p[j]? = some x ∧ y = (g (p.set j (x + half)) - g (p.set j (x - half))) / h :=
  gradientLoop_eval h half g p _ _ (by omega)

namespace Cg

/-- What is assumed of the library: `std::abs`, `sqrt` and `pow(x, 2)` at zero, NaN and the infinities, and that `Eps` is positive. -/
structure Lib.Good (l : Lib (Flt F)) : Prop where
  abs_nan : l.abs nanF = nanF
  abs_zero : l.abs 0 = 0
  abs_inf : ∀ x s, x.val = .inf s → (l.abs x).val = .inf false
  sqrt_nan : l.sqrt nanF = nanF
  sqrt_zero : l.sqrt 0 = 0
  sq_nan : l.sq nanF = nanF
  sq_zero : l.sq 0 = 0
  eps : 0 < l.eps

variable {l : Lib (Flt F)} (hl : l.Good) (cfg : Config (Flt F)) (g : List (Flt F) → Flt F)
include hl

theorem squares_zero (n : Nat) : squares l (List.replicate n (0 : Flt F)) = 0 := by
  unfold squares
  induction n with
  | zero => rfl
  | succ n ih => rw [List.replicate_succ, List.foldl_cons, hl.sq_zero, Flt.add_zero]; exact ih

theorem squares_cases {v : List (Flt F)} (hv : ∀ y ∈ v, y = 0 ∨ y = nanF) : squares l v = 0 ∨ squares l v = nanF := by
  unfold squares
  have : ∀ (v : List (Flt F)) (s : Flt F), (∀ y ∈ v, y = 0 ∨ y = nanF) → (s = 0 ∨ s = nanF) →
      v.foldl (fun s x => s + l.sq x) s = 0 ∨ v.foldl (fun s x => s + l.sq x) s = nanF := by
    intro v
    induction v with
    | nil => exact fun s _ hs => hs
    | cons y v ih =>
      intro s hv hs
      rw [List.foldl_cons]
      refine ih _ (fun z hz => hv z (List.mem_cons_of_mem _ hz)) ?_
      rcases hv y List.mem_cons_self with rfl | rfl
      · rw [hl.sq_zero, Flt.add_zero]; exact hs
      · right; rw [hl.sq_nan, add_nanF]
  exact this v 0 hv (Or.inl rfl)

theorem isZero_zero : IsZero l (0 : Flt F) := by
  show l.abs (0 - 0) < l.eps
  rw [Flt.sub_zero, hl.abs_zero]
  exact hl.eps

omit hl in
/-- The slope the one-dimensional search computes at `t`. -/
def first (cfg : Config (Flt F)) (g : List (Flt F) → Flt F) (p d : List (Flt F)) (t : Flt F) : Flt F :=
  (g (along p (t + cfg.increment / 2) d) - g (along p (t - cfg.increment / 2) d)) / cfg.increment

omit hl in
/-- The second difference the one-dimensional search computes at `t`. -/
def second (cfg : Config (Flt F)) (g : List (Flt F) → Flt F) (p d : List (Flt F)) (t : Flt F) : Flt F :=
  (g (along p (t + cfg.increment / 2) d) - 2 * g (along p t d) + g (along p (t - cfg.increment / 2) d)) / (cfg.increment * cfg.increment / 4)

omit hl in
theorem lineSearch_step (p d : List (Flt F)) (fuel : Nat) (t : Flt F) :
    (lineSearch l cfg p d (fuel + 1) t).eval g =
      if l.abs (t - (t - first cfg g p d t / second cfg g p d t)) > cfg.precision
      then (lineSearch l cfg p d fuel (t - first cfg g p d t / second cfg g p d t)).eval g
      else .ok (t - first cfg g p d t / second cfg g p d t) := by
  conv_lhs => unfold lineSearch
  simp only [Prog.eval_bind, Prog.eval_askMin, Res.ok_bind]
  rw [apply_ite (Prog.eval g)]
  rfl

/-- From an infinite or undefined place the search ends at once. -/
theorem lineSearch_not_finite (hh : Finite cfg.increment) (p d : List (Flt F)) {t : Flt F} (ht : ¬ Finite t) :
    ∃ x : Flt F, ¬ Finite x ∧ ∀ fuel, (lineSearch l cfg p d (fuel + 1) t).eval g = .ok x := by
  obtain ⟨s1, s2⟩ := shift_not_finite ht (finite_half hh)
  have hq : first cfg g p d t / second cfg g p d t = 0 ∨ first cfg g p d t / second cfg g p d t = nanF := by
    have hf : first cfg g p d t = 0 ∨ first cfg g p d t = nanF := by
      unfold first
      rw [s1, s2]
      rcases sub_self_cases (g (along p t d)) with e | e
      · rw [e]; exact zero_div_cases _
      · right; rw [e, nanF_div]
    rcases hf with e | e
    · rw [e]; exact zero_div_cases _
    · right; rw [e, nanF_div]
  rcases hq with e | e
  · refine ⟨t, ht, fun fuel => ?_⟩
    rw [lineSearch_step, e, Flt.sub_zero, sub_self_nan ht, hl.abs_nan, if_neg (not_lt_nanF _)]
  · refine ⟨nanF, not_finite_nan, fun fuel => ?_⟩
    rw [lineSearch_step, e, sub_nanF, sub_nanF, hl.abs_nan, if_neg (not_lt_nanF _)]

/-- Where the second difference is zero or NaN the search ends with an infinity or NaN. -/
theorem lineSearch_flat (hh : Finite cfg.increment) (p d : List (Flt F)) {t : Flt F}
    (ht : second cfg g p d t = 0 ∨ nan (second cfg g p d t) ∨ ¬ Finite t) :
    ∃ x : Flt F, ¬ Finite x ∧ ∀ fuel, (lineSearch l cfg p d (fuel + 2) t).eval g = .ok x := by
  by_cases hf : Finite t
  swap
  · obtain ⟨x, h1, h2⟩ := lineSearch_not_finite hl cfg g hh p d hf
    exact ⟨x, h1, fun fuel => h2 _⟩
  have hx : ¬ Flt.Finite (t - first cfg g p d t / second cfg g p d t) := by
    refine not_finite_sub ?_
    rcases ht with e | e | e
    · rw [e]; exact not_finite_div_zero _
    · rw [eq_nanF e, div_nanF]; exact not_finite_nan
    · exact absurd hf e
  by_cases hgt : l.abs (t - (t - first cfg g p d t / second cfg g p d t)) > cfg.precision
  · obtain ⟨x, h1, h2⟩ := lineSearch_not_finite hl cfg g hh p d hx
    refine ⟨x, h1, fun fuel => ?_⟩
    rw [lineSearch_step, if_pos hgt]
    exact h2 fuel
  · refine ⟨_, hx, fun fuel => ?_⟩
    rw [lineSearch_step, if_neg hgt]

/-! ## C112 -/

theorem along_not_finite {t : Flt F} (ht : ¬ Finite t) (p d : List (Flt F)) : ∀ y ∈ along p t d, ¬ Finite y := by
  intro y hy
  obtain ⟨a, b, rfl⟩ : ∃ a b : Flt F, y = a + t * b := by
    induction p generalizing d with
    | nil => simp [along] at hy
    | cons x xs ih =>
      cases d with
      | nil => simp [along] at hy
      | cons z zs =>
        simp only [along, List.zipWith_cons_cons, List.mem_cons] at hy
        rcases hy with rfl | hy
        · exact ⟨x, z, rfl⟩
        · exact ih zs hy
  exact not_finite_add _ (not_finite_mul ht _)

/-- The gradient at a point without finite coordinates. -/
theorem gradient_not_finite (hh : Finite cfg.increment) {p : List (Flt F)} (hp : ∀ y ∈ p, ¬ Finite y) :
    ∃ ds, (gradient cfg.increment (cfg.increment / 2) p).eval g = .ok ds ∧ ∀ y ∈ ds, y = 0 ∨ y = nanF := by
  obtain ⟨ds, h1, -, h2⟩ := gradient_eval cfg.increment (cfg.increment / 2) g p
  refine ⟨ds, h1, fun y hy => ?_⟩
  obtain ⟨j, x, hx, rfl⟩ := h2 y hy
  obtain ⟨s1, s2⟩ := shift_not_finite (hp x (List.mem_of_getElem? hx)) (finite_half hh)
  rw [s1, s2]
  rcases sub_self_cases (g (p.set j x)) with e | e
  · rw [e]; exact zero_div_cases _
  · right; rw [e, nanF_div]

/-- **C112.** If the Newton iteration `t := t - f'(t) / f''(t)` of the first one-dimensional search, with differences as derivatives, comes to a place
where the computed second difference is zero or NaN (or to infinity), the method returns a point without any finite coordinate: no exception, no message,
whatever the function is. -/
theorem C112_flat (hh : Finite cfg.increment) (hprec : 0 < cfg.precision) (p gr : List (Flt F))
    (hgr : (gradient cfg.increment (cfg.increment / 2) p).eval g = .ok gr) (hz : ¬ IsZero l (squares l gr))
    (t : Nat → Flt F) (h0 : t 0 = 0) (m : Nat)
    (hstep : ∀ k < m, t (k + 1) = t k - first cfg g p gr (t k) / second cfg g p gr (t k) ∧ cfg.precision < l.abs (t k - t (k + 1)))
    (hm : second cfg g p gr (t m) = 0 ∨ nan (second cfg g p gr (t m)) ∨ ¬ Finite (t m)) :
    ∃ q : List (Flt F), q.length = p.length ∧ (∀ y ∈ q, ¬ y.Finite) ∧ ∀ fuel ≥ m + 3, (find l cfg fuel p).eval g = .ok q := by
  have hline : ∀ j ≤ m, ∃ x : Flt F, ¬ Finite x ∧ ∀ fuel, (lineSearch l cfg p gr (fuel + j + 2) (t (m - j))).eval g = .ok x := by
    intro j
    induction j with
    | zero => exact fun _ => lineSearch_flat hl cfg g hh p gr hm
    | succ j ih =>
      intro hj
      obtain ⟨x, h1, h2⟩ := ih (by omega)
      refine ⟨x, h1, fun fuel => ?_⟩
      obtain ⟨k, hk⟩ : ∃ k, k + (j + 1) = m := ⟨m - (j + 1), by omega⟩
      have e1 : m - (j + 1) = k := by omega
      have e2 : m - j = k + 1 := by omega
      obtain ⟨s1, s2⟩ := hstep k (by omega)
      rw [e1, show fuel + (j + 1) + 2 = (fuel + j + 2) + 1 from by omega, lineSearch_step, ← s1, if_pos s2]
      rw [e2] at h2
      exact h2 fuel
  obtain ⟨x, hx, hline⟩ := hline m le_rfl
  rw [Nat.sub_self, h0] at hline
  obtain ⟨ds, hds, hlen, -⟩ := gradient_eval cfg.increment (cfg.increment / 2) g p
  have hlen : gr.length = p.length := by
    rw [hgr] at hds
    cases hds
    exact hlen
  have hnf := along_not_finite hl hx p gr
  obtain ⟨g', hg', hg0⟩ := gradient_not_finite hl cfg g hh hnf
  refine ⟨along p x gr, by simp [along, hlen], hnf, fun fuel hf => ?_⟩
  obtain ⟨fuel, rfl⟩ : ∃ k, fuel = (k + m + 2) + 1 := ⟨fuel - (m + 3), by omega⟩
  unfold find outer
  have hd : nextDirection gr (List.replicate p.length 0) 0 1 = gr := if_neg (by omega)
  simp only [Prog.eval_bind, hgr, Res.ok_bind, hd, hline, hg']
  rw [if_neg hz]
  have hstop : ¬ l.sqrt (squares l g') ≥ cfg.precision := by
    rcases squares_cases hl hg0 with e | e
    · rw [e, hl.sqrt_zero]
      exact fun h => not_lt_of_le h hprec
    · rw [e, hl.sqrt_nan]
      exact not_le_nanF _
  rw [if_neg hstop]
  split <;> rfl

/-- **C112.** Started where all computed central differences are zero, the method throws, whatever the function is. -/
theorem C112_stationary (hh : Finite cfg.increment) (hprec : ¬ cfg.precision < 0) (p : List (Flt F))
    (h0 : cfg.increment ≠ 0)
    (hst : ∀ i x, p[i]? = some x → g (p.set i (x + cfg.increment / 2)) - g (p.set i (x - cfg.increment / 2)) = 0) :
    ∀ fuel ≥ 2, (find l cfg fuel p).eval g = .throw "runtime_error" := by
  intro fuel hf
  have hst := gradient_const (h := cfg.increment) (half := cfg.increment / 2) (v := 0) (g := g) (p := p)
    (fun i x hx => by rw [hst i x hx, Flt.zero_div hh.not_nan h0])
  obtain ⟨fuel, rfl⟩ : ∃ k, fuel = k + 1 + 1 := ⟨fuel - 2, by omega⟩
  unfold find outer
  have hd : nextDirection (List.replicate p.length (0 : Flt F)) (List.replicate p.length 0) 0 1 = List.replicate p.length 0 := if_neg (by omega)
  simp only [Prog.eval_bind, hst, Res.ok_bind, hd]
  have hline : ∃ x : Flt F, (lineSearch l cfg p (List.replicate p.length 0) (fuel + 1) 0).eval g = .ok x := by
    rw [lineSearch_step]
    have hhalf := finite_half hh
    have e0 : (0 : Flt F) + cfg.increment / 2 = cfg.increment / 2 := by
      refine ext ?_
      obtain ⟨q, hq⟩ := hhalf
      obtain ⟨r1, r2⟩ := Finite.repr hq
      rw [val_add, val_zero, hq]
      show F.round (.num (0 + q)) = _
      rw [_root_.zero_add]
      exact F.round_of r1 r2
    have e1 : Flt.Finite (0 - cfg.increment / 2) := by
      obtain ⟨q, hq⟩ := hhalf
      obtain ⟨r1, r2⟩ := Finite.repr hq
      refine ⟨-q, ?_⟩
      rw [val_sub, val_zero, hq]
      show F.round (.num (0 + -q)) = _
      rw [_root_.zero_add]
      exact F.round_of (by rw [F.fl_neg, r1]) (by rwa [abs_neg])
    have hq : first cfg g p (List.replicate p.length 0) 0 / second cfg g p (List.replicate p.length 0) 0 = 0 ∨
        first cfg g p (List.replicate p.length 0) 0 / second cfg g p (List.replicate p.length 0) 0 = nanF := by
      have hf : first cfg g p (List.replicate p.length 0) 0 = 0 ∨ first cfg g p (List.replicate p.length 0) 0 = nanF := by
        unfold first
        rw [e0, along_zero hhalf, along_zero e1]
        rcases sub_self_cases (g p) with e | e
        · rw [e]; exact zero_div_cases _
        · right; rw [e, nanF_div]
      rcases hf with e | e
      · rw [e]; exact zero_div_cases _
      · right; rw [e, nanF_div]
    rcases hq with e | e
    · rw [e, Flt.sub_zero, Flt.sub_zero, hl.abs_zero, if_neg hprec]
      exact ⟨_, rfl⟩
    · rw [e, sub_nanF, sub_nanF, hl.abs_nan, if_neg (not_lt_nanF _)]
      exact ⟨_, rfl⟩
  obtain ⟨x, hx⟩ := hline
  obtain ⟨g', hg', -⟩ := gradient_eval cfg.increment (cfg.increment / 2) g (along p x (List.replicate p.length 0))
  rw [hx]
  simp only [Res.ok_bind, hg']
  rw [if_pos (by rw [squares_zero hl]; exact isZero_zero hl)]
  rfl

/-- **C112.** If the increment is less than `2^-(p+1)` (in `double` 2^-54) of every coordinate of the start, the method throws whatever the function is. -/
theorem C112_small_increment (hprec : ¬ cfg.precision < 0) {η : ℚ} (hη : cfg.increment.val = .num η) (h0 : η ≠ 0) (p : List (Flt F)) (hval : Finite (g p))
    (hsmall : ∀ x ∈ p, ∃ q, x.val = .num q ∧ |η| < |q| / 2 ^ (F.p + 1)) :
    ∀ fuel ≥ 2, (find l cfg fuel p).eval g = .throw "runtime_error" := by
  refine C112_stationary hl cfg g ⟨η, hη⟩ hprec p ?_ (fun i x hx => ?_)
  · intro e
    rw [e, val_zero] at hη
    exact h0 (Dbl.num.inj hη).symm
  · obtain ⟨hi, e⟩ := List.getElem?_eq_some_iff.1 hx
    obtain ⟨q, hq, hlt⟩ := hsmall x (e ▸ List.getElem_mem hi)
    obtain ⟨δ, hδ, hle, -⟩ := Sd.half_bound (⟨cfg.increment, 0, cfg.precision⟩ : Sd.Config (Flt F)) hη
    obtain ⟨s1, s2⟩ := shift_lost (s := cfg.increment / 2) hq (by rw [half_eq]; exact hδ) (lt_of_le_of_lt hle hlt)
    have hset : p.set i x = p := by rw [← e]; exact List.set_getElem_self hi
    rw [s1, s2, hset, Flt.sub_self hval]

omit hl in
/-- A sum of a number and its opposite. -/
theorem add_neg_cases (a : Flt F) : a + -a = 0 ∨ a + -a = nanF := by
  have : a + -a = a - a := by
    refine ext ?_
    rw [val_add, val_sub, neg_val]
    rfl
  rw [this]
  exact sub_self_cases a

omit hl in
theorem neg_eq_self {a : Flt F} (h : a = -a) : a = 0 ∨ a = nanF := by
  have hv : a.val = -a.val := by rw [← neg_val, ← h]
  rcases e : a.val with _ | s | q
  · right; exact eq_nanF e
  · rw [e] at hv
    cases s <;> cases hv
  · left
    refine ext ?_
    rw [e, val_zero]
    rw [e] at hv
    have : q = -q := Dbl.num.inj hv
    congr 1
    linarith

omit hl in
theorem zero_add' (a : Flt F) : 0 + a = a := by
  refine ext ?_
  rw [val_add, val_zero, Dbl.num_add, ← val_zero (F := F), ← val_add, Flt.add_zero]

omit hl in
theorem zero_sub' (a : Flt F) : 0 - a = -a := by
  refine ext ?_
  rw [val_sub]
  show F.round ((0 : Flt F).val + -a.val) = _
  rw [val_zero, Dbl.num_add, neg_val, ← neg_val, ← val_zero (F := F), ← val_add, Flt.add_zero]

omit hl in
theorem round_neg (x : Dbl) : F.round (-x) = -F.round x := by
  rcases x with _ | s | q
  · rfl
  · rfl
  · show F.round (.num (-q)) = -F.round (.num q)
    simp only [Format.round]
    rw [F.fl_neg, abs_neg]
    split_ifs with h
    · rfl
    · have h0 : q ≠ 0 := by
        rintro rfl
        rw [F.fl_zero, abs_zero] at h
        exact h (zpow_pos Nearest.two_pos _)
      show Dbl.inf (decide (-q < 0)) = Dbl.inf (!decide (q < 0))
      congr 1
      rcases lt_or_gt_of_ne h0 with h | h
      · simp [h, h.le]
      · simp [h, h.le]

omit hl in
theorem dbl_neg_mul (x y : Dbl) : -x * y = -(x * y) := by
  rcases x with _ | s | a <;> rcases y with _ | t | b
  · rfl
  · rfl
  · rfl
  · rfl
  · show Dbl.inf ((!s) != t) = Dbl.inf (!(s != t))
    cases s <;> cases t <;> rfl
  · show (if b = 0 then Dbl.nan else Dbl.inf ((!s) != decide (b < 0))) = -(if b = 0 then Dbl.nan else Dbl.inf (s != decide (b < 0)))
    split_ifs
    · rfl
    · show _ = Dbl.inf (!(s != decide (b < 0)))
      cases s <;> cases decide (b < 0) <;> rfl
  · rfl
  · show (if -a = 0 then Dbl.nan else Dbl.inf (t != decide (-a < 0))) = -(if a = 0 then Dbl.nan else Dbl.inf (t != decide (a < 0)))
    by_cases h0 : a = 0
    · rw [if_pos h0, if_pos (neg_eq_zero.2 h0)]
      rfl
    · rw [if_neg h0, if_neg (fun h => h0 (neg_eq_zero.1 h))]
      show _ = Dbl.inf (!(t != decide (a < 0)))
      congr 1
      rcases lt_or_gt_of_ne h0 with h | h
      · simp [h, not_lt.2 h.le]
      · simp [h, not_lt.2 h.le]
  · show Dbl.num (-a * b) = Dbl.num (-(a * b))
    congr 1
    ring

omit hl in
theorem neg_mul' (a b : Flt F) : -a * b = -(a * b) := by
  refine ext ?_
  rw [val_mul, neg_val, neg_val, val_mul, dbl_neg_mul, round_neg]

omit hl in
theorem along_origin : ∀ (d : List (Flt F)) (t : Flt F), along (List.replicate d.length 0) t d = d.map (t * ·)
  | [], _ => rfl
  | y :: ys, t => by
    have := along_origin ys t
    simp only [along, List.length_cons, List.replicate_succ, List.zipWith_cons_cons, List.map_cons] at this ⊢
    rw [this, zero_add']

/-- **C112.** Started at the origin with a function that is odd (`f(-v) = -f(v)` as computed; linear functions, sine, `x^3`, ...), the method throws if its
first computed gradient is zero up to `Eps` (as the sum of squares), and otherwise returns a point without any finite coordinate. -/
theorem C112_odd (hh : Finite cfg.increment) (hprec : 0 < cfg.precision) (n : Nat) (hodd : ∀ v, g (v.map (- ·)) = -g v) :
    ∃ gr, (gradient cfg.increment (cfg.increment / 2) (List.replicate n 0)).eval g = .ok gr ∧ 
      if IsZero l (squares l gr) then ∀ fuel ≥ 3, (find l cfg fuel (List.replicate n 0)).eval g = .throw "runtime_error"
      else ∃ q : List (Flt F), q.length = n ∧ (∀ y ∈ q, ¬ y.Finite) ∧ ∀ fuel ≥ 3, (find l cfg fuel (List.replicate n 0)).eval g = .ok q := by
  obtain ⟨gr, hgr, hlen, -⟩ := gradient_eval cfg.increment (cfg.increment / 2) g (List.replicate n 0)
  rw [List.length_replicate] at hlen
  have hflat : second cfg g (List.replicate n 0) gr 0 = 0 ∨ nan (second cfg g (List.replicate n 0) gr 0) := by
    subst hlen
    unfold second
    rw [along_origin, along_origin, along_origin, zero_add', zero_sub']
    have e1 : gr.map (-(cfg.increment / 2) * ·) = (gr.map (cfg.increment / 2 * ·)).map (- ·) := by
      rw [List.map_map]
      exact List.map_congr_left fun y _ => neg_mul' _ _
    have e2 : (gr.map (0 * ·)).map (- ·) = gr.map (0 * ·) := by
      rw [List.map_map]
      refine List.map_congr_left fun y _ => ?_
      show -(0 * y) = 0 * y
      rw [← neg_mul']
      congr 1
      refine ext ?_
      rw [neg_val, val_zero]
      show Dbl.num (-0) = _
      rw [neg_zero]
    have e3 := hodd (gr.map (0 * ·))
    rw [e2] at e3
    rw [e1, hodd]
    have e4 : g (gr.map (cfg.increment / 2 * ·)) - 2 * g (gr.map (0 * ·)) + -g (gr.map (cfg.increment / 2 * ·)) = 0 ∨
        g (gr.map (cfg.increment / 2 * ·)) - 2 * g (gr.map (0 * ·)) + -g (gr.map (cfg.increment / 2 * ·)) = nanF := by
      rcases neg_eq_self e3 with e | e
      · rw [e, Flt.mul_zero ⟨2, two_val⟩, Flt.sub_zero]
        exact add_neg_cases _
      · right
        rw [e, mul_nanF, sub_nanF, nanF_add]
    rcases e4 with e | e
    · rw [e]
      rcases zero_div_cases (cfg.increment * cfg.increment / 4) with h | h
      · left; exact h
      · right; rw [h]; exact nan_nanF
    · right
      rw [e, nanF_div]
      exact nan_nanF
  refine ⟨gr, hgr, ?_⟩
  split_ifs with hz
  · obtain ⟨x, -, hx⟩ := lineSearch_flat hl cfg g hh (List.replicate n 0) gr (t := 0) (hflat.imp_right Or.inl)
    intro fuel hf
    obtain ⟨fuel, rfl⟩ : ∃ k, fuel = (k + 2) + 1 := ⟨fuel - 3, by omega⟩
    obtain ⟨g', hg', -⟩ := gradient_eval cfg.increment (cfg.increment / 2) g (along (List.replicate n 0) x gr)
    unfold find outer
    have hd : nextDirection gr (List.replicate (List.replicate n (0 : Flt F)).length 0) 0 1 = gr := if_neg (by omega)
    simp only [Prog.eval_bind, hgr, Res.ok_bind, hd, hx, hg']
    rw [if_pos hz]
    rfl
  · obtain ⟨q, h1, h2, h3⟩ := C112_flat hl cfg g hh hprec (List.replicate n 0) gr hgr hz (fun _ => 0) rfl 0 (fun k hk => absurd hk (by omega))
      (hflat.imp_right Or.inl)
    exact ⟨q, by rw [h1, List.length_replicate], h2, h3⟩

omit hl in
theorem outer_result : ∀ (fuel : Nat) (p gr d : List (Flt F)) (w : Flt F) (k : Nat) (q : List (Flt F)),
    (outer l cfg fuel p gr d w k).eval g = .ok q → ∃ ds, (gradient cfg.increment (cfg.increment / 2) q).eval g = .ok ds ∧ q.length ≤ p.length ∧
      (¬ cfg.precision ≤ l.sqrt (squares l ds) ∨ k < cfg.iterations)
  | 0, _, _, _, _, _, _, h => by cases h
  | fuel + 1, p, gr, d, w, k, q, h => by
    unfold outer at h
    simp only [Prog.eval_bind] at h
    obtain ⟨x, hx, h⟩ := Res.bind_eq_ok.1 h
    obtain ⟨ds, hds, h⟩ := Res.bind_eq_ok.1 h
    have hlen : (along p x (nextDirection gr d w k)).length ≤ p.length := by simp [along]
    by_cases hz : IsZero l (squares l gr)
    · rw [if_pos hz] at h
      cases h
    · rw [if_neg hz] at h
      by_cases h1 : k + 1 = cfg.iterations
      · rw [if_pos h1] at h
        cases h
        exact ⟨ds, hds, hlen, Or.inr (by omega)⟩
      · rw [if_neg h1] at h
        by_cases h2 : l.sqrt (squares l ds) ≥ cfg.precision
        · rw [if_pos h2] at h
          obtain ⟨e, h3, h4, h5⟩ := outer_result fuel _ _ _ _ _ _ h
          exact ⟨e, h3, h4.trans hlen, h5.imp_right (by omega)⟩
        · rw [if_neg h2] at h
          cases h
          exact ⟨ds, hds, hlen, Or.inl h2⟩

omit hl in
/-- **C112.** Without an effective limit (0 or 1), a returned point has a computed gradient norm that is less than the precision or NaN; that is all. -/
theorem C112_result (hlim : cfg.iterations ≤ 1) (fuel : Nat) (p q : List (Flt F)) (h : (find l cfg fuel p).eval g = .ok q) :
    ∃ ds, (gradient cfg.increment (cfg.increment / 2) q).eval g = .ok ds ∧ ¬ cfg.precision ≤ l.sqrt (squares l ds) := by
  unfold find at h
  rw [Prog.eval_bind] at h
  obtain ⟨gr, -, h⟩ := Res.bind_eq_ok.1 h
  obtain ⟨ds, h1, -, h2⟩ := outer_result cfg g fuel _ _ _ _ _ _ h
  exact ⟨ds, h1, h2.resolve_right (by omega)⟩

omit hl in
/-- **C112.** If the squares of the first computed gradient sum to less than `Eps`, no point is returned, whatever the fuel. -/
theorem C112_small_gradient (p gr : List (Flt F)) (hgr : (gradient cfg.increment (cfg.increment / 2) p).eval g = .ok gr)
    (hz : l.abs (squares l gr - 0) < l.eps) (fuel : Nat) (q : List (Flt F)) : (find l cfg fuel p).eval g ≠ .ok q := by
  intro h
  unfold find at h
  rw [Prog.eval_bind, hgr] at h
  simp only [Res.ok_bind] at h
  cases fuel with
  | zero => cases h
  | succ fuel =>
    unfold outer at h
    simp only [Prog.eval_bind] at h
    obtain ⟨x, hx, h⟩ := Res.bind_eq_ok.1 h
    obtain ⟨ds, hds, h⟩ := Res.bind_eq_ok.1 h
    rw [if_pos (show IsZero l (squares l gr) from hz)] at h
    cases h

end Cg

/-! ## The exact reals -/

namespace Cg

/-- The library over the exact reals. -/
noncomputable def exact : Lib ℝ := ⟨fun x => |x|, Real.sqrt, fun x => x * x, FloatingPoint.eps⟩

theorem lineSearch_exact (cfg : Gradient.Cg.Config) (g : List ℝ → ℝ) (p d : List ℝ) : ∀ (fuel : Nat) (t x : ℝ),
    (GradientProg.Cg.lineSearch cfg p d fuel t).eval g = .ok (some x) →
      (lineSearch exact ⟨cfg.precision, cfg.increment, cfg.iterations⟩ p d fuel t).eval g = .ok x
  | 0, _, _, h => by cases h
  | fuel + 1, t, x, h => by
    unfold GradientProg.Cg.lineSearch at h
    unfold lineSearch
    simp only [Prog.eval_bind, Prog.eval_askMin, Res.ok_bind] at h ⊢
    split_ifs at h with h1 h2 h3
    · cases h
    · cases h
    · exact (congrArg _ (if_pos h3)).trans (lineSearch_exact cfg g p d fuel _ x h)
    · cases h
      exact congrArg _ (if_neg h3)

theorem outer_exact (cfg : Gradient.Cg.Config) (g : List ℝ → ℝ) : ∀ (fuel : Nat) (p gr d : List ℝ) (w : ℝ) (k : Nat) (q : List ℝ),
    (GradientProg.Cg.outer cfg fuel p gr d w k).eval g = .ok q →
      (outer exact ⟨cfg.precision, cfg.increment, cfg.iterations⟩ fuel p gr d w k).eval g = .ok q
  | 0, _, _, _, _, _, _, h => by cases h
  | fuel + 1, p, gr, d, w, k, q, h => by
    unfold GradientProg.Cg.outer at h
    unfold outer
    simp only [Prog.eval_bind] at h ⊢
    obtain ⟨s, hs, h⟩ := Res.bind_eq_ok.1 h
    have hiff : IsZero exact (squares exact gr) ↔ FloatingPoint.isZero (GradientProg.squares gr) = true := by
      unfold FloatingPoint.isZero FloatingPoint.areEqual
      rw [decide_eq_true_iff]
      rfl
    cases s with
    | none =>
      simp only at h
      split_ifs at h
      · cases h
      · cases h
    | some x =>
      simp only [Prog.eval_bind] at h
      obtain ⟨ds, hds, h⟩ := Res.bind_eq_ok.1 h
      have hls := lineSearch_exact cfg g p (nextDirection gr d w k) fuel 0 x hs
      rw [hls]
      simp only [Res.ok_bind]
      have hgr : (gradient cfg.increment (cfg.increment / 2) (along p x (nextDirection gr d w k))).eval g = .ok ds := by
        rw [gradient_exact]
        exact hds
      rw [hgr]
      simp only [Res.ok_bind]
      split_ifs at h with h1 h2 h3
      · cases h
      · rw [if_neg (fun h' => h1 (hiff.1 h')), if_pos h2]
        exact h
      · rw [if_neg (fun h' => h1 (hiff.1 h')), if_neg h2]
        have ih := outer_exact cfg g fuel _ _ _ _ _ _ h
        exact (congrArg _ (if_pos h3)).trans ih
      · rw [if_neg (fun h' => h1 (hiff.1 h')), if_neg h2]
        exact (congrArg _ (if_neg h3)).trans h

/-- **C112.** With exact numbers, a run of the model of C71, C72 and C81 that returns a point is a run of this one. -/
theorem C112_exact (cfg : Gradient.Cg.Config) (g : List ℝ → ℝ) (fuel : Nat) (p q : List ℝ) (h : (GradientProg.Cg.find cfg fuel p).eval g = .ok q) :
    (find exact ⟨cfg.precision, cfg.increment, cfg.iterations⟩ fuel p).eval g = .ok q := by
  unfold GradientProg.Cg.find at h
  unfold find
  rw [Prog.eval_bind] at h ⊢
  obtain ⟨gr, hgr, h⟩ := Res.bind_eq_ok.1 h
  have hgr' : (gradient cfg.increment (cfg.increment / 2) p).eval g = .ok gr := by
    rw [gradient_exact]
    exact hgr
  show (gradient cfg.increment (cfg.increment / 2) p).eval g >>= _ = _
  rw [hgr']
  exact outer_exact cfg g fuel _ _ _ _ _ _ h

end Cg

/-! ## Concrete cases -/

section Examples

/-- The library in `double`. -/
def Cg.lib64 : Cg.Lib (Flt binary64) := ⟨abs64, sqrt64, fun x => x * x, f64 (1 / 10 ^ 10)⟩

theorem Cg.lib64_good : Cg.lib64.Good where
  abs_nan := by decide +kernel
  abs_zero := by decide +kernel
  abs_inf := by
    intro x s h
    have : x = rnd (.inf s) := ext h
    subst this
    revert s
    decide +kernel
  sqrt_nan := by decide +kernel
  sqrt_zero := by decide +kernel
  sq_nan := by decide +kernel
  sq_zero := by decide +kernel
  eps := by decide +kernel

/-- The identity function in `double`. -/
def ident (v : List (Flt binary64)) : Flt binary64 :=
  match v with
  | [x] => x
  | _ => nanF

/-- `1 / x` in `double`. -/
def inverse (v : List (Flt binary64)) : Flt binary64 :=
  match v with
  | [x] => 1 / x
  | _ => nanF

/-- Minimising `x` from 0: the point NaN is returned. -/
example : (Cg.find Cg.lib64 ⟨f64 (1 / 10 ^ 4), f64 (1 / 1024), 100⟩ 5 [f64 0]).eval ident = .ok [nanF] := by decide +kernel

/-- Minimising `1 / x` from 1, with steps of 1.5 in the limit: after less than 150 steps of the one-dimensional search the point NaN is returned. -/
example : (Cg.find Cg.lib64 ⟨f64 (1 / 10 ^ 4), f64 (1 / 1024), 100⟩ 150 [f64 1]).eval inverse = .ok [nanF] := by decide +kernel

/-- `C112_odd` applies to the identity, with its second outcome. -/
example : ∃ q : List (Flt binary64), q.length = 1 ∧ (∀ y ∈ q, ¬ y.Finite) ∧
    ∀ fuel ≥ 3, (Cg.find Cg.lib64 ⟨f64 (1 / 10 ^ 4), f64 (1 / 1024), 100⟩ fuel [0]).eval ident = .ok q := by
  obtain ⟨gr, h1, h2⟩ := Cg.C112_odd Cg.lib64_good ⟨f64 (1 / 10 ^ 4), f64 (1 / 1024), 100⟩ ident (by decide +kernel) (by decide +kernel) 1 (by
    intro v
    match v with
    | [] => decide +kernel
    | [x] => rfl
    | _ :: _ :: _ => show nanF = -nanF; decide +kernel)
  have h3 : (gradient (f64 (1 / 1024)) (f64 (1 / 1024) / 2) [(0 : Flt binary64)]).eval ident = .ok [f64 1] := by decide +kernel
  have h4 : gr = [f64 1] := Res.ok.inj (h1.symm.trans h3)
  subst h4
  rwa [if_neg (by decide +kernel)] at h2

/-- At the minimum of `x²` the method throws. -/
example : ∀ fuel ≥ 2, (Cg.find Cg.lib64 ⟨f64 (1 / 10 ^ 4), f64 (1 / 1024), 100⟩ fuel [f64 0]).eval square = .throw "runtime_error" := by
  have hh : square ([f64 0].set 0 (f64 0 + f64 (1 / 1024) / 2)) - square ([f64 0].set 0 (f64 0 - f64 (1 / 1024) / 2)) = 0 := by decide +kernel
  refine Cg.C112_stationary Cg.lib64_good _ square (by decide +kernel) (by decide +kernel) [f64 0] (by decide +kernel) ?_
  intro i x hx
  obtain ⟨hi, e⟩ := List.getElem?_eq_some_iff.1 hx
  have hi0 : i = 0 := by simpa using hi
  subst hi0
  cases e
  exact hh

/-- Minimising `x²` from `10^9` with the increment `10^-8`: the method throws. -/
example : ∀ fuel ≥ 2, (Cg.find Cg.lib64 ⟨f64 (1 / 10 ^ 4), f64 (1 / 10 ^ 8), 100⟩ fuel [f64 (10 ^ 9)]).eval square = .throw "runtime_error" := by
  refine Cg.C112_small_increment Cg.lib64_good _ square (by decide +kernel) (η := binary64.fl (1 / 10 ^ 8)) (by decide +kernel) (by decide +kernel)
    [f64 (10 ^ 9)] (by decide +kernel) ?_
  intro x hx
  rw [List.mem_singleton] at hx
  subst hx
  exact ⟨10 ^ 9, by decide +kernel, by decide +kernel⟩

/-- `x²` from 3, in `double`: the point 0 is returned. -/
example : (Cg.find Cg.lib64 ⟨f64 (1 / 10 ^ 4), f64 (1 / 1024), 0⟩ 20 [f64 3]).eval square = .ok [f64 0] := by decide +kernel

end Examples
end K52.IeeeGradient
