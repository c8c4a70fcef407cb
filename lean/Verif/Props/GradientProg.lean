import Verif.Lemmas.GradientProg
import Verif.Props.Continuous
import Verif.Props.ConjugateGradient
import Verif.Props.SteepestDescent

/-!
# C80, C81: the gradient methods called through `Optimize`

Spec: the functional models of `Verif.Model.Gradient`, to which C70 - C76 refer, applied to the function with the requested sign.
-/

namespace K52.GradientProg

open K52.Gradient (Vec)
open ContinuousOptimizer (optimize target Admissible)

/-- A list of `n` numbers as a vector. -/
def vec (v : List ℝ) : Vec v.length := fun i => v[i]

@[simp] theorem ofFn_vec (v : List ℝ) : List.ofFn (vec v) = v := by
  unfold vec
  exact List.ofFn_getElem

/-- The function a method minimizes, on vectors. -/
noncomputable def onVec (n : Nat) (maximize : Bool) (f : List ℝ → ℝ) (x : Vec n) : ℝ := if maximize then -f (List.ofFn x) else f (List.ofFn x)

theorem onVec_eq (n : Nat) (maximize : Bool) (f : List ℝ → ℝ) : onVec n maximize f = fun v => target maximize f (List.ofFn v) := by
  funext v; cases maximize <;> rfl

/-- What `Optimize` makes of a run: the found point replaces the values, an exception is passed on. -/
theorem optimize_runs (find : List ℝ → Prog ℝ (List ℝ)) (maximize : Bool) (f : List ℝ → ℝ) (p : CParams ℝ) (hok : ∀ x, p.ok x = true)
    (r : Res (List ℝ)) (h : Runs (target maximize f) p.values.length (find p.values) r) :
    (∀ q, r = .ok q → q.length = p.values.length → optimize find maximize f p = ({ p with values := q }, .ok ())) ∧
    ∀ w, r = .throw w → (optimize find maximize f p).2 = .throw w := by
  have ha : ∀ x ∈ (find p.values).trace (target maximize f), Admissible p x := fun x hx => ⟨h.dim x hx, hok x⟩
  have hr := ContinuousOptimizer.run_admissible maximize f (find p.values) p ha
  rw [h.eval] at hr
  constructor
  · rintro q rfl hq
    simp only [optimize, CParams.getValues, hr]
    rw [CParams.setValues_ok (p := { p with values := _ }) (hq.trans ?_)]
    cases e : ((find p.values).trace (target maximize f)).getLast? with
    | none => simp
    | some x => simpa using (h.dim x (List.mem_of_getLast? e)).symm
  · rintro w rfl
    simp only [optimize, CParams.getValues, hr]

/-- **C80 (steepest descent).** On parameters without constraints, `Optimize` with steepest descent leaves in them exactly the point the
method finds for the function with the requested sign, and runs for ever exactly when the method does. -/
theorem C80_steepest_descent (a : Gradient.Sd.AbsImpl) (cfg : Gradient.Sd.Config) (fuel : Nat) (maximize : Bool) (f : List ℝ → ℝ)
    (p : CParams ℝ) (hok : ∀ x, p.ok x = true) :
    (∀ q, Gradient.Sd.find a cfg (onVec _ maximize f) fuel (vec p.values) = some q →
      optimize (Sd.find a cfg fuel) maximize f p = ({ p with values := List.ofFn q }, .ok ())) ∧
    (Gradient.Sd.find a cfg (onVec _ maximize f) fuel (vec p.values) = none →
      (optimize (Sd.find a cfg fuel) maximize f p).2 = .throw "(out of fuel)") := by
  have h := Sd.find_ofFn (g := target maximize f) a cfg fuel (vec p.values)
  rw [ofFn_vec, ← onVec_eq] at h
  obtain ⟨h1, h2⟩ := optimize_runs _ maximize f p hok _ h
  constructor
  · intro q e
    exact h1 _ (by rw [e]; rfl) (by simp)
  · intro e
    exact h2 _ (by rw [e]; rfl)

/-- **C80 (conjugate gradients).** The same for conjugate gradients, whose exception is passed on. -/
theorem C80_conjugate_gradient (cfg : Gradient.Cg.Config) (fuel : Nat) (maximize : Bool) (f : List ℝ → ℝ)
    (p : CParams ℝ) (hok : ∀ x, p.ok x = true) :
    (∀ q, Gradient.Cg.find cfg (onVec _ maximize f) fuel (vec p.values) = some (.found q) →
      optimize (Cg.find cfg fuel) maximize f p = ({ p with values := List.ofFn q }, .ok ())) ∧
    (Gradient.Cg.find cfg (onVec _ maximize f) fuel (vec p.values) = some .error →
      (optimize (Cg.find cfg fuel) maximize f p).2 = .throw "runtime_error") ∧
    (Gradient.Cg.find cfg (onVec _ maximize f) fuel (vec p.values) = none →
      (optimize (Cg.find cfg fuel) maximize f p).2 = .throw "(out of fuel)") := by
  have h := Cg.find_ofFn (g := target maximize f) cfg fuel (vec p.values)
  rw [ofFn_vec, ← onVec_eq] at h
  obtain ⟨h1, h2⟩ := optimize_runs _ maximize f p hok _ h
  refine ⟨?_, ?_, ?_⟩
  · intro q e
    exact h1 _ (by rw [e]; rfl) (by simp)
  · intro e
    exact h2 _ (by rw [e]; rfl)
  · intro e
    exact h2 _ (by rw [e]; rfl)

/-- The first point either method looks at. -/
theorem gradient_first (g : List ℝ → ℝ) (h x : ℝ) (xs : List ℝ) :
    ∃ post, (gradient h (x :: xs)).trace g = ((x + h / 2) :: xs) :: post := by
  simp only [gradient, List.length_cons, gradientLoop, derivative, List.getElem?_cons_zero, List.set_cons_zero]
  exact ⟨_, rfl⟩

theorem trace_bind_cons {α β : Type} {g : List ℝ → ℝ} {a : Prog ℝ α} {k : α → Prog ℝ β} {x : List ℝ} {xs : List (List ℝ)}
    (h : a.trace g = x :: xs) : ∃ post, (a >>= k).trace g = x :: post := by
  rw [Prog.trace_bind, h]
  exact ⟨_, rfl⟩

/-- **C80 (constraints).** Both methods evaluate the function half an increment away from the start: parameters whose constraints exclude
that point make `Optimize` throw, and are left at the excluded point. -/
theorem C80_constraint_violation (maximize : Bool) (f : List ℝ → ℝ) (ok : List ℝ → Bool) (x : ℝ) (xs : List ℝ) (h : ℝ)
    (hbad : ok ((x + h / 2) :: xs) = false) (a : Gradient.Sd.AbsImpl) (precision : ℝ) (limit fuel : Nat) :
    (optimize (Sd.find a ⟨h, limit, precision⟩ (fuel + 1)) maximize f ⟨x :: xs, ok⟩).2 = .throw "logic_error" ∧
    (optimize (Sd.find a ⟨h, limit, precision⟩ (fuel + 1)) maximize f ⟨x :: xs, ok⟩).1.values = (x + h / 2) :: xs ∧
    (optimize (Cg.find ⟨precision, h, limit⟩ fuel) maximize f ⟨x :: xs, ok⟩).2 = .throw "logic_error" ∧
    (optimize (Cg.find ⟨precision, h, limit⟩ fuel) maximize f ⟨x :: xs, ok⟩).1.values = (x + h / 2) :: xs := by
  obtain ⟨post, hg⟩ := gradient_first (target maximize f) h x xs
  have h1 : ∃ post, (Sd.find a ⟨h, limit, precision⟩ (fuel + 1) (x :: xs)).trace (target maximize f) = ((x + h / 2) :: xs) :: post := by
    unfold Sd.find Sd.outer
    exact trace_bind_cons hg
  have h2 : ∃ post, (Cg.find ⟨precision, h, limit⟩ fuel (x :: xs)).trace (target maximize f) = ((x + h / 2) :: xs) :: post :=
    trace_bind_cons hg
  obtain ⟨p1, h1⟩ := h1
  obtain ⟨p2, h2⟩ := h2
  have c1 := ContinuousOptimizer.C47_constraint_violation (Sd.find a ⟨h, limit, precision⟩ (fuel + 1)) maximize f ⟨x :: xs, ok⟩ [] _ p1 h1
    (by simp) (by simp) hbad
  have c2 := ContinuousOptimizer.C47_constraint_violation (Cg.find ⟨precision, h, limit⟩ fuel) maximize f ⟨x :: xs, ok⟩ [] _ p2 h2
    (by simp) (by simp) hbad
  exact ⟨c1.1, c1.2, c2.1, c2.2⟩

/-- Non-vacuity: `Optimize` with steepest descent for the minimum of `x²` from 1, and for the maximum of `-x²`, returns. -/
example (a : Gradient.Sd.AbsImpl) (maximize : Bool) : ∃ q fuel₀, ∀ fuel ≥ fuel₀,
    optimize (Sd.find a ⟨1, 100, 1 / 10⟩ fuel) maximize (fun v => if maximize then -(v.headD 0) ^ 2 else (v.headD 0) ^ 2)
      ⟨[1], fun _ => true⟩ = (⟨q, fun _ => true⟩, .ok ()) := by
  have hg : onVec 1 maximize (fun v => if maximize then -(v.headD 0) ^ 2 else (v.headD 0) ^ 2) = fun x : Vec 1 => x 0 ^ 2 := by
    funext x; cases maximize <;> simp [onVec]
  obtain ⟨q, fuel₀, h⟩ := Gradient.Sd.C76_terminates a ⟨1, 100, 1 / 10⟩ (by norm_num) (by norm_num) _ Gradient.Sd.square_unbounded
    (vec [1]) ⟨0, by simp only [Gradient.gradient, Gradient.derivative, Function.update_self]; norm_num [vec]⟩
  refine ⟨List.ofFn q, fuel₀, fun fuel hf => ?_⟩
  exact (C80_steepest_descent a ⟨1, 100, 1 / 10⟩ fuel maximize _ ⟨[1], fun _ => true⟩ (fun _ => rfl)).1 q
    ((congrArg (fun F => Gradient.Sd.find a ⟨1, 100, 1 / 10⟩ F fuel (vec [1])) hg).trans (h fuel hf))

/-- Non-vacuity of the constraints: `x ≤ 1`, started at 1 with increment 1. -/
example : (fun v : List ℚ => decide (v.headD 0 ≤ 1)) ((1 + 1 / 2) :: []) = false := by decide +kernel

/-! ### C81: conjugate gradients do not distinguish maximum and minimum -/

/-- Two programs answered by `g` and `-g`: results correspond through `φ`, and the same points are asked for. -/
structure Mirror {α : Type} (g : List ℝ → ℝ) (φ : α → α) (a' a : Prog ℝ α) : Prop where
  eval : a'.eval (fun x => -g x) = a.eval g >>= fun v => .ok (φ v)
  mem : ∀ x, x ∈ a'.trace (fun x => -g x) ↔ x ∈ a.trace g

variable {g : List ℝ → ℝ}

theorem Mirror.done {α : Type} {φ : α → α} (r r' : Res α) (h : r' = r >>= fun v => .ok (φ v)) : Mirror g φ (.done r') (.done r) :=
  ⟨h, by simp⟩

theorem Mirror.bind {α β : Type} {φ : α → α} {ψ : β → β} {a' a : Prog ℝ α} {k' k : α → Prog ℝ β} (h : Mirror g φ a' a)
    (hk : ∀ v, a.eval g = .ok v → Mirror g ψ (k' (φ v)) (k v)) : Mirror g ψ (a' >>= k') (a >>= k) := by
  constructor
  · rw [Prog.eval_bind, Prog.eval_bind, h.eval]
    cases e : a.eval g with
    | ok v => exact (hk v e).eval
    | throw w => rfl
    | ub => rfl
  · intro x
    rw [Prog.mem_trace_bind, Prog.mem_trace_bind, h.eval, h.mem]
    refine or_congr_right ?_
    cases e : a.eval g with
    | ok v => simp [(hk v e).mem]
    | throw w => simp
    | ub => simp

/-- The opposite vector. -/
def opposite (d : List ℝ) : List ℝ := d.map fun x => -x

theorem along_opposite (p : List ℝ) (t : ℝ) (d : List ℝ) : along p (-t) (opposite d) = along p t d := by
  unfold along opposite
  rw [List.zipWith_map_right]
  congr 1
  funext x y
  ring

theorem along_opposite' (p : List ℝ) (t : ℝ) (d : List ℝ) : along (opposite p) t (opposite d) = opposite (along p t d) := by
  unfold along opposite
  rw [List.zipWith_map, List.map_zipWith]
  congr 1
  funext x y
  ring

theorem squares_opposite (v : List ℝ) : squares (opposite v) = squares v := by
  rw [squares_eq_sum, squares_eq_sum, opposite, List.map_map]
  congr 2
  funext x
  simp

theorem derivative_mirror (h : ℝ) (p : List ℝ) (i : Nat) : Mirror g (fun x => -x) (derivative h p i) (derivative h p i) := by
  unfold derivative
  split
  · exact Mirror.done _ _ rfl
  · constructor
    · simp only [Prog.eval_bind, Prog.eval_askMin, Res.ok_bind, Prog.pure_def, Prog.eval_done, Res.ok.injEq]
      ring
    · intro y
      simp [Prog.mem_trace_bind]

theorem gradientLoop_mirror (h : ℝ) (p : List ℝ) : ∀ k i, Mirror g opposite (gradientLoop h p k i) (gradientLoop h p k i)
  | 0, i => Mirror.done _ _ rfl
  | k + 1, i => by
    unfold gradientLoop
    refine Mirror.bind (derivative_mirror h p i) fun v _ => Mirror.bind (gradientLoop_mirror h p k (i + 1)) fun vs _ => ?_
    exact Mirror.done _ _ rfl

theorem gradient_mirror (h : ℝ) (p : List ℝ) : Mirror g opposite (gradient h p) (gradient h p) := gradientLoop_mirror h p _ _

namespace Cg
open Gradient.Cg (Config)

theorem lineSearch_mirror (cfg : Config) (p d : List ℝ) : ∀ (fuel : Nat) (x : ℝ),
    Mirror g (Option.map fun x => -x) (lineSearch cfg p (opposite d) fuel (-x)) (lineSearch cfg p d fuel x)
  | 0, x => Mirror.done _ _ rfl
  | fuel + 1, x => by
    have e1 : along p (-x) (opposite d) = along p x d := along_opposite p x d
    have e2 : along p (-x + cfg.increment / 2) (opposite d) = along p (x - cfg.increment / 2) d := by
      rw [← along_opposite p (x - _)]; congr 1; ring
    have e3 : along p (-x - cfg.increment / 2) (opposite d) = along p (x + cfg.increment / 2) d := by
      rw [← along_opposite p (x + _)]; congr 1; ring
    have ih := lineSearch_mirror cfg p d fuel
    unfold lineSearch
    simp only [e1, e2, e3]
    set v := g (along p x d)
    set vi := g (along p (x + cfg.increment / 2) d)
    set vd := g (along p (x - cfg.increment / 2) d)
    have f1 : (-vd - -vi) / cfg.increment = (vi - vd) / cfg.increment := by ring
    have f2 : (-vd - 2 * -v + -vi) / (cfg.increment * cfg.increment / 4) = -((vi - 2 * v + vd) / (cfg.increment * cfg.increment / 4)) := by
      ring
    -- the part after the three evaluations
    have rest : Mirror g (Option.map fun x => -x)
        (if (-vd - 2 * -v + -vi) / (cfg.increment * cfg.increment / 4) = 0 then
            if (-vd - -vi) / cfg.increment = 0 then pure none else notFollowed
          else
            if |-x - (-x - (-vd - -vi) / cfg.increment / ((-vd - 2 * -v + -vi) / (cfg.increment * cfg.increment / 4)))| > cfg.precision then
              lineSearch cfg p (opposite d) fuel (-x - (-vd - -vi) / cfg.increment / ((-vd - 2 * -v + -vi) / (cfg.increment * cfg.increment / 4)))
            else pure (some (-x - (-vd - -vi) / cfg.increment / ((-vd - 2 * -v + -vi) / (cfg.increment * cfg.increment / 4)))))
        (if (vi - 2 * v + vd) / (cfg.increment * cfg.increment / 4) = 0 then
            if (vi - vd) / cfg.increment = 0 then pure none else notFollowed
          else
            if |x - (x - (vi - vd) / cfg.increment / ((vi - 2 * v + vd) / (cfg.increment * cfg.increment / 4)))| > cfg.precision then
              lineSearch cfg p d fuel (x - (vi - vd) / cfg.increment / ((vi - 2 * v + vd) / (cfg.increment * cfg.increment / 4)))
            else pure (some (x - (vi - vd) / cfg.increment / ((vi - 2 * v + vd) / (cfg.increment * cfg.increment / 4))))) := by
      rw [f1, f2]
      generalize (vi - vd) / cfg.increment = s1
      generalize (vi - 2 * v + vd) / (cfg.increment * cfg.increment / 4) = s2
      simp only [neg_eq_zero]
      have hx : -x - s1 / -s2 = -(x - s1 / s2) := by rw [div_neg]; ring
      rw [hx]
      have hd : |-x - -(x - s1 / s2)| = |x - (x - s1 / s2)| := by
        rw [← abs_neg]; congr 1; ring
      rw [hd]
      split
      · split
        · exact Mirror.done _ _ rfl
        · exact Mirror.done _ _ rfl
      · split
        · exact ih _
        · exact Mirror.done _ _ rfl
    constructor
    · simp only [Prog.eval_bind, Prog.eval_askMin, Res.ok_bind]
      exact rest.eval
    · intro y
      simp only [Prog.mem_trace_bind, Prog.eval_askMin, Prog.trace_askMin, List.mem_singleton, Res.ok.injEq, exists_eq_left']
      rw [rest.mem]
      tauto

theorem nextDirection_opposite (u v : List ℝ) (w : ℝ) (k : Nat) :
    nextDirection (opposite u) (opposite v) w k = opposite (nextDirection u v w k) := by
  unfold nextDirection
  split
  · exact along_opposite' _ _ _
  · rfl

theorem outer_mirror (cfg : Config) : ∀ (fuel : Nat) (p u v : List ℝ) (w : ℝ) (k : Nat),
    Mirror g id (outer cfg fuel p (opposite u) (opposite v) w k) (outer cfg fuel p u v w k)
  | 0, _, _, _, _, _ => Mirror.done _ _ rfl
  | fuel + 1, p, u, v, w, k => by
    unfold outer
    simp only [nextDirection_opposite, squares_opposite]
    have h1 := lineSearch_mirror (g := g) cfg p (nextDirection u v w k) fuel 0
    rw [neg_zero] at h1
    refine Mirror.bind h1 fun r _ => ?_
    cases r with
    | none =>
      simp only [Option.map_none]
      split
      · exact Mirror.done _ _ rfl
      · exact Mirror.done _ _ rfl
    | some x =>
      simp only [Option.map_some, along_opposite]
      refine Mirror.bind (gradient_mirror cfg.increment _) fun u' _ => ?_
      simp only [squares_opposite]
      split
      · exact Mirror.done _ _ rfl
      · split
        · exact Mirror.done _ _ rfl
        · split
          · exact outer_mirror cfg fuel _ _ _ _ _
          · exact Mirror.done _ _ rfl

theorem find_mirror (cfg : Config) (fuel : Nat) (p : List ℝ) : Mirror g id (find cfg fuel p) (find cfg fuel p) := by
  unfold find
  refine Mirror.bind (gradient_mirror cfg.increment p) fun u _ => ?_
  have h := outer_mirror (g := g) cfg fuel p u (List.replicate p.length 0) 0 1
  have : opposite (List.replicate p.length 0) = List.replicate p.length (0 : ℝ) := by simp [opposite]
  rw [this] at h
  exact h

end Cg

open Cg in
/-- **C81.** For every objective function, every parameters (constraints included), every setting and starting point: asked for the
maximum or for the minimum, conjugate gradients succeed together and leave the very same parameters. -/
theorem C81_ignores_maximize (cfg : Gradient.Cg.Config) (fuel : Nat) (f : List ℝ → ℝ) (p : CParams ℝ) :
    ((optimize (Cg.find cfg fuel) true f p).2 = .ok () ↔ (optimize (Cg.find cfg fuel) false f p).2 = .ok ()) ∧
    ((optimize (Cg.find cfg fuel) true f p).2 = .ok () →
      (optimize (Cg.find cfg fuel) true f p).1.values = (optimize (Cg.find cfg fuel) false f p).1.values) := by
  have m := find_mirror (g := f) cfg fuel p.values
  obtain ⟨t1, t2⟩ := ContinuousOptimizer.C47_optimize (Cg.find cfg fuel) true f p
  obtain ⟨f1, f2⟩ := ContinuousOptimizer.C47_optimize (Cg.find cfg fuel) false f p
  have et : target true f = fun x => -f x := by funext x; simp [target]
  have ef : target false f = f := by funext x; simp [target]
  have ev : (Cg.find cfg fuel p.values).eval (fun x => -f x) = (Cg.find cfg fuel p.values).eval f := by
    rw [m.eval]
    cases (Cg.find cfg fuel p.values).eval f <;> rfl
  have iff1 : (optimize (Cg.find cfg fuel) true f p).2 = .ok () ↔ (optimize (Cg.find cfg fuel) false f p).2 = .ok () := by
    rw [t1, f1, et, ef, ev]
    simp only [m.mem]
  refine ⟨iff1, fun h => ?_⟩
  have a := (t2 h).1
  have b := (f2 (iff1.1 h)).1
  rw [et, ev] at a
  rw [ef] at b
  rw [a] at b
  simpa using b

/-- **C81 (exceptions).** Without constraints the outcome is the same in every case. -/
theorem C81_same_outcome (cfg : Gradient.Cg.Config) (fuel : Nat) (f : List ℝ → ℝ) (p : CParams ℝ) (hok : ∀ x, p.ok x = true) :
    (optimize (Cg.find cfg fuel) true f p).2 = (optimize (Cg.find cfg fuel) false f p).2 := by
  have m := Cg.find_mirror (g := f) cfg fuel p.values
  have et : target true f = fun x => -f x := by funext x; simp [target]
  have ef : target false f = f := by funext x; simp [target]
  have ev : (Cg.find cfg fuel p.values).eval (fun x => -f x) = (Cg.find cfg fuel p.values).eval f := by
    rw [m.eval]
    cases (Cg.find cfg fuel p.values).eval f <;> rfl
  have h := Cg.find_ofFn (g := target false f) cfg fuel (vec p.values)
  have h' := Cg.find_ofFn (g := target true f) cfg fuel (vec p.values)
  rw [ofFn_vec] at h h'
  obtain ⟨a1, a2⟩ := optimize_runs _ false f p hok _ h
  obtain ⟨b1, b2⟩ := optimize_runs _ true f p hok _ h'
  have hd := h.eval
  have hd' := h'.eval
  rw [et, ev] at hd'
  rw [ef] at hd
  have req := hd'.symm.trans hd
  cases hr : fueled Cg.ofOutcome (Gradient.Cg.find cfg (fun v => target false f (List.ofFn v)) fuel (vec p.values)) with
  | ok q =>
    have hq : q.length = p.values.length := by
      revert hr
      cases Gradient.Cg.find cfg (fun v => target false f (List.ofFn v)) fuel (vec p.values) with
      | none => simp
      | some o => cases o <;> simp [Cg.ofOutcome]; rintro rfl; simp
    rw [a1 q hr hq, b1 q (req.trans hr) hq]
  | throw w => rw [a2 w hr, b2 w (req.trans hr)]
  | ub =>
    exfalso
    revert hr
    cases Gradient.Cg.find cfg (fun v => target false f (List.ofFn v)) fuel (vec p.values) with
    | none => simp
    | some o => cases o <;> simp [Cg.ofOutcome]

open Matrix in
/-- **C81 (consequence).** Asked to *minimize* a concave quadratic function of `n` variables (negative definite matrix `A`), started
where the gradient is not (almost) zero and with a precision of at least `1e-5`, conjugate gradients return normally with a point whose
value is *larger* than at the start; without an effective iteration limit it is (up to the precision) the maximum. -/
theorem C81_minimizes_to_the_maximum {n : Nat} (cfg : Gradient.Cg.Config) (hp : 1 / 10 ^ 5 ≤ cfg.precision) (hh : cfg.increment ≠ 0)
    (A : Matrix (Fin n) (Fin n) ℝ) (hsymm : A.transpose = A) (hneg : ∀ d : Vec n, d ≠ 0 → d ⬝ᵥ A *ᵥ d < 0) (b : Vec n) (c : ℝ)
    (f : List ℝ → ℝ) (hf : ∀ x : Vec n, f (List.ofFn x) = 1 / 2 * (x ⬝ᵥ A *ᵥ x) + b ⬝ᵥ x + c)
    (x : Vec n) (hstart : 1 / 10 ^ 10 ≤ ∑ i, (A *ᵥ x + b) i ^ 2) (fuel : Nat) (hfuel : n + 3 ≤ fuel) (maximize : Bool) :
    ∃ q : Vec n, optimize (Cg.find cfg fuel) maximize f ⟨List.ofFn x, fun _ => true⟩ = (⟨List.ofFn q, fun _ => true⟩, .ok ()) ∧
      f (List.ofFn x) < f (List.ofFn q) ∧
      (cfg.iterations = 0 ∨ cfg.iterations = 1 ∨ n < cfg.iterations →
        Real.sqrt (∑ i, (A *ᵥ q + b) i ^ 2) < cfg.precision) := by
  have hA : Gradient.Cg.Definite (-A) := ⟨by rw [Matrix.transpose_neg, hsymm], fun d hd => by
    rw [Matrix.neg_mulVec, dotProduct_neg]
    exact neg_ne_zero.2 (hneg d hd).ne⟩
  have hpos : ∀ d : Vec n, d ≠ 0 → 0 < d ⬝ᵥ (-A) *ᵥ d := fun d hd => by
    rw [Matrix.neg_mulVec, dotProduct_neg]
    exact neg_pos.2 (hneg d hd)
  have hq : ∀ v : Vec n, Gradient.Cg.quad (-A) (-b) (-c) v = -f (List.ofFn v) := by
    intro v
    rw [hf]
    unfold Gradient.Cg.quad
    rw [Matrix.neg_mulVec, dotProduct_neg, neg_dotProduct]
    ring
  have hn : ∀ v : Vec n, ∀ i, ((-A) *ᵥ v + -b) i ^ 2 = (A *ᵥ v + b) i ^ 2 := by
    intro v i
    simp only [Matrix.neg_mulVec, Pi.add_apply, Pi.neg_apply]
    ring
  obtain ⟨q, h1, -, h3, h4⟩ := Gradient.Cg.C70_quadratic cfg hp hh (-A) hA (-b) (-c) x (by simpa only [hn] using hstart)
  have ht : (fun v : Vec n => target true f (List.ofFn v)) = Gradient.Cg.quad (-A) (-b) (-c) := by
    funext v; rw [hq]; simp [target]
  have hr := Cg.find_ofFn (g := target true f) cfg fuel x
  rw [ht, h1 fuel hfuel] at hr
  have hmax : optimize (Cg.find cfg fuel) true f ⟨List.ofFn x, fun _ => true⟩ = (⟨List.ofFn q, fun _ => true⟩, .ok ()) :=
    (optimize_runs (Cg.find cfg fuel) true f ⟨List.ofFn x, fun _ => true⟩ (fun _ => rfl) _
      (by simpa only [List.length_ofFn, fueled_some, Cg.ofOutcome] using hr)).1 _ rfl (by simp)
  have hmin := C81_ignores_maximize cfg fuel f ⟨List.ofFn x, fun _ => true⟩
  refine ⟨q, ?_, ?_, ?_⟩
  · cases maximize
    · obtain ⟨i1, i2⟩ := hmin
      have h2 : (optimize (Cg.find cfg fuel) false f ⟨List.ofFn x, fun _ => true⟩).2 = .ok () := i1.1 (by rw [hmax])
      have h5 := i2 (by rw [hmax])
      have h6 := ((ContinuousOptimizer.C47_optimize (Cg.find cfg fuel) false f ⟨List.ofFn x, fun _ => true⟩).2 h2).2
      rw [hmax] at h5
      generalize hE : optimize (Cg.find cfg fuel) false f ⟨List.ofFn x, fun _ => true⟩ = E at h2 h5 h6 ⊢
      obtain ⟨⟨v, o⟩, r⟩ := E
      simp only at h2 h5 h6
      rw [h2, ← h5, h6]
    · exact hmax
  · have := h4 hpos
    rw [hq, hq] at this
    linarith
  · intro hc
    have := h3 hc
    unfold Gradient.Cg.norm2 at this
    simpa only [hn] using this

/-- Non-vacuity: minimizing `-x²` from 1 (matrix `-2`) ends at a point with a larger value. -/
example : ∃ q : Vec 1, optimize (Cg.find ⟨1 / 10, 1 / 2, 100⟩ 10) false (fun v => -(v.headD 0) ^ 2) ⟨List.ofFn fun _ : Fin 1 => 1, fun _ => true⟩ =
    (⟨List.ofFn q, fun _ => true⟩, .ok ()) ∧ -1 < -(q 0) ^ 2 := by
  obtain ⟨q, h1, h2, -⟩ := C81_minimizes_to_the_maximum (n := 1) ⟨1 / 10, 1 / 2, 100⟩ (by norm_num) (by norm_num) (fun _ _ => -2)
    (by ext; rfl) (by
      intro d hd
      have h0 : d 0 ≠ 0 := fun h => hd (by funext i; rw [Subsingleton.elim i 0]; exact h)
      have : d ⬝ᵥ (Matrix.mulVec (fun _ _ => -2) d) = -2 * d 0 ^ 2 := by
        simp [dotProduct, Matrix.mulVec]; ring
      rw [this]
      have := pow_pos (abs_pos.2 h0) 2
      rw [sq_abs] at this
      linarith) (fun _ => 0) 0 (fun v => -(v.headD 0) ^ 2) (by
      intro x
      simp [dotProduct, Matrix.mulVec]; ring) (fun _ => 1) (by simp [dotProduct, Matrix.mulVec]; norm_num) 10 (by norm_num) false
  refine ⟨q, h1, ?_⟩
  simpa using h2

end K52.GradientProg
