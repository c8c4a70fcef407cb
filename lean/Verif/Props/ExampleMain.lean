import Verif.Lemmas.ProgAsks
import Verif.Model.ExampleMain
import Verif.Props.ExampleFns
import Verif.Props.ExampleTester
import Verif.Props.HookeJeeves
import Verif.Props.IeeeConjugate
import Verif.Props.IeeeHooke
import Verif.Props.IeeeNelder
import Verif.Props.IeeeRosenbrock
import Verif.Props.NanAnnealing
import Verif.Props.NanSelect

/-!
# C124: the example program as a whole, in `double`
-/

set_option linter.unusedSectionVars false

namespace K52

/-! ## Dimensions of the points asked -/

section Any
open Prog
variable {R : Type} [Add R] [Sub R] [Mul R] [Div R] [Neg R] [Zero R] [One R] [NatCast R] [LT R] [LE R] [DecidableLT R] [DecidableLE R] {n : Nat}

namespace IeeeRosenbrock
open Rosenbrock (Config State)

theorem stepLoop_asks (l : Lib R) (cfg : Config R) (start : R) {arguments : List R} (ha : arguments.length = n) : ∀ (steps : List R) (basis : List (List R)) (tested : List R),
    (∀ b ∈ basis, b.length = n) → tested.length = n →
      Asks True n (fun r : List R × List R => r.1.length = n ∧ r.2.length = min steps.length basis.length) (stepLoop l cfg start arguments steps basis tested)
  | [], basis, tested, _, ht => by
    unfold stepLoop
    exact ⟨ht, by simp⟩
  | step :: steps, [], tested, _, ht => by
    unfold stepLoop
    exact ⟨ht, by simp⟩
  | step :: steps, d :: basis, tested, hb, ht => by
    unfold stepLoop
    have hd : d.length = n := hb d (by simp)
    refine Asks.askBind (by simp [stepPerCoordinate, ha, hd]) fun v => ?_
    refine (stepLoop_asks l cfg start ha steps basis _ (fun b h => hb b (by simp [h])) (by simp [stepPerCoordinate, ht, hd])).bind fun r hr => ?_
    exact ⟨hr.1, by simp [hr.2]⟩

theorem gramSchmidt_dims (l : Lib R) : ∀ (rows found : List (List R)), (∀ b ∈ rows, b.length = n) → (∀ b ∈ found, b.length = n) →
    (gramSchmidt l found rows).length = found.length + rows.length ∧ ∀ b ∈ gramSchmidt l found rows, b.length = n
  | [], found, _, hf => ⟨rfl, hf⟩
  | row :: rows, found, hr, hf => by
    unfold gramSchmidt
    have hrow : row.length = n := hr row (by simp)
    have ho : ∀ (found : List (List R)) (u : List R), (∀ b ∈ found, b.length = n) → u.length = n →
        (found.foldl (fun u e => List.zipWith (fun x y => x - dot row e * y) u e) u).length = n := by
      intro found
      induction found with
      | nil => intro u _ hu; exact hu
      | cons e es ih =>
        intro u hb hu
        rw [List.foldl_cons]
        exact ih _ (fun b h => hb b (by simp [h])) (by simp [hu, hb e (by simp)])
    obtain ⟨h1, h2⟩ := gramSchmidt_dims l rows (found ++ [normalize l (orthogonalize found row)]) (fun b h => hr b (by simp [h])) (by
      intro b hb
      rcases List.mem_append.1 hb with hb | hb
      · exact hf b hb
      · rw [List.mem_singleton] at hb
        subst hb
        simp only [normalize, List.length_map]
        exact ho found row hf hrow)
    exact ⟨by rw [h1]; simp; omega, h2⟩

theorem matrix_dims {steps : List R} {basis : List (List R)} (hb : ∀ b ∈ basis, b.length = n) :
    (matrixOfCoeff n steps basis).length = n ∧ ∀ b ∈ matrixOfCoeff n steps basis, b.length = n := by
  refine ⟨by simp [matrixOfCoeff], ?_⟩
  intro b h
  obtain ⟨j, _, rfl⟩ := List.mem_map.1 h
  unfold rowSum
  have key : ∀ (ps : List (R × List R)) (acc : List R), (∀ p ∈ ps, p.2.length = n) → acc.length = n →
      (ps.foldl (fun acc p => List.zipWith (fun a b => a + p.1 * b) acc p.2) acc).length = n := by
    intro ps
    induction ps with
    | nil => intro acc _ h; exact h
    | cons p ps ih =>
      intro acc hp h
      rw [List.foldl_cons]
      exact ih _ (fun q hq => hp q (by simp [hq])) (by simp [h, hp p (by simp)])
  refine key _ _ ?_ (by simp)
  intro p hp
  exact hb _ (List.of_mem_zip (List.mem_of_mem_drop hp)).2

theorem loop_asks (l : Lib R) (cfg : Config R) : ∀ (k : Nat) (s : State R) (arguments : List R), arguments.length = n →
    s.basis.length = n → (∀ b ∈ s.basis, b.length = n) → Asks True n (fun r : List R => r.length = n) (loop l cfg k s arguments)
  | 0, s, arguments, ha, _, _ => ha
  | k + 1, s, arguments, ha, hb, hd => by
    unfold loop makeStep
    refine Asks.bind (Q := fun r : List R × List R => r.1.length = n) ?_ fun r hr => ?_
    · refine Asks.askBind ha fun v => ?_
      refine (Asks.lift (Q := fun _ => True) (fun _ _ => trivial) (fun _ => trivial)).bind fun steps _ => ?_
      have h := stepLoop_asks l cfg v ha steps s.basis arguments hd ha
      have h2 := h.bind (f := fun r => pure r) (Q' := fun r : List R × List R => r.1.length = n) fun r hr => hr.1
      have : ∀ p : Prog R (List R × List R), (p >>= fun r => pure r) = p := by
        intro p
        induction p with
        | done r => cases r <;> rfl
        | ask m x k ih => show Prog.ask m x _ = _; congr 1; funext v; exact ih v
      rwa [this] at h2
    · split
      · exact hr
      · obtain ⟨m1, m2⟩ := matrix_dims (n := n) (steps := r.2) hd
        obtain ⟨g1, g2⟩ := gramSchmidt_dims l (matrixOfCoeff n r.2 s.basis) [] m2 (by simp)
        rw [ha]
        exact loop_asks l cfg k _ _ hr (by show (gramSchmidt l [] _).length = n; rw [g1, m1]; simp) g2

theorem find_asks (l : Lib R) (cfg : Config R) (initial : List R) : Asks True initial.length (fun r : List R => r.length = initial.length) (find l cfg initial) := by
  refine loop_asks l cfg _ _ _ rfl (by simp [initState]) ?_
  intro b hb
  obtain ⟨i, _, rfl⟩ := List.mem_map.1 hb
  simp

end IeeeRosenbrock

namespace IeeeAnnealing
open Annealing (Config toInt)

theorem neighbour_length {cfg : Config R} {l : Random.Lib} {v : List R} {r : List R × Random.Lib} (h : neighbour cfg l v = .ok r) : r.1.length = v.length := by
  unfold neighbour at h
  obtain ⟨d, _, h⟩ := Res.bind_eq_ok.1 h
  simp only at h
  split at h
  · cases h
    simp
  · cases h

theorem find_asks (exp : R → R) (cfg : Config R) (l : Random.Lib) (initial : List R) :
    Asks True initial.length (fun r : List R × Random.Lib => r.1.length = initial.length) (find exp cfg l initial) := by
  unfold find
  generalize hn : initial.length = n
  have key : ∀ (k i : Nat) (c : List R) (l : Random.Lib), c.length = n → Asks True n (fun r : List R × Random.Lib => r.1.length = n) (loop exp cfg k i c l) := by
    intro k
    induction k with
    | zero => intro i c l h; exact h
    | succ k ih =>
      intro i c l h
      unfold loop step
      refine Asks.bind (Q := fun r : List R × Random.Lib => r.1.length = n) ?_ fun r hr => ih _ _ _ hr
      refine (Asks.lift (Q := fun nb : List R × Random.Lib => nb.1.length = n) (fun a ha => (neighbour_length ha).trans h) (fun _ => trivial)).bind fun nb hnb => ?_
      refine Asks.askBind h fun v => Asks.askBind hnb fun w => ?_
      refine (Asks.lift (Q := fun _ => True) (fun _ _ => trivial) (fun _ => trivial)).bind fun p _ => ?_
      refine (Asks.lift (Q := fun _ => True) (fun _ _ => trivial) (fun _ => trivial)).bind fun e _ => ?_
      refine Asks.pure ?_
      simp only
      split
      · exact hnb
      · exact h
  exact key _ _ _ _ hn

end IeeeAnnealing

namespace HookeJeeves

theorem coordLoop_asks (steps : List R) (hs : steps.length = n) : ∀ (k i : Nat) (new : List R), new.length = n →
    Asks True n (fun r : List R => r.length = n) (coordLoop steps k i new)
  | 0, i, new, h => h
  | k + 1, i, new, h => by
    unfold coordLoop
    split
    · refine Asks.askBind h fun _ => Asks.askBind (by simp [h]) fun _ => ?_
      split
      · exact coordLoop_asks steps hs k _ _ (by simp [h])
      · refine Asks.askBind (by simp [h]) fun _ => ?_
        split
        · exact coordLoop_asks steps hs k _ _ (by simp [h])
        · exact coordLoop_asks steps hs k _ _ h
    · trivial

theorem inner_asks (cfg : Config R) (steps : List R) (hs : steps.length = n) : ∀ (fuel : Nat) (arguments after : List R) (i : Nat), arguments.length = n → after.length = n →
    Asks True n (fun r : Inner R => match r with | .returns v => v.length = n | .breaks a b _ => a.length = n ∧ b.length = n) (inner cfg steps fuel arguments after i)
  | 0, _, _, _, _, _ => trivial
  | fuel + 1, arguments, after, i, h1, h2 => by
    unfold inner coordinatewise
    have hp : (patternMove cfg arguments after).length = n := by simp [patternMove, h1, h2]
    refine (coordLoop_asks steps hs _ 0 _ hp).bind fun next hn => Asks.askBind h2 fun _ => Asks.askBind hn fun _ => ?_
    split
    · exact ⟨h2, h2⟩
    · split
      · exact hn
      · exact inner_asks cfg steps hs fuel _ _ _ h2 hn

theorem find_asks (lib : Lib R) (cfg : Config R) (fuel : Nat) (initial : List R) :
    Asks True initial.length (fun r : List R => r.length = initial.length) (find lib cfg fuel initial) := by
  have key : ∀ {n} (fuel : Nat) (arguments steps : List R) (i : Nat), arguments.length = n → steps.length = n →
      Asks True n (fun r : List R => r.length = n) (outer lib cfg fuel arguments steps i) := by
    intro n fuel
    induction fuel with
    | zero => intro _ _ _ _ _; trivial
    | succ fuel ih =>
      intro arguments steps i h1 h2
      unfold outer coordinatewise
      refine (coordLoop_asks steps h2 _ 0 _ h1).bind fun after ha => ?_
      split
      · simp only
        split
        · exact ha
        · exact ih _ _ _ h1 (by simp [h2])
      · refine (inner_asks cfg steps h2 fuel _ _ _ h1 ha).bind fun r hr => ?_
        cases r with
        | returns v => exact hr
        | breaks a b j =>
          simp only
          split
          · exact hr.2
          · exact ih _ _ _ hr.1 h2
  exact key _ _ _ _ rfl (by simp)

end HookeJeeves

namespace IeeeGradient

theorem gradient_asks (h half : R) {p : List R} (hp : p.length = n) : Asks False n (fun r : List R => r.length = n) (gradient h half p) := by
  have key : ∀ k i, i + k = p.length → Asks False n (fun r : List R => r.length = k) (gradientLoop h half p k i) := by
    intro k
    induction k with
    | zero => intro i _; exact rfl
    | succ k ih =>
      intro i hi
      unfold gradientLoop derivative
      rw [List.getElem?_eq_getElem (show i < p.length by omega)]
      refine Asks.bind (Q := fun _ => True) ?_ fun d _ => (ih (i + 1) (by omega)).bind fun ds hds => by
        show (d :: ds).length = k + 1
        rw [List.length_cons, hds]
      exact Asks.askBind (by simp [hp]) fun v => Asks.askBind (by simp [hp]) fun w => trivial
  unfold gradient
  have := key p.length 0 (by omega)
  rwa [hp] at this ⊢

theorem along_length {p d : List R} (t : R) (hp : p.length = n) (hd : d.length = n) : (along p t d).length = n := by simp [along, hp, hd]

theorem Cg.lineSearch_asks (l : Cg.Lib R) (cfg : Cg.Config R) {p d : List R} (hp : p.length = n) (hd : d.length = n) : ∀ fuel x,
    Asks False n (fun _ => True) (Cg.lineSearch l cfg p d fuel x)
  | 0, x => trivial
  | fuel + 1, x => by
    unfold Cg.lineSearch
    refine Asks.askBind (along_length _ hp hd) fun _ => Asks.askBind (along_length _ hp hd) fun _ => Asks.askBind (along_length _ hp hd) fun _ => ?_
    simp only
    split
    · exact Cg.lineSearch_asks l cfg hp hd fuel _
    · trivial

theorem Cg.find_asks (l : Cg.Lib R) (cfg : Cg.Config R) (fuel : Nat) (initial : List R) :
    Asks False initial.length (fun r : List R => r.length = initial.length) (Cg.find l cfg fuel initial) := by
  have key : ∀ {n} (fuel : Nat) (p g previous : List R) (w : R) (i : Nat), p.length = n → g.length = n → previous.length = n →
      Asks False n (fun r : List R => r.length = n) (Cg.outer l cfg fuel p g previous w i) := by
    intro n fuel
    induction fuel with
    | zero => intro p g previous w i _ _ _; trivial
    | succ fuel ih =>
      intro p g previous w i hp hg hpr
      have hd : (Cg.nextDirection g previous w i).length = n := by
        unfold Cg.nextDirection
        split
        · exact along_length _ hg hpr
        · exact hg
      unfold Cg.outer
      refine (Cg.lineSearch_asks l cfg hp hd fuel 0).bind fun x _ => ?_
      have hp' := along_length x hp hd
      refine (gradient_asks _ _ hp').bind fun g' hg' => ?_
      split
      · trivial
      · simp only
        split
        · exact hp'
        · split
          · exact ih _ _ _ _ _ hp' hg' hd
          · exact hp'
  unfold Cg.find
  exact (gradient_asks _ _ rfl).bind fun g hg => key _ _ _ _ _ _ rfl hg (by simp)

theorem Sd.shrink_asks (l : Sd.Lib R) (hl : ∀ x, l.abs x ≠ .ub) (precision : R) {p d : List R} (hp : p.length = n) (hd : d.length = n) : ∀ fuel x,
    Asks False n (fun _ => True) (Sd.shrink l precision p d fuel x)
  | 0, x => trivial
  | fuel + 1, x => by
    unfold Sd.shrink
    refine Asks.askBind (along_length _ hp hd) fun _ => Asks.askBind hp fun _ => ?_
    split
    · refine (Asks.lift (Q := fun _ => True) (fun _ _ => trivial) (fun h => hl _ h)).bind fun m _ => ?_
      split
      · exact Sd.shrink_asks l hl precision hp hd fuel _
      · trivial
    · trivial

theorem Sd.expand_asks (l : Sd.Lib R) {p d : List R} (hp : p.length = n) (hd : d.length = n) : ∀ fuel x next, next.length = n →
    Asks False n (fun _ => True) (Sd.expand l p d fuel x next)
  | 0, x, next, _ => trivial
  | fuel + 1, x, next, hx => by
    unfold Sd.expand
    refine Asks.askBind (along_length _ hp hd) fun _ => Asks.askBind hx fun _ => ?_
    split
    · exact Sd.expand_asks l hp hd fuel _ _ (along_length _ hp hd)
    · trivial

theorem Sd.golden_asks (l : Sd.Lib R) (hl : ∀ x, l.abs x ≠ .ub) (precision : R) {p d : List R} (hp : p.length = n) (hd : d.length = n) : ∀ fuel b,
    Asks False n (fun _ => True) (Sd.golden l precision p d fuel b)
  | 0, b => trivial
  | fuel + 1, b => by
    unfold Sd.golden
    refine Asks.askBind (along_length _ hp hd) fun _ => Asks.askBind (along_length _ hp hd) fun _ => ?_
    simp only
    split
    · trivial
    · refine (Asks.lift (Q := fun _ => True) (fun _ _ => trivial) (fun h => hl _ h)).bind fun m _ => ?_
      split
      · exact Sd.golden_asks l hl precision hp hd fuel _
      · trivial

theorem Sd.find_asks (l : Sd.Lib R) (hl : ∀ x, l.abs x ≠ .ub) (cfg : Sd.Config R) (fuel : Nat) (initial : List R) :
    Asks False initial.length (fun r : List R => r.length = initial.length) (Sd.find l cfg fuel initial) := by
  have key : ∀ {n} (fuel : Nat) (x : R) (p : List R) (c : Nat), p.length = n → Asks False n (fun r : List R => r.length = n) (Sd.outer l cfg fuel x p c) := by
    intro n fuel
    induction fuel with
    | zero => intro x p c _; trivial
    | succ fuel ih =>
      intro x p c hp
      unfold Sd.outer Sd.goldenSectionSearch Sd.localization
      refine (gradient_asks _ _ hp).bind fun g hg => ?_
      have hd : (g.map (· * -1)).length = n := by simp [hg]
      refine Asks.bind (Q := fun _ => True) ?_ fun t _ => ?_
      · refine Asks.bind (Q := fun _ => True) ?_ fun s _ => Sd.golden_asks l hl _ hp hd fuel _
        refine (Sd.shrink_asks l hl _ hp hd fuel _).bind fun s _ => ?_
        exact (Sd.expand_asks l hp hd fuel _ _ (along_length _ hp hd)).bind fun _ _ => trivial
      · refine (gradient_asks _ _ (along_length _ hp hd)).bind fun g' _ => ?_
        split
        · exact ih _ _ _ (along_length _ hp hd)
        · exact hp
  exact key _ _ _ _ rfl

end IeeeGradient
end Any

/-! ## Running the algorithms -/

namespace ExampleMain
open Prog Flt IeeeGradient IeeeRosenbrock ExampleFns

abbrev D := Flt binary64

theorem neg_one_mul (v : D) : (-1) * v = -v := by
  refine ext ?_
  have h1 : (-1 : D).val = .num (-1) := by
    rw [neg_val, val_one]
    rfl
  rw [val_mul, h1, val_neg]
  congr 1
  rcases v.val with _ | s | q
  · rfl
  · cases s <;> rfl
  · show Dbl.num (-1 * q) = Dbl.num (-q)
    rw [_root_.neg_one_mul]

theorem neg_neg (v : D) : - -v = v := by
  refine ext ?_
  rw [neg_val, neg_val]
  rcases v.val with _ | s | q
  · rfl
  · cases s <;> rfl
  · show Dbl.num (- -q) = Dbl.num q
    rw [_root_.neg_neg]

/-- The function an optimizer minimizes: the given one, or its negative. -/
def goal (maximize : Bool) (f : List D → D) (x : List D) : D := if maximize then -f x else f x

theorem counted_eval {α : Type} {f : List D → Res D} {tot : List D → D} {n : Nat} (hf : ∀ x, x.length = n → f x = .ok (tot x)) (maximize : Bool) :
    ∀ p : Prog D α, (∀ x ∈ p.trace (goal maximize tot), x.length = n) → counted f n maximize p = p.eval (goal maximize tot)
  | .done r, _ => rfl
  | .ask m x k, h => by
    have hx : x.length = n := h x (by simp [Prog.trace])
    have hs : ContinuousOptimizer.signed maximize m (tot x) = if m then goal maximize tot x else -goal maximize tot x := by
      unfold ContinuousOptimizer.signed goal
      cases m <;> cases maximize <;> simp [neg_one_mul, neg_neg]
    unfold counted
    rw [if_neg (by simpa using hx), hf x hx, Res.ok_bind, hs]
    refine counted_eval hf maximize _ fun y hy => h y ?_
    simp only [Prog.trace, List.mem_cons]
    exact Or.inr hy

/-- `Optimize` with an algorithm that asks in the right dimension. -/
theorem ofFind_eq {name : String} {find : Obj D → List D → Prog D (List D × Obj D)} {f : List D → Res D} {tot : List D → D} {start : List D} {maximize : Bool} {s : Obj D}
    (hf : ∀ x, x.length = start.length → f x = .ok (tot x)) (ht : ∀ x ∈ (find s start).trace (goal maximize tot), x.length = start.length)
    (hr : ∀ r, (find s start).eval (goal maximize tot) = .ok r → r.1.length = start.length) :
    (ofFind name find).optimize s f start maximize = (find s start).eval (goal maximize tot) := by
  show (counted f start.length maximize (find s start) >>= _) = _
  rw [counted_eval hf maximize _ ht]
  cases h : (find s start).eval (goal maximize tot) with
  | ok r =>
    rw [Res.ok_bind, if_neg (by simpa using hr r h)]
    rfl
  | throw w => rfl
  | ub => rfl

theorem plain_eq {name : String} {find : List D → Prog D (List D)} {f : List D → Res D} {tot : List D → D} {start : List D} {maximize : Bool} {s : Obj D}
    (hf : ∀ x, x.length = start.length → f x = .ok (tot x)) (ht : ∀ x ∈ (find start).trace (goal maximize tot), x.length = start.length)
    (hr : ∀ r, (find start).eval (goal maximize tot) = .ok r → r.length = start.length) :
    (plain name find).optimize s f start maximize = ((find start).eval (goal maximize tot)).bind fun v => .ok (v, s) := by
  have he : (find start >>= fun v => (pure (v, s) : Prog D (List D × Obj D))).eval (goal maximize tot) = ((find start).eval (goal maximize tot)).bind fun v => .ok (v, s) := by
    rw [Prog.eval_bind]
    rfl
  unfold plain
  rw [ofFind_eq (tot := tot) hf ?_ ?_, he]
  · intro x hx
    rcases (Prog.mem_trace_bind _).1 hx with hx | ⟨a, _, hx⟩
    · exact ht x hx
    · cases hx
  · intro r h
    rw [he] at h
    obtain ⟨v, hv, h⟩ := Res.bind_eq_ok.1 h
    cases h
    exact hr v hv

/-! ## The assumptions -/

/-- What is assumed of the environment: literals are correctly rounded; `abs` and the sine as for the test functions; the square roots of 0 and NaN; `exp` of what is
not positive is not outside [0, 1] (it may be NaN); steepest descent uses the `abs` for `double`. -/
structure Env.Good (e : Env D) : Prop where
  fns : e.fns.Good
  lit : e.lit = f64
  sqrt_zero : e.sqrt 0 = 0
  sqrt_nan : e.sqrt nanF = nanF
  exp : ∀ x, ¬ 0 < x → ¬ e.exp x < 0 ∧ ¬ 1 < e.exp x
  sdAbs : ∀ x, e.sdAbs x = .ok (e.fns.abs x)

theorem round_notpos {x : Dbl} (h : ¬ (.num 0 : Dbl) < x) : ¬ (.num 0 : Dbl) < binary64.round x := by
  rcases x with _ | s | q
  · exact h
  · exact h
  · have hq : q ≤ 0 := by
      by_contra hc
      exact h (decide_eq_true (not_le.1 hc))
    have h1 := round_mono (F := binary64) (Dbl.num_le.2 hq)
    have h0 : binary64.round (.num 0) = .num 0 := val_zero (F := binary64)
    rw [h0] at h1
    exact (IeeeOrder.le_iff.1 h1).2.2

theorem expIeee {exp : D → D} (h : ∀ x, ¬ 0 < x → ¬ exp x < 0 ∧ ¬ 1 < exp x) : IeeeAnnealing.ExpIeee exp where
  ratio a b := by
    show ¬ binary64.round (binary64.round (.num a) / binary64.round (.num b)) < (0 : D).val
    have key : ∀ n : Nat, ¬ binary64.round (.num n) < .num 0 := by
      intro n
      have h1 := round_mono (F := binary64) (Dbl.num_le.2 (show (0 : ℚ) ≤ n by exact_mod_cast Nat.zero_le n))
      have h0 : binary64.round (.num 0) = .num 0 := val_zero (F := binary64)
      rw [h0] at h1
      exact (IeeeOrder.le_iff.1 h1).2.2
    rw [val_zero]
    have hq : ∀ x y : Dbl, ¬ x < .num 0 → ¬ y < .num 0 → ¬ x / y < .num 0 := by
      intro x y hx hy
      change ¬ Dbl.ltb x (.num 0) = true at hx
      change ¬ Dbl.ltb y (.num 0) = true at hy
      change ¬ Dbl.ltb (Dbl.div x y) (.num 0) = true
      rcases x with _ | (_ | _) | x <;> rcases y with _ | (_ | _) | y <;>
        first | (simp [Dbl.ltb, Dbl.div]; done) | (exact absurd rfl hx) | (exact absurd rfl hy) | skip
      · simp only [Dbl.ltb, decide_eq_true_eq] at hy
        simp [Dbl.ltb, Dbl.div, hy]
      · simp only [Dbl.ltb, decide_eq_true_eq] at hx hy
        simp only [Dbl.div]
        split
        · split
          · simp [Dbl.ltb]
          · simp [Dbl.ltb, not_lt.1 hx]
        · simp only [Dbl.ltb, decide_eq_true_eq, not_lt]
          exact div_nonneg (not_lt.1 hx) (not_lt.1 hy)
    have h2 := hq _ _ (key a) (key b)
    intro hlt
    generalize binary64.round (.num a) / binary64.round (.num b) = z at h2 hlt
    rcases z with _ | s | q
    · exact h2 hlt
    · exact h2 hlt
    · have hq : 0 ≤ q := by
        by_contra hc
        exact h2 (decide_eq_true (not_le.1 hc))
      have h1 := round_mono (F := binary64) (Dbl.num_le.2 hq)
      have h0 : binary64.round (.num 0) = .num 0 := val_zero (F := binary64)
      rw [h0] at h1
      exact (IeeeOrder.le_iff.1 h1).2.2 hlt
  bounded c n t ht hnc := by
    refine h _ ?_
    show ¬ (0 : D).val < binary64.round (binary64.round (c.val - n.val) / t.val)
    have ht' : ¬ t.val < Dbl.num 0 := by
      have : ¬ t.val < (0 : D).val := ht
      rwa [val_zero] at this
    rw [val_zero]
    refine round_notpos ?_
    refine IeeeAnnealing.Examples.div_notpos _ _ ?_ ht'
    exact round_notpos (IeeeAnnealing.Examples.sub_notpos _ _ hnc)
  one := by decide +kernel

/-! ## The functions -/

/-- A function of the example, with NaN where it throws. -/
def total (l : ExampleFns.Lib D) (k : Kind) (v : List D) : D :=
  match k.call l v with
  | .ok x => x
  | _ => nanF

theorem call_total (l : ExampleFns.Lib D) (k : Kind) {v : List D} (hv : v.length = 2) : k.call l v = .ok (total l k v) := by
  obtain ⟨x, y, rfl⟩ := List.length_eq_two.1 hv
  cases k <;> rfl

theorem total_nan {l : ExampleFns.Lib D} (hl : l.Good) (k : Kind) {v : List D} (hv : nanF ∈ v) : nan (total l k v) := by
  have hsin : l.sin nanF = nanF := eq_nanF (hl.sin_not_finite nanF (by decide +kernel))
  cases k with
  | square =>
    show nan (v.foldl _ _)
    rw [HookeJeeves.foldl_nan (fun x => 1 / l.abs (x * x - 2)) (by simp [hl.abs_nan]) v 0 (Or.inr hv)]
    rfl
  | simpleSquare =>
    show nan (v.foldl _ _)
    rw [HookeJeeves.foldl_nan (fun x => (x * x - 2) * (x * x - 2)) (by simp) v 0 (Or.inr hv)]
    rfl
  | difraction =>
    show nan (v.foldl _ _)
    rw [HookeJeeves.foldl_nan (fun x => if l.abs x < l.eps then 1 else l.sin x / x) (by simp [hl.abs_nan]) v 0 (Or.inr hv)]
    rfl
  | squareSumm =>
    show nan (v.foldl _ _)
    rw [HookeJeeves.foldl_nan (fun x => x * x) (by simp) v 0 (Or.inr hv)]
    rfl
  | multiminimum =>
    match v, hv with
    | [], hv => cases hv
    | [x], _ => exact nan_nanF
    | [x, y], hv =>
      show nan (multiminimum l x y)
      rcases List.mem_cons.1 hv with e | e
      · rw [← e]
        unfold multiminimum
        simp [nan_nanF]
      · rw [List.mem_singleton] at e
        rw [← e]
        unfold multiminimum
        simp [nan_nanF]
    | x :: y :: z :: w, _ => exact nan_nanF

theorem goal_propagates {l : ExampleFns.Lib D} (hl : l.Good) (m : Bool) (k : Kind) : HookeJeeves.Propagates (goal m (total l k)) := by
  intro v hv
  have h := eq_nanF (total_nan hl k hv)
  unfold goal
  rw [h]
  cases m
  · exact nan_nanF
  · show (-nanF : D).val = Dbl.nan
    decide +kernel

/-- What an optimizer may remember when it is called for a function of two variables. -/
def Fits (s : Obj D) : Prop := NelderMead.PrevOk 2 s.polygons

theorem provider_start {l : ExampleFns.Lib D} {t : TestFunction D} (ht : t ∈ provider l) : t.start.length = 2 ∧ t.start ≠ [] := by
  simp only [provider, List.mem_cons, List.not_mem_nil, or_false] at ht
  rcases ht with rfl | rfl | rfl | rfl | rfl <;> exact ⟨rfl, List.cons_ne_nil _ _⟩

theorem nelderMead_returns (e : Env D) (hf : 2001 ≤ e.fuel) {t : TestFunction D} (ht : t ∈ provider e.fns) {s : Obj D} (hs : Fits s) :
    ∃ p s', (nelderMead e).optimize s (t.fn.call e.fns) t.start t.maximize = .ok (p, s') ∧ p.length = 2 ∧ Fits s' := by
  obtain ⟨h2, h0⟩ := provider_start ht
  obtain ⟨F, p, _, hp, _, hl, hpr, _, _, _, htr⟩ := (NelderMead.C114_terminates e.sqrt (goal t.maximize (total e.fns t.fn)) ⟨e.lit 10, e.fns.eps, lower e, upper e⟩ t.start
    s.polygons (by rw [h2]; exact hs) e.fuel (by rw [h2]; omega)).2 h0
  have he : ((NelderMead.find e.sqrt ⟨e.lit 10, e.fns.eps, lower e, upper e⟩ e.fuel s.polygons t.start) >>= fun r =>
      (pure (r.1, { s with polygons := r.2 }) : Prog D (List D × Obj D))).eval (goal t.maximize (total e.fns t.fn)) = .ok (p, { s with polygons := F.previous }) := by
    rw [Prog.eval_bind, hp]
    rfl
  refine ⟨p, { s with polygons := F.previous }, ?_, hl.trans h2, by rw [h2] at hpr; exact hpr⟩
  unfold nelderMead
  rw [ofFind_eq (tot := total e.fns t.fn) (fun x hx => call_total _ _ (hx.trans h2)) ?_ ?_]
  · exact he
  · intro x hx
    rcases (Prog.mem_trace_bind _).1 hx with hx | ⟨a, _, hx⟩
    · exact htr x hx
    · cases hx
  · intro r hr
    rw [he] at hr
    cases hr
    exact hl

theorem rosenbrock_returns {e : Env D} (he : e.Good) {t : TestFunction D} (ht : t ∈ provider e.fns) (s : Obj D) :
    ∃ p, (rosenbrock e).optimize s (t.fn.call e.fns) t.start t.maximize = .ok (p, s) ∧ p.length = 2 := by
  obtain ⟨h2, h0⟩ := provider_start ht
  obtain ⟨r, hr, hl⟩ := IeeeRosenbrock.C115_returns ⟨e.fns.abs, e.sqrt, e.lit (3 / 2), e.lit (-1 / 2)⟩ (fun x hx => by
    show nan (e.fns.abs x)
    rw [eq_nanF hx, he.fns.abs_nan]
    exact nan_nanF) ⟨e.fns.eps, 1000, e.lit 1, e.lit 3⟩ (goal t.maximize (total e.fns t.fn)) t.start
  refine ⟨r, ?_, hl.trans h2⟩
  have ha := IeeeRosenbrock.find_asks (⟨e.fns.abs, e.sqrt, e.lit (3 / 2), e.lit (-1 / 2)⟩ : IeeeRosenbrock.Lib D) ⟨e.fns.eps, 1000, e.lit 1, e.lit 3⟩ t.start
  unfold rosenbrock
  rw [plain_eq (tot := total e.fns t.fn) (fun x hx => call_total _ _ (hx.trans h2)) (fun x hx => ha.trace x hx) (fun r hr => ha.eval hr), hr]
  rfl

theorem hookeJeeves_returns {e : Env D} (he : e.Good) {t : TestFunction D} (ht : t ∈ provider e.fns) :
    ∃ (m : Nat) (p : List D), p.length = 2 ∧ ∀ fuel ≥ m, ∀ s, (hookeJeeves { e with fuel := fuel }).optimize s (t.fn.call e.fns) t.start t.maximize = .ok (p, s) := by
  obtain ⟨h2, h0⟩ := provider_start ht
  have hg : HookeJeeves.Good e.sqrt e.fns.abs e.fns.eps := by
    refine ⟨?_, he.fns.abs_nan, he.fns.abs_inf, he.sqrt_zero, ?_, ?_⟩
    · refine ext ?_
      rw [he.fns.abs_num 0 0 val_zero, val_zero, abs_zero]
    · rw [he.fns.eps]
      decide +kernel
    · rw [he.fns.eps]
      decide +kernel
  obtain ⟨p, m, hm⟩ := HookeJeeves.C113_terminates (F := binary64) (sqrt := e.sqrt) (abs := e.fns.abs) (eps := e.fns.eps)
    (cfg := ⟨e.lit (7 / 2), e.lit 1, 1000, e.fns.eps, e.lit 10⟩) (g := goal t.maximize (total e.fns t.fn)) (δ := 10) (by decide +kernel) hg
    (goal_propagates he.fns _ _) (by norm_num) (by show (e.lit 1).Finite; rw [he.lit]; decide +kernel) (by show (e.lit 10).val = .num 10; rw [he.lit]; decide +kernel) (by norm_num)
    (by show 0 ≤ e.fns.eps; rw [he.fns.eps]; decide +kernel) t.start
  have ha := fun fuel => HookeJeeves.find_asks (HookeJeeves.ieeeLib e.sqrt e.fns.abs e.fns.eps) (⟨e.lit (7 / 2), e.lit 1, 1000, e.fns.eps, e.lit 10⟩ : HookeJeeves.Config D) fuel t.start
  refine ⟨m, p, ((ha m).eval (hm m le_rfl)).trans h2, fun fuel hf s => ?_⟩
  have hfind := hm fuel hf
  unfold hookeJeeves
  have := plain_eq (name := "Hooke-Jeeves Method") (s := s) (maximize := t.maximize) (start := t.start) (f := t.fn.call e.fns) (tot := total e.fns t.fn)
    (find := HookeJeeves.find (HookeJeeves.ieeeLib e.sqrt e.fns.abs e.fns.eps) ⟨e.lit (7 / 2), e.lit 1, 1000, e.fns.eps, e.lit 10⟩ fuel)
    (fun x hx => call_total _ _ (hx.trans h2)) (fun x hx => (ha fuel).trace x hx) (fun r hr => (ha fuel).eval hr)
  rw [hfind] at this
  exact this

theorem annealing_returns {e : Env D} (he : e.Good) {t : TestFunction D} (ht : t ∈ provider e.fns) (s : Obj D) :
    ∃ p l, (annealing e).optimize s (t.fn.call e.fns) t.start t.maximize = .ok (p, { s with random := l }) ∧ p.length = 2 := by
  obtain ⟨h2, h0⟩ := provider_start ht
  obtain ⟨r, hr, hl⟩ := IeeeAnnealing.C91_returns e.exp (expIeee he.exp) ⟨1000, lower e, upper e⟩ t.start (goal t.maximize (total e.fns t.fn)) h0 (by omega) s.random
  have ha := IeeeAnnealing.find_asks e.exp (⟨1000, lower e, upper e⟩ : Annealing.Config D) s.random t.start
  have hev : ((IeeeAnnealing.find e.exp ⟨1000, lower e, upper e⟩ s.random t.start) >>= fun r =>
      (pure (r.1, { s with random := r.2 }) : Prog D (List D × Obj D))).eval (goal t.maximize (total e.fns t.fn)) = .ok (r.1, { s with random := r.2 }) := by
    rw [Prog.eval_bind, hr]
    rfl
  refine ⟨r.1, r.2, ?_, hl.trans h2⟩
  unfold annealing
  rw [ofFind_eq (tot := total e.fns t.fn) (fun x hx => call_total _ _ (hx.trans h2)) ?_ ?_]
  · exact hev
  · intro x hx
    rcases (Prog.mem_trace_bind _).1 hx with hx | ⟨a, _, hx⟩
    · exact ha.trace x hx
    · cases hx
  · intro r' hr'
    rw [hev] at hr'
    cases hr'
    exact hl

theorem vector_length (n : Nat) (min max : D) : ∀ l : Random.Lib, (Random.vector l n min max).1.length = n := by
  induction n with
  | zero => intro l; rfl
  | succ n ih => intro l; show (_ :: _).length = _; rw [List.length_cons, ih]

theorem candidates_spec (n : Nat) (min max : D) : ∀ (k : Nat) (l : Random.Lib), (candidates n min max k l).1.length = k ∧ ∀ x ∈ (candidates n min max k l).1, x.length = n
  | 0, l => ⟨rfl, by simp [candidates]⟩
  | k + 1, l => by
    obtain ⟨h1, h2⟩ := candidates_spec n min max k (Random.vector l n min max).2
    refine ⟨by show (_ :: _).length = _; rw [List.length_cons, h1], ?_⟩
    intro x hx
    rcases List.mem_cons.1 hx with rfl | hx
    · exact vector_length n min max l
    · exact h2 x hx

theorem select_lt (m : Bool) : ∀ (vs : List D) (index i : Nat) (v : D), index < i → Processor.selectLoop m index v i vs < i + vs.length
  | [], index, i, v, h => by simpa [Processor.selectLoop] using h
  | w :: ws, index, i, v, h => by
    unfold Processor.selectLoop
    simp only [List.length_cons]
    have h1 := select_lt m ws i (i + 1) w (by omega)
    have h2 := select_lt m ws index (i + 1) v (by omega)
    rw [show i + 1 + ws.length = i + (ws.length + 1) by omega] at h1 h2
    split <;> split <;> assumption

theorem randomSearch_returns (e : Env D) {t : TestFunction D} (ht : t ∈ provider e.fns) (s : Obj D) :
    ∃ p l, (randomSearch e).optimize s (t.fn.call e.fns) t.start t.maximize = .ok (p, { s with random := l }) ∧ p.length = 2 := by
  obtain ⟨h2, h0⟩ := provider_start ht
  obtain ⟨c1, c2⟩ := candidates_spec t.start.length (lower e) (upper e) 10 s.random
  obtain ⟨bs, b1, b2, _⟩ := each_total (f := t.fn.call e.fns) (as := (candidates t.start.length (lower e) (upper e) 10 s.random).1)
    fun x hx => ⟨_, call_total _ _ ((c2 x hx).trans h2)⟩
  cases bs with
  | nil => rw [c1] at b2; simp at b2
  | cons v vs =>
    have hlt : Processor.selectLoop t.maximize 0 v 1 vs < (candidates t.start.length (lower e) (upper e) 10 s.random).1.length := by
      have := select_lt t.maximize vs 0 1 v (by omega)
      rw [← b2, List.length_cons]
      omega
    refine ⟨(candidates t.start.length (lower e) (upper e) 10 s.random).1[Processor.selectLoop t.maximize 0 v 1 vs]'hlt,
      (candidates t.start.length (lower e) (upper e) 10 s.random).2, ?_, (c2 _ (List.getElem_mem hlt)).trans h2⟩
    show (Tasks.each (t.fn.call e.fns) (candidates t.start.length (lower e) (upper e) 10 s.random).1 >>= _) = _
    rw [b1, Res.ok_bind]
    simp only
    rw [List.getElem?_eq_getElem hlt]
    rfl

theorem each_map {α β : Type} {f : α → Res β} {g : α → β} : ∀ {as : List α}, (∀ a ∈ as, f a = .ok (g a)) → Tasks.each f as = .ok (as.map g)
  | [], _ => rfl
  | a :: as, h => by
    unfold Tasks.each
    rw [h a (by simp), each_map (as := as) fun x hx => h x (by simp [hx])]
    rfl

theorem between {a b q : ℚ} (h1 : a ≤ q) (h2 : q ≤ b) (ha : binary64.round (.num a) = .num a) (hb : binary64.round (.num b) = .num b) :
    ∃ r, binary64.round (.num q) = .num r ∧ a ≤ r ∧ r ≤ b := by
  obtain ⟨a1, a2⟩ := binary64.round_num ha
  obtain ⟨b1, b2⟩ := binary64.round_num hb
  have m1 := binary64.fl_mono h1
  have m2 := binary64.fl_mono h2
  rw [a1] at m1
  rw [b1] at m2
  refine ⟨binary64.fl q, ?_, m1, m2⟩
  show (if _ then _ else _) = _
  rw [if_pos]
  rw [abs_lt] at a2 b2 ⊢
  constructor <;> linarith [a2.1, a2.2, b2.1, b2.2]

/-- A random coordinate of the example lies between the bounds. -/
theorem continuous_within {e : Env D} (he : e.Good) {l : Random.Lib} (hl : l.Valid) (hint : l.randMax ≤ 2147483647) :
    ∃ r : ℚ, (Random.continuous l (lower e) (upper e)).1.val = .num r ∧ -1000 ≤ r ∧ r ≤ 1000 := by
  obtain ⟨hm, hs⟩ := hl
  have cast : ∀ k : Nat, k ≤ 2147483647 → ((k : Nat) : D).val = .num (binary64.fl k) := by
    intro k hk
    obtain ⟨r, h1, _⟩ := between (a := 0) (b := 2147483647) (q := (k : ℚ)) (by positivity) (by exact_mod_cast hk) (by decide +kernel) (by decide +kernel)
    show binary64.round (.num (k : ℚ)) = _
    rw [h1]
    have : (if |binary64.fl k| < 2 ^ binary64.emax then Dbl.num (binary64.fl k) else .inf (decide ((k : ℚ) < 0))) = .num r := h1
    split at this
    · exact this.symm
    · cases this
  have h1 : binary64.fl 1 = 1 := (binary64.round_num (show binary64.round (.num 1) = .num 1 by decide +kernel)).1
  have h0 : binary64.fl 0 = 0 := (binary64.round_num (show binary64.round (.num 0) = .num 0 by decide +kernel)).1
  have hmpos : (1 : ℚ) ≤ binary64.fl l.randMax := by
    have := binary64.fl_mono (show (1 : ℚ) ≤ l.randMax by exact_mod_cast hm)
    rwa [h1] at this
  have hr0 : (0 : ℚ) ≤ binary64.fl (Random.rand l).1 := by
    have := binary64.fl_mono (show (0 : ℚ) ≤ ((Random.rand l).1 : ℚ) by positivity)
    rwa [h0] at this
  have hrm : binary64.fl (Random.rand l).1 ≤ binary64.fl l.randMax := binary64.fl_mono (by exact_mod_cast hs 0)
  obtain ⟨b, hb, hb0, hb1⟩ := between (a := 0) (b := 1) (q := binary64.fl (Random.rand l).1 / binary64.fl l.randMax) (by positivity)
    ((div_le_one (by linarith)).2 hrm) (by decide +kernel) (by decide +kernel)
  have hbase : (Random.base (R := D) l).1.val = .num b := by
    show ((((Random.rand l).1 : Nat) : D) / ((l.randMax : Nat) : D)).val = _
    rw [val_div, cast (Random.rand l).1 ((hs 0).trans hint), cast _ hint, ← hb]
    show binary64.round (if binary64.fl l.randMax = 0 then _ else _) = _
    rw [if_neg (by linarith)]
  obtain ⟨c, hc, hc0, hc1⟩ := between (a := 0) (b := 2000) (q := b * 2000) (by linarith) (by linarith) (by decide +kernel) (by decide +kernel)
  obtain ⟨d, hd, hd0, hd1⟩ := between (a := -1000) (b := 1000) (q := c + -1000) (by linarith) (by linarith) (by decide +kernel) (by decide +kernel)
  refine ⟨d, ?_, hd0, hd1⟩
  show ((Random.base (R := D) l).1 * (e.lit 1000 - e.lit (-1000)) + e.lit (-1000)).val = _
  rw [he.lit, val_add, val_mul, hbase, show (f64 1000 - f64 (-1000) : D).val = .num 2000 by decide +kernel, show (f64 (-1000) : D).val = .num (-1000) by decide +kernel]
  show binary64.round (binary64.round (.num (b * 2000)) + .num (-1000)) = _
  rw [hc]
  exact hd

theorem vector_within {e : Env D} (he : e.Good) : ∀ (n : Nat) {l : Random.Lib}, l.Valid → l.randMax ≤ 2147483647 →
    (∀ x ∈ (Random.vector l n (lower e) (upper e)).1, ∃ r : ℚ, x.val = .num r ∧ -1000 ≤ r ∧ r ≤ 1000) ∧
      (Random.vector l n (lower e) (upper e)).2.Valid ∧ (Random.vector l n (lower e) (upper e)).2.randMax ≤ 2147483647
  | 0, l, hl, hi => ⟨by simp [Random.vector], hl, hi⟩
  | n + 1, l, hl, hi => by
    have h := vector_within he n (l := (Random.rand l).2) ⟨hl.1, fun i => hl.2 (i + 1)⟩ hi
    refine ⟨?_, h.2⟩
    intro x hx
    rcases List.mem_cons.1 hx with rfl | hx
    · exact continuous_within he hl hi
    · exact h.1 x hx

theorem candidates_within {e : Env D} (he : e.Good) (n : Nat) : ∀ (k : Nat) {l : Random.Lib}, l.Valid → l.randMax ≤ 2147483647 →
    ∀ v ∈ (candidates n (lower e) (upper e) k l).1, ∀ x ∈ v, ∃ r : ℚ, x.val = .num r ∧ -1000 ≤ r ∧ r ≤ 1000
  | 0, l, _, _ => by simp [candidates]
  | k + 1, l, hl, hi => by
    obtain ⟨h1, h2, h3⟩ := vector_within he n hl hi
    intro v hv
    rcases List.mem_cons.1 hv with rfl | hv
    · exact h1
    · exact candidates_within he n k h2 h3 v hv

/-- **C124 (random search).** Random search of the example draws ten points with coordinates between -1000 and 1000 and returns one of them; if the values at the ten points are numbers,
none of them is better than the value at the point returned. -/
theorem C124_random {e : Env D} (he : e.Good) {t : TestFunction D} (ht : t ∈ provider e.fns) (s : Obj D) (hl : s.random.Valid) (hint : s.random.randMax ≤ 2147483647) :
    ∃ (points : List (List D)) (p : List D) (s' : Obj D), points.length = 10 ∧ (∀ v ∈ points, v.length = 2 ∧ ∀ x ∈ v, ∃ r : ℚ, x.val = .num r ∧ -1000 ≤ r ∧ r ≤ 1000) ∧ p ∈ points ∧
      (randomSearch e).optimize s (t.fn.call e.fns) t.start t.maximize = .ok (p, s') ∧
      ((∀ v ∈ points, ¬ nan (total e.fns t.fn v)) → ∀ v ∈ points, ¬ if t.maximize then total e.fns t.fn p < total e.fns t.fn v else total e.fns t.fn v < total e.fns t.fn p) := by
  obtain ⟨h2, h0⟩ := provider_start ht
  obtain ⟨c1, c2⟩ := candidates_spec t.start.length (lower e) (upper e) 10 s.random
  have c3 := candidates_within he t.start.length 10 hl hint
  have hrun : ∃ p s', (randomSearch e).optimize s (t.fn.call e.fns) t.start t.maximize = .ok (p, s') ∧
      Processor.simple (total e.fns t.fn) (candidates t.start.length (lower e) (upper e) 10 s.random).1 t.maximize = .ok p := by
    have heach : Tasks.each (t.fn.call e.fns) (candidates t.start.length (lower e) (upper e) 10 s.random).1 =
        .ok ((candidates t.start.length (lower e) (upper e) 10 s.random).1.map (total e.fns t.fn)) := each_map fun x hx => call_total _ _ ((c2 x hx).trans h2)
    show ∃ p s', (Tasks.each (t.fn.call e.fns) (candidates t.start.length (lower e) (upper e) 10 s.random).1 >>= _) = _ ∧ _
    rw [heach, Res.ok_bind]
    revert c1
    generalize candidates t.start.length (lower e) (upper e) 10 s.random = cs
    obtain ⟨points, l'⟩ := cs
    intro c1
    cases points with
    | nil => cases c1
    | cons q qs =>
      have := Processor.simple_pick (total e.fns t.fn) t.maximize q qs
      rw [Processor.simple_cons] at this
      simp only [List.map_cons]
      split at this
      · next r hr =>
        rw [hr]
        refine ⟨r, { s with random := l' }, rfl, ?_⟩
        rw [Processor.simple_cons, hr]
      · cases this
  revert hrun c1 c2 c3
  generalize (candidates t.start.length (lower e) (upper e) 10 s.random).1 = points
  intro c1 c2 c3 ⟨p, s', r1, r2⟩
  cases points with
  | nil => cases c1
  | cons q qs =>
    have hp : p ∈ q :: qs := by
      rw [Processor.simple_cons] at r2
      split at r2
      · next r hr =>
        cases r2
        exact List.mem_of_getElem? hr
      · cases r2
    refine ⟨q :: qs, p, s', c1, fun v hv => ⟨(c2 v hv).trans h2, c3 v hv⟩, hp, r1, fun hn v hv => ?_⟩
    obtain ⟨r, h1, h3, h4⟩ := Processor.C87_numbers (total e.fns t.fn) q qs t.maximize hn
    rw [r2] at h3
    cases h3
    exact h4 v hv

/-! ## The five methods that do not use derivatives return -/

theorem mem_five {e : Env D} {o : Opt (Obj D) D} (h : o ∈ optimizers e) :
    o ∈ [nelderMead e, rosenbrock e, randomSearch e, hookeJeeves e, annealing e] ∨ o = conjugateGradient e ∨ o = steepestDescent e := by
  simp only [optimizers, List.mem_cons, List.not_mem_nil, or_false] at h ⊢
  tauto

/-- **C124 (methods without derivatives).** With enough fuel, on each of the five functions the Nelder-Mead, Rosenbrock, Hooke-Jeeves, random search and annealing objects of the
example return a point with two coordinates, whatever they remember of calls for functions of two variables and whatever the random numbers. -/
theorem C124_returns {e : Env D} (he : e.Good) : ∃ m : Nat, ∀ fuel ≥ m, ∀ o ∈ [nelderMead { e with fuel := fuel }, rosenbrock { e with fuel := fuel },
      randomSearch { e with fuel := fuel }, hookeJeeves { e with fuel := fuel }, annealing { e with fuel := fuel }], ∀ t ∈ provider e.fns, ∀ s, Fits s →
    ∃ p s', o.optimize s (t.fn.call e.fns) t.start t.maximize = .ok (p, s') ∧ p.length = 2 ∧ Fits s' := by
  have hhj : ∃ m : Nat, ∀ fuel ≥ m, ∀ t ∈ provider e.fns, ∃ p : List D, p.length = 2 ∧
      ∀ s, (hookeJeeves { e with fuel := fuel }).optimize s (t.fn.call e.fns) t.start t.maximize = .ok (p, s) := by
    have key : ∀ ts : List (TestFunction D), (∀ t ∈ ts, t ∈ provider e.fns) → ∃ m : Nat, ∀ fuel ≥ m, ∀ t ∈ ts, ∃ p : List D, p.length = 2 ∧
        ∀ s, (hookeJeeves { e with fuel := fuel }).optimize s (t.fn.call e.fns) t.start t.maximize = .ok (p, s) := by
      intro ts
      induction ts with
      | nil => intro _; exact ⟨0, fun _ _ t ht => by cases ht⟩
      | cons t ts ih =>
        intro h
        obtain ⟨m1, h1⟩ := ih fun t' ht' => h t' (by simp [ht'])
        obtain ⟨m2, p, hp, h2⟩ := hookeJeeves_returns he (h t (by simp))
        refine ⟨max m1 m2, fun fuel hf t' ht' => ?_⟩
        rcases List.mem_cons.1 ht' with rfl | ht'
        · exact ⟨p, hp, h2 fuel (by omega)⟩
        · exact h1 fuel (by omega) t' ht'
    exact key _ fun _ h => h
  obtain ⟨m, hm⟩ := hhj
  refine ⟨max m 2001, fun fuel hf o ho t ht s hs => ?_⟩
  have he' : ({ e with fuel := fuel } : Env D).Good := ⟨he.fns, he.lit, he.sqrt_zero, he.sqrt_nan, he.exp, he.sdAbs⟩
  simp only [List.mem_cons, List.not_mem_nil, or_false] at ho
  rcases ho with rfl | rfl | rfl | rfl | rfl
  · exact nelderMead_returns { e with fuel := fuel } (by show 2001 ≤ fuel; omega) ht hs
  · obtain ⟨p, h1, h2⟩ := rosenbrock_returns he' ht s
    exact ⟨p, s, h1, h2, hs⟩
  · obtain ⟨p, l, h1, h2⟩ := randomSearch_returns { e with fuel := fuel } ht s
    exact ⟨p, _, h1, h2, hs⟩
  · obtain ⟨p, h1, h2⟩ := hm fuel (by omega) t ht
    exact ⟨p, s, h2 s, h1, hs⟩
  · obtain ⟨p, l, h1, h2⟩ := annealing_returns he' ht s
    exact ⟨p, _, h1, h2, hs⟩

/-- The gradient methods return or throw, without regard to the object's state. -/
theorem gradient_methods {e : Env D} (he : e.Good) {o : Opt (Obj D) D} (ho : o = conjugateGradient e ∨ o = steepestDescent e) {t : TestFunction D} (ht : t ∈ provider e.fns) :
    (∃ p : List D, p.length = 2 ∧ ∀ s, o.optimize s (t.fn.call e.fns) t.start t.maximize = .ok (p, s)) ∨
      ∃ w, ∀ s, o.optimize s (t.fn.call e.fns) t.start t.maximize = .throw w := by
  obtain ⟨h2, h0⟩ := provider_start ht
  have key : ∀ (name : String) (find : List D → Prog D (List D)), Asks False t.start.length (fun r : List D => r.length = t.start.length) (find t.start) →
      (∃ p : List D, p.length = 2 ∧ ∀ s, (plain name find).optimize s (t.fn.call e.fns) t.start t.maximize = .ok (p, s)) ∨
        ∃ w, ∀ s, (plain name find).optimize s (t.fn.call e.fns) t.start t.maximize = .throw w := by
    intro name find ha
    have hp := fun s => plain_eq (name := name) (find := find) (s := s) (maximize := t.maximize) (tot := total e.fns t.fn) (f := t.fn.call e.fns)
      (fun x hx => call_total _ _ (hx.trans h2)) (fun x hx => ha.trace x hx) (fun r hr => ha.eval hr)
    cases hv : (find t.start).eval (goal t.maximize (total e.fns t.fn)) with
    | ok v => exact .inl ⟨v, (ha.eval hv).trans h2, fun s => by rw [hp s, hv]; rfl⟩
    | throw w => exact .inr ⟨w, fun s => by rw [hp s, hv]; rfl⟩
    | ub => exact absurd hv ha.not_ub
  rcases ho with rfl | rfl
  · exact key _ _ (Cg.find_asks _ _ _ _)
  · exact key _ _ (Sd.find_asks _ (fun x h => by
      have := he.sdAbs x
      rw [show e.sdAbs x = .ub from h] at this
      cases this) _ _ _)

/-! ## The program -/

section Cases
variable {R σ : Type} [Add R] [Sub R] [Mul R] [Div R] [Zero R] [One R] [NatCast R] [LT R] [DecidableLT R]

theorem row_cases {l : ExampleFns.Lib R} {t : TestFunction R} {Bad : String → Prop} {I : Opt σ R → σ → Prop}
    (hstep : ∀ o s, I o s → (∃ r s', testSingle l t o s = .ok (r, s') ∧ I o s') ∨ ∃ w, testSingle l t o s = .throw w ∧ Bad w) :
    ∀ os : List (Opt σ R × σ), (∀ x ∈ os, I x.1 x.2) →
      (∃ row os', testRow l t os = .ok (row, os') ∧ ∀ x ∈ os', I x.1 x.2) ∨ ∃ w, testRow l t os = .throw w ∧ Bad w
  | [], _ => .inl ⟨[], [], rfl, by simp⟩
  | (o, s) :: os, h => by
    unfold testRow
    rcases hstep o s (h (o, s) (by simp)) with ⟨r, s', h1, h2⟩ | ⟨w, h1, h2⟩
    · rw [h1, Res.ok_bind]
      rcases row_cases hstep os fun x hx => h x (by simp [hx]) with ⟨row, os', h3, h4⟩ | ⟨w, h3, h4⟩
      · rw [h3]
        refine .inl ⟨r :: row, (o, s') :: os', rfl, ?_⟩
        intro x hx
        rcases List.mem_cons.1 hx with rfl | hx
        · exact h2
        · exact h4 x hx
      · rw [h3]
        exact .inr ⟨w, rfl, h4⟩
    · rw [h1]
      exact .inr ⟨w, rfl, h2⟩

theorem test_cases {l : ExampleFns.Lib R} {Bad : String → Prop} {I : Opt σ R → σ → Prop} : ∀ (ts : List (TestFunction R)) (os : List (Opt σ R × σ)),
    (∀ t ∈ ts, ∀ o s, I o s → (∃ r s', testSingle l t o s = .ok (r, s') ∧ I o s') ∨ ∃ w, testSingle l t o s = .throw w ∧ Bad w) → (∀ x ∈ os, I x.1 x.2) →
      (∃ rows os', test l ts os = .ok (rows, os')) ∨ ∃ w, test l ts os = .throw w ∧ Bad w
  | [], os, _, _ => .inl ⟨[], os, rfl⟩
  | t :: ts, os, hstep, h => by
    unfold test
    rcases row_cases (hstep t (by simp)) os h with ⟨row, os', h1, h2⟩ | ⟨w, h1, h2⟩
    · rw [h1, Res.ok_bind]
      rcases test_cases ts os' (fun t' ht' => hstep t' (by simp [ht'])) h2 with ⟨rows, os'', h3⟩ | ⟨w, h3, h4⟩
      · rw [show (row, os').2 = os' from rfl, h3]
        exact .inl ⟨row :: rows, os'', rfl⟩
      · rw [show (row, os').2 = os' from rfl, h3]
        exact .inr ⟨w, rfl, h4⟩
    · rw [h1]
      exact .inr ⟨w, rfl, h2⟩

end Cases

/-- Every optimizer of the example returns points of the dimension of the start point. -/
theorem optimizers_length {e : Env D} {o : Opt (Obj D) D} (ho : o ∈ optimizers e) {s s' : Obj D} {f : List D → Res D} {start p : List D} {m : Bool}
    (h : o.optimize s f start m = .ok (p, s')) : p.length = start.length := by
  have key : ∀ (name : String) (find : Obj D → List D → Prog D (List D × Obj D)), (ofFind name find).optimize s f start m = .ok (p, s') → p.length = start.length := by
    intro name find h
    obtain ⟨r, _, h⟩ := Res.bind_eq_ok.1 h
    by_contra hc
    split at h
    · cases h
    · next hl =>
      cases h
      exact hl hc
  simp only [optimizers, List.mem_cons, List.not_mem_nil, or_false] at ho
  rcases ho with rfl | rfl | rfl | rfl | rfl | rfl | rfl
  · exact key _ _ h
  · exact key _ _ h
  · exact key _ _ h
  · obtain ⟨vs, _, h⟩ := Res.bind_eq_ok.1 h
    cases vs with
    | nil => cases h
    | cons v vs =>
      simp only at h
      split at h
      · next q hq =>
        cases h
        exact (candidates_spec _ _ _ _ _).2 _ (List.mem_of_getElem? hq)
      · cases h
  · exact key _ _ h
  · exact key _ _ h
  · exact key _ _ h

/-- Specification: the line of the file for a function, with the values at the points found by the seven optimizers. -/
def Line (e : Env D) (print : D → String) (t : TestFunction D) (line : List String) : Prop :=
  ∃ (best : D) (points : List (List D)), t.fn.call e.fns t.solution = .ok best ∧ points.length = 7 ∧
    line = [t.form, if t.maximize then "Max" else "Min", print best] ++ points.map (fun p => print (total e.fns t.fn p)) ∧
    ∀ (j : Nat) (o : Opt (Obj D) D) (p : List D), (optimizers e)[j]? = some o → points[j]? = some p →
      p.length = 2 ∧ ∃ s s', o.optimize s (t.fn.call e.fns) t.start t.maximize = .ok (p, s')

/-- **C124 (the program).** With enough fuel the program writes its table - a heading with the names of the seven optimizers, and a line for each of the five functions - or
conjugate gradients or steepest descent does not return for one of the functions, and the program ends or hangs there.  There is no other way for it to fail. -/
theorem C124_main {e : Env D} (he : e.Good) (print : D → String) : ∃ m : Nat, ∀ fuel ≥ m, ∀ random : Nat → Random.Lib,
    (∃ lines, main { e with fuel := fuel } print random = .ok (["Function ", "Target ", "Solution value ", "Bounded Nelder Mead", "Hleborodov Rosenbrock Method",
        "Conjugate Gradient Method", "Random Search", "Hooke-Jeeves Method", "Simulated Annealing", "Steepest Descent Method"] :: lines) ∧ lines.length = 5 ∧
      ∀ (i : Nat) (t : TestFunction D) (line : List String), (provider e.fns)[i]? = some t → lines[i]? = some line → Line { e with fuel := fuel } print t line) ∨
    ∃ w, main { e with fuel := fuel } print random = .throw w ∧ ∃ t ∈ provider e.fns, ∃ o, (o = conjugateGradient { e with fuel := fuel } ∨ o = steepestDescent { e with fuel := fuel }) ∧
      ∀ s, o.optimize s (t.fn.call e.fns) t.start t.maximize = .throw w := by
  obtain ⟨m, hm⟩ := C124_returns he
  refine ⟨m, fun fuel hf random => ?_⟩
  have he' : ({ e with fuel := fuel } : Env D).Good := ⟨he.fns, he.lit, he.sqrt_zero, he.sqrt_nan, he.exp, he.sdAbs⟩
  have h5 := hm fuel hf
  revert h5 he'
  generalize hE : ({ e with fuel := fuel } : Env D) = E
  have hEf : E.fns = e.fns := by rw [← hE]
  rw [← hEf]
  intro hgE h5
  have hos : ∀ o ∈ optimizers E, ∀ t ∈ provider E.fns, ∀ s, Fits s → (∃ p s', o.optimize s (t.fn.call E.fns) t.start t.maximize = .ok (p, s') ∧ p.length = 2 ∧ Fits s') ∨
      ∃ w, (o = conjugateGradient E ∨ o = steepestDescent E) ∧ ∀ s, o.optimize s (t.fn.call E.fns) t.start t.maximize = .throw w := by
    intro o ho t ht s hs
    rcases mem_five ho with ho | ho
    · exact .inl (h5 o ho t ht s hs)
    · rcases gradient_methods hgE ho ht with ⟨p, h1, h2⟩ | ⟨w, h⟩
      · exact .inl ⟨p, s, h2 s, h1, hs⟩
      · exact .inr ⟨w, ho, h⟩
  have hmem : ∀ x ∈ (optimizers E).mapIdx fun i o => ((o, ⟨[], random i⟩) : Opt (Obj D) D × Obj D), x.1 ∈ optimizers E ∧ Fits x.2 := by
    intro x hx
    obtain ⟨i, hi, rfl⟩ := List.mem_mapIdx.1 hx
    exact ⟨List.getElem_mem hi, Nat.zero_le _, fun Q hQ => by cases hQ⟩
  have hsingle : ∀ t ∈ provider E.fns, ∀ (o : Opt (Obj D) D) (s : Obj D), o ∈ optimizers E ∧ Fits s →
      (∃ r s', testSingle E.fns t o s = .ok (r, s') ∧ (o ∈ optimizers E ∧ Fits s')) ∨ ∃ w, testSingle E.fns t o s = .throw w ∧
        ∃ t ∈ provider E.fns, ∃ o, (o = conjugateGradient E ∨ o = steepestDescent E) ∧ ∀ s, o.optimize s (t.fn.call E.fns) t.start t.maximize = .throw w := by
    intro t ht o s ⟨ho, hs⟩
    unfold testSingle
    rcases hos o ho t ht s hs with ⟨p, s', h1, h2, h3⟩ | ⟨w, h1, h2⟩
    · rw [h1, Res.ok_bind]
      simp only
      rw [call_total E.fns t.fn h2, Res.ok_bind]
      exact .inl ⟨_, s', rfl, ho, h3⟩
    · rw [h2 s]
      exact .inr ⟨w, rfl, t, ht, o, h1, h2⟩
  rcases test_cases (I := fun o s => o ∈ optimizers E ∧ Fits s) (provider E.fns) _ hsingle hmem with ⟨rows, os', h1⟩ | ⟨w, h1, h2⟩
  · left
    have hsol : ∀ t ∈ provider E.fns, ∃ b, t.solutionValue E.fns = .ok b := by
      intro t ht
      simp only [provider, List.mem_cons, List.not_mem_nil, or_false] at ht
      rcases ht with rfl | rfl | rfl | rfl | rfl <;> exact ⟨_, rfl⟩
    obtain ⟨lines, k1, k2, k3⟩ := C117_output print h1 (by simp [provider]) (by simp [optimizers]) hsol
    refine ⟨lines, ?_, k2, ?_⟩
    · unfold main
      rw [h1, Res.ok_bind]
      exact k1
    · intro i t line ht hline
      obtain ⟨b, row, r1, r2, r3⟩ := k3 i t ht
      obtain ⟨_, q2⟩ := C117_results h1
      obtain ⟨row', e1, e2, e3⟩ := q2 i t ht
      rw [r2] at e1
      cases e1
      have htm : t ∈ provider E.fns := List.mem_of_getElem? ht
      rw [r3] at hline
      have hline := (Option.some.inj hline).symm
      have hlen : row.length = 7 := by rw [e2]; simp [optimizers]
      have hj : ∀ (j : Nat) (o : Opt (Obj D) D), (optimizers E)[j]? = some o → ∃ (r : Result D) (s1 s2 : Obj D), row[j]? = some r ∧
          o.optimize s1 (t.fn.call E.fns) t.start t.maximize = .ok (r.foundSolution, s2) ∧ t.fn.call E.fns r.foundSolution = .ok r.foundValue := by
        intro j o ho
        obtain ⟨r, s1, s2, g1, _, _, _, g5, g6⟩ := e3 j o ⟨[], random j⟩ (by rw [List.getElem?_mapIdx, ho]; rfl)
        exact ⟨r, s1, s2, g1, g5, g6⟩
      refine ⟨b, row.map (·.foundSolution), r1, by simp [hlen], ?_, ?_⟩
      · rw [hline, List.map_map]
        congr 1
        refine List.map_congr_left fun r hr => ?_
        obtain ⟨j, hjlt, rfl⟩ := List.getElem_of_mem hr
        have hj7 : j < (optimizers E).length := by rw [hlen] at hjlt; exact hjlt
        obtain ⟨r', s1, s2, g1, g5, g6⟩ := hj j _ (List.getElem?_eq_getElem hj7)
        rw [List.getElem?_eq_getElem hjlt] at g1
        cases g1
        simp only [Function.comp]
        unfold total
        rw [g6]
      · intro j o p ho hp
        obtain ⟨r, s1, s2, g1, g5, g6⟩ := hj j o ho
        rw [List.getElem?_map, g1] at hp
        cases hp
        exact ⟨(optimizers_length (List.mem_of_getElem? ho) g5).trans (provider_start htm).1, s1, s2, g5⟩
  · right
    refine ⟨w, ?_, h2⟩
    unfold main
    rw [h1]
    rfl

/-! ## Conjugate gradients in the example -/

theorem abs_eq {l : ExampleFns.Lib D} (hl : l.Good) : l.abs = abs64 := by
  funext x
  refine ext ?_
  have h64 := ExampleFns.lib64_good
  cases hx : x.val with
  | nan =>
    have : x = nanF := ext hx
    subst this
    rw [hl.abs_nan]
    exact congrArg _ h64.abs_nan.symm
  | inf s => rw [hl.abs_inf x s hx]; exact (h64.abs_inf x s hx).symm
  | num q => rw [hl.abs_num x q hx]; exact (h64.abs_num x q hx).symm

/-- The conjugate gradient library of the example. -/
def cgLib (e : Env D) : Cg.Lib D := ⟨e.fns.abs, e.sqrt, fun x => x * x, e.fns.eps⟩

/-- Its parameters. -/
def cgCfg : Cg.Config D := ⟨f64 (1 / 10000), f64 (1 / 100000), 1000⟩

theorem cgLib_good {e : Env D} (he : e.Good) : (cgLib e).Good where
  abs_nan := he.fns.abs_nan
  abs_zero := by
    refine ext ?_
    show (e.fns.abs 0).val = _
    rw [he.fns.abs_num 0 0 val_zero, val_zero, abs_zero]
  abs_inf := he.fns.abs_inf
  sqrt_nan := he.sqrt_nan
  sqrt_zero := he.sqrt_zero
  sq_nan := by show (nanF * nanF : D) = nanF; decide +kernel
  sq_zero := by show (0 * 0 : D) = 0; decide +kernel
  eps := by show 0 < e.fns.eps; rw [he.fns.eps]; decide +kernel

/-- What the conjugate gradient object of the example returns is what `FindOptimalParameters` does. -/
theorem conjugate_eq {e : Env D} (he : e.Good) {t : TestFunction D} (ht : t ∈ provider e.fns) (fuel : Nat) (s : Obj D) :
    (conjugateGradient { e with fuel := fuel }).optimize s (t.fn.call e.fns) t.start t.maximize =
      ((Cg.find (cgLib e) cgCfg fuel t.start).eval (goal t.maximize (total e.fns t.fn))).bind fun v => .ok (v, s) := by
  obtain ⟨h2, h0⟩ := provider_start ht
  have ha := Cg.find_asks (cgLib e) cgCfg fuel t.start
  have hc : (⟨e.lit (1 / 10000), e.lit (1 / 100000), 1000⟩ : Cg.Config D) = cgCfg := by rw [he.lit]; rfl
  unfold conjugateGradient
  rw [show ({ e with fuel := fuel } : Env D).lit = e.lit from rfl, hc]
  exact plain_eq (name := "Conjugate Gradient Method") (s := s) (maximize := t.maximize) (start := t.start) (f := t.fn.call e.fns) (tot := total e.fns t.fn)
    (find := Cg.find (cgLib e) cgCfg fuel) (fun x hx => call_total _ _ (hx.trans h2)) (fun x hx => ha.trace x hx) (fun r hr => ha.eval hr)

theorem total_square {e : Env D} (he : e.Good) : total e.fns .square = total ExampleFns.lib64 .square := by
  have habs := abs_eq he.fns
  funext v
  show ExampleFns.square e.fns v = ExampleFns.square ExampleFns.lib64 v
  unfold ExampleFns.square
  rw [habs]
  rfl

/-- The first gradient of the conjugate gradient method on the first function. -/
def squareGradient : List D :=
  match (gradient cgCfg.increment (cgCfg.increment / 2) [f64 11, f64 7]).eval (goal true (total ExampleFns.lib64 .square)) with
  | .ok g => g
  | _ => []

/-- **C124 (conjugate gradients, first function).** Maximizing 1/|x²-2| from (11, 7) the conjugate gradient object of the example returns a point without finite coordinates, at which the
function is NaN or 0 - less than at the start, where it is positive. -/
theorem C124_conjugate_square {e : Env D} (he : e.Good) {t : TestFunction D} (ht : (provider e.fns)[0]? = some t) :
    ∃ p : List D, p.length = 2 ∧ (∀ x ∈ p, ¬ x.Finite) ∧ (∀ fuel ≥ 3, ∀ s, (conjugateGradient { e with fuel := fuel }).optimize s (t.fn.call e.fns) t.start t.maximize = .ok (p, s)) ∧
      (nan (total e.fns t.fn p) ∨ total e.fns t.fn p = 0) ∧ 0 < total e.fns t.fn t.start := by
  have htm : t ∈ provider e.fns := List.mem_of_getElem? ht
  have heq := conjugate_eq he htm
  have hsq := abs_eq he.fns
  have heps := he.fns.eps
  cases ht
  simp only [total_square he] at heq ⊢
  have hstart : ([11, 7] : List D) = [f64 11, f64 7] := by decide +kernel
  obtain ⟨p, h1, h2, h3⟩ := Cg.C112_flat (cgLib_good he) cgCfg (goal true (total ExampleFns.lib64 .square)) (by decide +kernel) (by decide +kernel) [f64 11, f64 7] squareGradient
    (by decide +kernel) (by
      have : ¬ (abs64 ((squareGradient.foldl (fun s x => s + x * x) 0) - 0) < f64 (1 / 10 ^ 10)) := by decide +kernel
      show ¬ (e.fns.abs ((squareGradient.foldl (fun s x => s + x * x) 0) - 0) < e.fns.eps)
      rw [hsq, heps]
      exact this) (fun _ => 0) rfl 0 (fun k hk => absurd hk (by omega)) (.inl (by decide +kernel))
  refine ⟨p, h1, h2, fun fuel hf s => ?_, ?_, ?_⟩
  · rw [heq]
    show ((Cg.find (cgLib e) cgCfg fuel [f64 11, f64 7]).eval (goal true (total ExampleFns.lib64 .square))).bind _ = _
    rw [h3 fuel hf]
    rfl
  · obtain ⟨x, y, rfl⟩ := List.length_eq_two.1 (h1 : p.length = 2)
    have key : ∀ x : D, ¬ x.Finite → 1 / abs64 (x * x - 2) = 0 ∨ 1 / abs64 (x * x - 2) = nanF := by
      intro x hx
      rcases hv : x.val with _ | s | q
      · have : x = nanF := ext hv
        subst this
        decide +kernel
      · have : x = rnd (.inf s) := ext hv
        subst this
        revert s
        decide +kernel
      · exact absurd ⟨q, hv⟩ hx
    show nan (0 + 1 / abs64 (x * x - 2) + 1 / abs64 (y * y - 2)) ∨ 0 + 1 / abs64 (x * x - 2) + 1 / abs64 (y * y - 2) = 0
    rcases key x (h2 x (by simp)) with hx | hx <;> rcases key y (h2 y (by simp)) with hy | hy <;> rw [hx, hy]
    · right; decide +kernel
    · left; show (0 + 0 + nanF : D).val = Dbl.nan; decide +kernel
    · left; show (0 + nanF + 0 : D).val = Dbl.nan; decide +kernel
    · left; show (0 + nanF + nanF : D).val = Dbl.nan; decide +kernel
  · show 0 < total ExampleFns.lib64 .square [f64 11, f64 7]
    decide +kernel

/-- The sum of squares as the minimizer sees it. -/
def sumGoal : List D → D := goal false (total ExampleFns.lib64 .squareSumm)

/-- The first gradient of the conjugate gradient method on the sum of squares. -/
def sumGradient : List D :=
  match (gradient cgCfg.increment (cgCfg.increment / 2) [f64 100, f64 100]).eval sumGoal with
  | .ok g => g
  | _ => []

/-- A step of the one-dimensional search there. -/
def sumNext (t : D) : D := t - Cg.first cgCfg sumGoal [f64 100, f64 100] sumGradient t / Cg.second cgCfg sumGoal [f64 100, f64 100] sumGradient t

/-- **C124 (conjugate gradients, sum of squares).** Minimizing the sum of squares from (100, 100) the conjugate gradient object of the example returns the minimum (0, 0) exactly. -/
theorem C124_conjugate_sum {e : Env D} (he : e.Good) {t : TestFunction D} (ht : (provider e.fns)[3]? = some t) (fuel : Nat) (hf : 3 ≤ fuel) (s : Obj D) :
    (conjugateGradient { e with fuel := fuel }).optimize s (t.fn.call e.fns) t.start t.maximize = .ok ([0, 0], s) ∧ t.fn.call e.fns [0, 0] = .ok 0 := by
  have htm : t ∈ provider e.fns := List.mem_of_getElem? ht
  have heq := conjugate_eq he htm
  have hsq := abs_eq he.fns
  have heps := he.fns.eps
  cases ht
  refine ⟨?_, by show Res.ok (squareSumm [0, 0] : D) = _; decide +kernel⟩
  rw [heq]
  show ((Cg.find (cgLib e) cgCfg fuel [f64 100, f64 100]).eval sumGoal).bind _ = _
  have hgr : (gradient cgCfg.increment (cgCfg.increment / 2) [f64 100, f64 100]).eval sumGoal = .ok sumGradient := by decide +kernel
  have hg0 : (gradient cgCfg.increment (cgCfg.increment / 2) [0, 0]).eval sumGoal = .ok [0, 0] := by decide +kernel
  obtain ⟨k, rfl⟩ : ∃ k, fuel = k + 2 + 1 := ⟨fuel - 3, by omega⟩
  have hline : (Cg.lineSearch (cgLib e) cgCfg [f64 100, f64 100] sumGradient (k + 2) 0).eval sumGoal = .ok (sumNext (sumNext 0)) := by
    rw [Cg.lineSearch_step, if_pos]
    · rw [Cg.lineSearch_step, if_neg]
      · rfl
      · show ¬ (cgCfg.precision < e.fns.abs (sumNext 0 - sumNext (sumNext 0)))
        rw [hsq]
        decide +kernel
    · show cgCfg.precision < e.fns.abs (0 - sumNext 0)
      rw [hsq]
      decide +kernel
  have halong : along [f64 100, f64 100] (sumNext (sumNext 0)) sumGradient = [0, 0] := by decide +kernel
  have hz : ¬ Cg.IsZero (cgLib e) (Cg.squares (cgLib e) sumGradient) := by
    have : ¬ (abs64 ((sumGradient.foldl (fun s x => s + x * x) 0) - 0) < f64 (1 / 10 ^ 10)) := by decide +kernel
    show ¬ (e.fns.abs ((sumGradient.foldl (fun s x => s + x * x) 0) - 0) < e.fns.eps)
    rw [hsq, heps]
    exact this
  have hstop : ¬ (cgLib e).sqrt (Cg.squares (cgLib e) [0, 0]) ≥ cgCfg.precision := by
    rw [show Cg.squares (cgLib e) [0, 0] = (0 : D) from by show (0 + 0 * 0 + 0 * 0 : D) = 0; decide +kernel]
    show ¬ cgCfg.precision ≤ e.sqrt 0
    rw [he.sqrt_zero]
    decide +kernel
  unfold Cg.find Cg.outer
  have hd : Cg.nextDirection sumGradient (List.replicate 2 0) 0 1 = sumGradient := if_neg (by omega)
  simp only [Prog.eval_bind, hgr, Res.ok_bind]
  rw [show ([f64 100, f64 100] : List D).length = 2 from rfl, hd]
  simp only [hline, Res.ok_bind, halong, hg0]
  rw [if_neg hz, if_neg hstop]
  rfl

/-! ## A concrete environment -/

/-- A crude exponential: 1 at zero, 0 below, infinity above. -/
def exp64 (x : D) : D := if x < 0 then 0 else if 0 < x then rnd (.inf false) else 1

/-- The program with stand-ins for the sine and the exponential. -/
def env64 : Env D := ⟨ExampleFns.lib64, f64, sqrt64, exp64, f64 (7286977268806824 / 2 ^ 52), fun x => .ok (abs64 x), 1⟩

theorem env64_good : env64.Good where
  fns := ExampleFns.lib64_good
  lit := rfl
  sqrt_zero := by decide +kernel
  sqrt_nan := by decide +kernel
  exp := by
    intro x hx
    show ¬ exp64 x < 0 ∧ ¬ 1 < exp64 x
    unfold exp64
    split_ifs <;> decide +kernel
  sdAbs := fun _ => rfl

/-- The theorems apply; the heading. -/
example : ∃ m : Nat, ∀ fuel ≥ m, ∀ random : Nat → Random.Lib, (∃ lines, main { env64 with fuel := fuel } (fun _ => "x") random = .ok lines ∧ lines.length = 6) ∨
    ∃ w, main { env64 with fuel := fuel } (fun _ => "x") random = .throw w := by
  obtain ⟨m, hm⟩ := C124_main env64_good fun _ => "x"
  refine ⟨m, fun fuel hf random => ?_⟩
  rcases hm fuel hf random with ⟨lines, h1, h2, _⟩ | ⟨w, h, _⟩
  · exact .inl ⟨_, h1, by simp [h2]⟩
  · exact .inr ⟨w, h⟩

/-- With the stand-in for the sine the third function is constant near (100, 100): conjugate gradients throws, and so would the program. -/
example (s : Obj D) : ((provider env64.fns)[2]?.map fun t => (conjugateGradient { env64 with fuel := 5 }).optimize s (t.fn.call env64.fns) t.start t.maximize) =
    some (.throw "runtime_error") := by
  have ht : (⟨.difraction, [0, 0], [(100 : Nat), (100 : Nat)], "SUMM( sin(Xi) / Xi )", true⟩ : TestFunction D) ∈ provider env64.fns := by simp [provider]
  refine congrArg some ((conjugate_eq env64_good ht 5 s).trans ?_)
  have : (Cg.find (cgLib env64) cgCfg 5 [f64 100, f64 100]).eval (goal true (total ExampleFns.lib64 .difraction)) = .throw "runtime_error" := by decide +kernel
  show ((Cg.find (cgLib env64) cgCfg 5 [f64 100, f64 100]).eval (goal true (total ExampleFns.lib64 .difraction))).bind _ = _
  rw [this]
  rfl

/-- Random search with the random numbers 3, 4, 7, 4, 3, 4, 7, ... of 0, ..., 7 and the sum of squares. -/
example : ((randomSearch env64).optimize ⟨[], ⟨7, fun i => (i * i + 3) % 8⟩⟩ (fun v => .ok (squareSumm v)) [f64 100, f64 100] false).bind (fun r => .ok r.1) =
    .ok ((Random.vector ⟨7, fun i => (i * i + 3) % 8⟩ 2 (f64 (-1000)) (f64 1000)).1 : List D) := by
  decide +kernel

end ExampleMain
end K52
