import Verif.Model.IeeeRosenbrock
import Verif.Props.IeeeConjugate
import Verif.Props.Rosenbrock
import Verif.Lemmas.DoubleError

/-!
# C115: the Rosenbrock method in IEEE arithmetic
-/

set_option linter.unusedSectionVars false

namespace K52.IeeeRosenbrock

open IeeeGradient (Same)
open Rosenbrock (Config State)

/-! ## Runs in an arbitrary arithmetic -/

section Any
variable {R : Type} [Add R] [Sub R] [Mul R] [Div R] [Neg R] [Zero R] [One R] [NatCast R] [LT R] [LE R] [DecidableLT R] [DecidableLE R]
variable (l : Lib R) (cfg : Config R) (g : List R → R)

/-- The new step in a direction. -/
def newStep (arguments : List R) (step : R) (direction : List R) : R :=
  correctStep l cfg (if g arguments > g (stepPerCoordinate step direction arguments) then step * l.increase else step * l.decrease)

/-- All steps made one after the other. -/
def moveAll (steps : List R) (basis : List (List R)) (t : List R) : List R :=
  (steps.zip basis).foldl (fun t p => stepPerCoordinate p.1 p.2 t) t

theorem stepLoop_eval (a : List R) : ∀ (steps : List R) (basis : List (List R)) (t : List R),
    (stepLoop l cfg (g a) a steps basis t).eval g =
      .ok (moveAll (List.zipWith (newStep l cfg g a) steps basis) basis t, List.zipWith (newStep l cfg g a) steps basis)
  | [], basis, t => by cases basis <;> simp [stepLoop, moveAll]
  | _ :: _, [], t => by simp [stepLoop, moveAll]
  | s :: steps, d :: basis, t => by
    simp only [stepLoop, Prog.eval_bind, Prog.eval_askMin, Res.ok_bind, stepLoop_eval a steps basis, Prog.pure_def, Prog.eval_done]
    rfl

theorem makeStep_eval (s : State R) (a steps : List R) (h : sortSteps s.steps = .ok steps) :
    (makeStep l cfg s a).eval g =
      .ok (moveAll (List.zipWith (newStep l cfg g a) steps s.basis) s.basis a, List.zipWith (newStep l cfg g a) steps s.basis) := by
  simp only [makeStep, Prog.eval_bind, Prog.eval_askMin, Res.ok_bind, Prog.eval_lift, h, stepLoop_eval]

theorem exit_iff (a b : List R) : exitCriteria l cfg a b = true ↔ ∀ p ∈ a.zip b, ¬ l.abs (p.1 - p.2) > cfg.precision := by
  unfold exitCriteria
  have key : ∀ (ps : List (R × R)) (e : Bool),
      ps.foldl (fun escape p => if l.abs (p.1 - p.2) > cfg.precision then false else escape) e = true ↔
        e = true ∧ ∀ p ∈ ps, ¬ l.abs (p.1 - p.2) > cfg.precision := by
    intro ps
    induction ps with
    | nil => simp
    | cons p ps ih =>
      intro e
      rw [List.foldl_cons, ih]
      by_cases h : l.abs (p.1 - p.2) > cfg.precision
      · simp [h]
      · simp [h]
  rw [key]
  simp

/-- Numbers of elements. -/
structure Shape (n : Nat) (s : State R) : Prop where
  steps : s.steps.length = n
  basis : s.basis.length = n
  dim : ∀ v ∈ s.basis, v.length = n

theorem stepPerCoordinate_length {n : Nat} {t d : List R} (s : R) (ht : t.length = n) (hd : d.length = n) :
    (stepPerCoordinate s d t).length = n := by simp [stepPerCoordinate, ht, hd]

theorem moveAll_length {n : Nat} : ∀ (steps : List R) (basis : List (List R)) (t : List R), t.length = n → (∀ v ∈ basis, v.length = n) →
    (moveAll steps basis t).length = n
  | [], _, t, ht, _ => by simp [moveAll, ht]
  | _ :: _, [], t, ht, _ => by simp [moveAll, ht]
  | s :: steps, d :: basis, t, ht, hb => by
    simp only [moveAll, List.zip_cons_cons, List.foldl_cons]
    exact moveAll_length steps basis _ (stepPerCoordinate_length s ht (hb d (by simp))) (fun v hv => hb v (by simp [hv]))

theorem moveAll_cons (s : R) (d : List R) (steps : List R) (basis : List (List R)) (t : List R) :
    moveAll (s :: steps) (d :: basis) t = moveAll steps basis (stepPerCoordinate s d t) := rfl

theorem rowSum_length {n : Nat} {steps : List R} {basis : List (List R)} (hb : ∀ v ∈ basis, v.length = n) (j : Nat) :
    (rowSum n steps basis j).length = n := by
  unfold rowSum
  have key : ∀ (ps : List (R × List R)) (acc : List R), acc.length = n → (∀ p ∈ ps, p.2.length = n) →
      (ps.foldl (fun acc p => List.zipWith (fun a b => a + p.1 * b) acc p.2) acc).length = n := by
    intro ps
    induction ps with
    | nil => intro acc h _; exact h
    | cons p ps ih =>
      intro acc h hp
      rw [List.foldl_cons]
      exact ih _ (by simp [h, hp p (by simp)]) (fun q hq => hp q (by simp [hq]))
  refine key _ _ (by simp) ?_
  intro p hp
  exact hb _ (List.of_mem_zip (List.mem_of_mem_drop hp)).2

theorem orthogonalize_length {n : Nat} : ∀ (found : List (List R)) (row u : List R), u.length = n → (∀ e ∈ found, e.length = n) →
    (found.foldl (fun u e => List.zipWith (fun x y => x - dot row e * y) u e) u).length = n
  | [], _, _, hu, _ => hu
  | e :: found, row, u, hu, hf => by
    rw [List.foldl_cons]
    exact orthogonalize_length found row _ (by simp [hu, hf e (by simp)]) (fun v hv => hf v (by simp [hv]))

theorem gramSchmidt_shape {n : Nat} : ∀ (rows found : List (List R)), (∀ v ∈ found, v.length = n) → (∀ v ∈ rows, v.length = n) →
    (gramSchmidt l found rows).length = found.length + rows.length ∧ ∀ v ∈ gramSchmidt l found rows, v.length = n
  | [], found, hf, _ => by simpa [gramSchmidt] using hf
  | row :: rows, found, hf, hr => by
    have h1 : (normalize l (orthogonalize found row)).length = n := by
      simp only [normalize, List.length_map]
      exact orthogonalize_length found row row (hr row (by simp)) hf
    obtain ⟨h2, h3⟩ := gramSchmidt_shape rows (found ++ [normalize l (orthogonalize found row)])
      (by intro v hv; rcases List.mem_append.1 hv with hv | hv
          · exact hf v hv
          · rw [List.mem_singleton.1 hv]; exact h1)
      (fun v hv => hr v (by simp [hv]))
    refine ⟨?_, h3⟩
    rw [gramSchmidt, h2]
    simp
    omega

theorem createNewBasis_shape {n : Nat} (steps : List R) {basis : List (List R)} (hb : ∀ v ∈ basis, v.length = n) :
    (createNewBasis l n steps basis).length = n ∧ ∀ v ∈ createNewBasis l n steps basis, v.length = n := by
  have := gramSchmidt_shape l (n := n) (matrixOfCoeff n steps basis) [] (by simp) (by
    intro v hv
    obtain ⟨j, _, rfl⟩ := List.mem_map.1 hv
    exact rowSum_length hb j)
  simpa [createNewBasis, matrixOfCoeff] using this

theorem initState_shape (n : Nat) : Shape n (initState cfg n) where
  steps := by simp [initState]
  basis := by simp [initState]
  dim := by
    intro v hv
    obtain ⟨i, _, rfl⟩ := List.mem_map.1 hv
    simp

/-- A property of coordinates that addition keeps is kept by steps. -/
theorem moveAll_keeps {Bad : R → Prop} (hadd : ∀ x y, Bad x → Bad (x + y)) {n : Nat} (j : Nat) : ∀ (steps : List R) (basis : List (List R)) (t : List R) (x : R),
    t.length = n → (∀ v ∈ basis, v.length = n) → t[j]? = some x → Bad x → ∃ y, (moveAll steps basis t)[j]? = some y ∧ Bad y
  | [], _, t, x, _, _, hx, hb => ⟨x, by simpa [moveAll] using hx, hb⟩
  | _ :: _, [], t, x, _, _, hx, hb => ⟨x, by simpa [moveAll] using hx, hb⟩
  | s :: steps, d :: basis, t, x, ht, hd, hx, hb => by
    have hj : j < t.length := (List.getElem?_eq_some_iff.1 hx).1
    have hdl := hd d (by simp)
    obtain ⟨y, hy⟩ : ∃ y, d[j]? = some y := ⟨d[j], by simp [hdl, ← ht, hj]⟩
    rw [moveAll_cons]
    refine moveAll_keeps hadd j steps basis _ (x + s * y) (stepPerCoordinate_length s ht hdl) (fun v hv => hd v (by simp [hv])) ?_ (hadd _ _ hb)
    simp [stepPerCoordinate, List.getElem?_zipWith, hx, hy]

/-- A step that makes all coordinates bad. -/
theorem moveAll_spreads {Bad : R → Prop} (hadd : ∀ x y, Bad x → Bad (x + y)) (hadd' : ∀ x y, Bad y → Bad (x + y)) (hmul : ∀ x y, Bad x → Bad (x * y))
    {n : Nat} : ∀ (steps : List R) (basis : List (List R)) (t : List R),
    t.length = n → steps.length = basis.length → (∀ v ∈ basis, v.length = n) → (∃ s ∈ steps, Bad s) → ∀ y ∈ moveAll steps basis t, Bad y
  | [], _, t, _, _, _, ⟨s, hs, _⟩ => by simp at hs
  | _ :: _, [], t, _, hl, _, _ => by simp at hl
  | s :: steps, d :: basis, t, ht, hl, hd, hex => by
    have hdl := hd d (by simp)
    rw [moveAll_cons]
    by_cases h : ∃ s ∈ steps, Bad s
    · exact moveAll_spreads hadd hadd' hmul steps basis _ (stepPerCoordinate_length s ht hdl) (by simpa using hl) (fun v hv => hd v (by simp [hv])) h
    · have hs : Bad s := by
        obtain ⟨s', hs', hb⟩ := hex
        rcases List.mem_cons.1 hs' with rfl | h'
        · exact hb
        · exact absurd ⟨s', h', hb⟩ h
      intro y hy
      obtain ⟨j, hj, rfl⟩ := List.mem_iff_getElem.1 hy
      have hlen := moveAll_length steps basis _ (stepPerCoordinate_length s ht hdl) (fun v hv => hd v (by simp [hv]))
      have hjn : j < n := by rw [hlen] at hj; exact hj
      obtain ⟨z, hz, hb⟩ := moveAll_keeps (Bad := Bad) hadd j steps basis (stepPerCoordinate s d t) (t[j] + s * d[j])
        (stepPerCoordinate_length s ht hdl) (fun v hv => hd v (by simp [hv]))
        (by simp [stepPerCoordinate, ht, hdl, hjn]) (hadd' _ _ (hmul _ _ hs))
      rw [List.getElem?_eq_getElem hj] at hz
      cases hz
      exact hb

theorem sort_ok {steps : List R} (h : (∀ x ∈ steps, x ≤ x) ∨ (∀ x ∈ steps, ¬ x ≤ x)) :
    ∃ st, sortSteps steps = .ok st ∧ st.Perm steps :=
  ⟨_, if_pos h, List.perm_insertionSort _ _⟩

/-- **C115 (an abstract run).** As long as the steps can be sorted at the start and steps that cannot be sorted end the search, it returns. -/
theorem loop_returns {n : Nat} (hexit : ∀ a b : List R, a.length = n → b.length = n → (∀ y ∈ a, ¬ y ≤ y) → exitCriteria l cfg a b = true)
    (hadd : ∀ x y : R, ¬ x ≤ x → ¬ x + y ≤ x + y) (hadd' : ∀ x y : R, ¬ y ≤ y → ¬ x + y ≤ x + y) (hmul : ∀ x y : R, ¬ x ≤ x → ¬ x * y ≤ x * y) :
    ∀ (k : Nat) (s : State R) (a : List R), Shape n s → a.length = n → ((∀ x ∈ s.steps, x ≤ x) ∨ (∀ x ∈ s.steps, ¬ x ≤ x)) →
      ∃ r, (loop l cfg k s a).eval g = .ok r ∧ r.length = n ∧
        ∀ Bad : R → Prop, (∀ x y, Bad x → Bad (x + y)) → ∀ (j : Nat) (x : R), a[j]? = some x → Bad x → ∃ y, r[j]? = some y ∧ Bad y
  | 0, s, a, _, ha, _ => ⟨a, by simp [loop], ha, fun Bad _ j x hx hb => ⟨x, hx, hb⟩⟩
  | k + 1, s, a, hs, ha, hsort => by
    obtain ⟨st, h1, h2⟩ := sort_ok hsort
    have e := makeStep_eval l cfg g s a st h1
    have hstl : st.length = n := by rw [h2.length_eq, hs.steps]
    have hlen := moveAll_length (List.zipWith (newStep l cfg g a) st s.basis) s.basis a ha hs.dim
    have hnl : (List.zipWith (newStep l cfg g a) st s.basis).length = n := by simp [hstl, hs.basis]
    have keep : ∀ Bad : R → Prop, (∀ x y, Bad x → Bad (x + y)) → ∀ (j : Nat) (x : R), a[j]? = some x → Bad x →
        ∃ y, (moveAll (List.zipWith (newStep l cfg g a) st s.basis) s.basis a)[j]? = some y ∧ Bad y :=
      fun Bad h j x hx hb => moveAll_keeps h j _ _ _ x ha hs.dim hx hb
    simp only [loop, Prog.eval_bind, e, Res.ok_bind]
    by_cases hx : exitCriteria l cfg (moveAll (List.zipWith (newStep l cfg g a) st s.basis) s.basis a) a = true
    · exact ⟨_, by simp [hx], hlen, keep⟩
    · rw [if_neg hx]
      have hb := createNewBasis_shape l (n := n) (List.zipWith (newStep l cfg g a) st s.basis) hs.dim
      obtain ⟨r, r1, r2, r3⟩ := loop_returns hexit hadd hadd' hmul k
        ⟨createNewBasis l a.length (List.zipWith (newStep l cfg g a) st s.basis) s.basis, List.zipWith (newStep l cfg g a) st s.basis⟩
        (moveAll (List.zipWith (newStep l cfg g a) st s.basis) s.basis a) ⟨hnl, by rw [ha]; exact hb.1, by rw [ha]; exact hb.2⟩ hlen (by
          left
          by_contra hcon
          push Not at hcon
          exact hx (hexit _ _ hlen ha (moveAll_spreads (Bad := fun y => ¬ y ≤ y) hadd hadd' hmul _ _ _ ha (by rw [hnl, hs.basis]) hs.dim hcon)))
      refine ⟨r, r1, r2, fun Bad h j x hx hb => ?_⟩
      obtain ⟨y, y1, y2⟩ := keep Bad h j x hx hb
      exact r3 Bad h j y y1 y2

end Any

/-! ## IEEE arithmetic -/

section Ieee
variable {R : Type} [Add R] [Sub R] [Mul R] [Div R] [Neg R] [Zero R] [One R] [NatCast R] [LT R] [LE R] [DecidableLT R] [DecidableLE R]
  [IeeeOrder R] [IeeeArith R]

theorem not_le_self {x : R} : ¬ x ≤ x ↔ nan x := by
  rw [IeeeOrder.le_iff]
  constructor
  · intro h
    by_contra hn
    exact h ⟨hn, hn, IeeeOrder.lt_irrefl x⟩
  · intro h h'
    exact h'.1 h

theorem find_returns (l : Lib R) (habs : ∀ x : R, nan x → nan (l.abs x)) (cfg : Config R) (g : List R → R) (k : Nat) (s : State R) (a : List R)
    (hs : Shape a.length s) (hsort : (∀ x ∈ s.steps, ¬ nan x) ∨ (∀ x ∈ s.steps, nan x)) :
    ∃ r, (loop l cfg k s a).eval g = .ok r ∧ r.length = a.length ∧
      ∀ Bad : R → Prop, (∀ x y, Bad x → Bad (x + y)) → ∀ (j : Nat) (x : R), a[j]? = some x → Bad x → ∃ y, r[j]? = some y ∧ Bad y := by
  refine loop_returns l cfg g ?_ ?_ ?_ ?_ k s a hs rfl ?_
  · intro a b _ _ h
    rw [exit_iff]
    intro p hp
    have hn : nan (l.abs (p.1 - p.2)) := habs _ (IeeeArith.sub_left _ (not_le_self.1 (h _ (List.of_mem_zip hp).1)))
    exact IeeeOrder.not_lt_nan_right hn
  · intro x y h
    rw [not_le_self] at h ⊢
    exact IeeeArith.add_left _ h
  · intro x y h
    rw [not_le_self] at h ⊢
    exact IeeeArith.add_right _ h
  · intro x y h
    rw [not_le_self] at h ⊢
    exact IeeeArith.mul_left _ h
  · rcases hsort with h | h
    · left
      intro x hx
      by_contra hcon
      exact h x hx (not_le_self.1 hcon)
    · right
      exact fun x hx => not_le_self.2 (h x hx)

/-- **C115 (returns).** In every arithmetic with IEEE comparisons and NaN propagation, whatever the objective function, the start and the settings -
infinities and NaN among them -, the Rosenbrock method returns, without an exception, a point of the dimension of the start; in particular
it never sorts numbers and NaNs together, which would be undefined. -/
theorem C115_returns (l : Lib R) (habs : ∀ x : R, nan x → nan (l.abs x)) (cfg : Config R) (g : List R → R) (initial : List R) :
    ∃ r, (find l cfg initial).eval g = .ok r ∧ r.length = initial.length := by
  obtain ⟨r, h1, h2, _⟩ := find_returns l habs cfg g cfg.maxIterations (initState cfg initial.length) initial (initState_shape cfg _) (by
    by_cases h : nan cfg.firstStep
    · right
      intro x hx
      rw [List.eq_of_mem_replicate hx]
      exact h
    · left
      intro x hx
      rw [List.eq_of_mem_replicate hx]
      exact h)
  exact ⟨r, h1, h2⟩

end Ieee

/-! ## Floating point -/

section Float
open Flt IeeeGradient

variable {F : Format}

/-- What is assumed of the library: `abs` is exact, `sqrt` is right at 0 and infinity, and the constants are 1.5 and -0.5. -/
structure Lib.Good (l : Lib (Flt F)) : Prop where
  abs_nan : l.abs nanF = nanF
  abs_num : ∀ x q, x.val = .num q → (l.abs x).val = .num |q|
  abs_inf : ∀ x s, x.val = .inf s → (l.abs x).val = .inf false
  sqrt_zero : l.sqrt 0 = 0
  sqrt_inf : ∀ x, x.val = .inf false → (l.sqrt x).val = .inf false
  increase : l.increase.val = .num (3 / 2)
  decrease : l.decrease.val = .num (-1 / 2)

variable {l : Lib (Flt F)} {cfg : Config (Flt F)} {g : List (Flt F) → Flt F}

theorem not_finite_add_left {a : Flt F} (h : ¬ Finite a) (b : Flt F) : ¬ Flt.Finite (a + b) := by
  rcases not_finite_cases h with rfl | ⟨s, hs⟩
  · rw [nanF_add]; exact not_finite_nan
  · rintro ⟨q, hq⟩
    rw [val_add, hs] at hq
    generalize b.val = y at hq
    rcases y with _ | t | r
    · cases hq
    · revert hq
      show F.round (if s = t then .inf s else .nan) = _ → _
      split <;> exact fun h => by cases h
    · cases hq

/-- **C115 (coordinates that are not finite).** A coordinate of the start that is infinite or NaN is so in the returned point. -/
theorem C115_not_finite (hl : l.Good) (initial : List (Flt F)) {j : Nat} {x : Flt F} (hx : initial[j]? = some x) (hxf : ¬ Finite x) :
    ∃ r y, (find l cfg initial).eval g = .ok r ∧ r[j]? = some y ∧ ¬ Finite y := by
  obtain ⟨r, h1, _, h3⟩ := find_returns l (fun x hx => by rw [eq_nanF hx, hl.abs_nan]; exact nan_nanF) cfg g cfg.maxIterations
    (initState cfg initial.length) initial (initState_shape cfg _) (by
      by_cases h : nan cfg.firstStep
      · right
        intro x hx
        rw [List.eq_of_mem_replicate hx]
        exact h
      · left
        intro x hx
        rw [List.eq_of_mem_replicate hx]
        exact h)
  obtain ⟨y, hy, hb⟩ := h3 (fun y => ¬ Finite y) (fun x y h => not_finite_add_left h y) j x hx hxf
  exact ⟨r, y, h1, hy, hb⟩

theorem mul_one (a : Flt F) : a * 1 = a := by
  refine ext ?_
  rw [val_mul, val_one]
  obtain ⟨x, hx⟩ := a
  rcases x with _ | s | q
  · rfl
  · show F.round (.inf s * .num 1) = .inf s
    rw [Dbl.inf_mul (by norm_num)]
    have : decide ((1 : ℚ) < 0) = false := by decide +kernel
    simp [Format.round, this]
  · show F.round (.num (q * 1)) = .num q
    rw [_root_.mul_one]
    exact hx

theorem zero_add (a : Flt F) : 0 + a = a := by
  refine ext ?_
  rw [val_add, val_zero, Dbl.num_add, ← val_zero, ← val_add, Flt.add_zero]

/-- Basis vector `i` of the first iteration. -/
def unit (n i : Nat) : List (Flt F) := (List.range n).map fun j => if j = i then 1 else 0

theorem unit_length (n i : Nat) : (unit n i : List (Flt F)).length = n := by simp [unit]

theorem step_unit {s : Flt F} (hs : Finite s) (i : Nat) (t : List (Flt F)) :
    stepPerCoordinate s (unit t.length i) t = match t[i]? with
      | some x => t.set i (x + s)
      | none => t := by
  refine List.ext_getElem? fun j => ?_
  by_cases hj : j < t.length
  · have e : (stepPerCoordinate s (unit t.length i) t)[j]? = some (t[j] + s * if j = i then 1 else 0) := by
      simp [stepPerCoordinate, unit, hj]
    rw [e]
    by_cases hi : j = i
    · subst hi
      simp [hj, mul_one]
    · rw [if_neg hi, Flt.mul_zero hs, Flt.add_zero]
      split
      · rw [List.getElem?_set_ne (Ne.symm hi)]; simp [hj]
      · simp [hj]
  · have h1 : (stepPerCoordinate s (unit t.length i) t)[j]? = none := by
      rw [List.getElem?_eq_none_iff]; simp [stepPerCoordinate, unit]; omega
    rw [h1]
    split
    · rw [eq_comm, List.getElem?_eq_none_iff]; simp; omega
    · rw [eq_comm, List.getElem?_eq_none_iff]; omega

/-- The moves of the first iteration. -/
theorem move_units {n : Nat} : ∀ (ds : List (Flt F)) (k : Nat) (t : List (Flt F)), t.length = n → k + ds.length ≤ n → (∀ d ∈ ds, Finite d) →
    ∀ (j : Nat) (x : Flt F), t[j]? = some x →
      (moveAll ds ((List.range' k ds.length).map (unit n)) t)[j]? = some (match (if k ≤ j then ds[j - k]? else none) with
        | some d => x + d
        | none => x)
  | [], k, t, _, _, _, j, x, hx => by
    simp [moveAll, hx]
  | d :: ds, k, t, ht, hk, hd, j, x, hx => by
    rw [List.length_cons, List.range'_succ, List.map_cons, moveAll_cons]
    have hkn : k < t.length := by rw [ht]; simp at hk; omega
    have e : stepPerCoordinate d (unit n k) t = t.set k (t[k] + d) := by
      rw [← ht, step_unit (hd d (by simp))]
      simp [hkn]
    rw [e]
    have ih := move_units (n := n) ds (k + 1) (t.set k (t[k] + d)) (by simp [ht]) (by simp at hk; omega) (fun y hy => hd y (by simp [hy])) j
    by_cases hkj : k = j
    · subst hkj
      rw [ih (t[k] + d) (by simp [hkn])]
      have : t[k] = x := by simpa [hkn] using hx
      simp [this]
    · rw [ih x (by rw [List.getElem?_set_ne hkj]; exact hx)]
      by_cases h : k ≤ j
      · obtain ⟨m, rfl⟩ : ∃ m, j = k + 1 + m := ⟨j - (k + 1), by omega⟩
        rw [if_pos (by omega), if_pos (by omega), show k + 1 + m - (k + 1) = m by omega, show k + 1 + m - k = m + 1 by omega,
          List.getElem?_cons_succ]
      · rw [if_neg (by omega), if_neg (by omega)]

theorem sort_replicate (n : Nat) (s : Flt F) : sortSteps (List.replicate n s) = .ok (List.replicate n s) := by
  unfold sortSteps
  rw [if_pos, List.perm_replicate.1 (List.perm_insertionSort (· ≥ ·) (List.replicate n s))]
  by_cases h : s ≤ s
  · left; intro x hx; rw [List.eq_of_mem_replicate hx]; exact h
  · right; intro x hx; rw [List.eq_of_mem_replicate hx]; exact h

/-- The multiple of the first step chosen along coordinate `i`, where the start has the coordinate `x`. -/
def choice (l : Lib (Flt F)) (cfg : Config (Flt F)) (g : List (Flt F) → Flt F) (initial : List (Flt F)) (i : Nat) (x : Flt F) : Flt F :=
  if g (initial.set i (x + cfg.firstStep)) < g initial then cfg.firstStep * l.increase else cfg.firstStep * l.decrease

/-- The steps after the first iteration. -/
def firstSteps (l : Lib (Flt F)) (cfg : Config (Flt F)) (g : List (Flt F) → Flt F) (initial : List (Flt F)) : List (Flt F) :=
  initial.mapIdx fun i x => correctStep l cfg (choice l cfg g initial i x)

theorem first_steps (hs : Finite cfg.firstStep) (initial : List (Flt F)) :
    List.zipWith (newStep l cfg g initial) (List.replicate initial.length cfg.firstStep) (initState cfg initial.length).basis =
      firstSteps l cfg g initial := by
  refine List.ext_getElem ?_ fun i h1 h2 => ?_
  · simp [initState, firstSteps]
  · have hi : i < initial.length := by simp [initState] at h1; exact h1
    simp only [initState, List.getElem_zipWith, List.getElem_replicate, List.getElem_map, List.getElem_range, firstSteps, List.getElem_mapIdx]
    unfold newStep choice
    have e := step_unit hs i initial
    simp only [List.getElem?_eq_getElem hi] at e
    unfold unit at e
    rw [e]

/-- The first iteration. -/
theorem first_iteration (hs : Finite cfg.firstStep) (initial : List (Flt F)) :
    (makeStep l cfg (initState cfg initial.length) initial).eval g =
      .ok (moveAll (firstSteps l cfg g initial) (initState cfg initial.length).basis initial, firstSteps l cfg g initial) := by
  rw [makeStep_eval l cfg g _ initial _ (sort_replicate initial.length cfg.firstStep), first_steps hs]

theorem basis_eq (n : Nat) : (initState cfg n).basis = (List.range' 0 n).map (unit n) := by
  simp [initState, unit, List.range_eq_range']

/-- Where the first iteration leads when all steps are finite. -/
theorem first_point (initial : List (Flt F)) (hfin : ∀ d ∈ firstSteps l cfg g initial, Finite d) :
    moveAll (firstSteps l cfg g initial) (initState cfg initial.length).basis initial =
      List.zipWith (· + ·) initial (firstSteps l cfg g initial) := by
  have hlen : (firstSteps l cfg g initial).length = initial.length := by simp [firstSteps]
  rw [basis_eq]
  refine List.ext_getElem? fun j => ?_
  by_cases hj : j < initial.length
  · have := move_units (n := initial.length) (firstSteps l cfg g initial) 0 initial rfl (by omega) hfin j initial[j] (by simp [hj])
    rw [hlen] at this
    rw [this]
    have h2 : j < (firstSteps l cfg g initial).length := by omega
    simp [hj, h2]
  · have h1 := moveAll_length (n := initial.length) (firstSteps l cfg g initial) ((List.range' 0 initial.length).map (unit initial.length)) initial rfl (by
      intro v hv
      obtain ⟨i, _, rfl⟩ := List.mem_map.1 hv
      exact unit_length _ _)
    rw [List.getElem?_eq_none_iff.2 (by omega), List.getElem?_eq_none_iff.2 (by simp; omega)]

theorem first_bases_dim (n : Nat) : ∀ v ∈ (initState cfg n).basis, v.length = n := (initState_shape cfg n).dim

/-! ### Overflow -/

/-- **C115 (overflow of the step).** If along some coordinate the chosen multiple of the first step is larger than the maximal step and its product with the
maximal step overflows, then every coordinate of the returned point is infinite or NaN. -/
theorem C115_overflow (hl : l.Good) (hlim : 1 ≤ cfg.maxIterations) (initial : List (Flt F)) {i : Nat} {x : Flt F} (hx : initial[i]? = some x)
    (hs : Finite cfg.firstStep) {μ δ : ℚ} (hm : cfg.maxStep.val = .num μ)
    (hd : (if g (initial.set i (x + cfg.firstStep)) < g initial then cfg.firstStep * l.increase else cfg.firstStep * l.decrease).val = .num δ)
    (hlarge : μ < |δ|) (hover : 2 ^ F.emax ≤ |μ * δ|) :
    ∃ r, (find l cfg initial).eval g = .ok r ∧ r.length = initial.length ∧ ∀ y ∈ r, ¬ Finite y := by
  have hn : ∀ x : Flt F, nan x → nan (l.abs x) := fun x hx => by rw [eq_nanF hx, hl.abs_nan]; exact nan_nanF
  have hδ : δ ≠ 0 := by
    rintro rfl
    rw [show μ * 0 = 0 by ring, abs_zero] at hover
    exact absurd hover (not_le.2 (zpow_pos Nearest.two_pos _))
  have hbad : ¬ Finite (correctStep l cfg (choice l cfg g initial i x)) := by
    unfold correctStep
    have habs : (l.abs (choice l cfg g initial i x)).val = .num |δ| := hl.abs_num _ _ hd
    rw [if_pos (by
      show cfg.maxStep.val < (l.abs (choice l cfg g initial i x)).val
      rw [hm, habs]
      exact decide_eq_true hlarge)]
    have hmul : ∃ t, (cfg.maxStep * choice l cfg g initial i x).val = .inf t := by
      refine ⟨decide (μ * δ < 0), ?_⟩
      rw [val_mul, hm, show (choice l cfg g initial i x).val = .num δ from hd]
      show F.round (.num (μ * δ)) = _
      simp only [Format.round]
      rw [if_neg]
      have h2 : F.fl ((1 : Int) * 2 ^ F.emax) = (1 : Int) * 2 ^ F.emax := by
        refine F.fl_repr 1 _ ?_ ?_
        · rw [abs_one]; exact one_le_pow₀ (by norm_num)
        · have := F.emin_le; have := F.le_emax; omega
      push_cast at h2
      rw [_root_.one_mul] at h2
      rw [not_lt]
      rcases le_abs.1 hover with h | h
      · have := F.fl_mono h
        rw [h2] at this
        exact this.trans (le_abs_self _)
      · have := F.fl_mono h
        rw [h2, F.fl_neg] at this
        exact this.trans (neg_le_abs _)
    obtain ⟨t, ht⟩ := hmul
    rintro ⟨q, hq⟩
    rw [val_div, ht, habs] at hq
    change F.round (.inf _) = _ at hq
    cases hq
  obtain ⟨k, hk⟩ : ∃ k, cfg.maxIterations = k + 1 := ⟨cfg.maxIterations - 1, by omega⟩
  have hlen : (firstSteps l cfg g initial).length = initial.length := by simp [firstSteps]
  have hex : ∃ s ∈ firstSteps l cfg g initial, ¬ Finite s := by
    refine ⟨_, ?_, hbad⟩
    obtain ⟨hi, rfl⟩ := List.getElem?_eq_some_iff.1 hx
    exact List.mem_iff_getElem.2 ⟨i, by omega, by simp [firstSteps]⟩
  have hall := moveAll_spreads (Bad := fun y : Flt F => ¬ Finite y) (fun x y h => not_finite_add_left h y) (fun x y h => not_finite_add x h)
    (fun x y h => not_finite_mul h y) (n := initial.length) (firstSteps l cfg g initial) (initState cfg initial.length).basis initial rfl
    (by simp [initState, hlen]) (first_bases_dim _) hex
  have hml := moveAll_length (n := initial.length) (firstSteps l cfg g initial) (initState cfg initial.length).basis initial rfl (first_bases_dim _)
  unfold find
  rw [hk]
  simp only [loop, Prog.eval_bind, first_iteration hs, Res.ok_bind]
  by_cases hexit : exitCriteria l cfg (moveAll (firstSteps l cfg g initial) (initState cfg initial.length).basis initial) initial = true
  · exact ⟨_, by simp [hexit], hml, hall⟩
  · rw [if_neg hexit]
    have hb := createNewBasis_shape l (n := initial.length) (firstSteps l cfg g initial) (first_bases_dim (cfg := cfg) _)
    obtain ⟨r, h1, h2, h3⟩ := find_returns l hn cfg g k
      ⟨createNewBasis l initial.length (firstSteps l cfg g initial) (initState cfg initial.length).basis, firstSteps l cfg g initial⟩
      (moveAll (firstSteps l cfg g initial) (initState cfg initial.length).basis initial)
      ⟨by rw [hml, hlen], by rw [hml]; exact hb.1, by rw [hml]; exact hb.2⟩ (by
        left
        intro s hs' hnan
        refine hexit ((exit_iff _ _ _ _).2 fun p hp => ?_)
        have := moveAll_spreads (Bad := fun y : Flt F => nan y) (fun x y h => IeeeArith.add_left _ h) (fun x y h => IeeeArith.add_right _ h)
          (fun x y h => IeeeArith.mul_left _ h) (n := initial.length) (firstSteps l cfg g initial) (initState cfg initial.length).basis initial rfl
          (by simp [initState, hlen]) (first_bases_dim _) ⟨s, hs', hnan⟩ _ (List.of_mem_zip hp).1
        exact IeeeOrder.not_lt_nan_right (hn _ (IeeeArith.sub_left _ this)))
    refine ⟨r, h1, by rw [h2, hml], fun y hy => ?_⟩
    obtain ⟨j, hj, rfl⟩ := List.mem_iff_getElem.1 hy
    have hj' : j < (moveAll (firstSteps l cfg g initial) (initState cfg initial.length).basis initial).length := by omega
    obtain ⟨z, hz, hzb⟩ := h3 (fun y => ¬ Finite y) (fun x y h => not_finite_add_left h y) j _ (List.getElem?_eq_getElem hj')
      (hall _ (List.getElem_mem hj'))
    rw [List.getElem?_eq_getElem hj] at hz
    cases hz
    exact hzb

/-! ### Steps that are too large or too small to go on -/

theorem sub_zero_mul {x y : Flt F} (hy : Finite y) : x - 0 * y = x := by rw [Flt.zero_mul hy, Flt.sub_zero]

/-- Where all products vanish, the new basis is the matrix. -/
theorem gs_fixed (hl : l.Good) {n : Nat} {Q : Flt F → Prop} (hfin : ∀ x, Q x → Finite x) (hmul : ∀ x y, Q x → Q y → x * y = 0) :
    ∀ (rows found : List (List (Flt F))), (∀ v ∈ found, ∀ x ∈ v, Q x) → (∀ v ∈ rows, ∀ x ∈ v, Q x) → (∀ v ∈ found, v.length = n) → (∀ v ∈ rows, v.length = n) →
      gramSchmidt l found rows = found ++ rows
  | [], found, _, _, _, _ => by simp [gramSchmidt]
  | row :: rows, found, hf, hr, hfl, hrl => by
    have hdot : ∀ (ps : List (Flt F × Flt F)), (∀ p ∈ ps, p.1 * p.2 = 0) → ps.foldl (fun s x => s + x.1 * x.2) 0 = 0 := by
      intro ps
      induction ps with
      | nil => simp
      | cons p ps ih =>
        intro h
        rw [List.foldl_cons, h p (by simp), Flt.add_zero]
        exact ih fun q hq => h q (by simp [hq])
    have horth : orthogonalize found row = row := by
      unfold orthogonalize
      have key : ∀ (fs : List (List (Flt F))), (∀ v ∈ fs, ∀ x ∈ v, Q x) → (∀ v ∈ fs, v.length = row.length) →
          fs.foldl (fun u e => List.zipWith (fun x y => x - dot row e * y) u e) row = row := by
        intro fs
        induction fs with
        | nil => simp
        | cons e fs ih =>
          intro h hlen
          rw [List.foldl_cons]
          have hd : dot row e = 0 := hdot _ fun p hp => hmul _ _ (hr row (by simp) _ (List.of_mem_zip hp).1) (h e (by simp) _ (List.of_mem_zip hp).2)
          have hz : List.zipWith (fun x y => x - dot row e * y) row e = row := by
            refine List.ext_getElem (by simp [hlen e (by simp)]) fun j h1 h2 => ?_
            have hj : j < e.length := by rw [hlen e (by simp)]; exact h2
            simp only [List.getElem_zipWith, hd]
            exact sub_zero_mul (hfin _ (h e (by simp) _ (List.getElem_mem hj)))
          rw [hz]
          exact ih (fun v hv => h v (by simp [hv])) (fun v hv => hlen v (by simp [hv]))
      exact key found hf (fun v hv => by rw [hfl v hv, hrl row (by simp)])
    have hnorm : normalize l row = row := by
      have hsq : row.foldl (fun s x => s + x * x) 0 = 0 := by
        have : ∀ (v : List (Flt F)), (∀ x ∈ v, x * x = 0) → v.foldl (fun s x => s + x * x) 0 = 0 := by
          intro v
          induction v with
          | nil => simp
          | cons x v ih =>
            intro h
            rw [List.foldl_cons, h x (by simp), Flt.add_zero]
            exact ih fun q hq => h q (by simp [hq])
        exact this row fun x hx => hmul _ _ (hr row (by simp) x hx) (hr row (by simp) x hx)
      unfold normalize
      simp only [hsq, hl.sqrt_zero]
      have hsame : Same (0 : Flt F) 0 := ⟨Flt.le_refl finite_zero.not_nan, Flt.le_refl finite_zero.not_nan⟩
      simp [hsame]
    rw [gramSchmidt, horth, hnorm, gs_fixed hl hfin hmul rows (found ++ [row])]
    · simp
    · intro v hv
      rcases List.mem_append.1 hv with hv | hv
      · exact hf v hv
      · rw [List.mem_singleton.1 hv]; exact hr row (by simp)
    · exact fun v hv => hr v (by simp [hv])
    · intro v hv
      rcases List.mem_append.1 hv with hv | hv
      · exact hfl v hv
      · rw [List.mem_singleton.1 hv]; exact hrl row (by simp)
    · exact fun v hv => hrl v (by simp [hv])

/-- Steps along a direction in which nothing moves. -/
theorem step_dead {a : Flt F} {d x : List (Flt F)} (h : ∀ b ∈ d, a * b = 0) (hlen : d.length = x.length) : stepPerCoordinate a d x = x := by
  refine List.ext_getElem (by simp [stepPerCoordinate, hlen]) fun j h1 h2 => ?_
  have hj : j < d.length := by omega
  simp only [stepPerCoordinate, List.getElem_zipWith]
  rw [h _ (List.getElem_mem hj), Flt.add_zero]

theorem moveAll_dead {x : List (Flt F)} : ∀ (steps : List (Flt F)) (basis : List (List (Flt F))), (∀ a ∈ steps, ∀ d ∈ basis, ∀ b ∈ d, a * b = 0) →
    (∀ d ∈ basis, d.length = x.length) → moveAll steps basis x = x
  | [], _, _, _ => by simp [moveAll]
  | _ :: _, [], _, _ => by simp [moveAll]
  | a :: steps, d :: basis, h, hlen => by
    rw [moveAll_cons, step_dead (h a (by simp) d (by simp)) (hlen d (by simp))]
    exact moveAll_dead steps basis (fun a ha d hd => h a (by simp [ha]) d (by simp [hd])) (fun d hd => hlen d (by simp [hd]))

theorem rowSum_eq (n : Nat) (steps : List (Flt F)) (basis : List (List (Flt F))) (j : Nat) :
    rowSum n steps basis j = moveAll (steps.drop j) (basis.drop j) (List.replicate n 0) := by
  unfold rowSum moveAll
  rw [List.zip, List.drop_zipWith]
  rfl

/-- Once all products of steps and basis entries vanish, the search stays where it is. -/
theorem dead_loop (hl : l.Good) {A B : Flt F → Prop} (hA : ∀ a, A a → Finite a) (hdec : ∀ a, A a → A (correctStep l cfg (a * l.decrease)))
    (hAB : ∀ a b, A a → B b → a * b = 0) (hB0 : B 0) {n : Nat} : ∀ (k : Nat) (s : State (Flt F)) (x : List (Flt F)), Shape n s → x.length = n →
    (∀ a ∈ s.steps, A a) → (∀ v ∈ s.basis, ∀ b ∈ v, B b) → (loop l cfg k s x).eval g = .ok x
  | 0, s, x, _, _, _, _ => by simp [loop]
  | k + 1, s, x, hs, hx, ha, hb => by
    obtain ⟨st, h1, h2⟩ := sort_ok (steps := s.steps) (.inl fun a h => Flt.le_refl (hA a (ha a h)).not_nan)
    have hst : ∀ a ∈ st, A a := fun a h => ha a (h2.mem_iff.1 h)
    have hnew : ∀ a ∈ List.zipWith (newStep l cfg g x) st s.basis, A a := by
      intro a h
      obtain ⟨i, hi, rfl⟩ := List.mem_iff_getElem.1 h
      simp only [List.getElem_zipWith]
      simp only [List.length_zipWith] at hi
      have m1 : st[i]'(by omega) ∈ st := List.getElem_mem _
      have m2 : s.basis[i]'(by omega) ∈ s.basis := List.getElem_mem _
      unfold newStep
      rw [step_dead (fun b hbb => hAB _ _ (hst _ m1) (hb _ m2 b hbb)) (by rw [hs.dim _ m2, hx]), if_neg (IeeeOrder.lt_irrefl _)]
      exact hdec _ (hst _ m1)
    have hmove : moveAll (List.zipWith (newStep l cfg g x) st s.basis) s.basis x = x :=
      moveAll_dead _ _ (fun a h d hd b hbb => hAB _ _ (hnew a h) (hb d hd b hbb)) (fun d hd => by rw [hs.dim d hd, hx])
    simp only [loop, Prog.eval_bind, makeStep_eval l cfg g s x st h1, Res.ok_bind, hmove]
    split
    · simp
    · have hrow : ∀ j, rowSum n (List.zipWith (newStep l cfg g x) st s.basis) s.basis j = List.replicate n 0 := by
        intro j
        rw [rowSum_eq]
        exact moveAll_dead _ _ (fun a h d hd b hbb => hAB _ _ (hnew a (List.mem_of_mem_drop h)) (hb d (List.mem_of_mem_drop hd) b hbb))
          (fun d hd => by rw [hs.dim d (List.mem_of_mem_drop hd)]; simp)
      have hmat : ∀ v ∈ matrixOfCoeff n (List.zipWith (newStep l cfg g x) st s.basis) s.basis, v = List.replicate n 0 := by
        intro v hv
        obtain ⟨j, _, rfl⟩ := List.mem_map.1 hv
        exact hrow j
      have hbasis : createNewBasis l n (List.zipWith (newStep l cfg g x) st s.basis) s.basis =
          matrixOfCoeff n (List.zipWith (newStep l cfg g x) st s.basis) s.basis := by
        unfold createNewBasis
        rw [gs_fixed hl (n := n) (Q := fun x => x = 0) (by rintro x rfl; exact finite_zero) (by rintro x y rfl rfl; exact Flt.mul_zero finite_zero) _ _
          (by simp) (fun v hv x hx => by rw [hmat v hv] at hx; exact List.eq_of_mem_replicate hx) (by simp)
          (fun v hv => by rw [hmat v hv]; simp)]
        simp
      have hshape := createNewBasis_shape l (n := n) (List.zipWith (newStep l cfg g x) st s.basis) hs.dim
      refine dead_loop hl hA hdec hAB hB0 k _ x ⟨by simp [h2.length_eq, hs.steps, hs.basis], by rw [hx]; exact hshape.1, by rw [hx]; exact hshape.2⟩ hx hnew ?_
      intro v hv b hbb
      simp only [hx] at hv
      rw [hbasis] at hv
      rw [hmat v hv] at hbb
      rw [List.eq_of_mem_replicate hbb]
      exact hB0

/-- The rows of the first matrix: zeros up to the diagonal, then the steps. -/
theorem first_rows {n : Nat} (ds : List (Flt F)) (hn : ds.length = n) (hfin : ∀ d ∈ ds, Finite d) (j : Nat) :
    (∀ x ∈ rowSum n ds (initState cfg n).basis j, x = 0 ∨ x ∈ ds) ∧ ∀ d, ds[j]? = some d → d ∈ rowSum n ds (initState cfg n).basis j := by
  have hlen := rowSum_length (n := n) (steps := ds) (first_bases_dim (cfg := cfg) n) j
  have hentry : ∀ k, k < n → (rowSum n ds (initState cfg n).basis j)[k]? = some (match (if j ≤ k then ds[k]? else none) with
      | some d => d
      | none => 0) := by
    intro k hk
    rw [rowSum_eq, basis_eq]
    by_cases hj : j ≤ n
    · have e : List.drop j ((List.range' 0 n).map (unit n)) = (List.range' j (ds.drop j).length).map (unit n : Nat → List (Flt F)) := by
        rw [← List.map_drop, List.drop_range']
        simp [hn]
      rw [e, move_units (n := n) (ds.drop j) j _ (by simp) (by simp [hn]; omega) (fun d hd => hfin d (List.mem_of_mem_drop hd)) k 0 (by simp [hk])]
      congr 1
      by_cases hjk : j ≤ k
      · rw [if_pos hjk, if_pos hjk, List.getElem?_drop, show j + (k - j) = k by omega]
        split <;> simp_all [zero_add]
      · rw [if_neg hjk, if_neg hjk]
    · rw [List.drop_eq_nil_of_le (by omega)]
      simp [moveAll, hk, show ¬ j ≤ k by omega]
  refine ⟨fun x hx => ?_, fun d hd => ?_⟩
  · obtain ⟨k, hk, rfl⟩ := List.mem_iff_getElem.1 hx
    have := hentry k (by omega)
    rw [List.getElem?_eq_getElem hk] at this
    rw [Option.some.inj this]
    by_cases hjk : j ≤ k
    · rw [if_pos hjk]
      split
      · next d hd => right; exact List.mem_of_getElem? hd
      · left; rfl
    · rw [if_neg hjk]; left; rfl
  · have hj : j < n := by rw [← hn]; exact (List.getElem?_eq_some_iff.1 hd).1
    have := hentry j hj
    rw [if_pos (_root_.le_refl j), hd] at this
    exact List.mem_of_getElem? this

/-- A run whose first iteration leads to a state where nothing moves any more. -/
theorem dead_find (hl : l.Good) (hlim : 1 ≤ cfg.maxIterations) (hs : Finite cfg.firstStep) (initial : List (Flt F)) {A B : Flt F → Prop}
    (hA : ∀ a, A a → Finite a) (hdec : ∀ a, A a → A (correctStep l cfg (a * l.decrease))) (hAB : ∀ a b, A a → B b → a * b = 0) (hB0 : B 0)
    (hfirst : ∀ a ∈ firstSteps l cfg g initial, A a)
    (hbasis : ∀ v ∈ createNewBasis l initial.length (firstSteps l cfg g initial) (initState cfg initial.length).basis, ∀ b ∈ v, B b) :
    (find l cfg initial).eval g = .ok (List.zipWith (· + ·) initial (firstSteps l cfg g initial)) := by
  obtain ⟨k, hk⟩ : ∃ k, cfg.maxIterations = k + 1 := ⟨cfg.maxIterations - 1, by omega⟩
  have hlen : (firstSteps l cfg g initial).length = initial.length := by simp [firstSteps]
  unfold find
  rw [hk]
  simp only [loop, Prog.eval_bind, first_iteration hs, Res.ok_bind, first_point initial (fun d hd => hA d (hfirst d hd))]
  split
  · simp
  · have hb := createNewBasis_shape l (n := initial.length) (firstSteps l cfg g initial) (first_bases_dim (cfg := cfg) _)
    exact dead_loop hl hA hdec hAB hB0 k _ _ ⟨hlen, hb.1, hb.2⟩ (by simp [hlen]) hfirst hbasis

/-- What the two choices are worth. -/
theorem choice_cases (l : Lib (Flt F)) (cfg : Config (Flt F)) (g : List (Flt F) → Flt F) (initial : List (Flt F)) (i : Nat) (x : Flt F) :
    choice l cfg g initial i x = cfg.firstStep * l.increase ∨ choice l cfg g initial i x = cfg.firstStep * l.decrease := by
  unfold choice
  split
  · exact .inl rfl
  · exact .inr rfl

theorem fl_abs (q : ℚ) : |F.fl q| = F.fl |q| := by
  rcases le_total 0 q with h | h
  · rw [abs_of_nonneg h, abs_of_nonneg]
    have := F.fl_mono h
    rwa [F.fl_zero] at this
  · rw [abs_of_nonpos h, F.fl_neg, abs_of_nonpos]
    have := F.fl_mono h
    rwa [F.fl_zero] at this

theorem fl_abs_le {q b : ℚ} (hb : F.fl b = b) (h : |q| ≤ b) : |F.fl q| ≤ b := by
  rw [fl_abs]
  have := F.fl_mono h
  rwa [hb] at this

theorem decrease_val (hl : l.Good) {a : Flt F} {q : ℚ} (ha : a.val = .num q) :
    (a * l.decrease).val = .num (F.fl (q * (-1 / 2))) ∧ |F.fl (q * (-1 / 2))| ≤ |q| := by
  obtain ⟨r1, r2⟩ := Finite.repr ha
  have h2 : |F.fl (q * (-1 / 2))| ≤ |q| := by
    refine fl_abs_le (by rw [← fl_abs, r1]) ?_
    rw [abs_mul, show |(-1 / 2 : ℚ)| = 1 / 2 by norm_num]
    linarith [abs_nonneg q]
  refine ⟨?_, h2⟩
  rw [val_mul, ha, hl.decrease]
  show F.round (.num (q * (-1 / 2))) = _
  simp only [Format.round]
  rw [if_pos (lt_of_le_of_lt h2 r2)]

theorem num_le_of {a b : Flt F} {q r : ℚ} (ha : a.val = .num q) (hb : b.val = .num r) (h : q ≤ r) : a ≤ b := by
  rw [Flt.le_iff, ha, hb]
  exact Dbl.num_le.2 h

/-- Decreased steps need no correction. -/
theorem decrease_keeps (hl : l.Good) {a : Flt F} (ha : Finite a) (hm : l.abs a ≤ cfg.maxStep) :
    correctStep l cfg (a * l.decrease) = a * l.decrease ∧ l.abs (a * l.decrease) ≤ cfg.maxStep := by
  obtain ⟨q, hq⟩ := ha
  obtain ⟨h1, h2⟩ := decrease_val hl hq
  have : l.abs (a * l.decrease) ≤ cfg.maxStep := Flt.le_trans (num_le_of (hl.abs_num _ _ h1) (hl.abs_num _ _ hq) h2) hm
  exact ⟨if_neg (Flt.not_lt_of_le this), this⟩

theorem first_uncorrected (hl : l.Good) (hs : Finite cfg.firstStep) (hfin : Finite (cfg.firstStep * l.increase))
    (hmax : l.abs (cfg.firstStep * l.increase) ≤ cfg.maxStep) (initial : List (Flt F)) (i : Nat) (x : Flt F) :
    correctStep l cfg (choice l cfg g initial i x) = choice l cfg g initial i x ∧ Finite (choice l cfg g initial i x) ∧
      l.abs (choice l cfg g initial i x) ≤ cfg.maxStep := by
  obtain ⟨σ, hσ⟩ := hs
  have hle : l.abs (cfg.firstStep * l.decrease) ≤ l.abs (cfg.firstStep * l.increase) := by
    obtain ⟨q, hq⟩ := hfin
    have hq' := hq
    rw [val_mul, hσ, hl.increase] at hq'
    change F.round (.num (σ * (3 / 2))) = _ at hq'
    simp only [Format.round] at hq'
    split_ifs at hq'
    have e := Dbl.num.inj hq'
    obtain ⟨h1, _⟩ := decrease_val hl hσ
    refine num_le_of (hl.abs_num _ _ h1) (hl.abs_num _ _ hq) ?_
    rw [← e, fl_abs, fl_abs]
    refine F.fl_mono ?_
    rw [abs_mul, abs_mul, show |(-1 / 2 : ℚ)| = 1 / 2 by norm_num, show |(3 / 2 : ℚ)| = 3 / 2 by norm_num]
    linarith [abs_nonneg σ]
  have key : l.abs (choice l cfg g initial i x) ≤ cfg.maxStep ∧ Finite (choice l cfg g initial i x) := by
    rcases choice_cases l cfg g initial i x with e | e <;> rw [e]
    · exact ⟨hmax, hfin⟩
    · exact ⟨Flt.le_trans hle hmax, ⟨_, (decrease_val hl hσ).1⟩⟩
  exact ⟨if_neg (Flt.not_lt_of_le key.1), key.2, key.1⟩

theorem firstSteps_uncorrected (hl : l.Good) (hs : Finite cfg.firstStep) (hfin : Finite (cfg.firstStep * l.increase))
    (hmax : l.abs (cfg.firstStep * l.increase) ≤ cfg.maxStep) (initial : List (Flt F)) :
    firstSteps l cfg g initial = initial.mapIdx fun i x => choice l cfg g initial i x := by
  unfold firstSteps
  congr 1
  funext i x
  exact (first_uncorrected hl hs hfin hmax initial i x).1

theorem zipWith_first (initial : List (Flt F)) (f : Nat → Flt F → Flt F) {i : Nat} {x : Flt F} (hx : initial[i]? = some x) :
    (List.zipWith (· + ·) initial (initial.mapIdx f))[i]? = some (x + f i x) := by
  simp [List.getElem?_zipWith, hx]

theorem tiny_mul {a b : Flt F} {q r τ : ℚ} (ha : a.val = .num q) (hb : b.val = .num r) (h1 : |q| ≤ τ) (h2 : |r| ≤ τ) (hτ : τ ^ 2 < 2 ^ (F.emin - 1)) :
    a * b = 0 := by
  refine ext ?_
  rw [val_mul, ha, hb, val_zero]
  show F.round (.num (q * r)) = .num 0
  have hqr : |q * r| < 2 ^ (F.emin - 1) := by
    rw [abs_mul]
    refine lt_of_le_of_lt (mul_le_mul h1 h2 (abs_nonneg _) (le_trans (abs_nonneg _) h1)) ?_
    rwa [← pow_two]
  have hu := zpow_pos Nearest.two_pos F.emin
  have e2 : (2 : ℚ) ^ (F.emin - 1) = 2 ^ F.emin / 2 := by rw [zpow_sub₀ (by norm_num), zpow_one]
  have hleast : (2 : ℚ) ^ (F.emin - 1) ≤ F.least := by
    unfold Format.least
    exact zpow_le_zpow_right₀ (by norm_num) (by have := F.two_le_p; omega)
  have : F.fl (q * r) = ((0 : Int) : ℚ) * 2 ^ F.emin := by
    refine fl_subnormal (lt_of_lt_of_le hqr hleast) ?_
    rw [Int.cast_zero, _root_.sub_zero, abs_div, abs_of_pos hu, div_lt_iff₀ hu]
    rw [e2] at hqr
    linarith
  simp only [Format.round]
  rw [this]
  simp only [Int.cast_zero]
  rw [MulZeroClass.zero_mul, abs_zero, if_pos (zpow_pos Nearest.two_pos _)]

/-- **C115 (small steps).** With a first step so small that squares of steps underflow (below `2^-539` in `double`), the search makes one iteration,
whatever the limit, the precision and the function: coordinate `i` is moved by 1.5 times the first step if a step along it improves the value, otherwise
by -0.5 times. -/
theorem C115_small (hl : l.Good) (hlim : 1 ≤ cfg.maxIterations) {σ : ℚ} (hs : cfg.firstStep.val = .num σ) (hsmall : (2 * σ) ^ 2 < 2 ^ (F.emin - 1))
    (hmax : l.abs (cfg.firstStep * l.increase) ≤ cfg.maxStep) (initial : List (Flt F)) :
    ∃ r, (find l cfg initial).eval g = .ok r ∧ r.length = initial.length ∧ ∀ i x, initial[i]? = some x →
      r[i]? = some (x + if g (initial.set i (x + cfg.firstStep)) < g initial then cfg.firstStep * l.increase else cfg.firstStep * l.decrease) := by
  obtain ⟨r1, r2⟩ := Finite.repr hs
  have h2σ : F.fl (2 * |σ|) = 2 * |σ| := by
    obtain ⟨N, k, hN, hk, e⟩ := F.fl_form σ
    rw [r1] at e
    have := F.fl_repr |N| (k + 1) (by rwa [abs_abs]) (by omega)
    have e' : ((|N| : Int) : ℚ) * 2 ^ (k + 1) = 2 * |σ| := by
      rw [e, abs_mul, abs_of_pos (zpow_pos Nearest.two_pos k), zpow_add₀ (by norm_num), zpow_one]
      push_cast
      ring
    rwa [e'] at this
  have hτ : (2 * |σ|) ^ 2 < 2 ^ (F.emin - 1) := by rw [mul_pow, sq_abs, ← mul_pow]; exact hsmall
  have hlt : 2 * |σ| < 2 ^ F.emax := by
    by_contra hcon
    rw [not_lt] at hcon
    have h1 : (1 : ℚ) < 2 ^ F.emax := one_lt_zpow₀ (by norm_num) (by have := F.le_emax; omega)
    have h2 : (2 : ℚ) ^ (F.emin - 1) < 1 := zpow_lt_one_of_neg₀ (by norm_num) (by have := F.emin_le; omega)
    nlinarith
  have hinc : (cfg.firstStep * l.increase).val = .num (F.fl (σ * (3 / 2))) ∧ |F.fl (σ * (3 / 2))| ≤ 2 * |σ| := by
    have h2 : |F.fl (σ * (3 / 2))| ≤ 2 * |σ| := by
      refine fl_abs_le h2σ ?_
      rw [abs_mul, show |(3 / 2 : ℚ)| = 3 / 2 by norm_num]
      linarith [abs_nonneg σ]
    refine ⟨?_, h2⟩
    rw [val_mul, hs, hl.increase]
    show F.round (.num (σ * (3 / 2))) = _
    simp only [Format.round]
    rw [if_pos (lt_of_le_of_lt h2 hlt)]
  have hfin : Finite (cfg.firstStep * l.increase) := ⟨_, hinc.1⟩
  have hchoice : ∀ i x, ∃ q, (choice l cfg g initial i x).val = .num q ∧ |q| ≤ 2 * |σ| := by
    intro i x
    rcases choice_cases l cfg g initial i x with e | e <;> rw [e]
    · exact ⟨_, hinc⟩
    · obtain ⟨d1, d2⟩ := decrease_val hl hs
      exact ⟨_, d1, by linarith [abs_nonneg σ]⟩
  have hfs := firstSteps_uncorrected (g := g) hl ⟨_, hs⟩ hfin hmax initial
  have hmem : ∀ a ∈ firstSteps l cfg g initial, (∃ q, a.val = .num q ∧ |q| ≤ 2 * |σ|) ∧ l.abs a ≤ cfg.maxStep := by
    intro a ha
    rw [hfs] at ha
    obtain ⟨i, hi, rfl⟩ := List.mem_iff_getElem.1 ha
    rw [List.getElem_mapIdx]
    exact ⟨hchoice _ _, (first_uncorrected hl ⟨_, hs⟩ hfin hmax initial _ _).2.2⟩
  have hdead := dead_find (g := g) hl hlim ⟨_, hs⟩ initial (A := fun a => (∃ q, a.val = .num q ∧ |q| ≤ 2 * |σ|) ∧ l.abs a ≤ cfg.maxStep)
    (B := fun b => ∃ q, b.val = .num q ∧ |q| ≤ 2 * |σ|) (fun a ha => ⟨_, ha.1.choose_spec.1⟩)
    (by
      rintro a ⟨⟨q, hq, hq2⟩, ham⟩
      obtain ⟨d1, d2⟩ := decrease_keeps hl ⟨q, hq⟩ ham
      obtain ⟨e1, e2⟩ := decrease_val hl hq
      rw [d1]
      exact ⟨⟨_, e1, e2.trans hq2⟩, d2⟩)
    (by
      rintro a b ⟨⟨q, hq, hq2⟩, _⟩ ⟨r, hr, hr2⟩
      exact tiny_mul hq hr hq2 hr2 hτ)
    ⟨0, val_zero, by rw [abs_zero]; positivity⟩ hmem
    (by
      have hrows : ∀ v ∈ matrixOfCoeff initial.length (firstSteps l cfg g initial) (initState cfg initial.length).basis, ∀ x ∈ v,
          ∃ q, x.val = .num q ∧ |q| ≤ 2 * |σ| := by
        intro v hv x hx
        obtain ⟨j, _, rfl⟩ := List.mem_map.1 hv
        rcases (first_rows (cfg := cfg) (n := initial.length) (firstSteps l cfg g initial) (by simp [firstSteps])
          (fun d hd => ⟨_, (hmem d hd).1.choose_spec.1⟩) j).1 x hx with rfl | h
        · exact ⟨0, val_zero, by rw [abs_zero]; positivity⟩
        · exact (hmem x h).1
      have hdim : ∀ v ∈ matrixOfCoeff initial.length (firstSteps l cfg g initial) (initState cfg initial.length).basis, v.length = initial.length := by
        intro v hv
        obtain ⟨j, _, rfl⟩ := List.mem_map.1 hv
        exact rowSum_length (first_bases_dim _) j
      unfold createNewBasis
      rw [gs_fixed hl (n := initial.length) (Q := fun x => ∃ q, x.val = .num q ∧ |q| ≤ 2 * |σ|) (fun x hx => ⟨_, hx.choose_spec.1⟩)
        (by rintro x y ⟨q, hq, hq2⟩ ⟨r, hr, hr2⟩; exact tiny_mul hq hr hq2 hr2 hτ) _ _ (by simp) hrows (by simp) hdim]
      simpa using hrows)
  refine ⟨_, hdead, by simp [firstSteps], fun i x hx => ?_⟩
  rw [hfs, zipWith_first initial _ hx]
  rfl

/-- A sum of squares. -/
def NotNeg (a : Flt F) : Prop := a.val = .inf false ∨ ∃ q, a.val = .num q ∧ 0 ≤ q

theorem round_notNeg {q : ℚ} (h : 0 ≤ q) : F.round (.num q) = .inf false ∨ ∃ r, F.round (.num q) = .num r ∧ 0 ≤ r := by
  simp only [Format.round]
  split_ifs
  · right
    refine ⟨_, rfl, ?_⟩
    have := F.fl_mono h
    rwa [F.fl_zero] at this
  · left
    rw [decide_eq_false (not_lt.2 h)]

theorem square_notNeg {x : Flt F} (hx : Finite x) : NotNeg (x * x) := by
  obtain ⟨q, hq⟩ := hx
  unfold NotNeg
  rw [val_mul, hq]
  exact round_notNeg (mul_self_nonneg q)

theorem add_notNeg {a b : Flt F} (ha : NotNeg a) (hb : NotNeg b) : NotNeg (a + b) ∧ (a.val = .inf false ∨ b.val = .inf false → (a + b).val = .inf false) := by
  have hinf : a.val = .inf false ∨ b.val = .inf false → (a + b).val = .inf false := by
    rintro (h | h)
    · rcases hb with hb | ⟨r, hb, _⟩
      · rw [val_add, h, hb]; rfl
      · rw [val_add, h, hb]; rfl
    · rcases ha with ha | ⟨r, ha, _⟩
      · rw [val_add, h, ha]; rfl
      · rw [val_add, h, ha]; rfl
  refine ⟨?_, hinf⟩
  rcases ha with ha | ⟨q, ha, hq⟩
  · exact .inl (hinf (.inl ha))
  · rcases hb with hb | ⟨r, hb, hr⟩
    · exact .inl (hinf (.inr hb))
    · unfold NotNeg
      rw [val_add, ha, hb]
      exact round_notNeg (add_nonneg hq hr)

theorem squares_inf : ∀ (v : List (Flt F)) (acc : Flt F), NotNeg acc → (∀ x ∈ v, Finite x) → (acc.val = .inf false ∨ ∃ x ∈ v, (x * x).val = .inf false) →
    (v.foldl (fun s x => s + x * x) acc).val = .inf false
  | [], acc, _, _, h => by simpa using h
  | x :: v, acc, ha, hf, h => by
    rw [List.foldl_cons]
    obtain ⟨h1, h2⟩ := add_notNeg ha (square_notNeg (hf x (by simp)))
    refine squares_inf v _ h1 (fun y hy => hf y (by simp [hy])) ?_
    rcases h with h | ⟨y, hy, h⟩
    · exact .inl (h2 (.inl h))
    · rcases List.mem_cons.1 hy with rfl | hy
      · exact .inl (h2 (.inr h))
      · exact .inr ⟨y, hy, h⟩

theorem div_inf {x a : Flt F} {t : Bool} (hx : Finite x) (ha : a.val = .inf t) : x / a = 0 := by
  obtain ⟨q, hq⟩ := hx
  refine ext ?_
  rw [val_div, hq, ha, val_zero]
  show F.round (.num 0) = .num 0
  rw [← val_zero (F := F), round_val]

/-- Where all sums of squares overflow, the new basis vanishes. -/
theorem gs_vanishes (hl : l.Good) {n : Nat} : ∀ (rows found : List (List (Flt F))), (∀ v ∈ found, v = List.replicate n 0) → (∀ v ∈ rows, v.length = n) →
    (∀ v ∈ rows, (∀ x ∈ v, Finite x) ∧ ∃ x ∈ v, (x * x).val = .inf false) → ∀ v ∈ gramSchmidt l found rows, v = List.replicate n 0
  | [], found, hf, _, _ => by simpa [gramSchmidt] using hf
  | row :: rows, found, hf, hrl, hr => by
    obtain ⟨hfin, hex⟩ := hr row (by simp)
    have hdot : ∀ (v w : List (Flt F)), (∀ x ∈ v, Finite x) → (∀ y ∈ w, y = 0) → dot v w = 0 := by
      intro v w hv hw
      unfold dot
      have : ∀ (ps : List (Flt F × Flt F)), (∀ p ∈ ps, p.1 * p.2 = 0) → ps.foldl (fun s x => s + x.1 * x.2) 0 = 0 := by
        intro ps
        induction ps with
        | nil => simp
        | cons p ps ih =>
          intro h
          rw [List.foldl_cons, h p (by simp), Flt.add_zero]
          exact ih fun q hq => h q (by simp [hq])
      refine this _ fun p hp => ?_
      rw [hw _ (List.of_mem_zip hp).2]
      exact Flt.mul_zero (hv _ (List.of_mem_zip hp).1)
    have horth : orthogonalize found row = row := by
      unfold orthogonalize
      have key : ∀ (fs : List (List (Flt F))), (∀ v ∈ fs, v = List.replicate n 0) →
          fs.foldl (fun u e => List.zipWith (fun x y => x - dot row e * y) u e) row = row := by
        intro fs
        induction fs with
        | nil => simp
        | cons e fs ih =>
          intro h
          rw [List.foldl_cons]
          have he := h e (by simp)
          have hd : dot row e = 0 := hdot row e hfin (fun y hy => by rw [he] at hy; exact List.eq_of_mem_replicate hy)
          have hz : List.zipWith (fun x y => x - dot row e * y) row e = row := by
            refine List.ext_getElem (by simp [he, hrl row (by simp)]) fun j h1 h2 => ?_
            have hej : e[j]'(by simp only [List.length_zipWith] at h1; omega) = 0 := by simp [he]
            rw [List.getElem_zipWith, hej]
            exact (congrArg (fun c => row[j] - c * 0) hd).trans (sub_zero_mul finite_zero)
          rw [hz]
          exact ih (fun v hv => h v (by simp [hv]))
      exact key found hf
    have hnorm : normalize l row = List.replicate n 0 := by
      have hsq := squares_inf row 0 (.inr ⟨0, val_zero, _root_.le_refl _⟩) hfin (.inr hex)
      have hsqrt := hl.sqrt_inf _ hsq
      have hsame : ¬ Same (l.sqrt (row.foldl (fun s x => s + x * x) 0)) 0 := by
        rintro ⟨h, _⟩
        rw [Flt.le_iff, hsqrt, val_zero] at h
        exact absurd h (by decide)
      unfold normalize
      simp only [hsame, not_false_eq_true, if_true]
      refine List.ext_getElem (by simp [hrl row (by simp)]) fun j h1 h2 => ?_
      rw [List.getElem_map, List.getElem_replicate]
      exact div_inf (hfin _ (List.getElem_mem _)) hsqrt
    rw [gramSchmidt, horth, hnorm]
    refine gs_vanishes hl rows _ ?_ (fun v hv => hrl v (by simp [hv])) (fun v hv => hr v (by simp [hv]))
    intro v hv
    rcases List.mem_append.1 hv with hv | hv
    · exact hf v hv
    · exact List.mem_singleton.1 hv

/-- Squares of large numbers overflow. -/
theorem square_overflow {x : Flt F} {q : ℚ} (hx : x.val = .num q) (h : (2 : ℚ) ^ F.emax ≤ q ^ 2) : (x * x).val = .inf false := by
  rw [val_mul, hx]
  show F.round (.num (q * q)) = _
  have h2 : F.fl ((1 : Int) * 2 ^ F.emax) = (1 : Int) * 2 ^ F.emax := by
    refine F.fl_repr 1 _ ?_ ?_
    · rw [abs_one]; exact one_le_pow₀ (by norm_num)
    · have := F.emin_le; have := F.le_emax; omega
  push_cast at h2
  rw [_root_.one_mul] at h2
  simp only [Format.round]
  rw [if_neg, decide_eq_false (not_lt.2 (mul_self_nonneg q))]
  rw [not_lt]
  rw [pow_two] at h
  have := F.fl_mono h
  rw [h2] at this
  exact this.trans (le_abs_self _)

/-- **C115 (large steps).** With a first step so large that squares of steps overflow (from `2^514` on in `double`), the search makes one iteration as well:
the new directions are all zero. -/
theorem C115_large (hl : l.Good) (hlim : 1 ≤ cfg.maxIterations) {σ : ℚ} (hs : cfg.firstStep.val = .num σ) (hlarge : 2 ^ F.emax ≤ (σ / 4) ^ 2)
    (hfin : Finite (cfg.firstStep * l.increase)) (hmax : l.abs (cfg.firstStep * l.increase) ≤ cfg.maxStep) (initial : List (Flt F)) :
    ∃ r, (find l cfg initial).eval g = .ok r ∧ r.length = initial.length ∧ ∀ i x, initial[i]? = some x →
      r[i]? = some (x + if g (initial.set i (x + cfg.firstStep)) < g initial then cfg.firstStep * l.increase else cfg.firstStep * l.decrease) := by
  have h1 : (1 : ℚ) < 2 ^ F.emax := one_lt_zpow₀ (by norm_num) (by have := F.le_emax; omega)
  have h4 : 1 ≤ |σ| / 4 := by
    have e : (|σ| / 4) ^ 2 = (σ / 4) ^ 2 := by rw [div_pow, sq_abs, ← div_pow]
    have := abs_nonneg σ
    by_contra hcon
    rw [not_le] at hcon
    nlinarith
  have hbig : ∀ r : ℚ, 1 / 2 ≤ |r| → 2 ^ F.emax ≤ F.fl (σ * r) ^ 2 := by
    intro r hr
    have h5 : |σ| / 4 ≤ |F.fl (σ * r)| := by
      rw [fl_abs, abs_mul]
      have h6 : |σ| / 2 ≤ |σ| * |r| := by nlinarith [abs_nonneg σ]
      have h7 := fl_ge (F := F) (q := |σ| * |r|) (by linarith)
      linarith
    calc (2 : ℚ) ^ F.emax ≤ (σ / 4) ^ 2 := hlarge
      _ = (|σ| / 4) ^ 2 := by rw [div_pow, div_pow, sq_abs]
      _ ≤ |F.fl (σ * r)| ^ 2 := pow_le_pow_left₀ (by linarith) h5 2
      _ = F.fl (σ * r) ^ 2 := sq_abs _
  have hchoice : ∀ i x, (choice l cfg g initial i x * choice l cfg g initial i x).val = .inf false := by
    intro i x
    rcases choice_cases l cfg g initial i x with e | e <;> rw [e]
    · obtain ⟨q, hq⟩ := hfin
      refine square_overflow hq ?_
      rw [val_mul, hs, hl.increase] at hq
      change F.round (.num (σ * (3 / 2))) = _ at hq
      simp only [Format.round] at hq
      split_ifs at hq
      rw [← Dbl.num.inj hq]
      exact hbig _ (by rw [abs_of_pos] <;> norm_num)
    · exact square_overflow (decrease_val hl hs).1 (hbig _ (by rw [show |(-1 / 2 : ℚ)| = 1 / 2 by norm_num]))
  have hfs := firstSteps_uncorrected (g := g) hl ⟨_, hs⟩ hfin hmax initial
  have hmem : ∀ a ∈ firstSteps l cfg g initial, Finite a ∧ l.abs a ≤ cfg.maxStep := by
    intro a ha
    rw [hfs] at ha
    obtain ⟨i, hi, rfl⟩ := List.mem_iff_getElem.1 ha
    rw [List.getElem_mapIdx]
    exact (first_uncorrected hl ⟨_, hs⟩ hfin hmax initial _ _).2
  have hdead := dead_find (g := g) hl hlim ⟨_, hs⟩ initial (A := fun a => Finite a ∧ l.abs a ≤ cfg.maxStep) (B := fun b => b = 0) (fun a ha => ha.1)
    (by
      rintro a ⟨ha, ham⟩
      obtain ⟨d1, d2⟩ := decrease_keeps hl ha ham
      rw [d1]
      exact ⟨⟨_, (decrease_val hl ha.choose_spec).1⟩, d2⟩)
    (by rintro a b ⟨ha, _⟩ rfl; exact Flt.mul_zero ha) rfl hmem
    (by
      intro v hv b hb
      have := gs_vanishes hl (n := initial.length) (matrixOfCoeff initial.length (firstSteps l cfg g initial) (initState cfg initial.length).basis) []
        (by simp) (by
          intro v hv
          obtain ⟨j, _, rfl⟩ := List.mem_map.1 hv
          exact rowSum_length (first_bases_dim _) j)
        (by
          intro v hv
          obtain ⟨j, hj, rfl⟩ := List.mem_map.1 hv
          rw [List.mem_range] at hj
          obtain ⟨f1, f2⟩ := first_rows (cfg := cfg) (n := initial.length) (firstSteps l cfg g initial) (by simp [firstSteps]) (fun d hd => (hmem d hd).1) j
          refine ⟨fun x hx => ?_, choice l cfg g initial j initial[j], f2 _ (by rw [hfs]; simp [hj]), hchoice _ _⟩
          rcases f1 x hx with rfl | h
          · exact finite_zero
          · exact (hmem x h).1) v hv
      rw [this] at hb
      exact List.eq_of_mem_replicate hb)
  refine ⟨_, hdead, by simp [firstSteps], fun i x hx => ?_⟩
  rw [hfs, zipWith_first initial _ hx]
  rfl

end Float

end K52.IeeeRosenbrock
