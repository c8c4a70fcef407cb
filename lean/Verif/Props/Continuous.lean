import Verif.Lemmas.Continuous
import Mathlib.Algebra.Order.Ring.Rat
import Mathlib.Tactic.NormNum

/-! # C47: a continuous optimizer leaves the optimum in the parameters; C62: continuous parameters -/

set_option linter.unusedSectionVars false

namespace K52.CParams
variable {R : Type}

theorem assign_eq : ∀ (old vs : List R), vs.length = old.length → assign old vs = vs
  | [], [], _ => rfl
  | _ :: old, v :: vs, h => by simp only [assign, assign_eq old vs (by simpa using h)]
  | [], _ :: _, h => by simp at h
  | _ :: _, [], h => by simp at h

theorem setValues_ok {p : CParams R} {vs : List R} (h : vs.length = p.values.length) :
    p.setValues vs = ({ p with values := vs }, .ok ()) := by
  simp only [setValues, h, ne_eq, not_true_eq_false, if_false, assign_eq _ _ h]

/-- **C62.** Values of the right number are stored exactly and nothing else changes; a wrong number is rejected and the object is left
as it was; a clone has the same values and constraints; the two constructors give the values passed and zeros, without constraints. -/
theorem C62_continuous_parameters [Zero R] (p : CParams R) (vs : List R) (n : Nat) :
    (vs.length = p.values.length →
      (p.setValues vs).2 = .ok () ∧ (p.setValues vs).1.getValues = vs ∧ (p.setValues vs).1.ok = p.ok) ∧
    (vs.length ≠ p.values.length → (p.setValues vs).2.threw ∧ (p.setValues vs).1 = p) ∧
    p.clone.getValues = p.getValues ∧ p.clone.ok = p.ok ∧
    (ofValues vs).getValues = vs ∧ (ofSize (R := R) n).getValues = List.replicate n 0 ∧
    ∀ x, (ofValues vs).ok x = true ∧ (ofSize (R := R) n).ok x = true := by
  refine ⟨fun h => ?_, fun h => ?_, rfl, rfl, rfl, rfl, fun _ => ⟨rfl, rfl⟩⟩
  · rw [setValues_ok h]; exact ⟨rfl, rfl, rfl⟩
  · simp only [setValues, h, ne_eq, not_false_eq_true, if_true]; exact ⟨trivial, trivial⟩

example : ((ofValues [1, 2, 3]).setValues [4, 5, 6]).1.getValues = [4, 5, 6] ∧
    ((ofValues [1, 2, 3]).setValues [4, 5]).1.getValues = [1, 2, 3] := by decide

end K52.CParams

namespace K52.ContinuousOptimizer
variable {R α : Type} [Field R]

/-- The function an algorithm minimizes: the user's, or its negation when the maximum is wanted. -/
def target (maximize : Bool) (f : List R → R) (x : List R) : R := if maximize then -f x else f x

theorem signed_eq (maximize toMin : Bool) (f : List R → R) (x : List R) :
    signed maximize toMin (f x) = if toMin then target maximize f x else -target maximize f x := by
  cases maximize <;> cases toMin <;> simp [signed, target]

/-- A point at which the objective function may be evaluated. -/
def Admissible (p : CParams R) (x : List R) : Prop := x.length = p.values.length ∧ p.ok x = true

theorem count_admissible {f : List R → R} {p : CParams R} {x : List R} (h : Admissible p x) :
    count f p x = ({ p with values := x }, .ok (f x)) := by
  simp [count, CParams.setValues_ok h.1, h.2, CParams.getValues]

theorem count_inadmissible {f : List R → R} {p : CParams R} {x : List R} (h : ¬ Admissible p x) :
    ∃ q, count f p x = (q, .throw "logic_error") ∧ q = { p with values := x } ∧ x.length = p.values.length ∨
      count f p x = (q, .throw "invalid_argument") ∧ q = p := by
  by_cases hl : x.length = p.values.length
  · refine ⟨{ p with values := x }, Or.inl ⟨?_, rfl, hl⟩⟩
    have : p.ok x = false := by
      cases hp : p.ok x
      · rfl
      · exact absurd ⟨hl, hp⟩ h
    simp [count, CParams.setValues_ok hl, this]
  · refine ⟨p, Or.inr ⟨?_, rfl⟩⟩
    simp [count, CParams.setValues, hl]

theorem run_admissible (maximize : Bool) (f : List R → R) : ∀ (a : Prog R α) (p : CParams R),
    (∀ x ∈ a.trace (target maximize f), Admissible p x) →
    run maximize f a p = ({ p with values := ((a.trace (target maximize f)).getLast?).getD p.values }, a.eval (target maximize f))
  | .done r, p, _ => by simp [run]
  | .ask m x k, p, h => by
    have hx : Admissible p x := h x (by simp [Prog.trace])
    simp only [run, count_admissible hx, signed_eq, Prog.trace, Prog.eval]
    rw [run_admissible maximize f _ { p with values := x }]
    · simp only [Prod.mk.injEq, and_true, CParams.mk.injEq]
      rw [List.getLast?_cons]
      simp
    · intro y hy
      have := h y (by simp only [Prog.trace, List.mem_cons]; exact Or.inr hy)
      exact ⟨this.1.trans hx.1.symm, this.2⟩

/-- **C47 (the two ways to ask).** An algorithm that asks for the value to minimize gets the function when minimizing and its negation when
maximizing; one that asks for the value to maximize gets the opposite.  Either way the parameters hold the point afterwards. -/
theorem C47_both_signs (maximize : Bool) (f : List R → R) (p : CParams R) (x : List R) (h : Admissible p x) :
    run maximize f (Prog.askMin x) p = ({ p with values := x }, .ok (if maximize then -f x else f x)) ∧
    run maximize f (Prog.askMax x) p = ({ p with values := x }, .ok (if maximize then f x else -f x)) := by
  constructor <;> cases maximize <;> simp [Prog.askMin, Prog.askMax, run, count_admissible h, signed]

theorem run_ok_inv (maximize : Bool) (f : List R → R) : ∀ (a : Prog R α) (p q : CParams R) (v : α),
    run maximize f a p = (q, .ok v) → ∀ x ∈ a.trace (target maximize f), Admissible p x
  | .done _, _, _, _, _ => by simp
  | .ask m x k, p, q, v, h => by
    by_cases hx : Admissible p x
    · intro y hy
      simp only [Prog.trace, List.mem_cons] at hy
      rcases hy with rfl | hy
      · exact hx
      · simp only [run, count_admissible hx, signed_eq] at h
        have := run_ok_inv maximize f _ _ _ _ h y hy
        exact ⟨this.1.trans hx.1, this.2⟩
    · obtain ⟨q', (⟨e, _⟩ | ⟨e, _⟩)⟩ := count_inadmissible (f := f) hx <;> simp [run, e] at h

/-- **C47.** `Optimize` succeeds exactly when the algorithm finds a point of the right dimension for the function with the requested
sign, evaluating that function at admissible points only; then the parameters hold precisely that point (and nothing else of them
changed). -/
theorem C47_optimize (find : List R → Prog R (List R)) (maximize : Bool) (f : List R → R) (p : CParams R) :
    ((optimize find maximize f p).2 = .ok () ↔
      ∃ v, (find p.values).eval (target maximize f) = .ok v ∧ v.length = p.values.length ∧
        ∀ x ∈ (find p.values).trace (target maximize f), Admissible p x) ∧
    ((optimize find maximize f p).2 = .ok () →
      (find p.values).eval (target maximize f) = .ok (optimize find maximize f p).1.values ∧
      (optimize find maximize f p).1.ok = p.ok) := by
  by_cases h : ∀ x ∈ (find p.values).trace (target maximize f), Admissible p x
  · have hr := run_admissible maximize f (find p.values) p h
    set q : CParams R := { p with values := (((find p.values).trace (target maximize f)).getLast?).getD p.values } with hq
    have hlen : q.values.length = p.values.length := by
      rw [hq]
      simp only
      cases hg : ((find p.values).trace (target maximize f)).getLast? with
      | none => rfl
      | some y => exact (h y (List.mem_of_getLast? hg)).1
    simp only [optimize, CParams.getValues, hr]
    cases he : (find p.values).eval (target maximize f) with
    | throw w => simp
    | ub => simp
    | ok v =>
      simp only
      by_cases hv : v.length = p.values.length
      · rw [CParams.setValues_ok (hv.trans hlen.symm)]
        exact ⟨⟨fun _ => ⟨v, rfl, hv, h⟩, fun _ => rfl⟩, fun _ => ⟨rfl, rfl⟩⟩
      · have hv' : v.length ≠ q.values.length := by rw [hlen]; exact hv
        have e : q.setValues v = (q, .throw "invalid_argument") := by simp only [CParams.setValues, if_pos hv']
        rw [e]
        refine ⟨⟨fun c => by simp at c, ?_⟩, fun c => by simp at c⟩
        rintro ⟨v', e', l, _⟩
        simp only [Res.ok.injEq] at e'
        subst e'
        exact absurd l hv
  · have hn : (optimize find maximize f p).2 ≠ .ok () := by
      intro c
      simp only [optimize, CParams.getValues] at c
      rcases hr : run maximize f (find p.values) p with ⟨q, r⟩
      rw [hr] at c
      cases r with
      | ok v => exact h (run_ok_inv maximize f _ _ _ _ hr)
      | throw w => simp at c
      | ub => simp at c
    refine ⟨⟨fun c => absurd c hn, ?_⟩, fun c => absurd c hn⟩
    rintro ⟨v, _, _, a⟩
    exact absurd a h

/-- **C47 (failure).** When the algorithm wants the value at a point that violates the constraints, the call throws and the parameters
are left at that very point. -/
theorem C47_constraint_violation (find : List R → Prog R (List R)) (maximize : Bool) (f : List R → R) (p : CParams R)
    (pre : List (List R)) (bad : List R) (post : List (List R))
    (ht : (find p.values).trace (target maximize f) = pre ++ bad :: post)
    (hpre : ∀ x ∈ pre, Admissible p x) (hl : bad.length = p.values.length) (hbad : p.ok bad = false) :
    (optimize find maximize f p).2 = .throw "logic_error" ∧ (optimize find maximize f p).1.values = bad := by
  have key : ∀ (pre : List (List R)) (a : Prog R (List R)) (p : CParams R),
      a.trace (target maximize f) = pre ++ bad :: post → (∀ x ∈ pre, Admissible p x) → bad.length = p.values.length →
      p.ok bad = false → run maximize f a p = ({ p with values := bad }, .throw "logic_error") := by
    intro pre
    induction pre with
    | nil =>
      intro a p ht _ hl hbad
      cases a with
      | done r => simp at ht
      | ask m x k =>
        simp only [Prog.trace, List.nil_append, List.cons.injEq] at ht
        obtain ⟨rfl, _⟩ := ht
        have : count f p x = ({ p with values := x }, .throw "logic_error") := by
          simp [count, CParams.setValues_ok hl, hbad]
        simp [run, this]
    | cons y ys ih =>
      intro a p ht hpre hl hbad
      cases a with
      | done r => simp at ht
      | ask m x k =>
        simp only [Prog.trace, List.cons_append, List.cons.injEq] at ht
        obtain ⟨rfl, ht⟩ := ht
        have hx : Admissible p x := hpre x (by simp)
        simp only [run, count_admissible hx, signed_eq]
        rw [ih _ { p with values := x } ht]
        · intro z hz
          have := hpre z (by simp [hz])
          exact ⟨this.1.trans hx.1.symm, this.2⟩
        · exact hl.trans hx.1.symm
        · exact hbad
  have := key pre (find p.values) p ht hpre hl hbad
  simp only [optimize, CParams.getValues, this]
  exact ⟨trivial, trivial⟩

/-- **C47 (sign).** Minimizing `f` and maximizing `-f` do exactly the same. -/
theorem C47_sign (find : List R → Prog R (List R)) (f : List R → R) (p : CParams R) :
    optimize find false f p = optimize find true (fun x => -f x) p := by
  have hc : ∀ (p : CParams R) x, count (fun x => -f x) p x =
      ((count f p x).1, (count f p x).2 >>= fun v => .ok (-v)) := by
    intro p x
    by_cases hx : Admissible p x
    · rw [count_admissible hx, count_admissible hx]; rfl
    · obtain ⟨q', (⟨e, rfl, l⟩ | ⟨e, rfl⟩)⟩ := count_inadmissible (f := f) hx
      · have hb : p.ok x = false := by
          cases hp : p.ok x
          · rfl
          · exact absurd ⟨l, hp⟩ hx
        rw [e]
        simp [count, CParams.setValues_ok l, hb]
      · rw [e]
        have hl : x.length ≠ q'.values.length := by
          intro l
          simp [count, CParams.setValues_ok l] at e
          split at e <;> simp at e
        simp [count, CParams.setValues, hl]
  have key : ∀ (a : Prog R (List R)) (p : CParams R), run false f a p = run true (fun x => -f x) a p := by
    intro a
    induction a with
    | done r => intro p; rfl
    | ask m x k ih =>
      intro p
      simp only [run]
      rw [hc]
      rcases count f p x with ⟨q, r⟩
      cases r with
      | ok v =>
        simp only [Res.ok_bind]
        rw [ih]
        congr 2
        cases m <;> simp [signed]
      | throw w => simp
      | ub => simp
  simp only [optimize, key]

/-- **C47 (classes).** The generic entry rejects parameters and functions that are not continuous and changes nothing. -/
theorem C47_rejects (find : List R → Prog R (List R)) (maximize : Bool) (f : Option (List R → R)) (p : CParams R) :
    (optimizeAny find maximize f none).2.threw ∧
    (optimizeAny find maximize none (some p)) = (some p, .throw "bad_cast") ∧
    ∀ g, (optimizeAny find maximize (some g) (some p)) =
      (some (optimize find maximize g p).1, (optimize find maximize g p).2) :=
  ⟨trivial, rfl, fun _ => rfl⟩

/-- An algorithm that probes one step to the right and keeps the better point, for the examples. -/
def probe (x : List ℚ) : Prog ℚ (List ℚ) := do
  let a ← Prog.askMin x
  let b ← Prog.askMin (x.map (· + 1))
  if b < a then return x.map (· + 1) else return x

/-- Non-vacuity: one run for the maximum and one for the minimum. -/
example : (optimize probe true (fun x => x.headD 0) (CParams.ofValues [3])).1.values = [4] ∧
    (optimize probe false (fun x => x.headD 0) (CParams.ofValues [3])).1.values = [3] := by decide +kernel

/-- Non-vacuity of the failing case: the second point violates the constraint `x ≤ 3`. -/
example : (probe [3]).trace (target true fun x => x.headD 0) = [[3]] ++ [4] :: [] := by decide +kernel

end K52.ContinuousOptimizer
