import Verif.Model.HookeJeeves
import Verif.Model.FloatingPoint
import Verif.Props.Continuous
import Verif.Props.FloatingPoint
import Mathlib.Order.WellFounded

/-! # C41: Hooke-Jeeves never returns a worse point than it started from; C63: when it terminates -/

set_option linter.unusedSectionVars false

namespace K52.HookeJeeves

variable {R : Type} [Add R] [Sub R] [Mul R] [Div R] [Neg R] [Zero R] [LinearOrder R]

theorem coordLoop_spec (g : List R → R) (steps : List R) : ∀ (n i : Nat) (new : List R), steps.length = new.length →
    i + n = new.length →
    ∃ r, (coordLoop steps n i new).eval g = .ok r ∧ r.length = new.length ∧ (r = new ∨ g r < g new) ∧
      ((coordLoop steps n i new).trace g).length ≤ 3 * n ∧ ∀ x ∈ (coordLoop steps n i new).trace g, x.length = new.length
  | 0, i, new, _, _ => ⟨new, rfl, rfl, Or.inl rfl, by simp [coordLoop], by simp [coordLoop]⟩
  | n + 1, i, new, hs, hi => by
    have h1 : i < new.length := by omega
    have h2 : i < steps.length := by omega
    have e1 : new[i]? = some new[i] := List.getElem?_eq_getElem h1
    have e2 : steps[i]? = some steps[i] := List.getElem?_eq_getElem h2
    simp only [coordLoop, e1, e2, Prog.askMin, Prog.ask_bind, Prog.done_ok_bind, Prog.eval, Prog.trace, if_true]
    by_cases c : g (new.set i (new[i] + steps[i])) < g new
    · obtain ⟨r, q1, q2, q3, q4, q5⟩ := coordLoop_spec g steps n (i + 1) (new.set i (new[i] + steps[i])) (by simpa using hs)
        (by rw [List.length_set]; omega)
      simp only [c, if_true]
      refine ⟨r, q1, by simpa using q2, ?_, ?_, ?_⟩
      · rcases q3 with rfl | q3
        · exact Or.inr c
        · exact Or.inr (q3.trans c)
      · simp only [List.length_cons]; omega
      · intro x hx
        simp only [List.mem_cons] at hx
        rcases hx with rfl | rfl | hx
        · rfl
        · simp
        · simpa using q5 x hx
    · simp only [c, if_false, Prog.ask_bind, Prog.done_ok_bind, Prog.eval, Prog.trace, if_true]
      by_cases d : g (new.set i (new[i] - steps[i])) < g new
      · obtain ⟨r, q1, q2, q3, q4, q5⟩ := coordLoop_spec g steps n (i + 1) (new.set i (new[i] - steps[i])) (by simpa using hs)
          (by rw [List.length_set]; omega)
        simp only [d, if_true]
        refine ⟨r, q1, by simpa using q2, ?_, ?_, ?_⟩
        · rcases q3 with rfl | q3
          · exact Or.inr d
          · exact Or.inr (q3.trans d)
        · simp only [List.length_cons]; omega
        · intro x hx
          simp only [List.mem_cons] at hx
          rcases hx with rfl | rfl | rfl | hx
          · rfl
          · simp
          · simp
          · simpa using q5 x hx
      · obtain ⟨r, q1, q2, q3, q4, q5⟩ := coordLoop_spec g steps n (i + 1) new hs (by omega)
        simp only [d, if_false]
        refine ⟨r, q1, q2, q3, ?_, ?_⟩
        · simp only [List.length_cons]; omega
        · intro x hx
          simp only [List.mem_cons] at hx
          rcases hx with rfl | rfl | rfl | hx
          · rfl
          · simp
          · simp
          · exact q5 x hx

/-- A coordinatewise search returns its starting point or a strictly better one, asking at most three values per coordinate. -/
theorem coordinatewise_spec (g : List R → R) (args steps : List R) (hs : steps.length = args.length) :
    ∃ r, (coordinatewise args steps).eval g = .ok r ∧ r.length = args.length ∧ (r = args ∨ g r < g args) ∧
      ((coordinatewise args steps).trace g).length ≤ 3 * args.length ∧
      ∀ x ∈ (coordinatewise args steps).trace g, x.length = args.length :=
  coordLoop_spec g steps args.length 0 args hs (by simp)

theorem le_of_eq_or_lt {g : List R → R} {a b : List R} (h : a = b ∨ g a < g b) : g a ≤ g b := by
  rcases h with rfl | h
  · exact le_rfl
  · exact h.le

theorem patternMove_length (cfg : Config R) {a b : List R} (h : b.length = a.length) : (patternMove cfg a b).length = a.length := by
  simp [patternMove, h]

/-- The point the inner loop ends with. -/
def Inner.point : Inner R → List R
  | .breaks a _ _ => a
  | .returns v => v

/-- What leaving the inner loop guarantees. -/
def InnerOk (g : List R → R) (after : List R) (o : Inner R) : Prop :=
  o.point.length = after.length ∧ g o.point ≤ g after ∧ ∀ a b it, o = .breaks a b it → a = b

theorem inner_spec (g : List R → R) (cfg : Config R) (steps : List R) : ∀ (fuel : Nat) (args after : List R) (it : Nat),
    after.length = args.length → steps.length = args.length →
    (∀ o, (inner cfg steps fuel args after it).eval g = .ok o → InnerOk g after o) ∧
    ∀ x ∈ (inner cfg steps fuel args after it).trace g, x.length = args.length
  | 0, _, _, _, _, _ => by constructor <;> simp [inner, outOfFuel]
  | fuel + 1, args, after, it, hl, hs => by
    have hm := patternMove_length cfg hl
    obtain ⟨r, q1, q2, q3, _, q5⟩ := coordinatewise_spec g (patternMove cfg args after) steps (by rw [hm]; exact hs)
    have hr : r.length = args.length := q2.trans hm
    obtain ⟨ih1, ih2⟩ := inner_spec g cfg steps fuel after r (it + 1) (hr.trans hl.symm) (hs.trans hl.symm)
    constructor
    · intro o h
      simp only [inner, Prog.eval_bind, q1, Res.ok_bind, Prog.eval_askMin] at h
      split at h
      · simp only [Prog.pure_def, Prog.eval_done, Res.ok.injEq] at h
        subst h
        exact ⟨rfl, le_rfl, fun a b i e => by simp only [Inner.breaks.injEq] at e; rw [← e.1, ← e.2.1]⟩
      · next c =>
        have hlt : g r < g after := not_le.1 c
        split at h
        · simp only [Prog.pure_def, Prog.eval_done, Res.ok.injEq] at h
          subst h
          exact ⟨hr.trans hl.symm, hlt.le, fun a b i e => by simp at e⟩
        · obtain ⟨w1, w2, w3⟩ := ih1 o h
          exact ⟨w1.trans (hr.trans hl.symm), w2.trans hlt.le, w3⟩
    · intro x hx
      simp only [inner] at hx
      rw [Prog.trace_bind_ok g q1, List.mem_append] at hx
      rcases hx with hx | hx
      · exact (q5 x hx).trans hm
      · simp only [Prog.askMin, Prog.ask_bind, Prog.done_ok_bind, Prog.trace, List.mem_cons] at hx
        rcases hx with rfl | rfl | hx
        · exact hl
        · exact hr
        · simp only [if_true] at hx
          split at hx
          · simp at hx
          · split at hx
            · simp at hx
            · exact (ih2 x hx).trans hl

theorem outer_spec (g : List R → R) (lib : Lib R) (cfg : Config R) : ∀ (fuel : Nat) (args steps : List R) (it : Nat),
    steps.length = args.length →
    (∀ r, (outer lib cfg fuel args steps it).eval g = .ok r → r.length = args.length ∧ g r ≤ g args) ∧
    ∀ x ∈ (outer lib cfg fuel args steps it).trace g, x.length = args.length
  | 0, _, _, _, _ => by constructor <;> simp [outer, outOfFuel]
  | fuel + 1, args, steps, it, hs => by
    obtain ⟨after, q1, q2, q3, _, q5⟩ := coordinatewise_spec g args steps hs
    have hle : g after ≤ g args := le_of_eq_or_lt q3
    constructor
    · intro r h
      simp only [outer, Prog.eval_bind, q1, Res.ok_bind] at h
      split at h
      · split at h
        · simp only [Prog.pure_def, Prog.eval_done, Res.ok.injEq] at h
          subst h
          exact ⟨q2, hle⟩
        · exact (outer_spec g lib cfg fuel args _ it (by simpa using hs)).1 r h
      · simp only [Prog.eval_bind, Res.bind_eq_ok] at h
        obtain ⟨o, ho, h⟩ := h
        obtain ⟨w1, w2, w3⟩ := (inner_spec g cfg steps fuel args after it q2 hs).1 o ho
        cases o with
        | returns v =>
          simp only [Prog.pure_def, Prog.eval_done, Res.ok.injEq] at h
          subst h
          exact ⟨w1.trans q2, w2.trans hle⟩
        | breaks a b i =>
          obtain rfl := w3 a b i rfl
          simp only [Inner.point] at w1 w2
          simp only at h
          split at h
          · simp only [Prog.pure_def, Prog.eval_done, Res.ok.injEq] at h
            subst h
            exact ⟨w1.trans q2, w2.trans hle⟩
          · obtain ⟨v1, v2⟩ := (outer_spec g lib cfg fuel a steps i (by rw [hs, w1, q2])).1 r h
            exact ⟨v1.trans (w1.trans q2), v2.trans (w2.trans hle)⟩
    · intro x hx
      simp only [outer] at hx
      rw [Prog.trace_bind_ok g q1, List.mem_append] at hx
      rcases hx with hx | hx
      · exact q5 x hx
      · split at hx
        · split at hx
          · simp at hx
          · exact (outer_spec g lib cfg fuel args _ it (by simpa using hs)).2 x hx
        · rw [Prog.mem_trace_bind] at hx
          rcases hx with hx | ⟨o, ho, hx⟩
          · exact (inner_spec g cfg steps fuel args after it q2 hs).2 x hx
          · obtain ⟨w1, w2, w3⟩ := (inner_spec g cfg steps fuel args after it q2 hs).1 o ho
            cases o with
            | returns v => simp at hx
            | breaks a b i =>
              simp only [Inner.point] at w1
              simp only at hx
              split at hx
              · simp at hx
              · exact ((outer_spec g lib cfg fuel a steps i (by rw [hs, w1, q2])).2 x hx).trans (w1.trans q2)

/-- **C41.** Whenever the search returns, the value (of the function being minimized) at the returned point is not larger than at the
initial one – whatever the arithmetic operations, the library functions, the settings and the function. -/
theorem C41_never_worse (g : List R → R) (lib : Lib R) (cfg : Config R) (fuel : Nat) (initial r : List R)
    (h : (find lib cfg fuel initial).eval g = .ok r) : r.length = initial.length ∧ g r ≤ g initial :=
  (outer_spec g lib cfg fuel initial _ 0 (by simp)).1 r h

/-- **C41 (points).** Every point at which the function is evaluated has the dimension of the initial one. -/
theorem C41_dimension (g : List R → R) (lib : Lib R) (cfg : Config R) (fuel : Nat) (initial : List R) :
    ∀ x ∈ (find lib cfg fuel initial).trace g, x.length = initial.length :=
  (outer_spec g lib cfg fuel initial _ 0 (by simp)).2

/-- The search never fails: the only way not to return is to keep running. -/
def Running (x : Res (List R)) : Prop := x = .throw "(out of fuel)"

theorem inner_outcome (g : List R → R) (cfg : Config R) (steps : List R) : ∀ (fuel : Nat) (args after : List R) (it : Nat),
    after.length = args.length → steps.length = args.length →
    (∃ o, (inner cfg steps fuel args after it).eval g = .ok o) ∨ (inner cfg steps fuel args after it).eval g = .throw "(out of fuel)"
  | 0, _, _, _, _, _ => Or.inr rfl
  | fuel + 1, args, after, it, hl, hs => by
    have hm := patternMove_length cfg hl
    obtain ⟨r, q1, q2, q3, _⟩ := coordinatewise_spec g (patternMove cfg args after) steps (by rw [hm]; exact hs)
    have hr : r.length = args.length := q2.trans hm
    simp only [inner, Prog.eval_bind, q1, Res.ok_bind, Prog.eval_askMin]
    split
    · exact Or.inl ⟨_, rfl⟩
    · split
      · exact Or.inl ⟨_, rfl⟩
      · exact inner_outcome g cfg steps fuel after r (it + 1) (hr.trans hl.symm) (hs.trans hl.symm)

theorem outer_outcome (g : List R → R) (lib : Lib R) (cfg : Config R) : ∀ (fuel : Nat) (args steps : List R) (it : Nat),
    steps.length = args.length →
    (∃ r, (outer lib cfg fuel args steps it).eval g = .ok r) ∨ Running ((outer lib cfg fuel args steps it).eval g)
  | 0, _, _, _, _ => Or.inr rfl
  | fuel + 1, args, steps, it, hs => by
    obtain ⟨after, q1, q2, q3, _, _⟩ := coordinatewise_spec g args steps hs
    simp only [outer, Prog.eval_bind, q1, Res.ok_bind]
    split
    · split
      · exact Or.inl ⟨_, rfl⟩
      · exact outer_outcome g lib cfg fuel args _ it (by simpa using hs)
    · rw [Prog.eval_bind]
      rcases inner_outcome g cfg steps fuel args after it q2 hs with ⟨o, ho⟩ | ho
      · rw [ho, Res.ok_bind]
        obtain ⟨w1, _, _⟩ := (inner_spec g cfg steps fuel args after it q2 hs).1 o ho
        cases o with
        | returns v => exact Or.inl ⟨_, rfl⟩
        | breaks a b i =>
          simp only [Inner.point] at w1
          simp only
          split
          · exact Or.inl ⟨_, rfl⟩
          · exact outer_outcome g lib cfg fuel a steps i (by rw [hs, w1, q2])
      · rw [ho]; exact Or.inr rfl

/-! ### Termination -/

theorem inner_mono (g : List R → R) (cfg : Config R) (steps : List R) : ∀ (fuel : Nat) (args after : List R) (it : Nat) (o : Inner R),
    (inner cfg steps fuel args after it).eval g = .ok o → (inner cfg steps (fuel + 1) args after it).eval g = .ok o
  | 0, _, _, _, _, h => by simp [inner, outOfFuel] at h
  | fuel + 1, args, after, it, o, h => by
    rw [inner] at h ⊢
    simp only [Prog.eval_bind, Res.bind_eq_ok] at h ⊢
    obtain ⟨r, h1, a, h2, b, h3, h⟩ := h
    refine ⟨r, h1, a, h2, b, h3, ?_⟩
    split
    · next c => rw [if_pos c] at h; exact h
    · next c =>
      rw [if_neg c] at h
      split
      · next d => rw [if_pos d] at h; exact h
      · next d => rw [if_neg d] at h; exact inner_mono g cfg steps fuel _ _ _ o h

theorem inner_mono_le (g : List R → R) (cfg : Config R) (steps : List R) {n m : Nat} (hnm : n ≤ m) {args after : List R} {it : Nat}
    {o : Inner R} (h : (inner cfg steps n args after it).eval g = .ok o) : (inner cfg steps m args after it).eval g = .ok o := by
  induction hnm with
  | refl => exact h
  | step _ ih => exact inner_mono g cfg steps _ _ _ _ _ ih

theorem outer_mono (g : List R → R) (lib : Lib R) (cfg : Config R) : ∀ (fuel : Nat) (args steps : List R) (it : Nat) (r : List R),
    (outer lib cfg fuel args steps it).eval g = .ok r → (outer lib cfg (fuel + 1) args steps it).eval g = .ok r
  | 0, _, _, _, _, h => by simp [outer, outOfFuel] at h
  | fuel + 1, args, steps, it, r, h => by
    rw [outer] at h ⊢
    simp only [Prog.eval_bind, Res.bind_eq_ok] at h ⊢
    obtain ⟨after, h1, h⟩ := h
    refine ⟨after, h1, ?_⟩
    split
    · next c =>
      rw [if_pos c] at h
      split
      · next d => rw [if_pos d] at h; exact h
      · next d => rw [if_neg d] at h; exact outer_mono g lib cfg fuel _ _ _ r h
    · next c =>
      rw [if_neg c] at h
      simp only [Prog.eval_bind, Res.bind_eq_ok] at h ⊢
      obtain ⟨o, h2, h⟩ := h
      refine ⟨o, inner_mono g cfg steps _ _ _ _ _ h2, ?_⟩
      cases o with
      | returns v => exact h
      | breaks a b i =>
        simp only at h ⊢
        split
        · next d => rw [if_pos d] at h; exact h
        · next d => rw [if_neg d] at h; exact outer_mono g lib cfg fuel _ _ _ r h

theorem outer_mono_le (g : List R → R) (lib : Lib R) (cfg : Config R) {n m : Nat} (hnm : n ≤ m) {args steps : List R} {it : Nat}
    {r : List R} (h : (outer lib cfg n args steps it).eval g = .ok r) : (outer lib cfg m args steps it).eval g = .ok r := by
  induction hnm with
  | refl => exact h
  | step _ ih => exact outer_mono g lib cfg _ _ _ _ _ ih

/-- No infinite strictly decreasing sequence of values (true of every function that takes finitely many values, in particular of every
function on machine numbers). -/
def Descends (g : List R → R) : Prop := WellFounded fun a b : List R => g a < g b

theorem inner_terminates (g : List R → R) (hg : Descends g) (cfg : Config R) (steps : List R) (after : List R) :
    ∀ (args : List R) (it : Nat), after.length = args.length → steps.length = args.length →
    ∃ fuel o, (inner cfg steps fuel args after it).eval g = .ok o := by
  induction after using hg.induction with
  | _ after ih =>
    intro args it hl hs
    have hm := patternMove_length cfg hl
    obtain ⟨r, q1, q2, q3, _⟩ := coordinatewise_spec g (patternMove cfg args after) steps (by rw [hm]; exact hs)
    have hr : r.length = args.length := q2.trans hm
    by_cases c : g after ≤ g r
    · refine ⟨1, .breaks after after it, ?_⟩
      simp [inner, Prog.eval_bind, q1, c]
    · by_cases d : it + 1 = cfg.maxIterations
      · refine ⟨1, .returns r, ?_⟩
        simp only [inner, Prog.eval_bind, q1, Res.ok_bind, Prog.eval_askMin, if_neg c, if_pos d]; rfl
      · obtain ⟨fuel, o, h⟩ := ih r (not_le.1 c) after (it + 1) (hr.trans hl.symm) (hs.trans hl.symm)
        refine ⟨fuel + 1, o, ?_⟩
        simp only [inner, Prog.eval_bind, q1, Res.ok_bind, Prog.eval_askMin, if_neg c, if_neg d]
        exact h

/-- The steps after `k` divisions. -/
def divided (cfg : Config R) (steps : List R) : Nat → List R
  | 0 => steps
  | k + 1 => divided cfg (steps.map (· / cfg.stepDivider)) k

theorem outer_terminates (g : List R → R) (hg : Descends g) (lib : Lib R) (cfg : Config R)
    (hrefl : ∀ v : List R, lib.areEqual v v = true) : ∀ (k : Nat) (steps : List R),
    exitCriteria lib cfg (divided cfg steps (k + 1)) = true → ∀ (args : List R) (it : Nat), steps.length = args.length →
    ∃ fuel r, (outer lib cfg fuel args steps it).eval g = .ok r := by
  intro k
  induction k with
  | zero =>
    intro steps hk args
    induction args using hg.induction with
    | _ args ih =>
      intro it hs
      obtain ⟨after, q1, q2, q3, _, _⟩ := coordinatewise_spec g args steps hs
      by_cases c : lib.areEqual args after = true
      · refine ⟨1, after, ?_⟩
        have hk' : exitCriteria lib cfg (steps.map (· / cfg.stepDivider)) = true := hk
        simp only [outer, Prog.eval_bind, q1, Res.ok_bind, if_pos c, if_pos hk']; rfl
      · have hlt : g after < g args := by
          rcases q3 with rfl | q3
          · exact absurd (hrefl _) c
          · exact q3
        obtain ⟨f1, o, ho⟩ := inner_terminates g hg cfg steps after args it q2 hs
        obtain ⟨w1, w2, w3⟩ := (inner_spec g cfg steps f1 args after it q2 hs).1 o ho
        cases o with
        | returns v =>
          refine ⟨f1 + 1, v, ?_⟩
          simp only [outer, Prog.eval_bind, q1, Res.ok_bind, if_neg c, ho]; rfl
        | breaks a b i =>
          obtain rfl := w3 a b i rfl
          simp only [Inner.point] at w1 w2
          by_cases d : exitCriteria lib cfg steps = true
          · refine ⟨f1 + 1, a, ?_⟩
            simp only [outer, Prog.eval_bind, q1, Res.ok_bind, if_neg c, ho, if_pos d]; rfl
          · obtain ⟨f2, r, hr⟩ := ih a (lt_of_le_of_lt w2 hlt) i (by rw [hs, w1, q2])
            refine ⟨max f1 f2 + 1, r, ?_⟩
            simp only [outer, Prog.eval_bind, q1, Res.ok_bind, if_neg c, inner_mono_le g cfg steps (le_max_left f1 f2) ho, if_neg d]
            exact outer_mono_le g lib cfg (le_max_right f1 f2) hr
  | succ k ihk =>
    intro steps hk args
    induction args using hg.induction with
    | _ args ih =>
      intro it hs
      obtain ⟨after, q1, q2, q3, _, _⟩ := coordinatewise_spec g args steps hs
      by_cases c : lib.areEqual args after = true
      · by_cases d : exitCriteria lib cfg (steps.map (· / cfg.stepDivider)) = true
        · refine ⟨1, after, ?_⟩
          simp only [outer, Prog.eval_bind, q1, Res.ok_bind, if_pos c, if_pos d]; rfl
        · obtain ⟨f, r, hr⟩ := ihk (steps.map (· / cfg.stepDivider)) hk args it (by simpa using hs)
          refine ⟨f + 1, r, ?_⟩
          simp only [outer, Prog.eval_bind, q1, Res.ok_bind, if_pos c, if_neg d]
          exact hr
      · have hlt : g after < g args := by
          rcases q3 with rfl | q3
          · exact absurd (hrefl _) c
          · exact q3
        obtain ⟨f1, o, ho⟩ := inner_terminates g hg cfg steps after args it q2 hs
        obtain ⟨w1, w2, w3⟩ := (inner_spec g cfg steps f1 args after it q2 hs).1 o ho
        cases o with
        | returns v =>
          refine ⟨f1 + 1, v, ?_⟩
          simp only [outer, Prog.eval_bind, q1, Res.ok_bind, if_neg c, ho]; rfl
        | breaks a b i =>
          obtain rfl := w3 a b i rfl
          simp only [Inner.point] at w1 w2
          by_cases d : exitCriteria lib cfg steps = true
          · refine ⟨f1 + 1, a, ?_⟩
            simp only [outer, Prog.eval_bind, q1, Res.ok_bind, if_neg c, ho, if_pos d]; rfl
          · obtain ⟨f2, r, hr⟩ := ih a (lt_of_le_of_lt w2 hlt) i (by rw [hs, w1, q2])
            refine ⟨max f1 f2 + 1, r, ?_⟩
            simp only [outer, Prog.eval_bind, q1, Res.ok_bind, if_neg c, inner_mono_le g cfg steps (le_max_left f1 f2) ho, if_neg d]
            exact outer_mono_le g lib cfg (le_max_right f1 f2) hr

/-- **C63 (termination).** If the function has no infinite strictly decreasing sequence of values and dividing the steps often enough
makes them small enough for the exit criterion, the search returns – whatever the acceleration and the iteration limit. -/
theorem C63_terminates (g : List R → R) (hg : Descends g) (lib : Lib R) (cfg : Config R) (hrefl : ∀ v : List R, lib.areEqual v v = true)
    (initial : List R) (k : Nat)
    (hk : exitCriteria lib cfg (divided cfg (List.replicate initial.length cfg.initStep) (k + 1)) = true) :
    ∃ fuel r, ∀ m ≥ fuel, (find lib cfg m initial).eval g = .ok r := by
  obtain ⟨fuel, r, h⟩ := outer_terminates g hg lib cfg hrefl k _ hk initial 0 (by simp)
  exact ⟨fuel, r, fun m hm => outer_mono_le g lib cfg hm h⟩

end K52.HookeJeeves

namespace K52.HookeJeeves
variable {R : Type} [Field R] [LinearOrder R] [IsStrictOrderedRing R]

/-- The library functions over an ordered field: `FloatingPoint::AreEqual` and some square root. -/
def fieldLib (sqrt : R → R) : Lib R := ⟨sqrt, FloatingPoint.areEqualVec⟩

/-- **C41 (through `Optimize`).** When `Optimize` returns, the value at the parameters is at least as good as it was before: not smaller
when maximizing, not larger when minimizing. -/
theorem C41_optimize (sqrt : R → R) (cfg : Config R) (fuel : Nat) (maximize : Bool) (f : List R → R) (p : CParams R)
    (h : (ContinuousOptimizer.optimize (find (fieldLib sqrt) cfg fuel) maximize f p).2 = .ok ()) :
    let v := (ContinuousOptimizer.optimize (find (fieldLib sqrt) cfg fuel) maximize f p).1.values
    if maximize then f p.values ≤ f v else f v ≤ f p.values := by
  obtain ⟨_, c⟩ := ContinuousOptimizer.C47_optimize (find (fieldLib sqrt) cfg fuel) maximize f p
  have := (C41_never_worse _ _ _ _ _ _ (c h).1).2
  cases maximize
  · simpa [ContinuousOptimizer.target] using this
  · simpa [ContinuousOptimizer.target] using this

/-- **C63 (non-termination).** The iteration limit does not bound the search: with acceleration 0 it runs forever on `f(x) = -x`, whatever
the limit (step 1, precision below 1). -/
theorem C63_may_diverge (sqrt : R → R) (hsqrt : sqrt 1 = 1) (maxIterations : Nat) (divider precision : R) (hp : precision < 1)
    (x : R) (fuel : Nat) :
    Running ((find (fieldLib sqrt) ⟨0, 1, maxIterations, precision, divider⟩ fuel [x]).eval fun v => -v.headD 0) := by
  have cw : ∀ y : R, (coordinatewise [y] [1]).eval (fun v : List R => -v.headD 0) = .ok [y + 1] := by
    intro y
    simp [coordinatewise, coordLoop, Prog.askMin, Prog.eval]
  have key : ∀ (fuel : Nat) (y : R) (it : Nat),
      Running ((outer (fieldLib sqrt) ⟨0, 1, maxIterations, precision, divider⟩ fuel [y] [1] it).eval fun v => -v.headD 0) := by
    intro fuel
    induction fuel with
    | zero => intro y it; rfl
    | succ fuel ih =>
      intro y it
      have hne : (fieldLib sqrt).areEqual [y] [y + 1] = false := by
        have he : (FloatingPoint.eps : R) ≤ 1 := by unfold FloatingPoint.eps; norm_num
        simp [fieldLib, FloatingPoint.areEqualVec, FloatingPoint.equalLoop, FloatingPoint.areEqual, he]
      have hx : exitCriteria (fieldLib sqrt) ⟨0, 1, maxIterations, precision, divider⟩ [(1 : R)] = false := by
        simp [exitCriteria, fieldLib, hsqrt, hp]
      simp only [outer, Prog.eval_bind, cw, Res.ok_bind, hne, Bool.false_eq_true, if_false]
      cases fuel with
      | zero => rfl
      | succ n =>
        have hi : (inner ⟨0, 1, maxIterations, precision, divider⟩ [(1 : R)] (n + 1) [y] [y + 1] it).eval (fun v : List R => -v.headD 0) =
            .ok (.breaks [y + 1] [y + 1] it) := by
          have hp' : patternMove (⟨0, 1, maxIterations, precision, divider⟩ : Config R) [y] [y + 1] = [y] := by simp [patternMove]
          simp only [inner, hp', Prog.eval_bind, cw, Res.ok_bind, Prog.eval_askMin, le_refl, if_true]
          rfl
        simp only [hi, Res.ok_bind, hx, Bool.false_eq_true, if_false]
        exact ih (y + 1) it
  exact key fuel x 0

/-- The points visited on `f(x) = -x` with step 1: `y 0 = x`, `y 1 = x + 1`, and then one pattern move and one step each. -/
def climb (acceleration x : R) : Nat → R
  | 0 => x
  | 1 => x + 1
  | n + 2 => climb acceleration x n + acceleration * (climb acceleration x (n + 1) - climb acceleration x n) + 1

/-- **C63 (pattern move).** On `f(x) = -x`, with step 1 and acceleration at least 1, the search moves by the pattern
`before + acceleration * (after - before)`, followed by one step, and stops after exactly as many such moves as the iteration limit. -/
theorem C63_climb (sqrt : R → R) (acceleration divider precision : R) (ha : 1 ≤ acceleration) (limit : Nat) (hl : 1 ≤ limit)
    (x : R) (fuel : Nat) (hf : limit < fuel) :
    (find (fieldLib sqrt) ⟨acceleration, 1, limit, precision, divider⟩ fuel [x]).eval (fun v => -v.headD 0) =
      .ok [climb acceleration x (limit + 1)] := by
  have cw : ∀ y : R, (coordinatewise [y] [1]).eval (fun v : List R => -v.headD 0) = .ok [y + 1] := by
    intro y
    simp [coordinatewise, coordLoop, Prog.askMin, Prog.eval]
  have hinc : ∀ n : Nat, climb acceleration x n + 1 ≤ climb acceleration x (n + 1) := by
    intro n
    induction n with
    | zero => simp [climb]
    | succ n ih => simp only [climb] at *; nlinarith
  have key : ∀ (k fuel n : Nat), n + k + 1 = limit → k < fuel →
      (inner ⟨acceleration, 1, limit, precision, divider⟩ [1] fuel [climb acceleration x n] [climb acceleration x (n + 1)] n).eval
        (fun v : List R => -v.headD 0) = .ok (.returns [climb acceleration x (limit + 1)]) := by
    intro k
    induction k with
    | zero =>
      intro fuel n hn hk
      obtain ⟨fuel, rfl⟩ : ∃ m : Nat, fuel = m + 1 := ⟨fuel - 1, by omega⟩
      have h2 := hinc (n + 1)
      have hgt : ¬ (-[climb acceleration x (n + 1)].headD 0 ≤ -[climb acceleration x (n + 2)].headD 0) := by
        simp only [List.headD_cons, neg_le_neg_iff]; linarith
      have hp : patternMove (⟨acceleration, 1, limit, precision, divider⟩ : Config R) [climb acceleration x n] [climb acceleration x (n + 1)] =
          [climb acceleration x n + acceleration * (climb acceleration x (n + 1) - climb acceleration x n)] := rfl
      simp only [inner, hp, Prog.eval_bind, cw, Res.ok_bind, Prog.eval_askMin]
      rw [show climb acceleration x n + acceleration * (climb acceleration x (n + 1) - climb acceleration x n) + 1 =
        climb acceleration x (n + 2) from rfl, if_neg hgt, if_pos (by omega)]
      rw [← hn]
      rfl
    | succ k ih =>
      intro fuel n hn hk
      obtain ⟨fuel, rfl⟩ : ∃ m : Nat, fuel = m + 1 := ⟨fuel - 1, by omega⟩
      have h2 := hinc (n + 1)
      have hgt : ¬ (-[climb acceleration x (n + 1)].headD 0 ≤ -[climb acceleration x (n + 2)].headD 0) := by
        simp only [List.headD_cons, neg_le_neg_iff]; linarith
      have hp : patternMove (⟨acceleration, 1, limit, precision, divider⟩ : Config R) [climb acceleration x n] [climb acceleration x (n + 1)] =
          [climb acceleration x n + acceleration * (climb acceleration x (n + 1) - climb acceleration x n)] := rfl
      simp only [inner, hp, Prog.eval_bind, cw, Res.ok_bind, Prog.eval_askMin]
      rw [show climb acceleration x n + acceleration * (climb acceleration x (n + 1) - climb acceleration x n) + 1 =
        climb acceleration x (n + 2) from rfl, if_neg hgt, if_neg (by omega)]
      exact ih fuel (n + 1) (by omega) (by omega)
  obtain ⟨fuel, rfl⟩ : ∃ m : Nat, fuel = m + 1 := ⟨fuel - 1, by omega⟩
  have hne : (fieldLib sqrt).areEqual [x] [x + 1] = false := by
    have he : (FloatingPoint.eps : R) ≤ 1 := by unfold FloatingPoint.eps; norm_num
    simp [fieldLib, FloatingPoint.areEqualVec, FloatingPoint.equalLoop, FloatingPoint.areEqual, he]
  have hk := key (limit - 1) fuel 0 (by omega) (by omega)
  simp only [climb] at hk
  simp only [find, List.length_singleton, List.replicate_one, outer, Prog.eval_bind, cw, Res.ok_bind, hne, Bool.false_eq_true, if_false, hk]
  rfl

/-- With acceleration 2 the moves grow: after `m` pattern moves the search is at `x + (m + 1)(m + 2) / 2`. -/
example (x : R) (n : Nat) : 2 * climb 2 x n = 2 * x + n * (n + 1) := by
  have : ∀ n : Nat, 2 * climb 2 x n = 2 * x + n * (n + 1) ∧ 2 * climb 2 x (n + 1) = 2 * x + (n + 1) * (n + 2) := by
    intro n
    induction n with
    | zero => simp [climb]; ring
    | succ n ih =>
      refine ⟨by rw [ih.2]; push_cast; ring, ?_⟩
      simp only [climb]
      push_cast
      linarith [ih.1, ih.2]
  exact (this n).1

/-- Non-vacuity: a run on `(x - 3)²` from 0 that returns 3. -/
example : (find (fieldLib (R := ℚ) (fun x => x)) ⟨2, 1, 100, 1 / 2, 2⟩ 10 [0]).eval (fun v => (v.headD 0 - 3) ^ 2) = .ok [3] := by
  decide +kernel

/-- Non-vacuity of the termination hypotheses: a function with finitely many values, steps 1, 1/2, ... -/
example : Descends (R := ℚ) (fun v => if v.headD 0 < 5 then 1 else 0) ∧
    exitCriteria (fieldLib (R := ℚ) (fun x => x)) ⟨2, 1, 0, 1 / 2, 2⟩ (divided ⟨2, 1, 0, 1 / 2, 2⟩ [1] (0 + 1)) = true := by
  constructor
  · refine Subrelation.wf (r := InvImage (· < ·) fun v : List ℚ => if v.headD 0 < 5 then (1 : ℕ) else 0) ?_ (InvImage.wf _ Nat.lt_wfRel.wf)
    intro a b h
    simp only [InvImage]
    simp only at h
    split at h <;> split at h <;> simp_all
    exact absurd h (by norm_num)
  · decide +kernel

end K52.HookeJeeves
