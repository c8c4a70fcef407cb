import Verif.Props.HookeJeeves
import Verif.Spec.Ieee

/-! # C88: Hooke-Jeeves on functions that may be NaN -/

set_option linter.unusedSectionVars false

namespace K52.HookeJeeves
open IeeeOrder

variable {R : Type} [Add R] [Sub R] [Mul R] [Div R] [Neg R] [Zero R] [LT R] [LE R] [DecidableLT R] [DecidableLE R] [IeeeOrder R]

theorem ieee_coordLoop (g : List R → R) (steps : List R) : ∀ (n i : Nat) (new : List R), steps.length = new.length →
    i + n = new.length →
    ∃ r, (coordLoop steps n i new).eval g = .ok r ∧ r.length = new.length ∧ (r = new ∨ g r < g new)
  | 0, i, new, _, _ => ⟨new, rfl, rfl, Or.inl rfl⟩
  | n + 1, i, new, hs, hi => by
    have h1 : i < new.length := by omega
    have h2 : i < steps.length := by omega
    have e1 : new[i]? = some new[i] := List.getElem?_eq_getElem h1
    have e2 : steps[i]? = some steps[i] := List.getElem?_eq_getElem h2
    simp only [coordLoop, e1, e2, Prog.askMin, Prog.ask_bind, Prog.done_ok_bind, Prog.eval, if_true]
    by_cases c : g (new.set i (new[i] + steps[i])) < g new
    · obtain ⟨r, q1, q2, q3⟩ := ieee_coordLoop g steps n (i + 1) (new.set i (new[i] + steps[i])) (by simpa using hs)
        (by rw [List.length_set]; omega)
      simp only [c, if_true]
      refine ⟨r, q1, by simpa using q2, ?_⟩
      rcases q3 with rfl | q3
      · exact Or.inr c
      · exact Or.inr (IeeeOrder.lt_trans q3 c)
    · simp only [c, if_false, Prog.ask_bind, Prog.done_ok_bind, Prog.eval, if_true]
      by_cases d : g (new.set i (new[i] - steps[i])) < g new
      · obtain ⟨r, q1, q2, q3⟩ := ieee_coordLoop g steps n (i + 1) (new.set i (new[i] - steps[i])) (by simpa using hs)
          (by rw [List.length_set]; omega)
        simp only [d, if_true]
        refine ⟨r, q1, by simpa using q2, ?_⟩
        rcases q3 with rfl | q3
        · exact Or.inr d
        · exact Or.inr (IeeeOrder.lt_trans q3 d)
      · obtain ⟨r, q1, q2, q3⟩ := ieee_coordLoop g steps n (i + 1) new hs (by omega)
        simp only [d, if_false]
        exact ⟨r, q1, q2, q3⟩

/-- A coordinatewise search returns its starting point or one with a smaller value, a number. -/
theorem ieee_coordinatewise (g : List R → R) (args steps : List R) (hs : steps.length = args.length) :
    ∃ r, (coordinatewise args steps).eval g = .ok r ∧ r.length = args.length ∧ (r = args ∨ g r < g args) :=
  ieee_coordLoop g steps args.length 0 args hs (by simp)

/-- **C88 (exploration).** A coordinatewise search never moves from a point with value NaN. -/
theorem C88_exploration_stuck (g : List R → R) (args steps : List R) (hs : steps.length = args.length) (h : nan (g args)) :
    (coordinatewise args steps).eval g = .ok args := by
  obtain ⟨r, q1, _, q3⟩ := ieee_coordinatewise g args steps hs
  rcases q3 with rfl | q3
  · exact q1
  · exact absurd q3 (not_lt_nan_right h)

/-- **C88 (NaN at the start).** Started at a point with value NaN, the search can only return that point. -/
theorem C88_nan_start (g : List R → R) (lib : Lib R) (cfg : Config R) (initial : List R) (hn : nan (g initial))
    (hrefl : lib.areEqual initial initial = true) (fuel : Nat) (r : List R) (h : (find lib cfg fuel initial).eval g = .ok r) :
    r = initial := by
  have key : ∀ (fuel : Nat) (steps : List R) (it : Nat), steps.length = initial.length →
      (outer lib cfg fuel initial steps it).eval g = .ok r → r = initial := by
    intro fuel
    induction fuel with
    | zero => intro steps it _ h; simp [outer, outOfFuel] at h
    | succ fuel ih =>
      intro steps it hs h
      simp only [outer, Prog.eval_bind, C88_exploration_stuck g initial steps hs hn, Res.ok_bind, hrefl, if_true] at h
      split at h
      · simp only [Prog.pure_def, Prog.eval_done, Res.ok.injEq] at h
        exact h.symm
      · exact ih _ it (by simpa using hs) h
  exact key fuel _ 0 (by simp) h

/-- **C88 (NaN at the start, termination).** ... and it does return it once the steps have become small. -/
theorem C88_nan_start_returns (g : List R → R) (lib : Lib R) (cfg : Config R) (initial : List R) (hn : nan (g initial))
    (hrefl : lib.areEqual initial initial = true) (k : Nat)
    (hk : exitCriteria lib cfg (divided cfg (List.replicate initial.length cfg.initStep) (k + 1)) = true) :
    (find lib cfg (k + 1) initial).eval g = .ok initial := by
  have key : ∀ (k : Nat) (steps : List R) (it : Nat), steps.length = initial.length →
      exitCriteria lib cfg (divided cfg steps (k + 1)) = true → (outer lib cfg (k + 1) initial steps it).eval g = .ok initial := by
    intro k
    induction k with
    | zero =>
      intro steps it hs h
      simp only [divided] at h
      simp [outer, Prog.eval_bind, C88_exploration_stuck g initial steps hs hn, hrefl, h]
    | succ k ih =>
      intro steps it hs h
      rw [outer]
      simp only [Prog.eval_bind, C88_exploration_stuck g initial steps hs hn, Res.ok_bind, hrefl, if_true]
      split
      · rfl
      · exact ih _ it (by simpa using hs) h
  exact key k _ 0 (by simp) hk

/-! ### From a number -/

/-- How the pattern search may end: by its own criterion, at a point whose value is a number not larger than the next one, or at the
iteration limit. -/
theorem ieee_inner (g : List R → R) (cfg : Config R) (steps : List R) : ∀ (fuel : Nat) (args after : List R) (it : Nat),
    after.length = args.length → steps.length = args.length →
    ∀ o, (inner cfg steps fuel args after it).eval g = .ok o →
      (∃ a it', o = .breaks a a it' ∧ a.length = after.length ∧ ¬ nan (g a)) ∨ (∃ v, o = .returns v ∧ it < cfg.maxIterations)
  | 0, _, _, _, _, _, o, h => by simp [inner, outOfFuel] at h
  | fuel + 1, args, after, it, hl, hs, o, h => by
    have hm := patternMove_length' cfg hl
    obtain ⟨r, q1, q2, q3⟩ := ieee_coordinatewise g (patternMove cfg args after) steps (by rw [hm]; exact hs)
    have hr : r.length = after.length := (q2.trans hm).trans hl.symm
    simp only [inner, Prog.eval_bind, q1, Res.ok_bind, Prog.eval_askMin] at h
    split at h
    · next c =>
      simp only [Prog.pure_def, Prog.eval_done, Res.ok.injEq] at h
      exact Or.inl ⟨after, it, h.symm, rfl, (le_iff.1 c).1⟩
    · split at h
      · next c =>
        simp only [Prog.pure_def, Prog.eval_done, Res.ok.injEq] at h
        exact Or.inr ⟨r, h.symm, by omega⟩
      · rcases ieee_inner g cfg steps fuel after r (it + 1) hr (hs.trans hl.symm) o h with ⟨a, it', e, e1, e2⟩ | ⟨v, e, e1⟩
        · exact Or.inl ⟨a, it', e, e1.trans hr, e2⟩
        · exact Or.inr ⟨v, e, by omega⟩
where
  /-- the pattern move keeps the dimension -/
  patternMove_length' (cfg : Config R) {a b : List R} (h : b.length = a.length) : (patternMove cfg a b).length = a.length := by
    simp [patternMove, h]

/-- **C88 (no limit).** With `max_number_of_iterations` 0 (no limit), a search started where the value is a number can only return a
point whose value is a number: NaN can be returned only at the iteration limit. -/
theorem C88_unlimited (g : List R → R) (lib : Lib R) (cfg : Config R) (h0 : cfg.maxIterations = 0) (initial : List R)
    (hn : ¬ nan (g initial)) (fuel : Nat) (r : List R) (h : (find lib cfg fuel initial).eval g = .ok r) : ¬ nan (g r) := by
  have key : ∀ (fuel : Nat) (args steps : List R) (it : Nat), steps.length = args.length → ¬ nan (g args) →
      (outer lib cfg fuel args steps it).eval g = .ok r → ¬ nan (g r) := by
    intro fuel
    induction fuel with
    | zero => intro args steps it _ _ h; simp [outer, outOfFuel] at h
    | succ fuel ih =>
      intro args steps it hs hn h
      obtain ⟨a, q1, q2, q3⟩ := ieee_coordinatewise g args steps hs
      have ha : ¬ nan (g a) := by
        rcases q3 with rfl | q3
        · exact hn
        · exact (lt_num q3).1
      simp only [outer, Prog.eval_bind, q1, Res.ok_bind] at h
      split at h
      · split at h
        · simp only [Prog.pure_def, Prog.eval_done, Res.ok.injEq] at h
          exact h ▸ ha
        · exact ih _ _ it (by simpa using hs) hn h
      · rw [Prog.eval_bind] at h
        obtain ⟨o, ho, h⟩ := Res.bind_eq_ok.1 h
        rcases ieee_inner g cfg steps fuel args a it q2 hs o ho with ⟨b, it', rfl, e1, e2⟩ | ⟨v, rfl, e1⟩
        · simp only at h
          split at h
          · simp only [Prog.pure_def, Prog.eval_done, Res.ok.injEq] at h
            exact h ▸ e2
          · exact ih _ _ _ (by rw [hs, e1, q2]) e2 h
        · omega
  exact key fuel _ _ 0 (by simp) hn h

/-- The inner loop does not end with a worse point if it meets numbers only. -/
theorem ieee_inner_mono (g : List R → R) (cfg : Config R) (steps : List R) : ∀ (fuel : Nat) (args after : List R) (it : Nat),
    after.length = args.length → steps.length = args.length → (¬ nan (g after)) →
    (∀ x ∈ (inner cfg steps fuel args after it).trace g, ¬ nan (g x)) →
    ∀ o, (inner cfg steps fuel args after it).eval g = .ok o →
      (∀ a b it', o = .breaks a b it' → a = b ∧ a.length = after.length) ∧ (¬ nan (g o.point)) ∧ ¬ g after < g o.point
  | 0, _, _, _, _, _, _, _, o, h => by simp [inner, outOfFuel] at h
  | fuel + 1, args, after, it, hl, hs, hn, ht, o, h => by
    have hm := ieee_inner.patternMove_length' cfg hl
    obtain ⟨r, q1, q2, q3⟩ := ieee_coordinatewise g (patternMove cfg args after) steps (by rw [hm]; exact hs)
    have hr : r.length = after.length := (q2.trans hm).trans hl.symm
    have htr : ∀ x ∈ r :: ((if g after ≤ g r then (pure (.breaks after after it) : Prog R (Inner R))
        else if it + 1 = cfg.maxIterations then pure (.returns r) else inner cfg steps fuel after r (it + 1)).trace g), ¬ nan (g x) := by
      intro x hx
      apply ht
      rw [inner, Prog.trace_bind_ok g q1]
      simp only [Prog.askMin, Prog.ask_bind, Prog.done_ok_bind, Prog.trace, if_true, List.mem_append]
      right
      exact List.mem_cons_of_mem _ hx
    have hrn : ¬ nan (g r) := htr r (by simp)
    simp only [inner, Prog.eval_bind, q1, Res.ok_bind, Prog.eval_askMin] at h
    split at h
    · simp only [Prog.pure_def, Prog.eval_done, Res.ok.injEq] at h
      subst h
      refine ⟨fun a b i e => ?_, hn, IeeeOrder.lt_irrefl _⟩
      simp only [Inner.breaks.injEq] at e
      exact ⟨e.1.symm.trans e.2.1, by rw [← e.1]⟩
    · next c =>
      have hlt : ¬ g after < g r := by
        intro hlt
        exact c (le_iff.2 ⟨hn, hrn, fun h' => IeeeOrder.lt_irrefl _ (IeeeOrder.lt_trans hlt h')⟩)
      split at h
      · simp only [Prog.pure_def, Prog.eval_done, Res.ok.injEq] at h
        subst h
        exact ⟨fun a b i e => by simp at e, hrn, hlt⟩
      · next d =>
        obtain ⟨w1, w2, w3⟩ := ieee_inner_mono g cfg steps fuel after r (it + 1) hr (hs.trans hl.symm) hrn
          (fun x hx => htr x (List.mem_cons_of_mem _ (by rw [if_neg c, if_neg d]; exact hx))) o h
        refine ⟨fun a b i e => ⟨(w1 a b i e).1, (w1 a b i e).2.trans hr⟩, w2, ?_⟩
        exact IeeeOrder.not_lt_trans w3 hlt hrn

/-- **C88 (only numbers met).** If the value is a number at every point the search asks for, the returned point is not worse than
the starting point. -/
theorem C88_numbers_never_worse (g : List R → R) (lib : Lib R) (cfg : Config R) (initial : List R) (hn : ¬ nan (g initial))
    (fuel : Nat) (ht : ∀ x ∈ (find lib cfg fuel initial).trace g, ¬ nan (g x)) (r : List R)
    (h : (find lib cfg fuel initial).eval g = .ok r) : ¬ g initial < g r := by
  have key : ∀ (fuel : Nat) (args steps : List R) (it : Nat), steps.length = args.length → ¬ nan (g args) →
      (∀ x ∈ (outer lib cfg fuel args steps it).trace g, ¬ nan (g x)) →
      (outer lib cfg fuel args steps it).eval g = .ok r → ¬ g args < g r := by
    intro fuel
    induction fuel with
    | zero => intro args steps it _ _ _ h; simp [outer, outOfFuel] at h
    | succ fuel ih =>
      intro args steps it hs hn ht h
      obtain ⟨a, q1, q2, q3⟩ := ieee_coordinatewise g args steps hs
      have ha : ¬ nan (g a) := by
        rcases q3 with rfl | q3
        · exact hn
        · exact (lt_num q3).1
      have hle : ¬ g args < g a := by
        rcases q3 with rfl | q3
        · exact IeeeOrder.lt_irrefl _
        · exact fun h' => IeeeOrder.lt_irrefl _ (IeeeOrder.lt_trans q3 h')
      rw [outer, Prog.trace_bind_ok g q1] at ht
      simp only [outer, Prog.eval_bind, q1, Res.ok_bind] at h
      by_cases c : lib.areEqual args a = true
      · simp only [if_pos c] at h ht
        by_cases d : exitCriteria lib cfg (steps.map (· / cfg.stepDivider)) = true
        · simp only [if_pos d, Prog.pure_def, Prog.eval_done, Res.ok.injEq] at h
          exact h ▸ hle
        · simp only [if_neg d] at h ht
          exact ih _ _ it (by simpa using hs) hn (fun x hx => ht x (List.mem_append_right _ hx)) h
      · simp only [if_neg c] at h ht
        rw [Prog.eval_bind] at h
        obtain ⟨o, ho, h⟩ := Res.bind_eq_ok.1 h
        rw [Prog.trace_bind_ok g ho] at ht
        have hin := ieee_inner_mono g cfg steps fuel args a it q2 hs ha
          (fun x hx => ht x (List.mem_append_right _ (List.mem_append_left _ hx))) o ho
        cases o with
        | returns v =>
          simp only [Prog.pure_def, Prog.eval_done, Res.ok.injEq] at h
          subst h
          exact IeeeOrder.not_lt_trans hin.2.2 hle ha
        | breaks b b' it' =>
          obtain ⟨e0, e1⟩ := hin.1 b b' it' rfl
          subst e0
          have hb : ¬ g args < g b := IeeeOrder.not_lt_trans hin.2.2 hle ha
          simp only at h ht
          by_cases d : exitCriteria lib cfg steps = true
          · simp only [if_pos d, Prog.pure_def, Prog.eval_done, Res.ok.injEq] at h
            exact h ▸ hb
          · simp only [if_neg d] at h ht
            have := ih b _ _ (by rw [hs, e1, q2]) hin.2.1
              (fun x hx => ht x (List.mem_append_right _ (List.mem_append_right _ hx))) h
            exact IeeeOrder.not_lt_trans this hb hin.2.1
  exact key fuel _ _ 0 (by simp) hn ht h

/-- **C88 (the pattern search does not stop on NaN).** Suppose `chain` is a sequence of points such that each is reached from the two
before by the pattern move, and the value is NaN at all of them from `chain 1` on.  Then, once there, the pattern search goes through
all of them and ends exactly at the iteration limit, returning a point with value NaN – or never, if that limit is not ahead. -/
theorem C88_pattern_runs_on (g : List R → R) (cfg : Config R) (steps : List R) (chain : Nat → List R)
    (hl : ∀ k, steps.length = (chain k).length) (hp : ∀ k, patternMove cfg (chain k) (chain (k + 1)) = chain (k + 2))
    (hn : ∀ k, nan (g (chain (k + 1)))) (it : Nat) :
    (∀ k fuel, it + k + 1 = cfg.maxIterations → k < fuel →
      (inner cfg steps fuel (chain 0) (chain 1) it).eval g = .ok (.returns (chain (k + 2)))) ∧
    (cfg.maxIterations ≤ it → ∀ fuel,
      (inner cfg steps fuel (chain 0) (chain 1) it).eval g = (outOfFuel : Prog R (Inner R)).eval g) := by
  have step : ∀ (j it fuel : Nat), (inner cfg steps (fuel + 1) (chain j) (chain (j + 1)) it).eval g =
      if it + 1 = cfg.maxIterations then .ok (.returns (chain (j + 2)))
      else (inner cfg steps fuel (chain (j + 1)) (chain (j + 2)) (it + 1)).eval g := by
    intro j it fuel
    rw [inner, hp, Prog.eval_bind, C88_exploration_stuck g _ _ (hl _) (hn (j + 1))]
    simp only [Res.ok_bind, Prog.eval_bind, Prog.eval_askMin, not_le_nan_left (hn j), if_false]
    split <;> rfl
  constructor
  · have key : ∀ (k j it fuel : Nat), it + k + 1 = cfg.maxIterations → k < fuel →
        (inner cfg steps fuel (chain j) (chain (j + 1)) it).eval g = .ok (.returns (chain (j + k + 2))) := by
      intro k
      induction k with
      | zero =>
        intro j it fuel h1 h2
        obtain ⟨fuel, rfl⟩ : ∃ n, fuel = n + 1 := ⟨fuel - 1, by omega⟩
        rw [step, if_pos (by omega)]
      | succ k ih =>
        intro j it fuel h1 h2
        obtain ⟨fuel, rfl⟩ : ∃ n, fuel = n + 1 := ⟨fuel - 1, by omega⟩
        rw [step, if_neg (by omega), ih (j + 1) (it + 1) fuel (by omega) (by omega), show j + 1 + k + 2 = j + (k + 1) + 2 by omega]
    intro k fuel h1 h2
    have := key k 0 it fuel h1 h2
    simpa using this
  · have key : ∀ (fuel j it : Nat), cfg.maxIterations ≤ it →
        (inner cfg steps fuel (chain j) (chain (j + 1)) it).eval g = (outOfFuel : Prog R (Inner R)).eval g := by
      intro fuel
      induction fuel with
      | zero => intro j it _; rfl
      | succ fuel ih =>
        intro j it h
        rw [step, if_neg (by omega)]
        exact ih (j + 1) (it + 1) (by omega)
    exact fun h fuel => key fuel 0 it h

/-! ### Examples with `Dbl` -/

/-- `|x - y| < 1e-10` coordinate by coordinate, with NaN semantics. -/
def dblLib : Lib Dbl :=
  ⟨fun x => x, fun v w => decide (v.length = w.length) &&
    (List.zipWith (fun x y => decide ((if x - y < 0 then -(x - y) else x - y) < (.num (1 / 10000000000)))) v w).all id⟩

/-- `-x` up to 3 and NaN beyond (like a logarithm or a square root outside its domain). -/
def cliff (v : List Dbl) : Dbl := if v.headD 0 ≤ .num 3 then -(v.headD 0) else .nan

/-- The points 3, 5, 7, ... -/
def cliffChain (k : Nat) : List Dbl := [.num (2 * k + 3)]

/-- **C88 (falling off).** From 0, where the value is a number, the search on `cliff` reaches the minimum 3 and leaves it for the region
where the function is NaN: with any iteration limit `n ≥ 2` it returns `2n + 1`, where the value is NaN. -/
theorem C88_falls_off (n fuel : Nat) (hn : 2 ≤ n) (hf : n < fuel) (divider precision : Dbl) :
    (find dblLib ⟨.num 2, .num 1, n, precision, divider⟩ fuel [.num 0]).eval cliff = .ok [.num (2 * n + 1)] ∧
      nan (cliff [.num (2 * n + 1)]) ∧ cliff [.num 0] = .num 0 := by
  have hnan : ∀ q : ℚ, 3 < q → cliff [.num q] = .nan := by
    intro q hq
    have : ¬ (Dbl.num q ≤ Dbl.num 3) := by
      rw [Dbl.le_def]
      simp [Dbl.leb, hq]
    simp [cliff, this]
  have hlast : nan (cliff [.num (2 * (n : ℚ) + 1)]) := by
    have : (2 : ℚ) ≤ n := by exact_mod_cast hn
    exact hnan _ (by linarith)
  refine ⟨?_, hlast, by decide +kernel⟩
  obtain ⟨m, rfl⟩ : ∃ m, fuel = m + 3 := ⟨fuel - 3, by omega⟩
  obtain ⟨k, rfl⟩ : ∃ k, n = k + 2 := ⟨n - 2, by omega⟩
  have c0 : (coordinatewise [Dbl.num 0] [.num 1]).eval cliff = .ok [.num 1] := by decide +kernel
  have c1 : (coordinatewise [Dbl.num 2] [.num 1]).eval cliff = .ok [.num 3] := by decide +kernel
  have e0 : dblLib.areEqual [.num 0] [.num 1] = false := by decide +kernel
  have p0 : patternMove (⟨.num 2, .num 1, k + 2, precision, divider⟩ : Config Dbl) [.num 0] [.num 1] = [.num 2] := by
    simp only [patternMove, List.zipWith]
    decide +kernel
  have p1 : patternMove (⟨.num 2, .num 1, k + 2, precision, divider⟩ : Config Dbl) [.num 1] [.num 3] = [.num 5] := by
    simp only [patternMove, List.zipWith]
    decide +kernel
  have v1 : ¬ (cliff [.num 1] ≤ cliff [.num 3]) := by decide +kernel
  have n5 : nan (cliff [.num 5]) := hnan 5 (by norm_num)
  have v3 : ¬ (cliff [.num 3] ≤ cliff [.num 5]) := not_le_nan_right n5
  have hch : ∀ j : Nat, cliffChain j = [.num (2 * j + 3)] := fun _ => rfl
  have chain := (C88_pattern_runs_on cliff ⟨.num 2, .num 1, k + 2, precision, divider⟩ [.num 1] cliffChain (fun _ => rfl)
    (fun j => by
      simp only [patternMove, hch, List.zipWith]
      have : (Dbl.num (2 * (j : ℚ) + 3)) + .num 2 * (.num (2 * ((j + 1 : ℕ) : ℚ) + 3) - .num (2 * (j : ℚ) + 3)) =
          .num ((2 * (j : ℚ) + 3) + 2 * ((2 * ((j + 1 : ℕ) : ℚ) + 3) + -(2 * (j : ℚ) + 3))) := rfl
      rw [this]
      congr 2
      push_cast
      ring)
    (fun j => by
      rw [hch]
      refine hnan _ ?_
      have : (0 : ℚ) ≤ j := Nat.cast_nonneg j
      push_cast
      linarith) 2).1
  have hin : (inner (⟨.num 2, .num 1, k + 2, precision, divider⟩ : Config Dbl) [.num 1] (m + 2) [.num 0] [.num 1] 0).eval cliff =
      .ok (.returns [.num (2 * ((k + 2 : ℕ) : ℚ) + 1)]) := by
    rw [inner, p0, Prog.eval_bind, c1]
    simp only [Res.ok_bind, Prog.eval_bind, Prog.eval_askMin, if_neg v1]
    rw [if_neg (by omega), inner, p1, Prog.eval_bind, C88_exploration_stuck cliff [.num 5] [.num 1] rfl n5]
    simp only [Res.ok_bind, Prog.eval_bind, Prog.eval_askMin, if_neg v3]
    cases k with
    | zero =>
      simp only [Nat.zero_add, if_true]
      have : (Dbl.num (2 * ((2 : ℕ) : ℚ) + 1)) = .num 5 := by norm_num
      rw [this]
      rfl
    | succ k =>
      rw [if_neg (by omega)]
      have e3 : cliffChain 0 = [.num 3] := by rw [hch]; norm_num
      have e5 : cliffChain 1 = [.num 5] := by rw [hch]; norm_num
      have := chain k m (show 2 + k + 1 = k + 1 + 2 by omega) (by omega)
      rw [e3, e5, hch] at this
      rw [this]
      congr 4
      push_cast
      ring
  have hrep : List.replicate [Dbl.num 0].length (Dbl.num 1) = [.num 1] := rfl
  simp only [find, hrep, outer, Prog.eval_bind, c0, Res.ok_bind, e0, Bool.false_eq_true, if_false, hin]
  rfl

/-- **C88 (worse).** If the region where the function is NaN is bounded, the search can come out on the other side and return a point
that is worse than the starting point: here it starts at value 0 and returns a point with value 100. -/
theorem C88_may_get_worse :
    ∃ (g : List Dbl → Dbl) (cfg : Config Dbl) (r : List Dbl), (find dblLib cfg 20 [.num 0]).eval g = .ok r ∧ g [.num 0] < g r := by
  refine ⟨fun v => if v.headD 0 ≤ .num 3 then -(v.headD 0) else if v.headD 0 < .num 8 then .nan else .num 100,
    ⟨.num 2, .num 1, 50, .num (1 / 2), .num 2⟩, [.num 9], ?_, ?_⟩ <;> decide +kernel

/-- Non-vacuity of `C88_unlimited` and of `C88_numbers_never_worse`: a run on `(x - 3)²`, which is a number everywhere. -/
example : (find dblLib ⟨.num 2, .num 1, 0, .num (1 / 2), .num 2⟩ 10 [.num 0]).eval
    (fun v => (v.headD 0 - .num 3) * (v.headD 0 - .num 3)) = .ok [.num 3] := by decide +kernel

/-- Non-vacuity of `C88_nan_start`. -/
example : (find dblLib ⟨.num 2, .num 1, 0, .num (1 / 2), .num 2⟩ 10 [.num 7]).eval cliff = .ok [.num 7] := by decide +kernel

end K52.HookeJeeves
