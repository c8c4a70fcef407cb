import Verif.Model.Processors
import Verif.Spec.Ieee

/-! # C87: choosing the best candidate when objective values may be NaN -/

set_option linter.unusedSectionVars false

namespace K52.Processor
open IeeeOrder

variable {P R : Type} [LT R] [LE R] [DecidableLT R] [IeeeOrder R]

/-! ### The loop -/

/-- Maximizing, a NaN keeps being the choice. -/
theorem selectLoop_max_nan {v : R} (hv : nan v) : ∀ (vs : List R) (k i : Nat), selectLoop true k v i vs = k
  | [], _, _ => rfl
  | w :: vs, k, i => by
    simp only [selectLoop, gt_iff_lt, not_lt_nan_left hv, decide_false, if_true, Bool.false_eq_true, if_false]
    exact selectLoop_max_nan hv vs k (i + 1)

/-! ### The processors -/

theorem simple_cons (f : P → R) (p : P) (ps : List P) (m : Bool) :
    simple f (p :: ps) m =
      match (p :: ps)[selectLoop m 0 (f p) 1 (ps.map f)]? with
      | some q => .ok q
      | none => .ub := rfl

/-- **C87 (maximizing, first value NaN).** A NaN value of the first candidate hides all others. -/
theorem C87_max_first (f : P → R) (p : P) (ps : List P) (h : nan (f p)) : simple f (p :: ps) true = .ok p := by
  rw [simple_cons, selectLoop_max_nan h]
  rfl

/-- The element the loop points to, computed along with it. -/
def pick (f : P → R) (m : Bool) : P → List P → P
  | b, [] => b
  | b, q :: qs =>
    let condition := decide (f q > f b)
    if (if m then condition else !condition) then pick f m q qs else pick f m b qs

theorem pick_eq (f : P → R) (m : Bool) : ∀ (ps done : List P) (b : P) (k : Nat), done[k]? = some b →
    (done ++ ps)[selectLoop m k (f b) done.length (ps.map f)]? = some (pick f m b ps)
  | [], done, b, k, h => by simpa [selectLoop, pick] using h
  | q :: ps, done, b, k, h => by
    simp only [List.map_cons, selectLoop, pick]
    rw [show done ++ q :: ps = (done ++ [q]) ++ ps by simp]
    generalize (if m = true then decide (f q > f b) else !decide (f q > f b)) = c
    cases c
    rotate_left
    · have := pick_eq f m ps (done ++ [q]) q done.length (by simp)
      simpa using this
    · have := pick_eq f m ps (done ++ [q]) b k (by
        rw [List.getElem?_append_left]
        · exact h
        · exact (List.getElem?_eq_some_iff.1 h).1)
      simpa using this

theorem simple_pick (f : P → R) (m : Bool) (p : P) (ps : List P) : simple f (p :: ps) m = .ok (pick f m p ps) := by
  rw [simple_cons]
  have := pick_eq f m ps [p] p 0 rfl
  simp only [List.singleton_append, List.length_singleton] at this
  rw [this]

/-- **C87 (maximizing, other values NaN).** If the first value is a number, candidates with value NaN are ignored. -/
theorem C87_max_skip (f : P → R) (p : P) (ps : List P) (h : ¬ nan (f p)) [DecidablePred fun q => ¬ nan (f q)] :
    simple f (p :: ps) true = simple f (p :: ps.filter fun q => ¬ nan (f q)) true := by
  rw [simple_pick, simple_pick]
  congr 1
  clear h
  induction ps generalizing p with
  | nil => rfl
  | cons q qs ih =>
    by_cases hq : nan (f q)
    · simp only [pick, gt_iff_lt, not_lt_nan_right hq, decide_false, if_true, Bool.false_eq_true, if_false, hq, not_true_eq_false,
        not_false_eq_true, List.filter_cons_of_neg]
      exact ih p
    · rw [List.filter_cons_of_pos (by simpa using hq)]
      simp only [pick]
      split_ifs <;> first | exact ih q | exact ih p

/-- **C87 (minimizing).** Every candidate up to and including the last one with value NaN is ignored, however good. -/
theorem C87_min_forgets (f : P → R) (xs : List P) (y z : P) (zs : List P) (h : nan (f y)) :
    simple f (xs ++ y :: z :: zs) false = simple f (z :: zs) false := by
  have key : ∀ (xs : List P) (b : P), pick f false b (xs ++ y :: z :: zs) = pick f false z zs := by
    intro xs
    induction xs with
    | nil => intro b; simp [pick, not_lt_nan_left h, not_lt_nan_right h]
    | cons x xs ih =>
      intro b
      simp only [List.cons_append, pick]
      split_ifs <;> first | exact ih x | exact ih b
  rw [simple_pick]
  cases xs with
  | nil => rw [List.nil_append, simple_pick]; simp [pick, not_lt_nan_left h]
  | cons x xs => rw [List.cons_append, simple_pick, key]

/-- **C87 (minimizing, last value NaN).** ... and if that is the last candidate, it is the result. -/
theorem C87_min_last (f : P → R) (xs : List P) (y : P) (h : nan (f y)) : simple f (xs ++ [y]) false = .ok y := by
  have key : ∀ (xs : List P) (b : P), pick f false b (xs ++ [y]) = y := by
    intro xs
    induction xs with
    | nil => intro b; simp [pick, not_lt_nan_right h]
    | cons x xs ih =>
      intro b
      simp only [List.cons_append, pick]
      split_ifs <;> first | exact ih x | exact ih b
  cases xs with
  | nil => exact simple_pick f false y []
  | cons x xs => rw [List.cons_append, simple_pick, key]

/-- `x` is better than `y`. -/
def Better (m : Bool) (x y : R) : Prop := if m then y < x else x < y

theorem Better.num {m : Bool} {x y : R} (h : Better m x y) : ¬ nan x ∧ ¬ nan y := by
  cases m
  · exact lt_num h
  · exact (lt_num h).symm

theorem Better.trans {m : Bool} {x y z : R} (h : Better m x y) (h' : Better m y z) : Better m x z := by
  cases m
  · exact lt_trans (a := x) (b := y) h h'
  · exact lt_trans (a := z) (b := y) h' h

theorem Better.split {m : Bool} {x y z : R} (h : Better m x z) (hy : ¬ nan y) : Better m x y ∨ Better m y z := by
  cases m
  · exact lt_split (a := x) h hy
  · exact (lt_split (a := z) h hy).symm

/-- **C87 (all values numbers).** Without NaN the result is a candidate and none is better, also when zeros of both signs and
infinities are among the values. -/
theorem C87_numbers (f : P → R) (p : P) (ps : List P) (m : Bool) (h : ∀ q ∈ p :: ps, ¬ nan (f q)) :
    ∃ r ∈ p :: ps, simple f (p :: ps) m = .ok r ∧ ∀ q ∈ p :: ps, ¬ Better m (f q) (f r) := by
  refine ⟨pick f m p ps, ?_, simple_pick f m p ps, ?_⟩
  · clear h
    induction ps generalizing p with
    | nil => simp [pick]
    | cons q qs ih =>
      have h1 : pick f m q qs ∈ p :: q :: qs := List.mem_cons_of_mem _ (ih q)
      have h2 : pick f m p qs ∈ p :: q :: qs := by
        rcases List.mem_cons.1 (ih p) with e | e
        · rw [e]; simp
        · simp [e]
      simp only [pick]
      split_ifs <;> assumption
  · have key : ∀ (ps : List P) (b : P), (∀ q ∈ b :: ps, ¬ nan (f q)) → (¬ Better m (f b) (f (pick f m b ps))) ∧
        (¬ nan (f (pick f m b ps))) ∧ ∀ q ∈ ps, ¬ Better m (f q) (f (pick f m b ps)) := by
      intro ps
      induction ps with
      | nil =>
        intro b hb
        refine ⟨?_, hb b (by simp), by simp⟩
        cases m <;> exact IeeeOrder.lt_irrefl _
      | cons q qs ih =>
        intro b hb
        have hq : ¬ nan (f q) := hb q (by simp)
        have hbn : ¬ nan (f b) := hb b (by simp)
        simp only [pick]
        by_cases c : f q > f b
        · cases m
          · simp only [c, decide_true, Bool.false_eq_true, if_false, Bool.not_true]
            obtain ⟨i1, i2, i3⟩ := ih b (fun r hr => hb r (by
              rcases List.mem_cons.1 hr with rfl | hr
              · simp
              · simp [hr]))
            refine ⟨i1, i2, fun r hr => ?_⟩
            rcases List.mem_cons.1 hr with rfl | hr
            · intro hlt
              exact i1 (Better.trans (m := false) (show Better false (f b) (f r) from c) hlt)
            · exact i3 r hr
          · simp only [c, decide_true, if_true]
            obtain ⟨i1, i2, i3⟩ := ih q (fun r hr => hb r (by
              rcases List.mem_cons.1 hr with rfl | hr
              · simp
              · simp [hr]))
            refine ⟨fun hlt => i1 (Better.trans (m := true) (show Better true (f q) (f b) from c) hlt), i2, fun r hr => ?_⟩
            rcases List.mem_cons.1 hr with rfl | hr
            · exact i1
            · exact i3 r hr
        · cases m
          · simp only [c, decide_false, Bool.false_eq_true, if_false, Bool.not_false, if_true]
            obtain ⟨i1, i2, i3⟩ := ih q (fun r hr => hb r (by
              rcases List.mem_cons.1 hr with rfl | hr
              · simp
              · simp [hr]))
            refine ⟨fun hlt => ?_, i2, fun r hr => ?_⟩
            · rcases Better.split (m := false) hlt hq with h1 | h1
              · exact c h1
              · exact i1 h1
            · rcases List.mem_cons.1 hr with rfl | hr
              · exact i1
              · exact i3 r hr
          · simp only [c, decide_false, Bool.false_eq_true, if_false, if_true]
            obtain ⟨i1, i2, i3⟩ := ih b (fun r hr => hb r (by
              rcases List.mem_cons.1 hr with rfl | hr
              · simp
              · simp [hr]))
            refine ⟨i1, i2, fun r hr => ?_⟩
            rcases List.mem_cons.1 hr with rfl | hr
            · intro hlt
              rcases Better.split (m := true) hlt hbn with h1 | h1
              · exact c h1
              · exact i1 h1
            · exact i3 r hr
    intro q hq
    rcases List.mem_cons.1 hq with rfl | hq
    · exact (key ps q h).1
    · exact (key ps p h).2.2 q hq

/-- **C87 (multi-start).** The processor that optimizes every candidate first chooses among the optimized candidates like
`SimpleParametersProcessor`. -/
theorem C87_optimization (optimizer : P → Bool → P) (f : P → R) (p : P) (ps : List P) (m : Bool) :
    optimization optimizer f (p :: ps) m = simple f ((p :: ps).map fun q => optimizer q m) m := rfl

/-- Non-vacuity: minimizing `5, 1, NaN, 3, 4` gives 3; maximizing gives 5, and `NaN, 5, 1` gives NaN. -/
example : simple (fun x : Dbl => x) [.num 5, .num 1, .nan, .num 3, .num 4] false = .ok (.num 3) ∧
    simple (fun x : Dbl => x) [.num 4, .num 1, .nan, .num 5] true = .ok (.num 5) ∧
    simple (fun x : Dbl => x) [.nan, .num 5, .inf false] true = .ok .nan := by decide +kernel

end K52.Processor

namespace K52.Grid
open IeeeOrder

/-- **C87 (`max_element`).** The scan used by grid search and Nelder-Mead is that of a maximizing processor. -/
theorem C87_max_element {S : Type} [LT S] [DecidableLT S] : ∀ (vs : List S) (k : Nat) (v : S) (i : Nat),
    maxElement k v i vs = Processor.selectLoop true k v i vs
  | [], _, _, _ => rfl
  | w :: vs, k, v, i => by
    simp only [maxElement, Processor.selectLoop, gt_iff_lt, if_true, decide_eq_true_eq, C87_max_element vs]

variable {R : Type} [Field R] [LinearOrder R] [IsStrictOrderedRing R] [FloorRing R]

/-- **C87 (grid search).** If the function is NaN at the first grid point, that point is the result, whatever the others are.
(For `std::max_element` the standard leaves a range with NaN undefined; this is what the usual implementation, a scan, does.) -/
theorem C87_grid_first {S : Type} [LT S] [LE S] [DecidableLT S] [IeeeOrder S] (precision lower upper : R) (f : List R → S)
    (values : List R) (o : Outcome R) (h : optimize precision lower upper f (.continuous values) = .ok o)
    (hn : ∀ p, o.counted.head? = some p → nan (f p)) : o.counted.head? = some o.values := by
  simp only [optimize] at h
  obtain ⟨size, _, h⟩ := Res.bind_eq_ok.1 h
  split at h
  · cases h
  · obtain ⟨ps, _, h⟩ := Res.bind_eq_ok.1 h
    cases ps with
    | nil => cases h
    | cons p ps =>
      simp only [List.map_cons] at h
      split at h
      · next q hq =>
        simp only [Res.pure_eq, Res.ok.injEq] at h
        subst h
        rw [C87_max_element, Processor.selectLoop_max_nan (hn p rfl)] at hq
        simpa using hq
      · cases h

end K52.Grid
