import Verif.Model.Search
import Verif.Props.Random
import Verif.Props.Processors
import Verif.Props.Continuous
import Mathlib.Analysis.SpecialFunctions.Exp

/-! # C46: random search and simulated annealing -/

set_option linter.unusedSectionVars false

namespace K52.RandomSearch
variable {R : Type} [Field R] [LinearOrder R] [IsStrictOrderedRing R]

/-- A point of the given dimension inside the bounds. -/
def InBox (lower upper : R) (n : Nat) (x : List R) : Prop := x.length = n ∧ ∀ y ∈ x, lower ≤ y ∧ y ≤ upper

theorem vector_valid {l : Random.Lib} (h : l.Valid) (a b : R) : ∀ (n : Nat), (Random.vector l n a b).2.Valid := by
  intro n
  induction n generalizing l with
  | zero => exact h
  | succ n ih => exact ih (l := (Random.continuous l a b).2) (Random.rand_valid h)

theorem candidates_spec (p : CParams R) (lower upper : R) (hb : lower ≤ upper) : ∀ (n : Nat) (l : Random.Lib), l.Valid →
    ∃ cs l', candidates p p.values.length lower upper n l = .ok (cs, l') ∧ l'.Valid ∧ cs.length = n ∧
      ∀ c ∈ cs, InBox lower upper p.values.length c.values ∧ c.ok = p.ok
  | 0, l, h => ⟨[], l, rfl, h, rfl, by simp⟩
  | n + 1, l, h => by
    obtain ⟨v1, v2⟩ := Random.C36_vector l h p.values.length lower upper hb
    obtain ⟨cs, l', e, hl, hn, hc⟩ := candidates_spec p lower upper hb n _ (vector_valid h lower upper p.values.length)
    refine ⟨⟨(Random.vector l p.values.length lower upper).1, p.ok⟩ :: cs, l', ?_, hl, by simp [hn], ?_⟩
    · simp only [candidates]
      have : p.clone.setValues (Random.vector l p.values.length lower upper).1 =
          (⟨(Random.vector l p.values.length lower upper).1, p.ok⟩, .ok ()) := CParams.setValues_ok (p := p.clone) v1
      rw [this]
      simp only [e, Res.ok_bind, Res.pure_eq]
    · intro c hcm
      simp only [List.mem_cons] at hcm
      rcases hcm with rfl | hcm
      · exact ⟨⟨v1, v2⟩, rfl⟩
      · exact hc c hcm

/-- **C46 (random search).** For every stream of random numbers, ordered bounds and at least one point, random search without an inner
optimizer looks at exactly the configured number of points, all within the bounds, and leaves in the parameters one of them than which
none is better; with zero points it throws. -/
theorem C46_random_search (points : Nat) (lower upper : R) (hb : lower ≤ upper) (l : Random.Lib) (hl : l.Valid) (maximize : Bool)
    (f : List R → R) (p : CParams R) :
    (points = 0 → (optimize ⟨points, lower, upper, none⟩ l maximize f p).2.threw ∧
      (optimize ⟨points, lower, upper, none⟩ l maximize f p).1 = p) ∧
    (0 < points → ∃ (looked : List (List R)) (l' : Random.Lib) (v : List R),
      optimize ⟨points, lower, upper, none⟩ l maximize f p = ({ p with values := v }, .ok l') ∧ l'.Valid ∧
      looked.length = points ∧ (∀ x ∈ looked, InBox lower upper p.values.length x) ∧
      v ∈ looked ∧ ∀ x ∈ looked, if maximize then f x ≤ f v else f v ≤ f x) := by
  obtain ⟨cs, l', e, hv, hn, hc⟩ := candidates_spec p lower upper hb points l hl
  refine ⟨?_, ?_⟩
  · rintro rfl
    have : cs = [] := by simpa using hn
    subst this
    simp [optimize, find, CParams.getValues, e, Processor.simple, Res.threw]
  · intro hp
    rcases Processor.C39_simple (fun q : CParams R => f q.getValues) cs maximize with ⟨h0, _⟩ | ⟨_, k, b, hs, _, _⟩
    · subst h0; simp at hn; omega
    obtain ⟨hm, hbest⟩ := Processor.C39_simple_best _ _ _ _ hs
    refine ⟨cs.map (·.values), l', b.values, ?_, hv, by simp [hn], ?_, List.mem_map.2 ⟨b, hm, rfl⟩, ?_⟩
    · simp only [optimize, find, CParams.getValues] at hs ⊢
      rw [e]
      simp only [Res.ok_bind, hs, Res.pure_eq, CParams.setValues_ok (hc b hm).1.1]
    · intro x hx
      obtain ⟨c, hcm, rfl⟩ := List.mem_map.1 hx
      exact (hc c hcm).1
    · intro x hx
      obtain ⟨c, hcm, rfl⟩ := List.mem_map.1 hx
      exact hbest c hcm

/-- **C46 (random search with an inner optimizer).** Then the parameters hold the result of the inner optimizer started at a point within
the bounds, and no start leads to a better result (when that optimizer keeps the dimension). -/
theorem C46_random_search_inner (points : Nat) (hpts : 0 < points) (lower upper : R) (hb : lower ≤ upper)
    (o : CParams R → Bool → CParams R) (ho : ∀ q m, (o q m).values.length = q.values.length)
    (l : Random.Lib) (hl : l.Valid) (maximize : Bool) (f : List R → R) (p : CParams R) :
    ∃ (starts : List (CParams R)) (l' : Random.Lib) (s : CParams R),
      optimize ⟨points, lower, upper, some o⟩ l maximize f p = ({ p with values := (o s maximize).values }, .ok l') ∧
      starts.length = points ∧ (∀ c ∈ starts, InBox lower upper p.values.length c.values ∧ c.ok = p.ok) ∧ s ∈ starts ∧
      ∀ c ∈ starts, if maximize then f (o c maximize).values ≤ f (o s maximize).values
        else f (o s maximize).values ≤ f (o c maximize).values := by
  obtain ⟨cs, l', e, hv, hn, hc⟩ := candidates_spec p lower upper hb points l hl
  have hne : cs ≠ [] := by intro h; subst h; simp at hn; omega
  obtain ⟨k, s, hk, hs, v, hv', hbest⟩ := (Processor.C39_optimization o (fun q : CParams R => f q.getValues) cs maximize).2 hne
  have hm : s ∈ cs := List.mem_of_getElem? hk
  rw [List.getElem?_map, hk] at hv'
  obtain rfl : f (o s maximize).getValues = v := by simpa using hv'
  refine ⟨cs, l', s, ?_, hn, hc, hm, ?_⟩
  · simp only [optimize, find, CParams.getValues] at hs ⊢
    rw [e]
    simp only [Res.ok_bind, hs, Res.pure_eq]
    have : (o s maximize).values.length = p.values.length := by rw [ho]; exact (hc s hm).1.1
    rw [CParams.setValues_ok this]
  · intro c hcm
    obtain ⟨i, hi⟩ := List.mem_iff_getElem?.1 hcm
    have hi' : (cs.map fun q => f (o q maximize).getValues)[i]? = some (f (o c maximize).getValues) := by
      rw [List.getElem?_map, hi]; rfl
    cases maximize
    · simp only [Bool.false_eq_true, if_false] at hbest ⊢; exact hbest.1 i _ hi'
    · simp only [if_true] at hbest ⊢; exact hbest.1 i _ hi'

/-- Non-vacuity: a concrete stream; the parameters end at the better of two random points. -/
example : (optimize (R := ℚ) ⟨2, 0, 10, none⟩ ⟨10, fun i => (i * 3 + 2) % 11⟩ true (fun x => x.sum) (CParams.ofValues [0, 0])).1.values =
    [8, 0] := by decide +kernel

end K52.RandomSearch

namespace K52.Annealing
variable {R : Type} [Field R] [LinearOrder R] [IsStrictOrderedRing R]

/-- What is used of the library's exponential: it maps non-positive numbers to probabilities. -/
def ExpOk (exp : R → R) : Prop := ∀ x ≤ 0, 0 ≤ exp x ∧ exp x ≤ 1

/-- Every coordinate is the initial one or lies within the bounds. -/
def Stays (cfg : Config R) (initial x : List R) : Prop :=
  x.length = initial.length ∧ ∀ (i : Nat) y, x[i]? = some y → initial[i]? = some y ∨ (cfg.min ≤ y ∧ y ≤ cfg.max)

/-- `y` differs from `x` in at most one coordinate, whose new value lies within the bounds. -/
def Neighbour (cfg : Config R) (x y : List R) : Prop :=
  ∃ i v, i < x.length ∧ cfg.min ≤ v ∧ v ≤ cfg.max ∧ y = x.set i v

theorem neighbour_spec (cfg : Config R) (hb : cfg.min ≤ cfg.max) {l : Random.Lib} (hl : l.Valid) {x : List R} (hx : x ≠ [])
    (hlen : x.length ≤ 2147483647) :
    ∃ y l', neighbour cfg l x = .ok (y, l') ∧ l'.Valid ∧ Neighbour cfg x y ∧ l'.randMax = l.randMax ∧
      (∀ i, l'.stream i = l.stream (i + 2)) := by
  have hpos : 0 < x.length := List.length_pos_iff.2 hx
  have hi : toInt ((x.length : Int) - 1) = (x.length : Int) - 1 := by
    unfold toInt
    rw [Int.bmod_eq_of_le] <;> omega
  have hok : Random.DiscreteOk 0 ((x.length : Int) - 1) := ⟨by omega, by omega, by omega, by omega⟩
  obtain ⟨v, hv, hv1, hv2⟩ : ∃ v, Random.discrete l 0 ((x.length : Int) - 1) = .ok (v, (Random.rand l).2) ∧ 0 ≤ v ∧
      v ≤ (x.length : Int) - 1 := by
    obtain ⟨v, l', h1, h2⟩ := Random.C36_discrete_range l 0 _ hok
    have : l' = (Random.rand l).2 := by
      simp only [Random.discrete, Res.bind_eq_ok] at h1
      obtain ⟨d, _, n, _, h1⟩ := h1
      split at h1
      · simp at h1
      · simp only [Res.bind_eq_ok] at h1
        obtain ⟨r, _, h1⟩ := h1
        simp only [Res.pure_eq, Res.ok.injEq, Prod.mk.injEq] at h1
        exact h1.2.symm
    subst this
    exact ⟨v, h1, h2.1, h2.2⟩
  obtain ⟨c1, c2, _⟩ := Random.C36_continuous (Random.rand l).2 (Random.rand_valid hl) cfg.min cfg.max hb
  refine ⟨x.set v.toNat (Random.continuous (Random.rand l).2 cfg.min cfg.max).1, _, ?_,
    Random.rand_valid (Random.rand_valid hl), ⟨v.toNat, _, by omega, c1, c2, rfl⟩, rfl, fun i => rfl⟩
  simp only [neighbour, hi, hv, Res.ok_bind]
  rw [if_pos ⟨hv1, by omega⟩]
  rfl

theorem stays_set {cfg : Config R} {initial x y : List R} (h : Stays cfg initial x) (hn : Neighbour cfg x y) : Stays cfg initial y := by
  obtain ⟨i, v, hi, h1, h2, rfl⟩ := hn
  refine ⟨by rw [List.length_set]; exact h.1, fun j y hj => ?_⟩
  rw [List.getElem?_set] at hj
  split at hj
  · simp only [hi, if_true, Option.some.injEq] at hj
    subst hj
    exact Or.inr ⟨h1, h2⟩
  · exact h.2 j y hj

/-- The relative frequency with which `rand()` decides: the quotient compared with the probability. -/
def draw (l : Random.Lib) (i : Nat) : R := (l.stream i : R) / (l.randMax : R)

theorem step_spec (exp : R → R) (hexp : ExpOk exp) (cfg : Config R) (hb : cfg.min ≤ cfg.max) (g : List R → R) (i : Nat)
    {l : Random.Lib} (hl : l.Valid) {x : List R} (hx : x ≠ []) (hlen : x.length ≤ 2147483647) :
    ∃ y, Neighbour cfg x y ∧ (step exp cfg i x l).trace g = [x, y] ∧
      ∃ l', l'.Valid ∧ (∀ j, l'.stream j = l.stream (j + 3)) ∧ l'.randMax = l.randMax ∧
      ∃ accepted : Bool, (step exp cfg i x l).eval g = .ok (if accepted then y else x, l') ∧
        (g y < g x → accepted = true) ∧
        (g x ≤ g y → 0 < temperature cfg i → (accepted = true ↔ draw l 2 ≤ exp ((g x - g y) / temperature cfg i))) ∧
        (g x ≤ g y → temperature cfg i = 0 → (accepted = true ↔ g x ≠ g y ∧ l.stream 2 = 0)) := by
  obtain ⟨y, l1, e, hv1, hn, hr, hstr⟩ := neighbour_spec cfg hb hl hx hlen
  have ht : 0 ≤ temperature cfg i := by unfold temperature; positivity
  have hbase : (Random.base (R := R) l1).1 = draw l 2 := by
    simp only [Random.base, Random.rand, draw, hr, hstr 0]
  have hm : (0 : R) < (l.randMax : R) := by exact_mod_cast hl.1
  have hdraw : 0 ≤ draw (R := R) l 2 ∧ draw (R := R) l 2 ≤ 1 := by
    rw [← hbase]; exact Random.base_range hv1
  have hevent : ∀ p : R, 0 ≤ p → p ≤ 1 → Random.event l1 p = .ok (decide (draw (R := R) l 2 ≤ p), (Random.rand l1).2) := by
    intro p h0 h1
    simp only [Random.event, Random.validateProbability, not_lt.2 h0, gt_iff_lt, not_lt.2 h1, or_self, if_false, Res.ok_bind, hbase,
      Res.pure_eq]
  have hrest : (Random.rand l1).2.Valid ∧ (∀ j, (Random.rand l1).2.stream j = l.stream (j + 3)) ∧
      (Random.rand l1).2.randMax = l.randMax := by
    refine ⟨Random.rand_valid hv1, fun j => ?_, hr⟩
    simp only [Random.rand, hstr]
  refine ⟨y, hn, ?_, (Random.rand l1).2, hrest.1, hrest.2.1, hrest.2.2, ?_⟩
  · simp only [step, Prog.lift, e, Prog.askMin, Prog.done_ok_bind, Prog.ask_bind, Prog.trace, if_true]
    rw [Prog.trace_bind]
    simp only [Prog.trace_done, List.nil_append]
    split
    · next a ha => rw [Prog.trace_bind]; simp; split <;> rfl
    · rfl
  · by_cases hlt : g y < g x
    · refine ⟨true, ?_, fun _ => rfl, fun h => absurd hlt (not_lt.2 h), fun h => absurd hlt (not_lt.2 h)⟩
      have ha : acceptance exp (g x) (g y) (temperature cfg i) = .ok (.val 1) := by
        simp only [acceptance, not_lt.2 ht, if_false, hlt, if_true]
      simp only [step, Prog.lift, e, Prog.askMin, Prog.done_ok_bind, Prog.ask_bind, Prog.eval, if_true, ha, event]
      rw [hevent 1 zero_le_one le_rfl]
      simp [hdraw.2]
    · rcases ht.eq_or_lt with h0 | hpos
      · by_cases heq : g x = g y
        · refine ⟨false, ?_, fun h => absurd h hlt, fun _ h => absurd h (h0 ▸ lt_irrefl _), fun _ _ => by simp [heq]⟩
          have ha : acceptance exp (g x) (g y) (temperature cfg i) = .ok .nan := by
            unfold acceptance; rw [if_neg (not_lt.2 ht), if_neg hlt, if_pos h0.symm, if_pos heq]
          simp only [step, Prog.lift, e, Prog.askMin, Prog.done_ok_bind, Prog.ask_bind, Prog.eval, if_true, ha, event]
          simp
        · refine ⟨decide (draw (R := R) l 2 ≤ 0), ?_, fun h => absurd h hlt, fun _ h => absurd h (h0 ▸ lt_irrefl _), fun _ _ => ?_⟩
          · have ha : acceptance exp (g x) (g y) (temperature cfg i) = .ok (.val 0) := by
              unfold acceptance; rw [if_neg (not_lt.2 ht), if_neg hlt, if_pos h0.symm, if_neg heq]
            simp only [step, Prog.lift, e, Prog.askMin, Prog.done_ok_bind, Prog.ask_bind, Prog.eval, if_true, ha, event]
            rw [hevent 0 le_rfl zero_le_one]
            rfl
          · rw [decide_eq_true_iff]
            constructor
            · intro h
              refine ⟨heq, ?_⟩
              have : draw (R := R) l 2 = 0 := le_antisymm h hdraw.1
              simp only [draw, div_eq_zero_iff, hm.ne', or_false] at this
              exact_mod_cast this
            · rintro ⟨_, h⟩
              simp [draw, h]
      · have hp : 0 ≤ exp ((g x - g y) / temperature cfg i) ∧ exp ((g x - g y) / temperature cfg i) ≤ 1 :=
          hexp _ (div_nonpos_of_nonpos_of_nonneg (sub_nonpos.2 (not_lt.1 hlt)) ht)
        refine ⟨decide (draw (R := R) l 2 ≤ exp ((g x - g y) / temperature cfg i)), ?_, fun h => absurd h hlt,
          fun _ _ => by simp, fun _ h => absurd h hpos.ne'⟩
        have ha : acceptance exp (g x) (g y) (temperature cfg i) = .ok (.val (exp ((g x - g y) / temperature cfg i))) := by
          simp only [acceptance, not_lt.2 ht, if_false, hlt, hpos.ne']
        simp only [step, Prog.lift, e, Prog.askMin, Prog.done_ok_bind, Prog.ask_bind, Prog.eval, if_true, ha, event]
        rw [hevent _ hp.1 hp.2]
        rfl

theorem loop_spec (exp : R → R) (hexp : ExpOk exp) (cfg : Config R) (hb : cfg.min ≤ cfg.max) (g : List R → R) (initial : List R)
    (hi : initial ≠ []) (hlen : initial.length ≤ 2147483647) : ∀ (n i : Nat) (x : List R) (l : Random.Lib), l.Valid →
    Stays cfg initial x →
    ∃ r l', (loop exp cfg n i x l).eval g = .ok (r, l') ∧ Stays cfg initial r ∧
      ((loop exp cfg n i x l).trace g).length = 2 * n ∧ ∀ z ∈ (loop exp cfg n i x l).trace g, Stays cfg initial z
  | 0, _, x, l, _, hs => ⟨x, l, rfl, hs, rfl, by simp [loop]⟩
  | n + 1, i, x, l, hl, hs => by
    have hx : x ≠ [] := by
      intro h; subst h
      exact hi (List.length_eq_zero_iff.1 hs.1.symm)
    obtain ⟨y, hn, ht, l', hl', _, _, acc, he, _⟩ := step_spec exp hexp cfg hb g i hl hx (by rw [hs.1]; exact hlen)
    have hy := stays_set hs hn
    have hs' : Stays cfg initial (if acc then y else x) := by cases acc <;> simpa
    obtain ⟨r, l2, h1, h2, h3, h4⟩ := loop_spec exp hexp cfg hb g initial hi hlen n (i + 1) _ l' hl' hs'
    refine ⟨r, l2, ?_, h2, ?_, ?_⟩
    · rw [loop, Prog.eval_bind, he]; exact h1
    · rw [loop, Prog.trace_bind_ok g he, List.length_append, ht, h3]; simp; omega
    · intro z hz
      rw [loop, Prog.trace_bind_ok g he, List.mem_append, ht] at hz
      rcases hz with hz | hz
      · simp only [List.mem_cons, List.not_mem_nil, or_false] at hz
        rcases hz with rfl | rfl
        · exact hs
        · exact hy
      · exact h4 z hz

/-- **C46 (simulated annealing).** For every random stream and function, ordered bounds and a non-empty starting point, annealing
returns; every coordinate of the result – and of every point at which the function is evaluated – is the initial one or lies within
the bounds; the function is evaluated exactly twice per configured iteration. -/
theorem C46_annealing (exp : R → R) (hexp : ExpOk exp) (cfg : Config R) (hb : cfg.min ≤ cfg.max) (g : List R → R) (initial : List R)
    (hi : initial ≠ []) (hlen : initial.length ≤ 2147483647) (l : Random.Lib) (hl : l.Valid) :
    ∃ r l', (find exp cfg l initial).eval g = .ok (r, l') ∧ Stays cfg initial r ∧
      ((find exp cfg l initial).trace g).length = 2 * cfg.iterations ∧
      ∀ z ∈ (find exp cfg l initial).trace g, Stays cfg initial z :=
  loop_spec exp hexp cfg hb g initial hi hlen cfg.iterations 1 initial l hl ⟨rfl, fun _ _ h => Or.inl h⟩

/-- **C46 (annealing through `Optimize`).** Optimizing a `ContinuousParametersArray` succeeds and every coordinate it holds afterwards is
the one it held before or lies within the bounds, whether the maximum or the minimum is sought. -/
theorem C46_annealing_optimize (exp : R → R) (hexp : ExpOk exp) (cfg : Config R) (hb : cfg.min ≤ cfg.max) (f : List R → R)
    (maximize : Bool) (initial : List R) (hi : initial ≠ []) (hlen : initial.length ≤ 2147483647) (l : Random.Lib) (hl : l.Valid) :
    let out := ContinuousOptimizer.optimize (fun x => do let r ← find exp cfg l x; return r.1) maximize f (CParams.ofValues initial)
    out.2 = .ok () ∧ Stays cfg initial out.1.values := by
  obtain ⟨r, l', h1, h2, _, h4⟩ := C46_annealing exp hexp cfg hb (ContinuousOptimizer.target maximize f) initial hi hlen l hl
  have ht : ∀ z ∈ (do let r ← find exp cfg l initial; return r.1 : Prog R (List R)).trace (ContinuousOptimizer.target maximize f),
      ContinuousOptimizer.Admissible (CParams.ofValues initial) z := by
    intro z hz
    rw [Prog.trace_bind_ok _ h1] at hz
    simp only [Prog.pure_def, Prog.trace_done, List.append_nil] at hz
    exact ⟨(h4 z hz).1, rfl⟩
  have he : (do let r ← find exp cfg l initial; return r.1 : Prog R (List R)).eval (ContinuousOptimizer.target maximize f) = .ok r := by
    rw [Prog.eval_bind, h1]; rfl
  obtain ⟨c1, c2⟩ := ContinuousOptimizer.C47_optimize (fun x => do let r ← find exp cfg l x; return r.1) maximize f
    (CParams.ofValues initial)
  have hok := c1.2 ⟨r, he, h2.1, ht⟩
  refine ⟨hok, ?_⟩
  have e := (c2 hok).1
  have he' : (do let r ← find exp cfg l (CParams.ofValues initial).values; return r.1 : Prog R (List R)).eval
      (ContinuousOptimizer.target maximize f) = .ok r := he
  rw [he'] at e
  simp only [Res.ok.injEq] at e
  rw [← e]
  exact h2

/-- **C46 (acceptance).** In every iteration the function is evaluated at the current point and at a neighbour (one coordinate replaced
by a value within the bounds).  A better neighbour is always accepted; one that is not better is accepted exactly when the random draw
does not exceed `exp((current - neighbour)/temperature)`; at temperature zero (the last iteration) an equally good one is never accepted
and a worse one only when `rand()` returns 0. -/
theorem C46_acceptance (exp : R → R) (hexp : ExpOk exp) (cfg : Config R) (hb : cfg.min ≤ cfg.max) (g : List R → R) (i : Nat)
    (l : Random.Lib) (hl : l.Valid) (x : List R) (hx : x ≠ []) (hlen : x.length ≤ 2147483647) :
    ∃ y, Neighbour cfg x y ∧ (step exp cfg i x l).trace g = [x, y] ∧
      ∃ (l' : Random.Lib) (accepted : Bool), (step exp cfg i x l).eval g = .ok (if accepted then y else x, l') ∧
        (g y < g x → accepted = true) ∧
        (g x ≤ g y → 0 < temperature cfg i → (accepted = true ↔ draw l 2 ≤ exp ((g x - g y) / temperature cfg i))) ∧
        (g x ≤ g y → temperature cfg i = 0 → (accepted = true ↔ g x ≠ g y ∧ l.stream 2 = 0)) := by
  obtain ⟨y, h1, h2, l', _, _, _, acc, h⟩ := step_spec exp hexp cfg hb g i hl hx hlen
  exact ⟨y, h1, h2, l', acc, h⟩

/-- **C46 (schedule).** The temperature falls linearly, from `1 - 1/n` in the first to 0 in the last of `n` iterations. -/
theorem C46_temperature (cfg : Config R) (i : Nat) (h1 : 1 ≤ i) (hi : i ≤ cfg.iterations) :
    temperature cfg i = 1 - (i : R) / (cfg.iterations : R) ∧ 0 ≤ temperature cfg i ∧ temperature cfg i < 1 := by
  have hn : (0 : R) < (cfg.iterations : R) := by exact_mod_cast (by omega : 0 < cfg.iterations)
  have e : temperature cfg i = 1 - (i : R) / (cfg.iterations : R) := by
    unfold temperature
    rw [Nat.cast_sub hi, sub_div, div_self hn.ne']
  refine ⟨e, by unfold temperature; positivity, ?_⟩
  rw [e]
  have : 0 < (i : R) / (cfg.iterations : R) := div_pos (by exact_mod_cast (by omega : 0 < i)) hn
  linarith

/-- **C46 (empty).** Without parameters, annealing runs into undefined behaviour (a remainder by zero) as soon as it iterates. -/
theorem C46_empty (exp : R → R) (cfg : Config R) (g : List R → R) (l : Random.Lib) (h : 0 < cfg.iterations) :
    (find exp cfg l []).eval g = .ub := by
  obtain ⟨n, hn⟩ := Nat.exists_eq_succ_of_ne_zero h.ne'
  simp only [find, hn, loop, step, Prog.lift, neighbour]
  have : Random.discrete l 0 (toInt (((([] : List R).length : Nat) : Int) - 1)) = .ub := by
    simp [toInt, Random.discrete, int32, Int.bmod]
  rw [this]
  rfl

/-- The real exponential has what is asked of the library's. -/
theorem expOk_real : ExpOk Real.exp := fun x hx => ⟨(Real.exp_pos x).le, Real.exp_le_one_iff.2 hx⟩


/-- Non-vacuity: a concrete run over the rationals with a step function for `exp`. -/
example : ExpOk (fun x : ℚ => if x < -1 then 0 else 1 / 2) ∧
    (match (find (fun x : ℚ => if x < -1 then 0 else 1 / 2) ⟨2, 0, 10⟩ ⟨10, fun i => (i * 3 + 2) % 11⟩ [50, 50]).eval
        (fun x => x.sum) with
      | .ok r => r.1
      | _ => []) = [3, 50] := by
  constructor
  · intro x _
    simp only
    split <;> norm_num
  · decide +kernel

end K52.Annealing
