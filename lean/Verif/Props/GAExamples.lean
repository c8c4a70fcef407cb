import Verif.Props.GA
import Mathlib.Data.List.Sort

/-! # Concrete runs: the hypotheses of C18-C23 are met, and the exceptions they exclude are real -/

set_option linter.unusedSectionVars false

namespace K52.GA.Examples
open K52.Indiv

/-- A two-bit parameter without constraints, as a user-defined `IDiscreteParameters`. -/
structure Two where
  a : Bool
  b : Bool
  deriving DecidableEq, Repr

instance : DiscreteParams Two where
  clone p := .ok p
  size _ := .ok 2
  check _ := .ok true
  setChromosome p chr := if chr.length = 2 then .ok [p.a, p.b] else .throw "invalid_argument"
  setFrom p chr := match chr with
    | [x, y] => (⟨x, y⟩, .ok ())
    | _ => (p, .throw "invalid_argument")
  sameMeta _ _ := .ok true

theorem two_family : Family (fun _ : Two => True) 2 where
  clone p _ := rfl
  size p _ := rfl
  enc p chr out _ h := by
    simp only [DiscreteParams.setChromosome] at h
    split at h
    · next hl => simp only [Res.ok.injEq] at h; subst h; simp [hl]
    · simp at h
  dec p chr q _ h := by
    refine ⟨trivial, fun p' _ => ?_⟩
    simp only [DiscreteParams.setFrom] at *
    split at h
    · exact h
    · simp at h

/-- A mutator that flips the first bit. -/
def flipFirst : MutatorI Unit where
  apply _ _ := ()
  mutate _ l chr := match chr with
    | b :: bs => .ok ((!b) :: bs, (), l)
    | [] => .ok ([], (), l)

theorem flipFirst_keeps : KeepsLength flipFirst := by
  intro mu l chr out mu' l' h
  cases chr with
  | nil => simp only [flipFirst, Res.ok.injEq, Prod.mk.injEq] at h; rw [← h.1]
  | cons b bs => simp only [flipFirst, Res.ok.injEq, Prod.mk.injEq] at h; rw [← h.1]; simp

/-- Insertion sort by decreasing fitness. -/
def sorted (l : List (Indiv Two ℚ)) : List (Indiv Two ℚ) := l.insertionSort (fun x y => y.fitness ≤ x.fitness)

/-- The value of the two bits plus one. -/
def value (p : Two) : ℚ := 1 + (if p.a then 1 else 0) + (if p.b then 2 else 0)

/-- An injective hash. -/
def hash (chr : List Bool) : Nat := chr.foldl (fun h b => 2 * h + (if b then 1 else 0)) 1

def rng : Rng := ⟨⟨7, fun i => (3 * i + 1) % 8⟩, fun i => i % 3 == 0⟩

def config : Config Two ℚ Unit := ⟨4, 1, 3, 100, none, flipFirst, hash, sorted⟩

theorem config_created : create 4 1 3 (some flipFirst) 100 hash sorted = some config := rfl

/-- The numbers of a run: best fitness, returned parameters, all fitnesses, number of evaluations and cache hits. -/
def summary (r : Res (Result Two ℚ Unit)) : Option (ℚ × Two × List (List ℚ) × Nat) :=
  match r with
  | .ok r => some (r.best.fitness, r.params, r.generations.map (·.map Indiv.fitness), r.counter.counts)
  | _ => none

/-- Three generations of four; the second and third use remembered values for all but one individual. -/
theorem run_summary : summary (optimize config 10 value (Counter.new 12 1) () rng ⟨false, false⟩ true) =
    some (4, ⟨true, true⟩, [[2, 3, 1, 2], [4, 1, 3, 2], [3, 4, 4, 3]], 5) := by decide +kernel

/-- The hypotheses of C18, C20, C21 are met. -/
theorem config_setting : Setting (fun _ => True) 2 config (Counter.new 12 1) ⟨false, false⟩ where
  fam := two_family
  built := .create config_created
  sort l := List.perm_insertionSort _ _
  mutator := flipFirst_keeps
  param := trivial
  initial ps h := by simp [config] at h
  counter := new_wf _ _

theorem summary_some {r : Res (Result Two ℚ Unit)} {x : ℚ × Two × List (List ℚ) × Nat} (h : summary r = some x) :
    ∃ res, r = .ok res ∧ x = (res.best.fitness, res.params, res.generations.map (·.map Indiv.fitness), res.counter.counts) := by
  cases r with
  | ok res => simp only [summary, Option.some.injEq] at h; exact ⟨res, rfl, h.symm⟩
  | throw w => simp [summary] at h
  | ub => simp [summary] at h

/-- So are those of C23: two-bit chromosomes have different hashes. -/
example : NoCollision hash (fun chr => chr.length = 2) := by
  intro a b ha hb h
  match a, ha, b, hb with
  | [a1, a2], _, [b1, b2], _ =>
    revert h; revert a1 a2 b1 b2; decide

/-- **C23 (collision, violation).** With a hash that does not tell chromosomes apart, the run returns parameters of value 3 although it
visited an individual whose parameters have value 4 (its fitness was taken from another chromosome's). -/
theorem C23_collision_wrong : ∃ res, optimize { config with hash := fun _ => 0 } 10 value (Counter.new 12 1) () rng ⟨false, false⟩ true = .ok res ∧
    value res.params = 3 ∧ ∃ g ∈ res.generations, ∃ i ∈ g, i.params = some ⟨true, true⟩ ∧ i.fitness = 2 ∧ value ⟨true, true⟩ = 4 := by
  have h : (match optimize { config with hash := fun _ => 0 } 10 value (Counter.new 12 1) () rng ⟨false, false⟩ true with
    | .ok res => decide (value res.params = 3) && res.generations.any (fun g => g.any (fun i =>
        decide (i.params = some ⟨true, true⟩) && decide (i.fitness = 2)))
    | _ => false) = true := by decide +kernel
  split at h
  · next res e =>
    refine ⟨res, e, ?_⟩
    simp only [Bool.and_eq_true, decide_eq_true_eq, List.any_eq_true] at h
    obtain ⟨h1, g, hg, i, hi, h2, h3⟩ := h
    exact ⟨h1, g, hg, i, hi, h2, h3, by decide +kernel⟩
  · simp at h

/-- **C23 (second function, violation).** Running the same object (same counter) a second time with another objective function: the
reported best fitness is the old function's value of the returned parameters, not the new one's. -/
theorem C23_second_function_wrong :
    ∃ res res2, optimize config 10 value (Counter.new 12 1) () rng ⟨false, false⟩ true = .ok res ∧
      optimize config 10 (fun p => 5 - value p) res.counter () rng ⟨false, false⟩ true = .ok res2 ∧
      res2.best.fitness = 4 ∧ res2.params = ⟨true, true⟩ ∧ (fun p => 5 - value p) res2.params = 1 ∧
      ∃ g ∈ res2.generations, ∃ i ∈ g, i.params = some ⟨false, false⟩ := by
  have h : (match optimize config 10 value (Counter.new 12 1) () rng ⟨false, false⟩ true with
    | .ok res =>
      match optimize config 10 (fun p => 5 - value p) res.counter () rng ⟨false, false⟩ true with
      | .ok res2 => decide (res2.best.fitness = 4) && decide (res2.params = ⟨true, true⟩) && decide (5 - value res2.params = 1) &&
          res2.generations.any (fun g => g.any (fun i => decide (i.params = some ⟨false, false⟩)))
      | _ => false
    | _ => false) = true := by decide +kernel
  split at h
  · next res e =>
    split at h
    · next res2 e2 =>
      simp only [Bool.and_eq_true, decide_eq_true_eq, List.any_eq_true] at h
      obtain ⟨⟨⟨h1, h2⟩, h3⟩, g, hg, i, hi, h4⟩ := h
      exact ⟨res, res2, e, e2, h1, h2, h3, g, hg, i, hi, h4⟩
    · simp at h
  · simp at h

/-- **C19 (composites).** Initial parameters can never be used with composite parameters: validation throws whatever they hold. -/
theorem C19_initial_composite (n : Nat) (p : Param ℚ) (cs : ConstSize) (init : Bool) (ms ps : List (Param ℚ)) :
    (validateInitial n p (.comp cs init ms :: ps)).threw := by
  unfold validateInitial
  split
  · trivial
  · have : (DiscreteParams.sameMeta (Param.comp cs init ms) p) = .throw "runtime_error" := by
      cases p <;> rfl
    simp only [validateInitial.go, this]
    trivial

/-- The individual holding value `v` of the integer parameter on [0, 4] (two bits) with chromosome `chr`. -/
def four (v : Int) : Param ℚ := .int ⟨⟨true, 2⟩, v, 0, 4⟩

theorem count_four : IntParam.countChromosomeSize 0 4 = .ok 2 := DblParam.count_pow 2 (by decide)

theorem clone_four (v : Int) : DiscreteParams.clone (four v) = .ok (four v) := by
  have : (four v).clone = .ok (four v) := by
    simp only [four, Param.clone, Param.clone_int (p := ⟨⟨true, 2⟩, v, 0, 4⟩) rfl count_four, Res.ok_bind, Res.pure_eq]
  exact this

theorem init_four : (initWith new (four 4) : Res (Indiv (Param ℚ) ℚ)) = .ok ⟨true, some (four 4), [false, false], false, 0⟩ := by
  unfold initWith
  rw [clone_four, Res.ok_bind]
  rfl

theorem init_zero : (initWith new (four 0) : Res (Indiv (Param ℚ) ℚ)) = .ok ⟨true, some (four 0), [false, false], false, 0⟩ := by
  unfold initWith
  rw [clone_four, Res.ok_bind]
  rfl

/-- The number held by an integer parameter. -/
def intValue : Param ℚ → ℚ
  | .int p => p.value
  | _ => 0

/-- **C21 (initial value at the upper bound, violation).** With initial parameters 4, 4 on the range [0, 4] and an objective equal to the
value, `Optimize` reports best fitness 4 but leaves the parameters at 0: the supplied objects do not survive encoding (C05). -/
theorem C21_initial_max_wrong : ∃ cfg, Built cfg ∧ ∃ res : Result (Param ℚ) ℚ Unit,
    optimize cfg 10 intValue (Counter.new 12 0) () rng (four 0) true = .ok res ∧
    res.best.fitness = 4 ∧ intValue res.params = 0 := by
  have hb : Built (R := ℚ) (⟨2, 0, 1, 4, some [four 4, four 4], flipFirst, hash, id⟩ : Config (Param ℚ) ℚ Unit) := by
    refine .initial (cfg := ⟨2, 0, 1, 4, none, flipFirst, hash, id⟩) (ps := [four 4, four 4])
      (.create (popSize := 2) (elitism := 0) (maxGen := 1) (mutator := some flipFirst) (stop := 4) (hash := hash) (sort := id) rfl) ?_
    simp only [setInitialParameters, cloneN, clone_four, Res.ok_bind, Res.pure_eq]
  refine ⟨_, hb, ?_⟩
  refine ⟨⟨four 0, ⟨true, some (four 4), [false, false], true, 4⟩, [[⟨true, some (four 4), [false, false], true, 4⟩,
    ⟨true, some (four 4), [false, false], true, 4⟩]], ⟨none, 0, 2⟩, (), rng⟩, ?_, rfl, rfl⟩
  have hi : initialPopulation (⟨2, 0, 1, 4, some [four 4, four 4], flipFirst, hash, id⟩ : Config (Param ℚ) ℚ Unit) 10 (four 0) rng =
      .ok ([⟨true, some (four 4), [false, false], false, 0⟩, ⟨true, some (four 4), [false, false], false, 0⟩],
        ⟨true, some (four 0), [false, false], false, 0⟩, rng) := by
    have hv : validateInitial 2 (four 0) [four 4, four 4] = .ok () := rfl
    simp only [initialPopulation, hv, initGiven, init_four, init_zero, Res.ok_bind, Res.pure_eq]
  unfold optimize
  rw [if_pos rfl, hi, Res.ok_bind]
  rfl

end K52.GA.Examples
