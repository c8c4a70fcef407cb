import Verif.Props.GAExamples
import Verif.Spec.Ieee

/-! # C90: fitness values that are NaN or infinite in the genetic algorithm -/

set_option linter.unusedSectionVars false

namespace K52.GA
open K52.Indiv IeeeOrder

/-! ### Sorting -/

section sort
variable {R : Type} [LT R] [LE R] [IeeeOrder R]

/-- Neither of two fitnesses goes before the other in `std::sort(..., GreaterFitness)`. -/
def Tied (a b : R) : Prop := ¬ a > b ∧ ¬ b > a

/-- What `std::sort` requires of its comparison on the elements to be sorted (besides irreflexivity and transitivity, which `>` has):
elements tied with the same element are tied. -/
def SortAllowed (values : List R) : Prop := ∀ a ∈ values, ∀ b ∈ values, ∀ c ∈ values, Tied a b → Tied b c → Tied a c

/-- **C90 (sorting).** Sorting a population by fitness is allowed exactly if no fitness is NaN or no two fitnesses differ: with a NaN
and two different numbers, `std::sort` is undefined. -/
theorem C90_sort (values : List R) :
    SortAllowed values ↔ (∀ v ∈ values, ¬ nan v) ∨ (∀ a ∈ values, ∀ b ∈ values, ¬ a < b) := by
  constructor
  · intro h
    by_contra hc
    push Not at hc
    obtain ⟨⟨v, hv, hn⟩, a, ha, b, hb, hab⟩ := hc
    have h1 : Tied a v := ⟨not_lt_nan_left hn, not_lt_nan_right hn⟩
    have h2 : Tied v b := ⟨not_lt_nan_right hn, not_lt_nan_left hn⟩
    exact (h a ha v hv b hb h1 h2).2 hab
  · rintro (h | h) a ha b hb c hc h1 h2
    · refine ⟨fun hlt => ?_, fun hlt => ?_⟩
      · rcases lt_split (b := b) hlt (h b hb) with e | e
        · exact h2.1 e
        · exact h1.1 e
      · rcases lt_split (b := b) hlt (h b hb) with e | e
        · exact h1.2 e
        · exact h2.2 e
    · exact ⟨h c hc a ha, h a ha c hc⟩

end sort

variable {P R Mu : Type} [DiscreteParams P] [Add R] [Sub R] [Mul R] [Div R] [Neg R] [Zero R] [One R] [NatCast R] [LT R] [LE R]
  [DecidableLT R] [DecidableLE R] [IeeeOrder R] [IeeeArith R]

/-! ### Selection -/

/-- **C90 (accepted).** A negative fitness is rejected when it is stored, NaN is not. -/
theorem C90_nan_accepted (i : Indiv P R) (x : R) (hn : nan x) : setFitness i x = .ok { i with fitness := x, hasFitness := true } := by
  unfold setFitness
  rw [if_neg (not_lt_nan_left hn)]

theorem totalFitness_nan : ∀ (pop : List (Indiv P R)) (acc t : R), totalFitness acc pop = .ok t →
    (nan acc ∨ ∃ i ∈ pop, nan i.fitness) → nan t
  | [], acc, t, h, hn => by
    cases h
    simpa using hn
  | i :: is, acc, t, h, hn => by
    simp only [totalFitness, getFitness] at h
    obtain ⟨x, hx, h⟩ := Res.bind_eq_ok.1 h
    split at hx
    · cases hx
      refine totalFitness_nan is _ t h ?_
      rcases hn with hn | ⟨j, hj, hn⟩
      · exact Or.inl (IeeeArith.add_left _ hn)
      · rcases List.mem_cons.1 hj with rfl | hj
        · exact Or.inl (IeeeArith.add_right _ hn)
        · exact Or.inr ⟨j, hj, hn⟩
    · cases hx

theorem wheel_nan {target : R} (hn : nan target) : ∀ (pop : List (Indiv P R)) (current : R) (k : Nat),
    wheel target current pop k = .throw "logic_error"
  | [], _, _ => rfl
  | i :: is, current, k => by
    simp only [wheel, getFitness]
    split
    · simp only [Res.ok_bind, if_neg (not_le_nan_left hn)]
      exact wheel_nan hn is _ _
    · rfl

/-- **C90 (selection).** If any fitness is NaN, selecting a parent throws, whatever random number is drawn. -/
theorem C90_select_throws (pop : List (Indiv P R)) (h : ∃ i ∈ pop, nan i.fitness) (t : R) (ht : totalFitness 0 pop = .ok t) (rng : Rng) :
    select t pop rng = .throw "logic_error" := by
  have hn := totalFitness_nan pop 0 t ht (Or.inr h)
  unfold select
  rw [wheel_nan (IeeeArith.mul_right _ hn)]
  rfl

/-- At least one pair is made by crossover if the elite does not fill the population. -/
theorem nextPairs_crosses (elitism : Int) (fuel : Nat) (total : R) (pop sorted : List (Indiv P R)) : ∀ (n i : Nat) (ready : Int)
    (rng : Rng) (r : List (Indiv P R) × Rng), nextPairs elitism fuel total pop sorted n i ready rng = .ok r →
    0 < n → elitism < ready + n → ∃ rng' c, crossPair total pop fuel rng' = .ok c
  | 0, _, _, _, _, _, h0, _ => absurd h0 (by omega)
  | n + 1, i, ready, rng, r, h, _, he => by
    simp only [nextPairs] at h
    split at h
    · next hr =>
      obtain ⟨s1, _, h⟩ := Res.bind_eq_ok.1 h
      obtain ⟨a, _, h⟩ := Res.bind_eq_ok.1 h
      obtain ⟨s2, _, h⟩ := Res.bind_eq_ok.1 h
      obtain ⟨b, _, h⟩ := Res.bind_eq_ok.1 h
      obtain ⟨rest, hrest, h⟩ := Res.bind_eq_ok.1 h
      exact nextPairs_crosses elitism fuel total pop sorted n (i + 2) (ready + 1) rng rest hrest (by push_cast at he; omega)
        (by push_cast at he; omega)
    · obtain ⟨c, hc, _⟩ := Res.bind_eq_ok.1 h
      exact ⟨rng, c, hc⟩

theorem crossPair_selects {total : R} {pop : List (Indiv P R)} {fuel : Nat} {rng : Rng} {c : Indiv P R × Indiv P R × Rng}
    (h : crossPair total pop fuel rng = .ok c) : ∃ k, select total pop rng = .ok k := by
  cases fuel with
  | zero => cases h
  | succ fuel =>
    simp only [crossPair] at h
    obtain ⟨k, hk, _⟩ := Res.bind_eq_ok.1 h
    exact ⟨k, hk⟩

/-- **C90 (next generation).** As long as the elite does not fill the whole population, no next generation is made from a population
with a NaN fitness. -/
theorem C90_no_next (cfg : Config P R Mu) (fuel : Nat) (pop : List (Indiv P R)) (rng : Rng)
    (he : cfg.elitism < (cfg.popSize / 2 : Nat)) (hp : 0 < cfg.popSize / 2) (h : ∃ i ∈ pop, nan i.fitness) (r : List (Indiv P R) × Rng) :
    nextPopulation cfg fuel pop rng ≠ .ok r := by
  intro hr
  unfold nextPopulation at hr
  obtain ⟨t, ht, hr⟩ := Res.bind_eq_ok.1 hr
  obtain ⟨rng', c, hc⟩ := nextPairs_crosses cfg.elitism fuel t pop (cfg.sort pop) _ 0 0 rng r hr hp (by simpa using he)
  obtain ⟨k, hk⟩ := crossPair_selects hc
  rw [C90_select_throws pop h t ht] at hk
  cases hk

/-- **C90 (no elite).** Without an elite the exception is `logic_error`. -/
theorem C90_throws (cfg : Config P R Mu) (fuel : Nat) (pop : List (Indiv P R)) (rng : Rng) (he : cfg.elitism ≤ 0)
    (hp : 0 < cfg.popSize / 2) (hf : ∀ i ∈ pop, i.hasFitness = true) (h : ∃ i ∈ pop, nan i.fitness) :
    nextPopulation cfg (fuel + 1) pop rng = .throw "logic_error" := by
  have htot : ∀ (pop : List (Indiv P R)) (acc : R), (∀ i ∈ pop, i.hasFitness = true) → ∃ t, totalFitness acc pop = .ok t := by
    intro pop
    induction pop with
    | nil => intro acc _; exact ⟨acc, rfl⟩
    | cons i is ih =>
      intro acc hf
      simp only [totalFitness, getFitness, hf i (by simp), if_true, Res.ok_bind]
      exact ih _ (fun j hj => hf j (by simp [hj]))
  obtain ⟨t, ht⟩ := htot pop 0 hf
  obtain ⟨n, hn⟩ : ∃ n, cfg.popSize / 2 = n + 1 := ⟨cfg.popSize / 2 - 1, by omega⟩
  rw [nextPopulation, ht, Res.ok_bind, hn, nextPairs, if_neg (by omega), crossPair, C90_select_throws pop h t ht]
  rfl

/-! ### The best individual -/

theorem getFitness_eq {i : Indiv P R} {x : R} (h : getFitness i = .ok x) : i.hasFitness = true ∧ x = i.fitness := by
  unfold getFitness at h
  split at h
  · next hf => cases h; exact ⟨hf, rfl⟩
  · cases h

theorem bestOf_nan {b : Indiv P R} (hn : nan b.fitness) : ∀ (is : List (Indiv P R)) (r : Indiv P R),
    bestOf b is = .ok r → r = b
  | [], r, h => by cases h; rfl
  | i :: is, r, h => by
    simp only [bestOf] at h
    obtain ⟨x, hx, h⟩ := Res.bind_eq_ok.1 h
    obtain ⟨y, _, h⟩ := Res.bind_eq_ok.1 h
    rw [(getFitness_eq hx).2, if_neg (not_lt_nan_left hn)] at h
    exact bestOf_nan hn is r h

/-- **C90 (best individual, first NaN).** In the first evaluated generation, a NaN of the first individual makes it the best one. -/
theorem C90_first_is_best (best i : Indiv P R) (is : List (Indiv P R)) (h0 : best.hasFitness = false)
    (hn : nan i.fitness) (r : Indiv P R) (h : updateBest best (i :: is) = .ok r) : r = i := by
  simp only [updateBest, h0, Bool.not_false, if_true] at h
  obtain ⟨b, hb, h⟩ := Res.bind_eq_ok.1 h
  cases h
  exact bestOf_nan hn is r hb

/-- **C90 (best individual, NaN stays).** A best individual with fitness NaN is never replaced. -/
theorem C90_best_stuck (best : Indiv P R) (hb : best.hasFitness = true) (hn : nan best.fitness) (pop : List (Indiv P R)) (r : Indiv P R)
    (h : updateBest best pop = .ok r) : r = best := by
  cases pop with
  | nil => cases h
  | cons i is =>
    simp only [updateBest, hb, Bool.not_true, Bool.false_eq_true, if_false, getFitness, if_true, Res.ok_bind] at h
    obtain ⟨b, _, h⟩ := Res.bind_eq_ok.1 h
    obtain ⟨y, _, h⟩ := Res.bind_eq_ok.1 h
    rw [if_neg (not_lt_nan_left hn)] at h
    cases h
    rfl

/-- One round of the main loop. -/
theorem iterate_step {cfg : Config P R Mu} {fuel : Nat} {f : P → R} {k : Nat} {n : Int} {c : Counter R} {pop : List (Indiv P R)}
    {best : Indiv P R} {mu : Mu} {rng : Rng} {r : List (List (Indiv P R)) × Counter R × Indiv P R × Mu × Rng}
    (h : iterate cfg fuel f (k + 1) n c pop best mu rng = .ok r) :
    ∃ c1 pop' best' x, obtainFitness cfg.hash f c pop = .ok (c1, pop') ∧ updateBest best pop' = .ok best' ∧ getFitness best' = .ok x ∧
      (cfg.stop ≤ x ∧ r.1 = [pop'] ∧ r.2.2.1 = best' ∨
       ∃ (np : List (Indiv P R) × Rng) (m : List (Indiv P R) × Mu × Rng) (rest : List (List (Indiv P R)) × Counter R × Indiv P R × Mu × Rng), ¬ cfg.stop ≤ x ∧ nextPopulation cfg fuel pop' rng = .ok np ∧
         iterate cfg fuel f k (n + 1) { c1 with hits := 0 } m.1 best' m.2.1 m.2.2 = .ok rest ∧ r = (pop' :: rest.1, rest.2)) := by
  simp only [iterate] at h
  obtain ⟨e, he, h⟩ := Res.bind_eq_ok.1 h
  obtain ⟨best', hb, h⟩ := Res.bind_eq_ok.1 h
  obtain ⟨x, hx, h⟩ := Res.bind_eq_ok.1 h
  refine ⟨e.1, e.2, best', x, he, hb, hx, ?_⟩
  split at h
  · next hs =>
    cases h
    exact Or.inl ⟨hs, rfl, rfl⟩
  · next hs =>
    obtain ⟨np, hnp, h⟩ := Res.bind_eq_ok.1 h
    obtain ⟨m, _, h⟩ := Res.bind_eq_ok.1 h
    obtain ⟨rest, hr, h⟩ := Res.bind_eq_ok.1 h
    cases h
    exact Or.inr ⟨np, m, rest, hs, hnp, hr, rfl⟩

theorem optimize_iterates {cfg : Config P R Mu} {c : Counter R} {p : P} {fuel : Nat} {f : P → R} {mu : Mu}
    {rng : Rng} {maximize : Bool} {res : Result P R Mu} (h : optimize cfg fuel f c mu rng p maximize = .ok res) :
    ∃ pop best rng1, initialPopulation cfg fuel p rng = .ok (pop, best, rng1) ∧
      iterate cfg fuel f cfg.maxGen.toNat 0 c pop best mu rng1 = .ok (res.generations, res.counter, res.best, res.mu, res.rng) := by
  unfold optimize at h
  cases maximize with
  | false => simp at h
  | true =>
    simp only [if_true] at h
    obtain ⟨⟨pop, best, rng1⟩, h1, h⟩ := Res.bind_eq_ok.1 h
    obtain ⟨r, h2, h⟩ := Res.bind_eq_ok.1 h
    refine ⟨pop, best, rng1, h1, ?_⟩
    split at h
    · split at h
      · cases h; exact h2
      · cases h
      · cases h
    · cases h

/-- **C90 (`Optimize`).** If `Optimize` returns although a fitness was NaN, that happened in the last generation and the run was stopped
by the fitness stop criterion (again for an elite smaller than the population). -/
theorem C90_optimize (cfg : Config P R Mu) (fuel : Nat) (f : P → R) (c : Counter R) (mu : Mu) (rng : Rng) (p : P) (maximize : Bool)
    (res : Result P R Mu) (h : optimize cfg fuel f c mu rng p maximize = .ok res)
    (he : cfg.elitism < (cfg.popSize / 2 : Nat)) (hp : 0 < cfg.popSize / 2) :
    (∀ g ∈ res.generations.dropLast, ∀ i ∈ g, ¬ nan i.fitness) ∧
    ((∃ g ∈ res.generations, ∃ i ∈ g, nan i.fitness) → cfg.stop ≤ res.best.fitness) := by
  obtain ⟨pop, best, rng1, _, hi⟩ := optimize_iterates h
  have key : ∀ (k : Nat) (n : Int) (c : Counter R) (pop : List (Indiv P R)) (best : Indiv P R) (mu : Mu) (rng : Rng)
      (r : List (List (Indiv P R)) × Counter R × Indiv P R × Mu × Rng), iterate cfg fuel f k n c pop best mu rng = .ok r →
      (∀ g ∈ r.1.dropLast, ∀ i ∈ g, ¬ nan i.fitness) ∧ ((∃ g ∈ r.1, ∃ i ∈ g, nan i.fitness) → cfg.stop ≤ r.2.2.1.fitness) := by
    intro k
    induction k with
    | zero => intro n c pop best mu rng r h; cases h; simp
    | succ k ih =>
      intro n c pop best mu rng r h
      obtain ⟨c1, pop', best', x, _, _, hx, hc⟩ := iterate_step h
      rcases hc with ⟨hs, e1, e2⟩ | ⟨np, m, rest, _, hnp, hr, rfl⟩
      · have : x = best'.fitness := (getFitness_eq hx).2
        rw [e1, e2, ← this]
        exact ⟨by simp, fun _ => hs⟩
      · obtain ⟨i1, i2⟩ := ih _ _ _ _ _ _ _ hr
        have hpop : ∀ i ∈ pop', ¬ nan i.fitness := fun i hi hn => C90_no_next cfg fuel pop' rng he hp ⟨i, hi, hn⟩ np hnp
        refine ⟨fun g hg => ?_, ?_⟩
        · have : g ∈ pop' :: rest.1.dropLast := by
            cases hrest : rest.1 with
            | nil => rw [hrest] at hg; simp at hg
            | cons a as => rw [hrest] at hg; simpa [List.dropLast] using hg
          rcases List.mem_cons.1 this with rfl | hg'
          · exact hpop
          · exact i1 g hg'
        · rintro ⟨g, hg, i, hi, hn⟩
          rcases List.mem_cons.1 hg with rfl | hg
          · exact absurd hn (hpop i hi)
          · exact i2 ⟨g, hg, i, hi, hn⟩
  exact key _ _ _ _ _ _ _ _ hi

/-- **C90 (a NaN is the result).** When the elite fills the population (no parents are selected), a NaN fitness of the very first
individual makes it the result, whatever the other individuals of all generations are. -/
theorem C90_nan_result (cfg : Config P R Mu) (fuel : Nat) (f : P → R) (c : Counter R) (mu : Mu) (rng : Rng) (p : P) (maximize : Bool)
    (res : Result P R Mu) (h : optimize cfg fuel f c mu rng p maximize = .ok res) (i : Indiv P R) (is : List (Indiv P R))
    (gs : List (List (Indiv P R))) (hg : res.generations = (i :: is) :: gs) (hn : nan i.fitness) :
    res.best = i := by
  obtain ⟨pop, best, rng1, h1, hi⟩ := optimize_iterates h
  have h0 : best.hasFitness = false := by
    unfold initialPopulation at h1
    obtain ⟨q, _, h1⟩ := Res.bind_eq_ok.1 h1
    obtain ⟨b, hb, h1⟩ := Res.bind_eq_ok.1 h1
    cases h1
    unfold initWith at hb
    obtain ⟨_, _, hb⟩ := Res.bind_eq_ok.1 hb
    obtain ⟨_, _, hb⟩ := Res.bind_eq_ok.1 hb
    obtain ⟨_, _, hb⟩ := Res.bind_eq_ok.1 hb
    split at hb
    · cases hb
    · cases hb; rfl
  have stuck : ∀ (k : Nat) (n : Int) (c : Counter R) (pop : List (Indiv P R)) (best : Indiv P R) (mu : Mu) (rng : Rng)
      (r : List (List (Indiv P R)) × Counter R × Indiv P R × Mu × Rng), best.hasFitness = true → nan best.fitness →
      iterate cfg fuel f k n c pop best mu rng = .ok r → r.2.2.1 = best := by
    intro k
    induction k with
    | zero => intro n c pop best mu rng r _ _ h; cases h; rfl
    | succ k ih =>
      intro n c pop best mu rng r hb hn h
      obtain ⟨c1, pop', best', x, _, hu, _, hc⟩ := iterate_step h
      have e := C90_best_stuck best hb hn pop' best' hu
      subst e
      rcases hc with ⟨_, _, e2⟩ | ⟨np, m, rest, _, _, hr, rfl⟩
      · exact e2
      · exact ih _ _ _ _ _ _ rest hb hn hr
  cases hk : cfg.maxGen.toNat with
  | zero =>
    rw [hk] at hi
    simp only [iterate, Res.ok.injEq, Prod.mk.injEq] at hi
    rw [hg] at hi
    cases hi.1
  | succ k =>
    rw [hk] at hi
    obtain ⟨c1, pop', best', x, _, hu, hx, hc⟩ := iterate_step hi
    have hpop : pop' = i :: is := by
      rcases hc with ⟨_, e1, _⟩ | ⟨np, m, rest, _, _, _, e⟩
      · simp only at e1
        rw [hg] at e1
        cases e1; rfl
      · have := congrArg Prod.fst e
        simp only at this
        rw [hg] at this
        exact ((List.cons.inj this).1).symm
    subst hpop
    have e := C90_first_is_best best i is h0 hn best' hu
    subst e
    rcases hc with ⟨_, _, e2⟩ | ⟨np, m, rest, _, _, hr, e⟩
    · exact e2
    · have := stuck _ _ _ _ _ _ _ _ (getFitness_eq hx).1 hn hr
      have e' := congrArg (fun z => z.2.2.1) e
      simp only at e'
      rw [e', this]

/-! ### An infinite fitness -/

theorem totalFitness_inf : ∀ (pop : List (Indiv P Dbl)) (acc : Dbl), (∀ i ∈ pop, i.hasFitness = true ∧ 0 ≤ i.fitness) →
    0 ≤ acc → (acc = .inf false ∨ ∃ i ∈ pop, i.fitness = .inf false) → totalFitness acc pop = .ok (.inf false)
  | [], acc, _, _, h => by
    rcases h with h | ⟨i, hi, _⟩
    · rw [h]; rfl
    · cases hi
  | i :: is, acc, hp, h0, h => by
    have hi := hp i (by simp)
    simp only [totalFitness, getFitness, hi.1, if_true, Res.ok_bind]
    have key : 0 ≤ acc + i.fitness ∧ (acc = .inf false ∨ i.fitness = .inf false → acc + i.fitness = .inf false) := by
      generalize i.fitness = b at hi
      obtain ⟨_, h1⟩ := hi
      change Dbl.leb (.num 0) acc = true at h0
      change Dbl.leb (.num 0) b = true at h1
      change Dbl.leb (.num 0) (Dbl.add acc b) = true ∧ (_ → Dbl.add acc b = _)
      rcases acc with _ | a | a <;> rcases b with _ | b | b <;> simp_all [Dbl.leb, Dbl.add]
      exact Rat.add_nonneg h0 h1
    refine totalFitness_inf is _ (fun j hj => hp j (by simp [hj])) key.1 ?_
    rcases h with h | ⟨j, hj, h⟩
    · exact Or.inl (key.2 (Or.inl h))
    · rcases List.mem_cons.1 hj with rfl | hj
      · exact Or.inl (key.2 (Or.inr h))
      · exact Or.inr ⟨j, hj, h⟩

theorem wheel_inf (i : Indiv P Dbl) (post : List (Indiv P Dbl)) (hi : i.hasFitness = true) (hinf : i.fitness = .inf false) :
    ∀ (pre : List (Indiv P Dbl)) (q : ℚ) (k : Nat), (∀ j ∈ pre, j.hasFitness = true ∧ ∃ x : ℚ, j.fitness = .num x) →
    wheel (.inf false) (.num q) (pre ++ i :: post) k = .ok (k + pre.length)
  | [], q, k, _ => by
    simp only [List.nil_append, wheel, getFitness, hi, if_true, Res.ok_bind, hinf]
    rfl
  | j :: js, q, k, hp => by
    obtain ⟨hj, x, hx⟩ := hp j (by simp)
    simp only [List.cons_append, wheel, getFitness, hj, if_true, Res.ok_bind, hx]
    have e : (Dbl.num q + Dbl.num x : Dbl) = .num (q + x) := rfl
    rw [e, if_neg (by rw [Dbl.le_def]; simp [Dbl.leb]), wheel_inf i post hi hinf js _ _ (fun j hj => hp j (by simp [hj]))]
    simp only [List.length_cons]
    congr 1
    omega

/-- **C90 (infinite fitness).** If some fitness is infinite (and none is NaN or negative), every selection takes the first individual of
infinite fitness, except that a drawn `rand() = 0` makes it throw. -/
theorem C90_infinite (pre post : List (Indiv P Dbl)) (i : Indiv P Dbl) (hall : ∀ j ∈ pre ++ i :: post, j.hasFitness = true ∧ 0 ≤ j.fitness)
    (hpre : ∀ j ∈ pre, j.fitness ≠ .inf false) (hinf : i.fitness = .inf false) (rng : Rng) (hr : rng.lib.Valid) :
    ∃ t, totalFitness 0 (pre ++ i :: post) = .ok t ∧
      select t (pre ++ i :: post) rng = if (Random.rand rng.lib).1 = 0 then .throw "logic_error" else
        .ok (pre.length, { rng with lib := (Random.rand rng.lib).2 }) := by
  refine ⟨_, totalFitness_inf _ 0 hall (by decide +kernel) (Or.inr ⟨i, by simp, hinf⟩), ?_⟩
  have hnum : ∀ j ∈ pre, j.hasFitness = true ∧ ∃ x : ℚ, j.fitness = .num x := by
    intro j hj
    obtain ⟨h1, h2⟩ := hall j (by simp [hj])
    refine ⟨h1, ?_⟩
    have h3 := hpre j hj
    rcases hf : j.fitness with _ | _ | x
    · rw [hf] at h2; exact absurd h2 (by decide +kernel)
    · rw [hf] at h2 h3
      change Dbl.leb (.num 0) (.inf _) = true at h2
      simp only [Dbl.leb, Bool.not_eq_true'] at h2
      rw [h2] at h3
      exact absurd rfl h3
    · exact ⟨x, rfl⟩
  have hm : (rng.lib.randMax : ℚ) ≠ 0 := by have := hr.1; positivity
  have hb : (Random.base rng.lib).1 = Dbl.num ((Random.rand rng.lib).1 / rng.lib.randMax) := by
    show Dbl.div (.num _) (.num _) = _
    simp only [Dbl.div]
    rw [if_neg hm]
  unfold select
  rw [hb]
  split
  · next h0 =>
    rw [h0]
    have : (Dbl.num (((0 : Nat) : ℚ) / rng.lib.randMax) * Dbl.inf false : Dbl) = .nan := by
      show Dbl.mul _ _ = _
      simp [Dbl.mul]
    rw [this, wheel_nan (by rfl)]
    rfl
  · next h0 =>
    have hpos : (0 : ℚ) < ((Random.rand rng.lib).1 : ℚ) / rng.lib.randMax := by
      have h1 : 0 < (Random.rand rng.lib).1 := Nat.pos_of_ne_zero h0
      have h2 : 0 < rng.lib.randMax := hr.1
      positivity
    have : (Dbl.num (((Random.rand rng.lib).1 : ℚ) / rng.lib.randMax) * Dbl.inf false : Dbl) = .inf false := by
      show Dbl.mul _ _ = _
      simp only [Dbl.mul]
      rw [if_neg hpos.ne']
      simp [hpos.le]
    rw [this]
    show (wheel _ (Dbl.num 0) _ _ >>= _) = _
    rw [wheel_inf i post (hall i (by simp)).1 hinf pre 0 0 hnum, Nat.zero_add]
    rfl

/-! ### Concrete runs -/

namespace NanExamples
open K52.GA.Examples

/-- Insertion sort by decreasing fitness. -/
def sorted (l : List (Indiv Two Dbl)) : List (Indiv Two Dbl) := l.insertionSort (fun x y => y.fitness ≤ x.fitness)

/-- Four individuals, an elite of one pair, three generations. -/
def config : Config Two Dbl Unit := ⟨4, 1, 3, .num 100, none, flipFirst, hash, sorted⟩

/-- NaN for one of the four parameters. -/
def value (bad p : Two) : Dbl := if p = bad then .nan else .num (1 + (if p.a then 1 else 0) + (if p.b then 2 else 0))

def summary (r : Res (Result Two Dbl Unit)) : Option (Dbl × Two × List (List Dbl)) :=
  match r with
  | .ok r => some (r.best.fitness, r.params, r.generations.map (·.map Indiv.fitness))
  | _ => none

/-- NaN for the first individual: without a full elite the run throws. -/
example : optimize config 10 (value ⟨true, false⟩) (Counter.new 12 1) () rng ⟨false, false⟩ true = .throw "logic_error" := by
  have h : (match optimize config 10 (value ⟨true, false⟩) (Counter.new 12 1) () rng ⟨false, false⟩ true with
    | .throw w => decide (w = "logic_error") | _ => false) = true := by decide +kernel
  split at h
  · next he => rw [he, of_decide_eq_true h]
  · cases h

/-- With an elite that fills the population it runs through all generations and returns the NaN, although there was a fitness 4. -/
theorem C90_nan_wins : summary (optimize { config with elitism := 2 } 10 (value ⟨true, false⟩) (Counter.new 12 1) () rng ⟨false, false⟩ true) =
    some (.nan, ⟨true, false⟩, [[.nan, .num 3, .num 1, .nan], [.num 1, .num 4, .nan, .num 1], [.num 3, .nan, .nan, .num 1]]) := by
  decide +kernel

/-- NaN for another individual of the first generation, in which the stop criterion is met: the run returns. -/
example : summary (optimize { config with stop := .num 3 } 10 (value ⟨false, false⟩) (Counter.new 12 1) () rng ⟨false, false⟩ true) =
    some (.num 3, ⟨false, true⟩, [[.num 2, .num 3, .nan, .num 2]]) := by decide +kernel

/-- An infinite fitness of the second individual. -/
example : ∃ t, totalFitness 0 [(⟨true, none, [], true, .num 5⟩ : Indiv Two Dbl), ⟨true, none, [], true, .inf false⟩, ⟨true, none, [], true, .num 7⟩] =
    .ok t ∧ select t [(⟨true, none, [], true, .num 5⟩ : Indiv Two Dbl), ⟨true, none, [], true, .inf false⟩, ⟨true, none, [], true, .num 7⟩] rng =
      .ok (1, { rng with lib := (Random.rand rng.lib).2 }) := by
  refine C90_infinite [⟨true, none, [], true, .num 5⟩] [⟨true, none, [], true, .num 7⟩] ⟨true, none, [], true, .inf false⟩ ?_ ?_ rfl rng ?_
  · intro j hj
    simp only [List.cons_append, List.nil_append, List.mem_cons, List.not_mem_nil, or_false] at hj
    rcases hj with rfl | rfl | rfl <;> exact ⟨rfl, by decide +kernel⟩
  · intro j hj
    rcases List.mem_singleton.1 hj
    decide +kernel
  · exact ⟨by decide, fun i => by simp only [rng]; omega⟩

/-- Sorting: three different numbers are fine, a NaN with two different numbers is not. -/
example : SortAllowed [Dbl.num 1, .num 2, .inf false] ∧ ¬ SortAllowed [Dbl.num 1, .nan, .num 2] := by
  rw [C90_sort, C90_sort]
  refine ⟨Or.inl (by intro v hv; simp only [List.mem_cons, List.not_mem_nil, or_false] at hv; rcases hv with rfl | rfl | rfl <;> simp [nan]), ?_⟩
  rintro (h | h)
  · exact h .nan (by simp) rfl
  · exact h (.num 1) (by simp) (.num 2) (by simp) (by decide +kernel)

end NanExamples

end K52.GA
