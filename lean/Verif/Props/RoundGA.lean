import Verif.Props.GA
import Verif.Props.RoundRandom

/-! # C93: the genetic algorithm in rounded arithmetic

The theorems about whole runs (C18–C21, C23, C59) hold for any arithmetic whose comparison is a linear order, so also for rounded
arithmetic.  Selection (C22) is about sums; here it is for rounded sums. -/

set_option linter.unusedSectionVars false

namespace K52.GA
open K52.Indiv
open K52.Random (rand)

variable {P Mu : Type} [DiscreteParams P] {r : Rounding}

/-- The rounded sum of the first `m` fitnesses, added one after the other. -/
def upTo (pop : List (Indiv P (Fl r))) (m : Nat) : Fl r := ((pop.take m).map Indiv.fitness).foldl (· + ·) 0

/-- The point drawn on the wheel, in rounded arithmetic. -/
def drawnFl (pop : List (Indiv P (Fl r))) (rng : Rng) : Fl r :=
  ((rand rng.lib).1 : Fl r) / (rng.lib.randMax : Fl r) * upTo pop pop.length

/-- The rounded sum of `acc` and the first `m` fitnesses. -/
def upToFrom (acc : Fl r) (pop : List (Indiv P (Fl r))) (m : Nat) : Fl r := ((pop.take m).map Indiv.fitness).foldl (· + ·) acc

theorem upToFrom_cons (acc : Fl r) (i : Indiv P (Fl r)) (is : List (Indiv P (Fl r))) (m : Nat) :
    upToFrom acc (i :: is) (m + 1) = upToFrom (acc + i.fitness) is m := rfl

theorem totalFitness_round : ∀ (pop : List (Indiv P (Fl r))) (acc : Fl r), (∀ i ∈ pop, i.hasFitness = true) →
    totalFitness acc pop = .ok (upToFrom acc pop pop.length)
  | [], _, _ => rfl
  | i :: is, acc, hf => by
    have hi : i.hasFitness = true := hf i List.mem_cons_self
    unfold totalFitness
    simp only [getFitness, hi, if_true, Res.ok_bind]
    rw [totalFitness_round is _ (fun x hx => hf x (List.mem_cons_of_mem _ hx))]
    rfl

theorem upToFrom_step : ∀ (pop : List (Indiv P (Fl r))) (acc : Fl r) (m : Nat) (i : Indiv P (Fl r)), pop[m]? = some i →
    upToFrom acc pop (m + 1) = upToFrom acc pop m + i.fitness
  | [], _, _, _, h => by simp at h
  | x :: xs, acc, m, i, h => by
    cases m with
    | zero => simp at h; subst h; rfl
    | succ m =>
      rw [upToFrom_cons, upToFrom_cons]
      exact upToFrom_step xs _ m i (by simpa using h)

theorem le_add_nonneg {a b : Fl r} (h : 0 ≤ b) : a ≤ a + b :=
  Fl.le_round (b := a) (by
    have : (0 : ℚ) ≤ b.val := h
    show a.val ≤ a.val + b.val
    linarith)

theorem wheel_round (target : Fl r) : ∀ (pop : List (Indiv P (Fl r))) (current : Fl r) (k : Nat), (∀ i ∈ pop, i.hasFitness = true) →
    ∀ j : Nat, j < pop.length → target ≤ upToFrom current pop (j + 1) → (∀ l < j, upToFrom current pop (l + 1) < target) →
    wheel target current pop k = .ok (k + j)
  | [], _, _, _, j, hj, _, _ => by simp at hj
  | i :: is, current, k, hf, j, hj, h1, h2 => by
    have hi : i.hasFitness = true := hf i List.mem_cons_self
    unfold wheel
    simp only [getFitness, hi, if_true, Res.ok_bind]
    cases j with
    | zero =>
      have : target ≤ current + i.fitness := h1
      rw [if_pos this]
      rfl
    | succ j =>
      have : current + i.fitness < target := h2 0 (by omega)
      rw [if_neg (not_le.2 this), wheel_round target is _ (k + 1) (fun x hx => hf x (List.mem_cons_of_mem _ hx)) j (by simpa using hj) h1
        (fun l hl => h2 (l + 1) (by omega))]
      congr 1
      omega

/-- **C93 (selection).** In any rounding arithmetic, for a non-empty population of evaluated individuals with non-negative fitnesses and
every `rand()` stream, selection returns (never throws) an index in range, using one random number; individual `m` is selected exactly when
the drawn point is in (rounded sum of the fitnesses before `m`, rounded sum up to and including `m`], where point 0 goes to index 0. -/
theorem C93_select (pop : List (Indiv P (Fl r))) (rng : Rng) (hl : rng.lib.Valid) (hne : pop ≠ [])
    (hf : ∀ i ∈ pop, i.hasFitness = true ∧ 0 ≤ i.fitness) :
    totalFitness 0 pop = .ok (upTo pop pop.length) ∧
    ∃ m, select (upTo pop pop.length) pop rng = .ok (m, { rng with lib := (rand rng.lib).2 }) ∧ m < pop.length ∧
      (∀ j, j < pop.length → (j = m ↔ (drawnFl pop rng ≤ upTo pop (j + 1) ∧ (j = 0 ∨ upTo pop j < drawnFl pop rng)))) := by
  have hf1 : ∀ i ∈ pop, i.hasFitness = true := fun i hi => (hf i hi).1
  have mono1 : ∀ a : Nat, upTo pop a ≤ upTo pop (a + 1) := by
    intro a
    cases hp : pop[a]? with
    | none =>
      have : pop.length ≤ a := List.getElem?_eq_none_iff.1 hp
      unfold upTo
      rw [List.take_of_length_le this, List.take_of_length_le (by omega)]
    | some i =>
      have := upToFrom_step pop 0 a i hp
      exact (le_add_nonneg (hf i (List.mem_of_getElem? hp)).2).trans (le_of_eq this.symm)
  have mono : ∀ a b : Nat, a ≤ b → upTo pop a ≤ upTo pop b := by
    intro a b hab
    induction hab with
    | refl => exact le_rfl
    | step _ ih => exact ih.trans (mono1 _)
  have htot : (0 : Fl r) ≤ upTo pop pop.length := mono 0 _ (by omega)
  obtain ⟨hb0, hb1, _⟩ := Random.C92_base (r := r) rng.lib hl
  have hb0' : (0 : ℚ) ≤ (Random.base (R := Fl r) rng.lib).1.val := hb0
  have hb1' : (Random.base (R := Fl r) rng.lib).1.val ≤ 1 := hb1
  have htot' : (0 : ℚ) ≤ (upTo pop pop.length).val := htot
  have hd1 : drawnFl pop rng ≤ upTo pop pop.length :=
    Fl.round_le (b := upTo pop pop.length) (x := (Random.base (R := Fl r) rng.lib).1.val * (upTo pop pop.length).val) (by nlinarith)
  refine ⟨totalFitness_round pop 0 hf1, ?_⟩
  have hlen : 0 < pop.length := List.length_pos_of_ne_nil hne
  have hex : ∃ j, j < pop.length ∧ drawnFl pop rng ≤ upTo pop (j + 1) := ⟨pop.length - 1, by omega, by
    rw [show pop.length - 1 + 1 = pop.length by omega]; exact hd1⟩
  classical
  let m := Nat.find hex
  have hm := Nat.find_spec hex
  have hmin : ∀ l < m, upTo pop (l + 1) < drawnFl pop rng := by
    intro l hlm
    have := Nat.find_min hex hlm
    have hml : m < pop.length := hm.1
    by_contra hc
    exact this ⟨by omega, not_lt.1 hc⟩
  have hsel : wheel (drawnFl pop rng) 0 pop 0 = .ok m := by
    have := wheel_round (drawnFl pop rng) pop 0 0 hf1 m hm.1 hm.2 hmin
    simpa using this
  refine ⟨m, ?_, hm.1, ?_⟩
  · unfold select
    have : (Random.base rng.lib).1 * upTo pop pop.length = drawnFl pop rng := rfl
    rw [this, hsel]
    rfl
  · intro j hj
    constructor
    · rintro rfl
      refine ⟨hm.2, ?_⟩
      rcases Nat.eq_zero_or_pos m with h0 | h0
      · exact .inl h0
      · right
        have := hmin (m - 1) (by omega)
        rw [show m - 1 + 1 = m by omega] at this
        exact this
    · rintro ⟨h1, h2⟩
      rcases Nat.lt_trichotomy j m with h | h | h
      · exact absurd h1 (not_le.2 (hmin j h))
      · exact h
      · exfalso
        rcases h2 with h2 | h2
        · omega
        · have := mono (m + 1) j (by omega)
          exact absurd (lt_of_le_of_lt (hm.2.trans this) h2) (lt_irrefl _)

/-- **C93 (absorbed fitness).** An individual (not the first) whose fitness is lost when it is added to the rounded sum of those before it is
never selected, whatever `rand()` gives. -/
theorem C93_absorbed (pop : List (Indiv P (Fl r))) (rng : Rng) (hl : rng.lib.Valid) (hf : ∀ i ∈ pop, i.hasFitness = true ∧ 0 ≤ i.fitness)
    (j : Nat) (hj : 0 < j) (i : Indiv P (Fl r)) (hi : pop[j]? = some i) (habs : upTo pop j + i.fitness = upTo pop j) :
    ∃ m, select (upTo pop pop.length) pop rng = .ok (m, { rng with lib := (rand rng.lib).2 }) ∧ m ≠ j := by
  have hne : pop ≠ [] := by rintro rfl; simp at hi
  have hjl : j < pop.length := (List.getElem?_eq_some_iff.1 hi).1
  obtain ⟨_, m, h1, _, h3⟩ := C93_select pop rng hl hne hf
  refine ⟨m, h1, ?_⟩
  rintro rfl
  obtain ⟨a, b⟩ := (h3 m hjl).1 rfl
  have e : upTo pop (m + 1) = upTo pop m := (upToFrom_step pop 0 m i hi).trans habs
  rw [e] at a
  rcases b with b | b
  · omega
  · exact absurd (lt_of_le_of_lt a b) (lt_irrefl _)

/-- **C93 (absorbed fitness in `double`).** Of two individuals with fitnesses `2^53` and 1 the second is never selected, while in exact
arithmetic it is selected when `rand()` gives `RAND_MAX`. -/
theorem C93_double (p q : P) (rng : Rng) (hl : rng.lib.Valid) :
    (let pop : List (Indiv P (Fl Nearest.double)) :=
        [⟨true, some p, [], true, Fl.round _ (2 ^ 53)⟩, ⟨true, some q, [], true, 1⟩];
      ∃ t, totalFitness 0 pop = .ok t ∧ select t pop rng = .ok (0, { rng with lib := (rand rng.lib).2 })) ∧
    (let pop : List (Indiv P ℚ) := [⟨true, some p, [], true, 2 ^ 53⟩, ⟨true, some q, [], true, 1⟩];
      (rand rng.lib).1 = rng.lib.randMax →
      ∃ t, totalFitness 0 pop = .ok t ∧ select t pop rng = .ok (1, { rng with lib := (rand rng.lib).2 })) := by
  constructor
  · intro pop
    have hf : ∀ i ∈ pop, i.hasFitness = true ∧ 0 ≤ i.fitness := by
      intro i hi
      simp only [pop, List.mem_cons, List.not_mem_nil, or_false] at hi
      rcases hi with rfl | rfl
      · refine ⟨rfl, ?_⟩
        show (0 : ℚ) ≤ Nearest.fl 53 (2 ^ 53)
        decide +kernel
      · refine ⟨rfl, ?_⟩
        show (0 : ℚ) ≤ 1
        norm_num
    obtain ⟨h0, m, h1, h2, _⟩ := C93_select pop rng hl (by simp [pop]) hf
    obtain ⟨m', h3, h4⟩ := C93_absorbed pop rng hl hf 1 (by omega) _ (by rfl) (by
      apply Fl.ext
      show Nearest.fl 53 (Nearest.fl 53 (0 + Nearest.fl 53 (2 ^ 53)) + 1) = Nearest.fl 53 (0 + Nearest.fl 53 (2 ^ 53))
      decide +kernel)
    rw [h1] at h3
    have hmm : m = m' := by simpa using h3
    have : m = 0 := by simp [pop] at h2; omega
    subst this
    exact ⟨_, h0, h1⟩
  · intro pop hmax
    have hr : ((rng.lib.randMax : Nat) : ℚ) ≠ 0 := by
      have := hl.1
      positivity
    refine ⟨2 ^ 53 + 1, by simp [pop, totalFitness, getFitness], ?_⟩
    have hb : (Random.base (R := ℚ) rng.lib).1 = 1 := by
      unfold Random.base
      rw [hmax]
      exact div_self hr
    unfold select
    rw [hb]
    simp only [pop, wheel, getFitness, if_true, Res.ok_bind, zero_add, one_mul]
    rw [if_neg (by norm_num), if_pos (le_refl _)]
    rfl

/-- **C93 (whole runs).** The result of a run in rounded arithmetic: the best individual is one that was evaluated, none evaluated was
better, the parameters are what its chromosome decodes to. -/
theorem C93_best {Fam : P → Prop} {s : Nat} {cfg : Config P (Fl r) Mu} {c : Counter (Fl r)} {p : P} (st : Setting Fam s cfg c p)
    (fuel : Nat) (f : P → Fl r) (mu : Mu) (rng : Rng) (maximize : Bool) (res : Result P (Fl r) Mu)
    (h : optimize cfg fuel f c mu rng p maximize = .ok res) :
    (∃ g ∈ res.generations, res.best ∈ g) ∧ (∀ g ∈ res.generations, ∀ i ∈ g, i.fitness ≤ res.best.fitness) ∧
    DiscreteParams.setFrom p res.best.chrom = (res.params, .ok ()) ∧
    (∀ g ∈ res.generations, g.length = cfg.popSize) := by
  obtain ⟨a, b, c', _⟩ := C21_best st fuel f mu rng maximize res h
  exact ⟨a, b, c', fun g hg => ((C20_population st fuel f mu rng maximize res h).2.2.2 g hg).1⟩

/-- Non-vacuity: three individuals in `double`, the second absorbed. -/
example : let pop : List (Indiv Nat (Fl Nearest.double)) :=
      [⟨true, some 0, [], true, Fl.round _ (2 ^ 60)⟩, ⟨true, some 1, [], true, Fl.round _ 3⟩, ⟨true, some 2, [], true, Fl.round _ (2 ^ 61)⟩]
    (upTo pop 1 + Fl.round _ 3).val = (upTo pop 1).val ∧ (upTo pop 3).val = 2 ^ 60 + 2 ^ 61 := by
  constructor <;> decide +kernel

end K52.GA
