import Verif.Lemmas.Family
import Verif.Props.Random
import Mathlib.Data.List.Sort

/-! # Properties C18 (whole algorithm), C19, C20, C21, C22, C23, C59: the genetic algorithm -/

set_option linter.unusedSectionVars false

namespace K52.GA
open K52.Indiv
open K52.Random (rand)

variable {P R Mu : Type} [DiscreteParams P] [Add R] [Sub R] [Mul R] [Div R] [Zero R] [One R] [NatCast R] [LinearOrder R]

/-! ### C19: construction -/

/-- **C19.** `Create` succeeds exactly for an even positive population size, a positive generation count and a non-null mutator;
it stores the arguments.  (The elitism count is not validated.) -/
theorem C19_create (popSize elitism maxGen : Int) (mutator : Option (MutatorI Mu)) (stop : R) (hash : List Bool → Nat)
    (sort : List (Indiv P R) → List (Indiv P R)) :
    ((create popSize elitism maxGen mutator stop hash sort).isSome = true ↔
      0 < popSize ∧ popSize % 2 = 0 ∧ 0 < maxGen ∧ mutator.isSome = true) ∧
    (∀ cfg, create popSize elitism maxGen mutator stop hash sort = some cfg →
      (cfg.popSize : Int) = popSize ∧ cfg.elitism = elitism ∧ cfg.maxGen = maxGen ∧ some cfg.mutator = mutator ∧ cfg.stop = stop ∧
      cfg.initial = none) := by
  have key : Int.tmod popSize 2 ≠ 0 ↔ popSize % 2 ≠ 0 := by
    rw [not_iff_not]
    constructor
    · intro h; exact Int.emod_eq_zero_of_dvd (Int.dvd_of_tmod_eq_zero h)
    · intro h; exact Int.tmod_eq_zero_of_dvd (Int.dvd_of_emod_eq_zero h)
  unfold create
  by_cases h1 : Int.tmod popSize 2 ≠ 0
  · have := key.1 h1
    simp [h1, this]
  · have e1 : popSize % 2 = 0 := by
      by_contra hh; exact h1 (key.2 hh)
    by_cases h2 : popSize ≤ 0
    · simp [h1, h2, e1]
    · by_cases h3 : maxGen ≤ 0
      · simp [h1, h2, h3]
      · cases mutator with
        | none => simp [h1, h2, h3]
        | some m =>
          simp only [h1, h2, h3, if_false, Option.isSome_some, true_iff, Option.some.injEq]
          refine ⟨by refine ⟨by omega, e1, by omega, trivial⟩, ?_⟩
          rintro cfg rfl
          refine ⟨by simp; omega, rfl, rfl, rfl, rfl, rfl⟩

/-- A configured genetic algorithm: what `Create` and any number of `SetInitialParameters` calls lead to. -/
inductive Built : Config P R Mu → Prop
  | create {popSize elitism maxGen : Int} {mutator : Option (MutatorI Mu)} {stop : R} {hash : List Bool → Nat}
      {sort : List (Indiv P R) → List (Indiv P R)} {cfg : Config P R Mu} :
      create popSize elitism maxGen mutator stop hash sort = some cfg → Built cfg
  | initial {cfg cfg' : Config P R Mu} {ps : List P} : Built cfg → setInitialParameters cfg ps = .ok cfg' → Built cfg'

theorem cloneN_length : ∀ (n : Nat) (ps qs : List P), cloneN n ps = .ok qs → qs.length = n
  | 0, _, qs, h => by simp only [cloneN, Res.ok.injEq] at h; subst h; rfl
  | _ + 1, [], qs, h => by simp [cloneN] at h
  | n + 1, p :: ps, qs, h => by
    unfold cloneN at h
    rw [Res.bind_eq_ok] at h
    obtain ⟨q, _, h⟩ := h
    rw [Res.bind_eq_ok] at h
    obtain ⟨qs', h2, h⟩ := h
    simp only [Res.pure_eq, Res.ok.injEq] at h
    subst h
    simp [cloneN_length n ps qs' h2]

theorem Built.facts {cfg : Config P R Mu} (h : Built cfg) :
    0 < cfg.popSize ∧ cfg.popSize % 2 = 0 ∧ 0 < cfg.maxGen ∧ ∀ ps, cfg.initial = some ps → ps.length = cfg.popSize := by
  induction h with
  | create h =>
    rename_i ps el mg mu st ha so cfg
    have h2 := (C19_create (P := P) (R := R) ps el mg mu st ha so).2 _ h
    have h1 := (C19_create (P := P) (R := R) ps el mg mu st ha so).1.1 (by rw [h]; rfl)
    obtain ⟨a1, a2, a3, a4⟩ := h1
    obtain ⟨b1, b2, b3, b4, b5, b6⟩ := h2
    refine ⟨by omega, by omega, by omega, ?_⟩
    intro ps hps; rw [b6] at hps; simp at hps
  | initial _ h ih =>
    unfold setInitialParameters at h
    rw [Res.bind_eq_ok] at h
    obtain ⟨qs, hq, h⟩ := h
    simp only [Res.pure_eq, Res.ok.injEq] at h
    subst h
    refine ⟨ih.1, ih.2.1, ih.2.2.1, ?_⟩
    intro ps hps
    simp only [Option.some.injEq] at hps
    subst hps
    exact cloneN_length _ _ _ hq

/-- `SetInitialParameters` keeps equal copies of the first `population_size` objects and reads past the end when fewer are given. -/
theorem C19_initial {Fam : P → Prop} {s : Nat} (hF : Family Fam s) (cfg : Config P R Mu) (ps : List P) (hps : ∀ p ∈ ps, Fam p) :
    (cfg.popSize ≤ ps.length → setInitialParameters cfg ps = .ok { cfg with initial := some (ps.take cfg.popSize) }) ∧
    (ps.length < cfg.popSize → setInitialParameters cfg ps = .ub) := by
  have key : ∀ (n : Nat) (ps : List P), (∀ p ∈ ps, Fam p) → cloneN n ps = if n ≤ ps.length then .ok (ps.take n) else .ub := by
    intro n
    induction n with
    | zero => intro ps _; simp [cloneN]
    | succ n ih =>
      intro ps hp
      cases ps with
      | nil => simp [cloneN]
      | cons p ps =>
        unfold cloneN
        rw [hF.clone p (hp p List.mem_cons_self), Res.ok_bind, ih ps (fun q hq => hp q (List.mem_cons_of_mem _ hq))]
        by_cases hn : n ≤ ps.length
        · simp [hn]
        · simp [hn]
  unfold setInitialParameters
  rw [key _ _ hps]
  constructor
  · intro h; simp [h]
  · intro h; rw [if_neg (by omega)]; rfl

/-! ### C20, C21, C18: whole runs -/

/-- The hypotheses of a run: a family of parameter objects containing the one to optimise and the initial ones, a sort that returns a
permutation, a mutator that keeps lengths, a counter with a proper map. -/
structure Setting (Fam : P → Prop) (s : Nat) (cfg : Config P R Mu) (c : Counter R) (p : P) : Prop where
  fam : Family Fam s
  built : Built cfg
  sort : ∀ l, (cfg.sort l).Perm l
  mutator : KeepsLength cfg.mutator
  param : Fam p
  initial : ∀ ps, cfg.initial = some ps → ∀ q ∈ ps, Fam q
  counter : c.WF

theorem initRandom_good {Fam : P → Prop} {s : Nat} (hF : Family Fam s) {p : P} (hp : Fam p) (fuel : Nat) :
    ∀ (n : Nat) (rng : Rng) (pop : List (Indiv P R)) (rng' : Rng), initRandom fuel p n rng = .ok (pop, rng') →
    pop.length = n ∧ ∀ i ∈ pop, Good Fam s i ∧ Decoded Fam i ∧ Valid i
  | 0, rng, pop, rng', h => by
    simp only [initRandom, Res.ok.injEq, Prod.mk.injEq] at h
    obtain ⟨rfl, _⟩ := h
    simp
  | n + 1, rng, pop, rng', h => by
    unfold initRandom at h
    rw [Res.bind_eq_ok] at h
    obtain ⟨i, h1, h⟩ := h
    rw [Res.bind_eq_ok] at h
    obtain ⟨⟨j, k, r1⟩, h2, h⟩ := h
    rw [Res.bind_eq_ok] at h
    obtain ⟨⟨js, r2⟩, h3, h⟩ := h
    simp only [Res.pure_eq, Res.ok.injEq, Prod.mk.injEq] at h
    obtain ⟨rfl, _⟩ := h
    obtain ⟨l, q⟩ := initRandom_good hF hp fuel n _ _ _ h3
    have g := random_good hF fuel (init_good hF hp h1).1 h2
    refine ⟨by simp [l], ?_⟩
    intro x hx
    simp only [List.mem_cons] at hx
    rcases hx with rfl | hx
    · exact ⟨g.1, g.2.1, g.2.2.1⟩
    · exact q x hx

/-- Encoding the object and decoding the result gives the object back. -/
def RoundTrips (s : Nat) (p : P) : Prop :=
  ∃ chr, DiscreteParams.setChromosome p (List.replicate s false) = .ok chr ∧ DiscreteParams.setFrom p chr = (p, .ok ())

theorem initGiven_good {Fam : P → Prop} {s : Nat} (hF : Family Fam s) :
    ∀ (ps : List P) (pop : List (Indiv P R)), (∀ p ∈ ps, Fam p) → initGiven ps = .ok pop →
    List.Forall₂ (fun p i => Good Fam s i ∧ i.params = some p ∧
      DiscreteParams.setChromosome p (List.replicate s false) = .ok i.chrom) ps pop
  | [], pop, _, h => by
    simp only [initGiven, Res.ok.injEq] at h
    subst h
    exact .nil
  | p :: ps, pop, hp, h => by
    unfold initGiven at h
    rw [Res.bind_eq_ok] at h
    obtain ⟨i, h1, h⟩ := h
    rw [Res.bind_eq_ok] at h
    obtain ⟨is, h2, h⟩ := h
    simp only [Res.pure_eq, Res.ok.injEq] at h
    subst h
    obtain ⟨a, b, c, d⟩ := init_good hF (hp p List.mem_cons_self) h1
    exact .cons ⟨a, c, d⟩ (initGiven_good hF ps is (fun q hq => hp q (List.mem_cons_of_mem _ hq)) h2)

theorem initial_good {Fam : P → Prop} {s : Nat} {cfg : Config P R Mu} {c : Counter R} {p : P} (st : Setting Fam s cfg c p) {fuel : Nat}
    {rng rng' : Rng} {pop : List (Indiv P R)} {best : Indiv P R} (h : initialPopulation cfg fuel p rng = .ok (pop, best, rng')) :
    pop.length = cfg.popSize ∧ (∀ i ∈ pop, Good Fam s i) ∧ Good Fam s best ∧ best.hasFitness = false ∧
    (cfg.initial = none → ∀ i ∈ pop, Valid i ∧ Decoded Fam i) ∧
    (∀ ps, cfg.initial = some ps → List.Forall₂ (fun p i => Indiv.params i = some p ∧
      DiscreteParams.setChromosome p (List.replicate s false) = .ok i.chrom) ps pop) ∧
    (∀ ps, cfg.initial = some ps → (∀ q ∈ ps, RoundTrips s q) → ∀ i ∈ pop, Decoded Fam i) := by
  unfold initialPopulation at h
  rw [Res.bind_eq_ok] at h
  obtain ⟨⟨pop', r1⟩, h1, h⟩ := h
  rw [Res.bind_eq_ok] at h
  obtain ⟨b, h2, h⟩ := h
  simp only [Res.pure_eq, Res.ok.injEq, Prod.mk.injEq] at h
  obtain ⟨rfl, rfl, rfl⟩ := h
  obtain ⟨gb, gb2, _⟩ := init_good st.fam st.param h2
  cases hi : cfg.initial with
  | none =>
    rw [hi] at h1
    simp only at h1
    obtain ⟨l, q⟩ := initRandom_good st.fam st.param fuel _ _ _ _ h1
    refine ⟨l, fun i hi => (q i hi).1, gb, gb2, fun _ i hi => ⟨(q i hi).2.2, (q i hi).2.1⟩, by simp, by simp⟩
  | some ps =>
    rw [hi] at h1
    simp only at h1
    rw [Res.bind_eq_ok] at h1
    obtain ⟨_, hv, h1⟩ := h1
    rw [Res.bind_eq_ok] at h1
    obtain ⟨is, h3, h1⟩ := h1
    simp only [Res.pure_eq, Res.ok.injEq, Prod.mk.injEq] at h1
    obtain ⟨rfl, rfl⟩ := h1
    have hf := initGiven_good st.fam ps _ (st.initial ps hi) h3
    have hl : is.length = cfg.popSize := by rw [← hf.length_eq]; exact st.built.facts.2.2.2 ps hi
    refine ⟨hl, ?_, gb, gb2, by simp, ?_, ?_⟩
    · intro i hi
      obtain ⟨q, _, g, _⟩ := forall₂_mem_right hf hi
      exact g
    · intro ps' e
      simp only [Option.some.injEq] at e
      subst e
      exact hf.imp (fun _ _ h => h.2)
    · intro ps' e hr i him
      simp only [Option.some.injEq] at e
      subst e
      have : ∃ q ∈ ps, (Good Fam s i ∧ i.params = some q ∧
        DiscreteParams.setChromosome q (List.replicate s false) = .ok i.chrom) := forall₂_mem_right hf him
      obtain ⟨q, hq, g, e1, e2⟩ := this
      obtain ⟨chr, r1, r2⟩ := hr q hq
      rw [e2] at r1
      simp only [Res.ok.injEq] at r1
      subst r1
      exact ⟨q, e1, (st.fam.dec q _ q (st.initial ps hi q hq) r2).2⟩

theorem optimize_ok {cfg : Config P R Mu} {c : Counter R} {p : P} {fuel : Nat} {f : P → R} {mu : Mu}
    {rng : Rng} {maximize : Bool} {res : Result P R Mu} (h : optimize cfg fuel f c mu rng p maximize = .ok res) :
    maximize = true ∧ ∃ pop best rng1, initialPopulation cfg fuel p rng = .ok (pop, best, rng1) ∧
      iterate cfg fuel f cfg.maxGen.toNat 0 c pop best mu rng1 = .ok (res.generations, res.counter, res.best, res.mu, res.rng) ∧
      DiscreteParams.setFrom p res.best.chrom = (res.params, .ok ()) := by
  unfold optimize at h
  cases maximize with
  | false => simp at h
  | true =>
    simp only [if_true] at h
    rw [Res.bind_eq_ok] at h
    obtain ⟨⟨pop, best, rng1⟩, h1, h⟩ := h
    rw [Res.bind_eq_ok] at h
    obtain ⟨⟨tr, c', b', mu', rng'⟩, h2, h⟩ := h
    simp only at h
    split at h
    · split at h
      · next q hq =>
        simp only [Res.pure_eq, Res.ok.injEq] at h
        subst h
        exact ⟨rfl, pop, best, rng1, h1, h2, hq⟩
      · simp at h
      · simp at h
    · simp at h

/-- **C20.** Whenever `Optimize` returns, it evaluated at least one and at most `max_number_of_generations` generations, each of exactly
`population_size` individuals, all evaluated, all with chromosomes of the parameters' size — for every objective function, stream of
random numbers, mutator and cache content.  Minimising is rejected. -/
theorem C20_population {Fam : P → Prop} {s : Nat} {cfg : Config P R Mu} {c : Counter R} {p : P} (st : Setting Fam s cfg c p)
    (fuel : Nat) (f : P → R) (mu : Mu) (rng : Rng) (maximize : Bool) (res : Result P R Mu)
    (h : optimize cfg fuel f c mu rng p maximize = .ok res) :
    maximize = true ∧ 1 ≤ res.generations.length ∧ (res.generations.length : Int) ≤ cfg.maxGen ∧
    ∀ g ∈ res.generations, g.length = cfg.popSize ∧ ∀ i ∈ g, i.chrom.length = s ∧ i.hasFitness = true := by
  obtain ⟨hm, pop, best, rng1, h1, h2, h3⟩ := optimize_ok h
  obtain ⟨b1, b2, b3, _⟩ := st.built.facts
  obtain ⟨g1, g2, g3, g4, _⟩ := initial_good st h1
  obtain ⟨i1, i2, i3, i4, _⟩ := iterate_spec st.fam cfg st.sort st.mutator b2 fuel f _ _ _ _ _ _ _ _ _ _ _ _ h2 g1 g2 st.counter
  have hk : 0 < cfg.maxGen.toNat := by omega
  exact ⟨hm, List.length_pos_of_ne_nil (i3 hk), by omega, fun g hg => ⟨(i4 g hg).1, fun i hi => ⟨((i4 g hg).2 i hi).1.2.2, ((i4 g hg).2 i hi).2⟩⟩⟩

theorem params_map {Q : P → Indiv P R → Prop} {ps : List P} {pop g : List (Indiv P R)}
    (hB : List.Forall₂ (fun p i => Indiv.params i = some p ∧ Q p i) ps pop) (hA : List.Forall₂ SameBut pop g) :
    g.map Indiv.params = ps.map some := by
  induction hB generalizing g with
  | nil => cases hA; rfl
  | cons hd _ ih =>
    cases hA with
    | cons ha ht => simp [ih ht, ha.2.1, hd.1]

/-- **C18 (whole algorithm).** Every individual of every generation after the first satisfies its constraints and holds exactly the
parameters its chromosome encodes; so does the first generation unless initial parameters were supplied, in which case its members are
the supplied objects, unchecked. -/
theorem C18_generations {Fam : P → Prop} {s : Nat} {cfg : Config P R Mu} {c : Counter R} {p : P} (st : Setting Fam s cfg c p)
    (fuel : Nat) (f : P → R) (mu : Mu) (rng : Rng) (maximize : Bool) (res : Result P R Mu)
    (h : optimize cfg fuel f c mu rng p maximize = .ok res) :
    (∀ g ∈ res.generations.tail, ∀ i ∈ g, Valid i ∧ Decoded Fam i) ∧
    (cfg.initial = none → ∀ g ∈ res.generations, ∀ i ∈ g, Valid i ∧ Decoded Fam i) ∧
    (∀ ps, cfg.initial = some ps → ∀ g ∈ res.generations.head?, g.map Indiv.params = ps.map some) := by
  obtain ⟨hm, pop, best, rng1, h1, h2, h3⟩ := optimize_ok h
  obtain ⟨b1, b2, b3, _⟩ := st.built.facts
  obtain ⟨g1, g2, g3, g4, g5, g6, _⟩ := initial_good st h1
  obtain ⟨i1, i2, i3, i4, i5, i6, _⟩ := iterate_spec st.fam cfg st.sort st.mutator b2 fuel f _ _ _ _ _ _ _ _ _ _ _ _ h2 g1 g2 st.counter
  refine ⟨i6, ?_, ?_⟩
  · intro hn g hg i hi
    cases htr : res.generations with
    | nil => rw [htr] at hg; simp at hg
    | cons g0 t =>
      rw [htr] at hg i5 i6
      simp only [List.mem_cons] at hg
      rcases hg with rfl | hg
      · obtain ⟨y, hy, sy⟩ := forall₂_mem_right (i5 g (by simp)) hi
        obtain ⟨v, d⟩ := g5 hn y hy
        exact ⟨sy.valid v, sy.decoded d⟩
      · exact i6 g (by simpa using hg) i hi
  · intro ps hps g hg
    exact params_map (g6 ps hps) (i5 g hg)

/-- **C21 (best of everything).** When `Optimize` returns, the best individual is one of the evaluated individuals and its fitness is at
least that of every individual of every generation; the parameters are left holding what its chromosome decodes to; the run stops early
only when the stop value has been reached, and never goes on after it has been reached. -/
theorem C21_best {Fam : P → Prop} {s : Nat} {cfg : Config P R Mu} {c : Counter R} {p : P} (st : Setting Fam s cfg c p)
    (fuel : Nat) (f : P → R) (mu : Mu) (rng : Rng) (maximize : Bool) (res : Result P R Mu)
    (h : optimize cfg fuel f c mu rng p maximize = .ok res) :
    (∃ g ∈ res.generations, res.best ∈ g) ∧
    (∀ g ∈ res.generations, ∀ i ∈ g, i.fitness ≤ res.best.fitness) ∧
    DiscreteParams.setFrom p res.best.chrom = (res.params, .ok ()) ∧
    ((res.generations.length : Int) < cfg.maxGen → cfg.stop ≤ res.best.fitness) ∧
    (∀ g ∈ res.generations.dropLast, ∀ i ∈ g, i.fitness < cfg.stop) := by
  obtain ⟨hm, pop, best, rng1, h1, h2, h3⟩ := optimize_ok h
  obtain ⟨b1, b2, b3, _⟩ := st.built.facts
  obtain ⟨g1, g2, g3, g4, g5, g6, _⟩ := initial_good st h1
  obtain ⟨i1, i2, i3, i4, i5, i6, i7, i8, i9, i10, i11, i12, i13, _⟩ :=
    iterate_spec st.fam cfg st.sort st.mutator b2 fuel f _ _ _ _ _ _ _ _ _ _ _ _ h2 g1 g2 st.counter
  have hk : 0 < cfg.maxGen.toNat := by omega
  exact ⟨i11 g4 hk, i7, h3, fun hlt => i12 (List.length_pos_of_ne_nil (i3 hk)) (by omega), i13⟩

/-- **C21 (monotone).** From one generation to the next the best individual is replaced only by a strictly fitter one. -/
theorem C21_monotone (best best' : Indiv P R) (pop : List (Indiv P R)) (hp : ∀ i ∈ pop, i.hasFitness = true)
    (hb : best.hasFitness = true) (h : updateBest best pop = .ok best') :
    best.fitness ≤ best'.fitness ∧ (best' = best ∨ best.fitness < best'.fitness ∧ best' ∈ pop) ∧
    (∀ i ∈ pop, i.fitness ≤ best'.fitness) := by
  obtain ⟨u1, u2, u3, u4⟩ := updateBest_spec h hp
  refine ⟨u4 hb, ?_, u3⟩
  cases pop with
  | nil => simp [updateBest] at h
  | cons i is =>
    unfold updateBest at h
    rw [Res.bind_eq_ok] at h
    obtain ⟨b, hbb, h⟩ := h
    obtain ⟨a1, a2, a3⟩ := bestOf_spec is i b hbb (hp i List.mem_cons_self) (fun x hx => hp x (List.mem_cons_of_mem _ hx))
    have hbm : b ∈ i :: is := by
      rcases a1 with rfl | a1
      · exact List.mem_cons_self
      · exact List.mem_cons_of_mem _ a1
    simp only [hb, Bool.not_true, Bool.false_eq_true, if_false, getFitness, if_true, hp b hbm, Res.ok_bind, Res.pure_eq,
        Res.ok.injEq] at h
    split at h
    · next hlt => subst h; exact .inr ⟨hlt, hbm⟩
    · subst h; exact .inl rfl

/-! ### C23: fitness through the cache -/

/-- **C23 (one call).** `ObtainFitness` changes nothing but the fitness; an individual gets the remembered value for its chromosome's hash
if there is one, otherwise the objective function of its own parameters; the function is called exactly once for each individual without a
remembered value; and what is remembered afterwards is either remembered from before or was just computed for such a hash. -/
theorem C23_obtain {hash : List Bool → Nat} {f : P → R} {c c' : Counter R} {pop out : List (Indiv P R)} (hw : c.WF)
    (h : obtainFitness hash f c pop = .ok (c', out)) :
    List.Forall₂ (fun i j => ∃ v, j = { i with fitness := v, hasFitness := true } ∧
      (∀ w, c.known (hash i.chrom) = some w → v = w) ∧
      (c.known (hash i.chrom) = none → ∃ p, i.params = some p ∧ v = f p)) pop out ∧
    c'.counts = c.counts + (pop.filter (fun i => (c.known (hash i.chrom)).isNone)).length ∧
    (∀ k v, c'.known k = some v → c.known k = some v ∨
      ∃ j ∈ out, ∃ p, j.params = some p ∧ hash j.chrom = k ∧ j.fitness = v ∧ v = f p) := by
  obtain ⟨a, _, b, d⟩ := obtainFitness_spec hw h
  refine ⟨a.imp ?_, b, d⟩
  rintro i j ⟨_, v, _, e, hv⟩
  refine ⟨v, e, ?_, ?_⟩
  · intro w hk; rw [hk] at hv; exact hv
  · intro hk; rw [hk] at hv; exact hv

/-- A counter that has just been constructed knows nothing. -/
theorem new_known (entryBytes : Nat) (limitMb : Rat) (k : Nat) : (Counter.new (R := R) entryBytes limitMb).known k = none := by
  unfold Counter.new Counter.known Cache.create
  by_cases h : limitMb > 0
  · rw [if_pos h]; rfl
  · rw [if_neg h]

theorem new_wf (entryBytes : Nat) (limitMb : Rat) : (Counter.new (R := R) entryBytes limitMb).WF := by
  intro st h
  unfold Counter.new Cache.create at h
  simp only at h
  split at h
  · simp only [Option.some.injEq] at h
    subst h
    simp [Cache.WF, AMap.keys]
  · simp at h

/-- **C23 and C21 (a run equals uncached evaluation).** Suppose the counter's remembered values come from the same objective function
(`Justified`, e.g. a new object), no two different chromosomes seen have the same hash, and supplied initial parameters survive encoding.
Then in every generation every individual's fitness is the objective function of its own parameters, the parameters left by `Optimize`
are those of an evaluated individual, and no evaluated individual's parameters have a larger objective value. -/
theorem C23_run {Fam : P → Prop} {s : Nat} {cfg : Config P R Mu} {c : Counter R} {p : P} (st : Setting Fam s cfg c p)
    (fuel : Nat) (f : P → R) (mu : Mu) (rng : Rng) (maximize : Bool) (res : Result P R Mu)
    (h : optimize cfg fuel f c mu rng p maximize = .ok res)
    (S : List Bool → Prop) (hS : ∀ chr, ChromsOf res.generations chr → S chr) (hnc : NoCollision cfg.hash S)
    (hj : Justified Fam cfg.hash f S c)
    (hr : ∀ ps, cfg.initial = some ps → ∀ q ∈ ps, RoundTrips s q) :
    (∀ g ∈ res.generations, ∀ i ∈ g, ∃ q, i.params = some q ∧ i.fitness = f q ∧ f q ≤ f res.params) ∧
    (∃ g ∈ res.generations, ∃ i ∈ g, i.params = some res.params) ∧
    res.best.fitness = f res.params ∧
    Justified Fam cfg.hash f S res.counter ∧ res.counter.WF := by
  obtain ⟨hm, pop, best, rng1, h1, h2, h3⟩ := optimize_ok h
  obtain ⟨b1, b2, b3, _⟩ := st.built.facts
  obtain ⟨g1, g2, g3, g4, g5, g6, g7⟩ := initial_good st h1
  obtain ⟨i1, i2, i3, i4, i5, i6, i7, i8, i9, i10, i11, i12, i13, i14⟩ :=
    iterate_spec st.fam cfg st.sort st.mutator b2 fuel f _ _ _ _ _ _ _ _ _ _ _ _ h2 g1 g2 st.counter
  have hk : 0 < cfg.maxGen.toNat := by omega
  have hd : ∀ i ∈ pop, Decoded Fam i := by
    cases hi : cfg.initial with
    | none => exact fun i him => (g5 hi i him).2
    | some ps => exact g7 ps hi (hr ps hi)
  obtain ⟨j1, j2⟩ := i14 S hS hnc hj hd
  obtain ⟨gb, hgb, hbm⟩ := i11 g4 hk
  -- the best individual is decoded
  have hdec : ∀ g ∈ res.generations, ∀ i ∈ g, Decoded Fam i := by
    intro g hg i hi
    cases htr : res.generations with
    | nil => rw [htr] at hg; simp at hg
    | cons g0 t =>
      rw [htr] at hg i5 i6
      simp only [List.mem_cons] at hg
      rcases hg with rfl | hg
      · obtain ⟨y, hy, sy⟩ := forall₂_mem_right (i5 g (by simp)) hi
        exact sy.decoded (hd y hy)
      · exact (i6 g (by simpa using hg) i hi).2
  obtain ⟨qb, hq1, hq2⟩ := hdec gb hgb _ hbm
  have e := hq2 p st.param
  rw [h3] at e
  simp only [Prod.mk.injEq, and_true] at e
  obtain ⟨pb, hp1, hp2⟩ := j2 gb hgb _ hbm
  have hpb : pb = res.params := by
    rw [hq1] at hp1
    simp only [Option.some.injEq] at hp1
    rw [e, hp1]
  subst hpb
  refine ⟨?_, ⟨gb, hgb, res.best, hbm, hp1⟩, hp2, j1, i1⟩
  intro g hg i hi
  obtain ⟨q, a, b⟩ := j2 g hg i hi
  exact ⟨q, a, b, by rw [← b, ← hp2]; exact i7 g hg i hi⟩

/-- **C23 (stale values, violation).** A counter that already knows all the chromosomes never calls the objective function it is given:
reusing one genetic algorithm object for another function silently optimises the old one. -/
theorem C23_stale (hash : List Bool → Nat) (f g : P → R) (c : Counter R) (pop : List (Indiv P R))
    (hk : ∀ i ∈ pop, (c.known (hash i.chrom)).isSome = true) :
    obtainFitness hash f c pop = obtainFitness hash g c pop := by
  unfold obtainFitness
  cases hp : process hash c pop with
  | throw w => rfl
  | ub => rfl
  | ok r =>
    obtain ⟨c1, ts⟩ := r
    obtain ⟨a, _⟩ := process_spec hp
    have : toCount ts = [] := by
      clear hp
      induction a with
      | nil => rfl
      | cons hd _ ih =>
        rename_i i t _ _ _
        have hs := hk i List.mem_cons_self
        obtain ⟨_, hd⟩ := hd
        cases hkn : c.known (hash i.chrom) with
        | none => rw [hkn] at hs; simp at hs
        | some v =>
          rw [hkn] at hd
          rw [hd.2]
          simpa [toCount] using ih (fun x hx => hk x (List.mem_cons_of_mem _ hx))
    simp [this]

/-! ### C22: roulette selection (exact arithmetic; rounded arithmetic: C93) -/

section Exact
variable {P R : Type} [Field R] [LinearOrder R] [IsStrictOrderedRing R]

/-- Sum of the first `m` fitnesses. -/
def share (pop : List (Indiv P R)) (m : Nat) : R := ((pop.take m).map Indiv.fitness).sum

theorem share_cons (i : Indiv P R) (is : List (Indiv P R)) (m : Nat) : share (i :: is) (m + 1) = i.fitness + share is m := by
  simp [share]

theorem share_zero (pop : List (Indiv P R)) : share pop 0 = 0 := by simp [share]

theorem wheel_spec (target : R) : ∀ (pop : List (Indiv P R)) (current : R) (k m : Nat), (∀ i ∈ pop, i.hasFitness = true) →
    (wheel target current pop k = .ok m ↔ ∃ j, m = k + j ∧ j < pop.length ∧ target ≤ current + share pop (j + 1) ∧
      ∀ l < j, current + share pop (l + 1) < target)
  | [], current, k, m, _ => by simp [wheel]
  | i :: is, current, k, m, hf => by
    have hi : i.hasFitness = true := hf i List.mem_cons_self
    unfold wheel
    simp only [getFitness, hi, if_true, Res.ok_bind]
    split
    · next hle =>
      simp only [Res.pure_eq, Res.ok.injEq]
      constructor
      · rintro rfl
        refine ⟨0, rfl, by simp, ?_, by simp⟩
        rw [share_cons, share_zero, add_zero]; exact hle
      · rintro ⟨j, rfl, hj, _, hl⟩
        cases j with
        | zero => rfl
        | succ j =>
          have := hl 0 (by omega)
          rw [share_cons, share_zero, add_zero] at this
          exact absurd hle (not_le.2 this)
    · next hle =>
      rw [wheel_spec target is _ _ m (fun x hx => hf x (List.mem_cons_of_mem _ hx))]
      constructor
      · rintro ⟨j, rfl, hj, h1, h2⟩
        refine ⟨j + 1, by omega, by simpa using hj, ?_, ?_⟩
        · rw [share_cons, ← add_assoc]; exact h1
        · intro l hl
          cases l with
          | zero => rw [share_cons, share_zero, add_zero]; exact not_le.1 hle
          | succ l => rw [share_cons, ← add_assoc]; exact h2 l (by omega)
      · rintro ⟨j, rfl, hj, h1, h2⟩
        cases j with
        | zero => rw [share_cons, share_zero, add_zero] at h1; exact absurd h1 hle
        | succ j =>
          refine ⟨j, by omega, by simpa using hj, ?_, ?_⟩
          · rw [share_cons, ← add_assoc] at h1; exact h1
          · intro l hl
            have := h2 (l + 1) (by omega)
            rw [share_cons, ← add_assoc] at this
            exact this

theorem totalFitness_spec : ∀ (pop : List (Indiv P R)) (acc : R), (∀ i ∈ pop, i.hasFitness = true) →
    totalFitness acc pop = .ok (acc + share pop pop.length)
  | [], acc, _ => by simp [totalFitness, share]
  | i :: is, acc, hf => by
    have hi : i.hasFitness = true := hf i List.mem_cons_self
    unfold totalFitness
    simp only [getFitness, hi, if_true, Res.ok_bind]
    rw [totalFitness_spec is _ (fun x hx => hf x (List.mem_cons_of_mem _ hx))]
    rw [List.length_cons, share_cons, add_assoc]

/-- The point drawn on the wheel: the next `rand()` scaled to [0, total]. -/
def drawn (pop : List (Indiv P R)) (rng : Rng) : R :=
  ((rand rng.lib).1 : R) / (rng.lib.randMax : R) * share pop pop.length

/-- **C22.** For a non-empty population of evaluated individuals with non-negative fitnesses (`set_fitness` enforces that) and every
`rand()` stream, selection returns (never throws) an index in range, and individual `m` is selected exactly when the drawn point is in
`(sum of the fitnesses before m, sum up to and including m]` (for the first non-zero share the left end is closed: point 0 goes to
index 0).  One random number is used.  An individual of fitness 0 is selected only as index 0 when the drawn point is exactly 0. -/
theorem C22_select (pop : List (Indiv P R)) (rng : Rng) (hl : rng.lib.Valid) (hne : pop ≠ [])
    (hf : ∀ i ∈ pop, i.hasFitness = true ∧ 0 ≤ i.fitness) :
    totalFitness 0 pop = .ok (share pop pop.length) ∧
    ∃ m, select (share pop pop.length) pop rng = .ok (m, { rng with lib := (rand rng.lib).2 }) ∧ m < pop.length ∧
      (∀ j, j < pop.length → (j = m ↔ (drawn pop rng ≤ share pop (j + 1) ∧ (j = 0 ∨ share pop j < drawn pop rng)))) ∧
      (∀ i, pop[m]? = some i → 0 < i.fitness ∨ (m = 0 ∧ drawn pop rng = 0)) := by
  have hf1 : ∀ i ∈ pop, i.hasFitness = true := fun i hi => (hf i hi).1
  have mono1 : ∀ (q : List (Indiv P R)) (a : Nat), (∀ i ∈ q, 0 ≤ i.fitness) → share q a ≤ share q (a + 1) := by
    intro q
    induction q with
    | nil => intro a _; simp [share]
    | cons x xs ih =>
      intro a hq
      cases a with
      | zero => rw [share_cons, share_zero, share_zero]; simpa using hq x List.mem_cons_self
      | succ a =>
        rw [share_cons, share_cons]
        have := ih a (fun i hi => hq i (List.mem_cons_of_mem _ hi))
        linarith
  have hnn : ∀ i ∈ pop, 0 ≤ i.fitness := fun i hi => (hf i hi).2
  have mono : ∀ a b : Nat, a ≤ b → share pop a ≤ share pop b := by
    intro a b hab
    induction hab with
    | refl => exact le_rfl
    | step _ ih => exact ih.trans (mono1 pop _ hnn)
  have htot : 0 ≤ share pop pop.length := by rw [← share_zero pop]; exact mono 0 _ (by omega)
  obtain ⟨hb0, hb1⟩ := Random.base_range (R := R) hl
  have hd0 : 0 ≤ drawn pop rng := mul_nonneg hb0 htot
  have hd1 : drawn pop rng ≤ share pop pop.length := by
    unfold drawn
    calc _ ≤ 1 * share pop pop.length := mul_le_mul_of_nonneg_right hb1 htot
      _ = _ := one_mul _
  refine ⟨by rw [totalFitness_spec pop 0 hf1, zero_add], ?_⟩
  have hlen : 0 < pop.length := List.length_pos_of_ne_nil hne
  -- the first index whose share reaches the drawn point
  have hex : ∃ j, j < pop.length ∧ drawn pop rng ≤ share pop (j + 1) := ⟨pop.length - 1, by omega, by
    rw [show pop.length - 1 + 1 = pop.length by omega]; exact hd1⟩
  classical
  let m := Nat.find hex
  have hm := Nat.find_spec hex
  have hmin : ∀ l < m, share pop (l + 1) < drawn pop rng := by
    intro l hlm
    have := Nat.find_min hex hlm
    have hml : m < pop.length := hm.1
    by_contra hc
    exact this ⟨by omega, not_lt.1 hc⟩
  have hsel : wheel (drawn pop rng) 0 pop 0 = .ok m := by
    rw [wheel_spec _ _ _ _ _ hf1]
    exact ⟨m, by omega, hm.1, by rw [zero_add]; exact hm.2, fun l hl => by rw [zero_add]; exact hmin l hl⟩
  refine ⟨m, ?_, hm.1, ?_, ?_⟩
  · unfold select
    have : (Random.base rng.lib).1 * share pop pop.length = drawn pop rng := rfl
    rw [this, hsel]
    rfl
  · intro j hj
    constructor
    · rintro rfl
      refine ⟨hm.2, ?_⟩
      rcases Nat.eq_zero_or_pos m with h0 | h0
      · exact .inl h0
      · right
        have := hmin (m - 1) (by omega)
        rw [show m - 1 + 1 = m by omega] at this
        exact this
    · rintro ⟨h1, h2⟩
      rcases Nat.lt_trichotomy j m with h | h | h
      · exact absurd h1 (not_le.2 (hmin j h))
      · exact h
      · exfalso
        rcases h2 with h2 | h2
        · omega
        · have := mono (m + 1) j (by omega)
          exact absurd (lt_of_le_of_lt (hm.2.trans this) h2) (lt_irrefl _)
  · intro i hi
    have hstep : share pop (m + 1) = share pop m + i.fitness := by
      have : ∀ (q : List (Indiv P R)) (a : Nat), q[a]? = some i → share q (a + 1) = share q a + i.fitness := by
        intro q
        induction q with
        | nil => intro a h; simp at h
        | cons x xs ih =>
          intro a h
          cases a with
          | zero => simp at h; subst h; rw [share_cons, share_zero, share_zero]; ring
          | succ a =>
            rw [share_cons, share_cons, ih a (by simpa using h)]; ring
      exact this pop m hi
    by_contra hc
    push Not at hc
    obtain ⟨hc1, hc2⟩ := hc
    have hi0 : i.fitness = 0 := le_antisymm hc1 (hnn i (List.mem_of_getElem? hi))
    rw [hi0, add_zero] at hstep
    rcases Nat.eq_zero_or_pos m with h0 | h0
    · apply hc2 h0
      have := hm.2
      rw [show Nat.find hex = m from rfl, hstep, h0, share_zero] at this
      exact le_antisymm this hd0
    · have h1 := hmin (m - 1) (by omega)
      rw [show m - 1 + 1 = m by omega] at h1
      have h2 := hm.2
      rw [show Nat.find hex = m from rfl, hstep] at h2
      exact absurd (lt_of_lt_of_le h1 h2) (lt_irrefl _)

end Exact

/-! ### C59: elitism -/

/-- **C59.** Before mutation, position `m` of the next population, for `m < 2 * elitism` within the population, holds an unchanged copy
(fitness included) of the `m`-th individual of the fitness-sorted current population; a negative elitism count behaves like 0, one larger
than half the population copies everything. -/
theorem C59_elite {Fam : P → Prop} {s : Nat} (hF : Family Fam s) (cfg : Config P R Mu) (hsort : ∀ l, (cfg.sort l).Perm l)
    (heven : cfg.popSize % 2 = 0) (fuel : Nat) (pop next : List (Indiv P R)) (rng rng' : Rng) (hg : ∀ i ∈ pop, Good Fam s i)
    (h : nextPopulation cfg fuel pop rng = .ok (next, rng')) :
    next.length = cfg.popSize ∧
    ∀ m : Nat, m < cfg.popSize → ((m / 2 : Nat) : Int) < cfg.elitism → next[m]? = (cfg.sort pop)[m]? := by
  unfold nextPopulation at h
  rw [Res.bind_eq_ok] at h
  obtain ⟨t, _, h⟩ := h
  have hs : ∀ i ∈ cfg.sort pop, Good Fam s i := fun i hi => hg i ((hsort pop).mem_iff.1 hi)
  refine ⟨by rw [(nextPairs_good hF hg hs _ _ _ _ _ _ h).1]; omega, ?_⟩
  intro m hm he
  have := nextPairs_elite hF hs _ _ _ _ _ _ h m (by omega) (by omega)
  simpa using this

/-- **C59 (they are the fittest).** With a sort that orders by decreasing fitness, the copied individuals and the rest make up the whole
current population, and none of the rest is fitter than any of the copied ones. -/
theorem C59_fittest {Fam : P → Prop} {s : Nat} (hF : Family Fam s) (cfg : Config P R Mu) (hsort : ∀ l, (cfg.sort l).Perm l)
    (hdec : ∀ l, (cfg.sort l).Pairwise (fun x y => y.fitness ≤ x.fitness))
    (heven : cfg.popSize % 2 = 0) (fuel : Nat) (pop next : List (Indiv P R)) (rng rng' : Rng) (hg : ∀ i ∈ pop, Good Fam s i)
    (hlen : pop.length = cfg.popSize) (h : nextPopulation cfg fuel pop rng = .ok (next, rng')) :
    ∃ rest, (next.take (2 * cfg.elitism.toNat) ++ rest).Perm pop ∧
      ∀ x ∈ next.take (2 * cfg.elitism.toNat), ∀ y ∈ rest, y.fitness ≤ x.fitness := by
  obtain ⟨h1, h2⟩ := C59_elite hF cfg hsort heven fuel pop next rng rng' hg h
  have hl2 : (cfg.sort pop).length = cfg.popSize := by rw [(hsort pop).length_eq, hlen]
  have e : next.take (2 * cfg.elitism.toNat) = (cfg.sort pop).take (2 * cfg.elitism.toNat) := by
    apply List.ext_getElem?
    intro m
    rw [List.getElem?_take, List.getElem?_take]
    split
    · by_cases hm : m < cfg.popSize
      · exact h2 m hm (by omega)
      · rw [List.getElem?_eq_none (by omega), List.getElem?_eq_none (by omega)]
    · rfl
  refine ⟨(cfg.sort pop).drop (2 * cfg.elitism.toNat), ?_, ?_⟩
  · rw [e, List.take_append_drop]; exact hsort pop
  · rw [e]
    have := hdec pop
    rw [← List.take_append_drop (2 * cfg.elitism.toNat) (cfg.sort pop), List.pairwise_append] at this
    exact this.2.2

end K52.GA
