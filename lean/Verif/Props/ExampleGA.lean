import Verif.Model.ExampleGA
import Verif.Props.GAProgress
import Mathlib.NumberTheory.Real.Irrational

/-!
# C118: the genetic algorithm example
-/

namespace K52.ExampleGA
open GA Indiv

deriving instance DecidableEq for ConstSize, IntParam, DblParam, ArrParam

/-- The array the program makes. -/
def start : ArrParam ℚ := ⟨⟨true, 40⟩, ⟨⟨true, 20⟩, some ⟨⟨true, 20⟩, 0, 0, 2 ^ 20⟩, minValue, maxValue, (maxValue - minValue) / 2 ^ 20⟩, [0, 0]⟩

theorem new_eq : ArrParam.new minValue maxValue precision number = .ok start := by
  have h : (match ArrParam.new minValue maxValue precision number with
    | .ok a => decide (a = start)
    | _ => false) = true := by decide +kernel
  split at h
  · next a e =>
    rw [e]
    simpa using h
  · simp at h

theorem start_wf : ArrParam.WF start 20 0 := by
  refine ⟨⟨rfl, rfl, by norm_num, ?_, rfl⟩, rfl⟩
  show minValue < maxValue
  unfold minValue maxValue precision
  norm_num

/-- **C118 (before the run).** The parameters the program passes to `Optimize` hold zeros, which violate their own constraints (the lower bound is positive);
written to a chromosome they give all ones, the largest number of the grid. -/
theorem C118_start : ArrParam.new minValue maxValue precision number = .ok start ∧ start.values = [0, 0] ∧ (0 : ℚ) < minValue ∧
    start.checkConstraints = .ok false ∧ ∀ chr, chr.length = 40 → start.setChromosome chr = .ok (List.replicate 40 true) := by
  refine ⟨new_eq, rfl, by decide +kernel, by decide +kernel, fun chr hl => ?_⟩
  have hi : DblParam.index start.sample 0 = -1 := by decide +kernel
  obtain ⟨outs, e, hf⟩ := start_wf.setChromosome (fun v hv => by
    have : v = 0 := by
      simp [start] at hv
      exact hv
    rw [this]
    unfold ArrParam.Fits
    rw [hi]
    norm_num) chr hl
  rw [e]
  have key : ∀ o : List Bool, o.length = 20 → (bitsVal o : Int) = DblParam.index start.sample 0 % 2 ^ 20 → o = List.replicate 20 true := by
    intro o h1 h2
    refine bitsVal_inj (by rw [h1, List.length_replicate]) ?_
    rw [hi] at h2
    have h3 : bitsVal (List.replicate 20 true) = 1048575 := by decide +kernel
    rw [h3]
    have h4 : (-1 : Int) % 2 ^ 20 = 1048575 := by norm_num
    rw [h4] at h2
    exact_mod_cast h2
  have hv : start.values = [0, 0] := rfl
  rw [hv] at hf
  match outs, hf with
  | [a, b], .cons h1 (.cons h2 .nil) =>
    rw [key a h1.1 h1.2, key b h2.1 h2.2]
    rfl

/-- Specification: the numbers the program can choose, 2^20 equally spaced ones from 0.0001 on. -/
def OnGrid (v : ℚ) : Prop := ∃ k : ℕ, k < 2 ^ 20 ∧ v = 1 / 10000 + k * ((100 - 1 / 10000) / 2 ^ 20)

theorem OnGrid.range {v : ℚ} (h : OnGrid v) : 1 / 10000 ≤ v ∧ v < 100 := by
  obtain ⟨k, hk, rfl⟩ := h
  have h1 : (k : ℚ) ≤ 2 ^ 20 - 1 := by
    have : k ≤ 2 ^ 20 - 1 := by omega
    have : (k : ℚ) ≤ ((2 ^ 20 - 1 : ℕ) : ℚ) := by exact_mod_cast this
    norm_num at this ⊢
    linarith
  have h0 : (0 : ℚ) ≤ k := Nat.cast_nonneg k
  have h2 : (0 : ℚ) ≤ k * ((100 - 1 / 10000) / 2 ^ 20) := mul_nonneg h0 (by norm_num)
  refine ⟨by linarith, ?_⟩
  have h3 : (k : ℚ) * ((100 - 1 / 10000) / 2 ^ 20) ≤ (2 ^ 20 - 1) * ((100 - 1 / 10000) / 2 ^ 20) := mul_le_mul_of_nonneg_right h1 (by norm_num)
  norm_num at h3 ⊢
  linarith

/-- A number of the grid is no root of 2, and not too close to one. -/
theorem OnGrid.term {v : ℚ} (h : OnGrid v) : 0 < |v * v - 2| ∧ 1 / |v * v - 2| ≤ (10000 * 2 ^ 20) ^ 2 := by
  obtain ⟨k, hk, rfl⟩ := h
  set N : ℤ := 2 ^ 20 + k * 999999 with hN
  have e : (1 / 10000 + k * ((100 - 1 / 10000) / 2 ^ 20) : ℚ) = N / (10000 * 2 ^ 20) := by
    rw [hN]
    push_cast
    field_simp
    ring
  have e2 : (1 / 10000 + k * ((100 - 1 / 10000) / 2 ^ 20) : ℚ) * (1 / 10000 + k * ((100 - 1 / 10000) / 2 ^ 20)) - 2 =
      ((N * N - 2 * (10000 * 2 ^ 20) ^ 2 : ℤ) : ℚ) / (10000 * 2 ^ 20) ^ 2 := by
    rw [e]
    push_cast
    field_simp
    norm_num
  have hne : (N * N - 2 * (10000 * 2 ^ 20) ^ 2 : ℤ) ≠ 0 := by
    intro h
    refine irrational_sqrt_two ⟨(N / (10000 * 2 ^ 20) : ℚ), ?_⟩
    have h2 : ((N : ℝ) / (10000 * 2 ^ 20)) * ((N : ℝ) / (10000 * 2 ^ 20)) = 2 := by
      have h3 : (N : ℝ) * N = 2 * (10000 * 2 ^ 20) ^ 2 := by
        have : ((N * N - 2 * (10000 * 2 ^ 20) ^ 2 : ℤ) : ℝ) = 0 := by rw [h]; simp
        push_cast at this
        linarith
      field_simp
      linarith
    have h0 : (0 : ℝ) ≤ (N : ℝ) / (10000 * 2 ^ 20) := by
      have : (0 : ℤ) ≤ N := by rw [hN]; positivity
      have : (0 : ℝ) ≤ N := by exact_mod_cast this
      positivity
    push_cast
    rw [← Real.sqrt_mul_self h0, h2]
  have h1 : (1 : ℚ) ≤ |((N * N - 2 * (10000 * 2 ^ 20) ^ 2 : ℤ) : ℚ)| := by
    rw [← Int.cast_abs]
    exact_mod_cast Int.one_le_abs hne
  rw [e2, abs_div, abs_of_pos (show (0 : ℚ) < (10000 * 2 ^ 20) ^ 2 by positivity)]
  have h0 : (0 : ℚ) < |((N * N - 2 * (10000 * 2 ^ 20) ^ 2 : ℤ) : ℚ)| := by linarith
  refine ⟨div_pos h0 (by positivity), ?_⟩
  rw [one_div_div, div_le_iff₀ h0]
  have : (0 : ℚ) < (10000 * 2 ^ 20) ^ 2 := by positivity
  nlinarith

theorem summ_two (v w : ℚ) : summ [v, w] = 1 / |v * v - 2| + 1 / |w * w - 2| := by
  simp [summ]

theorem summ_lt {v w : ℚ} (hv : OnGrid v) (hw : OnGrid w) : summ [v, w] < maxDouble := by
  have h1 := hv.term.2
  have h2 := hw.term.2
  rw [summ_two]
  refine lt_of_le_of_lt (add_le_add h1 h2) ?_
  decide +kernel

theorem summ_nonneg (l : List ℚ) : 0 ≤ summ l := by
  unfold summ
  have : ∀ (l : List ℚ) (s : ℚ), 0 ≤ s → 0 ≤ l.foldl (fun summ value => summ + 1 / |value * value - 2|) s := by
    intro l
    induction l with
    | nil => exact fun s h => h
    | cons x l ih => exact fun s h => ih _ (add_nonneg h (by positivity))
  exact this l 0 (le_refl _)

theorem objective_nonneg (p : Param ℚ) : 0 ≤ objective p := by
  cases p
  case arr a => exact summ_nonneg _
  all_goals exact le_refl _

theorem start_wfp : Param.WFP (.arr start) 40 := by
  simp only [Param.WFP]
  exact ⟨20, 0, start_wf, rfl⟩

/-- Every chromosome decodes to two numbers of the grid. -/
theorem decode {chr : List Bool} {q : Param ℚ} (h : DiscreteParams.setFrom (Param.arr start) chr = (q, .ok ())) :
    ∃ a v w, q = .arr a ∧ a.values = [v, w] ∧ OnGrid v ∧ OnGrid w := by
  have h' : (Param.arr (start.setFromChromosome chr).1, (start.setFromChromosome chr).2) = (q, Res.ok ()) := h
  obtain ⟨rfl, h2⟩ := Prod.mk.inj h'
  by_cases hl : chr.length = 20 * 2
  · obtain ⟨outs, rfl, hk, ho⟩ := ArrParam.exists_chunks 20 2 chr hl
    rw [start_wf.setFrom outs hk ho]
    match outs, hk with
    | [a, b], _ =>
      refine ⟨_, _, _, rfl, rfl, ?_, ?_⟩
      · have := bitsVal_lt a
        rw [ho a (by simp)] at this
        exact ⟨bitsVal a, this, by rw [add_comm]; rfl⟩
      · have := bitsVal_lt b
        rw [ho b (by simp)] at this
        exact ⟨bitsVal b, this, by rw [add_comm]; rfl⟩
  · exfalso
    have : start.cs.check chr.length = .throw "invalid_argument" := by
      unfold ConstSize.check
      rw [start_wf.cs]
      simp [start, hl]
    unfold ArrParam.setFromChromosome at h2
    rw [this] at h2
    cases h2

section run
variable {hash : List Bool → Nat} {sort : List (Indiv (Param ℚ) ℚ) → List (Indiv (Param ℚ) ℚ)} {entryBytes fuel : Nat} {rng : Rng}

/-- The configuration the program makes. -/
def config (hash : List Bool → Nat) (sort : List (Indiv (Param ℚ) ℚ) → List (Indiv (Param ℚ) ℚ)) (initial : Option (List (Param ℚ))) :
    Config (Param ℚ) ℚ Mutator.Flip := ⟨300, 25, 10, maxDouble, initial, mutator, hash, sort⟩

theorem setting (hsort : ∀ l, (sort l).Perm l) {initial : Option (List (Param ℚ))} (hb : Built (config hash sort initial))
    (hi : ∀ ps, initial = some ps → ∀ q ∈ ps, Param.Fam (.arr start) 40 q) :
    Setting (Param.Fam (.arr start) 40) 40 (config hash sort initial) (Counter.new entryBytes 1) (.arr start) :=
  ⟨Param.family _ _, hb, hsort, ofGenes_keepsLength Mutator.flipGenes (fun f _ => f), ⟨start_wfp, rfl⟩, hi, new_wf _ _⟩

theorem encodes_start : Encodes 40 (Param.arr start) := by
  have h : (match DiscreteParams.setChromosome (Param.arr start) (List.replicate 40 false) with
    | .ok _ => true
    | _ => false) = true := by decide +kernel
  split at h
  · next out e => exact ⟨out, e⟩
  · simp at h

theorem returns (hsort : ∀ l, (sort l).Perm l) {initial : Option (List (Param ℚ))} (hb : Built (config hash sort initial))
    (hi : ∀ ps, initial = some ps → ∀ q ∈ ps, Param.Fam (.arr start) 40 q ∧ Encodes 40 q ∧ DiscreteParams.sameMeta q (Param.arr start) = .ok true)
    {m : Mutator.Flip} (hm : m.Inv) (hr : rng.lib.Valid) (hfuel : 0 < fuel) (heb : entryBytes ≤ 349) :
    ∃ res, optimize (config hash sort initial) fuel objective (Counter.new entryBytes 1) m rng (.arr start) true = .ok res := by
  have ht : Total False (Param.Fam (.arr start) 40) 40 := by
    have h := Param.total (.arr start) 40 (by norm_num) (by norm_num) (by simp [Param.IntsFit])
    have e : (¬ Param.NoGap (Param.arr start)) = False := by simp [Param.NoGap]
    rw [e] at h
    exact h
  refine C94_terminates selects_field (setting hsort hb fun ps h q hq => (hi ps h q hq).1) ht encodes_start (fun ps h q hq => (hi ps h q hq).2)
    (C94_flip 10) m hm rng hr objective objective_nonneg fuel hfuel (show 300 * 10 ≤ 2147483647 by norm_num) (.inr ?_)
  show ((entryBytes * (300 * 10) : Nat) : ℚ) / 1048576 ≤ 1
  rw [div_le_one (by norm_num)]
  have : entryBytes * (300 * 10) ≤ 1048576 := by omega
  exact_mod_cast this

theorem flip_new (l : Random.Lib) (hl : l.Valid) : ∃ f l', Mutator.Flip.new (1 / 1000000 : ℚ) l = .ok (f, l') ∧ f.Inv ∧ l'.Valid := by
  obtain ⟨f, l', e, h, _⟩ := (Mutator.C38_flip_constructor (1 / 1000000 : ℚ) l (by norm_num) (by norm_num)).1 (by norm_num)
  refine ⟨f, l', e, h, ?_⟩
  unfold Mutator.Flip.new at e
  rw [if_neg (by norm_num)] at e
  obtain ⟨k, _, e⟩ := Res.bind_eq_ok.1 e
  obtain ⟨n, _, e⟩ := Res.bind_eq_ok.1 e
  split at e
  · cases e
  · unfold Mutator.Flip.setGensToSkip at e
    obtain ⟨r, hr, e⟩ := Res.bind_eq_ok.1 e
    cases e
    unfold Random.discrete at hr
    obtain ⟨_, _, hr⟩ := Res.bind_eq_ok.1 hr
    obtain ⟨_, _, hr⟩ := Res.bind_eq_ok.1 hr
    split at hr
    · cases hr
    · obtain ⟨_, _, hr⟩ := Res.bind_eq_ok.1 hr
      cases hr
      exact rand_valid hl

/-- What both variants of the program have in common. -/
theorem finish_ok (hsort : ∀ l, (sort l).Perm l) {initial : Option (List (Param ℚ))} (hb : Built (config hash sort initial))
    (hi : ∀ ps, initial = some ps → ∀ q ∈ ps, Param.Fam (.arr start) 40 q ∧ Encodes 40 q ∧ DiscreteParams.sameMeta q (Param.arr start) = .ok true)
    {m : Mutator.Flip} (hm : m.Inv) (hr : rng.lib.Valid) (hfuel : 0 < fuel) (heb : entryBytes ≤ 349) :
    ∃ res v w, optimize (config hash sort initial) fuel objective (Counter.new entryBytes 1) m rng (.arr start) true = .ok res ∧
      finish (.ok res) = .ok ⟨0, [v, w], 1 / |v * v - 2| + 1 / |w * w - 2|, some res⟩ ∧ objective res.params = 1 / |v * v - 2| + 1 / |w * w - 2| ∧
      OnGrid v ∧ OnGrid w := by
  obtain ⟨res, hres⟩ := returns hsort hb hi hm hr hfuel heb
  have hset := setting (entryBytes := entryBytes) hsort hb fun ps h q hq => (hi ps h q hq).1
  obtain ⟨_, _, h3, _⟩ := C21_best hset fuel objective m rng true res hres
  obtain ⟨a, v, w, e1, e2, hv, hw⟩ := decode h3
  have e3 : objective res.params = 1 / |v * v - 2| + 1 / |w * w - 2| := by
    rw [e1]
    show summ a.values = _
    rw [e2, summ_two]
  refine ⟨res, v, w, hres, ?_, e3, hv, hw⟩
  show (match res.params with
    | .arr a => Res.ok (⟨0, a.values, objective res.params, some res⟩ : Output)
    | _ => .ub) = _
  rw [e3, e1]
  show Res.ok (⟨0, a.values, _, some res⟩ : Output) = _
  rw [e2]

theorem built_none : Built (config hash sort none) :=
  .create (popSize := 300) (elitism := 25) (maxGen := 10) (mutator := some mutator) (stop := maxDouble) (hash := hash) (sort := sort) rfl

/-- **C118.** For every stream of random numbers the program ends with exit code 0 and prints two numbers of the grid between its bounds and the value of
the objective function there.  Unless two of the chromosomes of the run have the same hash, ten generations of 300 individuals are evaluated, and no individual
has a larger value. -/
theorem C118_main (hash : List Bool → Nat) (sort : List (Indiv (Param ℚ) ℚ) → List (Indiv (Param ℚ) ℚ)) (hsort : ∀ l, (sort l).Perm l)
    (entryBytes fuel : Nat) (heb : entryBytes ≤ 349) (hfuel : 0 < fuel) (rng : Rng) (hr : rng.lib.Valid) :
    ∃ v w res, main false hash sort entryBytes fuel rng = .ok ⟨0, [v, w], 1 / |v * v - 2| + 1 / |w * w - 2|, some res⟩ ∧ OnGrid v ∧ OnGrid w ∧
      (NoCollision hash (ChromsOf res.generations) → res.generations.length = 10 ∧ ∀ g ∈ res.generations, g.length = 300 ∧
        ∀ i ∈ g, ∃ a x y, i.params = some (.arr a) ∧ a.values = [x, y] ∧ OnGrid x ∧ OnGrid y ∧
          1 / |x * x - 2| + 1 / |y * y - 2| ≤ 1 / |v * v - 2| + 1 / |w * w - 2|) := by
  obtain ⟨f, l', ef, hf, hl'⟩ := flip_new rng.lib hr
  obtain ⟨res, v, w, h1, h2, h3, hv, hw⟩ := finish_ok (hash := hash) (rng := { rng with lib := l' }) (fuel := fuel) (entryBytes := entryBytes) hsort built_none
    (fun ps h => by cases h) hf hl' hfuel heb
  have hset := setting (entryBytes := entryBytes) hsort (built_none (hash := hash)) (fun ps h => by cases h)
  refine ⟨v, w, res, ?_, hv, hw, fun hnc => ?_⟩
  · unfold main
    rw [new_eq, Res.ok_bind, ef, Res.ok_bind]
    show finish (optimize (config hash sort none) fuel objective (Counter.new entryBytes 1) f { rng with lib := l' } (.arr start) true) = _
    rw [h1, h2]
  · have hj : Justified (Param.Fam (.arr start) 40) hash objective (ChromsOf res.generations) (Counter.new entryBytes 1) := by
      intro k v h
      rw [new_known] at h
      cases h
    obtain ⟨r1, r2, r3, _⟩ := C23_run hset fuel objective f _ true res h1 _ (fun _ h => h) hnc hj (fun ps h => by cases h)
    obtain ⟨_, _, c2', c4⟩ := C20_population hset fuel objective f _ true res h1
    obtain ⟨_, b2, _, b4, _⟩ := C21_best hset fuel objective f _ true res h1
    obtain ⟨_, d2, _⟩ := C18_generations hset fuel objective f _ true res h1
    have hlen : res.generations.length = 10 := by
      have hlt : ¬ maxDouble ≤ res.best.fitness := by
        rw [r3, h3, ← summ_two]
        exact not_le.2 (summ_lt hv hw)
      by_contra hne
      have c3 : (res.generations.length : Int) ≤ 10 := c2'
      exact hlt (b4 (show (res.generations.length : Int) < 10 by omega))
    refine ⟨hlen, fun g hg => ⟨(c4 g hg).1, fun i hi => ?_⟩⟩
    obtain ⟨q, q1, q2, q3⟩ := r1 g hg i hi
    obtain ⟨_, q', d3, d4⟩ := d2 rfl g hg i hi
    rw [q1] at d3
    cases d3
    obtain ⟨a, x, y, e1, e2, hx, hy⟩ := decode (d4 (.arr start) ⟨start_wfp, rfl⟩)
    refine ⟨a, x, y, by rw [q1, e1], e2, hx, hy, ?_⟩
    rw [← h3, ← summ_two]
    refine le_trans (le_of_eq ?_) q3
    rw [e1]
    show _ = summ a.values
    rw [e2]

/-- One of the initial parameters. -/
def given : ArrParam ℚ := { start with values := [14 / 10, 14 / 10] }

theorem initial_eq (n : Nat) : initialParameters n = .ok (List.replicate n (.arr given)) := by
  have h : start.setValues (List.replicate number (14 / 10)) = (given, .ok ()) := by
    have h : (match start.setValues (List.replicate number (14 / 10)) with
      | (b, .ok ()) => decide (b = given)
      | _ => false) = true := by decide +kernel
    split at h
    · next b e =>
      rw [e]
      simp only [decide_eq_true_eq] at h
      rw [h]
    · simp at h
  induction n with
  | zero => rfl
  | succ n ih =>
    unfold initialParameters
    rw [new_eq, Res.ok_bind, h]
    show (initialParameters n >>= _) = _
    rw [ih]
    rfl

theorem given_fam : Param.Fam (.arr start) 40 (.arr given) := by
  refine ⟨?_, rfl⟩
  simp only [Param.WFP]
  exact ⟨20, 0, ⟨start_wf.sample, rfl⟩, rfl⟩

theorem given_encodes : Encodes 40 (Param.arr given) ∧ DiscreteParams.sameMeta (Param.arr given) (Param.arr start) = .ok true := by
  constructor
  · have h : (match DiscreteParams.setChromosome (Param.arr given) (List.replicate 40 false) with
      | .ok _ => true
      | _ => false) = true := by decide +kernel
    split at h
    · next out e => exact ⟨out, e⟩
    · simp at h
  · have h : (match DiscreteParams.sameMeta (Param.arr given) (Param.arr start) with
      | .ok b => b
      | _ => false) = true := by decide +kernel
    split at h
    · next b e =>
      rw [e, h]
    · simp at h

/-- **C118 (initial parameters).** With the initial parameters of `GetInitialParameters`, whose use is commented out, the parameters are accepted, the first generation
consists of them, and the program ends in the same way. -/
theorem C118_initial (hash : List Bool → Nat) (sort : List (Indiv (Param ℚ) ℚ) → List (Indiv (Param ℚ) ℚ)) (hsort : ∀ l, (sort l).Perm l)
    (entryBytes fuel : Nat) (heb : entryBytes ≤ 349) (hfuel : 0 < fuel) (rng : Rng) (hr : rng.lib.Valid) :
    ∃ v w res g gs, main true hash sort entryBytes fuel rng = .ok ⟨0, [v, w], 1 / |v * v - 2| + 1 / |w * w - 2|, some res⟩ ∧ OnGrid v ∧ OnGrid w ∧
      res.generations = g :: gs ∧ g.length = 300 ∧ ∀ i ∈ g, ∃ a, i.params = some (.arr a) ∧ a.values = [14 / 10, 14 / 10] ∧ i.fitness ≤ res.best.fitness := by
  obtain ⟨f, l', ef, hf, hl'⟩ := flip_new rng.lib hr
  set ps : List (Param ℚ) := List.replicate 300 (.arr given) with hps
  have hmem : ∀ q ∈ ps, q = .arr given := fun q hq => List.eq_of_mem_replicate hq
  have hset : setInitialParameters (config hash sort none) ps = .ok (config hash sort (some ps)) := by
    have := (C19_initial (Param.family (.arr start) 40) (config hash sort none) ps fun q hq => by rw [hmem q hq]; exact given_fam).1
      (by rw [hps, List.length_replicate]; exact le_refl 300)
    rw [this, List.take_of_length_le (by rw [hps, List.length_replicate]; exact le_refl 300)]
    rfl
  have hb : Built (config hash sort (some ps)) := .initial built_none hset
  have hi : ∀ qs, some ps = some qs → ∀ q ∈ qs, Param.Fam (.arr start) 40 q ∧ Encodes 40 q ∧ DiscreteParams.sameMeta q (Param.arr start) = .ok true := by
    intro qs e q hq
    cases e
    rw [hmem q hq]
    exact ⟨given_fam, given_encodes⟩
  obtain ⟨res, v, w, h1, h2, h3, hv, hw⟩ := finish_ok (hash := hash) (rng := { rng with lib := l' }) (fuel := fuel) (entryBytes := entryBytes) hsort hb hi hf hl' hfuel heb
  have hs := setting (entryBytes := entryBytes) hsort hb fun qs e q hq => (hi qs e q hq).1
  obtain ⟨_, c1, _, c4⟩ := C20_population hs fuel objective f _ true res h1
  obtain ⟨_, b2, _⟩ := C21_best hs fuel objective f _ true res h1
  obtain ⟨_, _, d3⟩ := C18_generations hs fuel objective f _ true res h1
  cases hg : res.generations with
  | nil =>
    rw [hg] at c1
    simp at c1
  | cons g gs =>
    have hgm : g ∈ res.generations := by rw [hg]; simp
    refine ⟨v, w, res, g, gs, ?_, hv, hw, hg, (c4 g hgm).1, fun i hi => ?_⟩
    · unfold main
      rw [new_eq, Res.ok_bind, ef, Res.ok_bind]
      show finish ((initialParameters 300 >>= fun ps => setInitialParameters (config hash sort none) ps) >>=
        fun cfg => optimize cfg fuel objective (Counter.new entryBytes 1) f { rng with lib := l' } (.arr start) true) = _
      rw [initial_eq, Res.ok_bind, hset, Res.ok_bind, h1, h2]
    · have hmap := d3 ps rfl g (by rw [hg]; rfl)
      have hmem2 : i.params ∈ g.map Indiv.params := List.mem_map.2 ⟨i, hi, rfl⟩
      rw [hmap, hps] at hmem2
      simp only [List.map_replicate, List.mem_replicate] at hmem2
      exact ⟨given, hmem2.2, rfl, b2 g hgm i hi⟩

/-- **C118 (exceptions).** Whatever the size of a cache entry (so that the cache may overflow), no exception leaves the program: its exit code is 0 or -1, or its
behaviour is undefined. -/
theorem C118_catches (useInitial : Bool) (hash : List Bool → Nat) (sort : List (Indiv (Param ℚ) ℚ) → List (Indiv (Param ℚ) ℚ)) (entryBytes fuel : Nat) (rng : Rng)
    (hr : rng.lib.Valid) : (∃ out, main useInitial hash sort entryBytes fuel rng = .ok out ∧ (out.code = 0 ∧ out.run.isSome ∨ out.code = -1)) ∨
      main useInitial hash sort entryBytes fuel rng = .ub := by
  obtain ⟨f, l', ef, _⟩ := flip_new rng.lib hr
  have key : ∀ r, (∃ out, finish r = .ok out ∧ (out.code = 0 ∧ out.run.isSome ∨ out.code = -1)) ∨ finish r = .ub := by
    intro r
    unfold finish
    split
    · split
      · exact .inl ⟨_, rfl, .inl ⟨rfl, rfl⟩⟩
      · exact .inr rfl
    · exact .inl ⟨_, rfl, .inr rfl⟩
    · exact .inr rfl
  unfold main
  rw [new_eq, Res.ok_bind, ef, Res.ok_bind]
  exact key _

end run

/-! ## Concrete cases -/

/-- The hypotheses of `C118_main` can be met: `std::sort` as a stable sort, a generator that counts, cache entries of 32 bytes. -/
example : ∃ v w res, main false (fun chr => chr.length) (fun l => l.mergeSort fun a b => a.fitness ≥ b.fitness) 32 1
    ⟨⟨2147483647, fun i => i % 2147483648⟩, fun i => i % 2 = 0⟩ = .ok ⟨0, [v, w], 1 / |v * v - 2| + 1 / |w * w - 2|, some res⟩ ∧ OnGrid v ∧ OnGrid w := by
  obtain ⟨v, w, res, h1, h2, h3, _⟩ := C118_main (fun chr => chr.length) (fun l => l.mergeSort fun a b => a.fitness ≥ b.fitness) (fun l => List.mergeSort_perm l _)
    32 1 (by norm_num) (by norm_num) ⟨⟨2147483647, fun i => i % 2147483648⟩, fun i => i % 2 = 0⟩
    ⟨by norm_num, fun i => Nat.le_of_lt_succ (Nat.mod_lt _ (by norm_num))⟩
  exact ⟨v, w, res, h1, h2, h3⟩

/-- The smallest number of the grid, and one near the root of 2. -/
example : OnGrid (1 / 10000) ∧ OnGrid (1 / 10000 + 14828 * ((100 - 1 / 10000) / 2 ^ 20)) :=
  ⟨⟨0, by norm_num, by norm_num⟩, ⟨14828, by norm_num, by norm_num⟩⟩

/-- The parameters before the run are outside the bounds: they are zero. -/
example : start.values = [0, 0] ∧ ¬ minValue ≤ 0 := ⟨rfl, by decide +kernel⟩

end K52.ExampleGA
