import Verif.Lemmas.ParamTotal
import Verif.Props.RoundGA
import Verif.Props.GAExamples
import Verif.Props.Mutator

/-! # C94: the genetic algorithm neither throws nor runs into undefined behaviour -/

set_option linter.unusedSectionVars false

namespace K52.GA
open K52.Indiv
open K52.Random (rand)

/-! ### Selection always selects -/

theorem selects_field {P R : Type} [DiscreteParams P] [Field R] [LinearOrder R] [IsStrictOrderedRing R] : Selects P R :=
  fun pop rng hl hne hf =>
    have ⟨h1, m, h2, h3, _⟩ := C22_select pop rng hl hne hf
    ⟨_, m, h1, h2, h3⟩

theorem selects_rounded {P : Type} [DiscreteParams P] {r : Rounding} : Selects P (Fl r) :=
  fun pop rng hl hne hf =>
    have ⟨h1, m, h2, h3, _⟩ := C93_select pop rng hl hne hf
    ⟨_, m, h1, h2, h3⟩

/-! ### The library's mutators -/

open Mutator in
theorem genes_fine {S : Type} {g : Genes S} {I : S → Prop}
    (h : ∀ s l, I s → l.Valid → ∃ b l1 s2 l2, g.should s l = .ok (b, l1) ∧ g.after s b l1 = .ok (s2, l2) ∧ I s2 ∧ l2.Valid) :
    ∀ (chr : List Bool) (s : S) (l : Random.Lib), I s → l.Valid →
    ∃ out s' l', mutateChromosome g s l chr = .ok (out, s', l') ∧ I s' ∧ l'.Valid
  | [], s, l, hi, hl => ⟨[], s, l, rfl, hi, hl⟩
  | b :: bs, s, l, hi, hl => by
    obtain ⟨m, l1, s2, l2, e1, e2, hi2, hl2⟩ := h s l hi hl
    obtain ⟨out, s', l', e3, hi3, hl3⟩ := genes_fine h bs s2 l2 hi2 hl2
    refine ⟨(if m then !b else b) :: out, s', l', ?_, hi3, hl3⟩
    unfold mutateChromosome
    simp only [e1, Res.ok_bind, e2, e3, Res.pure_eq]

/-- The flip-bit mutator as the genetic algorithm sees it (it ignores the context: `GenMutatorBase` stores it, gen_mutator_base.cpp:11-14,
and flip_bit_mutator.cpp does not read it). -/
def flipMutator : MutatorI Mutator.Flip := ofGenes Mutator.flipGenes (fun f _ => f)

/-- The linear mutator as the genetic algorithm sees it, gen_mutator_base.cpp:11-14. -/
def linearMutator (R : Type) [Add R] [Sub R] [Mul R] [Div R] [Zero R] [One R] [NatCast R] [IntCast R] [LT R] [LE R] [DecidableLT R]
    [DecidableLE R] [DecidableEq R] : MutatorI (Mutator.Linear R) :=
  ofGenes Mutator.linearGenes (fun m ctx => { m with ctx := ctx })

/-- **C94 (flip-bit mutator).** It never fails. -/
theorem C94_flip (maxGen : Int) : MutTotal flipMutator maxGen Mutator.Flip.Inv Mutator.Flip.Inv where
  sub _ h := h
  apply _ _ h _ _ := h
  mutate mu l chr hi hl := by
    refine genes_fine (g := Mutator.flipGenes) (I := Mutator.Flip.Inv) ?_ chr mu l hi hl
    intro f l hf hl
    obtain ⟨h1, h2, h3, h4, h5⟩ := hf
    by_cases hs : f.skipped ≥ f.toSkip
    · obtain ⟨d, hd⟩ := discrete_fine (l := l) (s := (f.maxSkip + 1).toNat) (by omega) (by omega)
      rw [show (((f.maxSkip + 1).toNat : Nat) : Int) - 1 = f.maxSkip by omega] at hd
      obtain ⟨v, l', e, a, b⟩ := Random.C36_discrete_range l 0 f.maxSkip ⟨by norm_num, by omega, by omega, by omega⟩
      rw [hd] at e
      simp only [Res.ok.injEq, Prod.mk.injEq] at e
      obtain ⟨rfl, rfl⟩ := e
      refine ⟨true, l, { f with toSkip := d, skipped := 0 }, (rand l).2, by simp [Mutator.flipGenes, hs], ?_, ?_, rand_valid hl⟩
      · simp only [Mutator.flipGenes, if_true, Mutator.Flip.setGensToSkip, hd, Res.ok_bind, Res.pure_eq]
      · exact ⟨h1, h2, le_refl _, a, b⟩
    · refine ⟨false, l, { f with skipped := f.skipped + 1 }, l, by simp [Mutator.flipGenes, hs], rfl, ?_, hl⟩
      exact ⟨h1, h2, by simp only; omega, by simp only; omega, h5⟩

/-- **C94 (linear mutator).** Once constructed it never fails, in runs of any positive number of generations. -/
theorem C94_linear {R : Type} [Field R] [LinearOrder R] [IsStrictOrderedRing R] [FloorRing R] (maxGen : Int) (hg : 0 < maxGen) :
    MutTotal (linearMutator R) maxGen
      (fun m => ∃ m0, Mutator.Linear.new m.start m.stop = .ok m0)
      (fun m => (∃ m0, Mutator.Linear.new m.start m.stop = .ok m0) ∧ m.ctx.maxGenerations = maxGen ∧ 0 ≤ m.ctx.current ∧
        m.ctx.current < maxGen) where
  sub _ h := h.1
  apply mu n h h0 h1 := ⟨h, rfl, h0, h1⟩
  mutate mu l chr hi hl := by
    refine genes_fine (g := Mutator.linearGenes) (I := fun m : Mutator.Linear R => (∃ m0, Mutator.Linear.new m.start m.stop = .ok m0) ∧
      m.ctx.maxGenerations = maxGen ∧ 0 ≤ m.ctx.current ∧ m.ctx.current < maxGen) ?_ chr mu l hi hl
    intro m l hm hl
    have hm' := hm
    obtain ⟨⟨m0, h0⟩, h1, h2, h3⟩ := hm
    have e0 : m0 = ⟨m.start, m.stop, ⟨0, 0⟩⟩ := by
      unfold Mutator.Linear.new at h0
      rw [Res.bind_eq_ok] at h0
      obtain ⟨_, _, h0⟩ := h0
      rw [Res.bind_eq_ok] at h0
      obtain ⟨_, _, h0⟩ := h0
      simpa using h0.symm
    have em : ({ m0 with ctx := ⟨m.ctx.current, maxGen⟩ } : Mutator.Linear R) = m := by
      subst e0
      obtain ⟨a, b, ⟨c, d⟩⟩ := m
      simp only at h1
      subst h1
      rfl
    by_cases hone : maxGen = 1
    · have hc : m.ctx.current = 0 := by omega
      refine ⟨false, (rand l).2, m, (rand l).2, ?_, rfl, hm', rand_valid hl⟩
      simp [Mutator.linearGenes, Mutator.Linear.probability, h1, hone, hc]
    · obtain ⟨p, _, hp, _, _, _, p0, p1, _⟩ := Mutator.C38_linear_schedule m.start m.stop m0 h0 m.ctx.current m.ctx.current maxGen (by omega)
        ⟨h2, by omega⟩ ⟨le_refl _, by omega⟩
      rw [em] at hp
      refine ⟨decide (((rand l).1 : R) ≤ p * l.randMax), (rand l).2, m, (rand l).2, ?_, rfl, hm', rand_valid hl⟩
      · simp only [Mutator.linearGenes, hp]
        exact (Random.C36_event l hl p).2.1 ⟨p0, p1⟩

/-! ### The run -/

section run
variable {P R Mu : Type} [DiscreteParams P] [Add R] [Sub R] [Mul R] [Div R] [Zero R] [One R] [NatCast R] [LinearOrder R]

/-- **C94 (no failure).** A run with a non-negative objective function, a mutator that never fails, encodable parameters (the one to
optimise and the initial ones, which have its meta parameters) that decode every chromosome, and a cache that is absent or large enough for
all individuals of the run neither throws nor runs into undefined behaviour: it returns, or (only if decoded values can violate their
constraints) it is still in a loop that retries until constraints hold. -/
theorem C94_progress (hsel : Selects P R) {Fam : P → Prop} {s : Nat} {loops : Prop} {cfg : Config P R Mu} {c : Counter R} {p : P}
    (st : Setting Fam s cfg c p) (ht : Total loops Fam s) (he : Encodes s p)
    (hi : ∀ ps, cfg.initial = some ps → ∀ q ∈ ps, Encodes s q ∧ DiscreteParams.sameMeta q p = .ok true)
    {I0 I : Mu → Prop} (hM : MutTotal cfg.mutator cfg.maxGen I0 I) (mu : Mu) (hmu : I0 mu) (rng : Rng) (hr : rng.lib.Valid)
    (f : P → R) (hf : ∀ p, 0 ≤ f p) (fuel : Nat) (hfuel : fuel = 0 → loops)
    {eb : Nat} {lm : Rat} {n : Nat} (hc : c.Within eb lm n) (hN : n + cfg.popSize * cfg.maxGen.toNat ≤ 2147483647)
    (hlim : Cache.exceeds eb lm (n + cfg.popSize * cfg.maxGen.toNat) = false) :
    (∃ res, optimize cfg fuel f c mu rng p true = .ok res) ∨ (loops ∧ optimize cfg fuel f c mu rng p true = outOfFuel) := by
  obtain ⟨b1, b2, b3, b4⟩ := st.built.facts
  have hinit : Fine loops (initialPopulation (R := R) cfg fuel p rng) (fun r => r.2.2.lib = rng.lib) := by
    obtain ⟨i0, e0, _⟩ := initWith_fine (R := R) st.fam st.param he
    unfold initialPopulation
    cases hini : cfg.initial with
    | none =>
      simp only
      refine (initRandom_fine st.fam ht st.param he fuel hfuel cfg.popSize rng).bind fun r _ h => ?_
      rw [e0]
      exact Fine.ok h
    | some ps =>
      obtain ⟨is, e1⟩ := initGiven_fine (R := R) st.fam ps (fun q hq => ⟨st.initial ps hini q hq, (hi ps hini q hq).1⟩)
      have e2 : validateInitial cfg.popSize p ps = .ok () := by
        unfold validateInitial
        rw [if_neg (by rw [b4 ps hini]; simp)]
        exact validate_go_ok ps (fun q hq => (hi ps hini q hq).2)
      simp only [e2, e1, e0, Res.ok_bind, Res.pure_eq]
      exact Fine.ok rfl
  have key : Fine loops (optimize cfg fuel f c mu rng p true) (fun _ => True) := by
    unfold optimize
    simp only [if_true]
    refine hinit.bind fun i ei hlib => ?_
    obtain ⟨pop, best, rng1⟩ := i
    obtain ⟨g1, g2, g3, _⟩ := initial_good st ei
    simp only at hlib
    refine (iterate_fine hsel st.fam ht cfg st.sort st.mutator b2 b1 hM hf fuel hfuel hN hlim cfg.maxGen.toNat 0 c n pop best mu rng1
      (le_refl _) (by omega) hc (by rw [mul_comm]) g1 g2 g3 hmu (by rw [hlib]; exact hr)).bind fun r _ hb => ?_
    obtain ⟨q, eq, _⟩ := ht.dec p r.2.2.1.chrom st.param hb.2.2
    simp only [hb.1, if_true, eq]
    exact Fine.ok trivial
  rcases key with ⟨a, b⟩ | ⟨res, e, _⟩
  · exact .inr ⟨a, b⟩
  · exact .inl ⟨res, e⟩

theorem new_within (eb : Nat) (lm : Rat) : (Counter.new eb lm : Counter R).Within eb lm 0 := by
  intro st h
  unfold Counter.new Cache.create at h
  simp only at h
  split at h
  · simp only [Option.some.injEq] at h
    subst h
    exact ⟨rfl, rfl, by simp [Cache.WF, AMap.keys], le_refl _, by simp⟩
  · simp at h

theorem room {eb N : Nat} {lm : Rat} (hlim : lm ≤ 0 ∨ ((eb * N : Nat) : Rat) / 1048576 ≤ lm) :
    ∃ eb' lm', (Counter.new eb lm : Counter R).Within eb' lm' 0 ∧ Cache.exceeds eb' lm' (0 + N) = false := by
  rcases hlim with h | h
  · refine ⟨0, 0, ?_, by simp [Cache.exceeds]⟩
    intro st h'
    unfold Counter.new Cache.create at h'
    simp [not_lt.2 h] at h'
  · refine ⟨eb, lm, new_within eb lm, ?_⟩
    unfold Cache.exceeds
    rw [zero_add]
    simpa using h

/-- **C94 (termination).** If moreover decoded values always satisfy their constraints, `Optimize` returns. -/
theorem C94_terminates (hsel : Selects P R) {Fam : P → Prop} {s : Nat} {cfg : Config P R Mu} {eb : Nat} {lm : Rat} {p : P}
    (st : Setting Fam s cfg (Counter.new eb lm) p) (ht : Total False Fam s) (he : Encodes s p)
    (hi : ∀ ps, cfg.initial = some ps → ∀ q ∈ ps, Encodes s q ∧ DiscreteParams.sameMeta q p = .ok true)
    {I0 I : Mu → Prop} (hM : MutTotal cfg.mutator cfg.maxGen I0 I) (mu : Mu) (hmu : I0 mu) (rng : Rng) (hr : rng.lib.Valid)
    (f : P → R) (hf : ∀ p, 0 ≤ f p) (fuel : Nat) (hfuel : 0 < fuel) (hN : cfg.popSize * cfg.maxGen.toNat ≤ 2147483647)
    (hlim : lm ≤ 0 ∨ ((eb * (cfg.popSize * cfg.maxGen.toNat) : Nat) : Rat) / 1048576 ≤ lm) :
    ∃ res, optimize cfg fuel f (Counter.new eb lm) mu rng p true = .ok res := by
  obtain ⟨eb', lm', h1, h2⟩ := room (R := R) hlim
  rcases C94_progress hsel st ht he hi hM mu hmu rng hr f hf fuel (by omega) h1 (by omega) h2 with h | ⟨h, _⟩
  · exact h
  · exact h.elim

end run

/-! ### The library's own parameters -/

section library
variable {R S Mu : Type} [Field R] [LinearOrder R] [IsStrictOrderedRing R] [FloorRing R]
  [Add S] [Sub S] [Mul S] [Div S] [Zero S] [One S] [NatCast S] [LinearOrder S]

open Param in
/-- **C94 (library parameters).** For parameters built from the library's classes, nested to any depth, with values in range, whose integer
ranges leave room for all chromosomes: `Optimize` returns or is still retrying; if no integer parameter can decode to a number above its
maximum (for example when there are only doubles and arrays of doubles), it always returns. -/
theorem C94_library (hsel : Selects (Param R) S) (p : Param R) (s : Nat) (hw : WFP p s) (hv : Within p) (hfit : IntsFit p) (hpos : 0 < s)
    (hs : s ≤ 2147483647) (cfg : Config (Param R) S Mu) (hb : Built cfg)
    (hinit : ∀ ps, cfg.initial = some ps → ∀ q ∈ ps, WFP q s ∧ Within q ∧ erase q = erase p ∧ DiscreteParams.sameMeta q p = .ok true)
    (hsort : ∀ l, (cfg.sort l).Perm l) (hk : KeepsLength cfg.mutator)
    {I0 I : Mu → Prop} (hM : MutTotal cfg.mutator cfg.maxGen I0 I) (mu : Mu) (hmu : I0 mu) (rng : Rng) (hr : rng.lib.Valid)
    (f : Param R → S) (hf : ∀ p, 0 ≤ f p) (fuel : Nat) (hfuel : 0 < fuel) (eb : Nat) (lm : Rat)
    (hN : cfg.popSize * cfg.maxGen.toNat ≤ 2147483647)
    (hlim : lm ≤ 0 ∨ ((eb * (cfg.popSize * cfg.maxGen.toNat) : Nat) : Rat) / 1048576 ≤ lm) :
    ((∃ res, optimize cfg fuel f (Counter.new eb lm) mu rng p true = .ok res) ∨
      optimize cfg fuel f (Counter.new eb lm) mu rng p true = outOfFuel) ∧
    (NoGap p → ∃ res, optimize cfg fuel f (Counter.new eb lm) mu rng p true = .ok res) := by
  have st : Setting (Fam p s) s cfg (Counter.new eb lm) p :=
    ⟨family p s, hb, hsort, hk, ⟨hw, rfl⟩, fun ps h q hq => ⟨(hinit ps h q hq).1, (hinit ps h q hq).2.2.1⟩, new_wf _ _⟩
  obtain ⟨eb', lm', h1, h2⟩ := room (R := S) hlim
  have h := C94_progress hsel st (total p s hpos hs hfit) (encodes hw hv)
    (fun ps h q hq => ⟨encodes (hinit ps h q hq).1 (hinit ps h q hq).2.1, (hinit ps h q hq).2.2.2⟩) hM mu hmu rng hr f hf fuel
    (by omega) h1 (by omega) h2
  refine ⟨?_, fun hg => ?_⟩
  · rcases h with h | ⟨_, h⟩
    · exact .inl h
    · exact .inr h
  · rcases h with h | ⟨h, _⟩
    · exact h
    · exact absurd hg h

end library

/-! ### Concrete -/

namespace Examples

/-- Non-vacuity of `C94_terminates`: the configuration of the examples. -/
example (rng : Rng) (hr : rng.lib.Valid) : ∃ res, optimize config 1 value (Counter.new 12 1) () rng ⟨false, false⟩ true = .ok res := by
  refine C94_terminates selects_field config_setting ⟨by norm_num, by norm_num, fun p chr _ hl => ?_⟩ ⟨[false, false], rfl⟩
    (fun ps h => by simp [config] at h) (I0 := fun _ => True) (I := fun _ => True)
    ⟨fun _ _ => trivial, fun _ _ _ _ _ => trivial, fun mu l chr _ hl => ?_⟩ () trivial rng hr value
    (fun p => ?_) 1 (by norm_num) (by decide) (.inr (by decide +kernel))
  · match chr, hl with
    | [x, y], _ => exact ⟨⟨x, y⟩, rfl, true, rfl, .inr rfl⟩
  · cases chr with
    | nil => exact ⟨_, _, _, rfl, trivial, hl⟩
    | cons b bs => exact ⟨_, _, _, rfl, trivial, hl⟩
  · unfold value
    split <;> split <;> norm_num

/-- Non-vacuity of `C94_library`: an array of three doubles and the linear mutator, two individuals, five generations. -/
example (p : Param ℚ) (s : Nat) (h : (∃ a, ArrParam.new 0 1 (3/10) 3 = .ok a ∧ p = .arr a ∧ s = 6)) (rng : Rng) (hr : rng.lib.Valid)
    (f : Param ℚ → ℚ) (hf : ∀ p, 0 ≤ f p) :
    ∃ res, optimize ⟨2, 0, 5, 100, none, linearMutator ℚ, hash, id⟩ 1 f (Counter.new 12 1) ⟨1/2, 1/10, ⟨0, 0⟩⟩ rng p true = .ok res := by
  obtain ⟨a, ha, rfl, rfl⟩ := h
  have hw : ArrParam.WF a 2 0 ∧ a.values = [0, 0, 0] ∧ a.sample.min = 0 ∧ a.sample.max = 1 := by
    obtain ⟨s, n, w, _, _⟩ := (ArrParam.Reach.new ha).wf
    have hx : (match ArrParam.new (0 : ℚ) 1 (3/10) 3 with
      | .ok a => decide (a.cs.size = 6) && decide (a.values = [0, 0, 0]) && decide (a.sample.min = 0) && decide (a.sample.max = 1)
          && decide (a.sample.base.map IntParam.value = some 0)
      | _ => false) = true := by decide +kernel
    rw [ha] at hx
    simp only [Bool.and_eq_true, decide_eq_true_eq] at hx
    obtain ⟨⟨⟨⟨x1, x2⟩, x3⟩, x4⟩, x5⟩ := hx
    have hc := w.cs
    rw [x2] at hc
    have : s = 2 := by rw [hc] at x1; simp at x1; omega
    subst this
    have hn : n = 0 := by rw [w.sample.base] at x5; simpa using x5
    subst hn
    exact ⟨w, x2, x3, x4⟩
  obtain ⟨w, x2, x3, x4⟩ := hw
  refine (C94_library (S := ℚ) selects_field (.arr a) 6 ?_ ?_ ?_ (by norm_num) (by norm_num) _ (.create (popSize := 2) (elitism := 0) (maxGen := 5)
    (mutator := some (linearMutator ℚ)) rfl) (fun ps h => by simp at h) (fun l => List.Perm.refl _) (ofGenes_keepsLength _ _) (C94_linear 5 (by norm_num)) _
    ⟨⟨1/2, 1/10, ⟨0, 0⟩⟩, ?_⟩ rng hr f hf 1 (by norm_num) 12 1 (by decide) (.inr (by decide +kernel))).2 ?_
  · simp only [Param.WFP]
    exact ⟨2, 0, w, by rw [x2]; rfl⟩
  · simp only [Param.Within, x2, x3, x4]
    intro v hv
    simp at hv
    subst hv
    norm_num
  · simp [Param.IntsFit]
  · simp only [Mutator.Linear.new, Random.validateProbability]
    norm_num
  · simp [Param.NoGap]

/-- **C94 (cache too small).** The room in the cache is needed: with a limit of two entries the run dies with the cache's exception,
although nothing is wrong with the parameters, the mutator or the function. -/
theorem C94_small_cache_throws :
    (optimize config 10 value (Counter.new 12 (24 / 1048576)) () rng ⟨false, false⟩ true) = .throw "runtime_error" ∧
    (∃ res, optimize config 10 value (Counter.new 12 1) () rng ⟨false, false⟩ true = .ok res) := by
  constructor
  · have : (match optimize config 10 value (Counter.new 12 (24 / 1048576)) () rng ⟨false, false⟩ true with
      | .throw w => decide (w = "runtime_error")
      | _ => false) = true := by decide +kernel
    split at this
    · next w e => rw [e]; simpa using this
    · simp at this
  · obtain ⟨res, e, _⟩ := summary_some run_summary
    exact ⟨res, e⟩

end Examples

end K52.GA
