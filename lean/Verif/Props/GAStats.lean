import Verif.Lemmas.GAStats
import Verif.Props.Text

/-!
# C78: what the statistics callback of the genetic algorithm reports; C79: starting from a population file
-/

set_option linter.unusedSectionVars false

namespace K52.GA
open K52.Indiv

variable {P R Mu σ : Type} [DiscreteParams P]

section
variable [Field R] [LinearOrder R] [IsStrictOrderedRing R]

/-! ### Saving -/

theorem write_ok (F : Text.Format R) {i : Indiv P R} (h1 : i.init = true) (h2 : i.hasFitness = true) :
    ∃ t, Text.write F i = .ok t := by
  unfold Text.write
  rw [if_pos h1]
  simp [getFitness, h2]

theorem writeAll_ok (F : Text.Format R) : ∀ (pop : List (Indiv P R)), (∀ i ∈ pop, i.init = true ∧ i.hasFitness = true) →
    ∃ t, Text.writeAll F pop = .ok t
  | [], _ => ⟨[], rfl⟩
  | i :: is, h => by
    obtain ⟨a, ha⟩ := write_ok F (h i List.mem_cons_self).1 (h i List.mem_cons_self).2
    obtain ⟨b, hb⟩ := writeAll_ok F is (fun x hx => h x (List.mem_cons_of_mem _ hx))
    exact ⟨a ++ b, by simp [Text.writeAll, ha, hb]⟩

theorem writePopulation_ok (F : Text.Format R) {pop : List (Indiv P R)} (hne : pop ≠ [])
    (h : ∀ i ∈ pop, i.init = true ∧ i.hasFitness = true) : ∃ t, Text.writePopulation F pop = .ok t := by
  cases pop with
  | nil => exact absurd rfl hne
  | cons i is =>
    obtain ⟨b, hb⟩ := writeAll_ok F (i :: is) h
    unfold Text.writePopulation
    simp only [(h i List.mem_cons_self).1, if_true, hb, Res.ok_bind, Res.pure_eq]
    exact ⟨_, rfl⟩

theorem saveAll_ok (obs : Observer P R σ) {pop : List (Indiv P R)} {t : List Char} (ht : Text.writePopulation obs.format pop = .ok t) :
    ∀ names : List String, saveAll obs pop names = .ok ((names.filter obs.canOpen).map fun n => (n, t))
  | [] => rfl
  | n :: ns => by
    unfold saveAll
    by_cases h : obs.canOpen n = true
    · simp [h, ht, saveAll_ok obs ht ns]
    · simp only [h]
      simp [h, saveAll_ok obs ht ns]

theorem processStatistics_ok {popSize : Nat} {obs : Observer P R σ} {cb : σ → GenStat P R → σ × List String} {st : σ} {number : Int}
    {pop : List (Indiv P R)} {best : Indiv P R} {hits invalid : Nat} {stats : List (IndStat R)} {r}
    (h : processStatistics popSize obs cb st number pop best hits invalid stats = .ok r) :
    ∃ bp q, best.params = some bp ∧ DiscreteParams.clone bp = .ok q ∧ best.hasFitness = true ∧
      r.2.1 = ⟨share pop pop.length / (popSize : R), q, best.fitness, number, hits, invalid, sortStats stats⟩ ∧
      r.1 = (cb st r.2.1).1 ∧ saveAll obs pop (cb st r.2.1).2 = .ok r.2.2 := by
  unfold processStatistics at h
  rw [Res.bind_eq_ok] at h
  obtain ⟨total, ht, h⟩ := h
  rw [totalFitness_spec pop 0 (totalFitness_fit _ _ _ ht)] at ht
  simp only [zero_add, Res.ok.injEq] at ht
  split at h
  · split at h
    · simp at h
    · next bp hbp =>
      rw [Res.bind_eq_ok] at h; obtain ⟨x, hx, h⟩ := h
      rw [Res.bind_eq_ok] at h; obtain ⟨q, hq, h⟩ := h
      simp only at h
      rw [Res.bind_eq_ok] at h; obtain ⟨files, hf, h⟩ := h
      simp only [Res.pure_eq, Res.ok.injEq] at h
      subst h
      unfold getFitness at hx
      split at hx
      · next hfit =>
        simp only [Res.ok.injEq] at hx
        subst hx
        refine ⟨bp, q, hbp, hq, hfit, ?_, rfl, hf⟩
        rw [ht]
      · simp at hx
  · simp at h

theorem processStatistics_exists {Fam : P → Prop} {s : Nat} (hF : Family Fam s) (popSize : Nat) (obs : Observer P R σ)
    (cb : σ → GenStat P R → σ × List String) (st : σ) (number : Int)
    {pop : List (Indiv P R)} {best : Indiv P R} (hits invalid : Nat) (stats : List (IndStat R)) (hne : pop ≠ [])
    (hp : ∀ i ∈ pop, i.init = true ∧ i.hasFitness = true) (hb : Good Fam s best) (hbf : best.hasFitness = true) :
    ∃ r, processStatistics popSize obs cb st number pop best hits invalid stats = .ok r := by
  obtain ⟨t, ht⟩ := writePopulation_ok obs.format hne hp
  obtain ⟨hi, ⟨p, hpp, hfp⟩, _⟩ := hb
  unfold processStatistics
  rw [totalFitness_spec pop 0 (fun i h => (hp i h).2)]
  simp only [Res.ok_bind, hi, if_true, hpp, getFitness, hbf, hF.clone p hfp, saveAll_ok obs ht, Res.pure_eq]
  exact ⟨_, rfl⟩

/-! ### Observers do not interfere -/

end

section
variable [Add R] [Sub R] [Mul R] [Div R] [Zero R] [One R] [NatCast R] [LinearOrder R]

/-- What is left of a run when the observations are forgotten. -/
def EndS.erase (r : EndS P R Mu σ) : List (List (Indiv P R)) × Counter R × Indiv P R × Mu × Rng :=
  (r.gens.map Gen.pop, r.counter, r.best, r.mu, r.rng)

theorem iterateS_erase (cfg : Config P R Mu) (obs : Observer P R σ) (fuel : Nat) (f : P → R) :
    ∀ (k : Nat) (n : Int) (c : Counter R) (pop : List (Indiv P R)) (best : Indiv P R) (mu : Mu) (rng : Rng)
      (stats : List (IndStat R)) (inv : Nat) (st : σ) (r : EndS P R Mu σ),
    iterateS cfg obs fuel f k n c pop best mu rng stats inv st = .ok r →
    iterate cfg fuel f k n c pop best mu rng = .ok r.erase := by
  intro k
  induction k with
  | zero =>
    intro n c pop best mu rng stats inv st r h
    simp only [iterateS, Res.ok.injEq] at h
    subst h
    rfl
  | succ k ih =>
    intro n c pop best mu rng stats inv st r h
    unfold iterateS at h
    rw [Res.bind_eq_ok] at h; obtain ⟨e, he, h⟩ := h
    rw [Res.bind_eq_ok] at h; obtain ⟨b, hb, h⟩ := h
    rw [Res.bind_eq_ok] at h; obtain ⟨o, _, h⟩ := h
    simp only at h
    rw [Res.bind_eq_ok] at h; obtain ⟨x, hx, h⟩ := h
    unfold iterate
    rw [he, Res.ok_bind, hb, Res.ok_bind]
    simp only [hx, Res.ok_bind]
    split at h
    · next hs =>
      simp only [Res.pure_eq, Res.ok.injEq] at h
      subst h
      rw [if_pos hs]
      rfl
    · next hs =>
      rw [Res.bind_eq_ok] at h; obtain ⟨⟨nx, s', i'⟩, hn, h⟩ := h
      rw [Res.bind_eq_ok] at h; obtain ⟨⟨m, i''⟩, hm, h⟩ := h
      rw [Res.bind_eq_ok] at h; obtain ⟨rest, hr, h⟩ := h
      simp only [Res.pure_eq, Res.ok.injEq] at h
      subst h
      rw [if_neg hs, ((nextPopulationS_spec cfg fuel e.2 rng 0).1 _ _ _ hn).1, Res.ok_bind]
      simp only at hm hr
      rw [(mutateAllS_spec _ _ _ _ _ _).1 _ _ hm, Res.ok_bind, ih _ _ _ _ _ _ _ _ _ _ hr]
      rfl

end

section
variable [Field R] [LinearOrder R] [IsStrictOrderedRing R]

theorem iterateS_exists {Fam : P → Prop} {s : Nat} (hF : Family Fam s) (cfg : Config P R Mu) (hsort : ∀ l, (cfg.sort l).Perm l)
    (hm : KeepsLength cfg.mutator) (heven : cfg.popSize % 2 = 0) (hpos : 0 < cfg.popSize) (obs : Observer P R σ) (fuel : Nat) (f : P → R) :
    ∀ (k : Nat) (n : Int) (c : Counter R) (pop : List (Indiv P R)) (best : Indiv P R) (mu : Mu) (rng : Rng)
      (stats : List (IndStat R)) (inv : Nat) (st : σ) (o),
    iterate cfg fuel f k n c pop best mu rng = .ok o → pop.length = cfg.popSize → (∀ i ∈ pop, Good Fam s i) → c.WF → Good Fam s best →
    ∃ r, iterateS cfg obs fuel f k n c pop best mu rng stats inv st = .ok r := by
  intro k
  induction k with
  | zero => intro n c pop best mu rng stats inv st o _ _ _ _ _; exact ⟨_, rfl⟩
  | succ k ih =>
    intro n c pop best mu rng stats inv st o h hlen hgood hw hbest
    unfold iterate at h
    rw [Res.bind_eq_ok] at h; obtain ⟨⟨c1, ev⟩, h1, h⟩ := h
    rw [Res.bind_eq_ok] at h; obtain ⟨b1, h2, h⟩ := h
    simp only at h
    rw [Res.bind_eq_ok] at h; obtain ⟨x, h3, h⟩ := h
    obtain ⟨e1, e2, e3, e4⟩ := obtainFitness_spec hw h1
    have hevl : ev.length = pop.length := (e1.length_eq).symm
    have hev : ∀ i ∈ ev, Good Fam s i ∧ i.hasFitness = true := by
      intro i hi
      obtain ⟨j, hj, hij⟩ := forall₂_mem_right e1 hi
      obtain ⟨q1, q2, _⟩ := Evaluated.same hij
      exact ⟨q1.good (hgood j hj), q2⟩
    have hne : ev ≠ [] := by intro h0; rw [h0] at hevl; simp at hevl; omega
    obtain ⟨u1, u2, u3, u4⟩ := updateBest_spec h2 (fun i hi => (hev i hi).2)
    have hb1 : Good Fam s b1 := by
      rcases u2 with hmem | ⟨_, rfl⟩
      · exact (hev b1 hmem).1
      · exact hbest
    unfold iterateS
    rw [h1, Res.ok_bind, h2, Res.ok_bind]
    have hcb : ∃ q, observe cfg.popSize obs st n ev b1 c1.hits inv stats = .ok q := by
      unfold observe
      cases obs.callback with
      | none => exact ⟨_, rfl⟩
      | some cb =>
        obtain ⟨q, hq⟩ := processStatistics_exists hF cfg.popSize obs cb st n c1.hits inv stats hne
          (fun i hi => ⟨(hev i hi).1.1, (hev i hi).2⟩) hb1 u1
        exact ⟨_, by simp only [hq, Res.ok_bind, Res.pure_eq]; rfl⟩
    obtain ⟨q, hq⟩ := hcb
    simp only [hq, Res.ok_bind, h3]
    split at h
    · next hs => rw [if_pos hs]; exact ⟨_, rfl⟩
    · next hs =>
      rw [if_neg hs]
      rw [Res.bind_eq_ok] at h; obtain ⟨nx, hn, h⟩ := h
      rw [Res.bind_eq_ok] at h; obtain ⟨m, hmm, h⟩ := h
      rw [Res.bind_eq_ok] at h; obtain ⟨rest, hr, h⟩ := h
      obtain ⟨s', i', hn'⟩ := (nextPopulationS_spec cfg fuel ev rng 0).2 _ hn
      obtain ⟨i'', hm'⟩ := (mutateAllS_spec cfg.mutator fuel nx.1 (cfg.mutator.apply mu ⟨n, cfg.maxGen⟩) nx.2 i').2 _ hmm
      simp only [hn', Res.ok_bind, hm']
      have hnx : nx.1.length = cfg.popSize ∧ ∀ i ∈ nx.1, Good Fam s i := by
        unfold nextPopulation at hn
        rw [Res.bind_eq_ok] at hn
        obtain ⟨_, _, hn⟩ := hn
        have := nextPairs_good hF (fun i hi => (hev i hi).1) (fun i hi => (hev i ((hsort _).subset hi)).1) _ _ _ _ _ _ hn
        exact ⟨by omega, this.2⟩
      obtain ⟨q1, q2⟩ := mutateAll_good hF hm fuel _ _ _ _ _ _ hnx.2 hmm
      obtain ⟨r', hr'⟩ := ih (n + 1) { c1 with hits := 0 } m.1 b1 m.2.1 m.2.2 s' i'' q.1 _ hr (by omega)
        (fun i hi => (q2 i hi).1) e2 hb1
      rw [hr']
      exact ⟨_, rfl⟩

/-- **C78 (no interference).** With or without a callback, and whatever it does, a run without a population file takes exactly
the same course (same generations, same evaluations, same random numbers, same result), and it returns iff it returns without one.  So
everything proved of `optimize` (C18, C20, C21, C23, C59) holds of runs with a callback. -/
theorem C78_no_interference {Fam : P → Prop} {s : Nat} {cfg : Config P R Mu} {c : Counter R} {p : P} (hs : Setting Fam s cfg c p)
    (obs : Observer P R σ) (fuel : Nat) (f : P → R) (mu : Mu) (rng : Rng) (inv : Nat) (st : σ) (maximize : Bool) :
    (∀ r, optimizeS cfg obs .none fuel f c mu rng inv st p maximize = .ok r →
      optimize cfg fuel f c mu rng p maximize = .ok ⟨r.params, r.fin.best, r.fin.gens.map Gen.pop, r.fin.counter, r.fin.mu, r.fin.rng⟩) ∧
    ((∃ r, optimize cfg fuel f c mu rng p maximize = .ok r) →
      ∃ r, optimizeS cfg obs .none fuel f c mu rng inv st p maximize = .ok r) := by
  constructor
  · intro r h
    unfold optimizeS at h
    cases maximize with
    | false => simp at h
    | true =>
      simp only [if_true] at h
      rw [Res.bind_eq_ok] at h; obtain ⟨⟨i, i'⟩, hi, h⟩ := h
      simp only [readFile, Res.ok_bind] at h
      rw [Res.bind_eq_ok] at h; obtain ⟨e, he, h⟩ := h
      unfold optimize
      simp only [if_true]
      have h1 := Res.mapR_ok (f := Prod.fst) hi
      rw [initialPopulationS_erase] at h1
      rw [h1, Res.ok_bind]
      simp only [iterateS_erase _ _ _ _ _ _ _ _ _ _ _ _ _ _ _ he, Res.ok_bind, EndS.erase]
      split at h
      · next hb =>
        rw [if_pos hb]
        split at h
        · next q hq =>
          simp only [Res.pure_eq, Res.ok.injEq] at h
          subst h
          simp only [hq, Res.pure_eq]
        · simp at h
        · simp at h
      · simp at h
  · rintro ⟨r, h⟩
    obtain ⟨rfl, pop, best, rng1, h1, h2, h3⟩ := optimize_ok h
    obtain ⟨g1, g2, g3, g4, _⟩ := initial_good hs h1
    obtain ⟨b1, b2, b3, _⟩ := hs.built.facts
    rw [← initialPopulationS_erase cfg fuel p rng inv] at h1
    obtain ⟨⟨i, i'⟩, hi, hii⟩ := Res.mapR_eq_ok h1
    simp only at hii
    subst hii
    obtain ⟨e, he⟩ := iterateS_exists hs.fam cfg hs.sort hs.mutator b2 b1 obs fuel f _ _ _ _ _ _ _
      (List.replicate cfg.popSize ⟨0, 0⟩) i' st _ h2 g1 g2 hs.counter g3
    have hbest : e.best = r.best := by
      have := iterateS_erase _ _ _ _ _ _ _ _ _ _ _ _ _ _ _ he
      rw [h2] at this
      simp only [EndS.erase, Res.ok.injEq, Prod.mk.injEq] at this
      exact this.2.2.1.symm
    unfold optimizeS
    simp only [if_true, hi, Res.ok_bind, readFile, he, hbest]
    have hinit : r.best.init = true := by
      obtain ⟨⟨g, hg, hb⟩, _⟩ := C21_best hs fuel f mu rng true r h
      have hsp := iterate_spec hs.fam cfg hs.sort hs.mutator b2 fuel f _ _ _ _ _ _ _ _ _ _ _ _ h2 g1 g2 hs.counter
      exact ((hsp.2.2.2.1 g hg).2 _ hb).1.1
    rw [if_pos hinit, h3]
    exact ⟨_, rfl⟩

/-! ### What is reported -/

/-- The callback's own state after the generations `gens`. -/
def stateAfter (cb : σ → GenStat P R → σ × List String) (st : σ) (gens : List (Gen P R)) : σ :=
  (gens.filterMap Gen.stat).foldl (fun a s => (cb a s).1) st

/-- Pairs of fitness and number of selections of a population. -/
def pairs (pop : List (Indiv P R)) (times : List Nat) : List (IndStat R) := List.zipWith (fun i k => ⟨i.fitness, k⟩) pop times

theorem share_all (pop : List (Indiv P R)) : share pop pop.length = (pop.map Indiv.fitness).sum := by simp [share]

theorem iterateS_report {Fam : P → Prop} {s : Nat} (hF : Family Fam s) (cfg : Config P R Mu) (hsort : ∀ l, (cfg.sort l).Perm l)
    (hm : KeepsLength cfg.mutator) (heven : cfg.popSize % 2 = 0) (hpos : 0 < cfg.popSize) (obs : Observer P R σ)
    (cb : σ → GenStat P R → σ × List String) (hcb : obs.callback = some cb) (fuel : Nat) (f : P → R) :
    ∀ (k : Nat) (n : Int) (c : Counter R) (pop : List (Indiv P R)) (best : Indiv P R) (mu : Mu) (rng : Rng)
      (stats : List (IndStat R)) (inv : Nat) (st : σ) (r : EndS P R Mu σ),
    iterateS cfg obs fuel f k n c pop best mu rng stats inv st = .ok r → pop.length = cfg.popSize → (∀ i ∈ pop, Good Fam s i) →
    c.WF → Good Fam s best → c.hits = 0 →
    (∀ (j : Nat) (g : Gen P R), r.gens[j]? = some g → ∃ a, g.stat = some a ∧ a.number = n + (j : Int) ∧
      a.average * (cfg.popSize : R) = (g.pop.map Indiv.fitness).sum ∧
      (∀ (j' : Nat) (g' : Gen P R), j' ≤ j → r.gens[j']? = some g' → ∀ i ∈ g'.pop, i.fitness ≤ a.bestFitness) ∧
      (best.hasFitness = true → best.fitness ≤ a.bestFitness) ∧
      ((∃ (j' : Nat) (g' : Gen P R), j' ≤ j ∧ r.gens[j']? = some g' ∧ ∃ i ∈ g'.pop, i.params = some a.bestParams ∧ i.fitness = a.bestFitness) ∨
        (best.hasFitness = true ∧ best.params = some a.bestParams ∧ best.fitness = a.bestFitness)) ∧
      (j = 0 → a.all = sortStats stats ∧ a.invalid = inv ∧ List.Forall₂ SameBut pop g.pop) ∧
      (∀ (j' : Nat) (g' : Gen P R), j = j' + 1 → r.gens[j']? = some g' → ∃ times failed, times.length = g'.pop.length ∧
        a.all = sortStats (pairs g'.pop times) ∧
        times.sum = 2 * (cfg.popSize / 2 - cfg.elitism.toNat + failed) ∧
        ∃ (children : List (Indiv P R)) (counts : List Nat) (out : List (Indiv P R)), children.length = cfg.popSize ∧
          counts.length = cfg.popSize ∧ a.invalid = failed + counts.sum ∧
          List.Forall₂ (fun x j => Retried cfg.mutator x.1 x.2 j) (children.zip counts) out ∧ List.Forall₂ SameBut out g.pop) ∧
      ∃ t, Text.writePopulation obs.format g.pop = .ok t ∧
        g.files = ((cb (stateAfter cb st (r.gens.take j)) a).2.filter obs.canOpen).map fun nm => (nm, t)) ∧
    r.st = stateAfter cb st r.gens ∧ r.counter.hits = 0 ∧
    r.counter.counts + ((r.gens.filterMap Gen.stat).map GenStat.hits).sum = c.counts + cfg.popSize * r.gens.length := by
  intro k
  induction k with
  | zero =>
    intro n c pop best mu rng stats inv st r h _ _ _ _ h0
    simp only [iterateS, Res.ok.injEq] at h
    subst h
    simp [stateAfter, h0]
  | succ k ih =>
    intro n c pop best mu rng stats inv st r h hlen hgood hw hbest h0
    unfold iterateS at h
    rw [Res.bind_eq_ok] at h; obtain ⟨⟨c1, ev⟩, h1, h⟩ := h
    rw [Res.bind_eq_ok] at h; obtain ⟨b1, h2, h⟩ := h
    simp only at h
    rw [Res.bind_eq_ok] at h; obtain ⟨⟨st1, o1, files⟩, ho, h⟩ := h
    rw [Res.bind_eq_ok] at h; obtain ⟨x, h3, h⟩ := h
    obtain ⟨e1, e2, e3, e4⟩ := obtainFitness_spec hw h1
    have ehits := obtainFitness_hits h1
    have hevl : ev.length = pop.length := (e1.length_eq).symm
    have hev : ∀ i ∈ ev, Good Fam s i ∧ i.hasFitness = true := by
      intro i hi
      obtain ⟨j, hj, hij⟩ := forall₂_mem_right e1 hi
      obtain ⟨q1, q2, _⟩ := Evaluated.same hij
      exact ⟨q1.good (hgood j hj), q2⟩
    have hne : ev ≠ [] := by intro h0; rw [h0] at hevl; simp at hevl; omega
    obtain ⟨u1, u2, u3, u4⟩ := updateBest_spec h2 (fun i hi => (hev i hi).2)
    have hb1 : Good Fam s b1 := by
      rcases u2 with hmem | ⟨_, rfl⟩
      · exact (hev b1 hmem).1
      · exact hbest
    have hP : (cfg.popSize : R) ≠ 0 := by
      have : (0 : R) < (cfg.popSize : R) := by exact_mod_cast hpos
      exact this.ne'
    -- the report of this generation
    unfold observe at ho
    rw [hcb] at ho
    simp only at ho
    rw [Res.bind_eq_ok] at ho; obtain ⟨q, hq, ho⟩ := ho
    simp only [Res.pure_eq, Res.ok.injEq, Prod.mk.injEq] at ho
    obtain ⟨rfl, rfl, rfl⟩ := ho
    obtain ⟨bp, qp, g1, g2, g3, g4, g5, g6⟩ := processStatistics_ok hq
    have hbp : bp = qp := by
      obtain ⟨_, ⟨p, hp1, hp2⟩, _⟩ := hb1
      rw [g1] at hp1
      simp only [Option.some.injEq] at hp1
      rw [hp1, hF.clone p hp2] at g2
      simp only [Res.ok.injEq] at g2
      rw [hp1, g2]
    subst hbp
    obtain ⟨t, ht⟩ := writePopulation_ok obs.format hne (fun i hi => ⟨(hev i hi).1.1, (hev i hi).2⟩)
    rw [saveAll_ok obs ht] at g6
    simp only [Res.ok.injEq] at g6
    obtain ⟨q1, a, q3⟩ := q
    simp only at g4 g5 g6 h
    have ha : a.number = n ∧ a.average * (cfg.popSize : R) = (ev.map Indiv.fitness).sum ∧ a.bestFitness = b1.fitness ∧
        a.bestParams = bp ∧ a.all = sortStats stats ∧ a.invalid = inv ∧ a.hits = c1.hits := by
      subst g4
      refine ⟨rfl, ?_, rfl, rfl, rfl, rfl, rfl⟩
      rw [← share_all]
      exact div_mul_cancel₀ _ hP
    obtain ⟨a1, a2, a3, a4, a5, a6, a7⟩ := ha
    have hfirst : ∀ gs : List (Gen P R), ∀ g : Gen P R, (⟨ev, some a, q3⟩ :: gs : List (Gen P R))[0]? = some g → ∃ b, g.stat = some b ∧
        b.number = n + ((0 : Nat) : Int) ∧ b.average * (cfg.popSize : R) = (g.pop.map Indiv.fitness).sum ∧
        (∀ (j' : Nat) (g' : Gen P R), j' ≤ 0 → (⟨ev, some a, q3⟩ :: gs : List (Gen P R))[j']? = some g' → ∀ i ∈ g'.pop, i.fitness ≤ b.bestFitness) ∧
        (best.hasFitness = true → best.fitness ≤ b.bestFitness) ∧
        ((∃ (j' : Nat) (g' : Gen P R), j' ≤ 0 ∧ (⟨ev, some a, q3⟩ :: gs : List (Gen P R))[j']? = some g' ∧
          ∃ i ∈ g'.pop, i.params = some b.bestParams ∧ i.fitness = b.bestFitness) ∨
          (best.hasFitness = true ∧ best.params = some b.bestParams ∧ best.fitness = b.bestFitness)) ∧
        ((0 : Nat) = 0 → b.all = sortStats stats ∧ b.invalid = inv ∧ List.Forall₂ SameBut pop g.pop) ∧
        (∀ (j' : Nat) (g' : Gen P R), (0 : Nat) = j' + 1 → (⟨ev, some a, q3⟩ :: gs : List (Gen P R))[j']? = some g' → ∃ times failed, times.length = g'.pop.length ∧
          b.all = sortStats (pairs g'.pop times) ∧
          times.sum = 2 * (cfg.popSize / 2 - cfg.elitism.toNat + failed) ∧
          ∃ (children : List (Indiv P R)) (counts : List Nat) (out : List (Indiv P R)), children.length = cfg.popSize ∧
            counts.length = cfg.popSize ∧ b.invalid = failed + counts.sum ∧
            List.Forall₂ (fun x j => Retried cfg.mutator x.1 x.2 j) (children.zip counts) out ∧ List.Forall₂ SameBut out g.pop) ∧
        ∃ t, Text.writePopulation obs.format g.pop = .ok t ∧
          g.files = ((cb (stateAfter cb st ((⟨ev, some a, q3⟩ :: gs : List (Gen P R)).take 0)) b).2.filter obs.canOpen).map
            fun nm => (nm, t) := by
      intro gs g hg
      simp only [List.getElem?_cons_zero, Option.some.injEq] at hg
      subst hg
      refine ⟨a, rfl, by rw [a1]; simp, a2, ?_, ?_, ?_, fun _ => ⟨a5, a6, e1.imp (fun _ _ h => (Evaluated.same h).1)⟩, by simp, t, ht, ?_⟩
      · intro j' g' hj hg' i hi
        obtain rfl : j' = 0 := by omega
        simp only [List.getElem?_cons_zero, Option.some.injEq] at hg'
        subst hg'
        rw [a3]; exact u3 i hi
      · intro hb; rw [a3]; exact u4 hb
      · rcases u2 with hmem | ⟨hb, rfl⟩
        · exact .inl ⟨0, _, le_rfl, rfl, b1, hmem, by rw [a4]; exact g1, by rw [a3]⟩
        · exact .inr ⟨hb, by rw [a4]; exact g1, by rw [a3]⟩
      · simp only [List.take_zero, stateAfter, List.filterMap_nil, List.foldl_nil]
        exact g6.symm
    split at h
    · next hs =>
      simp only [Res.pure_eq, Res.ok.injEq] at h
      subst h
      refine ⟨?_, ?_, rfl, ?_⟩
      · intro j g hg
        cases j with
        | zero => exact hfirst [] g hg
        | succ j => simp at hg
      · simp [stateAfter, g5]
      · simp [a7]; omega
    · next hs =>
      rw [Res.bind_eq_ok] at h; obtain ⟨⟨nx, s', i'⟩, hn, h⟩ := h
      rw [Res.bind_eq_ok] at h; obtain ⟨⟨m, i''⟩, hmm, h⟩ := h
      rw [Res.bind_eq_ok] at h; obtain ⟨rest, hr, h⟩ := h
      simp only [Res.pure_eq, Res.ok.injEq] at h
      obtain ⟨n1, times, failed, n2, n3, n4, n5⟩ := (nextPopulationS_spec cfg fuel ev rng 0).1 _ _ _ hn
      simp only at hmm hr
      have m1 := (mutateAllS_spec _ _ _ _ _ _).1 _ _ hmm
      obtain ⟨⟨counts, k1, k2, k3⟩, _⟩ := mutateAllS_count _ _ _ _ _ _ _ _ hmm
      have hnx : nx.1.length = cfg.popSize ∧ ∀ i ∈ nx.1, Good Fam s i := by
        unfold nextPopulation at n1
        rw [Res.bind_eq_ok] at n1
        obtain ⟨_, _, n1⟩ := n1
        have := nextPairs_good hF (fun i hi => (hev i hi).1) (fun i hi => (hev i ((hsort _).subset hi)).1) _ _ _ _ _ _ n1
        exact ⟨by omega, this.2⟩
      obtain ⟨z1, z2⟩ := mutateAll_good hF hm fuel _ _ _ _ _ _ hnx.2 m1
      obtain ⟨v1, v2, v3, v4⟩ := ih _ _ _ _ _ _ _ _ _ _ hr (by omega) (fun i hi => (z2 i hi).1) e2 hb1 rfl
      subst h
      refine ⟨?_, ?_, v3, ?_⟩
      · intro j g hg
        cases j with
        | zero => exact hfirst rest.gens g hg
        | succ j =>
          simp only [List.getElem?_cons_succ] at hg
          obtain ⟨b, w1, w2, w3, w4, w5, w6, w7, w8, t', w9, w10⟩ := v1 j g hg
          have w5' := w5 u1
          refine ⟨b, w1, by rw [w2]; push_cast; ring, w3, ?_, ?_, ?_, by simp, ?_, t', w9, ?_⟩
          · intro j' g' hj hg' i hi
            cases j' with
            | zero =>
              simp only [List.getElem?_cons_zero, Option.some.injEq] at hg'
              subst hg'
              exact le_trans (u3 i hi) w5'
            | succ j' => exact w4 j' g' (by omega) (by simpa using hg') i hi
          · intro hb; exact le_trans (u4 hb) w5'
          · rcases w6 with ⟨j', g', y1, y2, y3⟩ | ⟨y1, y2, y3⟩
            · exact .inl ⟨j' + 1, g', by omega, by simpa using y2, y3⟩
            · rcases u2 with hmem | ⟨hb, rfl⟩
              · exact .inl ⟨0, _, by omega, rfl, b1, hmem, y2, y3⟩
              · exact .inr ⟨hb, y2, y3⟩
          · intro j' g' hj hg'
            obtain rfl : j' = j := by omega
            cases j' with
            | zero =>
              simp only [List.getElem?_cons_zero, Option.some.injEq] at hg'
              subst hg'
              obtain ⟨x1, x2, x3⟩ := w7 rfl
              exact ⟨times, failed, n2, by rw [x1, n3]; rfl, n5, nx.1, counts, m.1, hnx.1, by omega, by omega, k3, x3⟩
            | succ j' => exact w8 j' g' rfl (by simpa using hg')
          · rw [w10]
            simp [stateAfter, g5]
      · rw [v2]; simp [stateAfter, g5]
      · have hl : c1.hits + c1.counts = c.counts + cfg.popSize := by omega
        have h4 : rest.counter.counts + ((rest.gens.filterMap Gen.stat).map GenStat.hits).sum =
          c1.counts + cfg.popSize * rest.gens.length := v4
        simp only [List.filterMap_cons, List.map_cons, List.sum_cons, List.length_cons, a7, Nat.mul_add, Nat.mul_one]
        omega


end

section
variable [Add R] [Sub R] [Mul R] [Div R] [Zero R] [One R] [NatCast R] [LinearOrder R]

/-- The parts of a run that returned. -/
theorem optimizeS_ok {cfg : Config P R Mu} {obs : Observer P R σ} {file : PopFile} {fuel : Nat} {f : P → R} {c : Counter R} {mu : Mu}
    {rng : Rng} {inv : Nat} {st : σ} {p : P} {maximize : Bool} {r : ResultS P R Mu σ}
    (h : optimizeS cfg obs file fuel f c mu rng inv st p maximize = .ok r) :
    maximize = true ∧ ∃ pop best rng1 inv1 l, initialPopulationS cfg fuel p rng inv = .ok ((pop, best, rng1), inv1) ∧
      initialPopulation cfg fuel p rng = .ok (pop, best, rng1) ∧
      readFile obs.format cfg.popSize file pop = .ok l ∧
      iterateS cfg obs fuel f cfg.maxGen.toNat 0 c l.1 best mu rng1 l.2 inv1 st = .ok r.fin ∧
      DiscreteParams.setFrom p r.fin.best.chrom = (r.params, .ok ()) := by
  unfold optimizeS at h
  cases maximize with
  | false => simp at h
  | true =>
    simp only [if_true] at h
    rw [Res.bind_eq_ok] at h; obtain ⟨⟨⟨pop, best, rng1⟩, i'⟩, hi, h⟩ := h
    rw [Res.bind_eq_ok] at h; obtain ⟨l, hl, h⟩ := h
    rw [Res.bind_eq_ok] at h; obtain ⟨e, he, h⟩ := h
    have h1 := Res.mapR_ok (f := Prod.fst) hi
    rw [initialPopulationS_erase] at h1
    refine ⟨rfl, pop, best, rng1, i', l, hi, h1, hl, ?_⟩
    split at h
    · split at h
      · next q hq =>
        simp only [Res.pure_eq, Res.ok.injEq] at h
        subst h
        exact ⟨he, hq⟩
      · simp at h
      · simp at h
    · simp at h

end

section
variable [Field R] [LinearOrder R] [IsStrictOrderedRing R]

theorem sortStats_perm (l : List (IndStat R)) : (sortStats l).Perm l := List.perm_insertionSort _ _

theorem sortStats_sorted (l : List (IndStat R)) : (sortStats l).Pairwise fun x y => y.times ≤ x.times := by
  have : Std.Total (fun a b : IndStat R => b.times ≤ a.times) := ⟨fun a b => by omega⟩
  have : IsTrans (IndStat R) (fun a b => b.times ≤ a.times) := ⟨fun a b c h1 h2 => by omega⟩
  exact List.pairwise_insertionSort _ _

/-- What the callback is told about generation `k` of the generations `gens` (the population of that generation is `g.pop`).
The figures of single individuals are those of generation `k - 1`: fitness and how often it was chosen as a parent of generation `k`.  The number of
invalid chromosomes is the number of crossovers repeated plus the number of mutations repeated on the way to generation `k`. -/
structure Reported (popSize elitism : Nat) (m : MutatorI Mu) (gens : List (Gen P R)) (k : Nat) (g : Gen P R) (a : GenStat P R) : Prop where
  number : a.number = k
  average : a.average * (popSize : R) = (g.pop.map Indiv.fitness).sum
  best_upper : ∀ (j : Nat) (g' : Gen P R), j ≤ k → gens[j]? = some g' → ∀ i ∈ g'.pop, i.fitness ≤ a.bestFitness
  best_reached : ∃ (j : Nat) (g' : Gen P R), j ≤ k ∧ gens[j]? = some g' ∧
    ∃ i ∈ g'.pop, i.params = some a.bestParams ∧ i.fitness = a.bestFitness
  sorted : a.all.Pairwise fun x y => y.times ≤ x.times
  first : k = 0 → a.all = List.replicate popSize ⟨0, 0⟩
  previous : ∀ (j : Nat) (g' : Gen P R), k = j + 1 → gens[j]? = some g' → ∃ (times : List Nat) (failed : Nat),
    times.length = g'.pop.length ∧ a.all.Perm (List.zipWith (fun i n => ⟨i.fitness, n⟩) g'.pop times) ∧
    times.sum = 2 * (popSize / 2 - elitism + failed) ∧
    ∃ (children : List (Indiv P R)) (counts : List Nat) (out : List (Indiv P R)), children.length = popSize ∧ counts.length = popSize ∧
      a.invalid = failed + counts.sum ∧ List.Forall₂ (fun x j => Retried m x.1 x.2 j) (children.zip counts) out ∧
      List.Forall₂ SameBut out g.pop

/-- **C78 (what the callback is told).** In every run that returns, the callback is called exactly once for every generation, in order,
with the figures of that generation; the files it asks for, and only those that can be opened, receive the text of that generation; its
state at the end is the result of these calls; cache hits reported plus evaluations made are `popSize` per generation. -/
theorem C78_report {Fam : P → Prop} {s : Nat} {cfg : Config P R Mu} {c : Counter R} {p : P} (hs : Setting Fam s cfg c p)
    (obs : Observer P R σ) (cb : σ → GenStat P R → σ × List String) (hcb : obs.callback = some cb) (hc : c.hits = 0)
    (fuel : Nat) (f : P → R) (mu : Mu) (rng : Rng) (inv : Nat) (st : σ) (maximize : Bool) (r : ResultS P R Mu σ)
    (h : optimizeS cfg obs .none fuel f c mu rng inv st p maximize = .ok r) :
    (∀ (k : Nat) (g : Gen P R), r.fin.gens[k]? = some g → ∃ a, g.stat = some a ∧
      Reported cfg.popSize cfg.elitism.toNat cfg.mutator r.fin.gens k g a ∧
      ∃ t, Text.writePopulation obs.format g.pop = .ok t ∧
        g.files = ((cb (stateAfter cb st (r.fin.gens.take k)) a).2.filter obs.canOpen).map fun name => (name, t)) ∧
    r.fin.st = stateAfter cb st r.fin.gens ∧
    r.fin.counter.counts + ((r.fin.gens.filterMap Gen.stat).map GenStat.hits).sum = c.counts + cfg.popSize * r.fin.gens.length := by
  obtain ⟨_, pop, best, rng1, inv1, l, _, h1, hl, h2, _⟩ := optimizeS_ok h
  obtain ⟨g1, g2, g3, g4, _⟩ := initial_good hs h1
  obtain ⟨b1, b2, b3, _⟩ := hs.built.facts
  simp only [readFile, Res.ok.injEq] at hl
  subst hl
  obtain ⟨q1, q2, q3, q4⟩ := iterateS_report hs.fam cfg hs.sort hs.mutator b2 b1 obs cb hcb fuel f _ _ _ _ _ _ _ _ _ _ _ h2 g1 g2 hs.counter
    g3 hc
  refine ⟨?_, q2, q4⟩
  intro k g hg
  obtain ⟨a, w1, w2, w3, w4, w5, w6, w7, w8, t, w9, w10⟩ := q1 k g hg
  refine ⟨a, w1, ⟨by simpa using w2, w3, w4, ?_, ?_, ?_, ?_⟩, t, w9, w10⟩
  · rcases w6 with h | ⟨h, _⟩
    · exact h
    · rw [g4] at h; simp at h
  · cases k with
    | zero => rw [(w7 rfl).1]; exact sortStats_sorted _
    | succ k =>
      have hk : k < r.fin.gens.length := by
        have := (List.getElem?_eq_some_iff.1 hg).1
        omega
      obtain ⟨times, failed, _, x2, _⟩ := w8 k _ rfl (List.getElem?_eq_getElem hk)
      rw [x2]; exact sortStats_sorted _
  · rintro rfl
    rw [(w7 rfl).1]
    exact List.perm_replicate.1 (sortStats_perm _)
  · intro j g' hj hg'
    obtain ⟨times, failed, x1, x2, x3, x4⟩ := w8 j g' hj hg'
    exact ⟨times, failed, x1, by rw [x2]; exact sortStats_perm _, x3, x4⟩

/-- **C78 (left over).** A run that ended by the fitness criterion leaves no count of invalid chromosomes behind for the next run of the
object. -/
theorem C78_left_over (cfg : Config P R Mu) (obs : Observer P R σ) (file : PopFile) (fuel : Nat) (f : P → R) (c : Counter R) (mu : Mu)
    (rng : Rng) (inv : Nat) (st : σ) (p : P) (maximize : Bool) (r : ResultS P R Mu σ)
    (h : optimizeS cfg obs file fuel f c mu rng inv st p maximize = .ok r) (hm : 0 < cfg.maxGen) (hs : r.fin.best.fitness ≥ cfg.stop) :
    r.fin.invalid = 0 := by
  have key : ∀ (k : Nat) (n : Int) (c : Counter R) (pop : List (Indiv P R)) (best : Indiv P R) (mu : Mu) (rng : Rng)
      (stats : List (IndStat R)) (inv : Nat) (st : σ) (e : EndS P R Mu σ), iterateS cfg obs fuel f k n c pop best mu rng stats inv st = .ok e →
      e.best.fitness ≥ cfg.stop → (0 < k ∨ ¬ best.fitness ≥ cfg.stop) → e.invalid = 0 := by
    intro k
    induction k with
    | zero =>
      intro n c pop best mu rng stats inv st e h hs hk
      cases h
      rcases hk with hk | hk
      · omega
      · exact absurd hs hk
    | succ k ih =>
      intro n c pop best mu rng stats inv st e h hs _
      simp only [iterateS] at h
      obtain ⟨_, _, h⟩ := Res.bind_eq_ok.1 h
      obtain ⟨b, _, h⟩ := Res.bind_eq_ok.1 h
      obtain ⟨_, _, h⟩ := Res.bind_eq_ok.1 h
      obtain ⟨x, hx, h⟩ := Res.bind_eq_ok.1 h
      have hx : x = b.fitness := by
        unfold getFitness at hx
        split at hx
        · cases hx; rfl
        · cases hx
      split at h
      · cases h; rfl
      · next hn =>
        obtain ⟨_, _, h⟩ := Res.bind_eq_ok.1 h
        obtain ⟨_, _, h⟩ := Res.bind_eq_ok.1 h
        obtain ⟨rest, hr, h⟩ := Res.bind_eq_ok.1 h
        cases h
        exact ih _ _ _ _ _ _ _ _ _ rest hr hs (Or.inr (hx ▸ hn))
  unfold optimizeS at h
  split at h
  · obtain ⟨_, _, h⟩ := Res.bind_eq_ok.1 h
    obtain ⟨_, _, h⟩ := Res.bind_eq_ok.1 h
    obtain ⟨e, he, h⟩ := Res.bind_eq_ok.1 h
    split at h
    · split at h
      · cases h
        exact key _ _ _ _ _ _ _ _ _ _ _ he hs (Or.inl (by omega))
      · cases h
      · cases h
    · cases h
  · cases h

/-- **C78 (stale count).** The number of invalid chromosomes reported for the first generation is what an earlier `Optimize` call on the
same object left over (`inv`) plus the number of rejected random chromosomes: without initial parameters, the whole run draws
`s` random booleans for every individual of the population and for every one rejected. -/
theorem C78_first_invalid {Fam : P → Prop} {s : Nat} {cfg : Config P R Mu} {c : Counter R} {p : P} (hs : Setting Fam s cfg c p)
    (obs : Observer P R σ) (cb : σ → GenStat P R → σ × List String) (hcb : obs.callback = some cb) (hc : c.hits = 0)
    (fuel : Nat) (f : P → R) (mu : Mu) (rng : Rng) (inv : Nat) (st : σ) (maximize : Bool) (r : ResultS P R Mu σ)
    (h : optimizeS cfg obs .none fuel f c mu rng inv st p maximize = .ok r) :
    ∃ g a rejected, r.fin.gens[0]? = some g ∧ g.stat = some a ∧ a.invalid = inv + rejected ∧
      (cfg.initial = none → ∀ x, r.fin.rng.bools x = rng.bools (s * (cfg.popSize + rejected) + x)) ∧
      (cfg.initial ≠ none → rejected = 0 ∧ r.fin.rng.bools = rng.bools) := by
  obtain ⟨hm, pop, best, rng1, inv1, l, h0, h1, hl, h2, _⟩ := optimizeS_ok h
  obtain ⟨g1, g2, g3, g4, _⟩ := initial_good hs h1
  obtain ⟨b1, b2, b3, _⟩ := hs.built.facts
  simp only [readFile, Res.ok.injEq] at hl
  subst hl
  obtain ⟨q1, q2, q3, q4⟩ := iterateS_report hs.fam cfg hs.sort hs.mutator b2 b1 obs cb hcb fuel f _ _ _ _ _ _ _ _ _ _ _ h2 g1 g2 hs.counter
    g3 hc
  have hbools := iterateS_bools _ _ _ _ _ _ _ _ _ _ _ _ _ _ _ h2
  have hpos := (C20_population hs fuel f mu rng maximize _ ((C78_no_interference hs obs fuel f mu rng inv st maximize).1 r h)).2.1
  simp only [List.length_map] at hpos
  have hg := List.getElem?_eq_getElem (l := r.fin.gens) (i := 0) (by omega)
  obtain ⟨a, w1, w2, w3, w4, w5, w6, w7, _⟩ := q1 0 _ hg
  have hinv : a.invalid = inv1 := (w7 rfl).2.1
  unfold initialPopulationS at h0
  rw [Res.bind_eq_ok] at h0; obtain ⟨⟨⟨pop', rng'⟩, inv'⟩, hi, h0⟩ := h0
  rw [Res.bind_eq_ok] at h0; obtain ⟨b, hb, h0⟩ := h0
  simp only [Res.pure_eq, Res.ok.injEq, Prod.mk.injEq] at h0
  obtain ⟨⟨rfl, rfl, rfl⟩, rfl⟩ := h0
  cases hini : cfg.initial with
  | none =>
    rw [hini] at hi
    obtain ⟨d, hd, hx⟩ := initRandomS_bools hs.fam hs.param _ _ _ _ _ _ hi
    exact ⟨_, a, d, hg, w1, by omega, fun _ x => by rw [hbools]; exact hx x, by simp⟩
  | some ps =>
    rw [hini] at hi
    simp only at hi
    rw [Res.bind_eq_ok] at hi; obtain ⟨_, _, hi⟩ := hi
    rw [Res.bind_eq_ok] at hi; obtain ⟨_, _, hi⟩ := hi
    simp only [Res.pure_eq, Res.ok.injEq, Prod.mk.injEq] at hi
    obtain ⟨⟨_, rfl⟩, rfl⟩ := hi
    exact ⟨_, a, 0, hg, w1, by omega, by simp, fun _ => ⟨rfl, hbools⟩⟩

end

section
variable [Add R] [Sub R] [Mul R] [Div R] [Zero R] [One R] [NatCast R] [LinearOrder R]

/-! ### C79: starting from a population file -/

theorem read_good {Fam : P → Prop} {s : Nat} (hF : Family Fam s) (F : Text.Format R) {i : Indiv P R} (hi : Good Fam s i) {t : Text.In}
    (h : (Text.read F i t).2.2 = .ok ()) : Good Fam s (Text.read F i t).1 ∧ Decoded Fam (Text.read F i t).1 := by
  have hsync := ((Text.C16_accepts F i t).1 h).2.2.2.2.2
  have hlen := ((Text.C16_accepts F i t).1 h).2.1
  obtain ⟨i1, ⟨p, i2, i3⟩, i4⟩ := hi
  unfold Text.read at *
  simp only [i1, Bool.not_true, Bool.false_eq_true, if_false] at *
  split at h
  · simp at h
  · next hl =>
    rw [if_neg hl] at hlen hsync ⊢
    split at h
    · simp at h
    · next bits hb =>
      split at h
      · next j hj =>
        split at h
        · next k hk =>
          simp only [hb, hj, hk] at hlen hsync ⊢
          unfold setFitness at hj
          split at hj
          · simp at hj
          simp only [Res.ok.injEq] at hj
          subst hj
          unfold setParams at hk
          simp only [i2, i1, if_true] at hk
          split at hk
          · next q hq =>
            simp only [Res.ok.injEq, Res.pure_eq] at hk
            subst hk
            obtain ⟨d1, d2⟩ := hF.dec p bits q i3 hq
            exact ⟨⟨rfl, ⟨q, rfl, d1⟩, by simpa using hlen.trans i4⟩, q, rfl, d2⟩
          · simp at hk
          · simp at hk
        · simp at h
        · simp at h
      · simp at h
      · simp at h

theorem readAll_good {Fam : P → Prop} {s : Nat} (hF : Family Fam s) (F : Text.Format R) : ∀ (old : List (Indiv P R)) (t : Text.In)
    (pop : List (Indiv P R)) (out : Text.In), Text.readAll F old t = .ok (pop, out) → (∀ i ∈ old, Good Fam s i) →
    pop.length = old.length ∧ ∀ i ∈ pop, Good Fam s i ∧ Decoded Fam i ∧ Valid i ∧ i.hasFitness = true
  | [], t, pop, out, h, _ => by
    simp only [Text.readAll, Res.ok.injEq, Prod.mk.injEq] at h
    obtain ⟨rfl, _⟩ := h
    simp
  | i :: is, t, pop, out, h, hg => by
    have hgi := hg i List.mem_cons_self
    simp only [Text.readAll] at h
    split at h
    · next j s' hr =>
      obtain ⟨b, hb, h⟩ := Res.bind_eq_ok.1 h
      split at h
      · next hb' =>
        obtain ⟨rest, h1, h2⟩ := Res.bind_eq_ok.1 h
        simp only [Res.pure_eq, Res.ok.injEq, Prod.mk.injEq] at h2
        obtain ⟨rfl, _⟩ := h2
        obtain ⟨a1, a2⟩ := readAll_good hF F is s' rest.1 rest.2 h1 (fun x hx => hg x (List.mem_cons_of_mem _ hx))
        obtain ⟨c1, c2⟩ := read_good hF F hgi (t := t) (by rw [hr])
        have hacc := (Text.C16_accepts F i t).1 (by rw [hr])
        rw [hr] at c1 c2 hacc
        subst hb'
        have hv : Valid j := by
          unfold isValid at hb
          rw [if_pos c1.1] at hb
          unfold checkParams at hb
          split at hb
          · next q hq => exact ⟨c1.1, q, hq, hb⟩
          · simp at hb
        refine ⟨by simp [a1], ?_⟩
        intro x hx
        rcases List.mem_cons.1 hx with rfl | hx
        · exact ⟨c1, c2, hv, hacc.2.2.2.1⟩
        · exact a2 x hx
      · cases h
    · cases h
    · cases h


theorem readFile_good {Fam : P → Prop} {s : Nat} (hF : Family Fam s) (F : Text.Format R) (n : Nat) {old : List (Indiv P R)}
    (hg : ∀ i ∈ old, Good Fam s i) {t : List Char} {l} (h : readFile F n (.text t) old = .ok l) :
    l.1.length = old.length ∧ (∀ i ∈ l.1, Good Fam s i ∧ Decoded Fam i ∧ Valid i ∧ i.hasFitness = true) ∧
    l.2 = l.1.map (fun i => ⟨i.fitness, 0⟩) := by
  simp only [readFile] at h
  rw [Res.bind_eq_ok] at h; obtain ⟨⟨pop, out⟩, hr, h⟩ := h
  rw [Res.bind_eq_ok] at h; obtain ⟨stats, hst, h⟩ := h
  simp only [Res.pure_eq, Res.ok.injEq] at h
  subst h
  have hall : pop.length = old.length ∧ ∀ i ∈ pop, Good Fam s i ∧ Decoded Fam i ∧ Valid i ∧ i.hasFitness = true := by
    unfold Text.readPopulation at hr
    simp only at hr
    split at hr
    · simp at hr
    · split at hr
      · simp at hr
      · split at hr
        · simp at hr
        · split at hr
          · simp at hr
          · exact readAll_good hF F _ _ _ _ hr hg
  refine ⟨hall.1, hall.2, ?_⟩
  rw [gather_ok _ _ (by simp) (fun i hi => (hall.2 i hi).2.2.2)] at hst
  simp only [Res.ok.injEq] at hst
  rw [← hst]
  clear hst hr hall stats
  simp only
  induction pop with
  | nil => rfl
  | cons i is ih => simp only [List.map_cons, List.length_cons, List.replicate_succ, List.zipWith_cons_cons, ih]

end

section
variable [Field R] [LinearOrder R] [IsStrictOrderedRing R]

/-- **C79 (whatever the file holds).** A run started from a population file, if it returns: its first generation is exactly the individuals
read from the file; every generation has the configured size; every individual of every generation, the first included, satisfies its
constraints and holds what its chromosome encodes; the reported best is the best of all generations, and what the caller's parameters
are set to is what its chromosome encodes. -/
theorem C79_valid {Fam : P → Prop} {s : Nat} {cfg : Config P R Mu} {c : Counter R} {p : P} (hs : Setting Fam s cfg c p)
    (obs : Observer P R σ) (fuel : Nat) (f : P → R) (mu : Mu) (rng : Rng) (inv : Nat) (st : σ) (maximize : Bool) (t : List Char)
    (r : ResultS P R Mu σ) (h : optimizeS cfg obs (.text t) fuel f c mu rng inv st p maximize = .ok r) :
    (∃ pop, ∃ g ∈ r.fin.gens[0]?, ∃ new out, Text.readPopulation obs.format cfg.popSize new ⟨t, false⟩ = .ok (pop, out) ∧
      g.pop.map Indiv.chrom = pop.map Indiv.chrom ∧ g.pop.map Indiv.params = pop.map Indiv.params) ∧
    (∀ g ∈ r.fin.gens, g.pop.length = cfg.popSize ∧ ∀ i ∈ g.pop, Valid i ∧ Decoded Fam i ∧ i.fitness ≤ r.fin.best.fitness) ∧
    (∃ g ∈ r.fin.gens, r.fin.best ∈ g.pop) ∧
    DiscreteParams.setFrom p r.fin.best.chrom = (r.params, .ok ()) := by
  obtain ⟨hm, pop, best, rng1, inv1, l, h0, h1, hl, h2, h3⟩ := optimizeS_ok h
  obtain ⟨g1, g2, g3, g4, _⟩ := initial_good hs h1
  obtain ⟨b1, b2, b3, _⟩ := hs.built.facts
  obtain ⟨l1, l2, l3⟩ := readFile_good hs.fam obs.format cfg.popSize g2 hl
  have he := iterateS_erase _ _ _ _ _ _ _ _ _ _ _ _ _ _ _ h2
  obtain ⟨i1, i2, i3, i4, i5, i6, i7, i8, i9, i10, i11, i12, i13, _⟩ :=
    iterate_spec hs.fam cfg hs.sort hs.mutator b2 fuel f _ _ _ _ _ _ _ _ _ _ _ _ he (by omega) (fun i hi => (l2 i hi).1) hs.counter
  have hk : 0 < cfg.maxGen.toNat := by omega
  have hne := i3 hk
  have hbest := i11 g4 hk
  have hread : ∃ out, Text.readPopulation obs.format cfg.popSize pop ⟨t, false⟩ = .ok (l.1, out) := by
    simp only [readFile] at hl
    rw [Res.bind_eq_ok] at hl; obtain ⟨⟨pop', out⟩, hr, hl⟩ := hl
    rw [Res.bind_eq_ok] at hl; obtain ⟨stats, hst, hl⟩ := hl
    simp only [Res.pure_eq, Res.ok.injEq] at hl
    subst hl
    exact ⟨out, hr⟩
  obtain ⟨out, hread⟩ := hread
  cases hgens : r.fin.gens with
  | nil => rw [hgens] at hne; simp at hne
  | cons g0 gs =>
    rw [hgens] at i4 i5 i6 i7 hbest
    simp only [List.map_cons, List.head?_cons, Option.mem_def, Option.some.injEq, forall_eq', List.tail_cons] at i4 i5 i6 i7 hbest
    refine ⟨⟨l.1, g0, by simp, pop, out, hread, ?_⟩, ?_, ?_, h3⟩
    · revert i5
      generalize l.1 = a
      generalize g0.pop = b
      intro hab
      induction hab with
      | nil => simp
      | cons hd _ ih => exact ⟨by simp [ih.1, hd.2.2], by simp [ih.2, hd.2.1]⟩
    · intro g hg
      refine ⟨(i4 g.pop (by rcases List.mem_cons.1 hg with rfl | hg; exacts [List.mem_cons_self, List.mem_cons_of_mem _ (List.mem_map_of_mem hg)])).1, ?_⟩
      intro i hi
      rcases List.mem_cons.1 hg with rfl | hg
      · obtain ⟨y, hy, sy⟩ := forall₂_mem_right i5 hi
        obtain ⟨_, d, v, _⟩ := l2 y hy
        exact ⟨sy.valid v, sy.decoded d, i7 _ List.mem_cons_self i hi⟩
      · obtain ⟨v, d⟩ := i6 g.pop (List.mem_map_of_mem hg) i hi
        exact ⟨v, d, i7 _ (List.mem_cons_of_mem _ (List.mem_map_of_mem hg)) i hi⟩
    · obtain ⟨g, hg, hb⟩ := hbest
      rcases List.mem_cons.1 hg with rfl | hg
      · exact ⟨g0, List.mem_cons_self, hb⟩
      · obtain ⟨g', hg', rfl⟩ := List.mem_map.1 hg
        exact ⟨g', List.mem_cons_of_mem _ hg', hb⟩

/-- **C79 (missing file).** With the name of a file that cannot be opened `Optimize` throws (after building the initial population it would
have replaced). -/
theorem C79_missing (cfg : Config P R Mu) (obs : Observer P R σ) (fuel : Nat) (f : P → R) (c : Counter R) (mu : Mu)
    (rng : Rng) (inv : Nat) (st : σ) (p : P) (x) (h : initialPopulationS cfg fuel p rng inv = .ok x) :
    optimizeS cfg obs .missing fuel f c mu rng inv st p true = .throw "runtime_error" := by
  simp [optimizeS, h, readFile]

theorem no_files {cfg : Config P R Mu} {obs : Observer P R σ} {fuel : Nat} {f : P → R} (hcb : obs.callback = none) :
    ∀ (k : Nat) (n : Int) (c : Counter R) (pop : List (Indiv P R)) (best : Indiv P R) (mu : Mu) (rng : Rng)
      (stats : List (IndStat R)) (inv : Nat) (st : σ) (r : EndS P R Mu σ),
    iterateS cfg obs fuel f k n c pop best mu rng stats inv st = .ok r → ∀ g ∈ r.gens, ∀ x, x ∉ g.files := by
  intro k
  induction k with
  | zero =>
    intro n c pop best mu rng stats inv st r h
    simp only [iterateS, Res.ok.injEq] at h
    subst h
    simp
  | succ k ih =>
    intro n c pop best mu rng stats inv st r h
    unfold iterateS at h
    rw [Res.bind_eq_ok] at h; obtain ⟨e, he, h⟩ := h
    rw [Res.bind_eq_ok] at h; obtain ⟨b, hb, h⟩ := h
    rw [Res.bind_eq_ok] at h; obtain ⟨o, ho, h⟩ := h
    simp only at h
    rw [Res.bind_eq_ok] at h; obtain ⟨x, hx, h⟩ := h
    unfold observe at ho
    rw [hcb] at ho
    simp only [Res.ok.injEq] at ho
    subst ho
    split at h
    · simp only [Res.pure_eq, Res.ok.injEq] at h
      subst h
      simp
    · rw [Res.bind_eq_ok] at h; obtain ⟨nx, hn, h⟩ := h
      rw [Res.bind_eq_ok] at h; obtain ⟨m, hm, h⟩ := h
      rw [Res.bind_eq_ok] at h; obtain ⟨rest, hr, h⟩ := h
      simp only [Res.pure_eq, Res.ok.injEq] at h
      subst h
      intro g hg
      rcases List.mem_cons.1 hg with rfl | hg
      · simp
      · exact ih _ _ _ _ _ _ _ _ _ _ hr g hg

/-- **C79 (resuming).** A file written at the callback's request during generation `k` of one run (a generation of valid individuals whose
fitness is still non-negative when printed and read back) is accepted by any later run with the same population size and chromosome
size, whose initial population can be built; its first generation then consists of the same chromosomes and parameters, in the same order. -/
theorem C79_resume {Fam : P → Prop} {s : Nat} {cfg cfg2 : Config P R Mu} {c c2 : Counter R} {p p2 : P} (hs : Setting Fam s cfg c p)
    (hs2 : Setting Fam s cfg2 c2 p2) (hsize : cfg2.popSize = cfg.popSize) (hbits : 0 < s)
    (obs obs2 : Observer P R σ) (hobs : obs2.format = obs.format) (round : R → R) (hF : obs.format.Sane round)
    (fuel : Nat) (f : P → R) (mu : Mu) (rng : Rng) (inv : Nat) (st : σ) (maximize : Bool) (r : ResultS P R Mu σ)
    (h : optimizeS cfg obs .none fuel f c mu rng inv st p maximize = .ok r)
    (k : Nat) (g : Gen P R) (hg : r.fin.gens[k]? = some g) (name : String) (t : List Char) (hfile : (name, t) ∈ g.files)
    (hk : 0 < k ∨ cfg.initial = none) (hround : ∀ i ∈ g.pop, 0 ≤ round i.fitness) (hc : c.hits = 0) :
    (∀ fuel2 rng2 pop2, initialPopulation cfg2 fuel2 p2 rng2 = .ok pop2 →
      readFile obs2.format cfg2.popSize (.text t) pop2.1 = .ok (g.pop.map (Text.restored round), g.pop.map fun i => ⟨round i.fitness, 0⟩)) ∧
    (∀ fuel2 f2 mu2 rng2 inv2 st2 maximize2 r2,
      optimizeS cfg2 obs2 (.text t) fuel2 f2 c2 mu2 rng2 inv2 st2 p2 maximize2 = .ok r2 →
      ∃ g2 ∈ r2.fin.gens[0]?, g2.pop.map Indiv.chrom = g.pop.map Indiv.chrom ∧ g2.pop.map Indiv.params = g.pop.map Indiv.params) := by
  have hrun := (C78_no_interference hs obs fuel f mu rng inv st maximize).1 r h
  have hmem : g.pop ∈ r.fin.gens.map Gen.pop := List.mem_map_of_mem (List.mem_of_getElem? hg)
  obtain ⟨v1, v2, _⟩ := C18_generations hs fuel f mu rng maximize _ hrun
  have hval : ∀ i ∈ g.pop, Valid i ∧ Decoded Fam i := by
    rcases hk with hk | hk
    · refine v1 g.pop ?_
      obtain ⟨k, rfl⟩ := Nat.exists_eq_succ_of_ne_zero hk.ne'
      simp only
      cases hgens : r.fin.gens with
      | nil => rw [hgens] at hg; simp at hg
      | cons g0 gs =>
        rw [hgens] at hg
        exact List.mem_map_of_mem (List.mem_of_getElem? (by simpa using hg))
    · exact v2 hk g.pop hmem
  obtain ⟨_, pop, best, rng1, inv1, l, _, h1, hl, h2, _⟩ := optimizeS_ok h
  obtain ⟨g1, g2, g3, g4, _⟩ := initial_good hs h1
  obtain ⟨b1, b2, b3, _⟩ := hs.built.facts
  simp only [readFile, Res.ok.injEq] at hl
  subst hl
  have he := iterateS_erase _ _ _ _ _ _ _ _ _ _ _ _ _ _ _ h2
  obtain ⟨i1, i2, i3, i4, _⟩ :=
    iterate_spec hs.fam cfg hs.sort hs.mutator b2 fuel f _ _ _ _ _ _ _ _ _ _ _ _ he g1 g2 hs.counter
  obtain ⟨glen, ggood⟩ := i4 g.pop hmem
  -- the text is that of the generation
  have htext : Text.writePopulation obs.format g.pop = .ok t := by
    cases hcb : obs.callback with
    | none =>
      exfalso
      exact no_files hcb _ _ _ _ _ _ _ _ _ _ _ h2 g (List.mem_of_getElem? hg) _ hfile
    | some cb =>
      obtain ⟨q, _⟩ := C78_report hs obs cb hcb hc fuel f mu rng inv st maximize r h
      obtain ⟨a, _, _, t', ht', hf⟩ := q k g hg
      rw [hf] at hfile
      obtain ⟨_, _, hx⟩ := List.mem_map.1 hfile
      simp only [Prod.mk.injEq] at hx
      rw [ht', hx.2]
  have hread : ∀ fuel2 rng2 pop2, initialPopulation cfg2 fuel2 p2 rng2 = .ok pop2 →
      readFile obs2.format cfg2.popSize (.text t) pop2.1 =
        .ok (g.pop.map (Text.restored round), g.pop.map fun i => ⟨round i.fitness, 0⟩) := by
    rintro fuel2 rng2 ⟨pop2, best2, rng3⟩ hp2
    obtain ⟨y1, y2, _⟩ := initial_good hs2 hp2
    obtain ⟨out, ho⟩ := Text.C16_population (Fam := Fam) obs.format round hF g.pop pop2 t hbits
      (fun i hi => ⟨(ggood i hi).1, (hval i hi).2, (hval i hi).1, hround i hi⟩) y2 (by omega) htext
    rw [glen, ← hsize, ← hobs] at ho
    simp only [readFile, ho, Res.ok_bind]
    rw [gather_ok _ _ (by simp) (fun i hi => by obtain ⟨j, _, rfl⟩ := List.mem_map.1 hi; rfl)]
    simp only [Res.ok_bind, Res.pure_eq, Res.ok.injEq, Prod.mk.injEq, true_and]
    generalize g.pop = q
    induction q with
    | nil => rfl
    | cons i is ih => simp only [List.map_cons, List.length_cons, List.replicate_succ, List.zipWith_cons_cons, ih]; rfl
  refine ⟨hread, ?_⟩
  intro fuel2 f2 mu2 rng2 inv2 st2 maximize2 r2 hr2
  obtain ⟨_, pop', best', rng1', inv1', l', _, h1', hl', h2', _⟩ := optimizeS_ok hr2
  rw [hread _ _ _ h1'] at hl'
  simp only [Res.ok.injEq] at hl'
  subst hl'
  obtain ⟨b1', b2', b3', _⟩ := hs2.built.facts
  have he' := iterateS_erase _ _ _ _ _ _ _ _ _ _ _ _ _ _ _ h2'
  have hgood' : ∀ i ∈ g.pop.map (Text.restored round), Good Fam s i := by
    intro i hi
    obtain ⟨j, hj, rfl⟩ := List.mem_map.1 hi
    exact (ggood j hj).1
  obtain ⟨i1', i2', i3', i4', i5', _⟩ :=
    iterate_spec hs2.fam cfg2 hs2.sort hs2.mutator b2' fuel2 f2 _ _ _ _ _ _ _ _ _ _ _ _ he' (by simp [glen, hsize]) hgood' hs2.counter
  have hne := i3' (by omega)
  cases hgens : r2.fin.gens with
  | nil => rw [hgens] at hne; simp at hne
  | cons g0 gs =>
    rw [hgens] at i5'
    simp only [List.map_cons, List.head?_cons, Option.mem_def, Option.some.injEq, forall_eq'] at i5'
    refine ⟨g0, by simp, ?_⟩
    revert i5'
    generalize g0.pop = b
    generalize g.pop = a
    intro hab
    rw [List.forall₂_map_left_iff] at hab
    induction hab with
    | nil => simp
    | cons hd _ ih => exact ⟨by simp [ih.1, hd.2.2, Text.restored], by simp [ih.2, hd.2.1, Text.restored]⟩

end

end K52.GA
