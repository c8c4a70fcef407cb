import Verif.Model.GAStats
import Verif.Lemmas.GA
import Verif.Props.GA

/-! # Lemmas about the genetic algorithm with observers -/

set_option linter.unusedSectionVars false

namespace K52.Res

/-- Applying a function to the result of a call. -/
def mapR {α β : Type} (f : α → β) : Res α → Res β
  | .ok a => .ok (f a)
  | .throw w => .throw w
  | .ub => .ub

theorem mapR_bind {α β γ : Type} (f : β → γ) (x : Res α) (g : α → Res β) :
    mapR f (x >>= g) = x >>= fun a => mapR f (g a) := by
  cases x <;> rfl

theorem mapR_ok {α β : Type} {f : α → β} {x : Res α} {a : α} (h : x = .ok a) : mapR f x = .ok (f a) := by subst h; rfl

theorem mapR_eq_ok {α β : Type} {f : α → β} {x : Res α} {b : β} (h : mapR f x = .ok b) : ∃ a, x = .ok a ∧ f a = b := by
  cases x with
  | ok a => simp only [mapR, Res.ok.injEq] at h; exact ⟨a, rfl, h⟩
  | throw w => simp [mapR] at h
  | ub => simp [mapR] at h

theorem bind_congr_r {α β : Type} {x : Res α} {f g : α → Res β} (h : ∀ a, f a = g a) : (x >>= f) = (x >>= g) := by
  cases x with
  | ok a => exact h a
  | throw w => rfl
  | ub => rfl

end K52.Res

namespace K52.GA
open K52.Indiv

variable {P R Mu σ : Type} [DiscreteParams P] [Add R] [Sub R] [Mul R] [Div R] [Zero R] [One R] [NatCast R] [LinearOrder R]

/-! ### The counters do not influence the run -/

theorem crossPairS_erase (total : R) (pop : List (Indiv P R)) : ∀ (fuel : Nat) (rng : Rng) (t : List Nat) (inv : Nat),
    Res.mapR Prod.fst (crossPairS total pop fuel rng t inv) = crossPair total pop fuel rng
  | 0, _, _, _ => rfl
  | fuel + 1, rng, t, inv => by
    unfold crossPairS crossPair
    simp only [Res.mapR_bind]
    refine Res.bind_congr_r fun k1 => Res.bind_congr_r fun k2 => Res.bind_congr_r fun p1 => Res.bind_congr_r fun a =>
      Res.bind_congr_r fun p2 => Res.bind_congr_r fun b => Res.bind_congr_r fun c => ?_
    split
    · rfl
    · exact crossPairS_erase total pop fuel _ _ _

theorem nextPairsS_erase (elitism : Int) (fuel : Nat) (total : R) (pop sorted : List (Indiv P R)) :
    ∀ (n i : Nat) (ready : Int) (rng : Rng) (t : List Nat) (inv : Nat),
    Res.mapR Prod.fst (nextPairsS elitism fuel total pop sorted n i ready rng t inv) =
      nextPairs elitism fuel total pop sorted n i ready rng
  | 0, _, _, _, _, _ => rfl
  | n + 1, i, ready, rng, t, inv => by
    unfold nextPairsS nextPairs
    split
    · simp only [Res.mapR_bind]
      refine Res.bind_congr_r fun s1 => Res.bind_congr_r fun a => Res.bind_congr_r fun s2 => Res.bind_congr_r fun b => ?_
      rw [← nextPairsS_erase elitism fuel total pop sorted n (i + 2) (ready + 1) rng t inv]
      cases nextPairsS elitism fuel total pop sorted n (i + 2) (ready + 1) rng t inv <;> rfl
    · rw [← crossPairS_erase total pop fuel rng t inv, Res.mapR_bind]
      cases crossPairS total pop fuel rng t inv with
      | ok c =>
        simp only [Res.ok_bind, Res.mapR, Res.mapR_bind]
        rw [← nextPairsS_erase elitism fuel total pop sorted n (i + 2) ready c.1.2.2 c.2.1 c.2.2]
        cases nextPairsS elitism fuel total pop sorted n (i + 2) ready c.1.2.2 c.2.1 c.2.2 <;> rfl
      | throw w => rfl
      | ub => rfl

theorem mutateAllS_erase (m : MutatorI Mu) (fuel : Nat) : ∀ (pop : List (Indiv P R)) (mu : Mu) (rng : Rng) (inv : Nat),
    Res.mapR Prod.fst (mutateAllS m fuel pop mu rng inv) = mutateAll m fuel pop mu rng
  | [], _, _, _ => rfl
  | i :: is, mu, rng, inv => by
    unfold mutateAllS mutateAll
    simp only [Res.mapR_bind]
    refine Res.bind_congr_r fun r => ?_
    rw [← mutateAllS_erase m fuel is r.2.2.1 r.2.2.2 (inv + r.2.1)]
    cases mutateAllS m fuel is r.2.2.1 r.2.2.2 (inv + r.2.1) <;> rfl

theorem initRandomS_erase (fuel : Nat) (p : P) : ∀ (n : Nat) (rng : Rng) (inv : Nat),
    Res.mapR Prod.fst (initRandomS (R := R) fuel p n rng inv) = initRandom fuel p n rng
  | 0, _, _ => rfl
  | n + 1, rng, inv => by
    unfold initRandomS initRandom
    simp only [Res.mapR_bind]
    refine Res.bind_congr_r fun i => Res.bind_congr_r fun r => ?_
    rw [← initRandomS_erase fuel p n r.2.2 (inv + r.2.1)]
    cases initRandomS (R := R) fuel p n r.2.2 (inv + r.2.1) <;> rfl

theorem initialPopulationS_erase (cfg : Config P R Mu) (fuel : Nat) (p : P) (rng : Rng) (inv : Nat) :
    Res.mapR Prod.fst (initialPopulationS cfg fuel p rng inv) = initialPopulation cfg fuel p rng := by
  unfold initialPopulationS initialPopulation
  cases cfg.initial with
  | none =>
    simp only [Res.mapR_bind]
    rw [← initRandomS_erase fuel p cfg.popSize rng inv]
    cases initRandomS (R := R) fuel p cfg.popSize rng inv <;> rfl
  | some ps =>
    simp only [Res.mapR_bind]
    cases validateInitial cfg.popSize p ps with
    | ok u =>
      simp only [Res.ok_bind]
      cases initGiven (R := R) ps <;> rfl
    | throw w => rfl
    | ub => rfl

/-! ### What the counters count -/

theorem bump_length (t : List Nat) (k : Nat) : (bump t k).length = t.length := by simp [bump]

theorem bump_sum : ∀ (t : List Nat) (k : Nat), k < t.length → (bump t k).sum = t.sum + 1
  | [], k, h => by simp at h
  | x :: xs, 0, _ => by simp [bump]; omega
  | x :: xs, k + 1, h => by
    have := bump_sum xs k (by simpa using h)
    simp only [bump, List.modify_succ_cons, List.sum_cons] at *
    omega

theorem at'_lt {α : Type} {l : List α} {k : Nat} {x : α} (h : at' l k = .ok x) : k < l.length := by
  have := at'_ok h
  exact (List.getElem?_eq_some_iff.1 this).1

theorem crossPairS_count (total : R) (pop : List (Indiv P R)) : ∀ (fuel : Nat) (rng : Rng) (t : List Nat) (inv : Nat) (r) (t' : List Nat)
    (inv' : Nat), crossPairS total pop fuel rng t inv = .ok (r, t', inv') → t.length = pop.length →
    t'.length = pop.length ∧ ∃ d, inv' = inv + d ∧ t'.sum = t.sum + 2 * (d + 1)
  | 0, _, _, _, _, _, _, h, _ => by simp [crossPairS, outOfFuel] at h
  | fuel + 1, rng, t, inv, r, t', inv', h, hl => by
    unfold crossPairS at h
    rw [Res.bind_eq_ok] at h; obtain ⟨k1, _, h⟩ := h
    rw [Res.bind_eq_ok] at h; obtain ⟨k2, _, h⟩ := h
    rw [Res.bind_eq_ok] at h; obtain ⟨p1, h1, h⟩ := h
    rw [Res.bind_eq_ok] at h; obtain ⟨a, _, h⟩ := h
    rw [Res.bind_eq_ok] at h; obtain ⟨p2, h2, h⟩ := h
    rw [Res.bind_eq_ok] at h; obtain ⟨b, _, h⟩ := h
    simp only at h
    rw [Res.bind_eq_ok] at h; obtain ⟨c, _, h⟩ := h
    have hk1 := at'_lt h1
    have hk2 := at'_lt h2
    have hs : (bump (bump t k1.1) k2.1).sum = t.sum + 2 := by
      rw [bump_sum _ _ (by rw [bump_length, hl]; exact hk2), bump_sum _ _ (by rw [hl]; exact hk1)]
    have hb : (bump (bump t k1.1) k2.1).length = pop.length := by rw [bump_length, bump_length, hl]
    split at h
    · simp only [Res.pure_eq, Res.ok.injEq, Prod.mk.injEq] at h
      obtain ⟨_, rfl, rfl⟩ := h
      exact ⟨hb, 0, rfl, by omega⟩
    · obtain ⟨a1, d, a2, a3⟩ := crossPairS_count total pop fuel _ _ _ _ _ _ h hb
      exact ⟨a1, d + 1, by omega, by omega⟩

theorem nextPairsS_count (elitism : Int) (fuel : Nat) (total : R) (pop sorted : List (Indiv P R)) :
    ∀ (n i : Nat) (ready : Int) (rng : Rng) (t : List Nat) (inv : Nat) (r) (t' : List Nat) (inv' : Nat),
    nextPairsS elitism fuel total pop sorted n i ready rng t inv = .ok (r, t', inv') → t.length = pop.length →
    t'.length = pop.length ∧ ∃ d, inv' = inv + d ∧ t'.sum = t.sum + 2 * (n - (elitism - ready).toNat + d)
  | 0, _, _, _, t, inv, r, t', inv', h, hl => by
    simp only [nextPairsS, Res.ok.injEq, Prod.mk.injEq] at h
    obtain ⟨_, rfl, rfl⟩ := h
    exact ⟨hl, 0, rfl, by simp⟩
  | n + 1, i, ready, rng, t, inv, r, t', inv', h, hl => by
    unfold nextPairsS at h
    split at h
    · next he =>
      rw [Res.bind_eq_ok] at h; obtain ⟨_, _, h⟩ := h
      rw [Res.bind_eq_ok] at h; obtain ⟨_, _, h⟩ := h
      rw [Res.bind_eq_ok] at h; obtain ⟨_, _, h⟩ := h
      rw [Res.bind_eq_ok] at h; obtain ⟨_, _, h⟩ := h
      rw [Res.bind_eq_ok] at h; obtain ⟨rest, hr, h⟩ := h
      simp only [Res.pure_eq, Res.ok.injEq, Prod.mk.injEq] at h
      obtain ⟨_, h⟩ := h
      obtain ⟨rest1, rest2⟩ := rest
      simp only at h; subst h
      obtain ⟨a1, d, a2, a3⟩ := nextPairsS_count elitism fuel total pop sorted n _ _ _ _ _ _ _ _ hr hl
      refine ⟨a1, d, a2, ?_⟩
      have : n + 1 - (elitism - ready).toNat = n - (elitism - (ready + 1)).toNat := by omega
      rw [this]; exact a3
    · next he =>
      rw [Res.bind_eq_ok] at h; obtain ⟨c, hc, h⟩ := h
      rw [Res.bind_eq_ok] at h; obtain ⟨rest, hr, h⟩ := h
      simp only [Res.pure_eq, Res.ok.injEq, Prod.mk.injEq] at h
      obtain ⟨_, h⟩ := h
      obtain ⟨rest1, rest2⟩ := rest
      obtain ⟨c1, c2, c3⟩ := c
      simp only at h hr; subst h
      obtain ⟨b1, e, b2, b3⟩ := crossPairS_count total pop fuel _ _ _ _ _ _ hc hl
      obtain ⟨a1, d, a2, a3⟩ := nextPairsS_count elitism fuel total pop sorted n _ _ _ _ _ _ _ _ hr b1
      refine ⟨a1, e + d, by omega, ?_⟩
      have h1 : (elitism - ready).toNat = 0 := by omega
      rw [h1] at a3 ⊢
      omega

theorem gather_ok : ∀ (pop : List (Indiv P R)) (t : List Nat), t.length = pop.length → (∀ i ∈ pop, i.hasFitness = true) →
    gather pop t = .ok (List.zipWith (fun i k => ⟨i.fitness, k⟩) pop t)
  | [], t, _, _ => by simp [gather]
  | _ :: _, [], h, _ => by simp at h
  | i :: is, k :: ks, h, hf => by
    have hi : i.hasFitness = true := hf i List.mem_cons_self
    simp [gather, getFitness, hi, gather_ok is ks (by simpa using h) (fun x hx => hf x (List.mem_cons_of_mem _ hx))]

theorem totalFitness_fit : ∀ (pop : List (Indiv P R)) (acc x : R), totalFitness acc pop = .ok x → ∀ i ∈ pop, i.hasFitness = true
  | [], _, _, _ => by simp
  | i :: is, acc, x, h => by
    unfold totalFitness at h
    rw [Res.bind_eq_ok] at h
    obtain ⟨y, hy, h⟩ := h
    have := totalFitness_fit is _ _ h
    unfold getFitness at hy
    split at hy
    · next hi => intro j hj; rcases List.mem_cons.1 hj with rfl | hj; exacts [hi, this j hj]
    · simp at hy

/-- `GenerateNextPopulation` with counters: the same next population; the statistics gathered belong to the old population. -/
theorem nextPopulationS_spec (cfg : Config P R Mu) (fuel : Nat) (pop : List (Indiv P R)) (rng : Rng) (inv : Nat) :
    (∀ r stats inv', nextPopulationS cfg fuel pop rng inv = .ok (r, stats, inv') →
      nextPopulation cfg fuel pop rng = .ok r ∧
      ∃ (times : List Nat) (failed : Nat), times.length = pop.length ∧ stats = List.zipWith (fun i k => ⟨i.fitness, k⟩) pop times ∧
        inv' = inv + failed ∧ times.sum = 2 * (cfg.popSize / 2 - cfg.elitism.toNat + failed)) ∧
    (∀ r, nextPopulation cfg fuel pop rng = .ok r → ∃ stats inv', nextPopulationS cfg fuel pop rng inv = .ok (r, stats, inv')) := by
  constructor
  · intro r stats inv' h
    unfold nextPopulationS at h
    rw [Res.bind_eq_ok] at h; obtain ⟨total, ht, h⟩ := h
    rw [Res.bind_eq_ok] at h; obtain ⟨⟨q, t, i'⟩, hq, h⟩ := h
    simp only at h
    obtain ⟨a1, d, a2, a3⟩ := nextPairsS_count _ _ _ _ _ _ _ _ _ _ _ _ _ _ hq (by simp)
    rw [gather_ok pop t a1 (totalFitness_fit _ _ _ ht)] at h
    simp only [Res.ok_bind, Res.pure_eq, Res.ok.injEq, Prod.mk.injEq] at h
    obtain ⟨rfl, rfl, rfl⟩ := h
    refine ⟨?_, t, d, a1, rfl, a2, by simpa using a3⟩
    unfold nextPopulation
    rw [ht, Res.ok_bind, ← nextPairsS_erase _ _ _ _ _ _ _ _ _ (List.replicate pop.length 0) inv]
    exact Res.mapR_ok hq
  · intro r h
    unfold nextPopulation at h
    rw [Res.bind_eq_ok] at h; obtain ⟨total, ht, h⟩ := h
    rw [← nextPairsS_erase _ _ _ _ _ _ _ _ _ (List.replicate pop.length 0) inv] at h
    obtain ⟨⟨q, t, i'⟩, hq, rfl⟩ := Res.mapR_eq_ok h
    obtain ⟨a1, _⟩ := nextPairsS_count _ _ _ _ _ _ _ _ _ _ _ _ _ _ hq (by simp)
    unfold nextPopulationS
    rw [ht, Res.ok_bind, hq, Res.ok_bind, gather_ok pop t a1 (totalFitness_fit _ _ _ ht)]
    exact ⟨_, _, rfl⟩

/-- One application of the mutator to an individual. -/
def MutStep (m : MutatorI Mu) (i j : Indiv P R) : Prop :=
  ∃ mu lib chr mu' lib', m.mutate mu lib i.chrom = .ok (chr, mu', lib') ∧ setParams { i with chrom := chr, hasFitness := false } = .ok j

/-- `Retried m i n j`: mutating `i` gave an individual that violates its constraints, mutating that one gave another ..., `n` times in all,
and then `j`, which satisfies them. -/
inductive Retried (m : MutatorI Mu) : Indiv P R → Nat → Indiv P R → Prop
  | accepted {i j : Indiv P R} : MutStep m i j → j.checkParams = .ok true → Retried m i 0 j
  | rejected {i j k : Indiv P R} {n : Nat} : MutStep m i j → j.checkParams = .ok false → Retried m j n k → Retried m i (n + 1) k

theorem mutateLoop_retried (m : MutatorI Mu) : ∀ (fuel : Nat) (i : Indiv P R) (mu : Mu) (rng : Rng) (inv : Nat) (j) (inv' : Nat) (mu' : Mu)
    (rng' : Rng), mutateLoop m fuel i mu rng inv = .ok (j, inv', mu', rng') →
    (∃ n, inv' = inv + n ∧ Retried m i n j) ∧ rng'.bools = rng.bools
  | 0, _, _, _, _, _, _, _, _, h => by simp [mutateLoop, outOfFuel] at h
  | fuel + 1, i, mu, rng, inv, j, inv', mu', rng', h => by
    unfold mutateLoop at h
    rw [Res.bind_eq_ok] at h; obtain ⟨⟨chr, mu1, lib1⟩, h1, h⟩ := h
    rw [Res.bind_eq_ok] at h; obtain ⟨k, h2, h⟩ := h
    rw [Res.bind_eq_ok] at h; obtain ⟨b, h3, h⟩ := h
    have hstep : MutStep m i k := ⟨_, _, _, _, _, h1, h2⟩
    split at h
    · next hb =>
      subst hb
      simp only [Res.pure_eq, Res.ok.injEq, Prod.mk.injEq] at h
      obtain ⟨rfl, rfl, rfl, rfl⟩ := h
      exact ⟨⟨0, rfl, .accepted hstep h3⟩, rfl⟩
    · next hb =>
      obtain rfl : b = false := by simpa using hb
      obtain ⟨⟨n, hn, hr⟩, hbools⟩ := mutateLoop_retried m fuel _ _ _ _ _ _ _ _ h
      exact ⟨⟨n + 1, by omega, .rejected hstep h3 hr⟩, hbools⟩

theorem mutateAllS_count (m : MutatorI Mu) (fuel : Nat) : ∀ (pop : List (Indiv P R)) (mu : Mu) (rng : Rng) (inv : Nat) (r) (inv' : Nat),
    mutateAllS m fuel pop mu rng inv = .ok (r, inv') →
    (∃ counts : List Nat, counts.length = pop.length ∧ inv' = inv + counts.sum ∧
      List.Forall₂ (fun x j => Retried m x.1 x.2 j) (pop.zip counts) r.1) ∧ r.2.2.bools = rng.bools := by
  intro pop
  induction pop with
  | nil =>
    intro mu rng inv r inv' h
    simp only [mutateAllS, Res.ok.injEq, Prod.mk.injEq] at h
    obtain ⟨rfl, rfl⟩ := h
    exact ⟨⟨[], rfl, rfl, .nil⟩, rfl⟩
  | cons i is ih =>
    intro mu rng inv r inv' h
    unfold mutateAllS at h
    rw [Res.bind_eq_ok] at h; obtain ⟨⟨j, n, mu1, rng1⟩, ha, h⟩ := h
    rw [Res.bind_eq_ok] at h; obtain ⟨b, hb, h⟩ := h
    simp only [Res.pure_eq, Res.ok.injEq, Prod.mk.injEq] at h
    obtain ⟨rfl, rfl⟩ := h
    obtain ⟨⟨cs, c1, c2, c3⟩, c4⟩ := ih _ _ _ _ _ hb
    unfold mutate at ha
    split at ha
    · obtain ⟨⟨n', hn, hr⟩, hbools⟩ := mutateLoop_retried m fuel _ _ _ _ _ _ _ _ ha
      obtain rfl : n' = n := by omega
      refine ⟨⟨n' :: cs, by simp [c1], by simp only [List.sum_cons]; simp only at c2; omega, .cons hr c3⟩, ?_⟩
      exact c4.trans hbools
    · simp at ha

theorem mutateAllS_spec (m : MutatorI Mu) (fuel : Nat) (pop : List (Indiv P R)) (mu : Mu) (rng : Rng) (inv : Nat) :
    (∀ r inv', mutateAllS m fuel pop mu rng inv = .ok (r, inv') → mutateAll m fuel pop mu rng = .ok r) ∧
    (∀ r, mutateAll m fuel pop mu rng = .ok r → ∃ inv', mutateAllS m fuel pop mu rng inv = .ok (r, inv')) := by
  constructor
  · intro r inv' h
    rw [← mutateAllS_erase m fuel pop mu rng inv]
    exact Res.mapR_ok h
  · intro r h
    rw [← mutateAllS_erase m fuel pop mu rng inv] at h
    obtain ⟨⟨a, b⟩, h1, rfl⟩ := Res.mapR_eq_ok h
    exact ⟨b, h1⟩

/-! ### Random booleans drawn -/

theorem randomLoop_bools : ∀ (fuel : Nat) (i : Indiv P R) (rng : Rng) (inv : Nat) (j) (inv' : Nat) (rng' : Rng),
    randomLoop fuel i rng inv = .ok (j, inv', rng') →
    ∃ d, inv' = inv + d ∧ ∀ x, rng'.bools x = rng.bools (i.chrom.length * (d + 1) + x)
  | 0, _, _, _, _, _, _, h => by simp [randomLoop, outOfFuel] at h
  | fuel + 1, i, rng, inv, j, inv', rng', h => by
    unfold randomLoop at h
    simp only at h
    rw [Res.bind_eq_ok] at h; obtain ⟨k, h2, h⟩ := h
    rw [Res.bind_eq_ok] at h; obtain ⟨b, h3, h⟩ := h
    split at h
    · simp only [Res.pure_eq, Res.ok.injEq, Prod.mk.injEq] at h
      obtain ⟨rfl, rfl, rfl⟩ := h
      exact ⟨0, rfl, fun x => by simp [Rng.takeBools]⟩
    · obtain ⟨d, hd, hx⟩ := randomLoop_bools fuel _ _ _ _ _ _ h
      refine ⟨d + 1, by omega, fun x => ?_⟩
      have hl : k.chrom.length = i.chrom.length := by
        obtain ⟨_, p, q, _, _, rfl⟩ := setParams_ok h2
        simp [Rng.takeBools]
      rw [hx, hl]
      simp only [Rng.takeBools]
      congr 1
      ring

theorem initRandomS_bools {Fam : P → Prop} {s : Nat} (hF : Family Fam s) {p : P} (hp : Fam p) (fuel : Nat) :
    ∀ (n : Nat) (rng : Rng) (inv : Nat) (r : List (Indiv P R) × Rng) (inv' : Nat), initRandomS fuel p n rng inv = .ok (r, inv') →
    ∃ d, inv' = inv + d ∧ ∀ x, r.2.bools x = rng.bools (s * (n + d) + x)
  | 0, rng, inv, r, inv', h => by
    simp only [initRandomS, Res.ok.injEq, Prod.mk.injEq] at h
    obtain ⟨rfl, rfl⟩ := h
    exact ⟨0, rfl, fun x => by simp⟩
  | n + 1, rng, inv, r, inv', h => by
    unfold initRandomS at h
    rw [Res.bind_eq_ok] at h; obtain ⟨i, h1, h⟩ := h
    rw [Res.bind_eq_ok] at h; obtain ⟨⟨j, k, rng1⟩, h2, h⟩ := h
    rw [Res.bind_eq_ok] at h; obtain ⟨⟨rs, inv2⟩, h3, h⟩ := h
    simp only [Res.pure_eq, Res.ok.injEq, Prod.mk.injEq] at h
    obtain ⟨rfl, rfl⟩ := h
    obtain ⟨d, hd, hx⟩ := initRandomS_bools hF hp fuel n _ _ _ _ h3
    obtain ⟨⟨hin, _, hl⟩, _⟩ := init_good hF hp h1
    unfold setRandom at h2
    rw [if_pos hin] at h2
    · obtain ⟨d', hd', hx'⟩ := randomLoop_bools _ _ _ _ _ _ _ h2
      simp only at hd
      refine ⟨d + d', by omega, fun x => ?_⟩
      simp only at hx ⊢
      rw [hx, hx', hl]
      congr 1
      ring

theorem crossPairS_bools (total : R) (pop : List (Indiv P R)) : ∀ (fuel : Nat) (rng : Rng) (t : List Nat) (inv : Nat) (r) (x),
    crossPairS total pop fuel rng t inv = .ok (r, x) → r.2.2.bools = rng.bools
  | 0, _, _, _, _, _, h => by simp [crossPairS, outOfFuel] at h
  | fuel + 1, rng, t, inv, r, x, h => by
    unfold crossPairS at h
    rw [Res.bind_eq_ok] at h; obtain ⟨k1, hk1, h⟩ := h
    rw [Res.bind_eq_ok] at h; obtain ⟨k2, hk2, h⟩ := h
    rw [Res.bind_eq_ok] at h; obtain ⟨p1, h1, h⟩ := h
    rw [Res.bind_eq_ok] at h; obtain ⟨a, _, h⟩ := h
    rw [Res.bind_eq_ok] at h; obtain ⟨p2, h2, h⟩ := h
    rw [Res.bind_eq_ok] at h; obtain ⟨b, _, h⟩ := h
    simp only at h
    rw [Res.bind_eq_ok] at h; obtain ⟨c, hc, h⟩ := h
    have e1 : k1.2.bools = rng.bools := by
      unfold select at hk1
      rw [Res.bind_eq_ok] at hk1; obtain ⟨_, _, hk1⟩ := hk1
      simp only [Res.pure_eq, Res.ok.injEq] at hk1
      subst hk1; rfl
    have e2 : k2.2.bools = k1.2.bools := by
      unfold select at hk2
      rw [Res.bind_eq_ok] at hk2; obtain ⟨_, _, hk2⟩ := hk2
      simp only [Res.pure_eq, Res.ok.injEq] at hk2
      subst hk2; rfl
    have e3 : c.2.2.2.bools = k2.2.bools := by
      unfold crossover at hc
      split at hc
      · rw [Res.bind_eq_ok] at hc; obtain ⟨d, hd, hc⟩ := hc
        have : d.2.2.bools = k2.2.bools := by
          unfold boolCrossover at hd
          split at hd
          · simp at hd
          · rw [Res.bind_eq_ok] at hd; obtain ⟨_, _, hd⟩ := hd
            rw [Res.bind_eq_ok] at hd; obtain ⟨_, _, hd⟩ := hd
            simp only [Res.pure_eq, Res.ok.injEq] at hd
            subst hd; rfl
        rw [Res.bind_eq_ok] at hc; obtain ⟨_, _, hc⟩ := hc
        rw [Res.bind_eq_ok] at hc; obtain ⟨_, _, hc⟩ := hc
        rw [Res.bind_eq_ok] at hc; obtain ⟨_, _, hc⟩ := hc
        split at hc
        · simp only [Res.pure_eq, Res.ok.injEq] at hc
          subst hc; exact this
        · rw [Res.bind_eq_ok] at hc; obtain ⟨_, _, hc⟩ := hc
          simp only [Res.pure_eq, Res.ok.injEq] at hc
          subst hc; exact this
      · simp at hc
    split at h
    · simp only [Res.pure_eq, Res.ok.injEq, Prod.mk.injEq] at h
      obtain ⟨rfl, _⟩ := h
      exact e3.trans (e2.trans e1)
    · exact (crossPairS_bools total pop fuel _ _ _ _ _ h).trans (e3.trans (e2.trans e1))

theorem nextPairsS_bools (elitism : Int) (fuel : Nat) (total : R) (pop sorted : List (Indiv P R)) :
    ∀ (n i : Nat) (ready : Int) (rng : Rng) (t : List Nat) (inv : Nat) (r) (x),
    nextPairsS elitism fuel total pop sorted n i ready rng t inv = .ok (r, x) → r.2.bools = rng.bools
  | 0, _, _, _, _, _, _, _, h => by
    simp only [nextPairsS, Res.ok.injEq, Prod.mk.injEq] at h
    obtain ⟨rfl, _⟩ := h
    rfl
  | n + 1, i, ready, rng, t, inv, r, x, h => by
    unfold nextPairsS at h
    split at h
    · rw [Res.bind_eq_ok] at h; obtain ⟨_, _, h⟩ := h
      rw [Res.bind_eq_ok] at h; obtain ⟨_, _, h⟩ := h
      rw [Res.bind_eq_ok] at h; obtain ⟨_, _, h⟩ := h
      rw [Res.bind_eq_ok] at h; obtain ⟨_, _, h⟩ := h
      rw [Res.bind_eq_ok] at h; obtain ⟨⟨rest, y⟩, hr, h⟩ := h
      simp only [Res.pure_eq, Res.ok.injEq, Prod.mk.injEq] at h
      obtain ⟨rfl, _⟩ := h
      have := nextPairsS_bools elitism fuel total pop sorted n _ _ _ _ _ _ _ hr
      exact this
    · rw [Res.bind_eq_ok] at h; obtain ⟨⟨c, y⟩, hc, h⟩ := h
      rw [Res.bind_eq_ok] at h; obtain ⟨⟨rest, z⟩, hr, h⟩ := h
      simp only [Res.pure_eq, Res.ok.injEq, Prod.mk.injEq] at h
      obtain ⟨rfl, _⟩ := h
      exact (nextPairsS_bools elitism fuel total pop sorted n _ _ _ _ _ _ _ hr).trans (crossPairS_bools _ _ _ _ _ _ _ _ hc)

theorem iterateS_bools (cfg : Config P R Mu) (obs : Observer P R σ) (fuel : Nat) (f : P → R) :
    ∀ (k : Nat) (n : Int) (c : Counter R) (pop : List (Indiv P R)) (best : Indiv P R) (mu : Mu) (rng : Rng)
      (stats : List (IndStat R)) (inv : Nat) (st : σ) (r : EndS P R Mu σ),
    iterateS cfg obs fuel f k n c pop best mu rng stats inv st = .ok r → r.rng.bools = rng.bools := by
  intro k
  induction k with
  | zero =>
    intro n c pop best mu rng stats inv st r h
    simp only [iterateS, Res.ok.injEq] at h
    subst h
    rfl
  | succ k ih =>
    intro n c pop best mu rng stats inv st r h
    unfold iterateS at h
    rw [Res.bind_eq_ok] at h; obtain ⟨e, he, h⟩ := h
    rw [Res.bind_eq_ok] at h; obtain ⟨b, hb, h⟩ := h
    rw [Res.bind_eq_ok] at h; obtain ⟨o, ho, h⟩ := h
    simp only at h
    rw [Res.bind_eq_ok] at h; obtain ⟨x, hx, h⟩ := h
    split at h
    · simp only [Res.pure_eq, Res.ok.injEq] at h
      subst h
      rfl
    · rw [Res.bind_eq_ok] at h; obtain ⟨⟨nx, s', i'⟩, hn, h⟩ := h
      rw [Res.bind_eq_ok] at h; obtain ⟨⟨m, i''⟩, hm, h⟩ := h
      rw [Res.bind_eq_ok] at h; obtain ⟨rest, hr, h⟩ := h
      simp only [Res.pure_eq, Res.ok.injEq] at h
      subst h
      have h1 := ih _ _ _ _ _ _ _ _ _ _ hr
      have h2 := (mutateAllS_count _ _ _ _ _ _ _ _ hm).2
      have h3 : nx.2.bools = rng.bools := by
        unfold nextPopulationS at hn
        rw [Res.bind_eq_ok] at hn; obtain ⟨_, _, hn⟩ := hn
        rw [Res.bind_eq_ok] at hn; obtain ⟨⟨q, t, i0⟩, hq, hn⟩ := hn
        simp only at hn
        rw [Res.bind_eq_ok] at hn; obtain ⟨_, _, hn⟩ := hn
        simp only [Res.pure_eq, Res.ok.injEq, Prod.mk.injEq] at hn
        obtain ⟨rfl, _⟩ := hn
        exact nextPairsS_bools _ _ _ _ _ _ _ _ _ _ _ _ _ hq
      exact h1.trans (h2.trans h3)

/-! ### Cache hits -/

theorem processOne_hits {hash : List Bool → Nat} {c c1 : Counter R} {i : Indiv P R} {t : Todo P R}
    (h : processOne hash c i = .ok (c1, t)) : c1.hits + (toCount [t]).length = c.hits + 1 := by
  unfold processOne at h
  simp only at h
  have done : ∀ (d : Counter R), (if i.init = true then
      (match i.params with
        | some p => Res.ok (d, Todo.count i p)
        | none => Res.ub)
      else Res.throw "logic_error") = .ok (c1, t) → d.hits = c.hits → c1.hits + (toCount [t]).length = c.hits + 1 := by
    intro d h hd
    split at h
    · split at h
      · simp only [Res.ok.injEq, Prod.mk.injEq] at h
        obtain ⟨rfl, rfl⟩ := h
        simp [toCount, hd]
      · simp at h
    · simp at h
  split at h
  · exact done _ h rfl
  · split at h
    · split at h
      · split at h
        · rw [Res.bind_eq_ok] at h
          obtain ⟨j, _, h⟩ := h
          simp only [Res.pure_eq, Res.ok.injEq, Prod.mk.injEq] at h
          obtain ⟨rfl, rfl⟩ := h
          simp [toCount]
        · simp at h
        · simp at h
      · next hi _ _ _ => exact done { c with cache := some _ } (by rw [if_pos hi]; exact h) rfl
      · simp at h
    · simp at h

theorem toCount_cons_length (t : Todo P R) (ts : List (Todo P R)) :
    (toCount (t :: ts)).length = (toCount [t]).length + (toCount ts).length := by
  cases t with
  | done => simp [toCount]
  | count => simp [toCount]; omega

theorem process_hits {hash : List Bool → Nat} : ∀ {pop : List (Indiv P R)} {c c1 : Counter R} {ts : List (Todo P R)},
    process hash c pop = .ok (c1, ts) → c1.hits + (toCount ts).length = c.hits + pop.length
  | [], c, c1, ts, h => by
    simp only [process, Res.ok.injEq, Prod.mk.injEq] at h
    obtain ⟨rfl, rfl⟩ := h
    simp [toCount]
  | i :: is, c, c1, ts, h => by
    unfold process at h
    rw [Res.bind_eq_ok] at h; obtain ⟨⟨a1, a2⟩, ha, h⟩ := h
    rw [Res.bind_eq_ok] at h; obtain ⟨⟨b1, b2⟩, hb, h⟩ := h
    simp only [Res.pure_eq, Res.ok.injEq, Prod.mk.injEq] at h
    obtain ⟨rfl, rfl⟩ := h
    have h1 := processOne_hits ha
    have h2 := process_hits hb
    have h3 := toCount_cons_length a2 b2
    simp only [List.length_cons] at *
    omega

/-- Every individual is either evaluated or found in the cache. -/
theorem obtainFitness_hits {hash : List Bool → Nat} {f : P → R} {c c' : Counter R} {pop out : List (Indiv P R)}
    (h : obtainFitness hash f c pop = .ok (c', out)) : c'.hits + c'.counts = c.hits + c.counts + pop.length := by
  unfold obtainFitness at h
  rw [Res.bind_eq_ok] at h; obtain ⟨⟨c1, ts⟩, h1, h⟩ := h
  have e1 := process_hits h1
  have e2 := (process_spec h1).2.2.2.2
  simp only at h
  rw [Res.bind_eq_ok] at h; obtain ⟨pop', _, h⟩ := h
  split at h
  · simp only [Res.pure_eq, Res.ok.injEq, Prod.mk.injEq] at h
    obtain ⟨rfl, rfl⟩ := h
    simp only [List.length_map]
    omega
  · split at h
    · simp only [Res.pure_eq, Res.ok.injEq, Prod.mk.injEq] at h
      obtain ⟨rfl, rfl⟩ := h
      simp only [List.length_map]
      omega
    · simp at h

end K52.GA
