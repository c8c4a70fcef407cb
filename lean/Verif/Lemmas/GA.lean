import Verif.Lemmas.Counter
import Mathlib.Tactic.Linarith
import Mathlib.Data.List.Perm.Basic

/-! # Lemmas about the genetic algorithm's loops -/

set_option linter.unusedSectionVars false

namespace K52.GA
open K52.Indiv

variable {P R Mu : Type} [DiscreteParams P] [Add R] [Sub R] [Mul R] [Div R] [Zero R] [One R] [NatCast R] [LinearOrder R]

/-- A set of parameter objects that differ only in their values: all have chromosome size `s`, `Clone` returns an equal object,
and what a chromosome decodes to does not depend on the object it is decoded into. -/
structure Family (Fam : P → Prop) (s : Nat) : Prop where
  clone : ∀ p, Fam p → DiscreteParams.clone p = .ok p
  size : ∀ p, Fam p → DiscreteParams.size p = .ok s
  enc : ∀ p chr out, Fam p → DiscreteParams.setChromosome p chr = .ok out → out.length = chr.length
  dec : ∀ p chr q, Fam p → DiscreteParams.setFrom p chr = (q, .ok ()) →
    Fam q ∧ ∀ p', Fam p' → DiscreteParams.setFrom p' chr = (q, .ok ())

/-- An initialised individual of the family, with a chromosome of the right length. -/
def Good (Fam : P → Prop) (s : Nat) (i : Indiv P R) : Prop :=
  i.init = true ∧ (∃ p, i.params = some p ∧ Fam p) ∧ i.chrom.length = s

/-- The individual's parameters are what its chromosome decodes to (into any object of the family). -/
def Decoded (Fam : P → Prop) (i : Indiv P R) : Prop :=
  ∃ q, i.params = some q ∧ ∀ p, Fam p → DiscreteParams.setFrom p i.chrom = (q, .ok ())

/-- Same individual apart from the fitness. -/
def SameBut (i j : Indiv P R) : Prop := j.init = i.init ∧ j.params = i.params ∧ j.chrom = i.chrom

theorem SameBut.good {Fam : P → Prop} {s : Nat} {i j : Indiv P R} (h : SameBut i j) (g : Good Fam s i) : Good Fam s j := by
  obtain ⟨h1, h2, h3⟩ := h
  exact ⟨by rw [h1]; exact g.1, by rw [h2]; exact g.2.1, by rw [h3]; exact g.2.2⟩

theorem SameBut.decoded {Fam : P → Prop} {i j : Indiv P R} (h : SameBut i j) (g : Decoded Fam i) : Decoded Fam j := by
  obtain ⟨h1, h2, h3⟩ := h
  obtain ⟨q, a, b⟩ := g
  exact ⟨q, by rw [h2, a], fun p hp => by rw [h3]; exact b p hp⟩

theorem SameBut.valid {i j : Indiv P R} (h : SameBut i j) (g : Valid i) : Valid j := by
  obtain ⟨h1, h2, h3⟩ := h
  obtain ⟨a, p, b, c⟩ := g
  exact ⟨by rw [h1, a], p, by rw [h2, b], c⟩

theorem Evaluated.same {hash : List Bool → Nat} {f : P → R} {c : Counter R} {i j : Indiv P R} (h : Evaluated hash f c i j) :
    SameBut i j ∧ j.hasFitness = true ∧ 0 ≤ j.fitness := by
  obtain ⟨_, v, h0, rfl, _⟩ := h
  exact ⟨⟨rfl, rfl, rfl⟩, rfl, h0⟩

variable {Fam : P → Prop} {s : Nat}

theorem copy_good (hF : Family Fam s) {i : Indiv P R} (h : Good Fam s i) : copy i = .ok i := by
  obtain ⟨_, ⟨p, hp, hf⟩, _⟩ := h
  unfold copy
  rw [hp]
  simp only [hF.clone p hf, Res.ok_bind, Res.pure_eq, ← hp]

theorem init_good (hF : Family Fam s) {p : P} (hp : Fam p) {i : Indiv P R} (h : initWith new p = .ok i) :
    Good Fam s i ∧ i.hasFitness = false ∧ i.params = some p ∧
    DiscreteParams.setChromosome p (List.replicate s false) = .ok i.chrom := by
  unfold initWith at h
  rw [hF.clone p hp, Res.ok_bind, hF.size p hp, Res.ok_bind, Res.bind_eq_ok] at h
  obtain ⟨chr, hc, h⟩ := h
  simp only [new, Bool.false_eq_true, if_false, Res.pure_eq, Res.ok.injEq] at h
  subst h
  have := hF.enc _ _ _ hp hc
  simp only [List.length_replicate] at this
  exact ⟨⟨rfl, ⟨p, rfl, hp⟩, this⟩, rfl, rfl, hc⟩

theorem setParams_good (hF : Family Fam s) {i j : Indiv P R} (hp : ∃ p, i.params = some p ∧ Fam p) (hl : i.chrom.length = s)
    (h : setParams i = .ok j) :
    Good Fam s j ∧ Decoded Fam j ∧ j.chrom = i.chrom ∧ j.hasFitness = i.hasFitness := by
  obtain ⟨hi, p, q, hpp, e, rfl⟩ := setParams_ok h
  obtain ⟨p', hp', hf⟩ := hp
  rw [hpp] at hp'
  simp only [Option.some.injEq] at hp'
  subst hp'
  obtain ⟨fq, d⟩ := hF.dec _ _ _ hf e
  exact ⟨⟨hi, ⟨q, rfl, fq⟩, hl⟩, ⟨q, rfl, d⟩, rfl, rfl⟩

theorem random_good (hF : Family Fam s) (fuel : Nat) {i j : Indiv P R} {rng rng' : Rng} {n : Nat} (g : Good Fam s i)
    (h : setRandom fuel i rng = .ok (j, n, rng')) :
    Good Fam s j ∧ Decoded Fam j ∧ Valid j ∧ j.hasFitness = false := by
  have hv := C18_random fuel i j rng rng' n h
  refine ⟨?_, ?_, hv.1, hv.2.2.2⟩ <;>
  · unfold setRandom at h
    rw [if_pos g.1] at h
    revert h
    generalize 0 = m
    intro h
    clear hv
    induction fuel generalizing i rng m with
    | zero => simp [randomLoop, outOfFuel] at h
    | succ fuel ih =>
      unfold randomLoop at h
      simp only at h
      rw [Res.bind_eq_ok] at h
      obtain ⟨k, hk, h⟩ := h
      rw [Res.bind_eq_ok] at h
      obtain ⟨b, hb, h⟩ := h
      obtain ⟨s1, s2, s3, s4⟩ := setParams_good hF (i := { i with chrom := (rng.takeBools i.chrom.length).1, hasFitness := false })
        g.2.1 (by simp [Rng.takeBools, g.2.2]) hk
      cases b with
      | true =>
        simp only [if_true, Res.pure_eq, Res.ok.injEq, Prod.mk.injEq] at h
        obtain ⟨rfl, rfl, rfl⟩ := h
        first | exact s1 | exact s2
      | false =>
        simp only [Bool.false_eq_true, if_false] at h
        exact ih s1 _ h

theorem mutate_good (hF : Family Fam s) {m : MutatorI Mu} (hm : KeepsLength m) (fuel : Nat) {i j : Indiv P R} {mu mu' : Mu}
    {rng rng' : Rng} {n : Nat} (g : Good Fam s i) (h : mutate m fuel i mu rng = .ok (j, n, mu', rng')) :
    Good Fam s j ∧ Decoded Fam j ∧ Valid j ∧ j.hasFitness = false := by
  have hv := C18_mutate m hm fuel i j mu mu' rng rng' n h
  refine ⟨?_, ?_, hv.1, hv.2.2.2⟩ <;>
  · unfold mutate at h
    rw [if_pos g.1] at h
    revert h
    generalize 0 = c
    intro h
    clear hv
    induction fuel generalizing i mu rng c with
    | zero => simp [mutateLoop, outOfFuel] at h
    | succ fuel ih =>
      unfold mutateLoop at h
      rw [Res.bind_eq_ok] at h
      obtain ⟨⟨o, mu1, l1⟩, hd, h⟩ := h
      have hlen := hm _ _ _ _ _ _ hd
      simp only at h
      rw [Res.bind_eq_ok] at h
      obtain ⟨k, hk, h⟩ := h
      rw [Res.bind_eq_ok] at h
      obtain ⟨b, hb, h⟩ := h
      obtain ⟨s1, s2, s3, s4⟩ := setParams_good hF (i := { i with chrom := o, hasFitness := false })
        g.2.1 (by simp only; rw [hlen, g.2.2]) hk
      cases b with
      | true =>
        simp only [if_true, Res.pure_eq, Res.ok.injEq, Prod.mk.injEq] at h
        obtain ⟨rfl, rfl, rfl, rfl⟩ := h
        first | exact s1 | exact s2
      | false =>
        simp only [Bool.false_eq_true, if_false] at h
        exact ih s1 _ h

theorem crossover_good (hF : Family Fam s) {a b a' b' : Indiv P R} {rng rng' : Rng} {ok : Bool} (ga : Good Fam s a) (gb : Good Fam s b)
    (h : crossover a b rng = .ok (ok, a', b', rng')) :
    Good Fam s a' ∧ Good Fam s b' ∧ Decoded Fam a' ∧ Decoded Fam b' := by
  have hc := (C18_crossover a b a' b' rng rng' ok h).2.2.2.2.1
  obtain ⟨l1, l2, l3, _⟩ := C17_pointwise _ _ _ _ _ _ hc
  unfold crossover at h
  rw [if_pos ga.1, Res.bind_eq_ok] at h
  obtain ⟨⟨c1, c2, c3⟩, hc', h⟩ := h
  rw [hc] at hc'
  simp only [Res.ok.injEq, Prod.mk.injEq] at hc'
  obtain ⟨rfl, rfl, rfl⟩ := hc'
  rw [Res.bind_eq_ok] at h
  obtain ⟨x, hx, h⟩ := h
  rw [Res.bind_eq_ok] at h
  obtain ⟨y, hy, h⟩ := h
  rw [Res.bind_eq_ok] at h
  obtain ⟨bx, hbx, h⟩ := h
  obtain ⟨x1, x2, _⟩ := setParams_good hF (i := { a with chrom := a'.chrom, hasFitness := false }) ga.2.1 (by simp only; rw [l1, ga.2.2]) hx
  obtain ⟨y1, y2, _⟩ := setParams_good hF (i := { b with chrom := b'.chrom, hasFitness := false }) gb.2.1 (by simp only; rw [l2, gb.2.2]) hy
  cases bx with
  | false =>
    simp only [Bool.not_false, if_true, Res.pure_eq, Res.ok.injEq, Prod.mk.injEq] at h
    obtain ⟨rfl, rfl, rfl, _⟩ := h
    exact ⟨x1, y1, x2, y2⟩
  | true =>
    simp only [Bool.not_true, Bool.false_eq_true, if_false] at h
    rw [Res.bind_eq_ok] at h
    obtain ⟨cb, hcb, h⟩ := h
    simp only [Res.pure_eq, Res.ok.injEq, Prod.mk.injEq] at h
    obtain ⟨rfl, rfl, rfl, _⟩ := h
    exact ⟨x1, y1, x2, y2⟩

theorem at'_ok {α : Type} {l : List α} {k : Nat} {x : α} (h : at' l k = .ok x) : l[k]? = some x := by
  unfold at' at h
  split at h
  · next y e => simp only [Res.ok.injEq] at h; rw [e, h]
  · simp at h

theorem crossPair_good (hF : Family Fam s) {total : R} {pop : List (Indiv P R)} (hg : ∀ i ∈ pop, Good Fam s i) :
    ∀ (fuel : Nat) (rng : Rng) (a b : Indiv P R) (rng' : Rng), crossPair total pop fuel rng = .ok (a, b, rng') →
    Good Fam s a ∧ Good Fam s b ∧ Valid a ∧ Valid b ∧ Decoded Fam a ∧ Decoded Fam b := by
  intro fuel
  induction fuel with
  | zero => intro rng a b rng' h; simp [crossPair, outOfFuel] at h
  | succ fuel ih =>
    intro rng a b rng' h
    unfold crossPair at h
    rw [Res.bind_eq_ok] at h
    obtain ⟨⟨k1, r1⟩, h1, h⟩ := h
    rw [Res.bind_eq_ok] at h
    obtain ⟨⟨k2, r2⟩, h2, h⟩ := h
    rw [Res.bind_eq_ok] at h
    obtain ⟨p1, h3, h⟩ := h
    have g1 := hg p1 (List.mem_of_getElem? (at'_ok h3))
    rw [copy_good hF g1, Res.ok_bind, Res.bind_eq_ok] at h
    obtain ⟨p2, h4, h⟩ := h
    have g2 := hg p2 (List.mem_of_getElem? (at'_ok h4))
    rw [copy_good hF g2, Res.ok_bind, Res.bind_eq_ok] at h
    obtain ⟨⟨ok, a', b', r3⟩, h5, h⟩ := h
    obtain ⟨q1, q2, q3, q4⟩ := crossover_good hF g1 g2 h5
    have hv := (C18_crossover _ _ _ _ _ _ _ h5).2.2.2.2.2.1
    cases ok with
    | true =>
      simp only [if_true, Res.pure_eq, Res.ok.injEq, Prod.mk.injEq] at h
      obtain ⟨rfl, rfl, rfl⟩ := h
      exact ⟨q1, q2, (hv rfl).1, (hv rfl).2, q3, q4⟩
    | false =>
      simp only [Bool.false_eq_true, if_false] at h
      exact ih _ _ _ _ h

theorem nextPairs_good (hF : Family Fam s) {elitism : Int} {fuel : Nat} {total : R} {pop sorted : List (Indiv P R)}
    (hg : ∀ i ∈ pop, Good Fam s i) (hs : ∀ i ∈ sorted, Good Fam s i) :
    ∀ (n i : Nat) (ready : Int) (rng : Rng) (out : List (Indiv P R)) (rng' : Rng),
    nextPairs elitism fuel total pop sorted n i ready rng = .ok (out, rng') →
    out.length = 2 * n ∧ ∀ j ∈ out, Good Fam s j := by
  intro n
  induction n with
  | zero =>
    intro i ready rng out rng' h
    simp only [nextPairs, Res.ok.injEq, Prod.mk.injEq] at h
    obtain ⟨rfl, _⟩ := h
    simp
  | succ n ih =>
    intro i ready rng out rng' h
    unfold nextPairs at h
    split at h
    · rw [Res.bind_eq_ok] at h
      obtain ⟨s1, h1, h⟩ := h
      have g1 := hs s1 (List.mem_of_getElem? (at'_ok h1))
      rw [copy_good hF g1, Res.ok_bind, Res.bind_eq_ok] at h
      obtain ⟨s2, h2, h⟩ := h
      have g2 := hs s2 (List.mem_of_getElem? (at'_ok h2))
      rw [copy_good hF g2, Res.ok_bind, Res.bind_eq_ok] at h
      obtain ⟨⟨rest, r2⟩, h3, h⟩ := h
      simp only [Res.pure_eq, Res.ok.injEq, Prod.mk.injEq] at h
      obtain ⟨rfl, rfl⟩ := h
      obtain ⟨l, q⟩ := ih _ _ _ _ _ h3
      refine ⟨by simp [l]; omega, ?_⟩
      intro j hj
      simp only [List.mem_cons] at hj
      rcases hj with rfl | rfl | hj
      · exact g1
      · exact g2
      · exact q j hj
    · rw [Res.bind_eq_ok] at h
      obtain ⟨⟨a, b, r1⟩, h1, h⟩ := h
      rw [Res.bind_eq_ok] at h
      obtain ⟨⟨rest, r2⟩, h3, h⟩ := h
      simp only [Res.pure_eq, Res.ok.injEq, Prod.mk.injEq] at h
      obtain ⟨rfl, rfl⟩ := h
      obtain ⟨l, q⟩ := ih _ _ _ _ _ h3
      obtain ⟨c1, c2, _⟩ := crossPair_good hF hg _ _ _ _ _ h1
      refine ⟨by simp [l]; omega, ?_⟩
      intro j hj
      simp only [List.mem_cons] at hj
      rcases hj with rfl | rfl | hj
      · exact c1
      · exact c2
      · exact q j hj

/-- The elite of the next generation: the first `min elitism pairs` pairs are the first individuals of the sorted population. -/
theorem nextPairs_elite (hF : Family Fam s) {elitism : Int} {fuel : Nat} {total : R} {pop sorted : List (Indiv P R)}
    (hs : ∀ i ∈ sorted, Good Fam s i) :
    ∀ (n i : Nat) (ready : Int) (rng : Rng) (out : List (Indiv P R)) (rng' : Rng),
    nextPairs elitism fuel total pop sorted n i ready rng = .ok (out, rng') →
    ∀ m : Nat, m < 2 * n → ready + (m / 2 : Nat) < elitism → out[m]? = sorted[i + m]? := by
  intro n
  induction n with
  | zero => intro i ready rng out rng' _ m hm; omega
  | succ n ih =>
    intro i ready rng out rng' h m hm he
    unfold nextPairs at h
    rw [if_pos (by omega)] at h
    rw [Res.bind_eq_ok] at h
    obtain ⟨s1, h1, h⟩ := h
    have g1 := hs s1 (List.mem_of_getElem? (at'_ok h1))
    rw [copy_good hF g1, Res.ok_bind, Res.bind_eq_ok] at h
    obtain ⟨s2, h2, h⟩ := h
    have g2 := hs s2 (List.mem_of_getElem? (at'_ok h2))
    rw [copy_good hF g2, Res.ok_bind, Res.bind_eq_ok] at h
    obtain ⟨⟨rest, r2⟩, h3, h⟩ := h
    simp only [Res.pure_eq, Res.ok.injEq, Prod.mk.injEq] at h
    obtain ⟨rfl, rfl⟩ := h
    match m with
    | 0 => simpa using (at'_ok h1).symm
    | 1 => simpa using (at'_ok h2).symm
    | m + 2 =>
      have := ih _ _ _ _ _ h3 m (by omega) (by omega)
      simp only [List.getElem?_cons_succ]
      rw [this]
      congr 1
      omega

theorem mutateAll_good (hF : Family Fam s) {m : MutatorI Mu} (hm : KeepsLength m) (fuel : Nat) :
    ∀ (pop : List (Indiv P R)) (mu : Mu) (rng : Rng) (out : List (Indiv P R)) (mu' : Mu) (rng' : Rng), (∀ i ∈ pop, Good Fam s i) →
    mutateAll m fuel pop mu rng = .ok (out, mu', rng') →
    out.length = pop.length ∧ ∀ j ∈ out, Good Fam s j ∧ Decoded Fam j ∧ Valid j := by
  intro pop
  induction pop with
  | nil =>
    intro mu rng out mu' rng' _ h
    simp only [mutateAll, Res.ok.injEq, Prod.mk.injEq] at h
    obtain ⟨rfl, _⟩ := h
    simp
  | cons i is ih =>
    intro mu rng out mu' rng' hg h
    unfold mutateAll at h
    rw [Res.bind_eq_ok] at h
    obtain ⟨⟨j, n, mu1, r1⟩, h1, h⟩ := h
    rw [Res.bind_eq_ok] at h
    obtain ⟨⟨js, mu2, r2⟩, h2, h⟩ := h
    simp only [Res.pure_eq, Res.ok.injEq, Prod.mk.injEq] at h
    obtain ⟨rfl, _⟩ := h
    obtain ⟨l, q⟩ := ih _ _ _ _ _ (fun x hx => hg x (List.mem_cons_of_mem _ hx)) h2
    have gj := mutate_good hF hm fuel (hg i List.mem_cons_self) h1
    refine ⟨by simp [l], ?_⟩
    intro x hx
    simp only [List.mem_cons] at hx
    rcases hx with rfl | hx
    · exact ⟨gj.1, gj.2.1, gj.2.2.1⟩
    · exact q x hx

theorem bestOf_spec : ∀ (is : List (Indiv P R)) (b r : Indiv P R), bestOf b is = .ok r → b.hasFitness = true →
    (∀ i ∈ is, i.hasFitness = true) →
    (r = b ∨ r ∈ is) ∧ b.fitness ≤ r.fitness ∧ ∀ i ∈ is, i.fitness ≤ r.fitness
  | [], b, r, h, _, _ => by
    simp only [bestOf, Res.ok.injEq] at h
    subst h
    simp
  | i :: is, b, r, h, hb, hi => by
    have h1 : i.hasFitness = true := hi i List.mem_cons_self
    unfold bestOf at h
    simp only [getFitness, hb, h1, if_true, Res.ok_bind] at h
    obtain ⟨a1, a2, a3⟩ := bestOf_spec is _ r h (by split <;> assumption) (fun x hx => hi x (List.mem_cons_of_mem _ hx))
    split at a1
    · next hlt =>
      rw [if_pos hlt] at a2
      refine ⟨.inr ?_, hlt.le.trans a2, ?_⟩
      · rcases a1 with rfl | a1
        · exact List.mem_cons_self
        · exact List.mem_cons_of_mem _ a1
      · intro x hx
        simp only [List.mem_cons] at hx
        rcases hx with rfl | hx
        · exact a2
        · exact a3 x hx
    · next hlt =>
      rw [if_neg hlt] at a2
      refine ⟨?_, a2, ?_⟩
      · rcases a1 with rfl | a1
        · exact .inl rfl
        · exact .inr (List.mem_cons_of_mem _ a1)
      · intro x hx
        simp only [List.mem_cons] at hx
        rcases hx with rfl | hx
        · exact (not_lt.1 hlt).trans a2
        · exact a3 x hx

theorem updateBest_spec {best r : Indiv P R} {pop : List (Indiv P R)} (h : updateBest best pop = .ok r)
    (hp : ∀ i ∈ pop, i.hasFitness = true) :
    r.hasFitness = true ∧ (r ∈ pop ∨ (best.hasFitness = true ∧ r = best)) ∧
    (∀ i ∈ pop, i.fitness ≤ r.fitness) ∧ (best.hasFitness = true → best.fitness ≤ r.fitness) := by
  cases pop with
  | nil => simp [updateBest] at h
  | cons i is =>
    have hi : i.hasFitness = true := hp i List.mem_cons_self
    unfold updateBest at h
    rw [Res.bind_eq_ok] at h
    obtain ⟨b, hb, h⟩ := h
    obtain ⟨a1, a2, a3⟩ := bestOf_spec is i b hb hi (fun x hx => hp x (List.mem_cons_of_mem _ hx))
    have hbm : b ∈ i :: is := by
      rcases a1 with rfl | a1
      · exact List.mem_cons_self
      · exact List.mem_cons_of_mem _ a1
    have hall : ∀ x ∈ i :: is, x.fitness ≤ b.fitness := by
      intro x hx
      simp only [List.mem_cons] at hx
      rcases hx with rfl | hx
      · exact a2
      · exact a3 x hx
    have hbf := hp b hbm
    cases hbest : best.hasFitness with
    | false =>
      simp only [hbest, Bool.not_false, if_true, Res.pure_eq, Res.ok.injEq] at h
      subst h
      exact ⟨hbf, .inl hbm, hall, by simp⟩
    | true =>
      simp only [hbest, Bool.not_true, Bool.false_eq_true, if_false, getFitness, if_true, hbf, Res.ok_bind, Res.pure_eq,
        Res.ok.injEq] at h
      split at h
      · next hlt =>
        subst h
        exact ⟨hbf, .inl hbm, hall, fun _ => hlt.le⟩
      · next hlt =>
        subst h
        exact ⟨hbest, .inr ⟨rfl, rfl⟩, fun x hx => (hall x hx).trans (not_lt.1 hlt), fun _ => le_rfl⟩

theorem forall₂_mem_right {α β : Type} {r : α → β → Prop} {l : List α} {m : List β} (h : List.Forall₂ r l m) {y : β} (hy : y ∈ m) :
    ∃ x ∈ l, r x y := by
  induction h with
  | nil => simp at hy
  | cons hr _ ih =>
    simp only [List.mem_cons] at hy
    rcases hy with rfl | hy
    · exact ⟨_, List.mem_cons_self, hr⟩
    · obtain ⟨x, hx, q⟩ := ih hy
      exact ⟨x, List.mem_cons_of_mem _ hx, q⟩

/-- The counter only knows values of the objective function: every known value is `f` of what some chromosome of `S` with that hash
decodes to. -/
def Justified (Fam : P → Prop) (hash : List Bool → Nat) (f : P → R) (S : List Bool → Prop) (c : Counter R) : Prop :=
  ∀ k v, c.known k = some v → ∃ chr q, S chr ∧ hash chr = k ∧ (∀ p, Fam p → DiscreteParams.setFrom p chr = (q, .ok ())) ∧ v = f q

/-- All chromosomes of a list of generations. -/
def ChromsOf (gens : List (List (Indiv P R))) (chr : List Bool) : Prop := ∃ g ∈ gens, ∃ i ∈ g, i.chrom = chr

/-- Different chromosomes of the set have different hashes. -/
def NoCollision (hash : List Bool → Nat) (S : List Bool → Prop) : Prop := ∀ a b, S a → S b → hash a = hash b → a = b

/-- Everything the main loop guarantees, for one call of `iterate`. -/
theorem iterate_spec (hF : Family Fam s) (cfg : Config P R Mu) (hsort : ∀ l, (cfg.sort l).Perm l) (hm : KeepsLength cfg.mutator)
    (heven : cfg.popSize % 2 = 0) (fuel : Nat) (f : P → R) :
    ∀ (k : Nat) (n : Int) (c : Counter R) (pop : List (Indiv P R)) (best : Indiv P R) (mu : Mu) (rng : Rng)
      (tr : List (List (Indiv P R))) (c' : Counter R) (best' : Indiv P R) (mu' : Mu) (rng' : Rng),
    iterate cfg fuel f k n c pop best mu rng = .ok (tr, c', best', mu', rng') →
    pop.length = cfg.popSize → (∀ i ∈ pop, Good Fam s i) → c.WF →
    c'.WF ∧ tr.length ≤ k ∧ (0 < k → tr ≠ []) ∧
    (∀ g ∈ tr, g.length = cfg.popSize ∧ ∀ i ∈ g, Good Fam s i ∧ i.hasFitness = true) ∧
    (∀ g ∈ tr.head?, List.Forall₂ SameBut pop g) ∧
    (∀ g ∈ tr.tail, ∀ i ∈ g, Valid i ∧ Decoded Fam i) ∧
    (∀ g ∈ tr, ∀ i ∈ g, i.fitness ≤ best'.fitness) ∧ (0 < k → best'.hasFitness = true) ∧
    ((∃ g ∈ tr, best' ∈ g) ∨ best' = best) ∧
    (best.hasFitness = true → best.fitness ≤ best'.fitness) ∧ (best.hasFitness = false → 0 < k → ∃ g ∈ tr, best' ∈ g) ∧
    (0 < tr.length → tr.length < k → cfg.stop ≤ best'.fitness) ∧
    (∀ g ∈ tr.dropLast, ∀ i ∈ g, i.fitness < cfg.stop) ∧
    (∀ S : List Bool → Prop, (∀ chr, ChromsOf tr chr → S chr) → NoCollision cfg.hash S → Justified Fam cfg.hash f S c →
      (∀ i ∈ pop, Decoded Fam i) →
      Justified Fam cfg.hash f S c' ∧ ∀ g ∈ tr, ∀ i ∈ g, ∃ p, i.params = some p ∧ i.fitness = f p) := by
  intro k
  induction k with
  | zero =>
    intro n c pop best mu rng tr c' best' mu' rng' h _ _ hw
    simp only [iterate, Res.ok.injEq, Prod.mk.injEq] at h
    obtain ⟨rfl, rfl, rfl, _⟩ := h
    refine ⟨hw, by simp, by simp, by simp, by simp, by simp, by simp, by simp, .inr rfl, fun _ => le_rfl, by simp, by simp, by simp, ?_⟩
    intro S _ _ hj _
    exact ⟨hj, by simp⟩
  | succ k ih =>
    intro n c pop best mu rng tr c' best' mu' rng' h hlen hgood hw
    unfold iterate at h
    rw [Res.bind_eq_ok] at h
    obtain ⟨⟨c1, ev⟩, h1, h⟩ := h
    rw [Res.bind_eq_ok] at h
    obtain ⟨b1, h2, h⟩ := h
    simp only at h
    rw [Res.bind_eq_ok] at h
    obtain ⟨x, h3, h⟩ := h
    obtain ⟨e1, e2, e3, e4⟩ := obtainFitness_spec hw h1
    have hevl : ev.length = pop.length := (e1.length_eq).symm
    have hsame : List.Forall₂ SameBut pop ev := e1.imp (fun _ _ q => (Evaluated.same q).1)
    have hev : ∀ i ∈ ev, Good Fam s i ∧ i.hasFitness = true := by
      intro i hi
      obtain ⟨p, hp, q⟩ := forall₂_mem_right e1 hi
      exact ⟨(Evaluated.same q).1.good (hgood p hp), (Evaluated.same q).2.1⟩
    obtain ⟨u1, u2, u3, u4⟩ := updateBest_spec h2 (fun i hi => (hev i hi).2)
    have hx : x = b1.fitness := by
      simp only [getFitness, u1, if_true, Res.ok.injEq] at h3
      exact h3.symm
    -- the first generation is evaluated correctly
    have hjust : ∀ S : List Bool → Prop, (∀ i ∈ ev, S i.chrom) → NoCollision cfg.hash S → Justified Fam cfg.hash f S c →
        (∀ i ∈ pop, Decoded Fam i) →
        Justified Fam cfg.hash f S c1 ∧ ∀ i ∈ ev, ∃ p, i.params = some p ∧ i.fitness = f p := by
      intro S hS hnc hj hd
      have hval : ∀ j ∈ ev, ∃ p, j.params = some p ∧ j.fitness = f p := by
        intro j hjm
        obtain ⟨i, hi, ei⟩ := forall₂_mem_right e1 hjm
        obtain ⟨q, dq1, dq2⟩ := hd i hi
        have hsj := (Evaluated.same ei).1
        obtain ⟨_, v, _, hje, hv⟩ := ei
        cases hk : c.known (cfg.hash i.chrom) with
        | none =>
          rw [hk] at hv
          obtain ⟨p, hp, hv⟩ := hv
          exact ⟨p, by rw [hsj.2.1, hp], by rw [hje, ← hv]⟩
        | some w =>
          rw [hk] at hv
          obtain ⟨chr, q', s1, s2, s3, s4⟩ := hj _ _ hk
          have hic : S i.chrom := by rw [← hsj.2.2]; exact hS j hjm
          have : chr = i.chrom := hnc _ _ s1 hic s2
          subst this
          obtain ⟨⟨_, ⟨p0, _, fp0⟩, _⟩, _⟩ := hev j hjm
          have e := s3 p0 fp0
          rw [dq2 p0 fp0] at e
          simp only [Prod.mk.injEq, and_true] at e
          refine ⟨q, by rw [hsj.2.1, dq1], ?_⟩
          rw [hje]
          simp only
          rw [hv, s4, e]
      refine ⟨?_, hval⟩
      intro key v hk
      rcases e4 key v hk with hk | ⟨j, hjm, p, q1, q2, q3, q4⟩
      · exact hj key v hk
      · obtain ⟨i, hi, ei⟩ := forall₂_mem_right e1 hjm
        have dj := (Evaluated.same ei).1.decoded (hd i hi)
        obtain ⟨q, d1, d2⟩ := dj
        rw [q1] at d1
        simp only [Option.some.injEq] at d1
        subst d1
        exact ⟨j.chrom, p, hS j hjm, q2, d2, q4⟩
    split at h
    · next hstop =>
      simp only [Res.pure_eq, Res.ok.injEq, Prod.mk.injEq] at h
      obtain ⟨rfl, rfl, rfl, _⟩ := h
      refine ⟨fun st hst => e2 st hst, by simp, by simp, ?_, ?_, by simp, ?_, fun _ => u1, ?_, u4, ?_, ?_, by simp, ?_⟩
      · intro g hg
        simp only [List.mem_singleton] at hg
        subst hg
        exact ⟨by rw [hevl, hlen], hev⟩
      · intro g hg
        simp only [List.head?_cons, Option.mem_def, Option.some.injEq] at hg
        subst hg; exact hsame
      · intro g hg
        simp only [List.mem_singleton] at hg
        subst hg
        exact u3
      · rcases u2 with u2 | u2
        · exact .inl ⟨_, List.mem_singleton_self _, u2⟩
        · exact .inr u2.2
      · intro hb _
        rcases u2 with u2 | u2
        · exact ⟨_, List.mem_singleton_self _, u2⟩
        · rw [hb] at u2; simp at u2
      · intro _ _
        rw [← hx]; exact hstop
      · intro S hS hnc hj hd
        obtain ⟨j1, j2⟩ := hjust S (fun i hi => hS _ ⟨_, List.mem_singleton_self _, i, hi, rfl⟩) hnc hj hd
        refine ⟨fun key v hv => j1 key v hv, ?_⟩
        intro g hg
        simp only [List.mem_singleton] at hg
        subst hg
        exact j2
    · next hstop =>
      rw [Res.bind_eq_ok] at h
      obtain ⟨⟨nx, r1⟩, h4, h⟩ := h
      rw [Res.bind_eq_ok] at h
      obtain ⟨⟨mpop, mu1, r2⟩, h5, h⟩ := h
      rw [Res.bind_eq_ok] at h
      obtain ⟨⟨tr', c2, b2, mu2, r3⟩, h6, h⟩ := h
      simp only [Res.pure_eq, Res.ok.injEq, Prod.mk.injEq] at h
      obtain ⟨rfl, rfl, rfl, rfl, rfl⟩ := h
      have hnx : nx.length = cfg.popSize ∧ ∀ j ∈ nx, Good Fam s j := by
        unfold nextPopulation at h4
        rw [Res.bind_eq_ok] at h4
        obtain ⟨t, _, h4⟩ := h4
        obtain ⟨l, q⟩ := nextPairs_good hF (fun i hi => (hev i hi).1)
          (fun i hi => (hev i ((hsort ev).mem_iff.1 hi)).1) _ _ _ _ _ _ h4
        exact ⟨by omega, q⟩
      obtain ⟨ml, mg⟩ := mutateAll_good hF hm fuel _ _ _ _ _ _ hnx.2 h5
      obtain ⟨i1, i2, i3, i4, i5, i6, i7, i8, i9, i10, i11, i12, i13, i14⟩ := ih _ _ _ _ _ _ _ _ _ _ _ h6 (by rw [ml, hnx.1])
        (fun i hi => (mg i hi).1) (fun st hst => e2 st hst)
      have hb12 := i10 u1
      refine ⟨i1, by simp; omega, by simp, ?_, ?_, ?_, ?_, ?_, ?_, fun hb => (u4 hb).trans hb12, ?_, ?_, ?_, ?_⟩
      · intro g hg
        simp only [List.mem_cons] at hg
        rcases hg with rfl | hg
        · exact ⟨by rw [hevl, hlen], hev⟩
        · exact i4 g hg
      · intro g hg
        simp only [List.head?_cons, Option.mem_def, Option.some.injEq] at hg
        subst hg; exact hsame
      · intro g hg i hi
        simp only [List.tail_cons] at hg
        cases tr' with
        | nil => simp at hg
        | cons g0 t =>
          simp only [List.mem_cons] at hg
          rcases hg with rfl | hg
          · have hs0 := i5 g (by simp)
            obtain ⟨y, hy, sy⟩ := forall₂_mem_right hs0 hi
            obtain ⟨_, d, v⟩ := mg y hy
            exact ⟨sy.valid v, sy.decoded d⟩
          · exact i6 g (by simpa using hg) i hi
      · intro g hg i hi
        simp only [List.mem_cons] at hg
        rcases hg with rfl | hg
        · exact (u3 i hi).trans hb12
        · exact i7 g hg i hi
      · intro _
        rcases i9 with ⟨g, hg, hb⟩ | rfl
        · exact ((i4 g hg).2 _ hb).2
        · exact u1
      · rcases i9 with ⟨g, hg, hb⟩ | rfl
        · exact .inl ⟨g, List.mem_cons_of_mem _ hg, hb⟩
        · rcases u2 with u2 | u2
          · exact .inl ⟨_, List.mem_cons_self, u2⟩
          · exact .inr u2.2
      · intro hb _
        rcases i9 with ⟨g, hg, hb⟩ | rfl
        · exact ⟨g, List.mem_cons_of_mem _ hg, hb⟩
        · rcases u2 with u2 | u2
          · exact ⟨_, List.mem_cons_self, u2⟩
          · rw [hb] at u2; simp at u2
      · intro _ hlt
        simp only [List.length_cons] at hlt
        have hk : 0 < k := by omega
        have hne := i3 hk
        exact i12 (List.length_pos_of_ne_nil hne) (by omega)
      · intro g hg i hi
        have hev' : ∀ i ∈ ev, i.fitness < cfg.stop := by
          intro i hi
          have := u3 i hi
          rw [hx] at hstop
          exact lt_of_le_of_lt this (not_le.1 hstop)
        cases tr' with
        | nil => simp at hg
        | cons g0 t =>
          rw [List.dropLast_cons_of_ne_nil (by simp)] at hg
          simp only [List.mem_cons] at hg
          rcases hg with rfl | hg
          · exact hev' i hi
          · exact i13 g hg i hi
      · intro S hS hnc hj hd
        obtain ⟨j1, j2⟩ := hjust S (fun i hi => hS _ ⟨_, List.mem_cons_self, i, hi, rfl⟩) hnc hj hd
        obtain ⟨j3, j4⟩ := i14 S (fun chr ⟨g, hg, q⟩ => hS chr ⟨g, List.mem_cons_of_mem _ hg, q⟩) hnc (fun key v hv => j1 key v hv)
          (fun i hi => (mg i hi).2.1)
        refine ⟨j3, ?_⟩
        intro g hg
        simp only [List.mem_cons] at hg
        rcases hg with rfl | hg
        · exact j2
        · exact j4 g hg

end K52.GA
