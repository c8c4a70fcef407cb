import Verif.Model.Individual
import Verif.Props.Mutator

/-! # Properties C17, C18 (single individuals): crossover, random initialisation, mutation -/

set_option linter.unusedSectionVars false

namespace K52.Indiv
open K52.Random (Lib rand)

variable {P R Mu : Type} [DiscreteParams P] [Add R] [Sub R] [Mul R] [Div R] [Zero R] [One R] [NatCast R] [LinearOrder R]

/-! ### C17 -/

theorem crossAt_spec : ∀ (n : Nat) (as bs : List Bool), as.length = bs.length →
    crossAt n as bs = (as.take n ++ bs.drop n, bs.take n ++ as.drop n)
  | 0, [], [], _ => rfl
  | n + 1, [], [], _ => rfl
  | 0, a :: as, b :: bs, h => by
    have ih := crossAt_spec 0 as bs (by simpa using h)
    simp only [crossAt, ih]
    cases a <;> cases b <;> simp [crossBit]
  | n + 1, a :: as, b :: bs, h => by
    have ih := crossAt_spec n as bs (by simpa using h)
    simp [crossAt, ih]
  | _, [], b :: bs, h => by simp at h
  | _, a :: as, [], h => by simp at h

/-- **C17 (exchange).** Crossing two chromosomes of the same length `n` (1 ≤ n, fitting an `int`) picks the point
`rand() mod n` and exchanges exactly the tails from there on: heads are kept, no bit is lost or invented.
Different lengths throw; two empty chromosomes divide by zero. -/
theorem C17_crossover (rng : Rng) (a b : List Bool) :
    (a.length ≠ b.length → (boolCrossover rng a b).threw) ∧
    (a.length = b.length → a.length = 0 → boolCrossover rng a b = .ub) ∧
    (a.length = b.length → 1 ≤ a.length → a.length ≤ 2147483647 →
      ∃ k, k = (rand rng.lib).1 % a.length ∧ k < a.length ∧
        boolCrossover rng a b = .ok (a.take k ++ b.drop k, b.take k ++ a.drop k, { rng with lib := (rand rng.lib).2 })) := by
  refine ⟨fun h => by simp [boolCrossover, h], fun h h0 => ?_, fun h h1 h2 => ?_⟩
  · have : Random.discrete rng.lib 0 (-1) = .ub := Random.C36_discrete_empty_ub rng.lib 0 (by norm_num)
    have e : int32 ((a.length : Int) - 1) = .ok (-1) := by rw [h0]; rfl
    unfold boolCrossover
    rw [if_neg (by simpa using h), e, Res.ok_bind, this]
    rfl
  · refine ⟨_, rfl, Nat.mod_lt _ (by omega), ?_⟩
    have e : int32 ((a.length : Int) - 1) = .ok ((a.length : Int) - 1) := if_pos (by omega)
    have e1 : int32 ((a.length : Int) - 1 - 0) = .ok ((a.length : Int) - 1) := by
      rw [Int.sub_zero]; exact e
    have e2 : int32 ((a.length : Int) - 1 + 1) = .ok (a.length : Int) := by
      rw [Int.sub_add_cancel]; exact if_pos (by omega)
    have t : Int.tmod ((rand rng.lib).1 : Int) (a.length : Int) = (((rand rng.lib).1 % a.length : Nat) : Int) := by
      rw [Int.tmod_eq_emod_of_nonneg (by omega)]; rfl
    have hlt : (rand rng.lib).1 % a.length < a.length := Nat.mod_lt _ (by omega)
    have e3 : int32 (Int.tmod ((rand rng.lib).1 : Int) (a.length : Int) + 0) = .ok (((rand rng.lib).1 % a.length : Nat) : Int) := by
      rw [t, Int.add_zero]; exact if_pos (by omega)
    have hd : Random.discrete rng.lib 0 ((a.length : Int) - 1) = .ok ((((rand rng.lib).1 % a.length : Nat) : Int), (rand rng.lib).2) := by
      unfold Random.discrete
      rw [e1, Res.ok_bind, e2, Res.ok_bind, if_neg (by omega), e3]
      rfl
    unfold boolCrossover
    rw [if_neg (by simpa using h), e, Res.ok_bind, hd, Res.ok_bind]
    simp only [Int.toNat_natCast, crossAt_spec _ a b h]
    rfl

/-- **C17 (pointwise).** At every position the two children together hold the two parents' bits: kept before the point,
exchanged from the point on; lengths are unchanged. -/
theorem C17_pointwise (rng : Rng) (a b a' b' : List Bool) (rng' : Rng) (h : boolCrossover rng a b = .ok (a', b', rng')) :
    a'.length = a.length ∧ b'.length = b.length ∧ a.length = b.length ∧
    ∃ k, k ≤ a.length ∧ ∀ i, (i < k → a'[i]? = a[i]? ∧ b'[i]? = b[i]?) ∧ (k ≤ i → a'[i]? = b[i]? ∧ b'[i]? = a[i]?) := by
  by_cases hl : a.length = b.length
  · by_cases h0 : a.length = 0
    · rw [(C17_crossover rng a b).2.1 hl h0] at h; simp at h
    · by_cases h2 : a.length ≤ 2147483647
      · obtain ⟨k, _, hk, e⟩ := (C17_crossover rng a b).2.2 hl (by omega) h2
        rw [e] at h
        simp only [Res.ok.injEq, Prod.mk.injEq] at h
        obtain ⟨rfl, rfl, rfl⟩ := h
        refine ⟨by simp; omega, by simp; omega, hl, k, hk.le, fun i => ⟨fun hi => ?_, fun hi => ?_⟩⟩
        · constructor
          · rw [List.getElem?_append_left (by simp; omega), List.getElem?_take_of_lt hi]
          · rw [List.getElem?_append_left (by simp; omega), List.getElem?_take_of_lt hi]
        · constructor
          · rw [List.getElem?_append_right (by simp; omega), List.getElem?_drop]
            congr 1; simp; omega
          · rw [List.getElem?_append_right (by simp; omega), List.getElem?_drop]
            congr 1; simp; omega
      · have e : int32 ((a.length : Int) - 1) = .ub ∨ (a.length : Int) - 1 = 2147483647 := by
          by_cases q : (a.length : Int) - 1 = 2147483647
          · exact .inr q
          · exact .inl (if_neg (by omega))
        unfold boolCrossover at h
        rw [if_neg (by simpa using hl)] at h
        rcases e with e | e
        · rw [e] at h; simp at h
        · have e' : int32 ((a.length : Int) - 1) = .ok 2147483647 := by rw [e]; rfl
          rw [e', Res.ok_bind] at h
          have : Random.discrete rng.lib 0 2147483647 = .ub := rfl
          rw [this] at h; simp at h
  · have := (C17_crossover rng a b).1 hl
    rw [h] at this; exact absurd this id

/-- Test: crossing 1010 and 0110 at point 1. -/
example : crossAt 1 [true, false, true, false] [false, true, true, false] =
    ([true, true, true, false], [false, false, true, false]) := rfl

/-! ### C18 for one individual -/

/-- The individual's parameters satisfy their constraints. -/
def Valid (i : Indiv P R) : Prop := i.init = true ∧ ∃ p, i.params = some p ∧ DiscreteParams.check p = .ok true

/-- The individual's parameters are what its chromosome decodes to. -/
def Synced (i : Indiv P R) : Prop :=
  ∃ p q, i.params = some q ∧ DiscreteParams.setFrom p i.chrom = (q, .ok ())

theorem setParams_ok {i j : Indiv P R} (h : i.setParams = .ok j) :
    i.init = true ∧ ∃ p q, i.params = some p ∧ DiscreteParams.setFrom p i.chrom = (q, .ok ()) ∧ j = { i with params := some q } := by
  unfold setParams at h
  cases hi : i.init with
  | false => rw [hi] at h; simp at h
  | true =>
    rw [hi] at h
    simp only [if_true] at h
    cases hp : i.params with
    | none => rw [hp] at h; simp at h
    | some p =>
      rw [hp] at h
      simp only at h
      refine ⟨rfl, p, ?_⟩
      split at h
      · next q e =>
        simp only [Res.ok.injEq] at h
        exact ⟨q, rfl, e, h.symm⟩
      · simp at h
      · simp at h

theorem setParams_synced {i j : Indiv P R} (h : i.setParams = .ok j) : Synced j ∧ j.init = true ∧ j.chrom = i.chrom ∧
    j.hasFitness = i.hasFitness ∧ j.fitness = i.fitness := by
  obtain ⟨hi, p, q, hp, e, rfl⟩ := setParams_ok h
  exact ⟨⟨p, q, rfl, e⟩, hi, rfl, rfl, rfl⟩

theorem valid_of_check {j : Indiv P R} (hi : j.init = true) (h : j.checkParams = .ok true) : Valid j := by
  unfold checkParams at h
  cases hp : j.params with
  | none => rw [hp] at h; simp at h
  | some p => rw [hp] at h; exact ⟨hi, p, hp, h⟩

/-- **C18 (random initialisation).** For every stream of random bits: if `SetRandomChromosome` returns, the individual satisfies its
constraints, its parameters are the decoding of its chromosome, the chromosome's length is unchanged and the fitness is reset. -/
theorem C18_random (fuel : Nat) (i j : Indiv P R) (rng rng' : Rng) (n : Nat) (h : setRandom fuel i rng = .ok (j, n, rng')) :
    Valid j ∧ Synced j ∧ j.chrom.length = i.chrom.length ∧ j.hasFitness = false := by
  unfold setRandom at h
  split at h
  · revert h
    generalize 0 = m
    intro h
    induction fuel generalizing i rng m with
    | zero => simp [randomLoop, outOfFuel] at h
    | succ fuel ih =>
      unfold randomLoop at h
      simp only at h
      rw [Res.bind_eq_ok] at h
      obtain ⟨k, hk, h⟩ := h
      rw [Res.bind_eq_ok] at h
      obtain ⟨b, hb, h⟩ := h
      obtain ⟨s1, s2, s3, s4, s5⟩ := setParams_synced hk
      cases b with
      | true =>
        simp only [if_true, Res.pure_eq, Res.ok.injEq, Prod.mk.injEq] at h
        obtain ⟨rfl, rfl, rfl⟩ := h
        exact ⟨valid_of_check s2 hb, s1, by rw [s3]; simp [Rng.takeBools], s4⟩
      | false =>
        simp only [Bool.false_eq_true, if_false] at h
        obtain ⟨a1, a2, a3, a4⟩ := ih k _ s2 _ h
        exact ⟨a1, a2, by rw [a3, s3]; simp [Rng.takeBools], a4⟩
  · simp at h

/-- A mutator that keeps the chromosome's length (both mutators of the library do, `C38_only_flips`). -/
def KeepsLength (m : MutatorI Mu) : Prop :=
  ∀ mu l chr out mu' l', m.mutate mu l chr = .ok (out, mu', l') → out.length = chr.length

/-- **C18 (mutation).** For every mutator and stream: if `Mutate` returns, the individual satisfies its constraints and its parameters
are the decoding of its chromosome. -/
theorem C18_mutate (m : MutatorI Mu) (hm : KeepsLength m) (fuel : Nat) (i j : Indiv P R) (mu mu' : Mu) (rng rng' : Rng) (n : Nat)
    (h : mutate m fuel i mu rng = .ok (j, n, mu', rng')) :
    Valid j ∧ Synced j ∧ j.chrom.length = i.chrom.length ∧ j.hasFitness = false := by
  unfold mutate at h
  split at h
  · revert h
    generalize 0 = c
    intro h
    induction fuel generalizing i mu rng c with
    | zero => simp [mutateLoop, outOfFuel] at h
    | succ fuel ih =>
      unfold mutateLoop at h
      rw [Res.bind_eq_ok] at h
      obtain ⟨⟨o, mu1, l1⟩, hd, h⟩ := h
      have hlen := hm _ _ _ _ _ _ hd
      simp only at h
      rw [Res.bind_eq_ok] at h
      obtain ⟨k, hk, h⟩ := h
      rw [Res.bind_eq_ok] at h
      obtain ⟨b, hb, h⟩ := h
      obtain ⟨s1, s2, s3, s4, s5⟩ := setParams_synced hk
      cases b with
      | true =>
        simp only [if_true, Res.pure_eq, Res.ok.injEq, Prod.mk.injEq] at h
        obtain ⟨rfl, rfl, rfl, rfl⟩ := h
        exact ⟨valid_of_check s2 hb, s1, by rw [s3]; exact hlen, s4⟩
      | false =>
        simp only [Bool.false_eq_true, if_false] at h
        obtain ⟨a1, a2, a3, a4⟩ := ih k _ _ s2 _ h
        exact ⟨a1, a2, by rw [a3, s3]; exact hlen, a4⟩
  · simp at h

/-- **C18 (crossover).** If `Crossover` returns, both children are synchronised with their exchanged chromosomes, and it returns
`true` exactly when both satisfy their constraints (the check of the second is skipped when the first fails). -/
theorem C18_crossover (a b a' b' : Indiv P R) (rng rng' : Rng) (ok : Bool) (h : crossover a b rng = .ok (ok, a', b', rng')) :
    Synced a' ∧ Synced b' ∧ a'.hasFitness = false ∧ b'.hasFitness = false ∧
    boolCrossover rng a.chrom b.chrom = .ok (a'.chrom, b'.chrom, rng') ∧
    (ok = true → Valid a' ∧ Valid b') ∧
    (ok = false → a'.checkParams = .ok false ∨ b'.checkParams = .ok false) := by
  unfold crossover at h
  split at h
  · rw [Res.bind_eq_ok] at h
    obtain ⟨⟨c1, c2, c3⟩, hc, h⟩ := h
    rw [Res.bind_eq_ok] at h
    obtain ⟨x, hx, h⟩ := h
    rw [Res.bind_eq_ok] at h
    obtain ⟨y, hy, h⟩ := h
    rw [Res.bind_eq_ok] at h
    obtain ⟨bx, hbx, h⟩ := h
    obtain ⟨s1, s2, s3, s4, s5⟩ := setParams_synced hx
    obtain ⟨t1, t2, t3, t4, t5⟩ := setParams_synced hy
    cases bx with
    | false =>
      simp only [Bool.not_false, if_true, Res.pure_eq, Res.ok.injEq, Prod.mk.injEq] at h
      obtain ⟨rfl, rfl, rfl, rfl⟩ := h
      exact ⟨s1, t1, s4, t4, by rw [hc, s3, t3], by simp, fun _ => .inl hbx⟩
    | true =>
      simp only [Bool.not_true, Bool.false_eq_true, if_false] at h
      rw [Res.bind_eq_ok] at h
      obtain ⟨cb, hcb, h⟩ := h
      simp only [Res.pure_eq, Res.ok.injEq, Prod.mk.injEq] at h
      obtain ⟨rfl, rfl, rfl, rfl⟩ := h
      refine ⟨s1, t1, s4, t4, by rw [hc, s3, t3], fun hh => ?_, fun hh => .inr (by rw [hcb, hh])⟩
      subst hh
      exact ⟨valid_of_check s2 hbx, valid_of_check t2 hcb⟩
  · simp at h

/-- The library's mutators, as `IMutator` objects. -/
def ofGenes {S : Type} (g : Mutator.Genes S) (apply : S → Mutator.Context → S) : MutatorI S :=
  ⟨apply, fun s l chr => Mutator.mutateChromosome g s l chr⟩

theorem ofGenes_keepsLength {S : Type} (g : Mutator.Genes S) (apply : S → Mutator.Context → S) : KeepsLength (ofGenes g apply) :=
  fun _ _ _ _ _ _ h => (Mutator.C38_only_flips g _ _ _ _ _ _ h).1

end K52.Indiv
