import Verif.Model.Mutator
import Verif.Props.Random
import Mathlib.Tactic.FieldSimp

/-! # Property C38: mutation only flips bits, when the random events say so -/

set_option linter.unusedSectionVars false

namespace K52.Mutator
open K52.Random (Lib rand)

variable {R : Type} [Field R] [LinearOrder R] [IsStrictOrderedRing R] [FloorRing R]

/-- The chromosome `out` is `chr` with exactly the genes marked in `flips` inverted. -/
def FlippedAt (flips : List Bool) (chr out : List Bool) : Prop :=
  out = List.zipWith xor flips chr ∧ flips.length = chr.length

/-- **C38 (shape).** Whatever the mutator, a mutation that returns leaves a chromosome of the same length that differs from the old
one exactly at the genes the mutator decided to mutate. -/
theorem C38_only_flips {S : Type} (g : Genes S) (s : S) (l : Lib) (chr out : List Bool) (s' : S) (l' : Lib)
    (h : mutateChromosome g s l chr = .ok (out, s', l')) : out.length = chr.length ∧ ∃ flips, FlippedAt flips chr out := by
  induction chr generalizing s l out with
  | nil =>
    simp only [mutateChromosome, Res.ok.injEq, Prod.mk.injEq] at h
    obtain ⟨rfl, _⟩ := h
    exact ⟨rfl, [], rfl, rfl⟩
  | cons b bs ih =>
    unfold mutateChromosome at h
    rw [Res.bind_eq_ok] at h
    obtain ⟨m, hm, h⟩ := h
    rw [Res.bind_eq_ok] at h
    obtain ⟨a, ha, h⟩ := h
    rw [Res.bind_eq_ok] at h
    obtain ⟨⟨o, s1, l1⟩, hr, h⟩ := h
    simp only [Res.pure_eq, Res.ok.injEq, Prod.mk.injEq] at h
    obtain ⟨rfl, rfl, rfl⟩ := h
    obtain ⟨h1, fl, h2, h3⟩ := ih _ _ _ hr
    refine ⟨by simp [h1], m.1 :: fl, ?_, by simp [h3]⟩
    rw [List.zipWith_cons_cons, ← h2]
    cases m.1 <;> simp

/-! ### FlipBitMutator -/

/-- What the constructor establishes and every gene keeps. -/
def Flip.Inv (f : Flip) : Prop := 0 < f.maxSkip ∧ f.maxSkip ≤ 2147483646 ∧ 0 ≤ f.skipped ∧ f.skipped ≤ f.toSkip ∧ f.toSkip ≤ f.maxSkip

theorem Flip.set_inv (f : Flip) (l : Lib) (h1 : 0 < f.maxSkip) (h2 : f.maxSkip ≤ 2147483646) :
    ∃ f' l', f.setGensToSkip l = .ok (f', l') ∧ f'.Inv ∧ f'.maxSkip = f.maxSkip ∧ f'.skipped = 0 := by
  obtain ⟨v, l', e, a, b⟩ := Random.C36_discrete_range l 0 f.maxSkip ⟨by norm_num, by omega, by omega, by omega⟩
  refine ⟨{ f with toSkip := v, skipped := 0 }, l', ?_, ?_, rfl, rfl⟩
  · unfold Flip.setGensToSkip; rw [e]; rfl
  · exact ⟨h1, h2, le_refl _, a, b⟩

/-- Asked once per gene, in order, and told after each gene, the mutator decides `flips`. -/
inductive Decides {S : Type} (g : Genes S) : S → Lib → List Bool → S → Lib → Prop
  | nil (s l) : Decides g s l [] s l
  | cons {s l b l₁ s₂ l₂ bs s' l'} : g.should s l = .ok (b, l₁) → g.after s b l₁ = .ok (s₂, l₂) → Decides g s₂ l₂ bs s' l' →
      Decides g s l (b :: bs) s' l'

/-- **C38 (decisions).** A mutation returns exactly when the mutator decides about every gene without failing, and then inverts exactly the
genes it decided to mutate.  The decisions do not depend on the genes: any other chromosome of the same length is inverted at the same places. -/
theorem C38_decisions {S : Type} (g : Genes S) (s : S) (l : Lib) (chr out : List Bool) (s' : S) (l' : Lib) :
    mutateChromosome g s l chr = .ok (out, s', l') ↔ ∃ flips, Decides g s l flips s' l' ∧ FlippedAt flips chr out := by
  induction chr generalizing s l out with
  | nil =>
    simp only [mutateChromosome, Res.ok.injEq, Prod.mk.injEq]
    constructor
    · rintro ⟨rfl, rfl, rfl⟩
      exact ⟨[], .nil _ _, rfl, rfl⟩
    · rintro ⟨flips, hd, ho, hl⟩
      cases flips with
      | cons => simp at hl
      | nil => cases hd; exact ⟨ho.symm, rfl, rfl⟩
  | cons b bs ih =>
    unfold mutateChromosome
    constructor
    · intro h
      rw [Res.bind_eq_ok] at h
      obtain ⟨⟨m, l₁⟩, h1, h⟩ := h
      rw [Res.bind_eq_ok] at h
      obtain ⟨⟨s₂, l₂⟩, h2, h⟩ := h
      rw [Res.bind_eq_ok] at h
      obtain ⟨⟨rest, s₃, l₃⟩, h3, h⟩ := h
      simp only [Res.pure_eq, Res.ok.injEq, Prod.mk.injEq] at h
      obtain ⟨rfl, rfl, rfl⟩ := h
      obtain ⟨flips, hd, ho, hl⟩ := (ih s₂ l₂ rest).1 h3
      refine ⟨m :: flips, .cons h1 h2 hd, ?_, by simp [hl]⟩
      rw [List.zipWith_cons_cons, ← ho]
      cases m <;> simp
    · rintro ⟨flips, hd, ho, hl⟩
      cases hd with
      | nil => simp at hl
      | cons h1 h2 h3 =>
        rename_i m l₁ s₂ l₂ fs
        have hr := (ih s₂ l₂ (List.zipWith xor fs bs)).2 ⟨fs, h3, rfl, by simpa using hl⟩
        rw [h1, Res.ok_bind]
        simp only
        rw [h2, Res.ok_bind]
        simp only
        rw [hr, Res.ok_bind, ho]
        cases m <;> simp

/-- **C38 (flip-bit construction).** A flip-bit mutator is created exactly for probabilities in (0, 1/2] (as long as `1/p` fits an
`int`); other non-zero probabilities are rejected. -/
theorem C38_flip_constructor (p : R) (l : Lib) (hp : p ≠ 0) (hfit : -2147483647 ≤ ⌊1 / p⌋ ∧ ⌊1 / p⌋ ≤ 2147483647) :
    ((0 < p ∧ p ≤ 1 / 2) → ∃ f l', Flip.new p l = .ok (f, l') ∧ f.Inv ∧ f.maxSkip = ⌊1 / p⌋ - 1) ∧
    (¬ (0 < p ∧ p ≤ 1 / 2) → (Flip.new p l).threw) := by
  have e1 : int32 ⌊1 / p⌋ = .ok ⌊1 / p⌋ := if_pos (by omega)
  have e2 : int32 (⌊1 / p⌋ - 1) = .ok (⌊1 / p⌋ - 1) := if_pos (by omega)
  have key : 2 ≤ ⌊1 / p⌋ ↔ 0 < p ∧ p ≤ 1 / 2 := by
    rw [Int.le_floor]
    constructor
    · intro h
      push_cast at h
      have hpos : 0 < p := by
        by_contra hc
        have : 1 / p ≤ 0 := by
          apply div_nonpos_of_nonneg_of_nonpos zero_le_one (not_lt.1 hc)
        linarith
      refine ⟨hpos, ?_⟩
      rw [le_div_iff₀ hpos] at h
      linarith
    · rintro ⟨h1, h2⟩
      push_cast
      rw [le_div_iff₀ h1]; linarith
  constructor
  · intro h
    have := key.2 h
    obtain ⟨f, l', e, hi, hm, _⟩ := Flip.set_inv ⟨⌊1 / p⌋ - 1, 0, 0⟩ l (by simp only; omega) (by simp only; omega)
    refine ⟨f, l', ?_, hi, hm⟩
    unfold Flip.new
    rw [if_neg hp, hasFloor_eq, e1, Res.ok_bind, e2, Res.ok_bind, if_neg (by omega), e]
  · intro h
    have : ¬ 2 ≤ ⌊1 / p⌋ := fun hc => h (key.1 hc)
    unfold Flip.new
    rw [if_neg hp, hasFloor_eq, e1, Res.ok_bind, e2, Res.ok_bind, if_pos (by omega)]
    trivial

/-- **C38 (flip-bit never fails).** From a state satisfying the invariant, mutating any chromosome returns and keeps the
invariant. -/
theorem C38_flip_invariant (f : Flip) (l : Lib) (h : f.Inv) (chr : List Bool) :
    ∃ out f' l', mutateChromosome flipGenes f l chr = .ok (out, f', l') ∧ f'.Inv ∧ f'.maxSkip = f.maxSkip := by
  induction chr generalizing f l with
  | nil => exact ⟨[], f, l, rfl, h, rfl⟩
  | cons b bs ih =>
    obtain ⟨h1, h2, h3, h4, h5⟩ := h
    unfold mutateChromosome
    by_cases hs : f.skipped ≥ f.toSkip
    · obtain ⟨f1, l1, e, hi, hm, _⟩ := Flip.set_inv f l h1 h2
      obtain ⟨o, f2, l2, e2, hi2, hm2⟩ := ih f1 l1 hi
      refine ⟨(!b) :: o, f2, l2, ?_, hi2, hm2.trans hm⟩
      simp only [flipGenes, decide_eq_true hs, Res.ok_bind, if_true]
      rw [e, Res.ok_bind]
      simp only [flipGenes] at e2
      rw [e2]
      rfl
    · obtain ⟨o, f2, l2, e2, hi2, hm2⟩ := ih { f with skipped := f.skipped + 1 } l ⟨h1, h2, by simp only; omega, by simp only; omega, h5⟩
      refine ⟨b :: o, f2, l2, ?_, hi2, hm2⟩
      simp only [flipGenes, decide_eq_false hs, Res.ok_bind, Bool.false_eq_true, if_false]
      simp only [flipGenes] at e2
      rw [e2]
      rfl

/-- Genes left alone at the front of a list of decisions. -/
def skips : List Bool → Nat
  | false :: bs => skips bs + 1
  | _ => 0

/-- Every run of unmutated genes in a list of decisions is at most `m` long. -/
def MaxGap (m : Int) (flips : List Bool) : Prop := ∀ pre suf, flips = pre ++ suf → (skips suf : Int) ≤ m

/-- **C38 (flip-bit spacing).** For every stream of random numbers, a flip-bit mutator never leaves more than
`maxSkip = ⌊1/p⌋ - 1` consecutive genes alone, and before the first flip of a call it leaves exactly the genes that
remain of the pending gap (if the chromosome is long enough): gaps continue across chromosomes. -/
theorem C38_flip_spacing (f : Flip) (l : Lib) (h : f.Inv) (chr out : List Bool) (f' : Flip) (l' : Lib)
    (e : mutateChromosome flipGenes f l chr = .ok (out, f', l')) :
    ∃ flips, FlippedAt flips chr out ∧ MaxGap f.maxSkip flips ∧
      (skips flips : Int) = min (chr.length : Int) (f.toSkip - f.skipped) := by
  induction chr generalizing f l out with
  | nil =>
    simp only [mutateChromosome, Res.ok.injEq, Prod.mk.injEq] at e
    obtain ⟨rfl, rfl, rfl⟩ := e
    obtain ⟨h1, h2, h3, h4, h5⟩ := h
    refine ⟨[], ⟨rfl, rfl⟩, ?_, ?_⟩
    · intro pre suf hh
      have : suf = [] := by
        have := hh.symm
        simp at this; exact this.2
      subst this; simp [skips]; omega
    · simp [skips]; omega
  | cons b bs ih =>
    obtain ⟨h1, h2, h3, h4, h5⟩ := h
    unfold mutateChromosome at e
    by_cases hs : f.skipped ≥ f.toSkip
    · obtain ⟨f1, l1, e1, hi, hm, hz⟩ := Flip.set_inv f l h1 h2
      simp only [flipGenes, decide_eq_true hs, Res.ok_bind, if_true] at e
      rw [e1, Res.ok_bind, Res.bind_eq_ok] at e
      obtain ⟨⟨o, f2, l2⟩, e2, e⟩ := e
      simp only [Res.pure_eq, Res.ok.injEq, Prod.mk.injEq] at e
      obtain ⟨rfl, rfl, rfl⟩ := e
      obtain ⟨fl, ⟨a1, a2⟩, a3, a4⟩ := ih f1 l1 hi o e2
      refine ⟨true :: fl, ⟨by rw [List.zipWith_cons_cons, ← a1]; simp, by simp [a2]⟩, ?_, ?_⟩
      · intro pre suf hh
        cases pre with
        | nil => simp at hh; subst hh; simp [skips]; omega
        | cons p pre => simp at hh; rw [hm] at a3; exact a3 pre suf hh.2
      · simp only [skips, List.length_cons]; push_cast; omega
    · simp only [flipGenes, decide_eq_false hs, Res.ok_bind, Bool.false_eq_true, if_false] at e
      rw [Res.bind_eq_ok] at e
      obtain ⟨⟨o, f2, l2⟩, e2, e⟩ := e
      simp only [Res.pure_eq, Res.ok.injEq, Prod.mk.injEq] at e
      obtain ⟨rfl, rfl, rfl⟩ := e
      obtain ⟨fl, ⟨a1, a2⟩, a3, a4⟩ := ih { f with skipped := f.skipped + 1 } l
        ⟨h1, h2, by simp only; omega, by simp only; omega, h5⟩ o e2
      simp only at a3 a4
      refine ⟨false :: fl, ⟨by rw [List.zipWith_cons_cons, ← a1]; simp, by simp [a2]⟩, ?_, ?_⟩
      · intro pre suf hh
        cases pre with
        | nil => simp at hh; subst hh; simp only [skips]; push_cast; omega
        | cons p pre => simp at hh; exact a3 pre suf hh.2
      · simp only [skips, List.length_cons]; push_cast; omega

/-- Non-vacuity: a mutator with probability 1/5 and a pending gap. -/
example : (⟨4, 3, 1⟩ : Flip).Inv := by simp [Flip.Inv]

/-! ### LinearMutator -/

/-- **C38 (schedule).** For validated end points and a generation number in range, the linear mutator's probability lies between the end
points (so it is accepted), equals them at the two ends, and is monotone in between. -/
theorem C38_linear_schedule (start stop : R) (m : Linear R) (hm : Linear.new start stop = .ok m) (n k g : Int)
    (hg : 2 ≤ g) (hn : 0 ≤ n ∧ n ≤ g - 1) (hk : n ≤ k ∧ k ≤ g - 1) :
    ∃ p q, ({ m with ctx := ⟨n, g⟩ } : Linear R).probability = .val p ∧ ({ m with ctx := ⟨k, g⟩ } : Linear R).probability = .val q ∧
      min start stop ≤ p ∧ p ≤ max start stop ∧ 0 ≤ p ∧ p ≤ 1 ∧
      (n = 0 → p = start) ∧ (n = g - 1 → p = stop) ∧
      (start ≤ stop → p ≤ q) ∧ (stop ≤ start → q ≤ p) := by
  unfold Linear.new at hm
  rw [Res.bind_eq_ok] at hm
  obtain ⟨_, h1, hm⟩ := hm
  rw [Res.bind_eq_ok] at hm
  obtain ⟨_, h2, hm⟩ := hm
  simp only [Res.pure_eq, Res.ok.injEq] at hm
  subst hm
  have hv : ∀ x : R, Random.validateProbability x = .ok () → 0 ≤ x ∧ x ≤ 1 := by
    intro x hx
    unfold Random.validateProbability at hx
    split at hx
    · simp at hx
    · next hh =>
      push Not at hh; exact hh
  obtain ⟨s0, s1⟩ := hv start h1
  obtain ⟨t0, t1⟩ := hv stop h2
  have hd : (0 : R) < ((g - 1 : Int) : R) := by exact_mod_cast (by omega : 0 < g - 1)
  have hne : g - 1 ≠ 0 := by omega
  refine ⟨(stop - start) * (n : R) / ((g - 1 : Int) : R) + start, (stop - start) * (k : R) / ((g - 1 : Int) : R) + start,
    by simp [Linear.probability, hne], by simp [Linear.probability, hne], ?_⟩
  set t : R := (n : R) / ((g - 1 : Int) : R) with ht
  set u : R := (k : R) / ((g - 1 : Int) : R) with hu
  have hn0 : (0 : R) ≤ n := by exact_mod_cast hn.1
  have ht0 : 0 ≤ t := div_nonneg hn0 hd.le
  have ht1 : t ≤ 1 := (div_le_one hd).2 (by exact_mod_cast hn.2)
  have htu : t ≤ u := div_le_div_of_nonneg_right (by exact_mod_cast hk.1) hd.le
  have e1 : (stop - start) * (n : R) / ((g - 1 : Int) : R) + start = (stop - start) * t + start := by rw [ht]; ring
  have e2 : (stop - start) * (k : R) / ((g - 1 : Int) : R) + start = (stop - start) * u + start := by rw [hu]; ring
  rw [e1, e2]
  have lo : min start stop ≤ (stop - start) * t + start := by
    rcases le_total start stop with h | h
    · rw [min_eq_left h]; nlinarith
    · rw [min_eq_right h]; nlinarith
  have hi : (stop - start) * t + start ≤ max start stop := by
    rcases le_total start stop with h | h
    · rw [max_eq_right h]; nlinarith
    · rw [max_eq_left h]; nlinarith
  refine ⟨lo, hi, le_trans (le_min s0 t0) lo, le_trans hi (max_le s1 t1), ?_, ?_, ?_, ?_⟩
  · rintro rfl; simp [ht]
  · rintro rfl; rw [ht, div_self hd.ne']; ring
  · intro h; nlinarith
  · intro h; nlinarith

/-- **C38 (linear decisions).** In range, the linear mutator never fails and mutates gene `i` iff the `i`-th random number `r`
satisfies `r ≤ p * RAND_MAX`. -/
theorem C38_linear_decisions (start stop : R) (m : Linear R) (hm : Linear.new start stop = .ok m) (n g : Int)
    (hg : 2 ≤ g) (hn : 0 ≤ n ∧ n ≤ g - 1) (l : Lib) (hl : l.Valid) (chr : List Bool) :
    ∃ p l', ({ m with ctx := ⟨n, g⟩ } : Linear R).probability = .val p ∧
      mutateChromosome linearGenes { m with ctx := ⟨n, g⟩ } l chr =
        .ok (List.zipWith xor ((List.range chr.length).map (fun i => decide ((l.stream i : R) ≤ p * l.randMax))) chr,
          { m with ctx := ⟨n, g⟩ }, l') := by
  obtain ⟨p, _, hp, _, _, _, p0, p1, _⟩ := C38_linear_schedule start stop m hm n n g hg hn ⟨le_refl _, hn.2⟩
  suffices H : ∀ (l : Lib), l.Valid → ∃ l', mutateChromosome linearGenes { m with ctx := ⟨n, g⟩ } l chr =
        .ok (List.zipWith xor ((List.range chr.length).map (fun i => decide ((l.stream i : R) ≤ p * l.randMax))) chr,
          { m with ctx := ⟨n, g⟩ }, l') by
    obtain ⟨l', e⟩ := H l hl
    exact ⟨p, l', hp, e⟩
  clear hl l
  induction chr with
  | nil => intro l _; exact ⟨l, rfl⟩
  | cons b bs ih =>
    intro l hl
    obtain ⟨l', e⟩ := ih (rand l).2 (Random.rand_valid hl)
    refine ⟨l', ?_⟩
    unfold mutateChromosome
    have hev := (Random.C36_event l hl p).2.1 ⟨p0, p1⟩
    have hsh : linearGenes.should ({ m with ctx := ⟨n, g⟩ } : Linear R) l = .ok (decide (((rand l).1 : R) ≤ p * l.randMax), (rand l).2) := by
      simp only [linearGenes, hp]; exact hev
    rw [hsh, Res.ok_bind]
    simp only [linearGenes, Res.ok_bind]
    simp only [linearGenes] at e
    rw [e]
    simp only [Res.ok_bind, Res.pure_eq, Res.ok.injEq, Prod.mk.injEq, and_true]
    rw [List.length_cons, List.range_succ_eq_map, List.map_cons, List.zipWith_cons_cons, List.map_map]
    congr 1
    simp only [rand]
    by_cases hb : ((l.stream 0 : R) ≤ p * l.randMax) <;> simp [hb]

/-- With a single generation (`max_number_of_generations = 1`) the probability is 0/0: the linear mutator never mutates, whatever its
end points – even if both are 1. -/
theorem C38_linear_single_generation (m : Linear R) (l : Lib) (chr : List Bool) :
    ∃ l', mutateChromosome linearGenes { m with ctx := ⟨0, 1⟩ } l chr = .ok (chr, { m with ctx := ⟨0, 1⟩ }, l') := by
  induction chr generalizing l with
  | nil => exact ⟨l, rfl⟩
  | cons b bs ih =>
    obtain ⟨l', e⟩ := ih (rand l).2
    refine ⟨l', ?_⟩
    unfold mutateChromosome
    have hsh : linearGenes.should ({ m with ctx := ⟨0, 1⟩ } : Linear R) l = .ok (false, (rand l).2) := by
      simp [linearGenes, Linear.probability]
    rw [hsh, Res.ok_bind]
    simp only [linearGenes, Res.ok_bind]
    simp only [linearGenes] at e
    rw [e]
    simp

/-- A generation number other than 0 with `max_number_of_generations = 1` (a context the genetic algorithm never applies, but a caller
can): equal end points never mutate, different ones make every mutation of a non-empty chromosome throw. -/
theorem C38_linear_divide_by_zero (start stop : R) (m : Linear R) (hm : Linear.new start stop = .ok m) (n : Int) (hn : n ≠ 0) (l : Lib)
    (chr : List Bool) :
    (start = stop → ∃ l', mutateChromosome linearGenes { m with ctx := ⟨n, 1⟩ } l chr = .ok (chr, { m with ctx := ⟨n, 1⟩ }, l')) ∧
    (start ≠ stop → chr ≠ [] → (mutateChromosome linearGenes { m with ctx := ⟨n, 1⟩ } l chr).threw) := by
  have hms : m.start = start ∧ m.stop = stop := by
    unfold Linear.new at hm
    rw [Res.bind_eq_ok] at hm
    obtain ⟨_, h1, hm⟩ := hm
    rw [Res.bind_eq_ok] at hm
    obtain ⟨_, h2, hm⟩ := hm
    simp only [Res.pure_eq, Res.ok.injEq] at hm
    subst hm
    exact ⟨rfl, rfl⟩
  obtain ⟨h1, h2⟩ := hms
  constructor
  · intro he
    have hz : (m.stop - m.start) * (n : R) = 0 := by rw [h1, h2, he]; ring
    induction chr generalizing l with
    | nil => exact ⟨l, rfl⟩
    | cons b bs ih =>
      obtain ⟨l', e⟩ := ih (rand l).2
      refine ⟨l', ?_⟩
      unfold mutateChromosome
      have hsh : linearGenes.should ({ m with ctx := ⟨n, 1⟩ } : Linear R) l = .ok (false, (rand l).2) := by
        have hp : ({ m with ctx := ⟨n, 1⟩ } : Linear R).probability = .nan := by
          unfold Linear.probability
          rw [if_pos (by norm_num), if_pos hz]
        simp only [linearGenes, hp]
      rw [hsh, Res.ok_bind]
      simp only [linearGenes, Res.ok_bind]
      simp only [linearGenes] at e
      rw [e]
      simp
  · intro hne hc
    have hz : (m.stop - m.start) * (n : R) ≠ 0 := by
      rw [h1, h2]
      exact mul_ne_zero (sub_ne_zero.2 fun h => hne h.symm) (by exact_mod_cast hn)
    cases chr with
    | nil => exact absurd rfl hc
    | cons b bs =>
      unfold mutateChromosome
      have hsh : linearGenes.should ({ m with ctx := ⟨n, 1⟩ } : Linear R) l = .throw "invalid_argument" := by
        have hp : ({ m with ctx := ⟨n, 1⟩ } : Linear R).probability = .inf := by
          unfold Linear.probability
          rw [if_pos (by norm_num), if_neg hz]
        simp only [linearGenes, hp]
      rw [hsh]
      trivial

/-- The schedule is extrapolated, not clamped: for any generation number and any maximum other than 1, mutation of a non-empty chromosome
throws if `start + (stop - start) * n / (g - 1)` is not a probability. -/
theorem C38_linear_extrapolates (start stop : R) (m : Linear R) (hm : Linear.new start stop = .ok m) (n g : Int) (hg : g ≠ 1)
    (hp : start + (stop - start) * n / (g - 1) < 0 ∨ 1 < start + (stop - start) * n / (g - 1)) (l : Lib) (chr : List Bool) (hc : chr ≠ []) :
    (mutateChromosome linearGenes { m with ctx := ⟨n, g⟩ } l chr).threw := by
  have hms : m.start = start ∧ m.stop = stop := by
    unfold Linear.new at hm
    rw [Res.bind_eq_ok] at hm
    obtain ⟨_, h1, hm⟩ := hm
    rw [Res.bind_eq_ok] at hm
    obtain ⟨_, h2, hm⟩ := hm
    simp only [Res.pure_eq, Res.ok.injEq] at hm
    subst hm
    exact ⟨rfl, rfl⟩
  obtain ⟨h1, h2⟩ := hms
  cases chr with
  | nil => exact absurd rfl hc
  | cons b bs =>
    unfold mutateChromosome
    have hsh : linearGenes.should ({ m with ctx := ⟨n, g⟩ } : Linear R) l = .throw "invalid_argument" := by
      have hpr : ({ m with ctx := ⟨n, g⟩ } : Linear R).probability = .val (start + (stop - start) * n / (g - 1)) := by
        unfold Linear.probability
        rw [if_neg (by show ¬ g - 1 = 0; omega)]
        simp only [h1, h2]
        congr 1
        push_cast
        ring
      simp only [linearGenes, hpr, Random.event, Random.validateProbability]
      rw [if_pos hp]
      rfl
    rw [hsh]
    trivial

/-- The last two theorems are about real cases: end points 1/10 and 3/10, generation 50 of 10. -/
example : (1/10 : ℚ) ≠ 3/10 ∧ 1 < (1/10 : ℚ) + (3/10 - 1/10) * ((50 : Int) : ℚ) / (((10 : Int) : ℚ) - 1) := by norm_num

/-- Non-vacuity: end points 1/10 and 3/10, ten generations. -/
example : ∃ m : Linear ℚ, Linear.new (1/10) (3/10) = .ok m ∧ (2 : Int) ≤ 10 := by
  refine ⟨⟨1/10, 3/10, ⟨0, 0⟩⟩, ?_, by norm_num⟩
  have h1 : Random.validateProbability (1/10 : ℚ) = .ok () := by unfold Random.validateProbability; rw [if_neg]; norm_num
  have h2 : Random.validateProbability (3/10 : ℚ) = .ok () := by unfold Random.validateProbability; rw [if_neg]; norm_num
  unfold Linear.new
  rw [h1, Res.ok_bind, h2]
  rfl

end K52.Mutator
