import Verif.Model.Random
import Mathlib.Tactic.Linarith
import Mathlib.Tactic.Ring
import Mathlib.Tactic.IntervalCases
import Mathlib.Algebra.Order.Ring.Rat

/-! # Properties C36, C37: random quantities, for every stream of `rand()` values -/

set_option linter.unusedSectionVars false

namespace K52.Random

variable {R : Type} [Field R] [LinearOrder R] [IsStrictOrderedRing R]

theorem rand_le {l : Lib} (h : l.Valid) : (rand l).1 ≤ l.randMax := h.2 0
theorem rand_valid {l : Lib} (h : l.Valid) : (rand l).2.Valid := ⟨h.1, fun i => h.2 (i + 1)⟩

/-- The base quantity lies in [0, 1]. -/
theorem base_range {l : Lib} (h : l.Valid) : 0 ≤ (base (R := R) l).1 ∧ (base (R := R) l).1 ≤ 1 := by
  have hm : (0 : R) < l.randMax := by exact_mod_cast h.1
  have hr : ((rand l).1 : R) ≤ l.randMax := by exact_mod_cast rand_le h
  exact ⟨by unfold base; positivity, by unfold base; exact (div_le_one hm).2 hr⟩

/-- **C36 (continuous).** For every stream, the continuous random quantity lies between the bounds; the lower bound is returned
exactly when `rand()` gives 0 and the upper exactly when it gives `RAND_MAX` (for a non-degenerate interval). -/
theorem C36_continuous (l : Lib) (h : l.Valid) (min max : R) (hb : min ≤ max) :
    min ≤ (continuous l min max).1 ∧ (continuous l min max).1 ≤ max ∧
    (min < max → ((continuous l min max).1 = min ↔ (rand l).1 = 0) ∧
                 ((continuous l min max).1 = max ↔ (rand l).1 = l.randMax)) := by
  obtain ⟨h0, h1⟩ := base_range (R := R) h
  have hm : (0 : R) < l.randMax := by exact_mod_cast h.1
  unfold continuous
  refine ⟨?_, ?_, ?_⟩
  · have := mul_nonneg h0 (sub_nonneg.2 hb); simp only; linarith
  · have := mul_le_mul_of_nonneg_right h1 (sub_nonneg.2 hb); simp only; linarith
  · intro hlt
    have hd : max - min ≠ 0 := (sub_pos.2 hlt).ne'
    constructor
    · constructor
      · intro e
        have : (base (R := R) l).1 * (max - min) = 0 := by simpa using e
        have h2 : (base (R := R) l).1 = 0 := (mul_eq_zero.1 this).resolve_right hd
        unfold base at h2
        have := (div_eq_zero_iff.1 h2).resolve_right hm.ne'
        exact_mod_cast this
      · intro e; simp [base, e]
    · constructor
      · intro e
        have e2 : ((base (R := R) l).1 - 1) * (max - min) = 0 := by
          simp only at e; linarith
        have h2 : (base (R := R) l).1 = 1 := by
          have := (mul_eq_zero.1 e2).resolve_right hd
          linarith
        unfold base at h2
        rw [div_eq_one_iff_eq hm.ne'] at h2
        exact_mod_cast h2
      · intro e
        simp only [base, e]
        rw [div_self hm.ne']; ring

/-- **C36 (vector).** A random vector has the requested length and every entry lies between the bounds. -/
theorem C36_vector (l : Lib) (h : l.Valid) (n : Nat) (min max : R) (hb : min ≤ max) :
    (vector l n min max).1.length = n ∧ ∀ x ∈ (vector l n min max).1, min ≤ x ∧ x ≤ max := by
  induction n generalizing l with
  | zero => simp [vector]
  | succ n ih =>
    obtain ⟨h1, h2⟩ := ih (continuous l min max).2 (rand_valid h)
    obtain ⟨c1, c2, _⟩ := C36_continuous l h min max hb
    refine ⟨by simp [vector, h1], ?_⟩
    intro x hx
    simp only [vector, List.mem_cons] at hx
    rcases hx with rfl | hx
    · exact ⟨c1, c2⟩
    · exact h2 x hx

/-- The bounds fit the `int` arithmetic of the call. -/
def DiscreteOk (min max : Int) : Prop :=
  -2147483648 ≤ min ∧ min ≤ max ∧ max ≤ 2147483647 ∧ max - min + 1 ≤ 2147483647

/-- **C36 (discrete).** For every stream the discrete quantity is one of `min .. max`. -/
theorem C36_discrete_range (l : Lib) (min max : Int) (hb : DiscreteOk min max) :
    ∃ v l', discrete l min max = .ok (v, l') ∧ min ≤ v ∧ v ≤ max := by
  obtain ⟨h1, h2, h3, h4⟩ := hb
  have hpos : 0 < max - min + 1 := by omega
  have t1 : 0 ≤ Int.tmod ((rand l).1 : Int) (max - min + 1) := Int.tmod_nonneg _ (by omega)
  have t2 : Int.tmod ((rand l).1 : Int) (max - min + 1) < max - min + 1 := Int.tmod_lt_of_pos _ hpos
  refine ⟨Int.tmod ((rand l).1 : Int) (max - min + 1) + min, (rand l).2, ?_, by omega, by omega⟩
  unfold discrete
  have e1 : int32 (max - min) = .ok (max - min) := if_pos (by omega)
  have e2 : int32 (max - min + 1) = .ok (max - min + 1) := if_pos (by omega)
  have e3 : int32 (Int.tmod ((rand l).1 : Int) (max - min + 1) + min) = .ok _ := if_pos (by omega)
  rw [e1, Res.ok_bind, e2, Res.ok_bind, if_neg (by omega), e3]
  rfl

/-- **C36 (discrete, coverage).** Each value of `min .. max` comes out for some value of `rand()`, provided `RAND_MAX` is at
least `max - min`; values beyond `min + RAND_MAX` can never come out. -/
theorem C36_discrete_coverage (min max v : Int) (hb : DiscreteOk min max) (hv : min ≤ v ∧ v ≤ max) (randMax : Nat)
    (hm : 1 ≤ randMax) :
    (∃ l l', l.Valid ∧ l.randMax = randMax ∧ discrete l min max = .ok (v, l')) ↔ v ≤ min + randMax := by
  obtain ⟨h1, h2, h3, h4⟩ := hb
  have hpos : 0 < max - min + 1 := by omega
  have comp : ∀ l : Lib, discrete l min max = .ok (Int.tmod ((rand l).1 : Int) (max - min + 1) + min, (rand l).2) := by
    intro l
    have t1 : 0 ≤ Int.tmod ((rand l).1 : Int) (max - min + 1) := Int.tmod_nonneg _ (by omega)
    have t2 : Int.tmod ((rand l).1 : Int) (max - min + 1) < max - min + 1 := Int.tmod_lt_of_pos _ hpos
    unfold discrete
    have e1 : int32 (max - min) = .ok (max - min) := if_pos (by omega)
    have e2 : int32 (max - min + 1) = .ok (max - min + 1) := if_pos (by omega)
    have e3 : int32 (Int.tmod ((rand l).1 : Int) (max - min + 1) + min) = .ok _ := if_pos (by omega)
    rw [e1, Res.ok_bind, e2, Res.ok_bind, if_neg (by omega), e3]
    rfl
  constructor
  · rintro ⟨l, l', hl, rfl, e⟩
    rw [comp] at e
    simp only [Res.ok.injEq, Prod.mk.injEq] at e
    have hr := rand_le hl
    have : Int.tmod ((rand l).1 : Int) (max - min + 1) ≤ (rand l).1 := by
      rw [Int.tmod_eq_emod_of_nonneg (by omega)]
      have q := Int.emod_add_mul_ediv ((rand l).1 : Int) (max - min + 1)
      have d : 0 ≤ ((rand l).1 : Int) / (max - min + 1) := Int.ediv_nonneg (by omega) (by omega)
      have := mul_nonneg hpos.le d
      omega
    omega
  · intro hle
    refine ⟨⟨randMax, fun _ => (v - min).toNat⟩, ?_⟩
    refine ⟨(rand ⟨randMax, fun _ => (v - min).toNat⟩).2, ⟨hm, fun i => by simp only; omega⟩, rfl, ?_⟩
    rw [comp]
    have : (((rand ⟨randMax, fun _ => (v - min).toNat⟩).1 : Nat) : Int) = v - min := by
      simp only [rand]; omega
    rw [this, Int.tmod_eq_emod_of_nonneg (by omega), Int.emod_eq_of_lt (by omega) (by omega)]
    simp

/-- An empty interval `[min, min-1]` divides by zero. -/
theorem C36_discrete_empty_ub (l : Lib) (min : Int) (h : -2147483648 ≤ min ∧ min ≤ 2147483647) :
    discrete l min (min - 1) = .ub := by
  unfold discrete
  have e1 : int32 (min - 1 - min) = .ok (-1) := by
    have : min - 1 - min = -1 := by omega
    rw [this]; rfl
  rw [e1, Res.ok_bind]
  rfl

/-- **C36 (events).** A probability is accepted iff it lies in [0,1]; an event of probability 1 always happens; in general the
event happens iff `rand() ≤ p * RAND_MAX`, so an event of probability 0 still happens when `rand()` returns 0. -/
theorem C36_event (l : Lib) (h : l.Valid) (p : R) :
    ((event l p).threw ↔ ¬ (0 ≤ p ∧ p ≤ 1)) ∧
    (0 ≤ p ∧ p ≤ 1 → event l p = .ok (decide (((rand l).1 : R) ≤ p * l.randMax), (rand l).2)) ∧
    (event l (1 : R) = .ok (true, (rand l).2)) ∧
    ((rand l).1 = 0 → event l (0 : R) = .ok (true, (rand l).2)) := by
  have hm : (0 : R) < l.randMax := by exact_mod_cast h.1
  have hv : ∀ p : R, 0 ≤ p ∧ p ≤ 1 → validateProbability p = .ok () := by
    intro p hp
    unfold validateProbability
    rw [if_neg]; rintro (h | h)
    · exact absurd hp.1 (not_le.2 h)
    · exact absurd hp.2 (not_le.2 h)
  have main : ∀ p : R, 0 ≤ p ∧ p ≤ 1 → event l p = .ok (decide (((rand l).1 : R) ≤ p * l.randMax), (rand l).2) := by
    intro p hp
    unfold event
    rw [hv p hp, Res.ok_bind]
    have : ((base (R := R) l).1 ≤ p) ↔ ((rand l).1 : R) ≤ p * l.randMax := by
      unfold base; exact div_le_iff₀ hm
    simp [this]
  refine ⟨⟨fun ht hp => ?_, fun hp => ?_⟩, main p, ?_, ?_⟩
  · rw [main p hp] at ht; exact ht
  · have hv' : validateProbability p = .throw "invalid_argument" := by
      unfold validateProbability
      rw [if_pos]
      by_contra hc
      push Not at hc
      exact hp hc
    unfold event
    rw [hv']; trivial
  · rw [main 1 ⟨zero_le_one, le_refl _⟩]
    have := rand_le h
    simp [this]
  · intro e
    rw [main 0 ⟨le_refl _, zero_le_one⟩]
    simp [e]

/-- Test of non-vacuity: a library with `RAND_MAX = 32767` that always returns 5. -/
example : Lib.Valid ⟨32767, fun _ => 5⟩ ∧ DiscreteOk (-3) 10 :=
  ⟨⟨by norm_num, fun _ => by norm_num⟩, by norm_num [DiscreteOk]⟩

/-! ### C37: random booleans -/

theorem maxBitLoop_spec (m : Nat) : ∀ (k j : Nat), j + k ≤ 32 → j ≤ 30 → 2 ^ j ≤ m →
    (m < 1073741824 → 31 ≤ j + k → ∃ t, maxBitLoop m k (2 ^ j) j = .ok t ∧ 2 ^ t ≤ m ∧ m < 2 ^ (t + 1) ∧ t < 30) ∧
    (1073741824 ≤ m → 31 ≤ j + k → m ≤ 2147483647 → maxBitLoop m k (2 ^ j) j = .ub)
  | 0, j, h1, h2, h3 => by constructor <;> intros <;> omega
  | k + 1, j, h1, h2, h3 => by
    have hdbl : 2 ^ j * 2 = 2 ^ (j + 1) := by ring
    constructor
    · intro hm hk
      have hj : j < 30 := by
        by_contra hc
        have : j = 30 := by omega
        subst this; norm_num at h3; omega
      unfold maxBitLoop
      have hsm : 2 ^ (j + 1) ≤ 2 ^ 30 := Nat.pow_le_pow_right (by norm_num) (by omega)
      rw [hdbl, if_pos (by norm_num at hsm; omega)]
      by_cases hgt : 2 ^ (j + 1) > m
      · rw [if_pos hgt]; exact ⟨j, rfl, h3, hgt, hj⟩
      · rw [if_neg hgt]
        exact (maxBitLoop_spec m k (j + 1) (by omega) (by omega) (by omega)).1 hm (by omega)
    · intro hm hk hmax
      unfold maxBitLoop
      rw [hdbl]
      by_cases hj : j = 30
      · subst hj; rw [if_neg (by norm_num)]
      · have hsm : 2 ^ (j + 1) ≤ 2 ^ 30 := Nat.pow_le_pow_right (by norm_num) (by omega)
        rw [if_pos (by norm_num at hsm; omega), if_neg (by norm_num at hsm; omega)]
        exact (maxBitLoop_spec m k (j + 1) (by omega) (by omega) (by norm_num at hsm; omega)).2 hm (by omega) hmax

/-- **C37 (construction).** The generator constructs without undefined behaviour iff `RAND_MAX < 2^30`; then it uses the bits
`0 .. maxBit` where `maxBit` is the position of the highest bit of `RAND_MAX`.  In particular (second part) with glibc's
`RAND_MAX = 2^31 - 1` the constructor overflows an `int`. -/
theorem C37_constructor (l : Lib) (h : l.Valid) (hint : l.randMax ≤ 2147483647) :
    (l.randMax < 2 ^ 30 → ∃ t, new l = .ok ⟨l.stream 0, 0, t, (rand l).2⟩ ∧ 2 ^ t ≤ l.randMax ∧ l.randMax < 2 ^ (t + 1) ∧ t < 30) ∧
    (2 ^ 30 ≤ l.randMax → new l = .ub) := by
  obtain ⟨a, b⟩ := maxBitLoop_spec l.randMax 32 0 (by omega) (by omega) (by simpa using h.1)
  constructor
  · intro hm
    obtain ⟨t, e, h1, h2, h3⟩ := a (by norm_num at hm; omega) (by omega)
    exact ⟨t, by unfold new; simp only [pow_zero] at e; rw [e]; rfl, h1, h2, h3⟩
  · intro hm
    have e := b (by norm_num at hm; omega) (by omega) hint
    unfold new; simp only [pow_zero] at e; rw [e]; rfl

/-- glibc: `RAND_MAX = 2147483647`. -/
theorem C37_glibc_undefined (stream : Nat → Nat) (h : ∀ i, stream i ≤ 2147483647) : new ⟨2147483647, stream⟩ = .ub :=
  (C37_constructor ⟨2147483647, stream⟩ ⟨by norm_num, h⟩ (le_refl _)).2 (by norm_num)

theorem and_one_shift (x k : Nat) : decide (x &&& (1 <<< k) = 0) = !x.testBit k := by
  rw [Nat.one_shiftLeft]
  cases hb : x.testBit k with
  | true =>
    simp only [Bool.not_true, decide_eq_false_iff_not]
    intro e
    have : (x &&& 2 ^ k).testBit k = true := by rw [Nat.testBit_and, hb, Nat.testBit_two_pow_self]; rfl
    rw [e] at this; simp at this
  | false =>
    simp only [Bool.not_false, decide_eq_true_eq]
    apply Nat.eq_of_testBit_eq
    intro i
    rw [Nat.testBit_and, Nat.zero_testBit, Nat.testBit_two_pow]
    by_cases hik : k = i
    · subst hik; simp [hb]
    · simp [hik]

/-- The state after `j` bits of the current word were used, `words` words having been drawn. -/
theorem randomBools_spec (l : Lib) (t : Nat) (ht : t < 31) : ∀ (n : Nat) (words j : Nat), j ≤ t + 1 →
    ∃ s', randomBools n ⟨l.stream words, j, t, { l with stream := fun i => l.stream (words + 1 + i) }⟩ =
      .ok ((List.range n).map (fun i => !(l.stream (words + (j + i) / (t + 1))).testBit ((j + i) % (t + 1))), s')
  | 0, words, j, _ => ⟨_, rfl⟩
  | n + 1, words, j, hj => by
    have hpos : 0 < t + 1 := by omega
    by_cases hjt : j ≤ t
    · obtain ⟨s', e⟩ := randomBools_spec l t ht n words (j + 1) (by omega)
      refine ⟨s', ?_⟩
      unfold randomBools randomBool nextBitOf
      simp only [if_neg (show ¬ (j > t) by omega), if_pos (show j < 31 by omega), Res.ok_bind, Res.pure_eq]
      rw [e]
      simp only [Res.ok_bind, Res.ok.injEq, Prod.mk.injEq, and_true]
      rw [List.range_succ_eq_map, List.map_cons, List.map_map]
      congr 1
      · rw [and_one_shift, Nat.add_zero, Nat.div_eq_of_lt (by omega), Nat.mod_eq_of_lt (by omega), Nat.add_zero]
      · apply List.map_congr_left
        intro i _
        simp only [Function.comp]
        rw [show j + 1 + i = j + Nat.succ i by omega]
    · have hj' : j = t + 1 := by omega
      subst hj'
      obtain ⟨s', e⟩ := randomBools_spec l t ht n (words + 1) 1 (by omega)
      refine ⟨s', ?_⟩
      unfold randomBools randomBool nextBitOf
      simp only [if_pos (show t + 1 > t by omega), rand, if_pos (show 0 < 31 by omega), Res.ok_bind, Res.pure_eq]
      have hs : (fun i => l.stream (words + 1 + (i + 1))) = fun i => l.stream (words + 1 + 1 + i) := by
        funext i; congr 1; omega
      simp only [Nat.add_zero, Nat.zero_add, hs]
      rw [e]
      simp only [Res.ok_bind, Res.ok.injEq, Prod.mk.injEq, and_true]
      rw [List.range_succ_eq_map, List.map_cons, List.map_map]
      congr 1
      · rw [and_one_shift, Nat.add_zero, Nat.div_self hpos, Nat.mod_self]
      · apply List.map_congr_left
        intro i _
        simp only [Function.comp]
        have e1 : t + 1 + (i + 1) = (1 + i) + (t + 1) := by omega
        rw [show t + 1 + Nat.succ i = (1 + i) + (t + 1) by omega, Nat.add_div_right _ hpos, Nat.add_mod_right]
        congr 3
        omega

/-- **C37 (bits).** With `RAND_MAX < 2^30`, the `n` booleans drawn after construction are the negated bits of the successive
`rand()` values, low bit first, `maxBit + 1` bits from each word: boolean number `i` is bit `i mod (maxBit+1)` of word
`i / (maxBit+1)`; no bit is used twice or skipped. -/
theorem C37_bits (l : Lib) (h : l.Valid) (hm : l.randMax < 2 ^ 30) (n : Nat) :
    ∃ s t s', new l = .ok s ∧ 2 ^ t ≤ l.randMax ∧ l.randMax < 2 ^ (t + 1) ∧
      randomBools n s = .ok ((List.range n).map (fun i => !(l.stream (i / (t + 1))).testBit (i % (t + 1))), s') := by
  obtain ⟨t, e, h1, h2, h3⟩ := (C37_constructor l h (by norm_num at hm; omega)).1 hm
  obtain ⟨s', e'⟩ := randomBools_spec l t (by omega) n 0 0 (by omega)
  refine ⟨_, t, s', e, h1, h2, ?_⟩
  have : (rand l).2 = { l with stream := fun i => l.stream (0 + 1 + i) } := by
    simp only [rand, Nat.zero_add]
    congr 1
    funext i; congr 1; omega
  rw [this]
  simpa using e'

/-- The word positions used by different booleans are different: no random bit is reused. -/
theorem C37_no_reuse (t i j : Nat) (h : (i / (t + 1), i % (t + 1)) = (j / (t + 1), j % (t + 1))) : i = j := by
  simp only [Prod.mk.injEq] at h
  rw [← Nat.div_add_mod i (t + 1), ← Nat.div_add_mod j (t + 1), h.1, h.2]

end K52.Random
