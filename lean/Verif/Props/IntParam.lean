import Verif.Lemmas.IntParam
import Mathlib.Tactic.IntervalCases

/-!
# Properties C05–C08 for `IntParameter`
-/

namespace K52.IntParam

/-- Two integers in the same `[0, 2^s)` window with `2^s` at the top: the only value of `[0, m]`, `m ≤ 2^s` minimal, that
is not its own residue modulo `2^s` is `m = 2^s` itself. -/
theorem emod_of_range {d m : Int} {s : Nat} (h0 : 0 ≤ d) (hd : d ≤ m) (hm : m ≤ 2 ^ s)
    (hmin : ∀ q < s, (2 : Int) ^ q < m) [Decidable (d = m ∧ PowerOfTwo m)] :
    d % 2 ^ s = if d = m ∧ PowerOfTwo m then 0 else d := by
  split
  · next h =>
    obtain ⟨rfl, k, hk⟩ := h
    have hks : k = s := by
      rcases lt_trichotomy k s with h | h | h
      · have := hmin k h; omega
      · exact h
      · have : (2 : Int) ^ s < 2 ^ k := pow_lt_pow_right₀ (by norm_num) h
        omega
    rw [hk, hks]; exact Int.emod_self
  · next h =>
    refine Int.emod_eq_of_lt h0 ?_
    rcases lt_or_eq_of_le (le_trans hd hm) with h' | h'
    · exact h'
    · exfalso
      exact h ⟨by omega, s, by omega⟩

/-- **C05.** Encoding a value of `[min, max]` and decoding the chromosome with a parameter of the same bounds gives the
value back – except exactly for `max` when `max - min` is a power of two, which silently comes back as `min`. -/
theorem C05_value_roundtrip (v w min max : Int) (hmin : IsInt min) (hmax : IsInt max) (hv : min ≤ v ∧ v ≤ max)
    (p q : IntParam) (hp : new v min max = .ok p) (hq : new w min max = .ok q)
    (chr : List Bool) (hl : p.cs.get = .ok chr.length) [Decidable (v = max ∧ PowerOfTwo (max - min))] :
    ∃ out, p.setChromosome chr = .ok out ∧ out.length = chr.length ∧
      (q.setFromChromosome out).2 = .ok () ∧
      (q.setFromChromosome out).1 = { q with value := if v = max ∧ PowerOfTwo (max - min) then min else v } := by
  obtain ⟨s, hs, rfl⟩ := new_eq_ok hp
  obtain ⟨s', hs', rfl⟩ := new_eq_ok hq
  rw [hs] at hs'; simp at hs'; subst hs'
  obtain ⟨h1, h2, h3, h4, h5⟩ := count_eq_ok hs
  simp [ConstSize.get] at hl
  obtain ⟨out, e, hlen, hval⟩ := setChromosome_spec (p := ⟨⟨true, s⟩, v, min, max⟩) rfl h3
    (by simp; unfold IsInt at *; norm_num at h2; omega) chr hl.symm
  refine ⟨out, e, by omega, ?_⟩
  classical
  have hmod := emod_of_range (d := v - min) (m := max - min) (s := s) (by omega) (by omega) h4 h5
  simp only at hval
  rw [hmod] at hval
  have hcond : (v - min = max - min) ↔ v = max := by omega
  have hsum : (bitsVal out : Int) + min = if v = max ∧ PowerOfTwo (max - min) then min else v := by
    rw [hval]
    by_cases hc : v = max ∧ PowerOfTwo (max - min)
    · rw [if_pos hc, if_pos ⟨hcond.2 hc.1, hc.2⟩]; omega
    · rw [if_neg hc, if_neg (fun h => hc ⟨hcond.1 h.1, h.2⟩)]; omega
  have := setFrom_spec (p := ⟨⟨true, s⟩, w, min, max⟩) rfl h3 out hlen (by
    simp only
    rw [hsum]
    split <;> unfold IsInt at * <;> omega)
  rw [this]
  refine ⟨rfl, ?_⟩
  simp [hsum]

/-- Non-vacuity: the range [-3, 4] (7 steps, 3 bits) and the value 4 = max. -/
example : new 4 (-3) 4 = .ok ⟨⟨true, 3⟩, 4, -3, 4⟩ ∧
    (⟨⟨true, 3⟩, 4, -3, 4⟩ : IntParam).setChromosome [false, false, false] = .ok [true, true, true] := by
  refine ⟨new_of_count _ ?_, by decide +kernel⟩
  obtain ⟨s, h, _, h2, h3⟩ := count_ok (-3) 4 (by norm_num) (by norm_num)
  rw [h]
  have : s = 3 := by
    rcases lt_trichotomy s 3 with h | h | h
    · interval_cases s <;> norm_num at h2
    · exact h
    · have := h3 3 h; norm_num at this
  rw [this]

/-- The exception is real: for *every* lower bound and every power of two the upper bound, although it satisfies
the constraints, is decoded as the lower bound. -/
theorem C05_max_lost (min : Int) (k : Nat) (hk : k ≤ 30) (hmin : IsInt min) (hmax : IsInt (min + 2 ^ k)) :
    ∃ p, new (min + 2 ^ k) min (min + 2 ^ k) = .ok p ∧ p.checkConstraints = true ∧
      ∃ out, p.setChromosome (List.replicate k false) = .ok out ∧
        (p.setFromChromosome out).1.value = min ∧ min ≠ min + 2 ^ k := by
  have hpos : (0 : Int) < 2 ^ k := by positivity
  have hle : (2 : Int) ^ k ≤ 2 ^ 30 := pow_le_pow_right₀ (by norm_num) hk
  obtain ⟨s, hs, h3, h4, h5⟩ := count_ok min (min + 2 ^ k) (by omega) (by omega)
  have hsk : s = k := by
    rcases lt_trichotomy s k with h | h | h
    · have : (2 : Int) ^ s < 2 ^ k := pow_lt_pow_right₀ (by norm_num) h
      omega
    · exact h
    · have := h5 k h; omega
  subst hsk
  classical
  have hp := new_of_count (min + 2 ^ s) hs
  refine ⟨_, hp, by simp [checkConstraints], ?_⟩
  obtain ⟨out, e, hlen, _, hv⟩ := C05_value_roundtrip (min + 2 ^ s) (min + 2 ^ s) min (min + 2 ^ s) hmin hmax
    (by omega) _ _ hp hp (List.replicate s false) (by simp [ConstSize.get])
  refine ⟨out, e, ?_, by omega⟩
  rw [hv]
  simp only [true_and]
  rw [if_pos ⟨s, by omega⟩]

example : IsInt 5 ∧ IsInt (5 + 2 ^ 3) := by norm_num [IsInt]

/-- **C06.** Every chromosome of the declared size decodes to `min + (its numeral)` (or overflows `int`, when that number
does not fit), the decoded value encodes back to the same chromosome, and it satisfies the constraints iff the
numeral is at most `max - min`. -/
theorem C06_chromosome_roundtrip (v min max : Int) (hmin : IsInt min) (p : IntParam)
    (hp : new v min max = .ok p) (chr scratch : List Bool)
    (hl : p.cs.get = .ok chr.length) (hl2 : scratch.length = chr.length) :
    (¬ IsInt (min + bitsVal chr) → (p.setFromChromosome chr).2 = .ub) ∧
    (IsInt (min + bitsVal chr) →
      (p.setFromChromosome chr).2 = .ok () ∧
      (p.setFromChromosome chr).1 = { p with value := min + bitsVal chr } ∧
      (p.setFromChromosome chr).1.setChromosome scratch = .ok chr ∧
      min ≤ min + bitsVal chr ∧ min + bitsVal chr < min + 2 ^ chr.length ∧
      ((p.setFromChromosome chr).1.checkConstraints = true ↔ (bitsVal chr : Int) ≤ max - min)) := by
  obtain ⟨s, hs, rfl⟩ := new_eq_ok hp
  obtain ⟨h1, h2, h3, h4, h5⟩ := count_eq_ok hs
  simp [ConstSize.get] at hl
  have hlt : (bitsVal chr : Int) < 2 ^ chr.length := by exact_mod_cast bitsVal_lt chr
  have hle : (2 : Int) ^ chr.length ≤ 2 ^ 30 := pow_le_pow_right₀ (by norm_num) (by omega)
  constructor
  · intro hno
    have hub : int32 ((bitsVal chr : Int) + min) = .ub := int32_ub.2 (by unfold IsInt at hno; omega)
    simp [setFromChromosome, ConstSize.check, hl, getInt_spec chr (by omega), hub]
  · intro hfit
    have hset := setFrom_spec (p := ⟨⟨true, s⟩, v, min, max⟩) rfl h3 chr hl.symm
      (by simp only; unfold IsInt at hfit; omega)
    rw [hset]
    refine ⟨rfl, by simp [add_comm], ?_, by omega, by omega, ?_⟩
    · obtain ⟨out, e, hlen, hval⟩ := setChromosome_spec (p := ⟨⟨true, s⟩, bitsVal chr + min, min, max⟩) rfl h3
        (by simp only; norm_num at hle; omega) scratch (by omega)
      rw [e]
      congr 1
      refine bitsVal_inj (by omega) ?_
      simp only [add_sub_cancel_right] at hval
      rw [Int.emod_eq_of_lt (by omega) (by rw [hl]; exact hlt)] at hval
      exact_mod_cast hval
    · simp [checkConstraints]; omega

example : new 0 (-3) 4 = .ok ⟨⟨true, 3⟩, 0, -3, 4⟩ → IsInt (-3 + bitsVal [true, false, true]) := by
  intro _; norm_num [IsInt, bitsVal]

/-- **C06 (injectivity).** Different chromosomes of the declared size decode to different values. -/
theorem C06_decode_injective (v min max : Int) (hmin : IsInt min) (p : IntParam)
    (hp : new v min max = .ok p) (a b : List Bool) (ha : p.cs.get = .ok a.length) (hb : p.cs.get = .ok b.length)
    (oka : (p.setFromChromosome a).2 = .ok ()) (okb : (p.setFromChromosome b).2 = .ok ())
    (he : (p.setFromChromosome a).1.value = (p.setFromChromosome b).1.value) : a = b := by
  have hlen : a.length = b.length := by rw [ha] at hb; simpa using hb
  have ka := C06_chromosome_roundtrip v min max hmin p hp a a ha rfl
  have kb := C06_chromosome_roundtrip v min max hmin p hp b b hb rfl
  have ia : IsInt (min + bitsVal a) := by
    by_contra h; rw [ka.1 h] at oka; cases oka
  have ib : IsInt (min + bitsVal b) := by
    by_contra h; rw [kb.1 h] at okb; cases okb
  rw [(ka.2 ia).2.1, (kb.2 ib).2.1] at he
  simp only [add_right_inj, Nat.cast_inj] at he
  exact bitsVal_inj hlen he

/-- **C07.** The declared chromosome size is the least `s` with `max - min ≤ 2^s`, computed without overflow exactly when
`max - min ≤ 2^30` and `max - min` itself does not underflow; otherwise the constructor has undefined behaviour. -/
theorem C07_size_exact (v min max : Int) (hmin : IsInt min) (hmax : IsInt max) :
    (max - min < -2147483648 ∨ 1073741824 < max - min → new v min max = .ub) ∧
    (-2147483648 ≤ max - min ∧ max - min ≤ 1073741824 →
      ∃ p s, new v min max = .ok p ∧ p.cs.get = .ok s ∧ p.value = v ∧ p.min = min ∧ p.max = max ∧
        max - min ≤ 2 ^ s ∧ (∀ t : Nat, max - min ≤ 2 ^ t → s ≤ t) ∧ s ≤ 30) := by
  constructor
  · intro h
    unfold new
    rw [count_ub min max (by norm_num; exact h)]
    rfl
  · intro h
    obtain ⟨s, hs, h3, h4, h5⟩ := count_ok min max h.1 (by norm_num; omega)
    refine ⟨_, s, new_of_count v hs, by simp [ConstSize.get], rfl, rfl, rfl, h4, ?_, h3⟩
    intro t ht
    by_contra hc
    have := h5 t (by omega)
    omega

example : IsInt 0 ∧ IsInt 1000 ∧ (-2147483648 : Int) ≤ 1000 - 0 ∧ (1000 : Int) - 0 ≤ 1073741824 := by norm_num [IsInt]
example : IsInt (-2147483648) ∧ IsInt 2147483647 ∧ (1073741824 : Int) < 2147483647 - (-2147483648) := by norm_num [IsInt]

/-- **C08 (int).** A range of the wrong length is rejected with an exception by both conversions; the object (and the
chromosome, which is then never written) is unchanged. -/
theorem C08_wrong_length_int (p : IntParam) (chr : List Bool) (h : p.cs.get ≠ .ok chr.length) :
    (p.setChromosome chr).threw ∧ (p.setFromChromosome chr).2.threw ∧ (p.setFromChromosome chr).1 = p := by
  have : ∃ w, p.cs.check chr.length = .throw w := by
    unfold ConstSize.get at h
    unfold ConstSize.check
    split at h
    · next hs =>
      rw [if_pos hs, if_pos (by intro e; exact h (by rw [e]))]
      exact ⟨_, rfl⟩
    · next hs => rw [if_neg hs]; exact ⟨_, rfl⟩
  obtain ⟨w, hw⟩ := this
  simp [setChromosome, setFromChromosome, hw]

example : (⟨⟨true, 3⟩, 4, -3, 4⟩ : IntParam).cs.get ≠ .ok [true, false].length := by decide

/-- **C08 (set once).** A chromosome size that has been set cannot be set again. -/
theorem C08_size_set_once (c c' : ConstSize) (n m : Nat) (h : c.set n = .ok c') :
    c'.get = .ok n ∧ (c'.set m).threw := by
  unfold ConstSize.set at h
  split at h
  · cases h
  · simp at h; subst h; simp [ConstSize.get, ConstSize.set]

example : ConstSize.new.set 5 = .ok ⟨true, 5⟩ := rfl

end K52.IntParam
