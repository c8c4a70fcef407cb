import Verif.Props.Random
import Verif.Model.RandomWrap

/-! # C77: what `GetRandomBool` yields where the undefined steps of `Random` wrap around -/

namespace K52.Random

/-- The loop never stops early: all 32 iterations run. -/
theorem maxBitLoopWrap_glibc : maxBitLoopWrap 2147483647 32 1 0 = 32 := by decide +kernel

theorem randomBoolsWrap_spec (l : Lib) (t : Nat) : ∀ (n : Nat) (words j : Nat), j ≤ t + 1 →
    (randomBoolsWrap n ⟨l.stream words, j, t, { l with stream := fun i => l.stream (words + 1 + i) }⟩).1 =
      (List.range n).map (fun i => !(l.stream (words + (j + i) / (t + 1))).testBit ((j + i) % (t + 1) % 32))
  | 0, words, j, _ => rfl
  | n + 1, words, j, hj => by
    have hpos : 0 < t + 1 := by omega
    by_cases hjt : j ≤ t
    · have e := randomBoolsWrap_spec l t n words (j + 1) (by omega)
      unfold randomBoolsWrap nextBitWrap
      simp only [if_neg (show ¬ (j > t) by omega)]
      rw [e, List.range_succ_eq_map, List.map_cons, List.map_map]
      congr 1
      · rw [and_one_shift, Nat.add_zero, Nat.div_eq_of_lt (by omega), Nat.mod_eq_of_lt (show j < t + 1 by omega), Nat.add_zero]
      · apply List.map_congr_left
        intro i _
        simp only [Function.comp]
        rw [show j + 1 + i = j + Nat.succ i by omega]
    · have hj' : j = t + 1 := by omega
      subst hj'
      have e := randomBoolsWrap_spec l t n (words + 1) 1 (by omega)
      unfold randomBoolsWrap nextBitWrap
      simp only [if_pos (show t + 1 > t by omega), rand]
      have hs : (fun i => l.stream (words + 1 + (i + 1))) = fun i => l.stream (words + 1 + 1 + i) := by
        funext i; congr 1; omega
      simp only [Nat.add_zero, Nat.zero_add, hs]
      rw [e, List.range_succ_eq_map, List.map_cons, List.map_map]
      congr 1
      · rw [and_one_shift, Nat.add_zero, Nat.div_self hpos, Nat.mod_self]
      · apply List.map_congr_left
        intro i _
        simp only [Function.comp]
        rw [show t + 1 + Nat.succ i = (1 + i) + (t + 1) by omega, Nat.add_div_right _ hpos, Nat.add_mod_right]
        congr 3
        omega

/-- **C77.** With `RAND_MAX = 2^31 - 1` and wrap-around arithmetic, the booleans come 33 to a `rand()` value: 31 negated bits of the value,
low bit first, then always `true`, then the first one again. -/
theorem C77_glibc_bits (l : Lib) (h : l.Valid) (hm : l.randMax = 2147483647) (n : Nat) :
    (randomBoolsWrap n (newWrap l)).1 = (List.range n).map (fun i =>
      if i % 33 < 31 then !(l.stream (i / 33)).testBit (i % 33)
      else if i % 33 = 31 then true
      else !(l.stream (i / 33)).testBit 0) := by
  have h0 : newWrap l = ⟨l.stream 0, 0, 32, { l with stream := fun i => l.stream (0 + 1 + i) }⟩ := by
    unfold newWrap
    rw [hm, maxBitLoopWrap_glibc]
    simp only [rand, Nat.zero_add, hm]
    congr 2
    funext i; congr 1; omega
  rw [h0, randomBoolsWrap_spec l 32 n 0 0 (by omega)]
  apply List.map_congr_left
  intro i _
  simp only [Nat.zero_add]
  by_cases h1 : i % 33 < 31
  · rw [if_pos h1, Nat.mod_eq_of_lt (show i % 33 < 32 by omega)]
  · rw [if_neg h1]
    by_cases h2 : i % 33 = 31
    · rw [if_pos h2, h2]
      have : l.stream (i / 33) < 2 ^ 31 := by have := h.2 (i / 33); omega
      rw [Nat.testBit_lt_two_pow this]
      rfl
    · have h3 : i % 33 = 32 := by omega
      rw [if_neg h2, h3]

/-- **C77 (bias).** So of any 33 booleans from one `rand()` value, number 31 is `true` whatever was drawn and number 32 repeats number 0: only 31
are random. -/
theorem C77_glibc_bias (l : Lib) (h : l.Valid) (hm : l.randMax = 2147483647) (n w : Nat) (hn : 33 * w + 32 < n) :
    (randomBoolsWrap n (newWrap l)).1[33 * w + 31]? = some true ∧
    (randomBoolsWrap n (newWrap l)).1[33 * w + 32]? = (randomBoolsWrap n (newWrap l)).1[33 * w]? := by
  rw [C77_glibc_bits l h hm n]
  have hr : ∀ k, k < n → (List.range n)[k]? = some k := fun k hk => List.getElem?_range hk
  simp only [List.getElem?_map, hr (33 * w + 31) (by omega), hr (33 * w + 32) hn, hr (33 * w) (by omega), Option.map_some]
  have e1 : (33 * w + 31) % 33 = 31 := by omega
  have e2 : (33 * w + 32) % 33 = 32 := by omega
  have e3 : (33 * w) % 33 = 0 := by omega
  have e4 : (33 * w + 32) / 33 = w := by omega
  have e5 : (33 * w) / 33 = w := by omega
  simp [e1, e2, e3, e4, e5]

/-- Such a library exists, and the two readings agree where the standard defines one: for `RAND_MAX < 2^30` wrapping changes nothing. -/
example : (⟨2147483647, fun i => i % 1000⟩ : Lib).Valid := ⟨by decide, fun i => by simp only; omega⟩

theorem maxBitLoopWrap_agrees (m : Nat) (hm : m ≤ 2147483647) : ∀ (k : Nat) (v : Nat) (b t : Nat), v ≤ 1073741824 → maxBitLoop m k v b = .ok t →
    maxBitLoopWrap m k v b = t
  | 0, v, b, t, _, h => by simpa [maxBitLoop, maxBitLoopWrap] using h
  | k + 1, v, b, t, hv, h => by
    unfold maxBitLoop at h
    unfold maxBitLoopWrap
    split at h
    · next h1 =>
      have hw : wrap32 ((v : Int) * 2) = ((v * 2 : Nat) : Int) := by unfold wrap32; push_cast; omega
      rw [hw]
      split at h
      · next h2 => rw [if_pos (by exact_mod_cast h2)]; simpa using h
      · next h2 =>
        rw [if_neg (by exact_mod_cast h2)]
        cases k with
        | zero => simpa [maxBitLoop, maxBitLoopWrap] using h
        | succ k =>
          refine maxBitLoopWrap_agrees m hm (k + 1) (v * 2) (b + 1) t ?_ h
          unfold maxBitLoop at h
          split at h
          · omega
          · simp at h
    · simp at h

/-- **C77 (agreement).** Where the constructor is defined (C37), the wrap-around reading builds the same object. -/
theorem C77_agrees (l : Lib) (hm : l.randMax ≤ 2147483647) (s : State) (h : new l = .ok s) : newWrap l = s := by
  unfold new at h
  rw [Res.bind_eq_ok] at h
  obtain ⟨t, ht, h⟩ := h
  simp only [Res.pure_eq, Res.ok.injEq] at h
  subst h
  have := maxBitLoopWrap_agrees l.randMax hm 32 1 0 t (by norm_num) ht
  unfold newWrap
  rw [← this]
  rfl

end K52.Random
