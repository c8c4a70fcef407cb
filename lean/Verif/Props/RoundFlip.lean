import Verif.Props.RoundGrid
import Verif.Props.RoundMutator

/-! # C101: the flip-bit mutator's probability in rounded arithmetic -/

set_option linter.unusedSectionVars false

namespace K52.Mutator
open K52.Random (Lib rand)

variable {r : Rounding}

/-- The integer part of the rounded reciprocal. -/
def reciprocal (r : Rounding) (x : ℚ) : Int := ⌊r.fl (1 / x)⌋

/-- **C101** (constructor).  In any rounded arithmetic: the mutator is constructed exactly when the rounded reciprocal of the probability is at least
2, and then skips at most `reciprocal - 1` genes. -/
theorem C101_constructor (x : Fl r) (l : Lib) (h0 : x.val ≠ 0) (hfit : -2147483647 ≤ reciprocal r x.val ∧ reciprocal r x.val ≤ 2147483647) :
    (2 ≤ reciprocal r x.val → ∃ f l', Flip.new x l = .ok (f, l') ∧ f.Inv ∧ f.maxSkip = reciprocal r x.val - 1) ∧
    (¬ 2 ≤ reciprocal r x.val → (Flip.new x l).threw) := by
  have hne : x ≠ 0 := by rintro rfl; exact h0 rfl
  have hf : HasFloor.floor ((1 : Fl r) / x) = reciprocal r x.val := rfl
  have e1 : int32 (reciprocal r x.val) = .ok (reciprocal r x.val) := int32_ok.2 ⟨rfl, by omega, by omega⟩
  have e2 : int32 (reciprocal r x.val - 1) = .ok (reciprocal r x.val - 1) := int32_ok.2 ⟨rfl, by omega, by omega⟩
  constructor
  · intro h
    obtain ⟨f, l', e, hi, hm, _⟩ := Flip.set_inv ⟨reciprocal r x.val - 1, 0, 0⟩ l (by simp only; omega) (by simp only; omega)
    refine ⟨f, l', ?_, hi, hm⟩
    unfold Flip.new
    rw [if_neg hne, hf, e1, Res.ok_bind, e2, Res.ok_bind, if_neg (by omega), e]
  · intro h
    unfold Flip.new
    rw [if_neg hne, hf, e1, Res.ok_bind, e2, Res.ok_bind, if_pos (by omega)]
    trivial

section nearest
variable {p : Nat} (hp : 1 ≤ p)

/-- A representable number above 1/2 is at least `1/2 + 2^-p`. -/
theorem above_half (hp : 1 ≤ p) {x : ℚ} (hx : Nearest.fl p x = x) (h : 1 / 2 < x) : 1 / 2 + 1 / 2 ^ p ≤ x := by
  have hP0 : (0 : ℚ) < 2 ^ p := by positivity
  have hhalf : (2 : ℚ) ^ p = 2 * 2 ^ (p - 1) := by rw [← pow_succ', Nat.sub_add_cancel hp]
  rcases le_or_gt 1 x with h1 | h1
  · have : (1 : ℚ) / 2 ^ p ≤ 1 / 2 := by
      have : (1 : ℚ) ≤ 2 ^ (p - 1) := one_le_pow₀ (by norm_num)
      rw [hhalf]
      exact one_div_le_one_div_of_le (by norm_num) (by linarith)
    linarith
  · have hlog : Int.log 2 |x| = -1 := by
      rw [abs_of_pos (by linarith)]
      have a : (-1 : Int) ≤ Int.log 2 x := by
        rw [← Int.zpow_le_iff_le_log (by norm_num) (by linarith)]
        norm_num
        linarith
      have b : Int.log 2 x < 0 := by
        rw [← Int.lt_zpow_iff_log_lt (by norm_num) (by linarith)]
        simpa using h1
      omega
    have hu : Nearest.ulpExp p x = -p := by unfold Nearest.ulpExp; rw [hlog]; ring
    unfold Nearest.fl at hx
    rw [hu, zpow_neg, zpow_natCast] at hx
    set N := Nearest.nearestInt (x / (2 ^ p)⁻¹)
    have hN : (N : ℚ) = x * 2 ^ p := by
      rw [← hx]
      field_simp
    have h2 : (2 ^ (p - 1) : ℚ) < N := by rw [hN, hhalf]; nlinarith [show (0 : ℚ) < 2 ^ (p - 1) by positivity]
    have h3 : (2 ^ (p - 1) : Int) < N := by exact_mod_cast h2
    have h4 : (2 ^ (p - 1) : Int) + 1 ≤ N := h3
    have h5 : ((2 ^ (p - 1) : ℚ)) + 1 ≤ N := by exact_mod_cast h4
    rw [hN] at h5
    have e : 1 / 2 + 1 / (2 : ℚ) ^ p = (2 ^ (p - 1) + 1) / 2 ^ p := by rw [hhalf]; field_simp
    rw [e, div_le_iff₀ hP0]
    exact h5

/-- **C101** (what is accepted).  With round to nearest the constructor accepts exactly the positive probabilities up to 1/2 (whose reciprocal
fits an `int`), as in exact arithmetic. -/
theorem C101_accepts (h2 : 2 ≤ p) (x : Fl (Nearest.nearest p hp)) (h0 : x.val ≠ 0) :
    2 ≤ reciprocal (Nearest.nearest p hp) x.val ↔ 0 < x.val ∧ x.val ≤ 1 / 2 := by
  have two : Nearest.fl p 2 = 2 := by
    have := Nearest.fl_repr hp 2 0 (by
      rw [abs_of_nonneg (by norm_num)]
      calc (2 : Int) = 2 ^ 1 := by norm_num
        _ ≤ 2 ^ p := pow_le_pow_right₀ (by norm_num) hp)
    rw [zpow_zero, mul_one] at this
    exact_mod_cast this
  have mono := (Nearest.nearest p hp).mono
  unfold reciprocal
  rw [Int.le_floor]
  push_cast
  constructor
  · intro h
    have hpos : 0 < x.val := by
      by_contra hc
      have h1 : 1 / x.val ≤ 0 := div_nonpos_of_nonneg_of_nonpos zero_le_one (not_lt.1 hc)
      have h2 := mono h1
      rw [(Nearest.nearest p hp).zero] at h2
      linarith
    refine ⟨hpos, ?_⟩
    by_contra hc
    push Not at hc
    have ha := above_half hp x.fl_val hc
    set e : ℚ := 2 / 2 ^ p with he
    have he0 : 0 < e := by positivity
    have he1 : e ≤ 1 := by
      rw [he, div_le_one (by positivity)]
      calc (2 : ℚ) = 2 ^ 1 := by norm_num
        _ ≤ 2 ^ p := pow_le_pow_right₀ (by norm_num) hp
    have hx : (1 + e) / 2 ≤ x.val := by
      have : (1 + e) / 2 = 1 / 2 + 1 / 2 ^ p := by rw [he]; ring
      rw [this]; exact ha
    have hle : 1 / x.val ≤ 2 - e := by
      rw [div_le_iff₀ hpos]
      nlinarith
    have hrep : Nearest.fl p (2 - e) = 2 - e := by
      have := Nearest.fl_repr hp (2 ^ p - 1) (1 - p) (by
        have : (1 : Int) ≤ 2 ^ p := one_le_pow₀ (by norm_num)
        rw [abs_of_nonneg (by linarith)]; linarith)
      have e2 : (((2 ^ p - 1 : Int)) : ℚ) * 2 ^ (1 - p : Int) = 2 - e := by
        rw [he, zpow_sub₀ (by norm_num), zpow_natCast]
        push_cast
        have : (2 : ℚ) ^ p ≠ 0 := by positivity
        field_simp
      rw [e2] at this
      exact this
    have := mono hle
    change Nearest.fl p _ ≤ Nearest.fl p _ at this
    rw [hrep] at this
    change (2 : ℚ) ≤ Nearest.fl p (1 / x.val) at h
    linarith
  · rintro ⟨hpos, hle⟩
    have : (2 : ℚ) ≤ 1 / x.val := by rw [le_div_iff₀ hpos]; linarith
    have := mono this
    change Nearest.fl p 2 ≤ _ at this
    rwa [two] at this

/-- **C101** (accuracy).  The number of genes skipped at most is that of exact arithmetic or one more. -/
theorem C101_count (x : Fl (Nearest.nearest p hp)) (hpos : 0 < x.val) (hbig : 1 / x.val < 2 ^ p) :
    ⌊1 / x.val⌋ ≤ reciprocal (Nearest.nearest p hp) x.val ∧ reciprocal (Nearest.nearest p hp) x.val ≤ ⌊1 / x.val⌋ + 1 := by
  have hP0 : (0 : ℚ) < 2 ^ p := by positivity
  have h0 : 0 < 1 / x.val := by positivity
  have herr := (abs_le.1 (Nearest.fl_error (p := p) (1 / x.val))).2
  rw [abs_of_pos h0] at herr
  have hsm : 1 / x.val / 2 ^ p < 1 := by rw [div_lt_one hP0]; exact hbig
  unfold reciprocal
  constructor
  · rw [Int.le_floor]
    have hfl : Nearest.fl p ((⌊1 / x.val⌋ : Int) : ℚ) = (⌊1 / x.val⌋ : Int) := by
      have h1 : 0 ≤ ⌊1 / x.val⌋ := Int.floor_nonneg.2 h0.le
      have h2 : ((⌊1 / x.val⌋ : Int) : ℚ) < 2 ^ p := lt_of_le_of_lt (Int.floor_le _) hbig
      have h3 : ⌊1 / x.val⌋ < 2 ^ p := by exact_mod_cast h2
      have := Nearest.fl_repr hp ⌊1 / x.val⌋ 0 (by rw [abs_of_nonneg h1]; exact h3.le)
      rw [zpow_zero, mul_one] at this
      exact this
    have := (Nearest.nearest p hp).mono (Int.floor_le (1 / x.val))
    change Nearest.fl p _ ≤ _ at this
    rwa [hfl] at this
  · have : Nearest.fl p (1 / x.val) < 1 / x.val + 1 := by linarith
    have := Int.floor_mono this.le
    rwa [Int.floor_add_one] at this

/-- **C101** (one gene in `n`).  For the probability written as `1.0 / n` (rounded) the reciprocal is `n` or `n - 1`. -/
theorem C101_one_in (h3 : 3 ≤ p) (n : Nat) (hn : 1 ≤ n) (hn2 : n ≤ 2 ^ (p - 2)) :
    (n : Int) - 1 ≤ reciprocal (Nearest.nearest p hp) (Nearest.fl p (1 / n)) ∧ reciprocal (Nearest.nearest p hp) (Nearest.fl p (1 / n)) ≤ n := by
  have hP0 : (0 : ℚ) < 2 ^ p := by positivity
  have hnq : (1 : ℚ) ≤ n := by exact_mod_cast hn
  have hn0 : (0 : ℚ) < n := by linarith
  have hn4 : (n : ℚ) * 4 ≤ 2 ^ p := by
    have e : (2 : ℚ) ^ p = 2 ^ (p - 2) * 4 := by
      rw [show (4 : ℚ) = 2 ^ 2 by norm_num, ← pow_add, Nat.sub_add_cancel (by omega)]
    have : (n : ℚ) ≤ 2 ^ (p - 2) := by exact_mod_cast hn2
    rw [e]; linarith
  set u : ℚ := 1 / 2 ^ p with hu
  have hu0 : 0 < u := by positivity
  have hnu : (n : ℚ) * u ≤ 1 / 4 := by
    rw [hu, mul_one_div, div_le_div_iff₀ hP0 (by norm_num)]; linarith
  have hu8 : u ≤ 1 / 8 := by
    rw [hu]
    have : (2 : ℚ) ^ 3 ≤ 2 ^ p := pow_le_pow_right₀ (by norm_num) h3
    exact one_div_le_one_div_of_le (by norm_num) (by linarith)
  have err : ∀ x : ℚ, 0 ≤ x → |Nearest.fl p x - x| ≤ u * x := by
    intro x hx
    have := Nearest.fl_error (p := p) x
    rw [abs_of_nonneg hx] at this
    rw [hu]
    calc _ ≤ x / 2 ^ p := this
      _ = _ := by ring
  have k1 := abs_le.1 (err (1 / n) (by positivity))
  set x := Nearest.fl p (1 / n) with hx
  have hxl : (1 - u) / n ≤ x := by
    have : (1 - u) / n = 1 / n - u * (1 / n) := by ring
    rw [this]; linarith [k1.1]
  have hxu : x ≤ (1 + u) / n := by
    have : (1 + u) / n = 1 / n + u * (1 / n) := by ring
    rw [this]; linarith [k1.2]
  have hxpos : 0 < x := lt_of_lt_of_le (div_pos (by linarith) hn0) hxl
  have hil : (n : ℚ) * (1 - u) ≤ 1 / x := by
    rw [le_div_iff₀ hxpos]
    calc (n : ℚ) * (1 - u) * x ≤ n * (1 - u) * ((1 + u) / n) := mul_le_mul_of_nonneg_left hxu (mul_nonneg hn0.le (by linarith))
      _ = 1 - u * u := by field_simp; ring
      _ ≤ 1 := by nlinarith
  have hiu : 1 / x ≤ (n : ℚ) * (1 + 2 * u) := by
    rw [div_le_iff₀ hxpos]
    calc (1 : ℚ) ≤ (1 + 2 * u) * (1 - u) := by nlinarith
      _ = n * (1 + 2 * u) * ((1 - u) / n) := by field_simp
      _ ≤ n * (1 + 2 * u) * x := mul_le_mul_of_nonneg_left hxl (by positivity)
  have k2 := abs_le.1 (err (1 / x) (by positivity))
  unfold reciprocal
  constructor
  · rw [Int.le_floor]
    push_cast
    show (n : ℚ) - 1 ≤ Nearest.fl p (1 / x)
    have h1 : u * (1 / x) ≤ u * (n * (1 + 2 * u)) := mul_le_mul_of_nonneg_left hiu hu0.le
    nlinarith [k2.1]
  · have h1 : u * (1 / x) ≤ u * (n * (1 + 2 * u)) := mul_le_mul_of_nonneg_left hiu hu0.le
    have : Nearest.fl p (1 / x) < n + 1 := by nlinarith [k2.2]
    have h2 : ⌊Nearest.fl p (1 / x)⌋ < (n : Int) + 1 := by
      rw [Int.floor_lt]
      push_cast
      exact this
    exact Int.lt_add_one_iff.1 h2

end nearest

/-- **C101** (one gene less).  `FlipBitMutator(1.0 / 93)` and `FlipBitMutator(0.00001)`: the reciprocals are below 93 and 100000 in `double`, and the
mutators skip at most 91 and 99998 genes, not 92 and 99999. -/
theorem C101_one_less (l : Lib) : (∃ f l', Flip.new (dbl (1 / 93)) l = .ok (f, l') ∧ f.maxSkip = 91) ∧
    (∃ f l', Flip.new (dbl (1 / 100000)) l = .ok (f, l') ∧ f.maxSkip = 99998) := by
  have e : reciprocal Nearest.double (dbl (1 / 93)).val = 92 := by decide +kernel
  have e' : reciprocal Nearest.double (dbl (1 / 100000)).val = 99999 := by decide +kernel
  constructor
  · obtain ⟨f, l', h1, _, h2⟩ := (C101_constructor (dbl (1 / 93)) l (by decide +kernel) (by rw [e]; omega)).1 (by rw [e]; omega)
    exact ⟨f, l', h1, by rw [h2, e]; rfl⟩
  · obtain ⟨f, l', h1, _, h2⟩ := (C101_constructor (dbl (1 / 100000)) l (by decide +kernel) (by rw [e']; omega)).1 (by rw [e']; omega)
    exact ⟨f, l', h1, by rw [h2, e']; rfl⟩

/-- ... but `FlipBitMutator(0.1)` and `FlipBitMutator(1.0 / 3)` are as expected. -/
example : reciprocal Nearest.double (dbl (1 / 10)).val = 10 ∧ reciprocal Nearest.double (dbl (1 / 3)).val = 3 := by decide +kernel

end K52.Mutator
