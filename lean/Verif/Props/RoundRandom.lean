import Verif.Model.Random
import Verif.Spec.Rounding

/-! # C92: `Random` in rounded arithmetic -/

set_option linter.unusedSectionVars false

namespace K52.Random
variable {r : Rounding}

/-- **C92 (base quantity).** In any rounding arithmetic `GetBaseRandomQuantity` lies in `[0, 1]`, is 0 for `rand() = 0`, 1 for
`rand() = RAND_MAX`, and is monotone in the number drawn. -/
theorem C92_base (l : Lib) (hl : l.Valid) :
    (0 : Fl r) ≤ (base l).1 ∧ (base l).1 ≤ (1 : Fl r) ∧
    ((rand l).1 = 0 → (base l).1 = (0 : Fl r)) ∧ ((rand l).1 = l.randMax → r.fl l.randMax = l.randMax → (base l).1 = (1 : Fl r)) ∧
    ∀ l' : Lib, l'.randMax = l.randMax → (rand l).1 ≤ (rand l').1 → (base (R := Fl r) l).1 ≤ (base l').1 := by
  have hm : (0 : ℚ) < r.fl l.randMax := by
    have h1 : (1 : ℚ) ≤ l.randMax := by exact_mod_cast hl.1
    have := r.mono h1
    rw [r.one] at this
    linarith
  have hn : (0 : ℚ) ≤ r.fl (rand l).1 := by
    have := r.mono (show (0 : ℚ) ≤ ((rand l).1 : ℚ) by positivity)
    rwa [r.zero] at this
  have hle : r.fl (rand l).1 ≤ r.fl l.randMax := r.mono (by exact_mod_cast hl.2 0)
  refine ⟨?_, ?_, ?_, ?_, ?_⟩
  · exact Fl.le_round (b := 0) (div_nonneg hn hm.le)
  · exact Fl.round_le (b := 1) ((div_le_one hm).2 hle)
  · intro h
    apply Fl.ext
    show r.fl (r.fl (rand l).1 / r.fl l.randMax) = 0
    rw [h]
    simp [r.zero]
  · intro h _
    apply Fl.ext
    show r.fl (r.fl (rand l).1 / r.fl l.randMax) = 1
    rw [h, div_self hm.ne', r.one]
  · intro l' hl' h
    show r.fl (r.fl (rand l).1 / r.fl l.randMax) ≤ r.fl (r.fl (rand l').1 / r.fl l'.randMax)
    rw [hl']
    exact r.mono (div_le_div_of_nonneg_right (r.mono (by exact_mod_cast h)) hm.le)

/-- **C92 (continuous quantity).** In any rounding arithmetic `GetContinuousRandomQuantity(min, max)` is never below `min`, and never above
the rounded value of `(max - min) + min`. -/
theorem C92_continuous (l : Lib) (hl : l.Valid) (min max : Fl r) (h : min ≤ max) :
    min ≤ (continuous l min max).1 ∧ (continuous l min max).1 ≤ max - min + min := by
  obtain ⟨b0, b1, _⟩ := C92_base (r := r) l hl
  have hd : (0 : ℚ) ≤ r.fl (max.val - min.val) := Fl.le_round (b := (0 : Fl r)) (sub_nonneg.2 (Fl.le_iff.1 h))
  have b0' : (0 : ℚ) ≤ (base (R := Fl r) l).1.val := b0
  have b1' : (base (R := Fl r) l).1.val ≤ 1 := b1
  have hp0 : (0 : ℚ) ≤ r.fl ((base (R := Fl r) l).1.val * r.fl (max.val - min.val)) :=
    Fl.le_round (b := (0 : Fl r)) (mul_nonneg b0' hd)
  have hp1 : r.fl ((base (R := Fl r) l).1.val * r.fl (max.val - min.val)) ≤ r.fl (max.val - min.val) :=
    Fl.round_le (b := max - min) (by
      show _ ≤ r.fl (max.val - min.val)
      nlinarith)
  constructor
  · refine Fl.le_iff.2 (Fl.le_round (b := min) ?_)
    show min.val ≤ r.fl ((base (R := Fl r) l).1.val * r.fl (max.val - min.val)) + min.val
    linarith
  · show r.fl (r.fl ((base (R := Fl r) l).1.val * r.fl (max.val - min.val)) + min.val) ≤ r.fl (r.fl (max.val - min.val) + min.val)
    exact r.mono (by linarith)

/-- **C92 (exact width).** If `max - min` is representable, the quantity lies in `[min, max]`. -/
theorem C92_within (l : Lib) (hl : l.Valid) (min max : Fl r) (h : min ≤ max) (he : r.fl (max.val - min.val) = max.val - min.val) :
    min ≤ (continuous l min max).1 ∧ (continuous l min max).1 ≤ max := by
  obtain ⟨h1, h2⟩ := C92_continuous l hl min max h
  refine ⟨h1, h2.trans (Fl.le_iff.2 (le_of_eq ?_))⟩
  show r.fl (r.fl (max.val - min.val) + min.val) = max.val
  rw [he, sub_add_cancel, Fl.fl_val]

/-- **C92 (upper end).** The bound is attained: when `rand()` gives `RAND_MAX` (itself representable) the result is exactly the rounded
`(max - min) + min`. -/
theorem C92_attained (l : Lib) (hl : l.Valid) (hm : (rand l).1 = l.randMax) (hr : r.fl l.randMax = l.randMax) (min max : Fl r) :
    (continuous l min max).1 = max - min + min := by
  obtain ⟨_, _, _, h1, _⟩ := C92_base (r := r) l hl
  apply Fl.ext
  show r.fl (r.fl ((base (R := Fl r) l).1.val * r.fl (max.val - min.val)) + min.val) = r.fl (r.fl (max.val - min.val) + min.val)
  rw [h1 hm hr]
  show r.fl (r.fl (1 * r.fl (max.val - min.val)) + min.val) = _
  rw [one_mul, r.idem]

/-- **C92 (vectors).** Every component of `GenerateRandomVector` obeys the same bounds. -/
theorem C92_vector (min max : Fl r) (h : min ≤ max) : ∀ (n : Nat) (l : Lib), l.Valid →
    (vector l n min max).1.length = n ∧ ∀ x ∈ (vector l n min max).1, min ≤ x ∧ x ≤ max - min + min
  | 0, _, _ => by simp [vector]
  | n + 1, l, hl => by
    have hl' : (rand l).2.Valid := ⟨hl.1, fun i => hl.2 (i + 1)⟩
    obtain ⟨h1, h2⟩ := C92_vector min max h n (rand l).2 hl'
    simp only [vector]
    refine ⟨by simp only [List.length_cons]; exact congrArg (· + 1) h1, ?_⟩
    intro x hx
    rcases List.mem_cons.1 hx with rfl | hx
    · exact C92_continuous l hl min max h
    · exact h2 x hx

/-- **C92 (events).** An event of probability 1 always happens, and with round-to-nearest one of probability 0 happens exactly when
`rand()` gives 0. -/
theorem C92_event (l : Lib) (hl : l.Valid) :
    event l (1 : Fl r) = .ok (true, (rand l).2) ∧
    ∀ (p : Nat) (hp : 1 ≤ p), event l (0 : Fl (Nearest.nearest p hp)) = .ok (decide ((rand l).1 = 0), (rand l).2) := by
  constructor
  · have h1 := (C92_base (r := r) l hl).2.1
    have e1 : ¬ (1 : Fl r) < 0 := fun h => by
      have : (1 : ℚ) < 0 := h
      linarith
    unfold event validateProbability
    rw [if_neg (by rintro (h | h); exacts [e1 h, lt_irrefl _ h]), Res.ok_bind, decide_eq_true h1]
    rfl
  · intro p hp
    have hb := C92_base (r := Nearest.nearest p hp) l hl
    have e1 : ¬ (0 : Fl (Nearest.nearest p hp)) > 1 := fun h => by
      have : (1 : ℚ) < 0 := h
      linarith
    unfold event validateProbability
    rw [if_neg (by rintro (h | h); exacts [lt_irrefl _ h, e1 h]), Res.ok_bind, Res.pure_eq]
    congr 2
    by_cases h0 : (rand l).1 = 0
    · rw [decide_eq_true h0, decide_eq_true (le_of_eq (hb.2.2.1 h0))]
    · rw [decide_eq_false h0, decide_eq_false]
      intro hle
      have hle : Nearest.fl p (Nearest.fl p (rand l).1 / Nearest.fl p l.randMax) ≤ 0 := hle
      have hpos : ∀ x : ℚ, 0 < x → 0 < Nearest.fl p x := fun x hx =>
        lt_of_lt_of_le (zpow_pos Nearest.two_pos _) (Nearest.fl_binade hp hx).1
      have a1 : (0 : ℚ) < (rand l).1 := by exact_mod_cast Nat.pos_of_ne_zero h0
      have a2 : (0 : ℚ) < l.randMax := by exact_mod_cast hl.1
      exact absurd hle (not_le.2 (hpos _ (div_pos (hpos _ a1) (hpos _ a2))))

/-- **C92 (overshoot).** In `double` arithmetic `GetContinuousRandomQuantity(-3, 0.1)` is larger than 0.1 when `rand()` gives `RAND_MAX`,
whatever `RAND_MAX` (up to 2^53) is. -/
theorem C92_overshoot (l : Lib) (hl : l.Valid) (hm : (rand l).1 = l.randMax) (hs : l.randMax ≤ 2 ^ 53) :
    let min : Fl Nearest.double := Fl.round _ (-3)
    let max : Fl Nearest.double := Fl.round _ (1 / 10)
    max < (continuous l min max).1 := by
  intro min max
  have hr : Nearest.double.fl l.randMax = l.randMax := by
    have := Nearest.fl_repr (p := 53) (by norm_num) (l.randMax : Int) 0 (by rw [abs_of_nonneg (by omega)]; exact_mod_cast hs)
    change Nearest.fl 53 (l.randMax : ℚ) = _
    simpa using this
  rw [C92_attained l hl hm hr]
  show Nearest.fl 53 (1 / 10) < Nearest.fl 53 (Nearest.fl 53 (Nearest.fl 53 (1 / 10) - Nearest.fl 53 (-3)) + Nearest.fl 53 (-3))
  decide +kernel

/-- Non-vacuity of `C92_within`: -3 and 1 in `double`. -/
example : Nearest.double.fl ((Fl.round Nearest.double 1).val - (Fl.round Nearest.double (-3)).val) = 1 - (-3) ∧
    (Fl.round Nearest.double 1).val = 1 ∧ (Fl.round Nearest.double (-3)).val = -3 := by
  refine ⟨?_, ?_, ?_⟩ <;> decide +kernel

example : (⟨2147483647, fun _ => 2147483647⟩ : Lib).Valid ∧ 2147483647 ≤ 2 ^ 53 := ⟨⟨by norm_num, fun _ => le_refl _⟩, by norm_num⟩

end K52.Random
