import Verif.Model.Gradient
import Verif.Lemmas.RoundSum

/-!
# C107: the golden-section search of steepest descent in rounded arithmetic

`Fl (Nearest.nearest p hp)`: numbers with `p` significant binary digits, every operation rounded to nearest (`double`: `p = 53`).
-/

namespace K52.Gradient.Sd

namespace Round

variable {p : Nat} {hp : 1 ≤ p}

/-- Numbers with `p` significant binary digits. -/
abbrev Num (p : Nat) (hp : 1 ≤ p) := Fl (Nearest.nearest p hp)

/-! ### Representable numbers -/

theorem repr_of (hp : 1 ≤ p) {x : ℚ} (h : Nearest.fl p x = x) : ∃ N : Int, |N| ≤ 2 ^ p ∧ x = N * 2 ^ Nearest.ulpExp p x := by
  rcases eq_or_ne x 0 with rfl | h0
  · exact ⟨0, by simp, by simp⟩
  have hu := zpow_pos Nearest.two_pos (Nearest.ulpExp p x)
  refine ⟨Nearest.nearestInt (x / 2 ^ Nearest.ulpExp p x), ?_, h.symm⟩
  have hlt := (Nearest.log_bounds (abs_pos.2 h0)).2
  have e2 : (2 : ℚ) ^ (Int.log 2 |x| + 1) = ((2 ^ p : Int) : ℚ) * 2 ^ Nearest.ulpExp p x := by
    push_cast
    rw [← zpow_natCast, ← zpow_add₀ (by norm_num)]
    congr 1
    unfold Nearest.ulpExp
    omega
  rw [e2] at hlt
  have hx : |x| = |((Nearest.nearestInt (x / 2 ^ Nearest.ulpExp p x) : Int) : ℚ)| * 2 ^ Nearest.ulpExp p x := by
    conv_lhs => rw [← h]
    unfold Nearest.fl
    rw [abs_mul, abs_of_pos hu]
  rw [hx] at hlt
  have := lt_of_mul_lt_mul_right hlt hu.le
  exact_mod_cast this.le

/-- Representable numbers above a positive bound are multiples of one power of two. -/
theorem multiple (hp : 1 ≤ p) {x y : ℚ} (hx : 0 < x) (hxy : x ≤ y) (h : Nearest.fl p y = y) : ∃ M : Int, y = M * 2 ^ Nearest.ulpExp p x := by
  obtain ⟨N, -, hN⟩ := repr_of hp h
  have hl : Nearest.ulpExp p x ≤ Nearest.ulpExp p y := by
    unfold Nearest.ulpExp
    rw [abs_of_pos hx, abs_of_pos (by linarith)]
    have := Int.log_mono_right (b := 2) hx hxy
    omega
  obtain ⟨k, hk⟩ := Int.eq_ofNat_of_zero_le (sub_nonneg.2 hl)
  refine ⟨N * 2 ^ k, ?_⟩
  have e : (2 : ℚ) ^ Nearest.ulpExp p y = 2 ^ k * 2 ^ Nearest.ulpExp p x := by
    rw [← zpow_natCast, ← zpow_add₀ (by norm_num)]
    congr 1
    omega
  rw [e] at hN
  push_cast
  rw [mul_assoc]
  exact hN

theorem two_val : (2 : Num p hp).val = 2 := by
  show Nearest.fl p ((2 : Nat) : ℚ) = 2
  have := Nearest.fl_repr hp 1 1 (by rw [abs_one]; exact one_le_pow₀ (by norm_num))
  simpa using this

theorem double_fl (hp : 1 ≤ p) {x : ℚ} (h : Nearest.fl p x = x) : Nearest.fl p (2 * x) = 2 * x := by
  obtain ⟨N, hN, hx⟩ := repr_of hp h
  have e : 2 * x = N * 2 ^ (Nearest.ulpExp p x + 1) := by
    conv_lhs => rw [hx]
    rw [zpow_add₀ (by norm_num)]
    ring
  rw [e]
  exact Nearest.fl_repr hp N _ hN

/-! ### The borders -/

/-- The inner points lie between the borders. -/
structure Inside (b : BordersOf (Num p hp)) : Prop where
  nonneg : 0 ≤ b.left.val
  ll : b.left.val ≤ b.nextLeft.val
  lr : b.nextLeft.val ≤ b.right.val
  rl : b.left.val ≤ b.nextRight.val
  rr : b.nextRight.val ≤ b.right.val

/-- A fresh inner point lies between the borders. -/
theorem fresh (hp2 : 2 ≤ p) {c l r : Num p hp} (hc0 : 0 ≤ c.val) (hc : c.val ≤ 1 / 2) (hlr : l.val ≤ r.val) :
    (l.val ≤ (r - c * (r - l)).val ∧ (r - c * (r - l)).val ≤ r.val) ∧ l.val ≤ (l + c * (r - l)).val ∧ (l + c * (r - l)).val ≤ r.val := by
  have hfl : ∀ x, (Nearest.nearest p hp).fl x = Nearest.fl p x := fun _ => rfl
  have hD : 0 ≤ r.val - l.val := by linarith
  have h1 : 0 ≤ (r - l).val := Nearest.fl_nonneg hp hD
  have e1 : (r - l).val ≤ (r.val - l.val) * (5 / 4) := by
    have := Nearest.fl_error (p := p) (r.val - l.val)
    rw [abs_of_nonneg hD] at this
    have h4 : (4 : ℚ) ≤ 2 ^ p := by
      have := pow_le_pow_right₀ (show (1 : ℚ) ≤ 2 by norm_num) hp2
      linarith
    have h5 : (r.val - l.val) / 2 ^ p ≤ (r.val - l.val) / 4 := div_le_div_of_nonneg_left hD (by norm_num) h4
    have h6 := (abs_le.1 this).2
    have : (r - l).val = Nearest.fl p (r.val - l.val) := rfl
    rw [this]
    linarith
  have h2 : 0 ≤ (c * (r - l)).val := Nearest.fl_nonneg hp (mul_nonneg hc0 h1)
  have e2 : (c * (r - l)).val ≤ r.val - l.val := by
    have hx : 0 ≤ c.val * (r - l).val := mul_nonneg hc0 h1
    have := Nearest.fl_error (p := p) (c.val * (r - l).val)
    rw [abs_of_nonneg hx] at this
    have h4 : (4 : ℚ) ≤ 2 ^ p := by
      have := pow_le_pow_right₀ (show (1 : ℚ) ≤ 2 by norm_num) hp2
      linarith
    have h5 : c.val * (r - l).val / 2 ^ p ≤ c.val * (r - l).val / 4 := div_le_div_of_nonneg_left hx (by norm_num) h4
    have h6 := (abs_le.1 this).2
    have h7 : c.val * (r - l).val ≤ 1 / 2 * ((r.val - l.val) * (5 / 4)) := mul_le_mul hc e1 h1 (by norm_num)
    have : (c * (r - l)).val = Nearest.fl p (c.val * (r - l).val) := rfl
    rw [this]
    linarith
  refine ⟨⟨?_, ?_⟩, ?_, ?_⟩
  · rw [Fl.val_sub]; exact Fl.le_round (b := l) (by linarith)
  · rw [Fl.val_sub]; exact Fl.round_le (b := r) (by linarith)
  · rw [Fl.val_add]; exact Fl.le_round (b := l) (by linarith)
  · rw [Fl.val_add]; exact Fl.round_le (b := r) (by linarith)

section
variable (hp2 : 2 ≤ p) {c : Num p hp} (hc0 : 0 ≤ c.val) (hc : c.val ≤ 1 / 2)
include hp2 hc0 hc

/-- One round keeps the inner points inside and does not widen the interval. -/
theorem narrow_inside {b : BordersOf (Num p hp)} (h : Inside b) (P Q : Prop) [Decidable P] [Decidable Q] :
    Inside (narrowBy c b P Q) ∧ b.left.val ≤ (narrowBy c b P Q).left.val ∧ (narrowBy c b P Q).right.val ≤ b.right.val := by
  obtain ⟨h0, h1, h2, h3, h4⟩ := h
  unfold narrowBy
  split_ifs with g1 g2 g2
  · have g : b.nextLeft.val < b.nextRight.val := g1
    obtain ⟨⟨f1, f2⟩, -⟩ := fresh hp2 hc0 hc h2
    exact ⟨⟨by simp only; linarith, by simp only; linarith, by simp only; linarith, f1, f2⟩, h1, le_rfl⟩
  · have g : b.nextLeft.val < b.nextRight.val := g1
    obtain ⟨-, f1, f2⟩ := fresh hp2 hc0 hc h3
    exact ⟨⟨h0, f1, f2, by simp only; linarith, by simp only; linarith⟩, le_rfl, h4⟩
  · have g : b.nextRight.val ≤ b.nextLeft.val := not_lt.1 g1
    obtain ⟨⟨f1, f2⟩, -⟩ := fresh hp2 hc0 hc h4
    exact ⟨⟨by simp only; linarith, f1, f2, by simp only; linarith, by simp only; linarith⟩, h3, le_rfl⟩
  · have g : b.nextRight.val ≤ b.nextLeft.val := not_lt.1 g1
    obtain ⟨-, f1, f2⟩ := fresh hp2 hc0 hc h1
    exact ⟨⟨h0, by simp only; linarith, by simp only; linarith, f1, f2⟩, le_rfl, h2⟩

variable (worse : Num p hp → Num p hp → Prop) [DecidableRel worse] (wide : Num p hp → Prop) [DecidablePred wide] {precision : ℚ}
  (hprec : 0 < precision) (hwide : ∀ d, wide d → precision < |d.val|)

omit hp2 hc0 hc in
/-- While the loop goes on the right border is larger than the precision. -/
theorem wide_right (hprec : 0 < precision) (hwide : ∀ d, wide d → precision < |d.val|) {b : BordersOf (Num p hp)} (h : Inside b)
    (hw : wide (b.left - b.right)) : precision < b.right.val ∧ b.left.val < b.right.val := by
  have h1 := hwide _ hw
  have h2 := h.ll.trans h.lr
  have e : |(b.left - b.right).val| = Nearest.fl p (b.right.val - b.left.val) := by
    have : (b.left - b.right).val = -Nearest.fl p (b.right.val - b.left.val) := by
      rw [← Nearest.fl_neg]
      show Nearest.fl p (b.left.val - b.right.val) = _
      congr 1
      ring
    rw [this, abs_neg, abs_of_nonneg (Nearest.fl_nonneg hp (by linarith))]
  rw [e] at h1
  constructor
  · refine lt_of_lt_of_le h1 ?_
    exact Fl.round_le (r := Nearest.nearest p hp) (b := b.right) (by linarith [h.nonneg])
  · rcases h2.lt_or_eq with h | h
    · exact h
    · rw [h, sub_self, Nearest.fl_zero] at h1
      linarith

omit hp2 hc0 hc in
theorem golden_mono {k k' : Nat} (hk : k ≤ k') {b : BordersOf (Num p hp)} {v : Num p hp} (h : goldenBy c worse wide k b = some v) :
    goldenBy c worse wide k' b = some v := by
  induction k generalizing k' b with
  | zero => simp [goldenBy] at h
  | succ k ih =>
    obtain ⟨k', rfl⟩ : ∃ j, k' = j + 1 := ⟨k' - 1, by omega⟩
    unfold goldenBy at h ⊢
    simp only at h ⊢
    split at h
    · rw [if_pos ‹_›]; exact h
    · rw [if_neg ‹_›]
      split at h
      · rw [if_pos ‹_›]; exact ih (by omega) h
      · rw [if_neg ‹_›]; exact h

include hprec hwide

/-- Away from 0: both borders are multiples of one power of two. -/
theorem ends_positive (E : Int) (x : ℚ) (hx : 0 < x) (hE : E = Nearest.ulpExp p x) (m : Nat) :
    ∀ b : BordersOf (Num p hp), Inside b → x ≤ b.left.val → b.right.val - b.left.val ≤ m * 2 ^ E → ∃ v, goldenBy c worse wide (m + 1) b = some v := by
  have hE0 : (0 : ℚ) < 2 ^ E := zpow_pos (by norm_num) E
  induction m with
  | zero =>
    intro b hb hxl hm
    obtain ⟨hin, h1, h2⟩ := narrow_inside hp2 hc0 hc hb (worse b.nextLeft b.nextRight) (worse b.nextRight b.nextLeft)
    unfold goldenBy
    simp only
    split_ifs with g1 g2
    · exact ⟨_, rfl⟩
    · exfalso
      have := (wide_right wide hprec hwide hin g2).2
      push_cast at hm
      linarith
    · exact ⟨_, rfl⟩
  | succ m ih =>
    intro b hb hxl hm
    obtain ⟨hin, h1, h2⟩ := narrow_inside hp2 hc0 hc hb (worse b.nextLeft b.nextRight) (worse b.nextRight b.nextLeft)
    unfold goldenBy
    simp only
    split_ifs with g1 g2
    · exact ⟨_, rfl⟩
    · refine ih _ hin (hxl.trans h1) ?_
      have h3 := hin.ll.trans hin.lr
      generalize narrowBy c b (worse b.nextLeft b.nextRight) (worse b.nextRight b.nextLeft) = b' at *
      obtain ⟨A, hA⟩ := multiple hp hx hxl b.left.fl_val
      obtain ⟨B, hB⟩ := multiple hp hx (hxl.trans (hb.ll.trans hb.lr)) b.right.fl_val
      obtain ⟨A', hA'⟩ := multiple hp hx (hxl.trans h1) b'.left.fl_val
      obtain ⟨B', hB'⟩ := multiple hp hx (hxl.trans (h1.trans h3)) b'.right.fl_val
      rw [← hE] at hA hB hA' hB'
      rw [hA, hA'] at h1
      rw [hB, hB'] at h2
      have i1 : A ≤ A' := by exact_mod_cast le_of_mul_le_mul_right h1 hE0
      have i2 : B' ≤ B := by exact_mod_cast le_of_mul_le_mul_right h2 hE0
      have i3 : ¬ (A' = A ∧ B' = B) := by
        rintro ⟨rfl, rfl⟩
        exact g1 ⟨Fl.ext (by rw [hA, hA']), Fl.ext (by rw [hB, hB'])⟩
      rw [hA, hB, ← sub_mul] at hm
      have i4 : B - A ≤ m + 1 := by
        have := le_of_mul_le_mul_right hm hE0
        push_cast at this
        exact_mod_cast this
      have i5 : B' - A' ≤ m := by
        by_contra hcon
        exact i3 ⟨by omega, by omega⟩
      rw [hA', hB', ← sub_mul]
      refine mul_le_mul_of_nonneg_right ?_ hE0.le
      exact_mod_cast i5
    · exact ⟨_, rfl⟩

/-- With left border 0 or not. -/
theorem ends_any (E : Int) (hE : E = Nearest.ulpExp p precision) (m : Nat) :
    ∀ b : BordersOf (Num p hp), Inside b → b.right.val ≤ m * 2 ^ E → ∃ k v, goldenBy c worse wide k b = some v := by
  have hE0 : (0 : ℚ) < 2 ^ E := zpow_pos (by norm_num) E
  have hpos : ∀ b : BordersOf (Num p hp), Inside b → 0 < b.left.val → ∃ k v, goldenBy c worse wide k b = some v := by
    intro b hb h0
    have hE1 : (0 : ℚ) < 2 ^ Nearest.ulpExp p b.left.val := zpow_pos (by norm_num) _
    obtain ⟨m, hm⟩ := exists_nat_ge ((b.right.val - b.left.val) / 2 ^ Nearest.ulpExp p b.left.val)
    rw [div_le_iff₀ hE1] at hm
    exact ⟨m + 1, ends_positive hp2 hc0 hc worse wide hprec hwide _ b.left.val h0 rfl m b hb le_rfl hm⟩
  induction m with
  | zero =>
    intro b hb hm
    refine ⟨1, ?_⟩
    obtain ⟨hin, h1, h2⟩ := narrow_inside hp2 hc0 hc hb (worse b.nextLeft b.nextRight) (worse b.nextRight b.nextLeft)
    unfold goldenBy
    simp only
    split_ifs with g1 g2
    · exact ⟨_, rfl⟩
    · exfalso
      have := (wide_right wide hprec hwide hin g2).1
      push_cast at hm
      linarith
    · exact ⟨_, rfl⟩
  | succ m ih =>
    intro b hb hm
    rcases hb.nonneg.lt_or_eq with h0 | h0
    · exact hpos b hb h0
    obtain ⟨hin, h1, h2⟩ := narrow_inside hp2 hc0 hc hb (worse b.nextLeft b.nextRight) (worse b.nextRight b.nextLeft)
    by_cases g1 : (narrowBy c b (worse b.nextLeft b.nextRight) (worse b.nextRight b.nextLeft)).left = b.left ∧
        (narrowBy c b (worse b.nextLeft b.nextRight) (worse b.nextRight b.nextLeft)).right = b.right
    · refine ⟨1, ?_⟩
      unfold goldenBy
      simp only
      rw [if_pos g1]
      exact ⟨_, rfl⟩
    by_cases g2 : wide ((narrowBy c b (worse b.nextLeft b.nextRight) (worse b.nextRight b.nextLeft)).left -
        (narrowBy c b (worse b.nextLeft b.nextRight) (worse b.nextRight b.nextLeft)).right)
    swap
    · refine ⟨1, ?_⟩
      unfold goldenBy
      simp only
      rw [if_neg g1, if_neg g2]
      exact ⟨_, rfl⟩
    have next : ∃ k v, goldenBy c worse wide k (narrowBy c b (worse b.nextLeft b.nextRight) (worse b.nextRight b.nextLeft)) = some v := by
      rcases hin.nonneg.lt_or_eq with h0' | h0'
      · exact hpos _ hin h0'
      refine ih _ hin ?_
      have hr := (wide_right wide hprec hwide hin g2).1
      generalize narrowBy c b (worse b.nextLeft b.nextRight) (worse b.nextRight b.nextLeft) = b' at *
      obtain ⟨B, hB⟩ := multiple hp hprec (hr.le.trans h2) b.right.fl_val
      obtain ⟨B', hB'⟩ := multiple hp hprec hr.le b'.right.fl_val
      rw [← hE] at hB hB'
      rw [hB, hB'] at h2
      have i2 : B' ≤ B := by exact_mod_cast le_of_mul_le_mul_right h2 hE0
      have i3 : B' ≠ B := by
        rintro rfl
        exact g1 ⟨Fl.ext (by rw [← h0', ← h0]), Fl.ext (by rw [hB, hB'])⟩
      rw [hB] at hm
      have i4 : B ≤ m + 1 := by
        have := le_of_mul_le_mul_right hm hE0
        push_cast at this
        exact_mod_cast this
      rw [hB']
      refine mul_le_mul_of_nonneg_right ?_ hE0.le
      exact_mod_cast (by omega : B' ≤ m)
    obtain ⟨k, v, hk⟩ := next
    refine ⟨k + 1, v, ?_⟩
    unfold goldenBy
    simp only
    rw [if_neg g1, if_pos g2]
    exact hk

omit hprec hwide in
/-- What is returned lies between the borders. -/
theorem golden_between (k : Nat) (b : BordersOf (Num p hp)) (hb : Inside b) {v : Num p hp} (h : goldenBy c worse wide k b = some v) :
    b.left.val ≤ v.val ∧ v.val ≤ b.right.val := by
  induction k generalizing b with
  | zero => simp [goldenBy] at h
  | succ k ih =>
    obtain ⟨hin, h1, h2⟩ := narrow_inside hp2 hc0 hc hb (worse b.nextLeft b.nextRight) (worse b.nextRight b.nextLeft)
    have mid : ∀ l r : Num p hp, l.val ≤ r.val → l.val ≤ ((l + r) / 2).val ∧ ((l + r) / 2).val ≤ r.val := by
      intro l r hlr
      have e : ((l + r) / 2).val = (Nearest.nearest p hp).fl ((l + r).val / 2) := by rw [Fl.val_div, two_val]
      rw [e]
      have d1 : (l + r).val ≤ 2 * r.val := by
        have := (Nearest.nearest p hp).mono (show l.val + r.val ≤ 2 * r.val by linarith)
        have h' : (Nearest.nearest p hp).fl (2 * r.val) = 2 * r.val := double_fl hp r.fl_val
        rw [h'] at this
        exact this
      have d2 : 2 * l.val ≤ (l + r).val := by
        have := (Nearest.nearest p hp).mono (show 2 * l.val ≤ l.val + r.val by linarith)
        have h' : (Nearest.nearest p hp).fl (2 * l.val) = 2 * l.val := double_fl hp l.fl_val
        rw [h'] at this
        exact this
      exact ⟨Fl.le_round (b := l) (by linarith), Fl.round_le (b := r) (by linarith)⟩
    have hlr := hin.ll.trans hin.lr
    unfold goldenBy at h
    simp only at h
    have m := mid _ _ hlr
    split_ifs at h with g1 g2
    · simp only [Option.some.injEq] at h
      subst h
      exact ⟨h1.trans m.1, m.2.trans h2⟩
    · obtain ⟨i1, i2⟩ := ih _ hin h
      exact ⟨h1.trans i1, i2.trans h2⟩
    · simp only [Option.some.injEq] at h
      subst h
      exact ⟨h1.trans m.1, m.2.trans h2⟩

end

/-- **C107.** With at least two digits and a constriction number between 0 and 1/2, the golden-section search in rounded arithmetic ends for every
objective function - any answers to the comparisons, so NaN too -, every positive precision and every border, and returns a step length between 0 and the
border.  (`wide` is the loop's test; both versions of `abs` make it false for differences within the precision.) -/
theorem C107_ends (hp2 : 2 ≤ p) (c s : Num p hp) (hc0 : 0 ≤ c.val) (hc : c.val ≤ 1 / 2) (hs : 0 ≤ s.val) (worse : Num p hp → Num p hp → Prop)
    [DecidableRel worse] (wide : Num p hp → Prop) [DecidablePred wide] (precision : ℚ) (hprec : 0 < precision)
    (hwide : ∀ d, wide d → precision < |d.val|) :
    ∃ v, (∃ fuel₀, ∀ fuel ≥ fuel₀, findStepBy c worse wide fuel s = some v) ∧ 0 ≤ v.val ∧ v.val ≤ s.val := by
  have hin : Inside (⟨0, s, 0 + c * (s - 0), s - c * (s - 0)⟩ : BordersOf (Num p hp)) := by
    obtain ⟨⟨f1, f2⟩, f3, f4⟩ := fresh hp2 hc0 hc (l := (0 : Num p hp)) (r := s) hs
    exact ⟨le_rfl, f3, f4, f1, f2⟩
  have hE0 : (0 : ℚ) < 2 ^ Nearest.ulpExp p precision := zpow_pos (by norm_num) _
  obtain ⟨m, hm⟩ := exists_nat_ge (s.val / 2 ^ Nearest.ulpExp p precision)
  rw [div_le_iff₀ hE0] at hm
  obtain ⟨k, v, hk⟩ := ends_any hp2 hc0 hc worse wide hprec hwide _ rfl m _ hin hm
  exact ⟨v, ⟨k, fun fuel hf => golden_mono worse wide hf hk⟩, golden_between hp2 hc0 hc worse wide k _ hin hk⟩

/-- `constriction_number` as a `double`. -/
abbrev cDouble : Fl Nearest.double := Fl.round _ (382 / 1000)

/-- Non-vacuity of `C107_ends`: in `double`, with the constant of the code and an objective function that is never comparable (NaN), from the border 1. -/
example : ∃ v, (∃ fuel₀, ∀ fuel ≥ fuel₀, findStepBy cDouble (fun _ _ => False) (fun d => 1 / 10 ^ 6 < |d.val|) fuel 1 = some v) ∧ 0 ≤ v.val ∧ v.val ≤ 1 := by
  obtain ⟨v, h1, h2, h3⟩ := C107_ends (p := 53) (hp := by norm_num) (by norm_num) cDouble 1 (by decide +kernel) (by decide +kernel) (by decide +kernel)
    (fun _ _ => False) (fun d => 1 / 10 ^ 6 < |d.val|) (1 / 10 ^ 6) (by norm_num) (fun _ h => h)
  exact ⟨v, h1, h2, h3.trans (by decide +kernel)⟩

/-- **C107.** What rounding costs: in `double`, with the constant of the code, border 2, precision `2e-15` and the distance from `m = 1.6879583468654369` as
objective function - a function with one minimum and monotonous on both sides of it -, the search ends with a step length that is more than 20000 times the
precision away from the minimum (two inner points coincide on the way, and the code then keeps the wrong half). -/
theorem C107_loses_minimum : ∃ (m v : Fl Nearest.double) (fuel : Nat),
    findStepBy cDouble (fun s t => |(s - m).val| > |(t - m).val|) (fun d => 2 / 10 ^ 15 < |d.val|) fuel (Fl.round _ 2) = some v ∧
      0 < m.val ∧ m.val < 2 ∧ 20000 * (2 / 10 ^ 15) < |v.val - m.val| :=
  ⟨Fl.round _ (1900472145490025 / 1125899906842624), Fl.round _ (3800944290864811 / 2251799813685248), 100,
    by decide +kernel, by decide +kernel, by decide +kernel, by decide +kernel⟩

end Round

end K52.Gradient.Sd
