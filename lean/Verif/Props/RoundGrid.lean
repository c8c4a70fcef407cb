import Verif.Props.Processors
import Verif.Spec.Rounding

/-!
# C100: grid search in rounded arithmetic

`Fl r`: numbers of a rounding `r`, every operation rounded (`Verif.Spec.Rounding`); `Nearest.nearest p`: round to nearest with `p` digits;
`Nearest.double`: `p = 53`.
-/

set_option linter.unusedSectionVars false

namespace K52.Grid

variable {r : Rounding}

/-- `std::floor` of a representable number is exact. -/
instance : HasFloor (Fl r) := ⟨fun x => ⌊x.val⌋⟩

/-- The number of values per coordinate: difference and quotient rounded. -/
def perRounded (r : Rounding) (precision lower upper : ℚ) : Nat := (⌊r.fl (r.fl (upper - lower) / precision)⌋).toNat + 1

/-- Value number `d` of a coordinate: product and sum rounded. -/
def valueAt (r : Rounding) (precision lower : ℚ) (d : Nat) : ℚ := r.fl (r.fl (r.fl d * precision) + lower)

theorem quotient_nonneg {precision lower upper : Fl r} (hp : 0 < precision.val) (hb : lower.val ≤ upper.val) :
    0 ≤ ⌊r.fl (r.fl (upper.val - lower.val) / precision.val)⌋ := by
  have h1 : 0 ≤ r.fl (upper.val - lower.val) := by
    have := r.mono (show (0 : ℚ) ≤ upper.val - lower.val by linarith)
    rwa [r.zero] at this
  have h2 : 0 ≤ r.fl (r.fl (upper.val - lower.val) / precision.val) := by
    have := r.mono (show (0 : ℚ) ≤ r.fl (upper.val - lower.val) / precision.val by positivity)
    rwa [r.zero] at this
  exact Int.floor_nonneg.2 h2

theorem sizeRounded_eq {precision lower upper : Fl r} (hp : 0 < precision.val) (hb : lower.val ≤ upper.val)
    (hs : perRounded r precision.val lower.val upper.val ≤ 2147483647) :
    sizePerParameter precision lower upper = .ok (perRounded r precision.val lower.val upper.val : Int) := by
  have h0 := quotient_nonneg hp hb
  have hne : precision ≠ 0 := by
    rintro rfl
    exact lt_irrefl _ hp
  have hf : HasFloor.floor ((upper - lower) / precision) = ⌊r.fl (r.fl (upper.val - lower.val) / precision.val)⌋ := rfl
  unfold sizePerParameter perRounded at *
  rw [if_neg hne, hf]
  generalize ⌊r.fl (r.fl (upper.val - lower.val) / precision.val)⌋ = k at h0 hs ⊢
  unfold int32
  rw [if_pos (by omega), Res.ok_bind, if_pos (by omega)]
  simp only [Res.ok.injEq]
  omega

/-- **C100** (the points).  In any rounded arithmetic, for a positive precision and ordered bounds (and sizes that fit the machine's integers)
grid search counts the objective function exactly at the points whose coordinates are rounded values `lower + d * precision`,
`d < perRounded`, `perRounded ^ dimension` times in all, and leaves in the parameters the first of the counted points at which the function is
largest. -/
theorem C100_grid {S : Type} [LinearOrder S] (precision lower upper : Fl r) (hp : 0 < precision.val) (hb : lower.val ≤ upper.val)
    (f : List (Fl r) → S) (initial : List (Fl r))
    (hs : perRounded r precision.val lower.val upper.val ≤ 2147483647)
    (ht : perRounded r precision.val lower.val upper.val ^ initial.length < 18446744073709551616) :
    ∃ out, optimize precision lower upper f (.continuous initial) = .ok out ∧
      (∀ p, p ∈ out.counted ↔ p.length = initial.length ∧ ∀ x ∈ p, ∃ d < perRounded r precision.val lower.val upper.val,
        x.val = valueAt r precision.val lower.val d) ∧
      out.counted.length = perRounded r precision.val lower.val upper.val ^ initial.length ∧
      ∃ k, out.counted[k]? = some out.values ∧ Processor.BestAt (out.counted.map f) true k := by
  set K := perRounded r precision.val lower.val upper.val with hK
  have hKpos : 0 < K := by rw [hK]; unfold perRounded; omega
  set n := initial.length with hn
  set ps : List (List (Fl r)) := (List.range' 0 (K ^ n)).map fun k => (digits K k 0 n).map fun (d : Nat) => (d : Fl r) * precision + lower
    with hps
  have hpts : points precision lower (K : Int).toNat n 0 (intPow (K : Int).toNat n) = .ok ps := by
    rw [Int.toNat_natCast, intPow_eq ht, points_eq precision lower hKpos ht]
  have hlen : ps.length = K ^ n := by simp [hps]
  have hne : ps ≠ [] := by
    intro e; rw [e] at hlen; simp at hlen; exact absurd hlen.symm (Nat.pow_pos hKpos).ne'
  have hval : ∀ d : Nat, ((d : Fl r) * precision + lower).val = valueAt r precision.val lower.val d := fun d => rfl
  cases hq : ps with
  | nil => exact absurd hq hne
  | cons q qs =>
    have hsel := Processor.select_best true (f q) (qs.map f)
    rw [← maxElement_eq_select] at hsel
    obtain ⟨v, hv, _⟩ := id hsel
    have hv' : ((q :: qs).map f)[maxElement 0 (f q) 1 (qs.map f)]? = some v := by simpa using hv
    rw [List.getElem?_map] at hv'
    rcases hb' : (q :: qs)[maxElement 0 (f q) 1 (qs.map f)]? with _ | b
    · rw [hb'] at hv'; simp at hv'
    refine ⟨⟨b, q :: qs⟩, ?_, ?_, ?_, _, hb', by simpa using hsel⟩
    · simp only [optimize]
      rw [sizeRounded_eq hp hb hs, ← hK, Res.ok_bind, if_neg (by omega), hpts, Res.ok_bind, hq]
      simp only [List.map_cons, hb', Res.pure_eq]
    · intro p
      rw [← hq, hps]
      simp only [List.mem_map, List.mem_range'_1, Nat.zero_le, true_and, Nat.zero_add]
      constructor
      · rintro ⟨k, hk, rfl⟩
        refine ⟨by simp [digits_length], ?_⟩
        intro x hx
        obtain ⟨d, hd, rfl⟩ := List.mem_map.1 hx
        exact ⟨d, digits_lt hKpos k n 0 d hd, hval d⟩
      · rintro ⟨hl, hg⟩
        have : ∃ ds : List Nat, p = ds.map (fun (d : Nat) => (d : Fl r) * precision + lower) ∧ ∀ d ∈ ds, d < K := by
          clear hl
          induction p with
          | nil => exact ⟨[], rfl, by simp⟩
          | cons x xs ih =>
            obtain ⟨ds, e, hds⟩ := ih (fun y hy => hg y (by simp [hy]))
            obtain ⟨m, e1, e2⟩ := hg x (by simp)
            refine ⟨m :: ds, by rw [List.map_cons, ← e, Fl.ext ((hval m).trans e2.symm)], ?_⟩
            intro d hd
            simp only [List.mem_cons] at hd
            rcases hd with rfl | hd
            · exact e1
            · exact hds d hd
        obtain ⟨ds, rfl, hds⟩ := this
        obtain ⟨i, hi, e⟩ := digits_surj hKpos n ds (by simpa using hl) hds
        exact ⟨i, hi, by rw [e]⟩
    · simp only; rw [← hq, hlen]

/-- **C100** (order).  The values of a coordinate start exactly at the lower bound and never decrease. -/
theorem C100_monotone (precision : ℚ) (lower : Fl r) (hp : 0 ≤ precision) (d e : Nat) (h : d ≤ e) :
    valueAt r precision lower.val 0 = lower.val ∧ lower.val ≤ valueAt r precision lower.val d ∧
    valueAt r precision lower.val d ≤ valueAt r precision lower.val e := by
  have mono : ∀ d e : Nat, d ≤ e → valueAt r precision lower.val d ≤ valueAt r precision lower.val e := by
    intro d e h
    have h1 : r.fl (d : ℚ) ≤ r.fl (e : ℚ) := r.mono (by exact_mod_cast h)
    exact r.mono (by
      have := r.mono (mul_le_mul_of_nonneg_right h1 hp)
      linarith)
  have e0 : valueAt r precision lower.val 0 = lower.val := by simp [valueAt, r.zero, lower.fl_val]
  refine ⟨e0, ?_, mono d e h⟩
  have := mono 0 d (Nat.zero_le _)
  rwa [e0] at this

section nearest
variable {p : Nat} (hp : 1 ≤ p)

theorem fl_nat_exact (hp : 1 ≤ p) {d : Nat} (h : d ≤ 2 ^ p) : Nearest.fl p (d : ℚ) = d := by
  have := Nearest.fl_repr hp (d : Int) 0 (by rw [abs_of_nonneg (by positivity)]; exact_mod_cast h)
  rw [zpow_zero, mul_one] at this
  exact_mod_cast this

/-- **C100** (accuracy).  With round to nearest on `p` digits, value `d ≤ 2^p` of a coordinate differs from `lower + d * precision` by at most
`(2 d * precision + |lower + d * precision|) * 2^-p`. -/
theorem C100_error (precision lower : ℚ) (hpos : 0 ≤ precision) (d : Nat) (hd : d ≤ 2 ^ p) :
    |valueAt (Nearest.nearest p hp) precision lower d - (lower + d * precision)| ≤ (2 * (d * precision) + |lower + d * precision|) / 2 ^ p := by
  have ev : valueAt (Nearest.nearest p hp) precision lower d = Nearest.fl p (Nearest.fl p (d * precision) + lower) := by
    show Nearest.fl p (Nearest.fl p (Nearest.fl p (d : ℚ) * precision) + lower) = _
    rw [fl_nat_exact hp hd]
  rw [ev]
  have hA : 0 ≤ (d : ℚ) * precision := by positivity
  set A := (d : ℚ) * precision with hAdef
  have k1 := Nearest.fl_error (p := p) A
  rw [abs_of_nonneg hA] at k1
  have k2 := Nearest.fl_error (p := p) (Nearest.fl p A + lower)
  have hP : (1 : ℚ) ≤ 2 ^ p := one_le_pow₀ (by norm_num)
  have hP0 : (0 : ℚ) < 2 ^ p := by positivity
  have hAP : A / 2 ^ p ≤ A := div_le_self hA hP
  have k3 : |Nearest.fl p A + lower| ≤ |lower + A| + A := by
    have e : Nearest.fl p A + lower = (lower + A) + (Nearest.fl p A - A) := by ring
    rw [e]
    have := abs_add_le (lower + A) (Nearest.fl p A - A)
    linarith
  have k4 : |Nearest.fl p A + lower| / 2 ^ p ≤ (|lower + A| + A) / 2 ^ p := div_le_div_of_nonneg_right k3 hP0.le
  have e : Nearest.fl p (Nearest.fl p A + lower) - (lower + A) = (Nearest.fl p (Nearest.fl p A + lower) - (Nearest.fl p A + lower)) + (Nearest.fl p A - A) := by
    ring
  rw [e]
  have k5 := abs_add_le (Nearest.fl p (Nearest.fl p A + lower) - (Nearest.fl p A + lower)) (Nearest.fl p A - A)
  have e2 : (2 * A + |lower + A|) / 2 ^ p = (|lower + A| + A) / 2 ^ p + A / 2 ^ p := by ring
  rw [e2]
  linarith

theorem quotient_error {p : Nat} (h3 : 2 ≤ p) {D precision : ℚ} (hD : 0 ≤ D) (hpos : 0 < precision) :
    |Nearest.fl p (Nearest.fl p D / precision) - D / precision| ≤ 9 / 4 / 2 ^ p * (D / precision) := by
  have hP0 : (0 : ℚ) < 2 ^ p := by positivity
  set u : ℚ := 1 / 2 ^ p with hu
  have hu0 : 0 < u := by positivity
  have hu4 : u ≤ 1 / 4 := by
    rw [hu]
    have : (2 : ℚ) ^ 2 ≤ 2 ^ p := pow_le_pow_right₀ (by norm_num) h3
    exact one_div_le_one_div_of_le (by norm_num) (by linarith)
  have err : ∀ x : ℚ, |Nearest.fl p x - x| ≤ u * |x| := by
    intro x
    have := Nearest.fl_error (p := p) x
    rw [hu]
    calc _ ≤ |x| / 2 ^ p := this
      _ = _ := by ring
  have hq : 0 ≤ D / precision := by positivity
  set q := D / precision with hqd
  have k1 := err D
  rw [abs_of_nonneg hD] at k1
  have k2 : |Nearest.fl p D / precision - q| ≤ u * q := by
    have e : Nearest.fl p D / precision - q = (Nearest.fl p D - D) / precision := by rw [hqd]; ring
    rw [e, abs_div, abs_of_pos hpos, div_le_iff₀ hpos]
    have : u * q * precision = u * D := by rw [hqd]; field_simp
    rw [this]
    exact k1
  have k3 := err (Nearest.fl p D / precision)
  have k4 : |Nearest.fl p D / precision| ≤ q + u * q := by
    have := abs_sub_abs_le_abs_sub (Nearest.fl p D / precision) q
    rw [abs_of_nonneg hq] at this
    linarith
  have k5 : u * |Nearest.fl p D / precision| ≤ u * (q + u * q) := mul_le_mul_of_nonneg_left k4 hu0.le
  have k6 := abs_sub_le (Nearest.fl p (Nearest.fl p D / precision)) (Nearest.fl p D / precision) q
  have e : 9 / 4 / 2 ^ p * q = 9 / 4 * (u * q) := by rw [hu]; ring
  rw [e]
  have k7 : u * (u * q) ≤ 1 / 4 * (u * q) := mul_le_mul_of_nonneg_right hu4 (by positivity)
  nlinarith

/-- **C100** (number of values).  With at most `2^(p-2)` steps between the bounds the number of values per coordinate is off by at most one. -/
theorem C100_count (h2 : 2 ≤ p) (precision lower upper : ℚ) (hpos : 0 < precision) (hb : lower ≤ upper)
    (hq : (upper - lower) / precision ≤ 2 ^ (p - 2)) :
    perRounded (Nearest.nearest p hp) precision lower upper ≤ perCoordinate precision lower upper + 1 ∧
    perCoordinate precision lower upper ≤ perRounded (Nearest.nearest p hp) precision lower upper + 1 := by
  have he := quotient_error h2 (D := upper - lower) (by linarith) hpos
  set q := (upper - lower) / precision with hqd
  have hq0 : 0 ≤ q := div_nonneg (by linarith) hpos.le
  have hsmall : 9 / 4 / 2 ^ p * q ≤ 9 / 16 := by
    have e : (2 : ℚ) ^ p = 2 ^ (p - 2) * 4 := by
      rw [show (4 : ℚ) = 2 ^ 2 by norm_num, ← pow_add, Nat.sub_add_cancel h2]
    have h0 : (0 : ℚ) < 2 ^ (p - 2) := by positivity
    rw [e]
    calc 9 / 4 / (2 ^ (p - 2) * 4) * q ≤ 9 / 4 / (2 ^ (p - 2) * 4) * 2 ^ (p - 2) := mul_le_mul_of_nonneg_left hq (by positivity)
      _ = 9 / 16 := by field_simp; norm_num
  have hlt := abs_lt.1 (lt_of_le_of_lt (he.trans hsmall) (by norm_num : (9 / 16 : ℚ) < 1))
  have key : ∀ a b : ℚ, a < b + 1 → ⌊a⌋ ≤ ⌊b⌋ + 1 := by
    intro a b h
    have := Int.floor_mono h.le
    rwa [Int.floor_add_one] at this
  have a1 := key _ _ (show Nearest.fl p (Nearest.fl p (upper - lower) / precision) < q + 1 by linarith [hlt.2])
  have a2 := key _ _ (show q < Nearest.fl p (Nearest.fl p (upper - lower) / precision) + 1 by linarith [hlt.1])
  have hf : 0 ≤ ⌊q⌋ := Int.floor_nonneg.2 hq0
  have e : perRounded (Nearest.nearest p hp) precision lower upper = (⌊Nearest.fl p (Nearest.fl p (upper - lower) / precision)⌋).toNat + 1 := rfl
  rw [e]
  unfold perCoordinate
  rw [← hqd]
  constructor <;> omega

/-- **C100** (upper bound).  The values of a coordinate exceed the upper bound by at most `(8 * (upper - lower) + |upper|) * 2^-p`. -/
theorem C100_upper (h3 : 3 ≤ p) (precision lower upper : ℚ) (hpos : 0 < precision) (hb : lower ≤ upper) (d : Nat) (hd2 : d ≤ 2 ^ p)
    (hd : d < perRounded (Nearest.nearest p hp) precision lower upper) :
    valueAt (Nearest.nearest p hp) precision lower d ≤ upper + (8 * (upper - lower) + |upper|) / 2 ^ p := by
  have he := (abs_le.1 (quotient_error (p := p) (by omega) (D := upper - lower) (by linarith) hpos)).2
  have herr := (abs_le.1 (C100_error hp precision lower hpos.le d hd2)).2
  have hD : 0 ≤ upper - lower := by linarith
  set D := upper - lower with hDd
  have hP0 : (0 : ℚ) < 2 ^ p := by positivity
  set u : ℚ := 1 / 2 ^ p with hu
  have hu0 : 0 < u := by positivity
  have hu8 : u ≤ 1 / 8 := by
    rw [hu]
    have : (2 : ℚ) ^ 3 ≤ 2 ^ p := pow_le_pow_right₀ (by norm_num) h3
    exact one_div_le_one_div_of_le (by norm_num) (by linarith)
  have hfl0 : 0 ≤ Nearest.fl p (Nearest.fl p D / precision) := by
    have m := (Nearest.nearest p hp).mono
    have z := (Nearest.nearest p hp).zero
    have h1 : 0 ≤ Nearest.fl p D := by have := m hD; rw [z] at this; exact this
    have := m (show (0 : ℚ) ≤ Nearest.fl p D / precision by positivity)
    rw [z] at this
    exact this
  have hdq : (d : ℚ) ≤ Nearest.fl p (Nearest.fl p D / precision) := by
    have h1 : d ≤ (⌊Nearest.fl p (Nearest.fl p D / precision)⌋).toNat := Nat.lt_succ_iff.1 hd
    have h2 : (d : Int) ≤ ⌊Nearest.fl p (Nearest.fl p D / precision)⌋ := by
      have := Int.floor_nonneg.2 hfl0
      omega
    have h3 : ((d : Int) : ℚ) ≤ _ := Int.le_floor.1 h2
    exact_mod_cast h3
  have hA : (d : ℚ) * precision ≤ D + 9 / 4 * (u * D) := by
    have h1 : (d : ℚ) ≤ D / precision + 9 / 4 / 2 ^ p * (D / precision) := by linarith
    have h2 := mul_le_mul_of_nonneg_right h1 hpos.le
    have e : (D / precision + 9 / 4 / 2 ^ p * (D / precision)) * precision = D + 9 / 4 * (u * D) := by rw [hu]; field_simp
    rw [e] at h2
    exact h2
  have hA0 : 0 ≤ (d : ℚ) * precision := by positivity
  set A := (d : ℚ) * precision with hAd
  have huD : u * D ≤ 1 / 8 * D := mul_le_mul_of_nonneg_right hu8 hD
  have habs : |lower + A| ≤ |upper| + D + 9 / 4 * (u * D) := by
    have e : lower + A = upper + (A - D) := by rw [hDd]; ring
    rw [e]
    have h1 := abs_add_le upper (A - D)
    have h2 : |A - D| ≤ D + 9 / 4 * (u * D) := by
      rw [abs_le]
      constructor
      · have : 0 ≤ u * D := by positivity
        linarith
      · linarith
    linarith
  have e1 : (2 * A + |lower + A|) / 2 ^ p = u * (2 * A + |lower + A|) := by rw [hu]; ring
  have e2 : (8 * D + |upper|) / 2 ^ p = u * (8 * D + |upper|) := by rw [hu]; ring
  rw [e1] at herr
  rw [e2]
  have h1 : 2 * A + |lower + A| ≤ 3 * D + 27 / 4 * (1 / 8 * D) + |upper| := by nlinarith
  have h2 := mul_le_mul_of_nonneg_left h1 hu0.le
  have h3 : lower + A ≤ upper + 9 / 4 * (u * D) := by
    have : lower = upper - D := by rw [hDd]; ring
    linarith
  have h4 : 0 ≤ u * D := by positivity
  nlinarith

/-- **C100** (exact grids).  If the bounds and the precision are multiples of one power of two with quotients of at most `p` digits (as are
whole numbers, halves, quarters, ...), nothing is rounded: the points counted are exactly those of the exact grid. -/
theorem C100_exact {S : Type} [LinearOrder S] (precision lower upper : Fl (Nearest.nearest p hp)) (k a b c : Int) (ha : precision.val = a * 2 ^ k)
    (hb : lower.val = b * 2 ^ k) (hc : upper.val = c * 2 ^ k) (hpos : 0 < a) (hbc : b ≤ c) (hb2 : -(2 ^ p) ≤ b) (hc2 : c ≤ 2 ^ p)
    (hcb : c - b < 2 ^ p) (f : List (Fl (Nearest.nearest p hp)) → S) (initial : List (Fl (Nearest.nearest p hp)))
    (hs : perCoordinate precision.val lower.val upper.val ≤ 2147483647)
    (ht : perCoordinate precision.val lower.val upper.val ^ initial.length < 18446744073709551616) :
    ∃ out, optimize precision lower upper f (.continuous initial) = .ok out ∧
      (∀ q : List (Fl (Nearest.nearest p hp)), q ∈ out.counted ↔ IsGridPoint precision.val lower.val upper.val initial.length (q.map Fl.val)) ∧
      out.counted.length = perCoordinate precision.val lower.val upper.val ^ initial.length ∧
      ∃ k, out.counted[k]? = some out.values ∧ Processor.BestAt (out.counted.map f) true k := by
  have h2k : (0 : ℚ) < 2 ^ k := zpow_pos (by norm_num) k
  have haq : (0 : ℚ) < a := by exact_mod_cast hpos
  have hP0 : (0 : ℚ) < 2 ^ p := by positivity
  have hprec : 0 < precision.val := by rw [ha]; positivity
  have hbcq : (b : ℚ) ≤ c := by exact_mod_cast hbc
  have hle : lower.val ≤ upper.val := by rw [hb, hc]; exact mul_le_mul_of_nonneg_right hbcq h2k.le
  have hD : Nearest.fl p (upper.val - lower.val) = upper.val - lower.val := by
    have := Nearest.fl_repr hp (c - b) k (by rw [abs_of_nonneg (by linarith)]; exact hcb.le)
    rw [hb, hc, ← sub_mul]
    push_cast at this
    exact this
  have hquot : (upper.val - lower.val) / precision.val = ((c - b : Int) : ℚ) / a := by
    rw [ha, hb, hc]
    push_cast
    field_simp
  have hn0 : (0 : ℚ) ≤ ((c - b : Int) : ℚ) := by push_cast; linarith
  have hn1 : ((c - b : Int) : ℚ) < 2 ^ p := by exact_mod_cast hcb
  have hx0 : 0 ≤ ((c - b : Int) : ℚ) / a := by positivity
  -- the floor of the rounded quotient is the floor of the quotient
  have hfloor : ⌊Nearest.fl p (((c - b : Int) : ℚ) / a)⌋ = ⌊((c - b : Int) : ℚ) / a⌋ := by
    generalize c - b = n at hn0 hn1 hx0 ⊢
    set m : Int := ⌊(n : ℚ) / a⌋ with hm
    have hm1 : (m : ℚ) ≤ (n : ℚ) / a := Int.floor_le _
    have hm2 : (n : ℚ) / a < m + 1 := Int.lt_floor_add_one _
    have hm0 : 0 ≤ m := Int.floor_nonneg.2 hx0
    have hmn : (m : ℚ) ≤ 2 ^ p := by
      refine hm1.trans ((div_le_self hn0 ?_).trans hn1.le)
      exact_mod_cast hpos
    have hmfl : Nearest.fl p (m : ℚ) = m := by
      have := Nearest.fl_repr hp m 0 (by rw [abs_of_nonneg hm0]; exact_mod_cast hmn)
      rw [zpow_zero, mul_one] at this
      exact this
    rw [Int.floor_eq_iff]
    constructor
    · have := (Nearest.nearest p hp).mono hm1
      change Nearest.fl p _ ≤ Nearest.fl p _ at this
      rwa [hmfl] at this
    · have herr := (abs_le.1 (Nearest.fl_error (p := p) ((n : ℚ) / a))).2
      rw [abs_of_nonneg hx0] at herr
      have hint : (n : ℚ) / a ≤ m + 1 - 1 / a := by
        have h1 : (n : ℚ) < (m + 1) * a := by rwa [div_lt_iff₀ haq] at hm2
        have h2 : n < (m + 1) * a := by exact_mod_cast h1
        have h3 : n ≤ (m + 1) * a - 1 := by omega
        have h4 : (n : ℚ) ≤ (m + 1) * a - 1 := by exact_mod_cast h3
        rw [div_le_iff₀ haq]
        have : ((m : ℚ) + 1 - 1 / a) * a = (m + 1) * a - 1 := by field_simp
        rw [this]
        exact h4
      have hsm : (n : ℚ) / a / 2 ^ p < 1 / a := by
        rw [div_div, div_lt_div_iff₀ (by positivity) haq]
        nlinarith
      linarith
  have hfl : perRounded (Nearest.nearest p hp) precision.val lower.val upper.val = perCoordinate precision.val lower.val upper.val := by
    show (⌊Nearest.fl p (Nearest.fl p (upper.val - lower.val) / precision.val)⌋).toNat + 1 = _
    unfold perCoordinate
    rw [hD, hquot, hfloor]
  -- the values are exact
  have hval : ∀ d : Nat, d < perCoordinate precision.val lower.val upper.val →
      valueAt (Nearest.nearest p hp) precision.val lower.val d = lower.val + d * precision.val := by
    intro d hd
    have hup := (le_upper_iff hprec hle d).2 hd
    have hda : b + d * a ≤ c := by
      rw [ha, hb, hc] at hup
      have : ((b : ℚ) + d * a) * 2 ^ k ≤ c * 2 ^ k := by linarith
      have := le_of_mul_le_mul_right this h2k
      exact_mod_cast this
    have hd0 : (0 : Int) ≤ d * a := by positivity
    have hdd : (d : Int) ≤ d * a := by nlinarith [Int.natCast_nonneg d]
    have e1 : Nearest.fl p (d : ℚ) = d := fl_nat_exact hp (by
      have : (d : Int) ≤ 2 ^ p := by linarith
      exact_mod_cast this)
    have e2 : Nearest.fl p ((d : ℚ) * precision.val) = d * precision.val := by
      have := Nearest.fl_repr hp (d * a) k (by rw [abs_of_nonneg hd0]; linarith)
      rw [ha, ← mul_assoc]
      push_cast at this
      exact this
    have e3 : Nearest.fl p ((d : ℚ) * precision.val + lower.val) = lower.val + d * precision.val := by
      have := Nearest.fl_repr hp (b + d * a) k (by rw [abs_le]; constructor <;> linarith)
      push_cast at this
      rw [ha, hb, show (d : ℚ) * (a * 2 ^ k) + b * 2 ^ k = (b + d * a) * 2 ^ k by ring, this]
      ring
    show Nearest.fl p (Nearest.fl p (Nearest.fl p (d : ℚ) * precision.val) + lower.val) = _
    rw [e1, e2, e3]
  obtain ⟨out, h1, h2, h3, h4⟩ := C100_grid precision lower upper hprec hle f initial (by rw [hfl]; exact hs) (by rw [hfl]; exact ht)
  rw [hfl] at h2 h3
  refine ⟨out, h1, fun q => ?_, h3, h4⟩
  rw [h2 q]
  unfold IsGridPoint
  rw [List.length_map]
  refine and_congr_right fun _ => ?_
  constructor
  · intro h x hx
    obtain ⟨y, hy, rfl⟩ := List.mem_map.1 hx
    obtain ⟨d, hd, e⟩ := h y hy
    rw [hval d hd] at e
    exact ⟨d, e, by rw [e]; exact (le_upper_iff hprec hle d).2 hd⟩
  · intro h x hx
    obtain ⟨m, e, hm⟩ := h x.val (List.mem_map_of_mem hx)
    rw [e] at hm
    have hm' := (le_upper_iff hprec hle m).1 hm
    exact ⟨m, hm', by rw [hval m hm']; exact e⟩

end nearest

/-! ### Where it is not -/

/-- The double nearest to a number. -/
abbrev dbl (x : ℚ) : Fl Nearest.double := Fl.round _ x

/-- What a search in one dimension counts, as rational numbers. -/
def countedOf (o : Res (Outcome (Fl Nearest.double))) : Option (List (List ℚ)) :=
  match o with
  | .ok o => some (o.counted.map (·.map Fl.val))
  | _ => none

/-- **C100** (upper bound missed).  Steps of 0.1 from 0 to 0.3 in `double`: the quotient is below 3, so that only 0, 0.1 and 0.2 are tried and
a maximum at 0.3 is missed. -/
theorem C100_missed : countedOf (optimize (dbl (1 / 10)) 0 (dbl (3 / 10)) (fun p => p.map Fl.val) (.continuous [0])) =
    some [[0], [(dbl (1 / 10)).val], [(dbl (2 / 10)).val]] := by decide +kernel

/-- **C100** (upper bound exceeded).  Steps of 0.01 from -1.2 to -0.85 in `double`: the last point lies above the upper bound. -/
theorem C100_exceeds : ∃ ps, countedOf (optimize (dbl (1 / 100)) (dbl (-12 / 10)) (dbl (-85 / 100)) (fun p => p.map Fl.val) (.continuous [0])) = some ps ∧
    ps.length = 36 ∧ ∃ x, ps.getLast? = some [x] ∧ (dbl (-85 / 100)).val < x := by
  have h : (match countedOf (optimize (dbl (1 / 100)) (dbl (-12 / 10)) (dbl (-85 / 100)) (fun p => p.map Fl.val) (.continuous [0])) with
    | some ps => decide (ps.length = 36) && (match ps.getLast? with
      | some [x] => decide ((dbl (-85 / 100)).val < x)
      | _ => false)
    | none => false) = true := by decide +kernel
  split at h
  · next ps e =>
    simp only [Bool.and_eq_true, decide_eq_true_eq] at h
    obtain ⟨h1, h2⟩ := h
    refine ⟨ps, e, h1, ?_⟩
    split at h2
    · next x e' => exact ⟨x, e', by simpa using h2⟩
    · simp at h2
  · simp at h

/-- **C100** (coinciding points).  Steps of 1 from 2^53: neighbouring values coincide and the function is counted twice at the same point. -/
theorem C100_coincide : countedOf (optimize 1 (dbl (2 ^ 53)) (dbl (2 ^ 53 + 4)) (fun p => p.map Fl.val) (.continuous [0])) =
    some [[2 ^ 53], [2 ^ 53], [2 ^ 53 + 2], [2 ^ 53 + 4], [2 ^ 53 + 4]] := by decide +kernel

/-- Non-vacuity of `C100_grid`. -/
example : perRounded Nearest.double (dbl (1 / 10)).val 0 (dbl (3 / 10)).val = 3 ∧ (0 : ℚ) < (dbl (1 / 10)).val := by decide +kernel

/-- Non-vacuity of `C100_exact`: steps of 1/4 from -1 to 1. -/
example : (dbl (1 / 4)).val = ((1 : Int) : ℚ) * 2 ^ (-2 : Int) ∧ (dbl (-1)).val = ((-4 : Int) : ℚ) * 2 ^ (-2 : Int) ∧
    (dbl 1).val = ((4 : Int) : ℚ) * 2 ^ (-2 : Int) := by
  refine ⟨?_, ?_, ?_⟩
  · rw [show (dbl (1 / 4)).val = 1 / 4 by decide +kernel]; norm_num
  · rw [show (dbl (-1)).val = -1 by decide +kernel]; norm_num
  · rw [show (dbl 1).val = 1 by decide +kernel]; norm_num

end K52.Grid
