import Verif.Props.Wavelet
import Verif.Spec.Rounding

/-!
# C102: linear scales in rounded arithmetic

`Fl r`: numbers of a rounding `r`, every operation rounded (`Verif.Spec.Rounding`); `Nearest.nearest p`: round to nearest with `p` digits;
`Nearest.double`: `p = 53`.
-/

set_option linter.unusedSectionVars false

namespace K52.Dsp

variable {r : Rounding}

/-- **C102** (what is accepted).  Rounding changes nothing about which arguments are accepted. -/
theorem C102_accepts (lo hi : Fl r) (count : Nat) :
    (0 < lo.val ∧ lo.val < hi.val ∧ 2 ≤ count → ∃ s, linearScales lo hi count = .ok s) ∧
    (¬ (0 < lo.val ∧ lo.val < hi.val ∧ 2 ≤ count) → (linearScales lo hi count).threw) := by
  have e0 : ∀ x : Fl r, x ≤ 0 ↔ x.val ≤ 0 := fun _ => Iff.rfl
  have e1 : ∀ x y : Fl r, x ≥ y ↔ y.val ≤ x.val := fun _ _ => Iff.rfl
  unfold linearScales
  simp only [e0, e1]
  constructor
  · rintro ⟨h1, h2, h3⟩
    rw [if_neg (by linarith), if_neg (by linarith), if_neg (by linarith), if_neg (by omega)]
    exact ⟨_, rfl⟩
  · intro h
    split
    · simp
    · split
      · simp
      · split
        · simp
        · split
          · simp
          · exact absurd ⟨by linarith, by linarith, by omega⟩ h

/-- Scale number `i`: difference, quotient, product and sum rounded. -/
def scaleAt (r : Rounding) (lo hi : ℚ) (count i : Nat) : ℚ :=
  r.fl (lo + r.fl (r.fl (r.fl (hi - lo) / r.fl ((count - 1 : Nat) : ℚ)) * r.fl (i : ℚ)))

theorem scales_eq {lo hi : Fl r} {count : Nat} {s : List (Fl r)} (h : linearScales lo hi count = .ok s) :
    (0 < lo.val ∧ lo.val < hi.val ∧ 2 ≤ count) ∧ s.map Fl.val = (List.range count).map (scaleAt r lo.val hi.val count) := by
  have hc : 0 < lo.val ∧ lo.val < hi.val ∧ 2 ≤ count := by
    by_contra hn
    have := (C102_accepts lo hi count).2 hn
    rw [h] at this
    simp at this
  refine ⟨hc, ?_⟩
  obtain ⟨h1, h2, h3⟩ := hc
  have e0 : ∀ x : Fl r, x ≤ 0 ↔ x.val ≤ 0 := fun _ => Iff.rfl
  have e1 : ∀ x y : Fl r, x ≥ y ↔ y.val ≤ x.val := fun _ _ => Iff.rfl
  unfold linearScales at h
  simp only [e0, e1] at h
  rw [if_neg (by linarith), if_neg (by linarith), if_neg (by linarith), if_neg (by omega)] at h
  injection h with h
  rw [← h, List.map_map]
  rfl

theorem scaleAt_step_nonneg {lo hi : ℚ} (h : lo ≤ hi) (count : Nat) : 0 ≤ r.fl (r.fl (hi - lo) / r.fl ((count - 1 : Nat) : ℚ)) := by
  have h0 : ∀ {x : ℚ}, 0 ≤ x → 0 ≤ r.fl x := by
    intro x hx
    have := r.mono hx
    rwa [r.zero] at this
  exact h0 (div_nonneg (h0 (by linarith)) (h0 (by positivity)))

theorem scaleAt_mono {lo hi : ℚ} (h : lo ≤ hi) (count : Nat) {i j : Nat} (hij : i ≤ j) : scaleAt r lo hi count i ≤ scaleAt r lo hi count j := by
  have h1 := scaleAt_step_nonneg (r := r) h count
  have h2 : r.fl (i : ℚ) ≤ r.fl (j : ℚ) := r.mono (by exact_mod_cast hij)
  refine r.mono ?_
  have := r.mono (mul_le_mul_of_nonneg_left h2 h1)
  linarith

theorem scaleAt_zero (lo : Fl r) (hi : ℚ) (count : Nat) : scaleAt r lo.val hi count 0 = lo.val := by
  simp [scaleAt, r.zero, lo.fl_val]

/-- **C102** (order).  In any rounded arithmetic there are as many scales as requested, the first is exactly `min`, and they never decrease:
so all are positive and not below `min`. -/
theorem C102_order (lo hi : Fl r) (count : Nat) (s : List (Fl r)) (h : linearScales lo hi count = .ok s) :
    s.length = count ∧ s.head? = some lo ∧ s.Pairwise (· ≤ ·) ∧ ∀ v ∈ s, 0 < v.val ∧ lo.val ≤ v.val := by
  obtain ⟨⟨h1, h2, h3⟩, hs⟩ := scales_eq h
  have hlen : s.length = count := by simpa using congrArg List.length hs
  have hge : ∀ v ∈ s, lo.val ≤ v.val := by
    intro v hv
    have : v.val ∈ s.map Fl.val := List.mem_map_of_mem hv
    rw [hs] at this
    obtain ⟨i, _, e⟩ := List.mem_map.1 this
    have := scaleAt_mono (r := r) h2.le count (Nat.zero_le i)
    rw [scaleAt_zero, e] at this
    exact this
  refine ⟨hlen, ?_, ?_, fun v hv => ⟨lt_of_lt_of_le h1 (hge v hv), hge v hv⟩⟩
  · cases s with
    | nil => simp at hlen; omega
    | cons v vs =>
      obtain ⟨c, rfl⟩ : ∃ c, count = c + 1 := ⟨count - 1, by omega⟩
      rw [List.range_succ_eq_map, List.map_cons, List.map_cons] at hs
      injection hs with e _
      rw [scaleAt_zero] at e
      rw [List.head?_cons, Fl.ext e]
  · have : (s.map Fl.val).Pairwise (· ≤ ·) := by
      rw [hs, List.pairwise_map]
      exact List.pairwise_lt_range.imp fun hab => scaleAt_mono h2.le count hab.le
    rw [List.pairwise_map] at this
    exact this.imp fun hab => hab

section nearest
variable {p : Nat} (hp : 1 ≤ p)

theorem fl_nat (hp : 1 ≤ p) {d : Nat} (h : d ≤ 2 ^ p) : Nearest.fl p (d : ℚ) = d := by
  have := Nearest.fl_repr hp (d : Int) 0 (by rw [abs_of_nonneg (by positivity)]; exact_mod_cast h)
  rw [zpow_zero, mul_one] at this
  exact_mod_cast this

theorem scaleAt_error (h3 : 3 ≤ p) {lo hi : ℚ} (hlo : 0 ≤ lo) (h : lo ≤ hi) {count i : Nat} (hi1 : i < count) (hc : count ≤ 2 ^ p) :
    |scaleAt (Nearest.nearest p hp) lo hi count i - (lo + (hi - lo) / (count - 1 : Nat) * i)| ≤
      (lo + 6 * ((hi - lo) / (count - 1 : Nat) * i)) / 2 ^ p := by
  set n : ℚ := ((count - 1 : Nat) : ℚ) with hn
  set D := hi - lo with hD
  have hD0 : 0 ≤ D := by linarith
  have hn0 : 0 ≤ n := by positivity
  have hP0 : (0 : ℚ) < 2 ^ p := by positivity
  set u : ℚ := 1 / 2 ^ p with hu
  have hu0 : 0 < u := by positivity
  have hu8 : u ≤ 1 / 8 := by
    rw [hu]
    have : (2 : ℚ) ^ 3 ≤ 2 ^ p := pow_le_pow_right₀ (by norm_num) h3
    exact one_div_le_one_div_of_le (by norm_num) (by linarith)
  have err : ∀ x : ℚ, |Nearest.fl p x - x| ≤ u * |x| := by
    intro x
    have := Nearest.fl_error (p := p) x
    rw [hu]
    calc _ ≤ |x| / 2 ^ p := this
      _ = _ := by ring
  have en : Nearest.fl p n = n := fl_nat hp (by omega)
  have ei : Nearest.fl p (i : ℚ) = i := fl_nat hp (by omega)
  have ev : scaleAt (Nearest.nearest p hp) lo hi count i =
      Nearest.fl p (lo + Nearest.fl p (Nearest.fl p (Nearest.fl p D / n) * i)) := by
    show Nearest.fl p (lo + Nearest.fl p (Nearest.fl p (Nearest.fl p D / Nearest.fl p n) * Nearest.fl p (i : ℚ))) = _
    rw [en, ei]
  rw [ev]
  have hi0 : (0 : ℚ) ≤ i := by positivity
  -- the step
  have k1 := err D
  rw [abs_of_nonneg hD0] at k1
  have hq0 : 0 ≤ D / n := by positivity
  have k2 : |Nearest.fl p D / n - D / n| ≤ u * (D / n) := by
    rw [← sub_div, abs_div, abs_of_nonneg hn0]
    calc _ ≤ u * D / n := div_le_div_of_nonneg_right k1 hn0
      _ = _ := by ring
  have k3 := err (Nearest.fl p D / n)
  set a := Nearest.fl p D / n with ha
  set b := Nearest.fl p a with hb
  have ka : |a| ≤ (1 + u) * (D / n) := by
    have := abs_sub_abs_le_abs_sub a (D / n)
    rw [abs_of_nonneg hq0] at this
    linarith
  have k4 : |b - D / n| ≤ (2 * u + u * u) * (D / n) := by
    have h1 := abs_sub_le b a (D / n)
    have h2 := mul_le_mul_of_nonneg_left ka hu0.le
    have e1 : u * ((1 + u) * (D / n)) = u * (D / n) + u * u * (D / n) := by ring
    have e2 : (2 * u + u * u) * (D / n) = 2 * (u * (D / n)) + u * u * (D / n) := by ring
    linarith
  set t := D / n * i with ht
  have ht0 : 0 ≤ t := by positivity
  have k5 : |b * i - t| ≤ (2 * u + u * u) * t := by
    rw [ht, ← sub_mul, abs_mul, abs_of_nonneg hi0, ← mul_assoc]
    exact mul_le_mul_of_nonneg_right k4 hi0
  have k6 := err (b * i)
  have kb : |b * i| ≤ (1 + 2 * u + u * u) * t := by
    have := abs_sub_abs_le_abs_sub (b * i) t
    rw [abs_of_nonneg ht0] at this
    linarith
  set c := Nearest.fl p (b * i) with hc'
  have hut : 0 ≤ u * t := by positivity
  have huu : u * (u * t) ≤ 1 / 8 * (u * t) := mul_le_mul_of_nonneg_right hu8 hut
  have huuu : u * (u * (u * t)) ≤ 1 / 64 * (u * t) := by
    have h1 := mul_le_mul_of_nonneg_left huu hu0.le
    linarith
  have k7 : |c - t| ≤ 7 / 2 * (u * t) := by
    have h1 := abs_sub_le c (b * i) t
    have h2 := mul_le_mul_of_nonneg_left kb hu0.le
    have e1 : u * ((1 + 2 * u + u * u) * t) = u * t + 2 * (u * (u * t)) + u * (u * (u * t)) := by ring
    have e2 : (2 * u + u * u) * t = 2 * (u * t) + u * (u * t) := by ring
    linarith
  have k8 := err (lo + c)
  have kc : |lo + c| ≤ lo + t + 7 / 2 * (u * t) := by
    have h1 := abs_add_le (lo + t) (c - t)
    rw [abs_of_nonneg (show 0 ≤ lo + t by linarith), show lo + t + (c - t) = lo + c by ring] at h1
    linarith
  have k9 := mul_le_mul_of_nonneg_left kc hu0.le
  have k10 := abs_sub_le (Nearest.fl p (lo + c)) (lo + c) (lo + t)
  rw [show lo + c - (lo + t) = c - t by ring] at k10
  have e : (lo + 6 * t) / 2 ^ p = u * lo + 6 * (u * t) := by rw [hu]; ring
  rw [e]
  have e1 : u * (lo + t + 7 / 2 * (u * t)) = u * lo + u * t + 7 / 2 * (u * (u * t)) := by ring
  linarith

/-- **C102** (accuracy).  With round to nearest on `p` digits, scale number `i` differs from `min + i * (max - min) / (count - 1)` by at most
`6 * max * 2^-p`.  So no scale exceeds `max` by more, and the last one misses it by no more. -/
theorem C102_error (h3 : 3 ≤ p) (lo hi : Fl (Nearest.nearest p hp)) (count : Nat) (hc : count ≤ 2 ^ p) (s : List (Fl (Nearest.nearest p hp)))
    (h : linearScales lo hi count = .ok s) (i : Nat) (v : Fl (Nearest.nearest p hp)) (hv : s[i]? = some v) :
    |v.val - (lo.val + (hi.val - lo.val) / (count - 1) * i)| ≤ 6 * hi.val / 2 ^ p ∧ v.val ≤ hi.val + 6 * hi.val / 2 ^ p ∧
    (i + 1 = count → |v.val - hi.val| ≤ 6 * hi.val / 2 ^ p) := by
  obtain ⟨⟨h1, h2, h2c⟩, hs⟩ := scales_eq h
  have hlen : s.length = count := by simpa using congrArg List.length hs
  have hic : i < count := by rw [← hlen]; exact (List.getElem?_eq_some_iff.1 hv).1
  have e : v.val = scaleAt (Nearest.nearest p hp) lo.val hi.val count i := by
    have : (s.map Fl.val)[i]? = some v.val := by rw [List.getElem?_map, hv]; rfl
    rw [hs, List.getElem?_map, List.getElem?_range hic] at this
    simpa using this.symm
  have herr := scaleAt_error hp h3 h1.le h2.le hic hc
  rw [← e] at herr
  have hd' : (((count - 1 : Nat)) : ℚ) = (count : ℚ) - 1 := by rw [Nat.cast_sub (by omega)]; simp
  have hn0 : (0 : ℚ) < ((count - 1 : Nat) : ℚ) := by
    have : 0 < count - 1 := by omega
    exact_mod_cast this
  have hin : (i : ℚ) ≤ ((count - 1 : Nat) : ℚ) := by
    have : i ≤ count - 1 := by omega
    exact_mod_cast this
  rw [← hd']
  generalize lo.val = l at *
  generalize hi.val = m at *
  generalize v.val = x at *
  generalize ((count - 1 : Nat) : ℚ) = n at *
  have hP0 : (0 : ℚ) < 2 ^ p := by positivity
  have ht : (m - l) / n * i ≤ m - l := by
    have : (m - l) / n * i ≤ (m - l) / n * n := mul_le_mul_of_nonneg_left hin (div_nonneg (by linarith) hn0.le)
    rwa [div_mul_cancel₀ _ hn0.ne'] at this
  have ht0 : 0 ≤ (m - l) / n * i := mul_nonneg (div_nonneg (by linarith) hn0.le) (by positivity)
  have hb : (l + 6 * ((m - l) / n * i)) / 2 ^ p ≤ 6 * m / 2 ^ p := div_le_div_of_nonneg_right (by linarith) hP0.le
  refine ⟨herr.trans hb, ?_, ?_⟩
  · have := (abs_le.1 (herr.trans hb)).2
    linarith
  · intro e1
    have e2 : (i : ℚ) = n := by
      have : i = count - 1 := by omega
      rw [hd', ← e1]; push_cast; ring
    rw [e2, div_mul_cancel₀ _ hn0.ne'] at herr hb
    have := herr.trans hb
    rwa [show l + (m - l) = m by ring] at this

/-- **C102** (distinct scales).  If neighbouring scales should be more than `12 * max * 2^-p` apart, they are strictly increasing. -/
theorem C102_distinct (h3 : 3 ≤ p) (lo hi : Fl (Nearest.nearest p hp)) (count : Nat) (hc : count ≤ 2 ^ p) (s : List (Fl (Nearest.nearest p hp)))
    (h : linearScales lo hi count = .ok s) (hgap : 12 * hi.val / 2 ^ p < (hi.val - lo.val) / (count - 1)) : s.Pairwise (· < ·) := by
  rw [List.pairwise_iff_getElem]
  intro i j hi' hj hij
  have a1 := (C102_error hp h3 lo hi count hc s h i _ (List.getElem?_eq_getElem hi')).1
  have a2 := (C102_error hp h3 lo hi count hc s h j _ (List.getElem?_eq_getElem hj)).1
  rw [Fl.lt_iff]
  have b1 := (abs_le.1 a1).2
  have b2 := (abs_le.1 a2).1
  have hP0 : (0 : ℚ) < 2 ^ p := by positivity
  have hij' : (i : ℚ) + 1 ≤ j := by exact_mod_cast hij
  have hpos : 0 < hi.val := by
    obtain ⟨⟨h1, h2, _⟩, _⟩ := scales_eq h
    linarith
  have hg0 : 0 ≤ 12 * hi.val / 2 ^ p := by positivity
  have := mul_le_mul_of_nonneg_left hij' (hg0.trans hgap.le)
  have e : 12 * hi.val / 2 ^ p = 6 * hi.val / 2 ^ p + 6 * hi.val / 2 ^ p := by ring
  linarith

/-- **C102** (exact scales).  If `min` and the step are multiples of one power of two and `max` is at most `2^p` times it (whole numbers, halves,
quarters, ...), nothing is rounded. -/
theorem C102_exact (lo hi : Fl (Nearest.nearest p hp)) (count : Nat) (s : List (Fl (Nearest.nearest p hp)))
    (h : linearScales lo hi count = .ok s) (k a d : Int) (ha : lo.val = a * 2 ^ k) (hd : hi.val = (a + d * ((count - 1 : Nat) : Int) : Int) * 2 ^ k)
    (hmax : hi.val ≤ 2 ^ p * 2 ^ k) :
    s.map Fl.val = (List.range count).map fun i : Nat => lo.val + (hi.val - lo.val) / (count - 1) * i := by
  obtain ⟨⟨h1, h2, h2c⟩, hs⟩ := scales_eq h
  rw [hs]
  refine List.map_congr_left fun i hi' => ?_
  rw [List.mem_range] at hi'
  have hd' : (((count - 1 : Nat)) : ℚ) = (count : ℚ) - 1 := by rw [Nat.cast_sub (by omega)]; simp
  rw [← hd']
  have h2k : (0 : ℚ) < 2 ^ k := zpow_pos (by norm_num) k
  have hn0 : (0 : Int) < ((count - 1 : Nat) : Int) := by
    have : 0 < count - 1 := by omega
    exact_mod_cast this
  have hin : (i : Int) ≤ ((count - 1 : Nat) : Int) := by
    have : i ≤ count - 1 := by omega
    exact_mod_cast this
  have hnq : ((count - 1 : Nat) : ℚ) = (((count - 1 : Nat) : Int) : ℚ) := by push_cast; rfl
  have hnN : ((count - 1 : Nat)) = (((count - 1 : Nat) : Int)).toNat := by simp
  rw [scaleAt]
  show Nearest.fl p (lo.val + Nearest.fl p (Nearest.fl p (Nearest.fl p (hi.val - lo.val) / Nearest.fl p ((count - 1 : Nat) : ℚ)) * Nearest.fl p (i : ℚ))) = _
  rw [hnq]
  generalize ((count - 1 : Nat) : Int) = n at *
  have ha0 : 0 < a := by
    rw [ha] at h1
    have : (0 : ℚ) < a := pos_of_mul_pos_left h1 h2k.le
    exact_mod_cast this
  have hdn : 0 < d * n := by
    rw [ha, hd] at h2
    have := lt_of_mul_lt_mul_right h2 h2k.le
    have : a < a + d * n := by exact_mod_cast this
    linarith
  have hd0 : 0 < d := pos_of_mul_pos_left hdn hn0.le
  have hm : a + d * n ≤ 2 ^ p := by
    rw [hd] at hmax
    have := le_of_mul_le_mul_right hmax h2k
    exact_mod_cast this
  have hnd : n ≤ d * n := by nlinarith
  have hid : (i : Int) ≤ d * i := by nlinarith [Int.natCast_nonneg i]
  have hidn : d * i ≤ d * n := mul_le_mul_of_nonneg_left hin hd0.le
  have hi0 : (0 : Int) ≤ d * i := by positivity
  have rep : ∀ z : Int, 0 ≤ z → z ≤ 2 ^ p → Nearest.fl p ((z : ℚ) * 2 ^ k) = z * 2 ^ k := fun z h0 h1 =>
    Nearest.fl_repr hp z k (by rw [abs_of_nonneg h0]; exact h1)
  have rep0 : ∀ z : Int, 0 ≤ z → z ≤ 2 ^ p → Nearest.fl p (z : ℚ) = z := fun z h0 h1 => by
    have := Nearest.fl_repr hp z 0 (by rw [abs_of_nonneg h0]; exact h1)
    simpa using this
  have eD : hi.val - lo.val = ((d * n : Int) : ℚ) * 2 ^ k := by rw [ha, hd]; push_cast; ring
  have hnq0 : (n : ℚ) ≠ 0 := by exact_mod_cast hn0.ne'
  have eq : ((d * n : Int) : ℚ) * 2 ^ k / n = (d : ℚ) * 2 ^ k := by push_cast; field_simp
  have ei : Nearest.fl p (i : ℚ) = i := by
    have := rep0 i (by positivity) (by linarith)
    simpa using this
  rw [eD, rep (d * n) hdn.le (by linarith), rep0 n hn0.le (by linarith), eq, rep d hd0.le (by nlinarith), ei]
  have em : (d : ℚ) * 2 ^ k * i = ((d * i : Int) : ℚ) * 2 ^ k := by push_cast; ring
  rw [em, rep (d * i) hi0 (by linarith), ha]
  have es : (a : ℚ) * 2 ^ k + ((d * i : Int) : ℚ) * 2 ^ k = ((a + d * i : Int) : ℚ) * 2 ^ k := by push_cast; ring
  rw [es, rep (a + d * i) (by linarith) (by linarith)]

end nearest

/-! ### Where it is not -/

/-- The double nearest to a number. -/
abbrev dbl (x : ℚ) : Fl Nearest.double := Fl.round _ x

/-- The scales as rational numbers. -/
def scalesOf (o : Res (List (Fl Nearest.double))) : Option (List ℚ) :=
  match o with
  | .ok s => some (s.map Fl.val)
  | _ => none

/-- **C102** (`max` exceeded).  4 scales from 0.1 to 0.3 in `double`: the last one is above 0.3. -/
theorem C102_exceeds : ∃ s, scalesOf (linearScales (dbl (1 / 10)) (dbl (3 / 10)) 4) = some s ∧ ∃ x, s.getLast? = some x ∧ (dbl (3 / 10)).val < x := by
  have h : (match scalesOf (linearScales (dbl (1 / 10)) (dbl (3 / 10)) 4) with
    | some s => (match s.getLast? with
      | some x => decide ((dbl (3 / 10)).val < x)
      | _ => false)
    | none => false) = true := by decide +kernel
  split at h
  · next s e =>
    refine ⟨s, e, ?_⟩
    split at h
    · next x e' => exact ⟨x, e', by simpa using h⟩
    · simp at h
  · simp at h

/-- **C102** (`max` missed).  4 scales from 0.1 to 1 in `double`: the last one is below 1. -/
theorem C102_misses : ∃ s, scalesOf (linearScales (dbl (1 / 10)) (dbl 1) 4) = some s ∧ ∃ x, s.getLast? = some x ∧ x < (dbl 1).val := by
  have h : (match scalesOf (linearScales (dbl (1 / 10)) (dbl 1) 4) with
    | some s => (match s.getLast? with
      | some x => decide (x < (dbl 1).val)
      | _ => false)
    | none => false) = true := by decide +kernel
  split at h
  · next s e =>
    refine ⟨s, e, ?_⟩
    split at h
    · next x e' => exact ⟨x, e', by simpa using h⟩
    · simp at h
  · simp at h

/-- **C102** (coinciding scales).  5 scales from 1 to the second `double` after 1: the scales come in pairs. -/
theorem C102_coincide : scalesOf (linearScales (dbl 1) (dbl (1 + 2 / 2 ^ 52)) 5) =
    some [1, 1, 1 + 1 / 2 ^ 52, 1 + 2 / 2 ^ 52, 1 + 2 / 2 ^ 52] := by decide +kernel

/-- Non-vacuity of the theorems above: 9 scales from 1 to 3, a quarter apart. -/
example : scalesOf (linearScales (dbl 1) (dbl 3) 9) = some [1, 5 / 4, 3 / 2, 7 / 4, 2, 9 / 4, 5 / 2, 11 / 4, 3] ∧
    12 * (dbl 3).val / 2 ^ 53 < ((dbl 3).val - (dbl 1).val) / (9 - 1) ∧ (dbl 1).val = ((4 : Int) : ℚ) * 2 ^ (-2 : Int) ∧
    (dbl 3).val = ((4 + 1 * ((9 - 1 : Nat) : Int) : Int) : ℚ) * 2 ^ (-2 : Int) := by
  have e1 : (dbl 1).val = 1 := by decide +kernel
  have e3 : (dbl 3).val = 3 := by decide +kernel
  refine ⟨by decide +kernel, ?_, ?_, ?_⟩ <;> simp only [e1, e3] <;> norm_num
end K52.Dsp
