import Verif.Props.RoundAkima

/-!
# C109: wavelet functions made from samples, in rounded arithmetic
-/

set_option linter.unusedSectionVars false

namespace K52.Akima.Rounded

variable {p : Nat} {hp : 1 ≤ p}

section Samples
variable {n : Nat}

theorem nat_val {m : Nat} (h : m ≤ 2 ^ p) : ((m : Nat) : Num p hp).val = m := by
  show Nearest.fl p ((m : Nat) : ℚ) = m
  have := Nearest.fl_repr hp m 0 (by rw [abs_of_nonneg (by positivity)]; exact_mod_cast h)
  simpa using this

theorem neg_val (x : Num p hp) : (-x).val = -x.val := by
  show Nearest.fl p (-x.val) = -x.val
  rw [Nearest.fl_neg]
  exact congrArg Neg.neg x.fl_val

variable (h3 : 3 ≤ n) (h8 : 8 * n ≤ 2 ^ p)
include h3 h8

theorem five_le : 5 ≤ p := by
  by_contra h
  have : 2 ^ p ≤ 2 ^ 4 := Nat.pow_le_pow_right (by norm_num) (by omega)
  norm_num at this
  omega

theorem u_le : (1 : ℚ) / 2 ^ p ≤ 1 / 32 := by
  have : (2 : ℚ) ^ 5 ≤ 2 ^ p := pow_le_pow_right₀ (by norm_num) (five_le h3 h8)
  norm_num at this
  exact one_div_le_one_div_of_le (by norm_num) this

theorem eight_val : (8 : Num p hp).val = 8 := nat_val (m := 8) (by omega)

theorem four_val : (-4 : Num p hp).val = -4 := by
  rw [neg_val]
  congr 1
  exact nat_val (m := 4) (by omega)

/-- The step between samples is at least 64 units. -/
theorem step_ge : 64 * (1 / 2 ^ p : ℚ) ≤ 8 / n := by
  have hn : (0 : ℚ) < n := by exact_mod_cast (show 0 < n by omega)
  have h : (8 : ℚ) * n ≤ 2 ^ p := by exact_mod_cast h8
  rw [mul_one_div, div_le_div_iff₀ (by positivity) hn]
  linarith

/-- The computed abscissae of the samples. -/
theorem sample_err (i : Nat) (hi : i < n) : |(sample n i : Num p hp).val - (-4 + 8 / n * i)| ≤ 21 / 2 ^ p := by
  have hn : (0 : ℚ) < n := by exact_mod_cast (show 0 < n by omega)
  have hu := Nearest.unit p hp
  have hu0 := u_pos (p := p)
  have hu1 := u_le h3 h8
  have hin : (8 : ℚ) / n * i ≤ 8 := by
    have : (i : ℚ) ≤ n := by exact_mod_cast hi.le
    rw [div_mul_eq_mul_div, div_le_iff₀ hn]
    linarith
  have hin0 : (0 : ℚ) ≤ 8 / n * i := by positivity
  have hA : Sim ((1 + 1 / 2 ^ p) * (1 + 1 / 2 ^ p)) (8 / ((n : Nat) : Num p hp) * ((i : Nat) : Num p hp)).val (8 / n * i) 8 := by
    rw [Fl.val_mul, Fl.val_div, eight_val h3 h8, nat_val (by omega), nat_val (by omega)]
    have := (((Sim.exact (8 / n : ℚ)).fl hu).mul (Sim.exact (i : ℚ))).fl hu
    refine (this.mono (by rw [one_mul, mul_one])).wide ?_
    rw [← abs_mul, abs_of_nonneg hin0]
    exact hin
  unfold sample
  rw [Fl.val_add, four_val h3 h8]
  have h1 := hu.err (-4 + (8 / ((n : Nat) : Num p hp) * ((i : Nat) : Num p hp)).val)
  have h2 := hA.err
  generalize (8 / ((n : Nat) : Num p hp) * ((i : Nat) : Num p hp)).val = q at *
  have e21 : (21 : ℚ) / 2 ^ p = 21 * (1 / 2 ^ p) := by ring
  rw [e21]
  have h3' : |-4 + q| ≤ 4 + |q - 8 / n * i| := by
    have e : -4 + q = (-4 + 8 / n * i) + (q - 8 / n * i) := by ring
    rw [e]
    refine (abs_add_le _ _).trans (add_le_add ?_ le_rfl)
    rw [abs_le]
    constructor <;> linarith
  have h4 := abs_sub_le ((Nearest.nearest p hp).fl (-4 + q)) (-4 + q) (-4 + 8 / n * i)
  have e4 : -4 + q - (-4 + 8 / n * i) = q - 8 / n * (i : ℚ) := by ring
  rw [e4] at h4
  generalize (1 : ℚ) / 2 ^ p = u at *
  have h5 := mul_le_mul_of_nonneg_left h3' hu0.le
  have h6 := mul_le_mul_of_nonneg_left h2 hu0.le
  have e7 : ((1 + u) * (1 + u) - 1) * 8 = 16 * u + 8 * (u * u) := by ring
  rw [e7] at h2 h6
  have h8 : u * u ≤ 1 / 32 * u := mul_le_mul_of_nonneg_right hu1 hu0.le
  have h9 : u * (u * u) ≤ 1 / 32 * (u * u) := mul_le_mul_of_nonneg_right hu1 (by positivity)
  have e10 : u * (4 + |q - 8 / n * (i : ℚ)|) = 4 * u + u * |q - 8 / n * (i : ℚ)| := by ring
  have e11 : u * (16 * u + 8 * (u * u)) = 16 * (u * u) + 8 * (u * (u * u)) := by ring
  linarith

theorem sample_zero : (sample n 0 : Num p hp).val = -4 := by
  unfold sample
  rw [Fl.val_add, Fl.val_mul, four_val h3 h8, nat_val (by omega)]
  simp only [Nat.cast_zero, mul_zero]
  rw [(Nearest.nearest p hp).zero, add_zero]
  have := (-4 : Num p hp).fl_val
  rwa [four_val h3 h8] at this

/-- Neighbouring samples are at least 22 units apart, and about `8 / n`. -/
theorem sample_step (i : Nat) (hi : i + 1 < n) :
    22 / 2 ^ p ≤ (sample n (i + 1) : Num p hp).val - (sample n i : Num p hp).val ∧
    |(sample n (i + 1) : Num p hp).val - (sample n i : Num p hp).val - 8 / n| ≤ 42 / 2 ^ p := by
  have h1 := abs_le.1 (sample_err (hp := hp) h3 h8 i (by omega))
  have h2 := abs_le.1 (sample_err (hp := hp) h3 h8 (i + 1) (by omega))
  have hs := step_ge h3 h8
  have e : (8 : ℚ) / n * ((i + 1 : Nat) : ℚ) = 8 / n * i + 8 / n := by push_cast; ring
  rw [e] at h2
  have e1 : (21 : ℚ) / 2 ^ p = 21 * (1 / 2 ^ p) := by ring
  have e2 : (22 : ℚ) / 2 ^ p = 22 * (1 / 2 ^ p) := by ring
  have e3 : (42 : ℚ) / 2 ^ p = 42 * (1 / 2 ^ p) := by ring
  rw [e1] at h1 h2
  rw [e2, e3, abs_le]
  refine ⟨by linarith, by linarith, by linarith⟩

theorem sample_lt (i j : Nat) (hij : i < j) (hj : j < n) : (sample n i : Num p hp).val < (sample n j : Num p hp).val := by
  induction j with
  | zero => omega
  | succ j ih =>
    have h := (sample_step (hp := hp) h3 h8 j hj).1
    have h0 : (0 : ℚ) < 22 / 2 ^ p := by positivity
    rcases Nat.lt_or_ge i j with h1 | h1
    · have := ih h1 (by omega)
      linarith
    · have : i = j := by omega
      subst this
      linarith

theorem sample_le (i : Nat) (hi : i < n) : -4 ≤ (sample n i : Num p hp).val ∧ (sample n i : Num p hp).val ≤ 4 - 43 / 2 ^ p := by
  constructor
  · rcases Nat.eq_zero_or_pos i with rfl | h
    · rw [sample_zero h3 h8]
    · have := sample_lt (hp := hp) h3 h8 0 i h hi
      rw [sample_zero h3 h8] at this
      exact this.le
  · have h1 := (abs_le.1 (sample_err (hp := hp) h3 h8 i hi)).2
    have hs := step_ge h3 h8
    have hn : (0 : ℚ) < n := by exact_mod_cast (show 0 < n by omega)
    have : (8 : ℚ) / n * i ≤ 8 - 8 / n := by
      have h2 : (i : ℚ) ≤ n - 1 := by
        have : ((i + 1 : Nat) : ℚ) ≤ n := by exact_mod_cast hi
        push_cast at this
        linarith
      have := mul_le_mul_of_nonneg_left h2 (show (0 : ℚ) ≤ 8 / n by positivity)
      have e : (8 : ℚ) / n * (n - 1) = 8 - 8 / n := by field_simp
      linarith
    have e1 : (21 : ℚ) / 2 ^ p = 21 * (1 / 2 ^ p) := by ring
    have e2 : (43 : ℚ) / 2 ^ p = 43 * (1 / 2 ^ p) := by ring
    rw [e1] at h1
    rw [e2]
    linarith

theorem first_lt : (knot n 0 : Num p hp).val < (sample n 0 : Num p hp).val := by
  have hu := Nearest.unit p hp
  have hu0 := u_pos (p := p)
  have hu1 := u_le h3 h8
  have hs := (sample_step (hp := hp) h3 h8 0 (by omega)).1
  have e2 : (22 : ℚ) / 2 ^ p = 22 * (1 / 2 ^ p) := by ring
  rw [e2] at hs
  unfold knot
  rw [if_pos rfl, Fl.val_sub, Fl.val_sub]
  rw [sample_zero h3 h8] at *
  have h1 := (abs_le.1 (hu.err ((sample n (0 + 1) : Num p hp).val - -4))).1
  simp only [Nat.zero_add] at *
  generalize (sample n 1 : Num p hp).val - -4 = g at *
  have hg0 : 0 ≤ g := by linarith
  rw [abs_of_nonneg hg0] at h1
  generalize (Nearest.nearest p hp).fl g = g' at *
  have h2 := (abs_le.1 (hu.err (-4 - g'))).2
  generalize (Nearest.nearest p hp).fl (-4 - g') = z at *
  generalize (1 : ℚ) / 2 ^ p = u at *
  have h4 := mul_le_mul_of_nonneg_left hs (show 0 ≤ 1 - u by linarith)
  have h5 : u * u ≤ 1 / 32 * u := mul_le_mul_of_nonneg_right hu1 hu0.le
  have e5 : (1 - u) * (22 * u) = 22 * u - 22 * (u * u) := by ring
  have e6 : (1 - u) * g = g - u * g := by ring
  have hg' : 21 * u ≤ g' := by linarith
  rw [abs_of_nonpos (by linarith)] at h2
  have h6 := mul_le_mul_of_nonneg_left hg' (show 0 ≤ 1 - u by linarith)
  have e7 : (1 - u) * (21 * u) = 21 * u - 21 * (u * u) := by ring
  have e8 : (1 - u) * g' = g' - u * g' := by ring
  have e9 : u * -(-4 - g') = 4 * u + u * g' := by ring
  linarith

/-- The last knot lies behind the last sample, and within 74 units of 4. -/
theorem last_near : (sample n (n - 1) : Num p hp).val < (knot n (n + 1) : Num p hp).val ∧
    |(knot n (n + 1) : Num p hp).val - 4| ≤ 74 / 2 ^ p := by
  have hu := Nearest.unit p hp
  have hu0 := u_pos (p := p)
  have hu1 := u_le h3 h8
  have hn : (0 : ℚ) < n := by exact_mod_cast (show 0 < n by omega)
  have hs := sample_step (hp := hp) h3 h8 (n - 2) (by omega)
  rw [show n - 2 + 1 = n - 1 by omega] at hs
  have he := sample_err (hp := hp) h3 h8 (n - 1) (by omega)
  have e0 : -4 + (8 : ℚ) / n * ((n - 1 : Nat) : ℚ) = 4 - 8 / n := by
    rw [Nat.cast_sub (by omega)]
    field_simp
    push_cast
    ring
  rw [e0] at he
  have hn3 : (8 : ℚ) / n ≤ 8 / 3 := by
    have : (3 : ℚ) ≤ n := by exact_mod_cast h3
    exact div_le_div_of_nonneg_left (by norm_num) (by norm_num) this
  have e1 : (21 : ℚ) / 2 ^ p = 21 * (1 / 2 ^ p) := by ring
  have e2 : (22 : ℚ) / 2 ^ p = 22 * (1 / 2 ^ p) := by ring
  have e3 : (42 : ℚ) / 2 ^ p = 42 * (1 / 2 ^ p) := by ring
  have e4 : (74 : ℚ) / 2 ^ p = 74 * (1 / 2 ^ p) := by ring
  rw [e2, e3] at hs
  rw [e1] at he
  rw [e4]
  unfold knot
  rw [if_neg (by omega), if_pos rfl, Fl.val_sub, Fl.val_sub]
  generalize (sample n (n - 1) : Num p hp).val = b at *
  generalize (sample n (n - 2) : Num p hp).val = a at *
  have h1 := hu.err (a - b)
  have hab : a - b ≤ 0 := by linarith [hs.1]
  rw [abs_of_nonpos hab] at h1
  generalize (Nearest.nearest p hp).fl (a - b) = g at *
  have h2 := hu.err (b - g)
  generalize (Nearest.nearest p hp).fl (b - g) = z at *
  generalize (1 : ℚ) / 2 ^ p = u at *
  generalize (8 : ℚ) / n = t at *
  obtain ⟨s1, s2⟩ := hs
  obtain ⟨s3, s4⟩ := abs_le.1 s2
  obtain ⟨q1, q2⟩ := abs_le.1 he
  obtain ⟨r1, r2⟩ := abs_le.1 h1
  -- the difference is at most 4
  have d4 : b - a ≤ 4 := by linarith
  have ud : u * (b - a) ≤ 4 * u := by
    have := mul_le_mul_of_nonneg_left d4 hu0.le
    linarith
  have ed : u * -(a - b) = u * (b - a) := by ring
  rw [ed] at r1 r2
  have near : |b - g - 4| ≤ 67 * u := by
    rw [abs_le]
    constructor <;> linarith
  have hz4 : |b - g| ≤ 4 + 67 * u := by
    have := abs_sub_abs_le_abs_sub (b - g) 4
    rw [abs_of_pos (show (0 : ℚ) < 4 by norm_num)] at this
    linarith
  have h5 : u * u ≤ 1 / 32 * u := mul_le_mul_of_nonneg_right hu1 hu0.le
  have h6 := mul_le_mul_of_nonneg_left hz4 hu0.le
  have e6 : u * (4 + 67 * u) = 4 * u + 67 * (u * u) := by ring
  obtain ⟨v1, v2⟩ := abs_le.1 h2
  obtain ⟨w1, w2⟩ := abs_le.1 near
  refine ⟨by linarith, ?_⟩
  rw [abs_le]
  constructor <;> linarith

/-- The knots are strictly increasing. -/
theorem valid (real : List (Num p hp)) (hl : real.length = n) : ValidKnots ((List.range (n + 2)).map (knot n)) ([0] ++ real ++ [0]) := by
  refine ⟨by simp; omega, by simp [hl], ?_⟩
  rw [List.pairwise_map]
  have key : ∀ j, j < n → (knot n (j + 1) : Num p hp) = sample n j := by
    intro j hj
    unfold knot
    rw [if_neg (by omega), if_neg (by omega), Nat.add_sub_cancel]
  have step : ∀ a b : Nat, a < b → b < n + 2 → (knot n a : Num p hp).val < (knot n b : Num p hp).val := by
    intro a b hab hb
    have f1 := first_lt (hp := hp) h3 h8
    have f2 := (last_near (hp := hp) h3 h8).1
    have lo : ∀ j, j < n → (sample n 0 : Num p hp).val ≤ (sample n j : Num p hp).val := by
      intro j hj
      rcases Nat.eq_zero_or_pos j with rfl | h
      · exact le_rfl
      · exact (sample_lt h3 h8 0 j h hj).le
    have hi : ∀ j, j < n → (sample n j : Num p hp).val ≤ (sample n (n - 1) : Num p hp).val := by
      intro j hj
      rcases Nat.lt_or_ge j (n - 1) with h | h
      · exact (sample_lt h3 h8 j (n - 1) h (by omega)).le
      · have : j = n - 1 := by omega
        rw [this]
    rcases Nat.eq_zero_or_pos a with rfl | ha
    · obtain ⟨j, rfl⟩ : ∃ j, b = j + 1 := ⟨b - 1, by omega⟩
      rcases Nat.lt_or_ge j n with h | h
      · rw [key j h]
        exact lt_of_lt_of_le f1 (lo j h)
      · have : j = n := by omega
        subst this
        exact f1.trans (lt_of_le_of_lt (hi 0 (by omega)) f2)
    · obtain ⟨i, rfl⟩ : ∃ i, a = i + 1 := ⟨a - 1, by omega⟩
      obtain ⟨j, rfl⟩ : ∃ j, b = j + 1 := ⟨b - 1, by omega⟩
      rw [key i (by omega)]
      rcases Nat.lt_or_ge j n with h | h
      · rw [key j h]
        exact sample_lt h3 h8 i j (by omega) h
      · have : j = n := by omega
        subst this
        exact lt_of_le_of_lt (hi i (by omega)) f2
  rw [List.pairwise_iff_getElem]
  intro a b ha hb hab
  simp only [List.length_range] at ha hb
  simp only [List.getElem_range]
  exact step a b hab hb

end Samples

/-! ## C109 -/

section Main
variable [SplineLib (Num p hp)] {ε : ℚ}

/-- **C109.** A wavelet function made from `n ≥ 3` samples, `8 n ≤ 2^p`: each sample is taken exactly at a number within `21 * 2^-p` of its place
`-4 + 8 i / n`; outside `[-4, 4]` the function is zero; it has a value at every point of `[-4, 4 - 74 * 2^-p]`. -/
theorem C109_values (ha : Accurate p hp ε) (real : List (Num p hp)) (h3 : 3 ≤ real.length) (h8 : 8 * real.length ≤ 2 ^ p) :
    ∃ s, waveletInit real = .ok s ∧
      (∀ (i : Nat) v, real[i]? = some v → ∃ t : Num p hp, |t.val - (-4 + 8 / (real.length : ℚ) * i)| ≤ 21 / 2 ^ p ∧ waveletReal s t = .ok v) ∧
      (∀ x : Num p hp, ¬ (-4 ≤ x.val ∧ x.val ≤ 4) → waveletReal s x = .ok 0) ∧
      ∀ x : Num p hp, x.val ≤ 4 - 74 / 2 ^ p → ∃ v, waveletReal s x = .ok v := by
  obtain ⟨s, hs⟩ := (C67_accepts real).2.2 h3
  refine ⟨s, hs, ?_⟩
  rw [wavelet_knots real (by omega)] at hs
  have hk := valid (hp := hp) h3 h8 real rfl
  have h4 : (4 : Num p hp).val = 4 := nat_val (m := 4) (by omega)
  have inside : ∀ x : Num p hp, (-4 ≤ x ∧ x ≤ 4) ↔ (-4 ≤ x.val ∧ x.val ≤ 4) := by
    intro x
    rw [Fl.le_iff, Fl.le_iff, four_val h3 h8, h4]
  have u0 : (0 : ℚ) < 43 / 2 ^ p := by positivity
  refine ⟨?_, ?_, ?_⟩
  · intro i v hv
    have hi : i < real.length := (List.getElem?_eq_some_iff.1 hv).1
    refine ⟨sample real.length i, sample_err h3 h8 i hi, ?_⟩
    have hin := sample_le (hp := hp) h3 h8 i hi
    unfold waveletReal
    rw [if_pos ((inside _).2 ⟨hin.1, by linarith [hin.2]⟩)]
    refine C108_knots ha _ _ hk s hs (i + 1) _ _ ?_ ?_ (by simpa using hi)
    · rw [List.getElem?_map, List.getElem?_range (by omega)]
      simp only [Option.map_some]
      unfold knot
      rw [if_neg (by omega), if_neg (by omega), Nat.add_sub_cancel]
    · simp only [List.cons_append, List.nil_append, List.getElem?_cons_succ]
      rw [List.getElem?_append_left hi]
      exact hv
  · intro x hx
    unfold waveletReal
    rw [if_neg (fun h => hx ((inside x).1 h))]
  · intro x hx
    unfold waveletReal
    split
    · next h =>
      refine (C55_domain _ _ hk s hs x (knot real.length 0) (knot real.length (real.length + 1)) ?_ ?_).1 ⟨?_, ?_⟩
      · simp [List.range_succ_eq_map]
      · rw [List.range_succ]
        simp
      · have h1 := first_lt (hp := hp) h3 h8
        rw [sample_zero h3 h8] at h1
        rw [Fl.le_iff]
        have := ((inside x).1 h).1
        linarith
      · rw [Fl.le_iff]
        have := (abs_le.1 (last_near (hp := hp) h3 h8).2).1
        linarith
    · exact ⟨_, rfl⟩

end Main

section Examples
attribute [local instance] correct

/-- Non-vacuity: four samples in `double`. -/
example : ∃ s, waveletInit [dbl (1 / 10), dbl (2 / 10), dbl 1, dbl 0] = .ok s ∧ ∀ x : Num 53 (by norm_num), x.val ≤ 4 - 74 / 2 ^ 53 →
    ∃ v, waveletReal s x = .ok v := by
  obtain ⟨s, h1, _, _, h4⟩ := C109_values (correct_accurate 53 (by norm_num)) [dbl (1 / 10), dbl (2 / 10), dbl 1, dbl 0] (by norm_num) (by norm_num)
  exact ⟨s, h1, h4⟩

/-- **C109.** The end of the interval can be missing: in `double`, a wavelet function made from three samples throws at 4, where it should be zero.
(`BuildWavelet` with 8 samples per scale and scale 2 asks for this point: `(6 - 8 / 2.0) * 2 * 4 / (8 / 2) = 4`.) -/
theorem C109_end_throws : (do
    let s ← waveletInit [dbl 1, dbl 2, dbl 1]
    waveletReal s (dbl 4)) = .throw "out_of_range" ∧
    (((6 : Nat) : Num 53 _) - ((8 : Nat) : Num 53 _) / 2) * 2 * 4 / ((8 / 2 : Nat) : Num 53 _) = dbl 4 := by
  decide +kernel

end Examples

end K52.Akima.Rounded
