import Verif.Props.GAProgress

/-!
# C99: the linear mutation schedule in rounded arithmetic

`Fl r`: numbers of a rounding `r`, every operation rounded (`Verif.Spec.Rounding`); `Nearest.nearest p`: round to nearest with `p` digits;
`Nearest.double`: `p = 53`.
-/

set_option linter.unusedSectionVars false

namespace K52.Mutator
open K52.Random (Lib rand)

variable {r : Rounding}

/-- A mutator as constructed for end points `start` and `stop`, told generation `n` of `g`. -/
def told (start stop : Fl r) (n g : Int) : Linear (Fl r) := ⟨start, stop, ⟨n, g⟩⟩

/-- The constructor accepts exactly end points from 0 to 1; nothing is rounded. -/
theorem C99_constructor (start stop : Fl r) :
    (∃ m, Linear.new start stop = .ok m) ↔ (0 ≤ start.val ∧ start.val ≤ 1) ∧ (0 ≤ stop.val ∧ stop.val ≤ 1) := by
  have key : ∀ x : Fl r, (∃ u, Random.validateProbability x = .ok u) ↔ 0 ≤ x.val ∧ x.val ≤ 1 := by
    intro x
    unfold Random.validateProbability
    have h0 : x < 0 ↔ x.val < 0 := Iff.rfl
    have h1 : x > 1 ↔ 1 < x.val := Iff.rfl
    simp only [h0, h1]
    split
    · next h =>
      refine ⟨fun ⟨u, hu⟩ => (by cases hu), fun h' => ?_⟩
      rcases h with h | h <;> linarith
    · next h =>
      push Not at h
      exact ⟨fun _ => h, fun _ => ⟨(), rfl⟩⟩
  rw [← key, ← key]
  unfold Linear.new
  constructor
  · rintro ⟨m, h⟩
    rw [Res.bind_eq_ok] at h
    obtain ⟨u, hu, h⟩ := h
    rw [Res.bind_eq_ok] at h
    obtain ⟨u', hu', h⟩ := h
    exact ⟨⟨u, hu⟩, ⟨u', hu'⟩⟩
  · rintro ⟨⟨u, hu⟩, ⟨u', hu'⟩⟩
    exact ⟨⟨start, stop, ⟨0, 0⟩⟩, by rw [hu, hu']; rfl⟩

/-- The probability as a number: the differences, product, quotient and sum, each rounded. -/
def value (r : Rounding) (start stop : ℚ) (n g : Int) : ℚ :=
  r.fl (r.fl (r.fl (r.fl (stop - start) * r.fl n) / r.fl ((g - 1 : Int) : ℚ)) + start)

theorem probability_eq (start stop : Fl r) (n g : Int) (hg : g ≠ 1) :
    ∃ p : Fl r, (told start stop n g).probability = .val p ∧ p.val = value r start.val stop.val n g := by
  refine ⟨(stop - start) * (n : Fl r) / ((g - 1 : Int) : Fl r) + start, ?_, rfl⟩
  unfold Linear.probability
  rw [if_neg (by simp only [told]; omega)]
  rfl

theorem event_cases (l : Lib) (p : Fl r) :
    Random.event l p = if p.val < 0 ∨ 1 < p.val then .throw "invalid_argument" else .ok (decide ((Random.base (R := Fl r) l).1 ≤ p), (rand l).2) := by
  unfold Random.event Random.validateProbability
  have h0 : p < 0 ↔ p.val < 0 := Iff.rfl
  have h1 : p > 1 ↔ 1 < p.val := Iff.rfl
  simp only [h0, h1]
  split <;> rfl

/-- **C99** (failure).  Told a generation whose rounded probability is outside 0 .. 1, the mutator throws `std::invalid_argument` at the first
gene, whatever `rand()` gives; otherwise it never throws. -/
theorem C99_throws_iff (start stop : Fl r) (n g : Int) (hg : g ≠ 1) (l : Lib) (chr : List Bool) (hne : chr ≠ []) :
    (value r start.val stop.val n g < 0 ∨ 1 < value r start.val stop.val n g →
      mutateChromosome linearGenes (told start stop n g) l chr = .throw "invalid_argument") ∧
    (0 ≤ value r start.val stop.val n g ∧ value r start.val stop.val n g ≤ 1 →
      ∃ out l', mutateChromosome linearGenes (told start stop n g) l chr = .ok (out, told start stop n g, l')) := by
  obtain ⟨p, hp, hv⟩ := probability_eq start stop n g hg
  constructor
  · intro h
    cases chr with
    | nil => exact absurd rfl hne
    | cons b bs =>
      unfold mutateChromosome
      simp only [linearGenes, hp]
      rw [event_cases, if_pos (by rw [hv]; exact h)]
      rfl
  · intro h
    clear hne
    induction chr generalizing l with
    | nil => exact ⟨[], l, rfl⟩
    | cons b bs ih =>
      obtain ⟨out, l', e⟩ := ih (rand l).2
      have hs : (linearGenes (R := Fl r)).should (told start stop n g) l =
          .ok (decide ((Random.base (R := Fl r) l).1 ≤ p), (rand l).2) := by
        simp only [linearGenes, hp]
        rw [event_cases, if_neg (by rw [hv]; push Not; exact h)]
      refine ⟨(if decide ((Random.base (R := Fl r) l).1 ≤ p) then !b else b) :: out, l', ?_⟩
      unfold mutateChromosome
      rw [hs]
      simp only [Res.ok_bind]
      rw [show (linearGenes (R := Fl r)).after (told start stop n g) (decide ((Random.base (R := Fl r) l).1 ≤ p)) (rand l).2 =
        .ok (told start stop n g, (rand l).2) from rfl]
      simp only [Res.ok_bind]
      rw [e]
      rfl

/-! ### Where the rounded schedule is right -/

theorem fl_int_mono {a b : Int} (h : a ≤ b) : r.fl (a : ℚ) ≤ r.fl (b : ℚ) := r.mono (by exact_mod_cast h)

theorem fl_int_nonneg {a : Int} (h : 0 ≤ a) : 0 ≤ r.fl (a : ℚ) := by
  have := fl_int_mono (r := r) h
  simpa [r.zero] using this

theorem fl_den_pos {g : Int} (hg : 1 < g) : 1 ≤ r.fl ((g - 1 : Int) : ℚ) := by
  have := fl_int_mono (r := r) (a := 1) (b := g - 1) (by omega)
  simpa [r.one] using this

theorem fl_nonneg {x : ℚ} (h : 0 ≤ x) : 0 ≤ r.fl x := by have := r.mono h; rwa [r.zero] at this
theorem fl_nonpos {x : ℚ} (h : x ≤ 0) : r.fl x ≤ 0 := by have := r.mono h; rwa [r.zero] at this

/-- **C99** (first generation, constant schedule).  In generation 0, and in every generation when both end points are equal, the rounded
probability is exactly the start probability. -/
theorem C99_exact (start stop : Fl r) (n g : Int) (h : n = 0 ∨ start = stop) : value r start.val stop.val n g = start.val := by
  have hs := start.fl_val
  rcases h with rfl | rfl
  · simp [value, r.zero, hs]
  · simp [value, r.zero, hs]

/-- **C99** (monotone).  The rounded schedule never goes back: it only rises if the end probability is not below the start, and only falls if
it is not above. -/
theorem C99_monotone (start stop : ℚ) (n k g : Int) (hg : 1 < g) (hk : n ≤ k) :
    (start ≤ stop → value r start stop n g ≤ value r start stop k g) ∧ (stop ≤ start → value r start stop k g ≤ value r start stop n g) := by
  have hd := fl_den_pos (r := r) hg
  have hnk := fl_int_mono (r := r) hk
  constructor
  · intro h
    have hx := fl_nonneg (r := r) (x := stop - start) (by linarith)
    exact r.mono (by
      have : r.fl (r.fl (r.fl (stop - start) * r.fl n) / r.fl ((g - 1 : Int) : ℚ)) ≤ r.fl (r.fl (r.fl (stop - start) * r.fl k) / r.fl ((g - 1 : Int) : ℚ)) :=
        r.mono (div_le_div_of_nonneg_right (r.mono (mul_le_mul_of_nonneg_left hnk hx)) (by linarith))
      linarith)
  · intro h
    have hx := fl_nonpos (r := r) (x := stop - start) (by linarith)
    exact r.mono (by
      have : r.fl (r.fl (r.fl (stop - start) * r.fl k) / r.fl ((g - 1 : Int) : ℚ)) ≤ r.fl (r.fl (r.fl (stop - start) * r.fl n) / r.fl ((g - 1 : Int) : ℚ)) :=
        r.mono (div_le_div_of_nonneg_right (r.mono (mul_le_mul_of_nonpos_left hnk hx)) (by linarith))
      linarith)

/-- **C99** (one side is safe).  A rising schedule never falls below its start, a falling one never rises above it. -/
theorem C99_start_side (start stop : Fl r) (n g : Int) (hg : 1 < g) (h0 : 0 ≤ n) :
    (start.val ≤ stop.val → start.val ≤ value r start.val stop.val n g) ∧ (stop.val ≤ start.val → value r start.val stop.val n g ≤ start.val) := by
  have h := C99_monotone (r := r) start.val stop.val 0 n g hg h0
  have e := C99_exact start stop 0 g (.inl rfl)
  exact ⟨fun hs => by have := h.1 hs; rwa [e] at this, fun hs => by have := h.2 hs; rwa [e] at this⟩

/-- **C99** (from 0).  A schedule that starts at 0 stays between 0 and 1, so that the mutator never throws. -/
theorem C99_from_zero (stop : Fl r) (h0 : 0 ≤ stop.val) (h1 : stop.val ≤ 1) (n g : Int) (hg : 1 < g) (hn0 : 0 ≤ n) (hn : n < g) :
    0 ≤ value r 0 stop.val n g ∧ value r 0 stop.val n g ≤ 1 := by
  have hd := fl_den_pos (r := r) hg
  have hi := fl_int_nonneg (r := r) hn0
  have hin : r.fl n ≤ r.fl ((g - 1 : Int) : ℚ) := fl_int_mono (by omega)
  have hs : r.fl (stop.val - 0) = stop.val := by rw [sub_zero]; exact stop.fl_val
  unfold value
  rw [hs, add_zero, r.idem]
  have hmul : r.fl (stop.val * r.fl n) ≤ r.fl n := by
    have : stop.val * r.fl n ≤ r.fl n := by nlinarith
    have := r.mono this
    rwa [r.idem] at this
  have hmul0 : 0 ≤ r.fl (stop.val * r.fl n) := fl_nonneg (by positivity)
  refine ⟨fl_nonneg (by positivity), ?_⟩
  have : r.fl (stop.val * r.fl n) / r.fl ((g - 1 : Int) : ℚ) ≤ 1 := by rw [div_le_one (by linarith)]; linarith
  have := r.mono this
  rwa [r.one] at this

section nearest
variable {p : Nat} (hp : 1 ≤ p)

theorem near_neg (x : ℚ) : (Nearest.nearest p hp).fl (-x) = -(Nearest.nearest p hp).fl x := Nearest.fl_neg p x

/-- **C99** (from 1).  So does one that starts at 1 (round to nearest). -/
theorem C99_from_one (stop : Fl (Nearest.nearest p hp)) (h0 : 0 ≤ stop.val) (h1 : stop.val ≤ 1) (n g : Int) (hg : 1 < g) (hn0 : 0 ≤ n)
    (hn : n < g) : 0 ≤ value (Nearest.nearest p hp) 1 stop.val n g ∧ value (Nearest.nearest p hp) 1 stop.val n g ≤ 1 := by
  generalize stop.val = t at h0 h1 ⊢
  set r := Nearest.nearest p hp with hr
  have hd := fl_den_pos (r := r) hg
  have hi := fl_int_nonneg (r := r) hn0
  have hin : r.fl n ≤ r.fl ((g - 1 : Int) : ℚ) := fl_int_mono (by omega)
  have hdiff : r.fl (t - 1) = - r.fl (1 - t) := by rw [← near_neg hp]; congr 1; ring
  set d := r.fl (1 - t) with hdd
  have d0 : 0 ≤ d := fl_nonneg (by linarith)
  have d1 : d ≤ 1 := by have := r.mono (show 1 - t ≤ 1 by linarith); rwa [r.one] at this
  have hmul : r.fl (d * r.fl n) ≤ r.fl n := by
    have : d * r.fl n ≤ r.fl n := by nlinarith
    have := r.mono this
    rwa [r.idem] at this
  have hmul0 : 0 ≤ r.fl (d * r.fl n) := fl_nonneg (by positivity)
  set q := r.fl (r.fl (d * r.fl n) / r.fl ((g - 1 : Int) : ℚ)) with hq
  have q0 : 0 ≤ q := fl_nonneg (by positivity)
  have q1 : q ≤ 1 := by
    have : r.fl (d * r.fl n) / r.fl ((g - 1 : Int) : ℚ) ≤ 1 := by rw [div_le_one (by linarith)]; linarith
    have := r.mono this
    rwa [r.one] at this
  have e : value r 1 t n g = r.fl (1 - q) := by
    unfold value
    rw [hdiff, neg_mul, near_neg hp, neg_div, near_neg hp]
    congr 1
    rw [hq]; ring
  rw [e]
  refine ⟨fl_nonneg (by linarith), ?_⟩
  have := r.mono (show 1 - q ≤ 1 by linarith)
  rwa [r.one] at this

/-- Integers of at most `p` digits are not rounded. -/
theorem fl_int_exact {a : Int} (h : |a| ≤ 2 ^ p) : (Nearest.nearest p hp).fl (a : ℚ) = a := by
  have := Nearest.fl_repr hp a 0 h
  rw [zpow_zero, mul_one] at this
  exact this

theorem small_error {u : ℚ} (h0 : 0 < u) (h8 : u ≤ 1 / 8) :
    u * (1 + (2 * u + u * u + u * (1 + (2 * u + u * u)))) + (2 * u + u * u + u * (1 + (2 * u + u * u))) ≤ 5 * u := by
  have e : u * (1 + (2 * u + u * u + u * (1 + (2 * u + u * u)))) + (2 * u + u * u + u * (1 + (2 * u + u * u))) =
      u * (4 + 6 * u + 4 * (u * u) + u * u * u) := by ring
  rw [e, mul_comm 5 u]
  refine mul_le_mul_of_nonneg_left ?_ h0.le
  have h2 : u * u ≤ 1 / 64 := by nlinarith
  have h3 : u * u * u ≤ 1 / 512 := by nlinarith [mul_pos h0 h0]
  linarith

/-- **C99** (accuracy).  With round to nearest on `p ≥ 3` digits and at most `2^p` generations, the probability is within `5 · 2^-p` of the exact
linear schedule. -/
theorem C99_error (h3 : 3 ≤ p) (start stop : Fl (Nearest.nearest p hp)) (s0 : 0 ≤ start.val) (s1 : start.val ≤ 1) (t0 : 0 ≤ stop.val)
    (t1 : stop.val ≤ 1) (n g : Int) (hg : 1 < g) (hgp : g ≤ 2 ^ p) (hn0 : 0 ≤ n) (hn : n < g) :
    |value (Nearest.nearest p hp) start.val stop.val n g - ((stop.val - start.val) * (n / (g - 1)) + start.val)| ≤ 5 / 2 ^ p := by
  generalize stop.val = T at t0 t1 ⊢
  generalize start.val = S at s0 s1 ⊢
  set r := Nearest.nearest p hp with hr
  set u : ℚ := 1 / 2 ^ p with hu
  have hu0 : 0 < u := by positivity
  have hu8 : u ≤ 1 / 8 := by
    rw [hu]
    have : (2 : ℚ) ^ 3 ≤ 2 ^ p := pow_le_pow_right₀ (by norm_num) h3
    exact one_div_le_one_div_of_le (by norm_num) (by linarith)
  have err : ∀ x : ℚ, |r.fl x - x| ≤ u * |x| := by
    intro x
    have := Nearest.fl_error (p := p) x
    rw [hu]
    calc _ ≤ |x| / 2 ^ p := this
      _ = _ := by ring
  have en : r.fl (n : ℚ) = n := fl_int_exact hp (by rw [abs_le]; constructor <;> [linarith; linarith])
  have eg : r.fl ((g - 1 : Int) : ℚ) = ((g - 1 : Int) : ℚ) := fl_int_exact hp (by rw [abs_le]; constructor <;> [linarith; linarith])
  have hgq : (0 : ℚ) < ((g - 1 : Int) : ℚ) := by exact_mod_cast (by omega : 0 < g - 1)
  have hnq : (0 : ℚ) ≤ n := by exact_mod_cast hn0
  set m : ℚ := ((g - 1 : Int) : ℚ) with hm
  have hnm : (n : ℚ) ≤ m := by rw [hm]; exact_mod_cast (by omega : n ≤ g - 1)
  set t : ℚ := n / m with ht
  have ht0 : 0 ≤ t := by positivity
  have ht1 : t ≤ 1 := by rw [ht, div_le_one hgq]; exact hnm
  have e' : ((n : ℚ) / (g - 1)) = t := by rw [ht, hm]; push_cast; rfl
  rw [e']
  set d := T - S with hd
  have hd1 : |d| ≤ 1 := by rw [abs_le]; constructor <;> linarith
  have k1 := err d
  set d1 := r.fl d with hd1'
  have k2 := err (d1 * n)
  set a := r.fl (d1 * n) with ha
  have k3 := err (a / m)
  set q := r.fl (a / m) with hq
  have k4 := err (q + S)
  have ev : value r S T n g = r.fl (q + S) := by unfold value; rw [en, eg]
  rw [ev]
  -- the quotient before rounding
  have ha' : |a / m - d * t| ≤ (2 * u + u * u) := by
    have h1 : |a - d1 * n| ≤ u * (|d1| * n) := by rw [abs_mul, abs_of_nonneg hnq] at k2; exact k2
    have h2 : |d1| ≤ 1 + u := by
      have := abs_sub_abs_le_abs_sub d1 d
      nlinarith
    have h3 : |a - d * n| ≤ (2 * u + u * u) * n := by
      have e : a - d * n = (a - d1 * n) + (d1 - d) * n := by ring
      rw [e]
      have h4 : |(d1 - d) * n| ≤ u * n := by
        rw [abs_mul, abs_of_nonneg hnq]
        exact mul_le_mul_of_nonneg_right (by nlinarith) hnq
      have h5 : u * (|d1| * n) ≤ u * ((1 + u) * n) := mul_le_mul_of_nonneg_left (mul_le_mul_of_nonneg_right h2 hnq) hu0.le
      have := abs_add_le (a - d1 * n) ((d1 - d) * n)
      nlinarith
    have e : a / m - d * t = (a - d * n) / m := by rw [ht]; field_simp
    rw [e, abs_div, abs_of_pos hgq, div_le_iff₀ hgq]
    have : (2 * u + u * u) * n ≤ (2 * u + u * u) * m := mul_le_mul_of_nonneg_left hnm (by positivity)
    linarith
  have hdt : |d * t| ≤ 1 := by
    rw [abs_mul, abs_of_nonneg ht0]; nlinarith [abs_nonneg d]
  have hq' : |q - d * t| ≤ 2 * u + u * u + u * (1 + (2 * u + u * u)) := by
    have h1 : |a / m| ≤ 1 + (2 * u + u * u) := by
      have := abs_sub_abs_le_abs_sub (a / m) (d * t)
      linarith
    have h2 : |q - a / m| ≤ u * (1 + (2 * u + u * u)) := k3.trans (mul_le_mul_of_nonneg_left h1 hu0.le)
    have := abs_sub_le q (a / m) (d * t)
    linarith
  have hex : |d * t + S| ≤ 1 := by
    have e : d * t + S = T * t + S * (1 - t) := by rw [hd]; ring
    have a1 : 0 ≤ T * t := mul_nonneg t0 ht0
    have a2 : T * t ≤ 1 * t := mul_le_mul_of_nonneg_right t1 ht0
    have a3 : 0 ≤ S * (1 - t) := mul_nonneg s0 (by linarith)
    have a4 : S * (1 - t) ≤ 1 * (1 - t) := mul_le_mul_of_nonneg_right s1 (by linarith)
    rw [e, abs_le]
    constructor <;> linarith
  set E := 2 * u + u * u + u * (1 + (2 * u + u * u)) with hE
  have h1 : |q + S| ≤ 1 + E := by
    have e : q + S = (d * t + S) + (q - d * t) := by ring
    rw [e]
    have := abs_add_le (d * t + S) (q - d * t)
    linarith
  have h2 : |r.fl (q + S) - (q + S)| ≤ u * (1 + E) := k4.trans (mul_le_mul_of_nonneg_left h1 hu0.le)
  have h3 : |r.fl (q + S) - (d * t + S)| ≤ u * (1 + E) + E := by
    have e : r.fl (q + S) - (d * t + S) = (r.fl (q + S) - (q + S)) + (q - d * t) := by ring
    rw [e]
    have := abs_add_le (r.fl (q + S) - (q + S)) (q - d * t)
    linarith
  have h4 : u * (1 + E) + E ≤ 5 * u := small_error hu0 hu8
  calc _ ≤ _ := h3
    _ ≤ 5 * u := h4
    _ = _ := by rw [hu]; ring

/-- **C99** (safe end points).  With both end points at least `5 · 2^-p` away from 0 and 1 the mutator never throws in a run of up to `2^p`
generations. -/
theorem C99_safe (h3 : 3 ≤ p) (start stop : Fl (Nearest.nearest p hp)) (s0 : 5 / 2 ^ p ≤ start.val) (s1 : start.val ≤ 1 - 5 / 2 ^ p)
    (t0 : 5 / 2 ^ p ≤ stop.val) (t1 : stop.val ≤ 1 - 5 / 2 ^ p) (n g : Int) (hg : 1 < g) (hgp : g ≤ 2 ^ p) (hn0 : 0 ≤ n) (hn : n < g) :
    0 ≤ value (Nearest.nearest p hp) start.val stop.val n g ∧ value (Nearest.nearest p hp) start.val stop.val n g ≤ 1 := by
  have hpos : (0 : ℚ) < 5 / 2 ^ p := by positivity
  have h := C99_error hp h3 start stop (by linarith) (by linarith) (by linarith) (by linarith) n g hg hgp hn0 hn
  have hgq : (0 : ℚ) < g - 1 := by
    have : (1 : ℚ) < g := by exact_mod_cast hg
    linarith
  have hnq : (0 : ℚ) ≤ n := by exact_mod_cast hn0
  have ht0 : (0 : ℚ) ≤ n / (g - 1) := by positivity
  have ht1 : (n : ℚ) / (g - 1) ≤ 1 := by
    rw [div_le_one hgq]
    have : (n : ℚ) ≤ ((g - 1 : Int) : ℚ) := by exact_mod_cast (by omega : n ≤ g - 1)
    push_cast at this
    exact this
  set t : ℚ := n / (g - 1) with ht
  have e : (stop.val - start.val) * t + start.val = stop.val * t + start.val * (1 - t) := by ring
  rw [e, abs_le] at h
  constructor <;> nlinarith [h.1, h.2]

end nearest

/-! ### Where it is not -/

/-- The double nearest to a number. -/
abbrev dbl (x : ℚ) : Fl Nearest.double := Fl.round _ x

/-- **C99** (below 0).  `LinearMutator(0.1, 0.0)`: in the last of 4, 7, 13, 25 or 49 generations the probability is negative in `double`
arithmetic and mutating any chromosome throws. -/
theorem C99_below_zero (g : Int) (hg : g ∈ [4, 7, 13, 25, 49]) (l : Lib) (chr : List Bool) (hne : chr ≠ []) :
    (∃ m, Linear.new (dbl (1 / 10)) 0 = .ok m) ∧
    mutateChromosome linearGenes (told (dbl (1 / 10)) 0 (g - 1) g) l chr = .throw "invalid_argument" := by
  refine ⟨(C99_constructor _ _).2 ⟨⟨by decide +kernel, by decide +kernel⟩, by decide +kernel⟩, ?_⟩
  simp only [List.mem_cons, List.not_mem_nil, or_false] at hg
  rcases hg with rfl | rfl | rfl | rfl | rfl <;>
    exact (C99_throws_iff _ _ _ _ (by omega) l chr hne).1 (.inl (by decide +kernel))

/-- **C99** (above 1).  `LinearMutator(0.2, 1.0)`: in the last of 4 or 7 generations the probability is above 1. -/
theorem C99_above_one (g : Int) (hg : g ∈ [4, 7]) (l : Lib) (chr : List Bool) (hne : chr ≠ []) :
    (∃ m, Linear.new (dbl (1 / 5)) 1 = .ok m) ∧
    mutateChromosome linearGenes (told (dbl (1 / 5)) 1 (g - 1) g) l chr = .throw "invalid_argument" := by
  refine ⟨(C99_constructor _ _).2 ⟨⟨by decide +kernel, by decide +kernel⟩, by decide +kernel⟩, ?_⟩
  simp only [List.mem_cons, List.not_mem_nil, or_false] at hg
  rcases hg with rfl | rfl <;>
    exact (C99_throws_iff _ _ _ _ (by omega) l chr hne).1 (.inr (by decide +kernel))

end K52.Mutator

namespace K52.GA
open K52.Indiv
open K52.Random (Lib rand)
open K52.Mutator (told value)

section run
variable {P R Mu : Type} [DiscreteParams P] [Add R] [Sub R] [Mul R] [Div R] [Zero R] [One R] [NatCast R] [LinearOrder R]

/-- A mutator that cannot mutate any chromosome in generation `g`. -/
structure MutFails (m : MutatorI Mu) (maxGen g : Int) (J : Mu → Prop) : Prop where
  apply : ∀ mu ctx, J mu → J (m.apply mu ctx)
  keep : ∀ mu l chr out mu' l', J mu → m.mutate mu l chr = .ok (out, mu', l') → J mu'
  fails : ∀ mu l chr r, J mu → chr ≠ [] → m.mutate (m.apply mu ⟨g, maxGen⟩) l chr ≠ .ok r

theorem mutate_keep {m : MutatorI Mu} {maxGen g : Int} {J : Mu → Prop} (hM : MutFails m maxGen g J) (fuel : Nat) {i j : Indiv P R} {mu mu' : Mu}
    {rng rng' : Rng} {n : Nat} (hJ : J mu) (h : mutate m fuel i mu rng = .ok (j, n, mu', rng')) : J mu' := by
  unfold mutate at h
  split at h
  swap
  · cases h
  rename_i hinit
  clear hinit
  revert h
  generalize 0 = c
  induction fuel generalizing i mu rng c with
  | zero => intro h; cases h
  | succ fuel ih =>
    intro h
    unfold mutateLoop at h
    rw [Res.bind_eq_ok] at h
    obtain ⟨⟨out, mu1, l1⟩, h1, h⟩ := h
    have j1 := hM.keep _ _ _ _ _ _ hJ h1
    rw [Res.bind_eq_ok] at h
    obtain ⟨i1, h2, h⟩ := h
    rw [Res.bind_eq_ok] at h
    obtain ⟨b, h3, h⟩ := h
    split at h
    · simp only [Res.pure_eq, Res.ok.injEq, Prod.mk.injEq] at h
      rw [← h.2.2.1]
      exact j1
    · exact ih j1 _ h

theorem mutateAll_keep {m : MutatorI Mu} {maxGen g : Int} {J : Mu → Prop} (hM : MutFails m maxGen g J) (fuel : Nat) :
    ∀ (pop : List (Indiv P R)) (mu : Mu) (rng : Rng) (out : List (Indiv P R)) (mu' : Mu) (rng' : Rng), J mu →
    mutateAll m fuel pop mu rng = .ok (out, mu', rng') → J mu'
  | [], mu, rng, out, mu', rng', hJ, h => by
    simp only [mutateAll, Res.ok.injEq, Prod.mk.injEq] at h
    rw [← h.2.1]
    exact hJ
  | i :: is, mu, rng, out, mu', rng', hJ, h => by
    unfold mutateAll at h
    rw [Res.bind_eq_ok] at h
    obtain ⟨⟨j, n, mu1, r1⟩, h1, h⟩ := h
    rw [Res.bind_eq_ok] at h
    obtain ⟨⟨js, mu2, r2⟩, h2, h⟩ := h
    simp only [Res.pure_eq, Res.ok.injEq, Prod.mk.injEq] at h
    rw [← h.2.1]
    exact mutateAll_keep hM fuel is mu1 r1 js mu2 r2 (mutate_keep hM fuel hJ h1) h2

theorem mutate_not_ok {m : MutatorI Mu} {fuel : Nat} {i : Indiv P R} {mu : Mu} {rng : Rng} (hm : ∀ r, m.mutate mu rng.lib i.chrom ≠ .ok r) :
    ∀ r, mutate m fuel i mu rng ≠ .ok r := by
  intro r h
  unfold mutate at h
  split at h
  swap
  · cases h
  cases fuel with
  | zero => cases h
  | succ fuel =>
    unfold mutateLoop at h
    rw [Res.bind_eq_ok] at h
    obtain ⟨d, h1, _⟩ := h
    exact hm d h1

theorem iterate_must_stop {Fam : P → Prop} {s : Nat} (hF : Family Fam s) (hs : 0 < s) (cfg : Config P R Mu)
    (hsort : ∀ l, (cfg.sort l).Perm l) (hm : KeepsLength cfg.mutator) (heven : cfg.popSize % 2 = 0) (hpos : 0 < cfg.popSize) {g : Int}
    (hg : g < cfg.maxGen) {J : Mu → Prop} (hM : MutFails cfg.mutator cfg.maxGen g J) {f : P → R} (fuel : Nat) :
    ∀ (k : Nat) (n : Int) (c : Counter R) (pop : List (Indiv P R)) (best : Indiv P R) (mu : Mu) (rng : Rng) r,
    n ≤ g → n + k = cfg.maxGen → c.WF → pop.length = cfg.popSize → (∀ i ∈ pop, Good Fam s i) → J mu →
    iterate cfg fuel f k n c pop best mu rng = .ok r → cfg.stop ≤ r.2.2.1.fitness ∧ n + r.1.length ≤ g + 1 := by
  intro k
  induction k with
  | zero => intro n c pop best mu rng r h1 h2; exfalso; push_cast at h2; omega
  | succ k ih =>
    intro n c pop best mu rng r hn hk hc hlen hgood hJ h
    unfold iterate at h
    rw [Res.bind_eq_ok] at h
    obtain ⟨⟨c1, ev⟩, e1, h⟩ := h
    obtain ⟨q1, q2⟩ := obtainFitness_spec hc e1
    have hevl : ev.length = cfg.popSize := (q1.length_eq).symm.trans hlen
    have hev : ∀ i ∈ ev, Good Fam s i ∧ i.hasFitness = true := by
      intro i hi
      obtain ⟨p, hp, q⟩ := forall₂_mem_right q1 hi
      exact ⟨(Evaluated.same q).1.good (hgood p hp), (Evaluated.same q).2.1⟩
    rw [Res.bind_eq_ok] at h
    obtain ⟨b1, e2, h⟩ := h
    obtain ⟨u1, u2, _⟩ := updateBest_spec e2 (fun i hi => (hev i hi).2)
    simp only [getFitness, u1, if_true, Res.ok_bind] at h
    split at h
    · next hstop =>
      simp only [Res.pure_eq, Res.ok.injEq] at h
      subst h
      exact ⟨hstop, by simp; omega⟩
    · rw [Res.bind_eq_ok] at h
      obtain ⟨nx, hnx, h⟩ := h
      unfold nextPopulation at hnx
      rw [Res.bind_eq_ok] at hnx
      obtain ⟨t, _, hnx⟩ := hnx
      have gn := nextPairs_good (s := s) hF (fun i hi => (hev i hi).1) (fun i hi => (hev i ((hsort ev).mem_iff.1 hi)).1) _ _ _ _ nx.1 nx.2 hnx
      rw [Res.bind_eq_ok] at h
      obtain ⟨mm, hmm, h⟩ := h
      by_cases hng : n = g
      · exfalso
        subst hng
        obtain ⟨pop', r'⟩ := nx
        cases pop' with
        | nil => have := gn.1; simp at this; omega
        | cons i is =>
          unfold mutateAll at hmm
          rw [Res.bind_eq_ok] at hmm
          obtain ⟨d, h1, _⟩ := hmm
          have hc := (gn.2 i List.mem_cons_self).2.2
          exact mutate_not_ok (fun r => hM.fails mu _ _ r hJ (by rintro e; rw [e] at hc; simp at hc; omega)) d h1
      · obtain ⟨ml, mg⟩ := mutateAll_good hF hm fuel nx.1 _ nx.2 mm.1 mm.2.1 mm.2.2 gn.2 hmm
        rw [Res.bind_eq_ok] at h
        obtain ⟨rest, hrest, h⟩ := h
        simp only [Res.pure_eq, Res.ok.injEq] at h
        have hkeep := mutateAll_keep hM fuel nx.1 _ nx.2 mm.1 mm.2.1 mm.2.2 (hM.apply mu _ hJ) hmm
        have hrec := ih (n + 1) { c1 with hits := 0 } mm.1 b1 mm.2.1 mm.2.2 rest (by omega) (by push_cast at hk; omega) (by
          intro st hst; exact q2.1 st hst) (by rw [ml, gn.1]; omega) (fun i hi => (mg i hi).1) hkeep hrest
        subst h
        refine ⟨hrec.1, ?_⟩
        simp only [List.length_cons]
        push_cast
        linarith [hrec.2]

/-- **C99** (whole runs).  If the rounded schedule leaves 0 .. 1 in generation `g`, no run of the genetic algorithm gets past that
generation: every run that returns has met the stop criterion after at most `g + 1` generations. -/
theorem C99_run {r : Rounding} {Fam : P → Prop} {s : Nat} {cfg : Config P R (Mutator.Linear (Fl r))} {c : Counter R} {p : P}
    (st : Setting Fam s cfg c p) (hs : 0 < s) (hlin : cfg.mutator = linearMutator (Fl r)) (m : Mutator.Linear (Fl r)) (g : Int) (h0 : 0 ≤ g)
    (hg : g < cfg.maxGen) (h1 : cfg.maxGen ≠ 1)
    (hout : value r m.start.val m.stop.val g cfg.maxGen < 0 ∨ 1 < value r m.start.val m.stop.val g cfg.maxGen)
    (f : P → R) (fuel : Nat) (rng : Rng) (maximize : Bool) (res : Result P R (Mutator.Linear (Fl r)))
    (h : optimize cfg fuel f c m rng p maximize = .ok res) :
    cfg.stop ≤ res.best.fitness ∧ res.generations.length ≤ g + 1 := by
  have hM : MutFails cfg.mutator cfg.maxGen g (fun m' => m'.start = m.start ∧ m'.stop = m.stop) := by
    rw [hlin]
    refine ⟨fun mu ctx h => h, ?_, ?_⟩
    · intro mu l chr out mu' l' hJ hok
      suffices mu' = mu by rw [this]; exact hJ
      simp only [linearMutator, ofGenes] at hok
      clear hJ
      induction chr generalizing l out l' mu' with
      | nil => cases hok; rfl
      | cons b bs ih =>
        unfold Mutator.mutateChromosome at hok
        rw [Res.bind_eq_ok] at hok
        obtain ⟨d, _, hok⟩ := hok
        rw [Res.bind_eq_ok] at hok
        obtain ⟨⟨m1, l1⟩, h2, hok⟩ := hok
        simp only [Mutator.linearGenes, Res.ok.injEq, Prod.mk.injEq] at h2
        rw [Res.bind_eq_ok] at hok
        obtain ⟨⟨o3, m3, l3⟩, h3, hok⟩ := hok
        rw [← h2.1] at h3
        simp only [Res.pure_eq, Res.ok.injEq, Prod.mk.injEq] at hok
        rw [← hok.2.1]
        exact ih _ _ _ _ h3
    · intro mu l chr x hJ hne hok
      have e : (linearMutator (Fl r)).apply mu ⟨g, cfg.maxGen⟩ = told m.start m.stop g cfg.maxGen := by
        obtain ⟨a, b, ctx⟩ := mu
        obtain ⟨rfl, rfl⟩ := hJ
        rfl
      rw [e] at hok
      have := (Mutator.C99_throws_iff m.start m.stop g cfg.maxGen h1 l chr hne).1 hout
      simp only [linearMutator, ofGenes] at hok
      rw [this] at hok
      cases hok
  obtain ⟨b1, b2, b3, _⟩ := st.built.facts
  unfold optimize at h
  split at h
  swap
  · cases h
  rw [Res.bind_eq_ok] at h
  obtain ⟨⟨pop, best, rng1⟩, hi, h⟩ := h
  obtain ⟨g1, g2, g3, _⟩ := initial_good st hi
  rw [Res.bind_eq_ok] at h
  obtain ⟨it, hit, h⟩ := h
  have key := iterate_must_stop st.fam hs cfg st.sort st.mutator b2 b1 hg hM fuel cfg.maxGen.toNat 0 c pop best m rng1 it h0 (by omega) st.counter
    g1 g2 ⟨rfl, rfl⟩ hit
  split at h
  · split at h
    · simp only [Res.pure_eq, Res.ok.injEq] at h
      subst h
      simpa using key
    · cases h
    · cases h
  · cases h

end run

namespace Examples

/-- The configuration of the examples with `LinearMutator(0.1, 0.0)` (in `double`) and four generations. -/
def fading : Config Two ℚ (Mutator.Linear (Fl Nearest.double)) := ⟨4, 1, 4, 100, none, linearMutator (Fl Nearest.double), hash, sorted⟩

/-- **C99** (a whole run).  `Optimize` with `LinearMutator(0.1, 0.0)` and four generations dies with `std::invalid_argument`; with three it returns. -/
theorem C99_run_dies :
    optimize fading 10 value (Counter.new 12 1) ⟨Mutator.dbl (1 / 10), 0, ⟨0, 0⟩⟩ rng ⟨false, false⟩ true = .throw "invalid_argument" ∧
    (∃ res, optimize { fading with maxGen := 3 } 10 value (Counter.new 12 1) ⟨Mutator.dbl (1 / 10), 0, ⟨0, 0⟩⟩ rng ⟨false, false⟩ true = .ok res) := by
  constructor
  · have h : (match optimize fading 10 value (Counter.new 12 1) ⟨Mutator.dbl (1 / 10), 0, ⟨0, 0⟩⟩ rng ⟨false, false⟩ true with
      | .throw w => decide (w = "invalid_argument")
      | _ => false) = true := by decide +kernel
    split at h
    · next w e => rw [e]; simpa using h
    · simp at h
  · have h : (match optimize { fading with maxGen := 3 } 10 value (Counter.new 12 1) ⟨Mutator.dbl (1 / 10), 0, ⟨0, 0⟩⟩ rng ⟨false, false⟩ true with
      | .ok _ => true
      | _ => false) = true := by decide +kernel
    split at h
    · next res e => exact ⟨res, e⟩
    · simp at h

/-- Non-vacuity of `C99_run`. -/
example (res) (fuel : Nat) (rng : Rng)
    (h : optimize fading fuel value (Counter.new 12 1) ⟨Mutator.dbl (1 / 10), 0, ⟨0, 0⟩⟩ rng ⟨false, false⟩ true = .ok res) :
    100 ≤ res.best.fitness :=
  (C99_run (Fam := fun _ => True) (s := 2) ⟨two_family, .create (popSize := 4) (elitism := 1) (maxGen := 4)
    (mutator := some (linearMutator (Fl Nearest.double))) rfl, fun l => List.perm_insertionSort _ _, ofGenes_keepsLength _ _, trivial,
    fun ps h => by simp at h, new_wf _ _⟩ (by norm_num) rfl _ 3 (by norm_num) (by simp) (by simp)
    (.inl (by decide +kernel)) value fuel rng true res h).1

end Examples
end K52.GA
