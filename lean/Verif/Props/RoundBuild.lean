import Verif.Props.RoundSampled
import Verif.Model.Cwt

/-!
# C110: building a wavelet with linear scales in rounded arithmetic
-/

namespace K52.Cwt.Rounded

open K52.Dsp (rd fillLoop fillLoop_ok)
open K52.Akima.Rounded (nat_val u_pos u_le two_val Accurate C109_values correct correct_accurate dbl)

variable {p : Nat} {hp : 1 ≤ p}

/-- Numbers with `p` significant binary digits. -/
abbrev Num (p : Nat) (hp : 1 ≤ p) := Fl (Nearest.nearest p hp)

/-! ## Specification -/

/-- The exact place of sample `j` of scale `i`: scales `(i + 1) / count * ⌊max / min⌋`, and the samples from -4 to 4 at scale 1. -/
def place (minLength maxLength count i j : Nat) : ℚ :=
  ((j : ℚ) - (maxLength : ℚ) / 2) * (((i + 1 : Nat) : ℚ) / count * ((maxLength / minLength : Nat) : ℚ)) * 4 / ((maxLength / 2 : Nat) : ℚ)

/-! ## Proofs -/

theorem fillLoop_congr {α : Type} {N : Nat} {f g : Nat → Res α} (h : ∀ n < N, f n = g n) : fillLoop N f = fillLoop N g := by
  unfold fillLoop
  induction N with
  | zero => simp
  | succ N ih => rw [List.range_succ, List.mapM_append, List.mapM_append, ih (fun n hn => h n (by omega)), List.mapM_cons, List.mapM_cons, h N (by omega)]; rfl

/-- A loop whose steps all succeed. -/
theorem fillLoop_all {α : Type} {N : Nat} {f : Nat → Res α} (h : ∀ n < N, ∃ a, f n = .ok a) :
    ∃ l, fillLoop N f = .ok l ∧ l.length = N ∧ ∀ n < N, ∃ a, l[n]? = some a ∧ f n = .ok a := by
  unfold fillLoop
  induction N with
  | zero => exact ⟨[], rfl, rfl, fun n hn => by omega⟩
  | succ N ih =>
    obtain ⟨l, h1, h2, h3⟩ := ih (fun n hn => h n (by omega))
    obtain ⟨a, ha⟩ := h N (by omega)
    refine ⟨l ++ [a], ?_, by simp [h2], ?_⟩
    · rw [List.range_succ, List.mapM_append, h1]
      simp [ha]
    · intro n hn
      rcases Nat.lt_or_ge n N with hlt | hge
      · obtain ⟨b, b1, b2⟩ := h3 n hlt
        exact ⟨b, by rw [List.getElem?_append_left (by omega)]; exact b1, b2⟩
      · have : n = N := by omega
        subst this
        exact ⟨a, by rw [List.getElem?_append_right (by omega), h2]; simp, ha⟩

/-- A loop that fills a vector throws when one of the steps throws and the others do not go wrong otherwise. -/
theorem fillLoop_threw {α : Type} {N : Nat} {f : Nat → Res α} (h : ∀ n < N, (∃ a, f n = .ok a) ∨ (f n).threw) (ht : ∃ n < N, (f n).threw) :
    (fillLoop N f).threw := by
  unfold fillLoop
  induction N with
  | zero => obtain ⟨n, hn, _⟩ := ht; omega
  | succ N ih =>
    rw [List.range_succ, List.mapM_append]
    by_cases hex : ∃ n < N, (f n).threw
    · have := ih (fun n hn => h n (by omega)) hex
      revert this
      cases (List.range N).mapM f with
      | ok a => intro h; exact absurd h id
      | throw w => intro _; trivial
      | ub => intro h; exact absurd h id
    · have hall : ∀ n < N, ∃ a, f n = .ok a := by
        intro n hn
        rcases h n (by omega) with h1 | h1
        · exact h1
        · exact absurd ⟨n, hn, h1⟩ hex
      obtain ⟨n, hn, h1⟩ := ht
      have hN : n = N := by
        by_contra hne
        exact hex ⟨n, by omega, h1⟩
      subst hN
      obtain ⟨l, hl, _⟩ := fillLoop_all hall
      unfold fillLoop at hl
      rw [hl]
      simp only [Res.ok_bind, List.mapM_cons, List.mapM_nil]
      revert h1
      cases f n with
      | ok a => intro h; exact absurd h id
      | throw w => intro _; trivial
      | ub => intro h; exact absurd h id

theorem int_val {m : Nat} (h : m ≤ 2 ^ p) : ((m : Int) : Num p hp).val = m := by
  show Nearest.fl p (((m : Nat) : Int) : ℚ) = m
  have := Nearest.fl_repr hp m 0 (by rw [abs_of_nonneg (by positivity)]; exact_mod_cast h)
  simpa using this

/-- The computed scale `i`. -/
def scaleN (minLength maxLength count i : Nat) : Num p hp :=
  ((i + 1 : Nat) : Num p hp) / (count : Num p hp) * ((((maxLength / minLength : Nat) : Int)) : Num p hp)

/-- The computed point: within five roundings of its exact place. -/
theorem point_err (mn mx count i j : Nat) (h2 : 2 ≤ mx) (hx : mx ≤ 2 ^ p) (hc : count ≤ 2 ^ p) (hi : i < count) (hj : j < mx) :
    |(samplePointBy mx (scaleN mn mx count i : Num p hp) j).val - place mn mx count i j| ≤ ((1 + 1 / 2 ^ p) ^ 5 - 1) * |place mn mx count i j| := by
  have hu := Nearest.unit p hp
  have hp2 : 4 ≤ p ∨ p < 4 := by omega
  have hk : mx / mn ≤ 2 ^ p := (Nat.div_le_self _ _).trans hx
  have hs : Sim ((1 + 1 / 2 ^ p) * (1 + 1 / 2 ^ p)) (scaleN mn mx count i : Num p hp).val (((i + 1 : Nat) : ℚ) / count * ((mx / mn : Nat) : ℚ))
      |((i + 1 : Nat) : ℚ) / count * ((mx / mn : Nat) : ℚ)| := by
    unfold scaleN
    rw [Fl.val_mul, Fl.val_div, nat_val (by omega), nat_val hc, int_val hk]
    have := (((Sim.exact (((i + 1 : Nat) : ℚ) / count)).fl hu).mul (Sim.exact ((mx / mn : Nat) : ℚ))).fl hu
    rw [abs_mul]
    exact this.mono (by rw [one_mul, mul_one])
  have hd : (((j : Nat) : Num p hp) - ((mx : Nat) : Num p hp) / 2).val = (j : ℚ) - mx / 2 := by
    rw [Fl.val_sub, Fl.val_div, two_val, nat_val (by omega), nat_val hx]
    have e1 : (Nearest.nearest p hp).fl ((mx : ℚ) / 2) = mx / 2 := by
      show Nearest.fl p ((mx : ℚ) / 2) = mx / 2
      have := Nearest.fl_repr hp mx (-1) (by rw [abs_of_nonneg (by positivity)]; exact_mod_cast hx)
      rw [zpow_neg, zpow_one, Int.cast_natCast, ← div_eq_mul_inv] at this
      exact this
    rw [e1]
    show Nearest.fl p ((j : ℚ) - mx / 2) = j - mx / 2
    have hb : |(2 * (j : Int) - mx)| ≤ 2 ^ p := by
      rw [abs_le]
      have : (mx : Int) ≤ 2 ^ p := by exact_mod_cast hx
      constructor <;> omega
    have := Nearest.fl_repr hp (2 * (j : Int) - mx) (-1) hb
    have e2 : (((2 * (j : Int) - mx : Int) : ℚ)) * 2 ^ (-1 : Int) = (j : ℚ) - mx / 2 := by
      rw [zpow_neg, zpow_one]
      push_cast
      ring
    rwa [e2] at this
  have h4 : (4 : Num p hp).val = 4 := by
    show Nearest.fl p ((4 : Nat) : ℚ) = 4
    have := Nearest.fl_repr hp 1 2 (by rw [abs_one]; exact one_le_pow₀ (by norm_num))
    norm_num at this ⊢
    exact this
  unfold samplePointBy
  simp only
  rw [Fl.val_div, Fl.val_mul (_ * _), Fl.val_mul, hd, h4, nat_val (m := mx / 2) (by omega), div_eq_mul_inv]
  have h := ((((((Sim.exact ((j : ℚ) - mx / 2)).mul hs).fl hu).mul (Sim.exact 4)).fl hu).mul (Sim.exact (((mx / 2 : Nat) : ℚ))⁻¹)).fl hu
  have e : place mn mx count i j = ((j : ℚ) - mx / 2) * (((i + 1 : Nat) : ℚ) / count * ((mx / mn : Nat) : ℚ)) * 4 * (((mx / 2 : Nat) : ℚ))⁻¹ := by
    unfold place
    rw [div_eq_mul_inv]
  rw [e, abs_mul, abs_mul, abs_mul]
  refine h.err.trans (le_of_eq ?_)
  congr 1
  ring

/-- The scales, and the whole build, of linear scales. -/
theorem build_eq {C : Type} (log exp : Num p hp → Num p hp) (f : Num p hp → Res C) (mn mx count : Nat) (h1 : 1 ≤ mn) (hx : mx ≤ 2147483647) :
    buildBy log exp (some f) mn mx count .linear =
      (fillLoop count fun i => fillLoop mx fun j => f (samplePointBy mx (scaleN mn mx count i) j)) >>= fun parts =>
        .ok ((List.range count).map (scaleN mn mx count), parts) := by
  have hsc : createScaleBy log exp .linear (mn : Int) (mx : Int) count = .ok ((List.range count).map (scaleN mn mx count)) := by
    unfold createScaleBy intDiv int32
    have hk : Int.tdiv (mx : Int) (mn : Int) = ((mx / mn : Nat) : Int) := by
      rw [Int.tdiv_eq_ediv_of_nonneg (by omega)]
      norm_cast
    have hle : mx / mn ≤ mx := Nat.div_le_self _ _
    have hle' : ((mx / mn : Nat) : Int) ≤ 2147483647 := (Int.ofNat_le.2 hle).trans (by omega)
    have h0' : (-2147483648 : Int) ≤ ((mx / mn : Nat) : Int) := le_trans (by norm_num) (Int.natCast_nonneg _)
    simp only []
    rw [if_neg (by omega), hk, if_pos ⟨h0', hle'⟩]
    simp only [Res.ok_bind]
    exact fillLoop_ok fun i _ => rfl
  unfold buildBy
  simp only []
  rw [if_neg (by omega), if_neg (by omega), Int.toNat_natCast, Int.toNat_natCast, hsc]
  simp only [Res.ok_bind]
  congr 1
  refine fillLoop_congr fun i hi => ?_
  have : rd ((List.range count).map (scaleN (hp := hp) mn mx count)) i = .ok (scaleN mn mx count i) := by
    simp [rd, hi]
  rw [this]
  rfl

/-! ## C110 -/

/-- **C110.** Building a wavelet of `count` linear scales with `max` samples each, for any base function: there are numbers `X i j`, each within five roundings
of its exact place, such that the wavelet is built when the base function has a value at all of them, sample `j` of scale `i` being its value at `X i j`,
and building throws when the base function throws at one of them and has a value or throws at the others. -/
theorem C110_build {C : Type} (log exp : Num p hp → Num p hp) (f : Num p hp → Res C) (mn mx count : Nat) (h1 : 1 ≤ mn) (h2 : 2 ≤ mx)
    (hx : mx ≤ 2147483647) (hxp : mx ≤ 2 ^ p) (hc : count ≤ 2 ^ p) :
    ∃ X : Nat → Nat → Num p hp,
      (∀ i < count, ∀ j < mx, |(X i j).val - place mn mx count i j| ≤ ((1 + 1 / 2 ^ p) ^ 5 - 1) * |place mn mx count i j|) ∧
      ((∀ i < count, ∀ j < mx, ∃ v, f (X i j) = .ok v) → ∃ scale parts, buildBy log exp (some f) mn mx count .linear = .ok (scale, parts) ∧
        parts.length = count ∧ ∀ i < count, ∃ row, parts[i]? = some row ∧ row.length = mx ∧ ∀ j < mx, ∃ v, row[j]? = some v ∧ f (X i j) = .ok v) ∧
      ((∀ i < count, ∀ j < mx, (∃ v, f (X i j) = .ok v) ∨ (f (X i j)).threw) → (∃ i < count, ∃ j < mx, (f (X i j)).threw) →
        (buildBy log exp (some f) mn mx count .linear).threw) := by
  refine ⟨fun i j => samplePointBy mx (scaleN mn mx count i) j, fun i hi j hj => point_err mn mx count i j h2 hxp hc hi hj, fun hf => ?_, fun hf ht => ?_⟩
  · rw [build_eq log exp f mn mx count h1 hx]
    have hrow : ∀ i < count, ∃ row, (fillLoop mx fun j => f (samplePointBy mx (scaleN mn mx count i) j)) = .ok row :=
      fun i hi => ⟨_, (fillLoop_all (hf i hi)).choose_spec.1⟩
    obtain ⟨parts, p1, p2, p3⟩ := fillLoop_all hrow
    rw [p1]
    refine ⟨_, parts, rfl, p2, fun i hi => ?_⟩
    obtain ⟨row, r1, r2⟩ := p3 i hi
    obtain ⟨l, l1, l2, l3⟩ := fillLoop_all (hf i hi)
    rw [l1] at r2
    cases r2
    exact ⟨row, r1, l2, l3⟩
  · rw [build_eq log exp f mn mx count h1 hx]
    have hthrew : (fillLoop count fun i => fillLoop mx fun j => f (samplePointBy mx (scaleN mn mx count i) j)).threw := by
      have hsplit : ∀ i < count, (∃ row, (fillLoop mx fun j => f (samplePointBy mx (scaleN mn mx count i) j)) = .ok row) ∨
          (fillLoop mx fun j => f (samplePointBy mx (scaleN mn mx count i) j)).threw := by
        intro i hi
        by_cases hall : ∀ j < mx, ∃ v, f (samplePointBy mx (scaleN mn mx count i) j) = .ok v
        · exact Or.inl ⟨_, (fillLoop_all hall).choose_spec.1⟩
        · right
          push Not at hall
          obtain ⟨j, hj, hn⟩ := hall
          refine fillLoop_threw (hf i hi) ⟨j, hj, ?_⟩
          rcases hf i hi j hj with ⟨v, hv⟩ | h
          · exact absurd hv (hn v)
          · exact h
      refine fillLoop_threw hsplit ?_
      obtain ⟨i, hi, j, hj, h⟩ := ht
      exact ⟨i, hi, fillLoop_threw (hf i hi) ⟨j, hj, h⟩⟩
    revert hthrew
    cases (fillLoop count fun i => fillLoop mx fun j => f (samplePointBy mx (scaleN mn mx count i) j)) with
    | ok a => intro h; exact absurd h id
    | throw w => intro _; trivial
    | ub => intro h; exact absurd h id

section Sampled
variable [Akima.SplineLib (Num p hp)] {ε : ℚ}

/-- **C110.** A wavelet with linear scales over a function made from `n ≥ 3` samples (`8 n ≤ 2^p`) is built, without an exception, whenever no exact place of
a sample lies between `4 - 100 * 2^-p` and `4 + 40 * 2^-p`. -/
theorem C110_sampled (ha : Accurate p hp ε) (real : List (Num p hp)) (h3 : 3 ≤ real.length) (h8 : 8 * real.length ≤ 2 ^ p)
    (log exp : Num p hp → Num p hp) (mn mx count : Nat) (h1 : 1 ≤ mn) (h2 : 2 ≤ mx) (hx : mx ≤ 2147483647) (hxp : mx ≤ 2 ^ p) (hc : count ≤ 2 ^ p)
    (hfar : ∀ i < count, ∀ j < mx, place mn mx count i j ≤ 4 - 100 / 2 ^ p ∨ 4 + 40 / 2 ^ p ≤ place mn mx count i j) :
    ∃ s, Akima.waveletInit real = .ok s ∧ ∃ w, buildBy log exp (some (Akima.waveletReal s)) mn mx count .linear = .ok w := by
  obtain ⟨s, hs, _, hout, hin⟩ := C109_values ha real h3 h8
  refine ⟨s, hs, ?_⟩
  obtain ⟨X, hX, hok, _⟩ := C110_build log exp (Akima.waveletReal s) mn mx count h1 h2 hx hxp hc
  obtain ⟨scale, parts, hb, _⟩ := hok (fun i hi j hj => by
    have he := hX i hi j hj
    have hu0 := u_pos (p := p)
    have hu1 := u_le h3 h8
    have hfar' := hfar i hi j hj
    generalize X i j = x at *
    generalize place mn mx count i j = e at *
    have e74 : (74 : ℚ) / 2 ^ p = 74 * (1 / 2 ^ p) := by ring
    have e100 : (100 : ℚ) / 2 ^ p = 100 * (1 / 2 ^ p) := by ring
    have e40 : (40 : ℚ) / 2 ^ p = 40 * (1 / 2 ^ p) := by ring
    rw [e100, e40] at hfar'
    rw [e74] at hin
    generalize (1 : ℚ) / 2 ^ p = u at *
    have h6 : (1 + u) ^ 5 - 1 ≤ 6 * u := by
      have q2 : u * u ≤ 1 / 32 * u := mul_le_mul_of_nonneg_right hu1 hu0.le
      have q3 : u * u * u ≤ 1 / 32 * (u * u) := by
        have := mul_le_mul_of_nonneg_right hu1 (mul_nonneg hu0.le hu0.le)
        linarith
      have q4 : u * u * u * u ≤ 1 / 32 * (u * u * u) := by
        have := mul_le_mul_of_nonneg_right hu1 (show 0 ≤ u * u * u by positivity)
        linarith
      have q5 : u * u * u * u * u ≤ 1 / 32 * (u * u * u * u) := by
        have := mul_le_mul_of_nonneg_right hu1 (show 0 ≤ u * u * u * u by positivity)
        linarith
      have e5 : (1 + u) ^ 5 - 1 = 5 * u + 10 * (u * u) + 10 * (u * u * u) + 5 * (u * u * u * u) + u * u * u * u * u := by ring
      rw [e5]
      have := mul_pos hu0 hu0
      linarith
    have he6 : |x.val - e| ≤ 6 * u * |e| := he.trans (mul_le_mul_of_nonneg_right h6 (abs_nonneg _))
    obtain ⟨b1, b2⟩ := abs_le.1 he6
    rcases hfar' with hle | hge
    · refine hin x ?_
      rcases le_or_gt 0 e with h0 | h0
      · rw [abs_of_nonneg h0] at b2
        have := mul_le_mul_of_nonneg_left hle (show 0 ≤ 6 * u by linarith)
        have e1 : 6 * u * (4 - 100 * u) = 24 * u - 600 * (u * u) := by ring
        have := mul_pos hu0 hu0
        linarith
      · rw [abs_of_neg h0] at b2
        have := mul_le_mul_of_nonneg_right hu1 (show 0 ≤ -e by linarith)
        have e1 : 6 * u * -e = 6 * (u * -e) := by ring
        linarith
    · refine ⟨0, hout x (fun h => ?_)⟩
      have h0 : 0 ≤ e := by linarith
      rw [abs_of_nonneg h0] at b1
      have := mul_le_mul_of_nonneg_left hge (show 0 ≤ 1 - 6 * u by linarith)
      have e1 : (1 - 6 * u) * (4 + 40 * u) = 4 + 16 * u - 240 * (u * u) := by ring
      have e2 : (1 - 6 * u) * e = e - 6 * u * e := by ring
      have q2 : u * u ≤ 1 / 32 * u := mul_le_mul_of_nonneg_right hu1 hu0.le
      linarith [h.2])
  exact ⟨_, hb⟩

end Sampled

section Examples
attribute [local instance] correct

/-- **C110.** With a function made from three samples, in `double`: `BuildWavelet(f, 4, 8, 1, Linear)` throws, because it evaluates the function at 4. -/
theorem C110_throws : (do
    let s ← Akima.waveletInit [dbl 1, dbl 2, dbl 1]
    buildBy id id (some (Akima.waveletReal s)) 4 8 1 .linear) = .throw "out_of_range" := by
  decide +kernel

/-- Non-vacuity of `C110_sampled`: with scale 1 no place comes near 4, and the wavelet over the same function is built. -/
example : ∃ s, Akima.waveletInit [dbl 1, dbl 2, dbl 1] = .ok s ∧ ∃ w, buildBy id id (some (Akima.waveletReal s)) (8 : Nat) (8 : Nat) (1 : Nat) .linear = .ok w := by
  refine C110_sampled (correct_accurate 53 _) [dbl 1, dbl 2, dbl 1] (by norm_num) (by norm_num) id id 8 8 1 (by norm_num) (by norm_num) (by norm_num) (by norm_num)
    (by norm_num) (fun i hi j hj => Or.inl ?_)
  have hi' : i = 0 := by omega
  subst hi'
  unfold place
  interval_cases j <;> norm_num

end Examples

end K52.Cwt.Rounded
