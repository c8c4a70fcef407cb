import Verif.Props.WaveletObj
import Verif.Lemmas.RoundSum

/-!
# C103: the continuous wavelet transformation in rounded arithmetic

`Fl r`: numbers of a rounding `r`, every operation rounded (`Verif.Spec.Rounding`).  `r.Unit u`: one rounding changes a number by at most the
fraction `u` of it; in `double` `u = 2^-53`.
-/

namespace K52.WaveletObj

open K52.Dsp (rd fillLoop fillLoop_ok)
open Finset

variable {r : Rounding} {u : ℚ}

/-- A square root function with relative error at most `u` (IEEE square roots are correctly rounded, see `exists_sqrt`). -/
structure IsSqrt (r : Rounding) (u : ℚ) (sqrt : Fl r → Fl r) : Prop where
  nonneg : ∀ x, 0 ≤ x.val → 0 ≤ (sqrt x).val
  err : ∀ x, 0 ≤ x.val → |((sqrt x).val : ℝ) - Real.sqrt x.val| ≤ u * Real.sqrt x.val

/-- The exact sum of products. -/
def dot (ws data : List (Fl r)) (offset : Nat) : ℚ := ∑ j ∈ range ws.length, (ws.getD j 0).val * (data.getD (offset + j) 0).val

/-- The sum of the absolute values of the products. -/
def dotAbs (ws data : List (Fl r)) (offset : Nat) : ℚ := ∑ j ∈ range ws.length, |(ws.getD j 0).val * (data.getD (offset + j) 0).val|

theorem inner_foldl (ws data : List (Fl r)) (offset : Nat) (acc : Fl r) (h : offset + ws.length ≤ data.length) :
    inner ws data offset acc =
      .ok ((List.range ws.length).foldl (fun acc j => acc + ws.getD j 0 * data.getD (offset + j) 0) acc) := by
  induction ws generalizing offset acc with
  | nil => simp [inner]
  | cons w ws ih =>
    simp only [List.length_cons] at h
    unfold inner
    rw [rd_ok 0 (by omega), Res.ok_bind, ih _ _ (by omega)]
    rw [List.length_cons, List.range_succ_eq_map, List.foldl_cons, List.foldl_map]
    simp only [List.getD_cons_succ, List.getD_cons_zero, add_zero]
    have : ∀ j, offset + 1 + j = offset + (j + 1) := fun j => by omega
    simp only [this, Nat.succ_eq_add_one]

/-- A rounded sum of `n` products: `n` roundings deep. -/
theorem inner_round (hu : r.Unit u) (ws data : List (Fl r)) (offset : Nat) (h : offset + ws.length ≤ data.length) :
    ∃ s, inner ws data offset 0 = .ok s ∧ |s.val - dot ws data offset| ≤ ((1 + u) ^ ws.length - 1) * dotAbs ws data offset := by
  refine ⟨_, inner_foldl ws data offset 0 h, ?_⟩
  have hs := Round.sum_round hu (fun j => ws.getD j 0 * data.getD (offset + j) 0)
    (fun j => (ws.getD j 0).val * (data.getD (offset + j) 0).val) (fun j => |(ws.getD j 0).val * (data.getD (offset + j) 0).val|)
    (List.range ws.length) 1 (fun i _ => by
      refine ⟨?_, le_rfl⟩
      rw [pow_one, show 1 + u - 1 = u by ring]
      exact hu.err _)
  rw [Round.list_sum_range, Round.list_sum_range, List.length_range] at hs
  rcases Nat.eq_zero_or_pos ws.length with h0 | h0
  · simpa [h0, dot, dotAbs] using hs
  · rw [show 1 + (ws.length - 1) = ws.length by omega] at hs
    exact hs

/-- Modulus: two squares, a sum and a square root. -/
theorem modulus_round (hu : r.Unit u) {sqrt : Fl r → Fl r} (hs : IsSqrt r u sqrt) (a b : Fl r) :
    |((sqrt (a * a + b * b)).val : ℝ) - Real.sqrt ((a.val : ℝ) ^ 2 + (b.val : ℝ) ^ 2)| ≤
      ((1 + (u : ℝ)) ^ 2 - 1) * Real.sqrt ((a.val : ℝ) ^ 2 + (b.val : ℝ) ^ 2) ∧ 0 ≤ (sqrt (a * a + b * b)).val := by
  have hu0 := hu.nonneg
  set q : ℚ := a.val ^ 2 + b.val ^ 2 with hq
  have hq0 : 0 ≤ q := by positivity
  have h1 : |(a * a + b * b).val - q| ≤ ((1 + u) ^ 2 - 1) * q := by
    have e : ∀ x : Fl r, |(x * x).val - x.val ^ 2| ≤ ((1 + u) ^ 1 - 1) * x.val ^ 2 := by
      intro x
      rw [pow_one, show 1 + u - 1 = u by ring, Fl.val_mul, pow_two]
      have := hu.err (x.val * x.val)
      rwa [abs_of_nonneg (mul_self_nonneg x.val)] at this
    exact Round.add_step hu (e a) (by rw [abs_of_nonneg (by positivity)]) (e b) (by rw [abs_of_nonneg (by positivity)])
  set s := (a * a + b * b) with hsd
  have hs0 : 0 ≤ s.val := by
    have nn : ∀ {x : ℚ}, 0 ≤ x → 0 ≤ r.fl x := by
      intro x hx
      have := r.mono hx
      rwa [r.zero] at this
    exact nn (add_nonneg (nn (mul_self_nonneg _)) (nn (mul_self_nonneg _)))
  have hlow : u ≤ 1 → (1 - u) ^ 2 * q ≤ s.val := by
    intro h
    have lo : ∀ {x : ℚ}, 0 ≤ x → (1 - u) * x ≤ r.fl x := by
      intro x hx
      have := (abs_le.1 (hu.err x)).1
      rw [abs_of_nonneg hx] at this
      linarith
    have ha := lo (mul_self_nonneg a.val)
    have hb := lo (mul_self_nonneg b.val)
    have hc : (1 - u) * (r.fl (a.val * a.val) + r.fl (b.val * b.val)) ≤ s.val :=
      lo (add_nonneg (by have := mul_nonneg (by linarith : 0 ≤ 1 - u) (mul_self_nonneg a.val); linarith)
        (by have := mul_nonneg (by linarith : 0 ≤ 1 - u) (mul_self_nonneg b.val); linarith))
    refine le_trans ?_ hc
    have := mul_le_mul_of_nonneg_left (add_le_add ha hb) (by linarith : 0 ≤ 1 - u)
    calc _ = (1 - u) * ((1 - u) * (a.val * a.val) + (1 - u) * (b.val * b.val)) := by rw [hq]; ring
      _ ≤ _ := this
  have hlowR : (u : ℝ) ≤ 1 → (1 - (u : ℝ)) ^ 2 * q ≤ s.val := by
    intro h
    have := hlow (by exact_mod_cast h)
    exact_mod_cast this
  refine ⟨?_, hs.nonneg _ hs0⟩
  have hcast : ((a.val : ℝ) ^ 2 + (b.val : ℝ) ^ 2) = (q : ℝ) := by rw [hq]; push_cast; rfl
  rw [hcast]
  have hsR : (0 : ℝ) ≤ s.val := by exact_mod_cast hs0
  have hqR : (0 : ℝ) ≤ q := by exact_mod_cast hq0
  have huR : (0 : ℝ) ≤ u := by exact_mod_cast hu0
  have h1R : |(s.val : ℝ) - q| ≤ ((1 + (u : ℝ)) ^ 2 - 1) * q := by exact_mod_cast h1
  -- the square root of a number of accuracy 2 has accuracy 1
  have hY0 := Real.sqrt_nonneg (q : ℝ)
  have hX0 := Real.sqrt_nonneg (s.val : ℝ)
  have hYq := Real.mul_self_sqrt hqR
  have hXs := Real.mul_self_sqrt hsR
  have h2 : |Real.sqrt s.val - Real.sqrt q| ≤ u * Real.sqrt q := by
    set X := Real.sqrt (s.val : ℝ)
    set Y := Real.sqrt (q : ℝ)
    rw [← hXs, ← hYq] at h1R
    obtain ⟨l1, l2⟩ := abs_le.1 h1R
    rw [abs_le]
    constructor
    · rcases le_total (1 : ℝ) u with h | h
      · nlinarith
      · have hX : (1 - (u : ℝ)) * Y ≤ X := by
          refine abs_le_of_sq_le_sq' ?_ hX0 |>.2
          have := hlowR h
          rw [← hXs, ← hYq] at this
          nlinarith
        linarith
    · by_contra hc
      push Not at hc
      have hXY : (1 + u) * Y < X := by linarith
      have : ((1 + u) * Y) * ((1 + u) * Y) < X * X := mul_self_lt_mul_self (by positivity) hXY
      nlinarith
  have h3 := hs.err s hs0
  have h4 := abs_sub_le ((sqrt s).val : ℝ) (Real.sqrt s.val) (Real.sqrt q)
  have h5 : Real.sqrt s.val ≤ (1 + u) * Real.sqrt q := by
    have := (abs_le.1 h2).2
    linarith
  have h6 := mul_le_mul_of_nonneg_left h5 huR
  nlinarith

/-- What the loops of `transform` compute: a rounded sum of rounded products, from left to right. -/
def dotRounded (ws data : List (Fl r)) (offset : Nat) : Fl r :=
  (List.range ws.length).foldl (fun acc j => acc + ws.getD j 0 * data.getD (offset + j) 0) 0

theorem dotRounded_round (hu : r.Unit u) (ws data : List (Fl r)) (offset : Nat) (h : offset + ws.length ≤ data.length) :
    |(dotRounded ws data offset).val - dot ws data offset| ≤ ((1 + u) ^ ws.length - 1) * dotAbs ws data offset := by
  obtain ⟨s, h1, h2⟩ := inner_round hu ws data offset h
  rw [inner_foldl ws data offset 0 h, Res.ok.injEq] at h1
  rw [← h1] at h2
  exact h2

/-- A wavelet with `count` rows of `n` samples that is ready for use, and data that covers the samples from `offset` on. -/
structure Ready (count n : Nat) (real imag : List (List (Fl r))) (scale data : List (Fl r)) (offset : Nat) : Prop where
  pos : 0 < count
  realLen : real.length = count
  imagLen : imag.length = count
  scaleLen : scale.length = count
  realRow : ∀ x ∈ real, x.length = n
  imagRow : ∀ x ∈ imag, x.length = n
  dataLen : offset + n ≤ data.length

theorem getD_mem {α : Type} {l : List (List α)} {i : Nat} (h : i < l.length) : l.getD i [] ∈ l := by
  rw [List.getD_eq_getElem?_getD, List.getElem?_eq_getElem h]
  exact List.getElem_mem _

theorem transformOf_eq {sqrt : Fl r → Fl r} {count n : Nat} {real imag : List (List (Fl r))} {scale data : List (Fl r)} {offset : Nat}
    (h : Ready count n real imag scale data offset) :
    transformOf sqrt count real imag scale data offset = .ok ((List.range count).map fun i =>
      sqrt (dotRounded (real.getD i []) data offset * dotRounded (real.getD i []) data offset +
        dotRounded (imag.getD i []) data offset * dotRounded (imag.getD i []) data offset)) := by
  have hpos := h.pos
  have ne : ∀ {α : Type} {l : List α}, l.length = count → ¬ l.isEmpty = true := by
    intro α l hl
    rw [List.isEmpty_iff]
    rintro rfl
    simp at hl
    omega
  unfold transformOf
  rw [if_neg (by
    rintro (hh | hh | hh)
    · exact ne h.realLen hh
    · exact ne h.imagLen hh
    · exact ne h.scaleLen hh), if_neg (by omega), Int.toNat_natCast]
  refine fillLoop_ok fun i hi => ?_
  have hr : real.getD i [] ∈ real := getD_mem (by rw [h.realLen]; exact hi)
  have hm : imag.getD i [] ∈ imag := getD_mem (by rw [h.imagLen]; exact hi)
  rw [rd_ok [] (by rw [h.realLen]; exact hi), Res.ok_bind, inner_foldl _ _ _ _ (by rw [h.realRow _ hr]; exact h.dataLen), Res.ok_bind,
    rd_ok [] (by rw [h.imagLen]; exact hi), Res.ok_bind, inner_foldl _ _ _ _ (by rw [h.imagRow _ hm]; exact h.dataLen), Res.ok_bind]
  rfl

/-- The exact modulus of the correlation of row `i` of the wavelet with the data. -/
noncomputable def modulus (real imag : List (List (Fl r))) (data : List (Fl r)) (offset i : Nat) : ℝ :=
  Real.sqrt ((dot (real.getD i []) data offset : ℝ) ^ 2 + (dot (imag.getD i []) data offset : ℝ) ^ 2)

theorem sqrt_dist (a b A B : ℝ) : |Real.sqrt (a ^ 2 + b ^ 2) - Real.sqrt (A ^ 2 + B ^ 2)| ≤ |a - A| + |b - B| := by
  have key : ∀ a b : ℝ, Real.sqrt (a ^ 2 + b ^ 2) = ‖(⟨a, b⟩ : ℂ)‖ := by
    intro a b
    rw [Complex.norm_def, Complex.normSq_apply, pow_two, pow_two]
  rw [key, key]
  refine (abs_norm_sub_norm_le _ _).trans ?_
  refine (Complex.norm_le_abs_re_add_abs_im _).trans ?_
  simp

theorem sqrt_le_abs (A B : ℝ) : Real.sqrt (A ^ 2 + B ^ 2) ≤ |A| + |B| := by
  have := sqrt_dist A B 0 0
  simpa [abs_of_nonneg (Real.sqrt_nonneg _)] using this

theorem dot_le (ws data : List (Fl r)) (offset : Nat) : |dot ws data offset| ≤ dotAbs ws data offset := abs_sum_le_sum_abs _ _

/-- **C103** (accuracy).  In any arithmetic with relative rounding error at most `u`, `transform` of a wavelet of `n` samples per scale returns
one number per scale; it is not negative and differs from the exact modulus of the correlation with the samples as stored by at most
`((1 + u)^(n + 2) - 1)` times the sum of the absolute values of all products. -/
theorem C103_error (hu : r.Unit u) {sqrt : Fl r → Fl r} (hs : IsSqrt r u sqrt) {count n : Nat} {real imag : List (List (Fl r))}
    {scale data : List (Fl r)} {offset : Nat} (h : Ready count n real imag scale data offset) :
    ∃ row, transformOf sqrt count real imag scale data offset = .ok row ∧ row.length = count ∧
      ∀ i v, row[i]? = some v → 0 ≤ v.val ∧ |(v.val : ℝ) - modulus real imag data offset i| ≤
        ((1 + (u : ℝ)) ^ (n + 2) - 1) * (dotAbs (real.getD i []) data offset + dotAbs (imag.getD i []) data offset : ℚ) := by
  refine ⟨_, transformOf_eq h, by simp, ?_⟩
  intro i v hv
  have hi : i < count := by
    have := (List.getElem?_eq_some_iff.1 hv).1
    simpa using this
  rw [List.getElem?_map, List.getElem?_range hi] at hv
  simp only [Option.map_some, Option.some.injEq] at hv
  have hr : real.getD i [] ∈ real := getD_mem (by rw [h.realLen]; exact hi)
  have hm : imag.getD i [] ∈ imag := getD_mem (by rw [h.imagLen]; exact hi)
  have lr := h.realRow _ hr
  have lm := h.imagRow _ hm
  have er := dotRounded_round hu (real.getD i []) data offset (by rw [lr]; exact h.dataLen)
  have em := dotRounded_round hu (imag.getD i []) data offset (by rw [lm]; exact h.dataLen)
  rw [lr] at er
  rw [lm] at em
  have dr := dot_le (real.getD i []) data offset
  have dm := dot_le (imag.getD i []) data offset
  obtain ⟨k1, k2⟩ := modulus_round hu hs (dotRounded (real.getD i []) data offset) (dotRounded (imag.getD i []) data offset)
  rw [hv] at k1 k2
  refine ⟨k2, ?_⟩
  unfold modulus
  generalize (dotRounded (real.getD i []) data offset).val = a at *
  generalize (dotRounded (imag.getD i []) data offset).val = b at *
  generalize dot (real.getD i []) data offset = A at *
  generalize dot (imag.getD i []) data offset = B at *
  generalize dotAbs (real.getD i []) data offset = S at *
  generalize dotAbs (imag.getD i []) data offset = T at *
  have hu0 : (0 : ℝ) ≤ u := by exact_mod_cast hu.nonneg
  have erR : |(a : ℝ) - A| ≤ ((1 + (u : ℝ)) ^ n - 1) * S := by exact_mod_cast er
  have emR : |(b : ℝ) - B| ≤ ((1 + (u : ℝ)) ^ n - 1) * T := by exact_mod_cast em
  have drR : |(A : ℝ)| ≤ S := by exact_mod_cast dr
  have dmR : |(B : ℝ)| ≤ T := by exact_mod_cast dm
  have m1 := sqrt_dist a b A B
  have m2 := sqrt_le_abs (A : ℝ) B
  have m3 := (abs_le.1 m1).2
  have hg : 0 ≤ (1 + (u : ℝ)) ^ 2 - 1 := by nlinarith
  have m4 : Real.sqrt ((a : ℝ) ^ 2 + (b : ℝ) ^ 2) ≤ (1 + (u : ℝ)) ^ n * (S + T) := by
    have : (1 + (u : ℝ)) ^ n * (S + T) = (((1 + (u : ℝ)) ^ n - 1) * S + ((1 + (u : ℝ)) ^ n - 1) * T) + (S + T) := by ring
    rw [this]
    linarith
  have m5 := mul_le_mul_of_nonneg_left m4 hg
  have m6 := abs_sub_le (v.val : ℝ) (Real.sqrt ((a : ℝ) ^ 2 + (b : ℝ) ^ 2)) (Real.sqrt ((A : ℝ) ^ 2 + (B : ℝ) ^ 2))
  have e : ((1 + (u : ℝ)) ^ (n + 2) - 1) * ((S + T : ℚ) : ℝ) = ((1 + (u : ℝ)) ^ 2 - 1) * ((1 + (u : ℝ)) ^ n * (S + T)) +
      (((1 + (u : ℝ)) ^ n - 1) * S + ((1 + (u : ℝ)) ^ n - 1) * T) := by
    push_cast
    rw [pow_add]
    ring
  rw [e]
  linarith

/-- **C103** (in digits).  With round to nearest on `p` digits and at most `2^(p-1) - 2` samples the factor is at most `(n + 2) * 2^(1-p)`: for
`double` and 1024 samples less than `3e-13`. -/
theorem C103_digits (p n : Nat) (hn : n + 2 ≤ 2 ^ (p - 1)) (hp : 1 ≤ p) : (1 + 1 / 2 ^ p : ℚ) ^ (n + 2) - 1 ≤ (n + 2) * 2 / 2 ^ p := by
  have e : (2 : ℚ) ^ p = 2 ^ (p - 1) * 2 := by rw [← pow_succ, Nat.sub_add_cancel hp]
  have h := Round.gamma_le (u := 1 / 2 ^ p) (by positivity) (n := n + 2) (by
    have h1 : ((n + 2 : Nat) : ℚ) ≤ 2 ^ (p - 1) := by exact_mod_cast hn
    rw [mul_one_div, div_le_iff₀ (by positivity), e]
    linarith)
  refine h.trans (le_of_eq ?_)
  push_cast
  ring

/-! ### Correctly rounded square roots exist -/

theorem exists_sqrt (p : Nat) (hp : 1 ≤ p) : ∃ sqrt, IsSqrt (Nearest.nearest p hp) (1 / 2 ^ p) sqrt := by
  have key : ∀ x : Fl (Nearest.nearest p hp), ∃ y : Fl (Nearest.nearest p hp), 0 ≤ x.val → 0 ≤ y.val ∧
      |(y.val : ℝ) - Real.sqrt x.val| ≤ ((1 / 2 ^ p : ℚ) : ℝ) * Real.sqrt x.val := by
    intro x
    rcases lt_or_ge 0 x.val with hx | hx
    swap
    · refine ⟨0, fun h => ?_⟩
      have e : x.val = 0 := le_antisymm hx h
      rw [e, Fl.val_zero]
      simp
    have hxR : (0 : ℝ) < x.val := by exact_mod_cast hx
    have hs := Real.sqrt_pos.2 hxR
    set t := Real.sqrt (x.val : ℝ) with ht
    set L := Int.log 2 t with hL
    have h1 := Int.zpow_log_le_self (b := 2) (by norm_num) hs
    have h2 := Int.lt_zpow_succ_log_self (b := 2) (by norm_num) t
    rw [← hL] at h1 h2
    push_cast at h1 h2
    set e : Int := L - (p - 1) with he
    have hue : (0 : ℝ) < 2 ^ e := zpow_pos (by norm_num) e
    set N : Int := round (t / 2 ^ e) with hN
    have hround := abs_sub_round (t / 2 ^ e)
    rw [← hN] at hround
    obtain ⟨r1, r2⟩ := abs_le.1 hround
    have hN0 : 0 ≤ N := by
      have : (0 : ℝ) < t / 2 ^ e := by positivity
      have : (-1 : ℝ) < N := by linarith
      have : (-1 : Int) < N := by exact_mod_cast this
      omega
    have etop : (2 : ℝ) ^ (L + 1) = 2 ^ p * 2 ^ e := by
      rw [← zpow_natCast, ← zpow_add₀ (by norm_num)]
      congr 1
      omega
    have hN1 : N ≤ 2 ^ p := by
      have h3 : t / 2 ^ e < 2 ^ p := by rw [div_lt_iff₀ hue, ← etop]; exact h2
      have : (N : ℝ) < 2 ^ p + 1 := by linarith
      have : (N : ℝ) < ((2 ^ p + 1 : Int) : ℝ) := by push_cast; exact this
      have : N < 2 ^ p + 1 := by exact_mod_cast this
      omega
    refine ⟨⟨N * 2 ^ e, Nearest.fl_repr hp N e (by rw [abs_of_nonneg hN0]; exact hN1)⟩, fun _ => ⟨?_, ?_⟩⟩
    · show (0 : ℚ) ≤ N * 2 ^ e
      have : (0 : ℚ) ≤ N := by exact_mod_cast hN0
      have := zpow_pos (show (0 : ℚ) < 2 by norm_num) e
      positivity
    · show |(((N : ℚ) * 2 ^ e : ℚ) : ℝ) - t| ≤ _
      push_cast
      have e1 : (N : ℝ) * 2 ^ e - t = -((t / 2 ^ e - N) * 2 ^ e) := by field_simp; ring
      rw [e1, abs_neg, abs_mul, abs_of_pos hue]
      have e2 : (2 : ℝ) ^ L = 2 ^ p * 2 ^ e / 2 := by
        rw [← etop, zpow_add₀ (by norm_num)]; simp
      rw [e2] at h1
      calc _ ≤ 1 / 2 * (2 : ℝ) ^ e := mul_le_mul_of_nonneg_right hround hue.le
        _ = 1 / 2 ^ p * (2 ^ p * 2 ^ e / 2) := by field_simp
        _ ≤ _ := mul_le_mul_of_nonneg_left h1 (by positivity)
  choose f hf using key
  exact ⟨f, fun x h => (hf x h).1, fun x h => (hf x h).2⟩

/-! ### Exact cases -/

section exact
variable {p : Nat} (hp : 1 ≤ p)

/-- **C103** (exact sums).  If samples and data are whole multiples of powers of two (as those of the Haar wavelet with integer data) and the sum
of the absolute values of the products has at most `p` digits, the sums of products are exact. -/
theorem C103_exact (ws data : List (Fl (Nearest.nearest p hp))) (offset : Nat) (i j : Int) (a b : Nat → Int)
    (ha : ∀ m < ws.length, (ws.getD m 0).val = a m * 2 ^ i) (hb : ∀ m < ws.length, (data.getD (offset + m) 0).val = b m * 2 ^ j)
    (hsum : ∑ m ∈ range ws.length, |a m * b m| ≤ 2 ^ p) : (dotRounded ws data offset).val = dot ws data offset := by
  have conv : ∀ (n : Nat) (f : Nat → Int), ((List.range n).map f).sum = ∑ m ∈ range n, f m := by
    intro n f
    induction n with
    | zero => simp
    | succ n ih => rw [List.range_succ, sum_range_succ, ← ih]; simp
  have h2 : ∀ m < ws.length, (ws.getD m 0).val * (data.getD (offset + m) 0).val = ((a m * b m : Int) : ℚ) * 2 ^ (i + j) := by
    intro m hm
    rw [ha m hm, hb m hm, zpow_add₀ (by norm_num)]
    push_cast
    ring
  have h := Round.foldl_exact hp (i + j) (fun m => ws.getD m 0 * data.getD (offset + m) 0) (fun m => a m * b m) (List.range ws.length) (by
    intro m hm
    rw [List.mem_range] at hm
    rw [Fl.val_mul, h2 m hm]
    refine Nearest.fl_repr hp _ _ ?_
    refine le_trans ?_ hsum
    exact single_le_sum (f := fun m => |a m * b m|) (fun _ _ => abs_nonneg _) (mem_range.2 hm)) 0 0 (by simp [Fl.val_zero]) (by
    rw [conv]; simpa using hsum)
  unfold dotRounded
  rw [h, conv]
  unfold dot
  push_cast
  rw [zero_add, sum_mul]
  refine sum_congr rfl fun m hm => ?_
  rw [h2 m (mem_range.1 hm)]
  push_cast
  rfl

/-- **C103** (whole rows of an exact case): then each entry is as accurate as the modulus of two exact numbers. -/
theorem C103_exact_row {sqrt : Fl (Nearest.nearest p hp) → Fl (Nearest.nearest p hp)} (hs : IsSqrt (Nearest.nearest p hp) (1 / 2 ^ p) sqrt)
    {count n : Nat} {real imag : List (List (Fl (Nearest.nearest p hp)))} {scale data : List (Fl (Nearest.nearest p hp))} {offset : Nat}
    (h : Ready count n real imag scale data offset)
    (hr : ∀ ws ∈ real, (dotRounded ws data offset).val = dot ws data offset)
    (hm : ∀ ws ∈ imag, (dotRounded ws data offset).val = dot ws data offset) :
    ∃ row, transformOf sqrt count real imag scale data offset = .ok row ∧ row.length = count ∧
      ∀ i v, row[i]? = some v → |(v.val : ℝ) - modulus real imag data offset i| ≤
        ((1 + ((1 / 2 ^ p : ℚ) : ℝ)) ^ 2 - 1) * modulus real imag data offset i := by
  refine ⟨_, transformOf_eq h, by simp, ?_⟩
  intro i v hv
  have hi : i < count := by
    have := (List.getElem?_eq_some_iff.1 hv).1
    simpa using this
  rw [List.getElem?_map, List.getElem?_range hi] at hv
  simp only [Option.map_some, Option.some.injEq] at hv
  have mr : real.getD i [] ∈ real := getD_mem (by rw [h.realLen]; exact hi)
  have mm : imag.getD i [] ∈ imag := getD_mem (by rw [h.imagLen]; exact hi)
  have k := (modulus_round (Nearest.unit p hp) hs (dotRounded (real.getD i []) data offset) (dotRounded (imag.getD i []) data offset)).1
  rw [hv, hr _ mr, hm _ mm] at k
  exact k

end exact

/-- The double nearest to a number. -/
abbrev dbl (x : ℚ) : Fl Nearest.double := Fl.round _ x

/-- Non-vacuity: a wavelet with two samples and one scale; the correlation of `[0.1, 0.2]` with `[3, 1]` is not exact in `double`. -/
example : Ready (r := Nearest.double) 1 2 [[dbl (1 / 10), dbl (2 / 10)]] [[0, 0]] [1] [dbl 3, dbl 1] 0 ∧
    (dotRounded [dbl (1 / 10), dbl (2 / 10)] [dbl 3, dbl 1] 0).val ≠ dot [dbl (1 / 10), dbl (2 / 10)] [dbl 3, dbl 1] 0 := by
  refine ⟨⟨by norm_num, rfl, rfl, rfl, by simp, by simp, by norm_num⟩, ?_⟩
  unfold dot
  simp only [List.length_cons, List.length_nil, sum_range_succ, range_zero, sum_empty]
  decide +kernel

/-- Non-vacuity of `C103_exact`: the Haar wavelet's samples -1 and 1 with the data 3 and 5. -/
example : (dotRounded [dbl (-1), dbl 1] [dbl 3, dbl 5] 0).val = 2 := by decide +kernel

end K52.WaveletObj
