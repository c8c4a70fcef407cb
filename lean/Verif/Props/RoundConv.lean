import Verif.Lemmas.Dsp
import Verif.Lemmas.RoundSum
import Verif.Model.Cplx

/-!
# C104: circular convolution in rounded arithmetic

`Fl r`: numbers of a rounding `r`, every operation rounded (`Verif.Spec.Rounding`); `Cplx (Fl r)`: complex numbers made of them.
`r.Unit u`: one rounding changes a number by at most the fraction `u` of it; in `double` `u = 2^-53`.
-/

namespace K52.Dsp

open Finset

variable {r : Rounding} {u : ℚ}

/-! ### Specification -/

/-- Real part of element `n` of the exact convolution of two sequences of length `N`. -/
def convRe (a b : List (Cplx (Fl r))) (n : Nat) : ℚ := ∑ m ∈ range a.length,
  ((a.getD m 0).re.val * (b.getD ((n + a.length - m) % a.length) 0).re.val - (a.getD m 0).im.val * (b.getD ((n + a.length - m) % a.length) 0).im.val)

/-- Imaginary part. -/
def convIm (a b : List (Cplx (Fl r))) (n : Nat) : ℚ := ∑ m ∈ range a.length,
  ((a.getD m 0).re.val * (b.getD ((n + a.length - m) % a.length) 0).im.val + (a.getD m 0).im.val * (b.getD ((n + a.length - m) % a.length) 0).re.val)

/-- The sums of the absolute values of all products in them. -/
def absRe (a b : List (Cplx (Fl r))) (n : Nat) : ℚ := ∑ m ∈ range a.length,
  (|(a.getD m 0).re.val * (b.getD ((n + a.length - m) % a.length) 0).re.val| + |(a.getD m 0).im.val * (b.getD ((n + a.length - m) % a.length) 0).im.val|)

def absIm (a b : List (Cplx (Fl r))) (n : Nat) : ℚ := ∑ m ∈ range a.length,
  (|(a.getD m 0).re.val * (b.getD ((n + a.length - m) % a.length) 0).im.val| + |(a.getD m 0).im.val * (b.getD ((n + a.length - m) % a.length) 0).re.val|)

/-! ### What is computed -/

/-- Term `m` of element `n`. -/
def term (a b : List (Cplx (Fl r))) (n m : Nat) : Cplx (Fl r) := a.getD m 0 * b.getD ((n + a.length - m) % a.length) 0

/-- Element `n`. -/
def elem (a b : List (Cplx (Fl r))) (n : Nat) : Cplx (Fl r) := (List.range a.length).foldl (fun acc m => acc + term a b n m) 0

theorem rd_getD {α : Type} {v : List α} {i : Nat} (d : α) (h : i < v.length) : rd v i = .ok (v.getD i d) := by
  unfold rd
  rw [List.getElem?_eq_getElem h]
  simp [h]

theorem sumLoop_foldl {K : Type} [Add K] [Zero K] {N : Nat} {f : Nat → Res K} {g : Nat → K} (h : ∀ n, n < N → f n = .ok (g n)) :
    sumLoop N f = .ok ((List.range N).foldl (fun acc n => acc + g n) 0) := by
  unfold sumLoop
  induction N with
  | zero => rfl
  | succ N ih =>
    have ih' := ih (fun n hn => h n (by omega))
    rw [List.range_succ, List.foldlM_append, ih', List.foldl_append]
    simp [h N (by omega)]

theorem circular_elem {a b : List (Cplx (Fl r))} (h : a.length = b.length) : circular a b = .ok ((List.range a.length).map (elem a b)) := by
  unfold circular
  rw [if_neg (by simpa using h)]
  refine fillLoop_ok fun n hn => ?_
  unfold elem
  refine sumLoop_foldl fun m hm => ?_
  rw [rd_getD 0 hm, Res.ok_bind]
  by_cases hmn : m ≤ n
  · have e : (n + a.length - m) % a.length = n - m := by
      rw [show n + a.length - m = n - m + a.length by omega, Nat.add_mod_right, Nat.mod_eq_of_lt (by omega)]
    rw [if_pos hmn, rd_getD 0 (by omega), Res.ok_bind]
    unfold term
    rw [e]
    rfl
  · have e : (n + a.length - m) % a.length = a.length + n - m := by
      rw [Nat.mod_eq_of_lt (by omega)]; omega
    rw [if_neg hmn, rd_getD 0 (by omega), Res.ok_bind]
    unfold term
    rw [e]
    rfl

theorem foldl_re (g : Nat → Cplx (Fl r)) (l : List Nat) (acc : Cplx (Fl r)) :
    (l.foldl (fun acc m => acc + g m) acc).re = l.foldl (fun acc m => acc + (g m).re) acc.re := by
  induction l generalizing acc with
  | nil => rfl
  | cons m l ih => rw [List.foldl_cons, List.foldl_cons, ih]; rfl

theorem foldl_im (g : Nat → Cplx (Fl r)) (l : List Nat) (acc : Cplx (Fl r)) :
    (l.foldl (fun acc m => acc + g m) acc).im = l.foldl (fun acc m => acc + (g m).im) acc.im := by
  induction l generalizing acc with
  | nil => rfl
  | cons m l ih => rw [List.foldl_cons, List.foldl_cons, ih]; rfl

/-- Two products and their rounded sum or difference. -/
theorem product_round (hu : r.Unit u) (x y z w : ℚ) :
    |r.fl (r.fl (x * y) - r.fl (z * w)) - (x * y - z * w)| ≤ ((1 + u) ^ 2 - 1) * (|x * y| + |z * w|) ∧
    |r.fl (r.fl (x * y) + r.fl (z * w)) - (x * y + z * w)| ≤ ((1 + u) ^ 2 - 1) * (|x * y| + |z * w|) := by
  have h1 : ∀ t : ℚ, |r.fl t - t| ≤ ((1 + u) ^ 1 - 1) * |t| := by
    intro t
    rw [pow_one, show 1 + u - 1 = u by ring]
    exact hu.err t
  constructor
  · have := Round.add_step hu (h1 (x * y)) le_rfl (x := -r.fl (z * w)) (t := -(z * w)) (T := |z * w|)
      (by rw [← neg_sub', abs_neg]; exact h1 (z * w)) (by rw [abs_neg])
    rwa [← sub_eq_add_neg, ← sub_eq_add_neg] at this
  · exact Round.add_step hu (h1 (x * y)) le_rfl (h1 (z * w)) le_rfl

/-- **C104** (accuracy).  In any arithmetic with relative rounding error at most `u`, the convolution of two sequences of equal length `N` returns
`N` numbers; real and imaginary part of each differ from the exact ones by at most `(1 + u)^(N + 1) - 1` times the sum of the absolute values of
the products they are made of.  Sequences of different lengths are rejected. -/
theorem C104_error (hu : r.Unit u) (a b : List (Cplx (Fl r))) :
    (a.length ≠ b.length → (circular a b).threw) ∧
    (a.length = b.length → ∃ c, circular a b = .ok c ∧ c.length = a.length ∧
      ∀ n z, c[n]? = some z → |z.re.val - convRe a b n| ≤ ((1 + u) ^ (a.length + 1) - 1) * absRe a b n ∧
        |z.im.val - convIm a b n| ≤ ((1 + u) ^ (a.length + 1) - 1) * absIm a b n) := by
  constructor
  · intro h
    unfold circular
    rw [if_pos h]
    trivial
  intro h
  refine ⟨_, circular_elem h, by simp, ?_⟩
  intro n z hz
  have hn : n < a.length := by
    have := (List.getElem?_eq_some_iff.1 hz).1
    simpa using this
  rw [List.getElem?_map, List.getElem?_range hn] at hz
  simp only [Option.map_some, Option.some.injEq] at hz
  subst hz
  have hexp : 2 + (a.length - 1) = a.length + 1 := by omega
  unfold elem
  rw [foldl_re, foldl_im]
  constructor
  · have := Round.sum_round hu (fun m => (term a b n m).re)
      (fun m => (a.getD m 0).re.val * (b.getD ((n + a.length - m) % a.length) 0).re.val -
        (a.getD m 0).im.val * (b.getD ((n + a.length - m) % a.length) 0).im.val)
      (fun m => |(a.getD m 0).re.val * (b.getD ((n + a.length - m) % a.length) 0).re.val| +
        |(a.getD m 0).im.val * (b.getD ((n + a.length - m) % a.length) 0).im.val|) (List.range a.length) 2
      (fun m _ => ⟨(product_round hu _ _ _ _).1, abs_sub _ _⟩)
    rw [Round.list_sum_range, Round.list_sum_range, List.length_range, hexp] at this
    exact this
  · have := Round.sum_round hu (fun m => (term a b n m).im)
      (fun m => (a.getD m 0).re.val * (b.getD ((n + a.length - m) % a.length) 0).im.val +
        (a.getD m 0).im.val * (b.getD ((n + a.length - m) % a.length) 0).re.val)
      (fun m => |(a.getD m 0).re.val * (b.getD ((n + a.length - m) % a.length) 0).im.val| +
        |(a.getD m 0).im.val * (b.getD ((n + a.length - m) % a.length) 0).re.val|) (List.range a.length) 2
      (fun m _ => ⟨(product_round hu _ _ _ _).2, abs_add_le _ _⟩)
    rw [Round.list_sum_range, Round.list_sum_range, List.length_range, hexp] at this
    exact this

/-- **C104** (in digits).  With round to nearest on `p` digits and less than `2^(p-1)` elements the factor is at most `(N + 1) * 2^(1-p)`. -/
theorem C104_digits (p N : Nat) (hN : N + 1 ≤ 2 ^ (p - 1)) (hp : 1 ≤ p) : (1 + 1 / 2 ^ p : ℚ) ^ (N + 1) - 1 ≤ (N + 1) * 2 / 2 ^ p := by
  have e : (2 : ℚ) ^ p = 2 ^ (p - 1) * 2 := by rw [← pow_succ, Nat.sub_add_cancel hp]
  have h := Round.gamma_le (u := 1 / 2 ^ p) (by positivity) (n := N + 1) (by
    have h1 : ((N + 1 : Nat) : ℚ) ≤ 2 ^ (p - 1) := by exact_mod_cast hN
    rw [mul_one_div, div_le_iff₀ (by positivity), e]
    linarith)
  refine h.trans (le_of_eq ?_)
  push_cast
  ring

section exact
variable {p : Nat} (hp : 1 ≤ p)

/-- **C104** (exact convolution).  If the parts of the sequences are whole multiples of `2^i` and of `2^j` and the sums of the absolute values of the
products have at most `p` digits, the convolution is exact (so that on such sequences C51 holds in floating point too). -/
theorem C104_exact (a b : List (Cplx (Fl (Nearest.nearest p hp)))) (h : a.length = b.length) (i j : Int) (aR aI bR bI : Nat → Int)
    (haR : ∀ m < a.length, (a.getD m 0).re.val = aR m * 2 ^ i) (haI : ∀ m < a.length, (a.getD m 0).im.val = aI m * 2 ^ i)
    (hbR : ∀ m < a.length, (b.getD m 0).re.val = bR m * 2 ^ j) (hbI : ∀ m < a.length, (b.getD m 0).im.val = bI m * 2 ^ j)
    (hRe : ∀ n < a.length, absRe a b n ≤ 2 ^ p * 2 ^ (i + j)) (hIm : ∀ n < a.length, absIm a b n ≤ 2 ^ p * 2 ^ (i + j)) :
    ∃ c, circular a b = .ok c ∧ c.length = a.length ∧ ∀ n z, c[n]? = some z → z.re.val = convRe a b n ∧ z.im.val = convIm a b n := by
  refine ⟨_, circular_elem h, by simp, ?_⟩
  intro n z hz
  have hn : n < a.length := by
    have := (List.getElem?_eq_some_iff.1 hz).1
    simpa using this
  rw [List.getElem?_map, List.getElem?_range hn] at hz
  simp only [Option.map_some, Option.some.injEq] at hz
  subst hz
  have conv : ∀ (n : Nat) (f : Nat → Int), ((List.range n).map f).sum = ∑ m ∈ range n, f m := by
    intro n f
    induction n with
    | zero => simp
    | succ n ih => rw [List.range_succ, sum_range_succ, ← ih]; simp
  have h2 : (0 : ℚ) < 2 ^ (i + j) := zpow_pos (by norm_num) _
  have prod : ∀ x y : Int, ((x : ℚ) * 2 ^ i) * (y * 2 ^ j) = ((x * y : Int) : ℚ) * 2 ^ (i + j) := by
    intro x y
    rw [zpow_add₀ (by norm_num)]
    push_cast
    ring
  set q : Nat → Nat := fun m => (n + a.length - m) % a.length with hq
  have hql : ∀ m, q m < a.length := fun m => Nat.mod_lt _ (by omega)
  have sum_abs : ∀ (f g : Nat → Int), (∑ m ∈ range a.length, (|((f m : Int) : ℚ) * 2 ^ (i + j)| + |((g m : Int) : ℚ) * 2 ^ (i + j)|)) ≤ 2 ^ p * 2 ^ (i + j) →
      ∑ m ∈ range a.length, (|f m| + |g m|) ≤ 2 ^ p := by
    intro f g hs
    have e : ∀ m, |((f m : Int) : ℚ) * 2 ^ (i + j)| + |((g m : Int) : ℚ) * 2 ^ (i + j)| = ((|f m| + |g m| : Int) : ℚ) * 2 ^ (i + j) := by
      intro m
      rw [abs_mul, abs_mul, abs_of_pos h2]
      push_cast
      ring
    simp only [e] at hs
    rw [← sum_mul] at hs
    have := le_of_mul_le_mul_right hs h2
    exact_mod_cast this
  have rep : ∀ x : Int, |x| ≤ 2 ^ p → Nearest.fl p ((x : ℚ) * 2 ^ (i + j)) = x * 2 ^ (i + j) := fun x hx => Nearest.fl_repr hp x _ hx
  unfold elem
  rw [foldl_re, foldl_im]
  constructor
  · have hs : ∑ m ∈ range a.length, (|aR m * bR (q m)| + |aI m * bI (q m)|) ≤ 2 ^ p := by
      refine sum_abs _ _ ?_
      refine le_trans (le_of_eq ?_) (hRe n hn)
      unfold absRe
      refine sum_congr rfl fun m hm => ?_
      rw [mem_range] at hm
      rw [haR m hm, haI m hm, hbR _ (hql m), hbI _ (hql m), prod, prod]
    have hone : ∀ m < a.length, |aR m * bR (q m)| + |aI m * bI (q m)| ≤ 2 ^ p := fun m hm =>
      le_trans (single_le_sum (f := fun m => |aR m * bR (q m)| + |aI m * bI (q m)|) (fun _ _ => by positivity) (mem_range.2 hm)) hs
    have key := Round.foldl_exact hp (i + j) (fun m => (term a b n m).re) (fun m => aR m * bR (q m) - aI m * bI (q m)) (List.range a.length) (by
      intro m hm
      rw [List.mem_range] at hm
      have hm1 := hone m hm
      have n1 := abs_nonneg (aR m * bR (q m))
      have n2 := abs_nonneg (aI m * bI (q m))
      have n3 := abs_sub (aR m * bR (q m)) (aI m * bI (q m))
      show Nearest.fl p (Nearest.fl p ((a.getD m 0).re.val * (b.getD (q m) 0).re.val) - Nearest.fl p ((a.getD m 0).im.val * (b.getD (q m) 0).im.val)) = _
      rw [haR m hm, haI m hm, hbR _ (hql m), hbI _ (hql m), prod, prod, rep _ (by linarith), rep _ (by linarith), ← sub_mul, ← Int.cast_sub,
        rep _ (by linarith)]) 0 0 (by simp [Fl.val_zero]) (by
      rw [conv, abs_zero, zero_add]
      exact (sum_le_sum fun m _ => abs_sub _ _).trans hs)
    show ((List.range a.length).foldl (fun acc m => acc + (term a b n m).re) 0).val = _
    rw [key, conv]
    unfold convRe
    push_cast
    rw [zero_add, sum_mul]
    refine sum_congr rfl fun m hm => ?_
    rw [mem_range] at hm
    rw [haR m hm, haI m hm, hbR _ (hql m), hbI _ (hql m), prod, prod]
    push_cast
    ring
  · have hs : ∑ m ∈ range a.length, (|aR m * bI (q m)| + |aI m * bR (q m)|) ≤ 2 ^ p := by
      refine sum_abs _ _ ?_
      refine le_trans (le_of_eq ?_) (hIm n hn)
      unfold absIm
      refine sum_congr rfl fun m hm => ?_
      rw [mem_range] at hm
      rw [haR m hm, haI m hm, hbR _ (hql m), hbI _ (hql m), prod, prod]
    have hone : ∀ m < a.length, |aR m * bI (q m)| + |aI m * bR (q m)| ≤ 2 ^ p := fun m hm =>
      le_trans (single_le_sum (f := fun m => |aR m * bI (q m)| + |aI m * bR (q m)|) (fun _ _ => by positivity) (mem_range.2 hm)) hs
    have key := Round.foldl_exact hp (i + j) (fun m => (term a b n m).im) (fun m => aR m * bI (q m) + aI m * bR (q m)) (List.range a.length) (by
      intro m hm
      rw [List.mem_range] at hm
      have hm1 := hone m hm
      have n1 := abs_nonneg (aR m * bI (q m))
      have n2 := abs_nonneg (aI m * bR (q m))
      have n3 := abs_add_le (aR m * bI (q m)) (aI m * bR (q m))
      show Nearest.fl p (Nearest.fl p ((a.getD m 0).re.val * (b.getD (q m) 0).im.val) + Nearest.fl p ((a.getD m 0).im.val * (b.getD (q m) 0).re.val)) = _
      rw [haR m hm, haI m hm, hbR _ (hql m), hbI _ (hql m), prod, prod, rep _ (by linarith), rep _ (by linarith), ← add_mul, ← Int.cast_add,
        rep _ (by linarith)]) 0 0 (by simp [Fl.val_zero]) (by
      rw [conv, abs_zero, zero_add]
      exact (sum_le_sum fun m _ => abs_add_le _ _).trans hs)
    show ((List.range a.length).foldl (fun acc m => acc + (term a b n m).im) 0).val = _
    rw [key, conv]
    unfold convIm
    push_cast
    rw [zero_add, sum_mul]
    refine sum_congr rfl fun m hm => ?_
    rw [mem_range] at hm
    rw [haR m hm, haI m hm, hbR _ (hql m), hbI _ (hql m), prod, prod]
    push_cast
    ring

end exact

/-! ### What rounding breaks -/

/-- A real double as a complex number. -/
abbrev cdbl (x : ℚ) : Cplx (Fl Nearest.double) := ⟨Fl.round _ x, 0⟩

/-- The real parts of a result. -/
def reOf (o : Res (List (Cplx (Fl Nearest.double)))) : Option (List ℚ) :=
  match o with
  | .ok s => some (s.map fun z => z.re.val)
  | _ => none

/-- **C104** (not commutative).  In `double` the convolution of `[1, 2^-53, 2^-53]` with `[1, 1, 1]` depends on the order of the arguments: one way the
small terms are lost one by one, the other way they are added up first. -/
theorem C104_not_commutative :
    reOf (circular [cdbl 1, cdbl (1 / 2 ^ 53), cdbl (1 / 2 ^ 53)] [cdbl 1, cdbl 1, cdbl 1]) ≠
    reOf (circular [cdbl 1, cdbl 1, cdbl 1] [cdbl 1, cdbl (1 / 2 ^ 53), cdbl (1 / 2 ^ 53)]) := by decide +kernel

/-- The hypotheses of `C104_exact` are met by integer sequences. -/
example : (∀ n < 2, absRe [cdbl 1, cdbl 2] [cdbl 3, cdbl (-4)] n ≤ 2 ^ 53 * 2 ^ ((0 : Int) + 0)) ∧
    (∀ m < 2, ((([cdbl 1, cdbl 2] : List (Cplx (Fl Nearest.double))).getD m 0).re.val = ((m + 1 : Int) : ℚ) * 2 ^ (0 : Int))) := by
  constructor
  · intro n hn
    unfold absRe
    interval_cases n <;> simp only [List.length_cons, List.length_nil, sum_range_succ, range_zero, sum_empty] <;> norm_num <;> decide +kernel
  · intro m hm
    interval_cases m <;> decide +kernel

/-- Non-vacuity of `C104_exact`: integer sequences. -/
example : reOf (circular [cdbl 1, cdbl 2, cdbl 3] [cdbl 4, cdbl 5, cdbl 6]) = some [31, 31, 28] := by decide +kernel

end K52.Dsp
