import Verif.Lemmas.Akima
import Mathlib.Analysis.Calculus.Deriv.Pow
import Mathlib.Analysis.Calculus.Deriv.Mul
import Mathlib.Analysis.Calculus.Deriv.Add
import Mathlib.Tactic.FieldSimp
import Mathlib.Tactic.Linarith

/-!
# C54, C55: the Akima spline; C67: the Akima wavelet function
-/

set_option linter.unusedSectionVars false

namespace K52.Akima

open K52.Dsp (rd fillLoop fillLoop_ok)

section Any

variable {K : Type} [Add K] [Sub K] [Mul K] [Div K] [Neg K] [Zero K] [One K] [NatCast K] [LinearOrder K] [SplineLib K]

/-! ## Whatever the arithmetic -/

/-- A valid knot set: at least five points, as many ordinates as abscissae, abscissae strictly increasing. -/
structure ValidKnots (xs ys : List K) : Prop where
  five : 5 ≤ xs.length
  len : ys.length = xs.length
  inc : xs.Pairwise (· < ·)

/-- The value of piece `i` as computed. -/
def pieceVal (xs ys : List K) (i : Nat) (x : K) : K :=
  let c := pieceAt xs ys i
  let a := x - xs.getD i 0
  c.c0 + c.c1 * a + c.c2 * SplineLib.sq a + c.c3 * SplineLib.cube a

theorem getElem?_getD {xs : List K} {i : Nat} (h : i < xs.length) : xs[i]? = some (xs.getD i 0) := by
  simp [List.getD, h]

theorem value_piece {xs ys : List K} (hk : ValidKnots xs ys) {s : Spline K} (hs : init xs ys = .ok s) {x : K} {i : Nat}
    (hi : i + 1 < xs.length) (h1 : xs.getD i 0 ≤ x)
    (h2 : x < xs.getD (i + 1) 0 ∨ (x = xs.getD (i + 1) 0 ∧ i + 2 = xs.length)) :
    resolveInterval s.xs x = .ok (some i) ∧ value s x = .ok (pieceVal xs ys i x) := by
  rw [init_eq hk.five hk.len] at hs
  cases hs
  have hr := resolve_interval hk.inc (getElem?_getD (by omega)) (getElem?_getD hi) h1 h2
  refine ⟨hr, ?_⟩
  unfold value
  simp only [hr, Res.ok_bind]
  rw [rd_getD (show i < xs.length by omega), rd_some (a := pieceAt xs ys i) (by
    rw [List.getElem?_map, List.getElem?_range (by omega)]
    rfl)]
  rfl

theorem lt_knots {xs : List K} (hs : xs.Pairwise (· < ·)) {i j : Nat} (hij : i < j) (hj : j < xs.length) :
    xs.getD i 0 < xs.getD j 0 :=
  lt_of_sorted hs hij (getElem?_getD (by omega)) (getElem?_getD hj)

/-- Every point between the first and last knot lies in a piece. -/
theorem find_piece {xs : List K} (_hs : xs.Pairwise (· < ·)) (hn : 2 ≤ xs.length) {x : K}
    (h1 : xs.getD 0 0 ≤ x) (h2 : x ≤ xs.getD (xs.length - 1) 0) :
    ∃ i, i + 1 < xs.length ∧ xs.getD i 0 ≤ x ∧
      (x < xs.getD (i + 1) 0 ∨ (x = xs.getD (i + 1) 0 ∧ i + 2 = xs.length)) := by
  suffices H : ∀ k, k + 1 < xs.length → xs.getD k 0 ≤ x → ∃ i, i + 1 < xs.length ∧ xs.getD i 0 ≤ x ∧
      (x < xs.getD (i + 1) 0 ∨ (x = xs.getD (i + 1) 0 ∧ i + 2 = xs.length)) from H 0 (by omega) h1
  intro k hk
  generalize hm : xs.length - 2 - k = m
  induction m generalizing k with
  | zero =>
    intro hkx
    refine ⟨k, hk, hkx, ?_⟩
    have : k + 1 = xs.length - 1 := by omega
    rw [← this] at h2
    rcases lt_or_eq_of_le h2 with h | h
    · exact Or.inl h
    · exact Or.inr ⟨h, by omega⟩
  | succ m ih =>
    intro hkx
    by_cases hx : x < xs.getD (k + 1) 0
    · exact ⟨k, hk, hkx, Or.inl hx⟩
    · exact ih (k + 1) (by omega) (by omega) (not_lt.1 hx)

/-- `Initialize` succeeds exactly with at least five points and as many ordinates as abscissae, and otherwise throws. -/
theorem C54_accepts (xs ys : List K) :
    (5 ≤ xs.length ∧ ys.length = xs.length → ∃ s, init xs ys = .ok s) ∧
    (¬ (5 ≤ xs.length ∧ ys.length = xs.length) → (init xs ys).threw) := by
  constructor
  · rintro ⟨h1, h2⟩
    exact ⟨_, init_eq h1 h2⟩
  · intro h
    unfold init
    split
    · simp
    · rw [if_pos (by intro hh; apply h; omega)]
      simp

/-- Between the first and the last knot (both included) the spline has a value; outside it throws. -/
theorem C55_domain (xs ys : List K) (hk : ValidKnots xs ys) (s : Spline K) (hs : init xs ys = .ok s) (x a b : K)
    (ha : xs.head? = some a) (hb : xs.getLast? = some b) :
    (a ≤ x ∧ x ≤ b → ∃ v, value s x = .ok v) ∧ (¬ (a ≤ x ∧ x ≤ b) → (value s x).threw) := by
  have h5 := hk.five
  rw [List.head?_eq_getElem?, getElem?_getD (by omega)] at ha
  rw [List.getLast?_eq_getElem?, getElem?_getD (by omega)] at hb
  cases ha
  cases hb
  constructor
  · rintro ⟨h1, h2⟩
    obtain ⟨i, hi, g1, g2⟩ := find_piece hk.inc (by omega) h1 h2
    exact ⟨_, (value_piece hk hs hi g1 g2).2⟩
  · intro hn
    have hout : (∀ a ∈ xs, x < a) ∨ (∀ a ∈ xs, a < x) := by
      by_cases h1 : xs.getD 0 0 ≤ x
      · right
        have h2 : xs.getD (xs.length - 1) 0 < x := by
          by_contra hh
          exact hn ⟨h1, not_lt.1 hh⟩
        intro a ha
        rw [List.mem_iff_getElem?] at ha
        obtain ⟨i, hi⟩ := ha
        have hil : i < xs.length := (List.getElem?_eq_some_iff.1 hi).1
        rw [getElem?_getD hil] at hi
        cases hi
        rcases Nat.lt_or_ge i (xs.length - 1) with h | h
        · exact (lt_knots hk.inc h (by omega)).trans h2
        · have : i = xs.length - 1 := by omega
          rw [this]
          exact h2
      · left
        intro a ha
        rw [List.mem_iff_getElem?] at ha
        obtain ⟨i, hi⟩ := ha
        have hil : i < xs.length := (List.getElem?_eq_some_iff.1 hi).1
        rw [getElem?_getD hil] at hi
        cases hi
        rcases Nat.eq_zero_or_pos i with h | h
        · rw [h]
          exact not_le.1 h1
        · exact (not_le.1 h1).trans (lt_knots hk.inc h hil)
    rw [init_eq hk.five hk.len] at hs
    cases hs
    unfold value
    simp [resolve_outside hk.inc hout]

/-- Before `Initialize` every evaluation throws. -/
theorem C55_uninitialised (x : K) : (value (create : Spline K) x).threw := by
  unfold value create
  have : resolveInterval ([] : List K) x = .throw "out_of_range" := by
    unfold resolveInterval upperBound boundLoop
    simp
  simp [this]

/-- Abscissa of sample `i` of `n`, as computed. -/
def sample (n i : Nat) : K := -4 + 8 / (n : K) * (i : K)

/-- Abscissa of knot `j` of the spline of a wavelet made from `n` samples, as computed. -/
def knot (n j : Nat) : K :=
  if j = 0 then sample n 0 - (sample n 1 - sample n 0)
  else if j = n + 1 then sample n (n - 1) - (sample n (n - 2) - sample n (n - 1))
  else sample n (j - 1)

/-- The knots of the wavelet's spline. -/
theorem wavelet_knots (real : List K) (hn : 2 ≤ real.length) :
    waveletInit real = init ((List.range (real.length + 2)).map (knot real.length)) ([0] ++ real ++ [0]) := by
  obtain ⟨n, hn'⟩ : ∃ n, real.length = n + 2 := ⟨real.length - 2, by omega⟩
  unfold waveletInit
  have hfill : (fillLoop real.length fun i : Nat => (pure (-4 + 8 / (real.length : K) * (i : K)) : Res K)) =
      .ok ((List.range real.length).map fun i : Nat => -4 + 8 / (real.length : K) * (i : K)) :=
    fillLoop_ok (fun i hi => rfl)
  simp only []
  rw [hfill]
  simp only [Res.ok_bind]
  rw [hn']
  set del : K := 8 / ((n + 2 : Nat) : K) with hdel
  set r : List K := [0] ++ (List.range (n + 2)).map (fun i : Nat => -4 + del * (i : K)) ++ [0] with hr
  have hlen : r.length = n + 4 := by simp [hr]
  have hin : ∀ i, i < n + 2 → r[i + 1]? = some (-4 + del * (i : K)) := by
    intro i hi
    rw [hr]
    simp only [List.cons_append, List.nil_append, List.getElem?_cons_succ]
    rw [List.getElem?_append_left (by simpa using hi)]
    simp [hi]
  rw [rd_some (hin 0 (by omega)), rd_some (hin 1 (by omega))]
  simp only [Res.ok_bind]
  rw [wr_ok _ (by omega)]
  simp only [Res.ok_bind]
  set r1 := r.set 0 (-4 + del * ((0 : Nat) : K) - (-4 + del * ((1 : Nat) : K) - (-4 + del * ((0 : Nat) : K)))) with hr1
  have hlen1 : r1.length = n + 4 := by simp [hr1, hlen]
  have h1 : ∀ i, i < n + 2 → r1[i + 1]? = some (-4 + del * (i : K)) := by
    intro i hi
    rw [hr1, List.getElem?_set_ne (by omega)]
    exact hin i hi
  rw [hlen1]
  have e1 : n + 4 - 2 = (n + 1) + 1 := by omega
  have e2 : n + 4 - 3 = n + 1 := by omega
  have e3 : n + 4 - 1 = n + 3 := by omega
  rw [e1, e2, e3, rd_some (h1 (n + 1) (by omega)), rd_some (h1 n (by omega))]
  simp only [Res.ok_bind]
  rw [wr_ok _ (by omega)]
  simp only [Res.ok_bind]
  congr 1
  apply List.ext_getElem?
  intro j
  by_cases hj : j < n + 4
  swap
  · rw [List.getElem?_eq_none (by simp [hlen1]; omega), List.getElem?_eq_none (by simp; omega)]
  rw [List.getElem?_map, List.getElem?_range (by omega)]
  simp only [Option.map_some]
  unfold knot sample
  by_cases hl : j = n + 3
  · subst hl
    rw [List.getElem?_set_self (by omega), if_neg (by omega), if_pos (by omega), show n + 2 - 1 = n + 1 by omega, show n + 2 - 2 = n by omega]
  rw [List.getElem?_set_ne (by omega), hr1]
  by_cases h0 : j = 0
  · subst h0
    rw [List.getElem?_set_self (by omega), if_pos rfl]
  rw [List.getElem?_set_ne (by omega)]
  obtain ⟨i, rfl⟩ : ∃ i, j = i + 1 := ⟨j - 1, by omega⟩
  rw [hin i (by omega), if_neg (by omega), if_neg (by omega), Nat.add_sub_cancel]

/-- Building a wavelet function from samples: no samples read outside the vectors, one or two samples are rejected with an
exception, three or more are accepted. -/
theorem C67_accepts (real : List K) :
    (real.length = 0 → waveletInit real = .ub) ∧
    (real.length = 1 ∨ real.length = 2 → (waveletInit real).threw) ∧
    (3 ≤ real.length → ∃ s, waveletInit real = .ok s) := by
  refine ⟨fun h => ?_, fun h => ?_, fun h => ?_⟩
  · have : real = [] := List.length_eq_zero_iff.1 h
    subst this
    simp [waveletInit, fillLoop, rd]
  · rcases h with h | h
    · unfold waveletInit
      have hfill : (fillLoop real.length fun i : Nat => (pure (-4 + 8 / (real.length : K) * (i : K)) : Res K)) =
          .ok ((List.range real.length).map fun i : Nat => -4 + 8 / (real.length : K) * (i : K)) :=
        fillLoop_ok (fun i hi => rfl)
      simp only []
      rw [hfill, h]
      simp [rd, wr, init, h]
    · rw [wavelet_knots real (by omega)]
      refine (C54_accepts _ _).2 ?_
      simp [h]
  · rw [wavelet_knots real (by omega)]
    exact (C54_accepts _ _).1 ⟨by simp; omega, by simp⟩

end Any

variable {K : Type} [Field K] [LinearOrder K]

/-! ## Specification -/

/-- Chord slope `i` of the knots, for `0 ≤ i ≤ n-2`, and Akima's two extrapolated slopes at each end
(`i = -2, -1` and `i = n-1, n`). -/
def delta (n : Nat) (X Y : Nat → K) (i : Int) : K :=
  let d (j : Nat) : K := (Y (j + 1) - Y j) / (X (j + 1) - X j)
  if i = -2 then 3 * d 0 - 2 * d 1
  else if i = -1 then 2 * d 0 - d 1
  else if i = n - 1 then 2 * d (n - 2) - d (n - 3)
  else if i = n then 3 * d (n - 2) - 2 * d (n - 3)
  else d i.toNat

/-- Akima's slope at knot `i`: the mean of the two adjacent chord slopes weighted by the changes of slope on the other
side; the plain mean when both changes vanish. -/
def akimaSlope (n : Nat) (X Y : Nat → K) (i : Nat) : K :=
  let w₁ := |delta n X Y (i + 1) - delta n X Y i|
  let w₂ := |delta n X Y (i - 1) - delta n X Y (i - 2)|
  if w₁ + w₂ = 0 then (delta n X Y (i - 1) + delta n X Y i) / 2
  else (w₁ * delta n X Y (i - 1) + w₂ * delta n X Y i) / (w₁ + w₂)

/-- The cubic Hermite interpolant on `[x₀, x₁]` with values `y₀, y₁` and slopes `s₀, s₁`. -/
def hermite (x₀ x₁ y₀ y₁ s₀ s₁ x : K) : K :=
  let h := x₁ - x₀
  let t := (x - x₀) / h
  (2 * t ^ 3 - 3 * t ^ 2 + 1) * y₀ + (t ^ 3 - 2 * t ^ 2 + t) * h * s₀ +
    (3 * t ^ 2 - 2 * t ^ 3) * y₁ + (t ^ 3 - t ^ 2) * h * s₁

/-! ## Proofs -/

theorem mAt_delta (xs ys : List K) (hn : 5 ≤ xs.length) (j : Nat) :
    mAt xs ys j = delta xs.length (fun i => xs.getD i 0) (fun i => ys.getD i 0) ((j : Int) - 2) := by
  have e0 : (j : Int) - 2 = -2 ↔ j = 0 := by omega
  have e1 : (j : Int) - 2 = -1 ↔ j = 1 := by omega
  have e2 : (j : Int) - 2 = (xs.length : Int) - 1 ↔ j = xs.length + 1 := by omega
  have e3 : (j : Int) - 2 = (xs.length : Int) ↔ j = xs.length + 2 := by omega
  have e4 : ((j : Int) - 2).toNat = j - 2 := by omega
  unfold mAt delta chord
  simp only [e0, e1, e2, e3, e4]

theorem slopeAt_akima (xs ys : List K) (hn : 5 ≤ xs.length) (i : Nat) :
    slopeAt xs ys i = akimaSlope xs.length (fun i => xs.getD i 0) (fun i => ys.getD i 0) i := by
  unfold slopeAt akimaSlope
  simp only [mAt_delta xs ys hn, abs_eq]
  have e1 : ((i + 3 : Nat) : Int) - 2 = i + 1 := by push_cast; ring
  have e2 : ((i + 2 : Nat) : Int) - 2 = i := by push_cast; ring
  have e3 : ((i + 1 : Nat) : Int) - 2 = i - 1 := by push_cast; ring
  rw [e1, e2, e3]
  split
  · ring
  · ring

/-- The derivative of piece `i`. -/
def pieceDer (xs ys : List K) (i : Nat) (x : K) : K :=
  let c := pieceAt xs ys i
  let a := x - xs.getD i 0
  c.c1 + c.c2 * (2 * a) + c.c3 * (3 * a ^ 2)

theorem pieceVal_hermite (xs ys : List K) (i : Nat) (hne : xs.getD (i + 1) 0 - xs.getD i 0 ≠ 0) (x : K) :
    pieceVal xs ys i x = hermite (xs.getD i 0) (xs.getD (i + 1) 0) (ys.getD i 0) (ys.getD (i + 1) 0)
      (slopeAt xs ys i) (slopeAt xs ys (i + 1)) x := by
  simp only [pieceVal, pieceAt, hermite, sq_eq, cube_eq]
  generalize hh : xs.getD (i + 1) 0 - xs.getD i 0 = h at hne ⊢
  field_simp
  ring

theorem pieceVal_left (xs ys : List K) (i : Nat) : pieceVal xs ys i (xs.getD i 0) = ys.getD i 0 := by
  simp [pieceVal, pieceAt]

theorem pieceVal_right (xs ys : List K) (i : Nat) (hne : xs.getD (i + 1) 0 - xs.getD i 0 ≠ 0) :
    pieceVal xs ys i (xs.getD (i + 1) 0) = ys.getD (i + 1) 0 := by
  rw [pieceVal_hermite xs ys i hne]
  simp only [hermite, div_self hne]
  ring

theorem pieceDer_left (xs ys : List K) (i : Nat) : pieceDer xs ys i (xs.getD i 0) = slopeAt xs ys i := by
  simp [pieceDer, pieceAt]

theorem pieceDer_right (xs ys : List K) (i : Nat) (hne : xs.getD (i + 1) 0 - xs.getD i 0 ≠ 0) :
    pieceDer xs ys i (xs.getD (i + 1) 0) = slopeAt xs ys (i + 1) := by
  simp only [pieceDer, pieceAt, sq_eq]
  generalize hh : xs.getD (i + 1) 0 - xs.getD i 0 = h at hne ⊢
  field_simp
  ring

/-! ## C54 -/

/-- The spline takes the given value at every knot. -/
theorem C54_interpolates (xs ys : List K) (hk : ValidKnots xs ys) (s : Spline K) (hs : init xs ys = .ok s)
    (i : Nat) (x y : K) (hx : xs[i]? = some x) (hy : ys[i]? = some y) : value s x = .ok y := by
  have hi : i < xs.length := (List.getElem?_eq_some_iff.1 hx).1
  rw [getElem?_getD hi] at hx
  have hi' : i < ys.length := by rw [hk.len]; exact hi
  rw [getElem?_getD hi'] at hy
  cases hx
  cases hy
  have h5 := hk.five
  by_cases hl : i + 1 < xs.length
  · rw [(value_piece hk hs hl le_rfl (Or.inl (lt_knots hk.inc (Nat.lt_succ_self i) hl))).2, pieceVal_left]
  · obtain ⟨j, rfl⟩ : ∃ j, i = j + 1 := ⟨i - 1, by omega⟩
    have hlt := lt_knots hk.inc (Nat.lt_succ_self j) hi
    rw [(value_piece hk hs hi hlt.le (Or.inr ⟨rfl, by omega⟩)).2,
      pieceVal_right xs ys j (sub_ne_zero.2 (ne_of_gt hlt))]

/-! ## C55 -/

/-- Between knots `i` and `i+1` the value is the cubic Hermite interpolant of the two knots with Akima's slopes. -/
theorem C55_piece (xs ys : List K) (hk : ValidKnots xs ys) (s : Spline K) (hs : init xs ys = .ok s) (i : Nat)
    (x₀ x₁ y₀ y₁ x : K) (h0 : xs[i]? = some x₀) (h1 : xs[i + 1]? = some x₁) (g0 : ys[i]? = some y₀)
    (g1 : ys[i + 1]? = some y₁) (hx0 : x₀ ≤ x) (hx1 : x ≤ x₁) :
    value s x = .ok (hermite x₀ x₁ y₀ y₁
      (akimaSlope xs.length (fun j => xs.getD j 0) (fun j => ys.getD j 0) i)
      (akimaSlope xs.length (fun j => xs.getD j 0) (fun j => ys.getD j 0) (i + 1)) x) := by
  have hi : i + 1 < xs.length := (List.getElem?_eq_some_iff.1 h1).1
  have hy : i + 1 < ys.length := (List.getElem?_eq_some_iff.1 g1).1
  rw [getElem?_getD (by omega)] at h0 h1 g0 g1
  cases h0
  cases h1
  cases g0
  cases g1
  have hlt := lt_knots hk.inc (Nat.lt_succ_self i) hi
  have hne := sub_ne_zero.2 (ne_of_gt hlt)
  rw [← slopeAt_akima xs ys hk.five, ← slopeAt_akima xs ys hk.five, ← pieceVal_hermite xs ys i hne]
  rcases lt_or_eq_of_le hx1 with hx | hx
  · exact (value_piece hk hs hi hx0 (Or.inl hx)).2
  · subst hx
    rw [pieceVal_right xs ys i hne]
    exact C54_interpolates xs ys hk s hs (i + 1) _ _ (getElem?_getD hi) (getElem?_getD hy)

/-! ## C54: exactness and smoothness -/

section Ordered
variable [IsStrictOrderedRing K]

/-- Scaling and shifting the ordinates scales and shifts the spline. -/
theorem C54_affine (xs ys : List K) (hk : ValidKnots xs ys) (a b : K) (s s' : Spline K) (hs : init xs ys = .ok s)
    (hs' : init xs (ys.map fun y => a * y + b) = .ok s') (x v : K) (hv : value s x = .ok v) :
    value s' x = .ok (a * v + b) := by
  have hk' : ValidKnots xs (ys.map fun y => a * y + b) := ⟨hk.five, by simp [hk.len], hk.inc⟩
  have h5 := hk.five
  have hy := hk.len
  have hgy : ∀ i, i < xs.length → (ys.map fun y => a * y + b).getD i 0 = a * ys.getD i 0 + b := by
    intro i hi
    have : i < ys.length := by omega
    simp [List.getD, this]
  have hc : ∀ i, i + 1 < xs.length → chord xs (ys.map fun y => a * y + b) i = a * chord xs ys i := by
    intro i hi
    unfold chord
    rw [hgy _ hi, hgy _ (by omega)]
    ring
  have hm : ∀ j, j < xs.length + 3 → mAt xs (ys.map fun y => a * y + b) j = a * mAt xs ys j := by
    intro j hj
    unfold mAt
    split
    · rw [hc _ (by omega), hc _ (by omega)]; ring
    · split
      · rw [hc _ (by omega), hc _ (by omega)]; ring
      · split
        · rw [hc _ (by omega), hc _ (by omega)]; ring
        · split
          · rw [hc _ (by omega), hc _ (by omega)]; ring
          · rw [hc _ (by omega)]
  have hsl : ∀ i, i < xs.length → slopeAt xs (ys.map fun y => a * y + b) i = a * slopeAt xs ys i := by
    intro i hi
    unfold slopeAt
    rw [hm _ (by omega), hm _ (by omega), hm _ (by omega), hm _ (by omega)]
    simp only [abs_eq, ← mul_sub, abs_mul, ← mul_add]
    by_cases ha : a = 0
    · subst ha
      simp
    · have ha' : |a| ≠ 0 := abs_ne_zero.2 ha
      by_cases hd : |mAt xs ys (i + 3) - mAt xs ys (i + 2)| + |mAt xs ys (i + 1) - mAt xs ys i| = 0
      · simp only [hd, mul_zero, if_true]
        ring
      · rw [if_neg hd, if_neg (mul_ne_zero ha' hd)]
        field_simp
  -- locate the point
  have hdom := C55_domain xs ys hk s hs x (xs.getD 0 0) (xs.getD (xs.length - 1) 0)
    (by rw [List.head?_eq_getElem?, getElem?_getD (by omega)])
    (by rw [List.getLast?_eq_getElem?, getElem?_getD (by omega)])
  have hin : xs.getD 0 0 ≤ x ∧ x ≤ xs.getD (xs.length - 1) 0 := by
    by_contra hn
    have := hdom.2 hn
    rw [hv] at this
    simp at this
  obtain ⟨i, hi, g1, g2⟩ := find_piece hk.inc (by omega) hin.1 hin.2
  rw [(value_piece hk hs hi g1 g2).2] at hv
  cases hv
  rw [(value_piece hk' hs' hi g1 g2).2]
  congr 1
  have hne := sub_ne_zero.2 (ne_of_gt (lt_knots hk.inc (Nat.lt_succ_self i) hi))
  rw [pieceVal_hermite _ _ _ hne, pieceVal_hermite _ _ _ hne, hgy _ hi, hgy _ (by omega), hsl _ hi, hsl _ (by omega)]
  simp only [hermite]
  ring

/-- Data on a straight line is reproduced exactly. -/
theorem C54_linear_exact (xs : List K) (p q : K) (hk : ValidKnots xs (xs.map fun x => p * x + q)) (s : Spline K)
    (hs : init xs (xs.map fun x => p * x + q) = .ok s) (x v : K) (hv : value s x = .ok v) : v = p * x + q := by
  have h5 := hk.five
  have hgy : ∀ i, i < xs.length → (xs.map fun x => p * x + q).getD i 0 = p * xs.getD i 0 + q := by
    intro i hi
    simp [List.getD, hi]
  have hc : ∀ i, i + 1 < xs.length → chord xs (xs.map fun x => p * x + q) i = p := by
    intro i hi
    have hne := sub_ne_zero.2 (ne_of_gt (lt_knots hk.inc (Nat.lt_succ_self i) hi))
    unfold chord
    rw [hgy _ hi, hgy _ (by omega)]
    rw [div_eq_iff hne]
    ring
  have hm : ∀ j, j < xs.length + 3 → mAt xs (xs.map fun x => p * x + q) j = p := by
    intro j hj
    unfold mAt
    split
    · rw [hc _ (by omega), hc _ (by omega)]; ring
    · split
      · rw [hc _ (by omega), hc _ (by omega)]; ring
      · split
        · rw [hc _ (by omega), hc _ (by omega)]; ring
        · split
          · rw [hc _ (by omega), hc _ (by omega)]; ring
          · rw [hc _ (by omega)]
  have hsl : ∀ i, i < xs.length → slopeAt xs (xs.map fun x => p * x + q) i = p := by
    intro i hi
    unfold slopeAt
    rw [hm _ (by omega), hm _ (by omega), hm _ (by omega), hm _ (by omega)]
    simp only [abs_eq, sub_self, abs_zero, add_zero, if_true]
    field_simp
    ring
  have hdom := C55_domain xs _ hk s hs x (xs.getD 0 0) (xs.getD (xs.length - 1) 0)
    (by rw [List.head?_eq_getElem?, getElem?_getD (by omega)])
    (by rw [List.getLast?_eq_getElem?, getElem?_getD (by omega)])
  have hin : xs.getD 0 0 ≤ x ∧ x ≤ xs.getD (xs.length - 1) 0 := by
    by_contra hn
    have := hdom.2 hn
    rw [hv] at this
    simp at this
  obtain ⟨i, hi, g1, g2⟩ := find_piece hk.inc (by omega) hin.1 hin.2
  rw [(value_piece hk hs hi g1 g2).2] at hv
  cases hv
  have hne := sub_ne_zero.2 (ne_of_gt (lt_knots hk.inc (Nat.lt_succ_self i) hi))
  rw [pieceVal_hermite _ _ _ hne, hgy _ hi, hgy _ (by omega), hsl _ hi, hsl _ (by omega)]
  simp only [hermite]
  field_simp
  ring

end Ordered

section Smooth

open Set

/-- Gluing continuously differentiable functions on adjacent intervals. -/
theorem glue {f g : ℝ → ℝ} {a b c : ℝ} (hab : a ≤ b) (hbc : b ≤ c)
    (h1 : ∀ x ∈ Icc a b, HasDerivWithinAt f (g x) (Icc a b) x) (h2 : ∀ x ∈ Icc b c, HasDerivWithinAt f (g x) (Icc b c) x)
    (c1 : ContinuousOn g (Icc a b)) (c2 : ContinuousOn g (Icc b c)) :
    (∀ x ∈ Icc a c, HasDerivWithinAt f (g x) (Icc a c) x) ∧ ContinuousOn g (Icc a c) := by
  have hu : Icc a c = Icc a b ∪ Icc b c := (Icc_union_Icc_eq_Icc hab hbc).symm
  constructor
  · intro x _
    rw [hu]
    refine HasDerivWithinAt.union ?_ ?_
    · by_cases hx : x ∈ Icc a b
      · exact h1 x hx
      · exact (HasFDerivWithinAt.of_notMem_closure (by rwa [isClosed_Icc.closure_eq]))
    · by_cases hx : x ∈ Icc b c
      · exact h2 x hx
      · exact (HasFDerivWithinAt.of_notMem_closure (by rwa [isClosed_Icc.closure_eq]))
  · rw [hu]
    exact c1.union_of_isClosed c2 isClosed_Icc isClosed_Icc

theorem pieceVal_deriv (xs ys : List ℝ) (i : Nat) (x : ℝ) : HasDerivAt (pieceVal xs ys i) (pieceDer xs ys i x) x := by
  unfold pieceVal pieceDer
  have ha : HasDerivAt (fun x : ℝ => x - xs.getD i 0) 1 x := (hasDerivAt_id x).sub_const _
  have h := (((hasDerivAt_const x (pieceAt xs ys i).c0).add (ha.const_mul (pieceAt xs ys i).c1)).add
    ((ha.pow 2).const_mul (pieceAt xs ys i).c2)).add ((ha.pow 3).const_mul (pieceAt xs ys i).c3)
  refine h.congr_deriv ?_
  simp

/-- **C54 (C¹).** On the real interval from the first to the last knot, the spline is a continuously differentiable
function: there are `f` and `g` such that `Value(x)` returns `f x`, `g` is the derivative of `f` and `g` is continuous. -/
theorem C54_smooth (xs ys : List ℝ) (hk : ValidKnots xs ys) (s : Spline ℝ) (hs : init xs ys = .ok s) (a b : ℝ)
    (ha : xs.head? = some a) (hb : xs.getLast? = some b) :
    ∃ f g : ℝ → ℝ, (∀ x ∈ Icc a b, value s x = .ok (f x)) ∧
      (∀ x ∈ Icc a b, HasDerivWithinAt f (g x) (Icc a b) x) ∧ ContinuousOn g (Icc a b) := by
  classical
  have h5 := hk.five
  rw [List.head?_eq_getElem?, getElem?_getD (by omega)] at ha
  rw [List.getLast?_eq_getElem?, getElem?_getD (by omega)] at hb
  cases ha
  cases hb
  let f : ℝ → ℝ := fun x => match value s x with
    | .ok v => v
    | _ => 0
  let g : ℝ → ℝ := fun x => match resolveInterval s.xs x with
    | .ok (some i) => pieceDer xs ys i x
    | _ => 0
  have hfi : ∀ i, i + 1 < xs.length → ∀ x ∈ Icc (xs.getD i 0) (xs.getD (i + 1) 0),
      f x = pieceVal xs ys i x ∧ g x = pieceDer xs ys i x := by
    intro i hi x hx
    have hlt := lt_knots hk.inc (Nat.lt_succ_self i) hi
    have hne := sub_ne_zero.2 (ne_of_gt hlt)
    rcases lt_or_eq_of_le hx.2 with h | h
    · obtain ⟨h1, h2⟩ := value_piece hk hs hi hx.1 (Or.inl h)
      simp only [f, g, h1, h2]
      simp
    · by_cases hl : i + 2 = xs.length
      · obtain ⟨h1, h2⟩ := value_piece hk hs hi hx.1 (Or.inr ⟨h, hl⟩)
        simp only [f, g, h1, h2]
        simp
      · have hi2 : i + 1 + 1 < xs.length := by omega
        obtain ⟨h1, h2⟩ := value_piece hk hs (i := i + 1) hi2 (x := x) h.ge
          (Or.inl (h ▸ lt_knots hk.inc (Nat.lt_succ_self (i + 1)) hi2))
        simp only [f, g, h1, h2]
        subst h
        rw [pieceVal_left, pieceVal_right xs ys i hne, pieceDer_left, pieceDer_right xs ys i hne]
        simp
  have hder : ∀ i, i + 1 < xs.length → (∀ x ∈ Icc (xs.getD i 0) (xs.getD (i + 1) 0),
      HasDerivWithinAt f (g x) (Icc (xs.getD i 0) (xs.getD (i + 1) 0)) x) ∧
      ContinuousOn g (Icc (xs.getD i 0) (xs.getD (i + 1) 0)) := by
    intro i hi
    constructor
    · intro x hx
      rw [(hfi i hi x hx).2]
      exact ((pieceVal_deriv xs ys i x).hasDerivWithinAt).congr (fun y hy => (hfi i hi y hy).1) (hfi i hi x hx).1
    · have hcont : Continuous (pieceDer xs ys i) := by
        unfold pieceDer
        fun_prop
      exact hcont.continuousOn.congr fun y hy => (hfi i hi y hy).2
  have hall : ∀ k, k + 1 < xs.length → (∀ x ∈ Icc (xs.getD 0 0) (xs.getD (k + 1) 0),
      HasDerivWithinAt f (g x) (Icc (xs.getD 0 0) (xs.getD (k + 1) 0)) x) ∧
      ContinuousOn g (Icc (xs.getD 0 0) (xs.getD (k + 1) 0)) := by
    intro k
    induction k with
    | zero => exact hder 0
    | succ k ih =>
      intro hk2
      obtain ⟨h1, h2⟩ := ih (by omega)
      obtain ⟨h3, h4⟩ := hder (k + 1) hk2
      exact glue (lt_knots hk.inc (Nat.succ_pos k) (by omega)).le
        (lt_knots hk.inc (Nat.lt_succ_self (k + 1)) hk2).le h1 h3 h2 h4
  have hlast := hall (xs.length - 2) (by omega)
  have he : xs.length - 2 + 1 = xs.length - 1 := by omega
  rw [he] at hlast
  refine ⟨f, g, ?_, hlast.1, hlast.2⟩
  intro x hx
  obtain ⟨i, hi, g1, g2⟩ := find_piece hk.inc (by omega) hx.1 hx.2
  rw [(value_piece hk hs hi g1 g2).2]
  have := (hfi i hi x ⟨g1, by rcases g2 with g2 | g2; exacts [g2.le, g2.1.le]⟩).1
  rw [this]

end Smooth

/-! ## C67: wavelet functions built from samples -/

section Wavelet
variable [IsStrictOrderedRing K]

/-- The knots of the wavelet's spline in exact arithmetic. -/
theorem wavelet_points (real : List K) (hn : 2 ≤ real.length) :
    waveletInit real = init ((List.range (real.length + 2)).map fun j : Nat => -4 + 8 / (real.length : K) * ((j : K) - 1))
      ([0] ++ real ++ [0]) := by
  rw [wavelet_knots real hn]
  congr 1
  refine List.map_congr_left fun j hj => ?_
  obtain ⟨n, hn'⟩ : ∃ n, real.length = n + 2 := ⟨real.length - 2, by omega⟩
  have hj' : j < n + 4 := by rw [List.mem_range] at hj; omega
  unfold knot sample
  rw [hn']
  by_cases h0 : j = 0
  · subst h0
    rw [if_pos rfl]
    push_cast
    ring
  rw [if_neg h0]
  by_cases hl : j = n + 3
  · subst hl
    rw [if_pos (by omega), show n + 2 - 1 = n + 1 by omega, show n + 2 - 2 = n by omega]
    push_cast
    ring
  obtain ⟨i, rfl⟩ : ∃ i, j = i + 1 := ⟨j - 1, by omega⟩
  rw [if_neg (by omega), Nat.add_sub_cancel]
  push_cast
  ring

theorem wavelet_valid (real : List K) (hn : 3 ≤ real.length) :
    ValidKnots ((List.range (real.length + 2)).map fun j : Nat => -4 + 8 / (real.length : K) * ((j : K) - 1))
      ([0] ++ real ++ [0]) := by
  refine ⟨by simp; omega, by simp, ?_⟩
  rw [List.pairwise_map]
  refine List.pairwise_lt_range.imp ?_
  intro a b hab
  have hab' : (a : K) < b := by exact_mod_cast hab
  have hpos : (0 : K) < 8 / (real.length : K) := div_pos (by norm_num) (by exact_mod_cast (show 0 < real.length by omega))
  have := mul_lt_mul_of_pos_left (sub_lt_sub_right hab' 1) hpos
  linarith

/-- The wavelet function built from `n ≥ 3` samples is defined everywhere: it takes the samples at the `n` points
`-4 + 8i/n`, is zero at `4` and everywhere outside `[-4, 4]`. -/
theorem C67_values (real : List K) (hn : 3 ≤ real.length) (s : Spline K) (hs : waveletInit real = .ok s) :
    (∀ (i : Nat) v, real[i]? = some v → waveletReal s (-4 + 8 / (real.length : K) * (i : K)) = .ok v) ∧
    waveletReal s 4 = .ok 0 ∧
    (∀ x, ¬ (-4 ≤ x ∧ x ≤ 4) → waveletReal s x = .ok 0) ∧
    (∀ x, ∃ v, waveletReal s x = .ok v) := by
  rw [wavelet_points real (by omega)] at hs
  have hk := wavelet_valid real hn
  have hN : (0 : K) < (real.length : K) := by exact_mod_cast (show 0 < real.length by omega)
  have hd : (0 : K) < 8 / (real.length : K) := div_pos (by norm_num) hN
  have h8 : 8 / (real.length : K) * (real.length : K) = 8 := by field_simp
  refine ⟨?_, ?_, ?_, ?_⟩
  · intro i v hv
    have hi : i < real.length := (List.getElem?_eq_some_iff.1 hv).1
    have hi0 : (0 : K) ≤ i := by positivity
    have hi1 : (i : K) ≤ (real.length : K) := by exact_mod_cast hi.le
    have hm1 := mul_nonneg hd.le hi0
    have hm2 := mul_le_mul_of_nonneg_left hi1 hd.le
    unfold waveletReal
    rw [if_pos ⟨by linarith, by linarith⟩]
    refine C54_interpolates _ _ hk s hs (i + 1) _ _ ?_ ?_
    · rw [List.getElem?_map, List.getElem?_range (by omega)]
      simp
    · simp only [List.cons_append, List.nil_append, List.getElem?_cons_succ]
      rw [List.getElem?_append_left hi]
      exact hv
  · unfold waveletReal
    rw [if_pos ⟨by norm_num, le_rfl⟩]
    refine C54_interpolates _ _ hk s hs (real.length + 1) _ _ ?_ ?_
    · rw [List.getElem?_map, List.getElem?_range (by omega)]
      simp only [Option.map_some]
      congr 1
      push_cast
      linear_combination h8
    · simp
  · intro x hx
    unfold waveletReal
    rw [if_neg hx]
  · intro x
    unfold waveletReal
    split
    · next hx =>
      refine (C55_domain _ _ hk s hs x (-4 - 8 / (real.length : K)) 4 ?_ ?_).1 ⟨by linarith [hx.1], hx.2⟩
      · simp [List.range_succ_eq_map]
        ring
      · rw [List.range_succ]
        simp only [List.map_append, List.map_cons, List.map_nil, List.getLast?_append, List.getLast?_singleton]
        simp only [Option.or, Option.some.injEq]
        push_cast
        linear_combination h8
    · exact ⟨_, rfl⟩

end Wavelet

/-! ## Concrete cases -/

example : ValidKnots ([0, 1, 2, 3, 5] : List ℚ) [0, 1, 4, 9, 0] := ⟨by decide, by decide, by decide +kernel⟩

/-- A curved data set: the spline exists and takes the value 13/2 in the middle of a piece. -/
example : ∃ s : Spline ℚ, init ([0, 1, 2, 3, 5] : List ℚ) [0, 1, 4, 9, 0] = .ok s ∧ value s (5 / 2) = .ok (13 / 2) := by
  have hk : ValidKnots ([0, 1, 2, 3, 5] : List ℚ) [0, 1, 4, 9, 0] := ⟨by decide, by decide, by decide +kernel⟩
  refine ⟨_, init_eq hk.five hk.len, ?_⟩
  rw [C55_piece _ _ hk _ (init_eq hk.five hk.len) 2 2 3 4 9 (5 / 2) rfl rfl rfl rfl (by norm_num) (by norm_num)]
  decide +kernel

end K52.Akima
