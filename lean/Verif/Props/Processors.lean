import Verif.Model.Processors
import Mathlib.Order.Basic
import Mathlib.Tactic.NormNum
import Mathlib.Tactic.Linarith
import Mathlib.Algebra.Order.Floor.Ring
import Mathlib.Data.List.Nodup
import Mathlib.Data.Rat.Floor

/-! # C39, C40: processors and grid search -/

set_option linter.unusedSectionVars false

namespace K52.Processor
variable {P R : Type} [LinearOrder R]

/-- Position `k` holds the best of the values; among equal ones the first when maximizing, the last when minimizing. -/
def BestAt (values : List R) (maximize : Bool) (k : Nat) : Prop :=
  ∃ v, values[k]? = some v ∧
    if maximize then (∀ (i : Nat) w, values[i]? = some w → w ≤ v) ∧ ∀ (i : Nat) w, values[i]? = some w → w = v → k ≤ i
    else (∀ (i : Nat) w, values[i]? = some w → v ≤ w) ∧ ∀ (i : Nat) w, values[i]? = some w → w = v → i ≤ k

theorem BestAt.snoc {values : List R} {m : Bool} {k : Nat} {v w : R} (h : BestAt values m k) (hv : values[k]? = some v) :
    BestAt (values ++ [w]) m (if (if m then decide (w > v) else !decide (w > v)) then values.length else k) := by
  obtain ⟨v', hv', h⟩ := h
  rw [hv] at hv'
  obtain rfl : v = v' := by simpa using hv'
  have hk : k < values.length := (List.getElem?_eq_some_iff.1 hv).1
  have idx : ∀ i u, (values ++ [w])[i]? = some u → (values[i]? = some u ∧ i < values.length) ∨ (i = values.length ∧ u = w) := by
    intro i u hi
    rcases lt_trichotomy i values.length with h1 | h1 | h1
    · left; rw [List.getElem?_append_left h1] at hi; exact ⟨hi, h1⟩
    · right; subst h1; simp at hi; exact ⟨rfl, hi.symm⟩
    · rw [List.getElem?_eq_none (by simp; omega)] at hi; simp at hi
  cases m with
  | true =>
    simp only [if_true] at h ⊢
    by_cases c : w > v
    · simp only [decide_eq_true c, if_true]
      refine ⟨w, by simp, ?_⟩
      simp only [if_true]
      refine ⟨fun i u hi => ?_, fun i u hi e => ?_⟩
      · rcases idx i u hi with ⟨a, _⟩ | ⟨_, rfl⟩
        · exact (h.1 i u a).trans c.le
        · exact le_rfl
      · rcases idx i u hi with ⟨a, _⟩ | ⟨rfl, _⟩
        · exact absurd (h.1 i u a) (by rw [e]; exact not_le.2 c)
        · exact le_rfl
    · simp only [decide_eq_false c, Bool.false_eq_true, if_false]
      refine ⟨v, by rw [List.getElem?_append_left hk]; exact hv, ?_⟩
      simp only [if_true]
      refine ⟨fun i u hi => ?_, fun i u hi e => ?_⟩
      · rcases idx i u hi with ⟨a, _⟩ | ⟨_, rfl⟩
        · exact h.1 i u a
        · exact not_lt.1 c
      · rcases idx i u hi with ⟨a, _⟩ | ⟨rfl, _⟩
        · exact h.2 i u a e
        · omega
  | false =>
    simp only [Bool.false_eq_true, if_false] at h ⊢
    by_cases c : w > v
    · simp only [decide_eq_true c, Bool.not_true, Bool.false_eq_true, if_false]
      refine ⟨v, by rw [List.getElem?_append_left hk]; exact hv, ?_⟩
      simp only [Bool.false_eq_true, if_false]
      refine ⟨fun i u hi => ?_, fun i u hi e => ?_⟩
      · rcases idx i u hi with ⟨a, _⟩ | ⟨_, rfl⟩
        · exact h.1 i u a
        · exact c.le
      · rcases idx i u hi with ⟨a, _⟩ | ⟨rfl, e'⟩
        · exact h.2 i u a e
        · subst e'; exact absurd e c.ne'
    · simp only [decide_eq_false c, Bool.not_false, if_true]
      refine ⟨w, by simp, ?_⟩
      simp only [Bool.false_eq_true, if_false]
      refine ⟨fun i u hi => ?_, fun i u hi e => ?_⟩
      · rcases idx i u hi with ⟨a, _⟩ | ⟨_, rfl⟩
        · exact (not_lt.1 c).trans (h.1 i u a)
        · exact le_rfl
      · rcases idx i u hi with ⟨a, b⟩ | ⟨rfl, _⟩
        · exact b.le
        · exact le_rfl

theorem selectLoop_spec (m : Bool) : ∀ (vs done : List R) (k : Nat) (v : R), BestAt done m k → done[k]? = some v →
    BestAt (done ++ vs) m (selectLoop m k v done.length vs)
  | [], done, k, v, h, _ => by simpa [selectLoop] using h
  | w :: vs, done, k, v, h, hv => by
    have s := h.snoc (w := w) hv
    simp only [selectLoop]
    have e : done ++ w :: vs = (done ++ [w]) ++ vs := by simp
    have l : done.length + 1 = (done ++ [w]).length := by simp
    rw [e]
    cases hc : (if m then decide (w > v) else !decide (w > v)) with
    | true =>
      rw [hc, if_pos rfl] at s
      rw [l, if_pos rfl]
      exact selectLoop_spec m vs _ _ _ s (by simp)
    | false =>
      rw [hc, if_neg (by simp)] at s
      rw [l, if_neg (by simp)]
      exact selectLoop_spec m vs _ _ _ s
        (by rw [List.getElem?_append_left (List.getElem?_eq_some_iff.1 hv).1]; exact hv)

theorem select_best (m : Bool) (v : R) (vs : List R) : BestAt (v :: vs) m (selectLoop m 0 v 1 vs) := by
  have h : BestAt [v] m 0 := by
    refine ⟨v, rfl, ?_⟩
    cases m <;> simp only [Bool.false_eq_true, if_false, if_true] <;> constructor <;>
      (intro i w hi; cases i <;> simp at hi) <;> simp [hi]
  exact selectLoop_spec m vs [v] 0 v h rfl

/-- **C39 (simple processor).** Given at least one candidate, processing returns the one at a position whose value is maximal (minimal)
among all the candidates' values: the first such candidate when maximizing, the last when minimizing.  Given none, it throws. -/
theorem C39_simple (f : P → R) (candidates : List P) (maximize : Bool) :
    (candidates = [] ∧ (simple f candidates maximize).threw) ∨
    (candidates ≠ [] ∧ ∃ k p, simple f candidates maximize = .ok p ∧ candidates[k]? = some p ∧
      BestAt (candidates.map f) maximize k) := by
  cases candidates with
  | nil => left; simp [simple]
  | cons c cs =>
    right
    refine ⟨by simp, ?_⟩
    have h := select_best maximize (f c) (cs.map f)
    obtain ⟨v, hv, _⟩ := id h
    have : ((c :: cs).map f)[selectLoop maximize 0 (f c) 1 (cs.map f)]? = some v := by simpa using hv
    rw [List.getElem?_map] at this
    rcases hp : (c :: cs)[selectLoop maximize 0 (f c) 1 (cs.map f)]? with _ | p
    · rw [hp] at this; simp at this
    · refine ⟨_, p, ?_, hp, by simpa using h⟩
      simp only [simple, List.map_cons, hp]

/-- **C39 (a user's view).** The returned candidate is one of those given and none of them is better. -/
theorem C39_simple_best (f : P → R) (candidates : List P) (maximize : Bool) (p : P) (h : simple f candidates maximize = .ok p) :
    p ∈ candidates ∧ ∀ q ∈ candidates, if maximize then f q ≤ f p else f p ≤ f q := by
  rcases C39_simple f candidates maximize with ⟨_, ht⟩ | ⟨_, k, p', e, hk, v, hv, hb⟩
  · rw [h] at ht; exact absurd ht id
  · rw [e] at h
    obtain rfl : p' = p := by simpa using h
    rw [List.getElem?_map, hk] at hv
    obtain rfl : f p' = v := by simpa using hv
    refine ⟨List.mem_of_getElem? hk, fun q hq => ?_⟩
    obtain ⟨i, hi⟩ := List.mem_iff_getElem?.1 hq
    have hi' : (candidates.map f)[i]? = some (f q) := by rw [List.getElem?_map, hi]; rfl
    cases maximize
    · simp only [Bool.false_eq_true, if_false] at hb ⊢; exact hb.1 i _ hi'
    · simp only [if_true] at hb ⊢; exact hb.1 i _ hi'

/-- **C39 (optimizing processor).** Processing a non-empty list returns the result of optimizing one of the candidates, and no
candidate's optimization result is better; with no candidates the behaviour is undefined. -/
theorem C39_optimization (optimizer : P → Bool → P) (f : P → R) (candidates : List P) (maximize : Bool) :
    (candidates = [] → optimization optimizer f candidates maximize = .ub) ∧
    (candidates ≠ [] → ∃ k c, candidates[k]? = some c ∧ optimization optimizer f candidates maximize = .ok (optimizer c maximize) ∧
      BestAt (candidates.map fun q => f (optimizer q maximize)) maximize k) := by
  refine ⟨fun h => by subst h; rfl, fun h => ?_⟩
  rcases C39_simple f (candidates.map fun q => optimizer q maximize) maximize with ⟨e, _⟩ | ⟨_, k, p, e, hk, hb⟩
  · simp at e; exact absurd e h
  · rw [List.getElem?_map] at hk
    rcases hc : candidates[k]? with _ | c
    · rw [hc] at hk; simp at hk
    · rw [hc] at hk
      obtain rfl : optimizer c maximize = p := by simpa using hk
      refine ⟨k, c, hc, ?_, by simpa [List.map_map, Function.comp_def] using hb⟩
      cases candidates with
      | nil => exact absurd rfl h
      | cons d ds =>
        simp only [simple, List.map_cons] at e
        simp only [optimization, List.map_cons]
        exact e

/-- Non-vacuity: ties are resolved as stated. -/
example : simple (fun p : Nat × Nat => p.1) [(3, 0), (5, 1), (5, 2), (3, 3)] true = .ok (5, 1) ∧
    simple (fun p : Nat × Nat => p.1) [(3, 0), (5, 1), (5, 2), (3, 3)] false = .ok (3, 3) := by decide

example : optimization (fun (p : Nat) m => if m then p + 1 else p - 1) (fun p => 10 - p) [4, 7, 9] false = .ok 8 := by decide

end K52.Processor

namespace K52.Grid

section any
variable {R : Type} [Add R] [Sub R] [Mul R] [Div R] [Zero R] [NatCast R] [HasFloor R] [DecidableEq R]

/-! ### The grid -/

theorem intPow_eq {size : Nat} : ∀ {n : Nat}, size ^ n < 18446744073709551616 → intPow size n = size ^ n
  | 0, _ => rfl
  | n + 1, h => by
    rcases Nat.eq_zero_or_pos size with rfl | hs
    · simp [intPow, sizeT]
    · have : size ^ n < 18446744073709551616 := lt_of_le_of_lt (Nat.pow_le_pow_right hs (Nat.le_succ n)) h
      rw [intPow, intPow_eq this, sizeT, ← pow_succ, Nat.mod_eq_of_lt h]

theorem intPow_mod (size : Nat) : ∀ n, intPow size n = size ^ n % 18446744073709551616
  | 0 => rfl
  | n + 1 => by rw [intPow, sizeT, intPow_mod size n, pow_succ, Nat.mod_mul_mod]

/-- Digits of `i` in base `size`, `n` of them starting with digit `j`. -/
def digits (size i : Nat) : Nat → Nat → List Nat
  | _, 0 => []
  | j, n + 1 => (i / size ^ j % size) :: digits size i (j + 1) n

theorem coordinates_eq (precision lower : R) {size : Nat} (hs : 0 < size) (i : Nat) : ∀ (n j : Nat),
    size ^ (j + n) < 18446744073709551616 →
    coordinates precision lower size i j n = .ok ((digits size i j n).map fun (d : Nat) => (d : R) * precision + lower)
  | 0, _, _ => rfl
  | n + 1, j, h => by
    have hj : size ^ j < 18446744073709551616 :=
      lt_of_le_of_lt (Nat.pow_le_pow_right hs (by omega)) h
    have h' : size ^ (j + 1 + n) < 18446744073709551616 := by rw [show j + 1 + n = j + (n + 1) by omega]; exact h
    have e : intPow size j = size ^ j := intPow_eq hj
    have hne : size ^ j ≠ 0 := (Nat.pow_pos hs).ne'
    simp only [coordinates, coordinate, e, hne, if_false, Res.ok_bind]
    rw [coordinates_eq precision lower hs i n (j + 1) h']
    simp [digits]

theorem points_eq (precision lower : R) {size n : Nat} (hs : 0 < size) (h : size ^ n < 18446744073709551616) : ∀ (count i : Nat),
    points precision lower size n i count =
      .ok ((List.range' i count).map fun k => (digits size k 0 n).map fun (d : Nat) => (d : R) * precision + lower)
  | 0, _ => rfl
  | count + 1, i => by
    have h0 : size ^ (0 + n) < 18446744073709551616 := by simpa using h
    simp only [points]
    rw [coordinates_eq precision lower hs i n 0 h0, Res.ok_bind, points_eq precision lower hs h count (i + 1)]
    simp [List.range'_succ]

end any

variable {R : Type} [Field R] [LinearOrder R] [IsStrictOrderedRing R] [FloorRing R]

theorem digits_length (size i : Nat) : ∀ n j, (digits size i j n).length = n
  | 0, _ => rfl
  | n + 1, j => by simp [digits, digits_length size i n (j + 1)]

theorem digits_lt {size : Nat} (hs : 0 < size) (i : Nat) : ∀ n j, ∀ d ∈ digits size i j n, d < size
  | 0, _, d, h => by simp [digits] at h
  | n + 1, j, d, h => by
    simp only [digits, List.mem_cons] at h
    rcases h with rfl | h
    · exact Nat.mod_lt _ hs
    · exact digits_lt hs i n (j + 1) d h

theorem digits_shift (size i : Nat) : ∀ n j, digits size i (j + 1) n = digits size (i / size) j n
  | 0, _ => rfl
  | n + 1, j => by
    simp only [digits]
    rw [digits_shift size i n (j + 1), pow_succ, mul_comm, ← Nat.div_div_eq_div_mul]

theorem digits_succ (size i n : Nat) : digits size i 0 (n + 1) = (i % size) :: digits size (i / size) 0 n := by
  simp only [digits, pow_zero, Nat.div_one]
  rw [digits_shift]

theorem digits_inj {size : Nat} : ∀ (n i k : Nat), i < size ^ n → k < size ^ n →
    digits size i 0 n = digits size k 0 n → i = k
  | 0, i, k, hi, hk, _ => by simp at hi hk; omega
  | n + 1, i, k, hi, hk, h => by
    rw [digits_succ, digits_succ] at h
    simp only [List.cons.injEq] at h
    have hi' : i / size < size ^ n := Nat.div_lt_of_lt_mul (by rw [← pow_succ']; exact hi)
    have hk' : k / size < size ^ n := Nat.div_lt_of_lt_mul (by rw [← pow_succ']; exact hk)
    have := digits_inj n _ _ hi' hk' h.2
    rw [← Nat.div_add_mod i size, ← Nat.div_add_mod k size, this, h.1]

theorem digits_surj {size : Nat} (hs : 0 < size) : ∀ (n : Nat) (ds : List Nat), ds.length = n → (∀ d ∈ ds, d < size) →
    ∃ i, i < size ^ n ∧ digits size i 0 n = ds
  | 0, ds, h, _ => ⟨0, by simp, by simp at h; simp [digits, h]⟩
  | n + 1, [], h, _ => by simp at h
  | n + 1, d :: ds, h, hd => by
    obtain ⟨i, hi, e⟩ := digits_surj hs n ds (by simpa using h) (fun x hx => hd x (by simp [hx]))
    have hds : d < size := hd d (by simp)
    refine ⟨d + size * i, ?_, ?_⟩
    · calc d + size * i < size + size * i := by omega
        _ = size * (i + 1) := by ring
        _ ≤ size * size ^ n := Nat.mul_le_mul_left _ hi
        _ = size ^ (n + 1) := by rw [pow_succ]; ring
    · rw [digits_succ, Nat.add_mul_mod_self_left, Nat.mod_eq_of_lt hds, Nat.add_mul_div_left _ _ hs, Nat.div_eq_of_lt hds,
        Nat.zero_add, e]

theorem maxElement_eq_select {S : Type} [LinearOrder S] : ∀ (vs : List S) (k : Nat) (v : S) (i : Nat),
    maxElement k v i vs = Processor.selectLoop true k v i vs
  | [], _, _, _ => rfl
  | w :: vs, k, v, i => by
    simp only [maxElement, Processor.selectLoop, if_true, decide_eq_true_eq, gt_iff_lt]
    split
    · exact maxElement_eq_select vs _ _ _
    · exact maxElement_eq_select vs _ _ _

/-- The specification of the grid: points with `n` coordinates, each of the form `lower + m·precision` (`m = 0, 1, ...`) and at most `upper`. -/
def IsGridPoint (precision lower upper : R) (n : Nat) (p : List R) : Prop :=
  p.length = n ∧ ∀ x ∈ p, ∃ m : ℕ, x = lower + m * precision ∧ x ≤ upper

/-- The number of grid values per coordinate. -/
def perCoordinate (precision lower upper : R) : Nat := ⌊(upper - lower) / precision⌋.toNat + 1

theorem le_upper_iff {precision lower upper : R} (hp : 0 < precision) (hb : lower ≤ upper) (m : ℕ) :
    lower + m * precision ≤ upper ↔ m < perCoordinate precision lower upper := by
  have h0 : 0 ≤ (upper - lower) / precision := div_nonneg (sub_nonneg.2 hb) hp.le
  have hf : 0 ≤ ⌊(upper - lower) / precision⌋ := Int.floor_nonneg.2 h0
  unfold perCoordinate
  rw [Nat.lt_succ_iff]
  have : lower + m * precision ≤ upper ↔ ((m : ℤ) : R) ≤ (upper - lower) / precision := by
    rw [le_div_iff₀ hp]
    constructor
    · intro h; push_cast; linarith
    · intro h; push_cast at h; linarith
  rw [this, ← Int.le_floor]
  omega

theorem sizePerParameter_eq {precision lower upper : R} (hp : 0 < precision) (hb : lower ≤ upper)
    (hs : perCoordinate precision lower upper ≤ 2147483647) :
    sizePerParameter precision lower upper = .ok (perCoordinate precision lower upper : Int) := by
  have hf : 0 ≤ ⌊(upper - lower) / precision⌋ := Int.floor_nonneg.2 (div_nonneg (sub_nonneg.2 hb) hp.le)
  unfold sizePerParameter perCoordinate at *
  simp only [hp.ne', if_false, hasFloor_eq]
  unfold int32
  rw [if_pos (by omega), Res.ok_bind, if_pos (by omega)]
  simp only [Res.ok.injEq]
  omega

/-- **C40.** For a positive precision and ordered bounds (and a grid that fits the machine's integers) grid search counts the objective
function at every grid point exactly once – no other point, none twice, `per coordinate ^ dimension` in all – and leaves in the
parameters the first of the counted points at which the function is largest. -/
theorem C40_grid {S : Type} [LinearOrder S] (precision lower upper : R) (hp : 0 < precision) (hb : lower ≤ upper)
    (f : List R → S) (initial : List R)
    (hs : perCoordinate precision lower upper ≤ 2147483647)
    (ht : perCoordinate precision lower upper ^ initial.length < 18446744073709551616) :
    ∃ out, optimize precision lower upper f (.continuous initial) = .ok out ∧
      (∀ p, p ∈ out.counted ↔ IsGridPoint precision lower upper initial.length p) ∧
      out.counted.Nodup ∧
      out.counted.length = perCoordinate precision lower upper ^ initial.length ∧
      ∃ k, out.counted[k]? = some out.values ∧ Processor.BestAt (out.counted.map f) true k := by
  set K := perCoordinate precision lower upper with hK
  have hKpos : 0 < K := by rw [hK]; unfold perCoordinate; omega
  set n := initial.length with hn
  set ps : List (List R) := (List.range' 0 (K ^ n)).map fun k => (digits K k 0 n).map fun (d : Nat) => (d : R) * precision + lower
    with hps
  have hpts : points precision lower (K : Int).toNat n 0 (intPow (K : Int).toNat n) = .ok ps := by
    rw [Int.toNat_natCast, intPow_eq ht, points_eq precision lower hKpos ht]
  have hlen : ps.length = K ^ n := by simp [hps]
  have hne : ps ≠ [] := by
    intro e; rw [e] at hlen; simp at hlen; exact absurd hlen.symm (Nat.pow_pos hKpos).ne'
  have hinj : Function.Injective fun (d : Nat) => (d : R) * precision + lower := by
    intro a b hab
    have : (a : R) = b := mul_right_cancel₀ hp.ne' (add_right_cancel hab)
    exact_mod_cast this
  cases hq : ps with
  | nil => exact absurd hq hne
  | cons q qs =>
    have hsel := Processor.select_best true (f q) (qs.map f)
    rw [← maxElement_eq_select] at hsel
    obtain ⟨v, hv, _⟩ := id hsel
    have hv' : ((q :: qs).map f)[maxElement 0 (f q) 1 (qs.map f)]? = some v := by simpa using hv
    rw [List.getElem?_map] at hv'
    rcases hb' : (q :: qs)[maxElement 0 (f q) 1 (qs.map f)]? with _ | b
    · rw [hb'] at hv'; simp at hv'
    refine ⟨⟨b, q :: qs⟩, ?_, ?_, ?_, ?_, _, hb', by simpa using hsel⟩
    · simp only [optimize]
      rw [sizePerParameter_eq hp hb hs, Res.ok_bind, if_neg (by omega), hpts, Res.ok_bind, hq]
      simp only [List.map_cons, hb', Res.pure_eq]
    · intro p
      rw [← hq, hps]
      simp only [List.mem_map, List.mem_range'_1, Nat.zero_le, true_and, Nat.zero_add]
      constructor
      · rintro ⟨k, hk, rfl⟩
        refine ⟨by simp [digits_length], ?_⟩
        intro x hx
        obtain ⟨d, hd, rfl⟩ := List.mem_map.1 hx
        refine ⟨d, by ring, ?_⟩
        rw [show (d : R) * precision + lower = lower + d * precision by ring, le_upper_iff hp hb]
        exact digits_lt hKpos k n 0 d hd
      · rintro ⟨hl, hg⟩
        have : ∃ ds : List Nat, p = ds.map (fun (d : Nat) => (d : R) * precision + lower) ∧ ∀ d ∈ ds, d < K := by
          clear hl
          induction p with
          | nil => exact ⟨[], rfl, by simp⟩
          | cons x xs ih =>
            obtain ⟨ds, e, hds⟩ := ih (fun y hy => hg y (by simp [hy]))
            obtain ⟨m, e1, e2⟩ := hg x (by simp)
            refine ⟨m :: ds, by simp [e, e1, add_comm], ?_⟩
            intro d hd
            simp only [List.mem_cons] at hd
            rcases hd with rfl | hd
            · rw [e1] at e2; exact (le_upper_iff hp hb _).1 e2
            · exact hds d hd
        obtain ⟨ds, rfl, hds⟩ := this
        obtain ⟨i, hi, e⟩ := digits_surj hKpos n ds (by simpa using hl) hds
        exact ⟨i, hi, by rw [e]⟩
    · rw [← hq, hps]
      refine List.Nodup.map_on ?_ List.nodup_range'
      intro a ha b hb2 hab
      have hab' := List.map_injective_iff.2 hinj hab
      simp only [List.mem_range'_1, Nat.zero_le, true_and, Nat.zero_add] at ha hb2
      exact digits_inj n a b ha hb2 hab'
    · simp only; rw [← hq, hlen]

/-- **C40 (a user's view).** The point left in the parameters is a grid point and no grid point has a larger value. -/
theorem C40_best {S : Type} [LinearOrder S] (precision lower upper : R) (hp : 0 < precision) (hb : lower ≤ upper)
    (f : List R → S) (initial : List R)
    (hs : perCoordinate precision lower upper ≤ 2147483647)
    (ht : perCoordinate precision lower upper ^ initial.length < 18446744073709551616) :
    ∃ out, optimize precision lower upper f (.continuous initial) = .ok out ∧
      IsGridPoint precision lower upper initial.length out.values ∧
      ∀ p, IsGridPoint precision lower upper initial.length p → f p ≤ f out.values := by
  obtain ⟨out, h, hm, _, _, k, hk, v, hv, hbest⟩ := C40_grid precision lower upper hp hb f initial hs ht
  refine ⟨out, h, (hm _).1 (List.mem_of_getElem? hk), fun p hp' => ?_⟩
  rw [List.getElem?_map, hk] at hv
  obtain rfl : f out.values = v := by simpa using hv
  simp only [if_true] at hbest
  obtain ⟨i, hi⟩ := List.mem_iff_getElem?.1 ((hm p).2 hp')
  exact hbest.1 i (f p) (by rw [List.getElem?_map, hi]; rfl)

/-- **C40 (rejections).** Parameters that are not continuous are rejected, and so are bounds and precision of which the grid would be
empty (when the quotient fits an `int`); nothing is counted then. -/
theorem C40_rejects {S : Type} [LinearOrder S] (precision lower upper : R) (f : List R → S) (initial : List R) :
    (optimize precision lower upper f .other).threw ∧
    (precision ≠ 0 → (upper - lower) / precision < 0 → -2147483648 ≤ (upper - lower) / precision →
      (optimize precision lower upper f (.continuous initial)).threw) := by
  refine ⟨trivial, fun h0 h1 h2 => ?_⟩
  have f1 : ⌊(upper - lower) / precision⌋ < 0 := by
    rw [Int.floor_lt]; exact_mod_cast h1
  have f2 : -2147483648 ≤ ⌊(upper - lower) / precision⌋ := by
    rw [Int.le_floor]; exact_mod_cast h2
  simp only [optimize, sizePerParameter, h0, if_false, hasFloor_eq]
  unfold int32
  rw [if_pos (by omega), Res.ok_bind, if_pos (by omega), Res.ok_bind, if_pos (by omega)]
  trivial

/-- **C40 (overflow).** When the number of grid points is a multiple of 2⁶⁴ the multiplication wraps to zero: nothing is counted and
the first element of an empty vector is read. -/
theorem C40_overflow {S : Type} [LinearOrder S] (precision lower upper : R) (hp : 0 < precision) (hb : lower ≤ upper)
    (f : List R → S) (initial : List R)
    (hs : perCoordinate precision lower upper ≤ 2147483647)
    (ht : 18446744073709551616 ∣ perCoordinate precision lower upper ^ initial.length) :
    optimize precision lower upper f (.continuous initial) = .ub := by
  simp only [optimize]
  rw [sizePerParameter_eq hp hb hs, Res.ok_bind, if_neg (by unfold perCoordinate; omega), Int.toNat_natCast, intPow_mod,
    Nat.mod_eq_zero_of_dvd ht]
  rfl

/-- Non-vacuity: a 3 × 3 grid in the unit square. -/
example : perCoordinate (1/2 : ℚ) 0 1 = 3 ∧ (0 : ℚ) < 1/2 ∧ (0 : ℚ) ≤ 1 ∧ 3 ^ [(7 : ℚ), 7].length < 18446744073709551616 := by
  refine ⟨?_, by norm_num, by norm_num, by norm_num⟩
  unfold perCoordinate
  rw [show ⌊((1 : ℚ) - 0) / (1 / 2)⌋ = 2 by norm_num]
  rfl

/-- Non-vacuity of the overflow case: two values per coordinate and 64 coordinates. -/
example : perCoordinate (1 : ℚ) 0 1 = 2 ∧ 18446744073709551616 ∣ 2 ^ (List.replicate 64 (0 : ℚ)).length := by
  refine ⟨?_, by norm_num⟩
  unfold perCoordinate
  rw [show ⌊((1 : ℚ) - 0) / 1⌋ = 1 by norm_num]
  rfl

end K52.Grid
