import Verif.Model.Dsp
import Mathlib.RingTheory.RootsOfUnity.Complex
import Mathlib.Data.ZMod.Basic
import Mathlib.Algebra.BigOperators.Fin
import Mathlib.Algebra.Field.GeomSum
import Mathlib.Algebra.BigOperators.Field

/-! Helper lemmas for the DSP properties. -/

namespace K52.Dsp

open Complex Finset

instance : LawfulMonad Res := LawfulMonad.mk'
  (id_map := by intro α x; cases x <;> rfl)
  (pure_bind := by intros; rfl)
  (bind_assoc := by intro α β γ x f g; cases x <;> rfl)

@[simp] theorem conj_eq (z : ℂ) : ComplexOps.conj z = (starRingEnd ℂ) z := rfl
@[simp] theorem divNat_eq (z : ℂ) (N : Nat) : ComplexOps.divNat z N = z / (N : ℂ) := rfl

theorem rd_ok {v : List ℂ} {i : Nat} (h : i < v.length) : rd v i = .ok (v.getD i 0) := by
  unfold rd
  rw [List.getElem?_eq_getElem h]
  simp [List.getD, h]

theorem sumLoop_ok {N : Nat} {f : Nat → Res ℂ} {g : Nat → ℂ} (h : ∀ n, n < N → f n = .ok (g n)) :
    sumLoop N f = .ok (∑ n ∈ range N, g n) := by
  unfold sumLoop
  induction N with
  | zero => simp
  | succ N ih =>
    have ih' := ih (fun n hn => h n (by omega))
    rw [List.range_succ, List.foldlM_append, ih']
    simp [h N (by omega), sum_range_succ]

theorem fillLoop_ok {α : Type} {N : Nat} {f : Nat → Res α} {g : Nat → α} (h : ∀ n, n < N → f n = .ok (g n)) :
    fillLoop N f = .ok ((List.range N).map g) := by
  unfold fillLoop
  induction N with
  | zero => simp
  | succ N ih =>
    have ih' := ih (fun n hn => h n (by omega))
    rw [List.range_succ, List.mapM_append, ih']
    simp [h N (by omega)]

/-- The DFT as a plain list. -/
noncomputable def dftL (x : List ℂ) : List ℂ :=
  (List.range x.length).map fun k : Nat =>
    ∑ n ∈ range x.length, x.getD n 0 * Complex.exp (-2 * Real.pi * I * (k : ℂ) * (n : ℂ) / (x.length : ℂ))

theorem fourier_eq (x : List ℂ) : fourier x = .ok (dftL x) := by
  unfold fourier fourierOf dftL
  refine fillLoop_ok fun k _ => sumLoop_ok fun n hn => ?_
  simp [rd_ok hn]

theorem conjugate_eq (x : List ℂ) : conjugate x = .ok (x.map (starRingEnd ℂ)) := by
  unfold conjugate
  rw [fillLoop_ok (g := fun i => (starRingEnd ℂ) (x.getD i 0)) (fun i hi => by simp [rd_ok hi])]
  congr 1
  apply List.ext_getElem <;> simp +contextual [List.getD]

@[simp] theorem dftL_length (x : List ℂ) : (dftL x).length = x.length := by simp [dftL]

/-- `exp(2πi d/N)` for an integer `d`. -/
noncomputable def e (N : Nat) (d : ℤ) : ℂ := Complex.exp (2 * Real.pi * I * (d : ℂ) / (N : ℂ))

theorem e_add (N : Nat) (a b : ℤ) : e N (a + b) = e N a * e N b := by
  unfold e
  rw [← Complex.exp_add]
  congr 1
  push_cast
  ring

theorem e_nat_mul (N k : Nat) (d : ℤ) : e N (k * d) = e N d ^ k := by
  unfold e
  rw [← Complex.exp_nat_mul]
  congr 1
  push_cast
  ring

theorem e_conj (N : Nat) (d : ℤ) : (starRingEnd ℂ) (e N d) = e N (-d) := by
  unfold e
  rw [← Complex.exp_conj]
  congr 1
  simp [Complex.conj_ofNat]

theorem e_N_mul {N : Nat} (hN : 0 < N) (c : ℤ) : e N (N * c) = 1 := by
  unfold e
  have h : (N : ℂ) ≠ 0 := by exact_mod_cast hN.ne'
  rw [Complex.exp_eq_one_iff]
  refine ⟨c, ?_⟩
  push_cast
  field_simp

theorem e_eq_one {N : Nat} (hN : 0 < N) (d : ℤ) : e N d = 1 ↔ (N : ℤ) ∣ d := by
  constructor
  · intro h
    unfold e at h
    rw [Complex.exp_eq_one_iff] at h
    obtain ⟨c, hc⟩ := h
    have hN' : (N : ℂ) ≠ 0 := by exact_mod_cast hN.ne'
    have hpi : (2 * Real.pi * I : ℂ) ≠ 0 := by
      simp [Real.pi_ne_zero]
    have h2 : (d : ℂ) = N * c := by
      have h3 : (2 * Real.pi * I : ℂ) * d = (2 * Real.pi * I : ℂ) * (N * c) := by
        field_simp at hc
        linear_combination hc * (2 * Real.pi * I)
      exact mul_left_cancel₀ hpi h3
    exact ⟨c, by exact_mod_cast h2⟩
  · rintro ⟨c, rfl⟩
    exact e_N_mul hN c

/-- Orthogonality of the characters. -/
theorem e_sum {N : Nat} (hN : 0 < N) (d : ℤ) :
    ∑ k ∈ range N, e N ((k : ℤ) * d) = if (N : ℤ) ∣ d then (N : ℂ) else 0 := by
  simp only [e_nat_mul]
  split
  next h =>
    rw [(e_eq_one hN d).2 h]
    simp
  next h =>
    have h1 : e N d ≠ 1 := fun hh => h ((e_eq_one hN d).1 hh)
    rw [geom_sum_eq h1, ← e_nat_mul, e_N_mul hN]
    simp

theorem getD_map_range {N k : Nat} (f : Nat → ℂ) (h : k < N) : ((List.range N).map f).getD k 0 = f k := by
  simp [List.getD, h]

theorem ext_getD {x y : List ℂ} (hl : x.length = y.length) (h : ∀ i, i < x.length → x.getD i 0 = y.getD i 0) :
    x = y := by
  apply List.ext_getElem hl
  intro i h1 h2
  have := h i h1
  simpa [List.getD, h1, h2] using this

theorem dftL_getD (x : List ℂ) {k : Nat} (h : k < x.length) :
    (dftL x).getD k 0 = ∑ n ∈ range x.length, x.getD n 0 * e x.length (-((k : ℤ) * n)) := by
  unfold dftL
  rw [getD_map_range _ h]
  refine sum_congr rfl fun n _ => ?_
  congr 1
  unfold e
  congr 1
  push_cast
  ring

theorem getD_conj (x : List ℂ) (n : Nat) : (x.map (starRingEnd ℂ)).getD n 0 = (starRingEnd ℂ) (x.getD n 0) := by
  simp only [List.getD, List.getElem?_map]
  cases x[n]? <;> simp

/-- The inverse DFT as a plain list. -/
noncomputable def idftL (x : List ℂ) : List ℂ :=
  (List.range x.length).map fun n : Nat =>
    (∑ k ∈ range x.length, x.getD k 0 * e x.length ((k : ℤ) * n)) / (x.length : ℂ)

theorem inverse_of {F : Transform} {x : List ℂ}
    (h : F (x.map (starRingEnd ℂ)) = fourier (x.map (starRingEnd ℂ))) : inverse F x = .ok (idftL x) := by
  unfold inverse
  simp only [conjugate_eq, divNat_eq, Res.ok_bind, h, fourier_eq, List.length_map, dftL_length, lt_irrefl, if_false]
  congr 1
  refine ext_getD (by simp [idftL]) fun n hn => ?_
  have hn' : n < x.length := by simpa using hn
  unfold idftL
  rw [getD_map_range _ hn']
  have h1 : (List.mapIdx (fun n v => if n < x.length then v / (x.length : ℂ) else v)
      (List.map (starRingEnd ℂ) (dftL (List.map (starRingEnd ℂ) x)))).getD n 0
      = (List.map (starRingEnd ℂ) (dftL (List.map (starRingEnd ℂ) x))).getD n 0 / (x.length : ℂ) := by
    simp [List.getD, hn']
  rw [h1, getD_conj, dftL_getD _ (by simpa using hn')]
  congr 1
  rw [map_sum]
  simp only [List.length_map]
  refine sum_congr rfl fun k _ => ?_
  rw [getD_conj, map_mul, Complex.conj_conj, e_conj]
  congr 2
  ring

theorem inverse_eq (x : List ℂ) : inverse fourier x = .ok (idftL x) := inverse_of rfl

@[simp] theorem idftL_length (x : List ℂ) : (idftL x).length = x.length := by simp [idftL]

theorem idftL_getD (x : List ℂ) {n : Nat} (h : n < x.length) :
    (idftL x).getD n 0 = (∑ k ∈ range x.length, x.getD k 0 * e x.length ((k : ℤ) * n)) / (x.length : ℂ) := by
  unfold idftL
  rw [getD_map_range _ h]

theorem dvd_sub_iff {N a b : Nat} (ha : a < N) (hb : b < N) : ((N : ℤ) ∣ (a : ℤ) - b) ↔ b = a := by
  constructor
  · intro h
    have := Int.eq_zero_of_abs_lt_dvd h (by rw [abs_lt]; constructor <;> omega)
    omega
  · rintro rfl
    simp

theorem idftL_dftL (x : List ℂ) : idftL (dftL x) = x := by
  refine ext_getD (by simp) fun n hn => ?_
  have hn' : n < x.length := by simpa using hn
  have hN : 0 < x.length := by omega
  have hN' : (x.length : ℂ) ≠ 0 := by exact_mod_cast hN.ne'
  rw [idftL_getD _ (by simpa using hn'), dftL_length]
  rw [sum_congr rfl (g := fun k : ℕ => ∑ m ∈ range x.length, x.getD m 0 * e x.length ((k : ℤ) * ((n : ℤ) - m)))]
  · rw [sum_comm]
    simp only [← mul_sum, e_sum hN]
    rw [sum_congr rfl (g := fun m : ℕ => if m = n then x.getD m 0 * (x.length : ℂ) else 0)]
    · rw [sum_ite_eq' (range x.length) n (fun m => x.getD m 0 * (x.length : ℂ)), if_pos (mem_range.2 hn')]
      field_simp
    · intro m hm
      rw [mem_range] at hm
      simp only [dvd_sub_iff hn' hm]
      split <;> simp
  · intro k hk
    rw [mem_range] at hk
    rw [dftL_getD _ hk, sum_mul]
    refine sum_congr rfl fun m _ => ?_
    rw [mul_assoc, ← e_add]
    congr 2
    ring

theorem dftL_idftL (x : List ℂ) : dftL (idftL x) = x := by
  refine ext_getD (by simp) fun n hn => ?_
  have hn' : n < x.length := by simpa using hn
  have hN : 0 < x.length := by omega
  have hN' : (x.length : ℂ) ≠ 0 := by exact_mod_cast hN.ne'
  rw [dftL_getD _ (by simpa using hn'), idftL_length]
  rw [sum_congr rfl (g := fun k : ℕ => ∑ m ∈ range x.length,
    x.getD m 0 * e x.length ((k : ℤ) * ((m : ℤ) - n)) / (x.length : ℂ))]
  · rw [sum_comm]
    simp only [← mul_sum, ← sum_div, e_sum hN]
    rw [sum_congr rfl (g := fun m : ℕ => if m = n then x.getD m 0 * (x.length : ℂ) else 0)]
    · rw [sum_ite_eq' (range x.length) n (fun m => x.getD m 0 * (x.length : ℂ)),
        if_pos (mem_range.2 hn')]
      field_simp
    · intro m hm
      rw [mem_range] at hm
      simp only [dvd_sub_iff hm hn']
      by_cases h : m = n
      · simp [h]
      · have h' : ¬ n = m := fun hh => h hh.symm
        simp [h, h']
  · intro k hk
    rw [mem_range] at hk
    rw [idftL_getD _ hk, sum_div, sum_mul]
    refine sum_congr rfl fun m _ => ?_
    rw [div_mul_eq_mul_div, mul_assoc, ← e_add]
    congr 3
    ring

/-! ### Circular convolution -/

/-- The periodic extension of a sequence to all integers. -/
noncomputable def per (x : List ℂ) (i : ℤ) : ℂ := x.getD (i % (x.length : ℤ)).toNat 0

theorem per_nat (x : List ℂ) {i : Nat} (h : i < x.length) : per x i = x.getD i 0 := by
  unfold per
  congr 1
  rw [Int.emod_eq_of_lt (by omega) (by omega)]
  simp

theorem per_congr (x : List ℂ) {i j : ℤ} (h : (x.length : ℤ) ∣ i - j) : per x i = per x j := by
  unfold per
  rw [Int.emod_eq_emod_iff_emod_sub_eq_zero.2 (Int.emod_eq_zero_of_dvd h)]

theorem sum_range_zmod {N : Nat} [NeZero N] (h : ℤ → ℂ) :
    ∑ m ∈ range N, h m = ∑ z : ZMod N, h (z.val : ℤ) := by
  obtain ⟨k, rfl⟩ : ∃ k, N = k + 1 := ⟨N - 1, by have := NeZero.pos N; omega⟩
  rw [sum_range]
  rfl

/-- A full period of a periodic function can be summed from any starting point, -/
theorem sum_shift {N : Nat} (h : ℤ → ℂ) (hp : ∀ i j, (N : ℤ) ∣ i - j → h i = h j) (c : ℤ) :
    ∑ m ∈ range N, h (m + c) = ∑ m ∈ range N, h m := by
  rcases Nat.eq_zero_or_pos N with rfl | hN
  · simp
  have : NeZero N := ⟨hN.ne'⟩
  rw [sum_range_zmod (fun i => h (i + c)), sum_range_zmod h]
  refine Fintype.sum_equiv (Equiv.addRight (c : ZMod N)) _ _ fun z => hp _ _ ?_
  rw [← ZMod.intCast_zmod_eq_zero_iff_dvd]
  simp

/-- and in reverse. -/
theorem sum_reflect {N : Nat} (h : ℤ → ℂ) (hp : ∀ i j, (N : ℤ) ∣ i - j → h i = h j) (c : ℤ) :
    ∑ m ∈ range N, h (c - m) = ∑ m ∈ range N, h m := by
  rcases Nat.eq_zero_or_pos N with rfl | hN
  · simp
  have : NeZero N := ⟨hN.ne'⟩
  rw [sum_range_zmod (fun i => h (c - i)), sum_range_zmod h]
  refine Fintype.sum_equiv (Equiv.subLeft (c : ZMod N)) _ _ fun z => hp _ _ ?_
  rw [← ZMod.intCast_zmod_eq_zero_iff_dvd]
  simp

/-- Circular convolution as a plain list. -/
noncomputable def convL (a b : List ℂ) : List ℂ :=
  (List.range a.length).map fun n : Nat => ∑ m ∈ range a.length, per a m * per b ((n : ℤ) - m)

@[simp] theorem convL_length (a b : List ℂ) : (convL a b).length = a.length := by simp [convL]

theorem convL_getD (a b : List ℂ) {n : Nat} (h : n < a.length) :
    (convL a b).getD n 0 = ∑ m ∈ range a.length, per a m * per b ((n : ℤ) - m) := by
  unfold convL
  rw [getD_map_range _ h]

theorem circular_eq {a b : List ℂ} (h : a.length = b.length) : circular a b = .ok (convL a b) := by
  unfold circular convL
  simp only [ne_eq, h, not_true_eq_false, if_false]
  refine fillLoop_ok fun n hn => sumLoop_ok fun m hm => ?_
  rw [rd_ok (by omega), per_nat a (by omega)]
  by_cases hmn : m ≤ n
  · simp only [hmn, if_true]
    rw [rd_ok (by omega)]
    have : (n : ℤ) - m = ((n - m : ℕ) : ℤ) := by omega
    rw [this, per_nat b (by omega)]
    rfl
  · simp only [hmn, if_false]
    rw [rd_ok (by omega)]
    have : per b ((n : ℤ) - m) = per b ((b.length + n - m : ℕ) : ℤ) := by
      apply per_congr
      refine ⟨-1, ?_⟩
      omega
    rw [this, per_nat b (by omega)]
    rfl

theorem circular_ne {a b : List ℂ} (h : a.length ≠ b.length) : circular a b = .throw "runtime_error" := by
  unfold circular
  simp [h]

theorem convL_getD_per (a b : List ℂ) (h : a.length = b.length) {i : ℤ} (hl : 0 < a.length) :
    per (convL a b) i = ∑ m ∈ range a.length, per a m * per b (i - m) := by
  unfold per
  rw [convL_length, convL_getD _ _ (by have := Int.emod_lt_of_pos i (b := (a.length : ℤ)) (by omega); have := Int.emod_nonneg i (b := (a.length : ℤ)) (by omega); omega)]
  refine sum_congr rfl fun m _ => ?_
  have hj : (((i % (a.length : ℤ)).toNat : ℕ) : ℤ) = i % (a.length : ℤ) := by
    have := Int.emod_nonneg i (b := (a.length : ℤ)) (by omega)
    omega
  congr 1
  apply per_congr
  rw [hj, ← h]
  refine ⟨-(i / (a.length : ℤ)), ?_⟩
  have := Int.emod_add_mul_ediv i (a.length : ℤ)
  linear_combination this

/-- The convolution theorem. -/
theorem dftL_convL {a b : List ℂ} (h : a.length = b.length) {k : Nat} (hk : k < a.length) :
    (dftL (convL a b)).getD k 0 = (dftL a).getD k 0 * (dftL b).getD k 0 := by
  have hN : 0 < a.length := by omega
  rw [dftL_getD _ (by simpa using hk), dftL_getD _ hk, dftL_getD _ (by omega), convL_length, ← h, sum_mul_sum]
  rw [sum_congr rfl (g := fun n : ℕ => ∑ m ∈ range a.length,
    (per a m * e a.length (-((k : ℤ) * m))) *
      (per b ((n : ℤ) - m) * e a.length (-((k : ℤ) * ((n : ℤ) - m)))))]
  · rw [sum_comm]
    refine sum_congr rfl fun m hm => ?_
    rw [mem_range] at hm
    simp only [← mul_sum]
    rw [per_nat a hm]
    congr 1
    have hp : ∀ i j : ℤ, (a.length : ℤ) ∣ i - j →
        per b i * e a.length (-((k : ℤ) * i)) = per b j * e a.length (-((k : ℤ) * j)) := by
      intro i j hij
      rw [per_congr b (h ▸ hij)]
      congr 1
      have h1 : e a.length (-((k : ℤ) * i)) = e a.length (-((k : ℤ) * j)) * e a.length (-((k : ℤ) * (i - j))) := by
        rw [← e_add]
        congr 1
        ring
      rw [h1, (e_eq_one hN (-((k : ℤ) * (i - j)))).2 ((hij.mul_left k).neg_right), mul_one]
    have := sum_shift (N := a.length) (fun i => per b i * e a.length (-((k : ℤ) * i))) hp (-m)
    simp only [← sub_eq_add_neg] at this
    rw [this]
    refine sum_congr rfl fun n hn => ?_
    rw [mem_range] at hn
    rw [per_nat b (by omega)]
  · intro n hn
    rw [mem_range] at hn
    rw [convL_getD _ _ hn, sum_mul]
    refine sum_congr rfl fun m _ => ?_
    have : e a.length (-((k : ℤ) * n)) =
        e a.length (-((k : ℤ) * m)) * e a.length (-((k : ℤ) * ((n : ℤ) - m))) := by
      rw [← e_add]
      congr 1
      ring
    rw [this]
    ring

theorem fourierConvolution_eq {F : Transform} {a b : List ℂ}
    (hF : ∀ x : List ℂ, x.length = a.length → F x = fourier x) (h : a.length = b.length) :
    fourierConvolution F a b = .ok (convL a b) := by
  unfold fourierConvolution
  simp only [ne_eq, h, not_true_eq_false, if_false]
  rw [hF a rfl, hF b h.symm, fourier_eq, fourier_eq]
  simp only [Res.ok_bind]
  rw [fillLoop_ok (g := fun k => (dftL (convL a b)).getD k 0) (fun k hk => by
    rw [rd_ok (by simp; omega), rd_ok (by simp; omega)]
    simp only [Res.ok_bind, Res.pure_eq]
    rw [dftL_convL h (by omega)])]
  simp only [Res.ok_bind]
  rw [inverse_of (hF _ (by simp [h]))]
  congr 1
  have : ((List.range b.length).map fun k => (dftL (convL a b)).getD k 0) = dftL (convL a b) := by
    refine ext_getD (by simp [h]) fun i hi => ?_
    rw [getD_map_range _ (by simpa using hi)]
  rw [this, idftL_dftL]

end K52.Dsp
