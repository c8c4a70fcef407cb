import Verif.Lemmas.Dsp

/-!
# C49-C51: Fourier transforms and circular convolution

Sequences are lists of complex numbers, `x.getD n 0` is the element `n`.  An outcome `.ok y` says that the call returned
`y` without exception and without reading or writing outside a vector.
-/

namespace K52.Dsp

open Complex Finset

/-! ## C49 -/

/-- The forward transform returns a sequence of the same length whose element `k` is the textbook DFT sum. -/
theorem C49_forward_formula (x : List ℂ) :
    ∃ y, fourier x = .ok y ∧ y.length = x.length ∧
      ∀ k, k < x.length → y.getD k 0 =
        ∑ n ∈ range x.length, x.getD n 0 * Complex.exp (-(2 * Real.pi * I * k * n / x.length)) := by
  refine ⟨dftL x, fourier_eq x, by simp, fun k hk => ?_⟩
  rw [dftL_getD x hk]
  refine sum_congr rfl fun n _ => ?_
  unfold e
  congr 2
  push_cast
  ring

/-- The inverse transform is the textbook inverse DFT. -/
theorem C49_inverse_formula (x : List ℂ) :
    ∃ y, inverse fourier x = .ok y ∧ y.length = x.length ∧
      ∀ n, n < x.length → y.getD n 0 =
        (∑ k ∈ range x.length, x.getD k 0 * Complex.exp (2 * Real.pi * I * k * n / x.length)) / x.length := by
  refine ⟨idftL x, inverse_eq x, by simp, fun n hn => ?_⟩
  rw [idftL_getD x hn]
  congr 1
  refine sum_congr rfl fun k _ => ?_
  unfold e
  congr 2
  push_cast
  ring

/-- Inverse after forward is the identity, for every sequence. -/
theorem C49_inverse_forward (x : List ℂ) : (fourier x >>= inverse fourier) = .ok x := by
  rw [fourier_eq, Res.ok_bind, inverse_eq, idftL_dftL]

/-- Forward after inverse is the identity, for every sequence. -/
theorem C49_forward_inverse (x : List ℂ) : (inverse fourier x >>= fourier) = .ok x := by
  rw [inverse_eq, Res.ok_bind, fourier_eq, dftL_idftL]

theorem getD_zipWith {f : ℂ → ℂ → ℂ} {x y : List ℂ} {i : Nat} (hx : i < x.length) (hy : i < y.length) :
    (List.zipWith f x y).getD i 0 = f (x.getD i 0) (y.getD i 0) := by
  simp [List.getD, hx, hy]

/-- The forward transform is linear. -/
theorem C49_linear (c : ℂ) (x y : List ℂ) (h : x.length = y.length) :
    ∃ X Y, fourier x = .ok X ∧ fourier y = .ok Y ∧
      fourier (List.zipWith (fun a b => c * a + b) x y) = .ok (List.zipWith (fun a b => c * a + b) X Y) := by
  refine ⟨dftL x, dftL y, fourier_eq x, fourier_eq y, ?_⟩
  rw [fourier_eq]
  congr 1
  have hl : (List.zipWith (fun a b => c * a + b) x y).length = x.length := by simp [h]
  refine ext_getD (by simp) fun k hk => ?_
  have hk' : k < x.length := by rw [dftL_length, hl] at hk; exact hk
  rw [getD_zipWith (by simpa using hk') (by simp; omega), dftL_getD _ (by omega), dftL_getD _ hk',
    dftL_getD _ (by omega), hl, ← h, mul_sum, ← sum_add_distrib]
  refine sum_congr rfl fun n hn => ?_
  rw [mem_range] at hn
  rw [getD_zipWith hn (by omega)]
  ring

/-- Parseval: the forward transform multiplies the energy by the length. -/
theorem C49_parseval (x X : List ℂ) (h : fourier x = .ok X) :
    ∑ k ∈ range x.length, ‖X.getD k 0‖ ^ 2 = x.length * ∑ n ∈ range x.length, ‖x.getD n 0‖ ^ 2 := by
  rw [fourier_eq] at h
  injection h with h
  subst h
  rcases Nat.eq_zero_or_pos x.length with h0 | hN
  · simp [h0]
  have hc : (∑ k ∈ range x.length, (dftL x).getD k 0 * (starRingEnd ℂ) ((dftL x).getD k 0)) =
      (x.length : ℂ) * ∑ n ∈ range x.length, x.getD n 0 * (starRingEnd ℂ) (x.getD n 0) := by
    rw [sum_congr rfl (g := fun k : ℕ => ∑ n ∈ range x.length,
      (∑ m ∈ range x.length, x.getD n 0 * (starRingEnd ℂ) (x.getD m 0) * e x.length ((k : ℤ) * ((m : ℤ) - n))))]
    · rw [sum_comm, mul_sum]
      refine sum_congr rfl fun n hn => ?_
      rw [mem_range] at hn
      rw [sum_comm]
      simp only [← mul_sum, e_sum hN]
      rw [sum_congr rfl (g := fun m : ℕ => if m = n then x.getD n 0 * (starRingEnd ℂ) (x.getD m 0) * (x.length : ℂ) else 0)]
      · rw [sum_ite_eq' (range x.length) n
          (fun m => x.getD n 0 * (starRingEnd ℂ) (x.getD m 0) * (x.length : ℂ)), if_pos (mem_range.2 hn)]
        ring
      · intro m hm
        rw [mem_range] at hm
        have : ((x.length : ℤ) ∣ (m : ℤ) - n) ↔ m = n := by
          rw [dvd_sub_iff hm hn]
          exact eq_comm
        simp only [this]
        split <;> simp
    · intro k hk
      rw [mem_range] at hk
      rw [dftL_getD x hk, map_sum, sum_mul_sum]
      refine sum_congr rfl fun n _ => sum_congr rfl fun m _ => ?_
      rw [map_mul, e_conj]
      have : e x.length ((k : ℤ) * ((m : ℤ) - n)) = e x.length (-((k : ℤ) * n)) * e x.length (-(-((k : ℤ) * m))) := by
        rw [← e_add]
        congr 1
        ring
      rw [this]
      ring
  simp only [Complex.mul_conj, Complex.normSq_eq_norm_sq] at hc
  exact_mod_cast hc

/-- The FFTW based transform (its FFTW part trusted): construction fails exactly for size 0; the object round-trips every
sequence of its own size, and both directions throw on every other size. -/
theorem C49_fast_fourier (size : Nat) :
    (size = 0 → (fastFourier true size).threw) ∧
    (0 < size → ∃ F, fastFourier true size = .ok F ∧
      (∀ x : List ℂ, x.length = size → F x = fourier x ∧ (F x >>= inverse F) = .ok x ∧ (inverse F x >>= F) = .ok x) ∧
      (∀ x : List ℂ, x.length ≠ size → (F x).threw ∧ (inverse F x).threw)) := by
  constructor
  · intro h
    simp [fastFourier, h]
  · intro h
    refine ⟨_, by simp only [fastFourier, if_true]; rw [if_neg h.ne'], ?_, ?_⟩
    · intro x hx
      have h1 : ∀ y : List ℂ, y.length = size →
          (if size ≠ y.length then (Res.throw "invalid_argument" : Res (List ℂ)) else fourier y) = fourier y := by
        intro y hy
        simp [hy]
      refine ⟨h1 x hx, ?_, ?_⟩
      · simp only [h1 x hx]
        rw [fourier_eq, Res.ok_bind, inverse_of (by exact h1 _ (by simp [hx])), idftL_dftL]
      · rw [inverse_of (by exact h1 _ (by simp [hx])), Res.ok_bind, h1 _ (by simp [hx]), fourier_eq, dftL_idftL]
    · intro x hx
      have hx' : size ≠ x.length := fun hh => hx hh.symm
      constructor
      · simp [hx']
      · unfold inverse
        simp only [conjugate_eq, Res.ok_bind, List.length_map]
        rw [if_pos hx']
        simp

/-- Without FFTW every transformation throws. -/
theorem C49_without_fftw (size : Nat) :
    ∃ F, fastFourier false size = .ok F ∧ ∀ x, (F x).threw ∧ (inverse F x).threw ∧
      ∀ y, (fourierConvolution F x y).threw := by
  refine ⟨_, by simp only [fastFourier]; rfl, fun x => ⟨by simp, ?_, fun y => ?_⟩⟩
  · unfold inverse
    simp [conjugate_eq]
  · unfold fourierConvolution
    split <;> simp

/-! ## C50 -/

/-- Both convolutions have the same outcome on all arguments: the same sequence, or an exception when the lengths
differ. -/
theorem C50_fourier_equals_direct (a b : List ℂ) : fourierConvolution fourier a b = circular a b := by
  by_cases h : a.length = b.length
  · rw [fourierConvolution_eq (fun _ _ => rfl) h, circular_eq h]
  · rw [circular_ne h]
    unfold fourierConvolution
    simp [h]

/-- The direct convolution is the textbook sum over indices modulo the length; different lengths are rejected. -/
theorem C50_direct_formula (a b : List ℂ) :
    (a.length ≠ b.length → (circular a b).threw) ∧
    (a.length = b.length → ∃ c, circular a b = .ok c ∧ c.length = a.length ∧
      ∀ n, n < a.length → c.getD n 0 =
        ∑ m ∈ range a.length, a.getD m 0 * b.getD ((n + a.length - m) % a.length) 0) := by
  constructor
  · intro h
    rw [circular_ne h]
    simp
  · intro h
    refine ⟨convL a b, circular_eq h, by simp, fun n hn => ?_⟩
    rw [convL_getD _ _ hn]
    refine sum_congr rfl fun m hm => ?_
    rw [mem_range] at hm
    rw [per_nat a hm]
    congr 1
    unfold per
    congr 1
    rw [← h]
    have : ((n : ℤ) - m) % (a.length : ℤ) = ((n + a.length - m : ℕ) : ℤ) % (a.length : ℤ) := by
      have h2 : ((n + a.length - m : ℕ) : ℤ) = (n : ℤ) - m + a.length := by omega
      rw [h2]
      simp
    rw [this]
    norm_cast

/-- The FFTW based convolution object of size `size` agrees with the direct convolution on sequences of that size and
throws on everything else. -/
theorem C50_fast_fourier (size : Nat) (F : Transform) (hF : fastFourier true size = .ok F) (a b : List ℂ) :
    (a.length = size ∧ b.length = size → fourierConvolution F a b = circular a b) ∧
    (¬ (a.length = size ∧ b.length = size) → (fourierConvolution F a b).threw) := by
  have hs : 0 < size := by
    rcases Nat.eq_zero_or_pos size with h | h
    · simp [fastFourier, h] at hF
    · exact h
  obtain ⟨F', hF', h1, h2⟩ := (C49_fast_fourier size).2 hs
  rw [hF] at hF'
  injection hF' with hF'
  subst hF'
  constructor
  · rintro ⟨ha, hb⟩
    rw [circular_eq (by omega)]
    exact fourierConvolution_eq (fun x hx => (h1 x (by omega)).1) (by omega)
  · intro hn
    unfold fourierConvolution
    by_cases h : a.length = b.length
    · have ha : a.length ≠ size := fun hh => hn ⟨hh, by omega⟩
      have := (h2 a ha).1
      simp only [ne_eq, h, not_true_eq_false, if_false]
      cases hfa : F a with
      | ok y => simp [hfa] at this
      | throw w => simp
      | ub => simp [hfa] at this
    · simp [h]

/-! ## C51 -/

theorem C51_commutative (a b : List ℂ) : circular a b = circular b a := by
  by_cases h : a.length = b.length
  · rw [circular_eq h, circular_eq h.symm]
    congr 1
    refine ext_getD (by simp [h]) fun n hn => ?_
    have hn' : n < a.length := by simpa using hn
    rw [convL_getD _ _ hn', convL_getD _ _ (by omega)]
    have := sum_reflect (N := a.length) (fun i => per a ((n : ℤ) - i) * per b i) (by
      intro i j hij
      rw [per_congr b (h ▸ hij), per_congr a (i := (n : ℤ) - i) (j := (n : ℤ) - j)]
      have : (n : ℤ) - i - (n - j) = -(i - j) := by ring
      rw [this]
      exact hij.neg_right) n
    simp only [sub_sub_cancel] at this
    rw [this, h]
    refine sum_congr rfl fun m _ => mul_comm _ _
  · rw [circular_ne h, circular_ne (fun hh => h hh.symm)]

/-- Linear in the first argument (and, by commutativity, in the second). -/
theorem C51_bilinear (c : ℂ) (a a' b r r' : List ℂ) (h : circular a b = .ok r) (h' : circular a' b = .ok r') :
    circular (List.zipWith (fun u v => c * u + v) a a') b = .ok (List.zipWith (fun u v => c * u + v) r r') := by
  by_cases h1 : a.length = b.length
  swap
  · rw [circular_ne h1] at h; exact absurd h (by simp)
  by_cases h2 : a'.length = b.length
  swap
  · rw [circular_ne h2] at h'; exact absurd h' (by simp)
  rw [circular_eq h1] at h
  rw [circular_eq h2] at h'
  injection h with h
  injection h' with h'
  subst h h'
  have hl : (List.zipWith (fun u v => c * u + v) a a').length = a.length := by simp; omega
  rw [circular_eq (by omega)]
  congr 1
  refine ext_getD (by simp) fun n hn => ?_
  have hn' : n < a.length := by rw [convL_length, hl] at hn; exact hn
  rw [convL_getD _ _ (by omega), getD_zipWith (by simpa using hn') (by simp; omega), convL_getD _ _ hn',
    convL_getD _ _ (by omega), hl, mul_sum, show a'.length = a.length by omega, ← sum_add_distrib]
  refine sum_congr rfl fun m hm => ?_
  rw [mem_range] at hm
  rw [per_nat _ (by omega), per_nat _ hm, per_nat _ (by omega), getD_zipWith hm (by omega)]
  ring

theorem per_rotate (a : List ℂ) (j : Nat) (i : ℤ) : per (a.rotate j) i = per a (i + j) := by
  rcases Nat.eq_zero_or_pos a.length with h0 | hN
  · have : a = [] := List.length_eq_zero_iff.1 h0
    subst this
    simp [per]
  have h1 := Int.emod_nonneg i (b := (a.length : ℤ)) (by omega)
  have h2 := Int.emod_lt_of_pos i (b := (a.length : ℤ)) (by omega)
  have hk : (i % (a.length : ℤ)).toNat < a.length := by omega
  unfold per
  rw [List.length_rotate]
  have hr : (a.rotate j).getD (i % (a.length : ℤ)).toNat 0 = a.getD (((i % (a.length : ℤ)).toNat + j) % a.length) 0 := by
    have h3 : ((i % (a.length : ℤ)).toNat + j) % a.length < a.length := Nat.mod_lt _ hN
    simp [List.getD, hk, h3, List.getElem_rotate]
  rw [hr]
  congr 1
  have : ((i + j) % (a.length : ℤ)) = ((((i % (a.length : ℤ)).toNat + j) % a.length : ℕ) : ℤ) := by
    push_cast
    rw [Int.toNat_of_nonneg h1, Int.emod_add_emod]
  rw [this, Int.toNat_natCast]

/-- Rotating one argument rotates the result by the same amount. -/
theorem C51_shift (a b r : List ℂ) (j : Nat) (h : circular a b = .ok r) :
    circular (a.rotate j) b = .ok (r.rotate j) := by
  by_cases h1 : a.length = b.length
  swap
  · rw [circular_ne h1] at h; exact absurd h (by simp)
  rw [circular_eq h1] at h
  injection h with h
  subst h
  rw [circular_eq (by simpa using h1)]
  congr 1
  refine ext_getD (by simp) fun n hn => ?_
  have hn' : n < a.length := by simpa using hn
  rw [convL_getD _ _ (by simpa using hn'), List.length_rotate, ← per_nat ((convL a b).rotate j) (by simpa using hn'),
    per_rotate, convL_getD_per a b h1 (by omega)]
  have := sum_shift (N := a.length) (fun i => per a i * per b ((n : ℤ) + j - i)) (by
    intro i i' hii
    rw [per_congr a hii, per_congr b (i := (n : ℤ) + j - i) (j := (n : ℤ) + j - i')]
    have : (n : ℤ) + j - i - (n + j - i') = -(i - i') := by ring
    rw [this, ← h1]
    exact hii.neg_right) j
  rw [← this]
  refine sum_congr rfl fun m _ => ?_
  rw [per_rotate]
  congr 2
  ring

/-- The unit impulse is the identity. -/
theorem C51_impulse (b : List ℂ) (k : Nat) (h : b.length = k + 1) :
    circular (1 :: List.replicate k 0) b = .ok b := by
  rw [circular_eq (by simp [h])]
  congr 1
  refine ext_getD (by simp [h]) fun n hn => ?_
  have hn' : n < k + 1 := by simpa using hn
  rw [convL_getD _ _ (by simpa using hn')]
  simp only [List.length_cons, List.length_replicate]
  rw [sum_eq_single 0]
  · rw [per_nat _ (by simp)]
    simp only [Nat.cast_zero, sub_zero]
    rw [per_nat b (by omega)]
    simp
  · intro m hm hm0
    rw [mem_range] at hm
    rw [per_nat _ (by simpa using hm)]
    obtain ⟨m', rfl⟩ : ∃ m', m = m' + 1 := ⟨m - 1, by omega⟩
    have : (1 :: List.replicate k (0 : ℂ)).getD (m' + 1) 0 = 0 := by
      simp [List.getD, List.getElem?_replicate]
      split <;> simp
    rw [this, zero_mul]
  · intro hh
    simp at hh

/-- Convolution is associative. -/
theorem C51_associative (a b c ab bc : List ℂ) (hab : circular a b = .ok ab) (hbc : circular b c = .ok bc) :
    circular ab c = circular a bc := by
  by_cases h1 : a.length = b.length
  swap
  · rw [circular_ne h1] at hab; exact absurd hab (by simp)
  by_cases h2 : b.length = c.length
  swap
  · rw [circular_ne h2] at hbc; exact absurd hbc (by simp)
  rw [circular_eq h1] at hab
  rw [circular_eq h2] at hbc
  injection hab with hab
  injection hbc with hbc
  subst hab hbc
  rw [circular_eq (by simp; omega), circular_eq (by simp; omega)]
  congr 1
  refine ext_getD (by simp) fun n hn => ?_
  have hn' : n < a.length := by simpa using hn
  rw [convL_getD _ _ (by simpa using hn'), convL_getD _ _ hn', convL_length]
  simp only [convL_getD_per a b h1 (show 0 < a.length by omega), convL_getD_per b c h2 (show 0 < b.length by omega)]
  simp only [sum_mul]
  rw [sum_comm]
  refine sum_congr rfl fun m _ => ?_
  simp only [mul_assoc, ← mul_sum]
  congr 1
  have := sum_shift (N := a.length) (fun i => per b (i - m) * per c ((n : ℤ) - i)) (by
    intro i i' hii
    rw [per_congr b (i := i - m) (j := i' - m), per_congr c (i := (n : ℤ) - i) (j := (n : ℤ) - i')]
    · have : (n : ℤ) - i - (n - i') = -(i - i') := by ring
      rw [this, ← h2, ← h1]
      exact hii.neg_right
    · have : i - (m : ℤ) - (i' - m) = i - i' := by ring
      rw [this, ← h1]
      exact hii) m
  rw [← this, ← h1]
  refine sum_congr rfl fun l _ => ?_
  congr 1
  · congr 1; ring
  · congr 1; ring

/-! ## Concrete cases -/

example : circular ([1, 2, 3] : List ℂ) [4, 5, 6] = .ok [31, 31, 28] := by
  rw [circular_eq (by simp)]
  simp [convL, per, List.range_succ, Finset.sum_range_succ]
  norm_num

example : fourier [1, 1] = .ok [2, 0] := by
  rw [fourier_eq]
  have : Complex.exp (-(2 * Real.pi * I) / 2) = -1 := by
    rw [show (-(2 * Real.pi * I) / 2 : ℂ) = -(Real.pi * I) by ring, Complex.exp_neg, Complex.exp_pi_mul_I]
    norm_num
  simp [dftL, List.range_succ, Finset.sum_range_succ, this]
  norm_num

end K52.Dsp
