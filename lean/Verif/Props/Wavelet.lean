import Verif.Props.Dsp
import Verif.Props.Cache

/-!
# C52, C53: wavelet scales and the fast wavelet transform
-/

namespace K52.Dsp

open Complex Finset

/-! ## C52 -/

/-- `LinearScale` accepts exactly `0 < min < max` with at least two scales, and otherwise throws. -/
theorem C52_linear_accepts (lo hi : ℝ) (count : Nat) :
    (0 < lo ∧ lo < hi ∧ 2 ≤ count → ∃ s, linearScales lo hi count = .ok s) ∧
    (¬ (0 < lo ∧ lo < hi ∧ 2 ≤ count) → (linearScales lo hi count).threw) := by
  unfold linearScales
  constructor
  · rintro ⟨h1, h2, h3⟩
    rw [if_neg (by linarith), if_neg (by linarith), if_neg (by linarith), if_neg (by omega)]
    exact ⟨_, rfl⟩
  · intro h
    split
    · simp
    · split
      · simp
      · split
        · simp
        · split
          · simp
          · exfalso
            apply h
            refine ⟨by linarith, by linarith, by omega⟩

/-- **C52 (messages).** The exception names the first condition that fails. -/
theorem C52_linear_message (lo hi : ℝ) (count : Nat) :
    (lo ≤ 0 → linearScales lo hi count = .throw "min_scale <= 0") ∧
    (0 < lo → hi ≤ 0 → linearScales lo hi count = .throw "max_scale <= 0") ∧
    (0 < lo → 0 < hi → hi ≤ lo → linearScales lo hi count = .throw "min_scale >= max_scale") ∧
    (0 < lo → lo < hi → count < 2 → linearScales lo hi count = .throw "scale_count < 2") := by
  unfold linearScales
  refine ⟨fun h => if_pos h, fun h1 h2 => ?_, fun h1 h2 h3 => ?_, fun h1 h2 h3 => ?_⟩
  · rw [if_neg (by linarith), if_pos h2]
  · rw [if_neg (by linarith), if_neg (by linarith), if_pos h3]
  · rw [if_neg (by linarith), if_neg (by linarith), if_neg (by linarith), if_pos h3]

/-- The scales of a `LinearScale`: the requested number, from `min` to `max` inclusive, strictly increasing and equally
spaced. -/
theorem C52_linear_scales (lo hi : ℝ) (count : Nat) (s : List ℝ) (h : linearScales lo hi count = .ok s) :
    s.length = count ∧ s.head? = some lo ∧ s.getLast? = some hi ∧ s.Pairwise (· < ·) ∧
      (∀ v ∈ s, 0 < v ∧ lo ≤ v ∧ v ≤ hi) ∧
      ∀ i a b, s[i]? = some a → s[i + 1]? = some b → b - a = (hi - lo) / (count - 1) := by
  have hc : 0 < lo ∧ lo < hi ∧ 2 ≤ count := by
    by_contra hn
    have := (C52_linear_accepts lo hi count).2 hn
    rw [h] at this
    simp at this
  obtain ⟨h1, h2, h3⟩ := hc
  unfold linearScales at h
  rw [if_neg (by linarith), if_neg (by linarith), if_neg (by linarith), if_neg (by omega)] at h
  injection h with h
  have hd : (0 : ℝ) < ((count - 1 : Nat) : ℝ) := by
    have : 0 < count - 1 := by omega
    exact_mod_cast this
  have hd' : ((count - 1 : Nat) : ℝ) = (count : ℝ) - 1 := by
    rw [Nat.cast_sub (by omega)]
    simp
  have hstep : 0 < (hi - lo) / ((count - 1 : Nat) : ℝ) := div_pos (by linarith) hd
  set st := (hi - lo) / ((count - 1 : Nat) : ℝ) with hst
  have hlast : lo + st * ((count - 1 : Nat) : ℝ) = hi := by
    rw [hst]
    field_simp
    ring
  subst h
  refine ⟨by simp, ?_, ?_, ?_, ?_, ?_⟩
  · obtain ⟨c, rfl⟩ : ∃ c, count = c + 1 := ⟨count - 1, by omega⟩
    simp [List.range_succ_eq_map]
  · obtain ⟨c, rfl⟩ : ∃ c, count = c + 1 := ⟨count - 1, by omega⟩
    rw [List.range_succ, List.map_append]
    simpa using hlast
  · rw [List.pairwise_map]
    refine List.pairwise_lt_range.imp ?_
    intro a b hab
    have : (a : ℝ) < b := by exact_mod_cast hab
    nlinarith
  · intro v hv
    rw [List.mem_map] at hv
    obtain ⟨i, hi', rfl⟩ := hv
    rw [List.mem_range] at hi'
    have hi0 : (0 : ℝ) ≤ i := by positivity
    have hi1 : (i : ℝ) ≤ ((count - 1 : Nat) : ℝ) := by
      have : i ≤ count - 1 := by omega
      exact_mod_cast this
    refine ⟨by nlinarith, by nlinarith, by nlinarith⟩
  · intro i a b ha hb
    simp only [List.getElem?_map, Option.map_eq_some_iff] at ha hb
    obtain ⟨i1, hi1, rfl⟩ := ha
    obtain ⟨i2, hi2, rfl⟩ := hb
    rw [List.getElem?_eq_some_iff] at hi1 hi2
    obtain ⟨_, hi1⟩ := hi1
    obtain ⟨_, hi2⟩ := hi2
    rw [List.getElem_range] at hi1 hi2
    subst hi1 hi2
    rw [← hd', ← hst]
    push_cast
    ring

example : linearScales 1 3 3 = .ok [1, 2, 3] := by
  norm_num [linearScales, List.range_succ]

theorem logLoop_length (n : Nat) (s : P2) : (logLoop n s).length = n := by
  induction n generalizing s with
  | zero => rfl
  | succ n ih => simp [logLoop, ih]

theorem logLoop_get (n i : Nat) (s : P2) (h : i < n) : (logLoop n s)[i]? = some (P2.dbl^[i] s) := by
  induction n generalizing s i with
  | zero => omega
  | succ n ih =>
    cases i with
    | zero => simp [logLoop]
    | succ i => simp [logLoop, ih i s.dbl (by omega), Function.iterate_succ]

theorem dbl_zero (i : Nat) : P2.dbl^[i] .zero = .zero := by
  induction i with
  | zero => rfl
  | succ i ih => rw [Function.iterate_succ_apply', ih]; rfl

theorem dbl_round (e : Int) (h : -1074 ≤ e) (i : Nat) : P2.dbl^[i] (P2.round e) = P2.round (e + i) := by
  induction i with
  | zero => simp
  | succ i ih =>
    rw [Function.iterate_succ_apply', ih]
    by_cases hb : e + i > 1023
    · have h1 : P2.round (e + i) = .inf := by
        unfold P2.round
        rw [if_neg (by omega), if_pos hb]
      have h2 : P2.round (e + (i + 1 : ℕ)) = .inf := by
        unfold P2.round
        rw [if_neg (by push_cast; omega), if_pos (by push_cast; omega)]
      rw [h1, h2]
      rfl
    · have h1 : P2.round (e + i) = .pow2 (e + i) := by
        unfold P2.round
        rw [if_neg (by omega), if_neg hb]
      rw [h1]
      simp only [P2.dbl]
      congr 1
      push_cast
      ring

/-- `LogarithmicScale`, in IEEE binary64 arithmetic: exponents out of order are rejected; a range of more than `2^31 - 1`
exponents overflows the `int` size; otherwise there is one scale per exponent. -/
theorem C52_log_outcome (a b : Int) :
    (b ≤ a → (logScales a b).threw) ∧
    (a < b → b - a + 1 ≤ 2147483647 → ∃ s, logScales a b = .ok s ∧ (s.length : Int) = b - a + 1) ∧
    (a < b → 2147483647 < b - a + 1 → logScales a b = .ub) := by
  unfold logScales
  refine ⟨fun h => by rw [if_pos (by omega)]; simp, fun h h2 => ?_, fun h h2 => ?_⟩
  · rw [if_neg (by omega)]
    unfold int32
    rw [if_pos (by omega)]
    simp only [Res.ok_bind]
    rw [if_pos (by omega)]
    simp only [Res.ok_bind]
    refine ⟨_, rfl, ?_⟩
    rw [logLoop_length]
    omega
  · rw [if_neg (by omega)]
    unfold int32
    by_cases h3 : b - a ≤ 2147483647
    · rw [if_pos (by omega)]
      simp only [Res.ok_bind]
      rw [if_neg (by omega)]
      rfl
    · rw [if_neg (by omega)]
      rfl

/-- The scales of a `LogarithmicScale` whose exponents fit a `double`: scale number `i` is exactly `2^(min+i)`, so they are
positive, strictly increasing, each twice the previous one, from `2^min` to `2^max`. -/
theorem C52_log_scales (a b : Int) (s : List P2) (h : logScales a b = .ok s) (ha : -1074 ≤ a) (hb : b ≤ 1023) :
    s.map P2.real? = (List.range (b - a + 1).toNat).map (fun i : Nat => some ((2 : ℝ) ^ (a + i))) := by
  have hlt : a < b := by
    by_contra hn
    have := (C52_log_outcome a b).1 (by omega)
    rw [h] at this
    simp at this
  unfold logScales at h
  rw [if_neg (by omega)] at h
  unfold int32 at h
  rw [if_pos (by omega)] at h
  simp only [Res.ok_bind] at h
  rw [if_pos (by omega)] at h
  simp only [Res.ok_bind, Res.ok.injEq] at h
  subst h
  apply List.ext_getElem?
  intro i
  simp only [List.getElem?_map]
  by_cases hi : i < (b - a + 1).toNat
  · rw [logLoop_get _ _ _ hi, dbl_round a ha]
    have : P2.round (a + i) = .pow2 (a + i) := by
      unfold P2.round
      rw [if_neg (by omega), if_neg (by omega)]
    rw [this]
    simp [hi, P2.real?]
  · rw [List.getElem?_eq_none (by rw [logLoop_length]; omega), List.getElem?_eq_none (by simp; omega)]
    rfl

/-- With a minimal exponent below the range of `double` every scale is zero (also those that would be representable), and
with a maximal exponent above it the scales from `2^1024` on are infinite. -/
theorem C52_log_scales_out_of_range (a b : Int) (s : List P2) (h : logScales a b = .ok s) :
    (a < -1074 → ∀ v ∈ s, v = .zero ∧ v.real? = some 0) ∧
    (-1074 ≤ a → ∀ (i : Nat) v, s[i]? = some v → a + i > 1023 → v = .inf ∧ v.real? = none) := by
  have hlt : a < b := by
    by_contra hn
    have := (C52_log_outcome a b).1 (by omega)
    rw [h] at this
    simp at this
  have hle : b - a + 1 ≤ 2147483647 := by
    by_contra hn
    have := (C52_log_outcome a b).2.2 hlt (by omega)
    rw [h] at this
    simp at this
  unfold logScales at h
  rw [if_neg (by omega)] at h
  unfold int32 at h
  rw [if_pos (by omega)] at h
  simp only [Res.ok_bind] at h
  rw [if_pos (by omega)] at h
  simp only [Res.ok_bind, Res.ok.injEq] at h
  subst h
  constructor
  · intro ha v hv
    rw [List.mem_iff_getElem?] at hv
    obtain ⟨i, hi⟩ := hv
    have hi' : i < (b - a + 1).toNat := by
      by_contra hn
      rw [List.getElem?_eq_none (by rw [logLoop_length]; omega)] at hi
      cases hi
    have h0 : P2.round a = .zero := by
      unfold P2.round
      rw [if_pos ha]
    rw [logLoop_get _ _ _ hi', h0, dbl_zero] at hi
    rw [← Option.some.inj hi]
    exact ⟨rfl, rfl⟩
  · intro ha i v hi hbig
    have hi' : i < (b - a + 1).toNat := by
      by_contra hn
      rw [List.getElem?_eq_none (by rw [logLoop_length]; omega)] at hi
      cases hi
    rw [logLoop_get _ _ _ hi', dbl_round a ha] at hi
    have h1 : P2.round (a + i) = .inf := by
      unfold P2.round
      rw [if_neg (by omega), if_pos hbig]
    rw [h1] at hi
    rw [← Option.some.inj hi]
    exact ⟨rfl, rfl⟩

example : logScales (-1) 2 = .ok [.pow2 (-1), .pow2 0, .pow2 1, .pow2 2] := by decide

/-! ## C53 -/

/-- Specification: the signed circular distance from position `k` to position `m` in a sequence of length `N`, in
`(-N/2, N/2]`. -/
def dist (N m k : Nat) : ℤ := -Int.bmod ((k : ℤ) - m) N

/-- Specification: element `k` of the row for one scale is the correlation of the signal with the conjugated wavelet,
centred at `k` and scaled; the wavelet is sampled at the circular distances, shifted by half a sample when the
length is odd. -/
noncomputable def refRow (psi : ℝ → ℂ) (x : List ℂ) (scale : ℝ) : List ℂ :=
  (List.range x.length).map fun k : Nat =>
    ∑ m ∈ range x.length, x.getD m 0 *
      (starRingEnd ℂ) (psi (((dist x.length m k : ℝ) + if x.length % 2 = 1 then 1 / 2 else 0) / scale) / (Real.sqrt scale : ℂ))

theorem dist_range (N m k : Nat) (hN : 0 < N) :
    -(N : ℤ) < 2 * dist N m k ∧ 2 * dist N m k ≤ N ∧ (N : ℤ) ∣ dist N m k - ((m : ℤ) - k) := by
  unfold dist
  have h1 := Int.le_bmod (x := (k : ℤ) - m) hN
  have h2 := Int.bmod_lt (x := (k : ℤ) - m) hN
  have h3 := Int.dvd_bmod_sub_self (x := (k : ℤ) - m) (m := N)
  refine ⟨by omega, by omega, ?_⟩
  have : -((k : ℤ) - m).bmod N - (m - k) = -(((k : ℤ) - m).bmod N - (k - m)) := by ring
  rw [this]
  exact h3.neg_right

@[simp] theorem samples_length (psi : ℝ → ℂ) (s : ℝ) (N : Nat) : (samples psi s N).length = N := by simp [samples]

/-- The convolution with the samples, rotated by half the length, is the reference row. -/
theorem conv_samples (psi : ℝ → ℂ) (x : List ℂ) (s : ℝ) :
    (convL x (samples psi s x.length)).rotate (x.length / 2) = refRow psi x s := by
  refine ext_getD (by simp [refRow]) fun k hk => ?_
  have hk' : k < x.length := by simpa using hk
  have hN : 0 < x.length := by omega
  have hNr : (x.length : ℝ) ≠ 0 := by exact_mod_cast hN.ne'
  unfold refRow
  rw [getD_map_range _ hk', ← per_nat _ (by simpa using hk'), per_rotate, convL_getD_per _ _ (by simp) hN]
  refine sum_congr rfl fun m hm => ?_
  rw [mem_range] at hm
  rw [per_nat x hm]
  congr 1
  obtain ⟨d1, d2, d3⟩ := dist_range x.length m k hN
  set d := dist x.length m k with hd
  -- the sample index
  have hj : ∃ j : Nat, j < x.length ∧ (j : ℤ) = (x.length / 2 : ℕ) - d := by
    refine ⟨((x.length / 2 : ℕ) - d).toNat, ?_, ?_⟩ <;> omega
  obtain ⟨j, hjN, hj⟩ := hj
  have hcong : per (samples psi s x.length) ((k : ℤ) + (x.length / 2 : ℕ) - m) = per (samples psi s x.length) (j : ℤ) := by
    apply per_congr
    rw [samples_length, hj]
    have : (k : ℤ) + (x.length / 2 : ℕ) - m - ((x.length / 2 : ℕ) - d) = d - (m - k) := by ring
    rw [this]
    exact d3
  rw [hcong, per_nat _ (by simpa using hjN)]
  unfold samples
  rw [getD_map_range _ hjN]
  simp only [scaledValue]
  congr 4
  have hjr : (j : ℝ) = ((x.length / 2 : ℕ) : ℝ) - (d : ℝ) := by
    have h5 := congrArg (fun z : ℤ => (z : ℝ)) hj
    simp only [Int.cast_natCast, Int.cast_sub] at h5
    exact h5
  rw [hjr]
  split
  next hodd =>
    have : (x.length : ℝ) = 2 * ((x.length / 2 : ℕ) : ℝ) + 1 := by
      have : x.length = 2 * (x.length / 2) + 1 := by omega
      exact_mod_cast this
    rw [this]
    ring
  next heven =>
    have : (x.length : ℝ) = 2 * ((x.length / 2 : ℕ) : ℝ) := by
      have : x.length = 2 * (x.length / 2) := by omega
      exact_mod_cast this
    rw [this]
    ring

variable {W : Type}

/-- Every cached value is right for its key, and no usage counter exceeds `n`. -/
def Inv (value : W → ℝ → ℂ) (n : Nat) : Option (WCache W) → Prop
  | none => True
  | some c => Cache.WF c ∧ (∀ w s N v, Cache.absV c (w, s, N) = some v → v = samples (value w) s N) ∧
      ∀ k st, AMap.get? c.map k = some st → st.usage ≤ n

theorem Inv.mono {value : W → ℝ → ℂ} {n m : Nat} {c : Option (WCache W)} (h : Inv value n c) (hm : n ≤ m) :
    Inv value m c := by
  cases c with
  | none => trivial
  | some c => exact ⟨h.1, h.2.1, fun k st hk => (h.2.2 k st hk).trans hm⟩

theorem usage_isCached {c : WCache W} {n : Nat} (h : ∀ k st, AMap.get? c.map k = some st → st.usage ≤ n)
    (k : W × ℝ × Nat) : ∀ k' st, AMap.get? (Cache.isCached c k).1.map k' = some st → st.usage ≤ n := by
  intro k' st hk
  rw [Cache.isCached_map, AMap.get?_touch] at hk
  cases hg : AMap.get? c.map k' with
  | some st' =>
    simp only [hg, Option.some.injEq] at hk
    exact hk ▸ h k' st' hg
  | none =>
    by_cases hkk : k = k'
    · simp [hg, hkk] at hk
      rw [← hk]
      simp [Cache.Stored.empty]
    · simp [hg, hkk] at hk

theorem inv_isCached {value : W → ℝ → ℂ} {n : Nat} {c : WCache W} (h : Inv value n (some c)) (k : W × ℝ × Nat) :
    Inv value n (some (Cache.isCached c k).1) :=
  ⟨Cache.WF_step h.1 (.isCached k), fun w s N v hv => h.2.1 w s N v (by rwa [Cache.absV_isCached] at hv),
    usage_isCached h.2.2 k⟩

theorem inv_get {value : W → ℝ → ℂ} {n : Nat} {c : WCache W} (h : Inv value n (some c)) (k : W × ℝ × Nat) :
    Inv value (n + 1) (some (Cache.get c k).1) := by
  refine ⟨Cache.WF_step h.1 (.get k), fun w s N v hv => h.2.1 w s N v (by rwa [Cache.absV_get] at hv), ?_⟩
  have ht := usage_isCached h.2.2 k
  rw [Cache.isCached_map] at ht
  simp only [Cache.get, Cache.touch_get]
  intro k' st hk
  split at hk
  · split at hk
    · simp only [AMap.get?_set] at hk
      split at hk
      · simp only [Option.some.injEq] at hk
        rw [← hk]
        have := ht k _ (Cache.touch_get c k)
        simp only
        omega
      · exact (ht k' st hk).trans (Nat.le_succ n)
    · exact (ht k' st hk).trans (Nat.le_succ n)
  · exact (ht k' st hk).trans (Nat.le_succ n)

theorem get_not_ub {n : Nat} {c : WCache W} (h : ∀ k st, AMap.get? c.map k = some st → st.usage ≤ n)
    (hn : n < 2147483647) (k : W × ℝ × Nat) : (Cache.get c k).2 ≠ .ub := by
  simp only [Cache.get, Cache.touch_get]
  split
  · rw [if_pos]
    · simp
    · cases hg : AMap.get? c.map k with
      | some st => simpa using lt_of_le_of_lt (h k st hg) hn
      | none => simp [Cache.Stored.empty]
  · simp

theorem usage_clear {c : WCache W} {n : Nat} (hw : Cache.WF c)
    (h : ∀ k st, AMap.get? c.map k = some st → st.usage ≤ n) :
    ∀ k st, AMap.get? (Cache.clearUpToLimit c).1.map k = some st → st.usage ≤ n := by
  intro k st hk
  have : (Cache.clearUpToLimit c).1 = c ∨ (Cache.clearUpToLimit c).1 = Cache.clearUnused c 1 := by
    unfold Cache.clearUpToLimit
    dsimp only
    by_cases he : c.exceeded = true
    · right
      simp only [he, if_true]
      split <;> rfl
    · left
      simp [he]
  rcases this with h1 | h1
  · rw [h1] at hk
    exact h k st hk
  · rw [h1] at hk
    unfold Cache.clearUnused at hk
    exact h k st ((AMap.get?_filter hw _ k st).1 hk).1

theorem inv_add {value : W → ℝ → ℂ} {n : Nat} {c : WCache W} (h : Inv value n (some c)) (w : W) (s : ℝ) (N : Nat) :
    Inv value n (some (Cache.add c (w, s, N) (samples (value w) s N)).1) := by
  refine ⟨Cache.WF_step h.1 (.add _ _), fun w' s' N' v hv => ?_, ?_⟩
  · rcases Cache.absV_add h.1 (w, s, N) (w', s', N') (samples (value w) s N) with ⟨-, h2, h3⟩ | ⟨-, h2⟩
    · rw [h3] at hv
      simp only [Prod.mk.injEq] at h2
      obtain ⟨rfl, rfl, rfl⟩ := h2
      exact (Option.some.inj hv).symm
    · rcases h2 with h2 | h2
      · rw [h2] at hv
        exact h.2.1 w' s' N' v hv
      · rw [h2] at hv
        cases hv
  · intro k st hk
    simp only [Cache.add] at hk
    split at hk
    · simp only [AMap.get?_set] at hk
      split at hk
      · simp only [Option.some.injEq] at hk
        rw [← hk]
        simp [Cache.Stored.of]
      · exact usage_clear h.1 h.2.2 k st hk
    · exact usage_clear h.1 h.2.2 k st hk

theorem getSamples_spec {value : W → ℝ → ℂ} {n : Nat} {cache : Option (WCache W)} (h : Inv value n cache)
    (hn : n < 2147483647) (w : W) (s : ℝ) (N : Nat) :
    ∃ c r, getSamples value cache w s N = (c, r) ∧ Inv value (n + 1) c ∧ c.isSome = cache.isSome ∧
      (r = .ok (samples (value w) s N) ∨ (cache.isSome = true ∧ r = .throw "cache")) := by
  cases cache with
  | none => exact ⟨_, _, rfl, trivial, rfl, Or.inl rfl⟩
  | some c =>
    unfold getSamples
    simp only [Cache.step]
    have ho := Cache.isCached_out c (w, s, N)
    have h1 := inv_isCached h (w, s, N)
    cases hv : Cache.absV c (w, s, N) with
    | some v =>
      rw [hv] at ho
      simp only [Option.isSome_some] at ho
      rw [ho]
      simp only
      have hg := Cache.get_out (Cache.isCached c (w, s, N)).1 (w, s, N)
      have hnub := get_not_ub h1.2.2 hn (w, s, N)
      rcases hg with ⟨h2, -⟩ | ⟨v', h2, h3⟩ | ⟨h2, -⟩
      · exact absurd h2 hnub
      · rw [h3]
        simp only
        refine ⟨_, _, rfl, inv_get h1 _, rfl, Or.inl ?_⟩
        rw [h1.2.1 w s N v' h2]
      · rw [Cache.absV_isCached, hv] at h2
        cases h2
    | none =>
      rw [hv] at ho
      simp only [Option.isSome_none] at ho
      rw [ho]
      simp only
      have h2 := inv_add h1 w s N
      have hadd : (Cache.add (Cache.isCached c (w, s, N)).1 (w, s, N) (samples (value w) s N)).2 = .done ∨
          (Cache.add (Cache.isCached c (w, s, N)).1 (w, s, N) (samples (value w) s N)).2 = .threw := by
        simp only [Cache.add]
        split <;> simp
      rcases hadd with h3 | h3
      · rw [h3]
        exact ⟨_, _, rfl, h2.mono (by omega), rfl, Or.inl rfl⟩
      · rw [h3]
        exact ⟨_, _, rfl, h2.mono (by omega), rfl, Or.inr ⟨rfl, rfl⟩⟩

/-- The outcome of one scale without a cache. -/
noncomputable def plainOne (value : W → ℝ → ℂ) (F : Transform) (x : List ℂ) (w : W) (s : ℝ) : Res (List ℂ) :=
  (oneScale value F none x w s).2

theorem oneScale_spec {value : W → ℝ → ℂ} {n : Nat} {cache : Option (WCache W)} (h : Inv value n cache)
    (hn : n < 2147483647) (F : Transform) (x : List ℂ) (w : W) (s : ℝ) :
    ∃ c r, oneScale value F cache x w s = (c, r) ∧ Inv value (n + 1) c ∧ c.isSome = cache.isSome ∧
      (r = plainOne value F x w s ∨ (cache.isSome = true ∧ r = .throw "cache")) := by
  unfold plainOne oneScale
  by_cases hs : s ≤ 0
  · simp only [hs, if_true]
    exact ⟨_, _, rfl, h.mono (by omega), rfl, Or.inl rfl⟩
  · simp only [hs, if_false]
    obtain ⟨c, r, h1, h2, h3, h4⟩ := getSamples_spec h hn w s x.length
    rw [h1]
    rcases h4 with rfl | ⟨h4, rfl⟩
    · exact ⟨_, _, rfl, h2, h3, Or.inl rfl⟩
    · exact ⟨_, _, rfl, h2, h3, Or.inr ⟨h4, rfl⟩⟩

theorem scaleLoop_spec {value : W → ℝ → ℂ} {n : Nat} {cache : Option (WCache W)} (h : Inv value n cache)
    (F : Transform) (x : List ℂ) (w : W) (scales : List ℝ) (hn : n + scales.length ≤ 2147483647) :
    ∃ c r, scaleLoop value F x w cache scales = (c, r) ∧ Inv value (n + scales.length) c ∧ c.isSome = cache.isSome ∧
      (r = (scaleLoop value F x w none scales).2 ∨ (cache.isSome = true ∧ r = .throw "cache")) := by
  induction scales generalizing n cache with
  | nil => exact ⟨_, _, rfl, h, rfl, Or.inl rfl⟩
  | cons s ss ih =>
    simp only [List.length_cons] at hn ⊢
    obtain ⟨c, r, h1, h2, h3, h4⟩ := oneScale_spec h (by omega) F x w s
    obtain ⟨c0, r0, g1, -, g3, g4⟩ := oneScale_spec (value := value) (n := 0) (cache := none) trivial (by omega) F x w s
    have hc0 : c0 = none := by cases c0 with
      | none => rfl
      | some c => simp at g3
    have hr0 : r0 = plainOne value F x w s := by
      rcases g4 with g4 | ⟨g4, -⟩
      · exact g4
      · simp at g4
    subst hc0 hr0
    unfold scaleLoop
    rw [h1, g1]
    rcases h4 with rfl | ⟨h4, rfl⟩
    · cases hp : plainOne value F x w s with
      | throw e => exact ⟨_, _, rfl, h2.mono (by omega), h3, Or.inl rfl⟩
      | ub => exact ⟨_, _, rfl, h2.mono (by omega), h3, Or.inl rfl⟩
      | ok row =>
        simp only
        obtain ⟨c2, r2, k1, k2, k3, k4⟩ := ih h2 (by omega)
        rw [k1]
        rcases k4 with k4 | ⟨k4, rfl⟩
        · refine ⟨c2, ?_⟩
          cases hq : scaleLoop value F x w none ss with
          | mk cq rq =>
            rw [hq] at k4
            simp only at k4
            subst k4
            cases r2 with
            | ok rows => exact ⟨_, rfl, k2.mono (by omega), k3.trans h3, Or.inl rfl⟩
            | throw e => exact ⟨_, rfl, k2.mono (by omega), k3.trans h3, Or.inl rfl⟩
            | ub => exact ⟨_, rfl, k2.mono (by omega), k3.trans h3, Or.inl rfl⟩
        · exact ⟨c2, _, rfl, k2.mono (by omega), k3.trans h3, Or.inr ⟨h3 ▸ k4, rfl⟩⟩
    · exact ⟨_, _, rfl, h2.mono (by omega), h3, Or.inr ⟨h4, rfl⟩⟩

/-- The outcome of one scale without a cache: an exception unless the scale is positive and the length fits. -/
theorem plainOne_eq (value : W → ℝ → ℂ) (size : Nat) (F : Transform) (hF : fastFourier true size = .ok F) (x : List ℂ)
    (w : W) (s : ℝ) :
    (0 < s ∧ x.length = size → plainOne value F x w s = .ok (convL x (samples (value w) s x.length))) ∧
    (¬ (0 < s ∧ x.length = size) → (plainOne value F x w s).threw) := by
  unfold plainOne oneScale
  constructor
  · rintro ⟨hs, hx⟩
    rw [if_neg (by linarith)]
    simp only [getSamples]
    rw [(C50_fast_fourier size F hF x _).1 ⟨hx, by simpa using hx⟩, circular_eq (by simp)]
  · intro hn
    split
    · simp
    · simp only [getSamples]
      refine (C50_fast_fourier size F hF x _).2 ?_
      rintro ⟨hx, -⟩
      exact hn ⟨by linarith, hx⟩

theorem plainLoop_ok (value : W → ℝ → ℂ) (size : Nat) (F : Transform) (hF : fastFourier true size = .ok F) (x : List ℂ)
    (w : W) (scales : List ℝ) :
    ((∀ s ∈ scales, 0 < s ∧ x.length = size) →
      (scaleLoop value F x w none scales).2 = .ok (scales.map (refRow (value w) x))) ∧
    (¬ (∀ s ∈ scales, 0 < s ∧ x.length = size) → (scaleLoop value F x w none scales).2.threw) := by
  have hnone : ∀ s, oneScale value F none x w s = (none, plainOne value F x w s) := by
    intro s
    obtain ⟨c0, r0, g1, -, g3, g4⟩ := oneScale_spec (value := value) (n := 0) (cache := none) trivial (by omega) F x w s
    rw [g1]
    rcases g4 with g4 | ⟨g4, -⟩
    · cases c0 with
      | none => rw [g4]
      | some c => simp at g3
    · simp at g4
  induction scales with
  | nil => simp [scaleLoop]
  | cons s ss ih =>
    constructor
    · intro h
      have hs := h s List.mem_cons_self
      have hss := ih.1 fun s' hs' => h s' (List.mem_cons_of_mem _ hs')
      unfold scaleLoop
      rw [hnone, (plainOne_eq value size F hF x w s).1 hs]
      simp only
      cases hq : scaleLoop value F x w none ss with
      | mk cq rq =>
        rw [hq] at hss
        simp only at hss
        rw [hss]
        simp only [List.map_cons, convL_length]
        rw [conv_samples]
    · intro h
      unfold scaleLoop
      rw [hnone]
      by_cases hs : 0 < s ∧ x.length = size
      · rw [(plainOne_eq value size F hF x w s).1 hs]
        simp only
        have hss := ih.2 fun hall => h (by
          intro s' hs'
          rcases List.mem_cons.1 hs' with rfl | hs'
          · exact hs
          · exact hall s' hs')
        cases hq : scaleLoop value F x w none ss with
        | mk cq rq =>
          rw [hq] at hss
          cases rq with
          | ok rows => simp at hss
          | throw e => simp
          | ub => simp at hss
      · have := (plainOne_eq value size F hF x w s).2 hs
        cases hp : plainOne value F x w s with
        | ok row => rw [hp] at this; simp at this
        | throw e => simp
        | ub => rw [hp] at this; simp at this

/-- One call keeps the object's transform, scales and whether it has a cache, and the cache invariant. -/
theorem call_inv (value : W → ℝ → ℂ) (t : FWT W) (n : Nat) (h : Inv value n t.cache) (c : WCall W)
    (hn : n + (t.scales.length + 1) ≤ 2147483647) :
    (t.call value c).1.transform = t.transform ∧ (t.call value c).1.scales = t.scales ∧
      (t.call value c).1.cache.isSome = t.cache.isSome ∧
      Inv value (n + (t.scales.length + 1)) (t.call value c).1.cache := by
  cases c with
  | transform x w =>
    obtain ⟨c, r, h1, h2, h3, -⟩ := scaleLoop_spec h t.transform x w t.scales (by omega)
    simp only [FWT.call, FWT.run, h1]
    exact ⟨trivial, trivial, h3, h2.mono (by omega)⟩
  | oneScale x w s =>
    obtain ⟨c, r, h1, h2, h3, -⟩ := oneScale_spec h (by omega) t.transform x w s
    simp only [FWT.call, h1]
    exact ⟨trivial, trivial, h3, h2.mono (by omega)⟩

theorem after_inv (value : W → ℝ → ℂ) (t : FWT W) (n : Nat) (h : Inv value n t.cache) (cs : List (WCall W))
    (hn : n + cs.length * (t.scales.length + 1) ≤ 2147483647) :
    (t.after value cs).transform = t.transform ∧ (t.after value cs).scales = t.scales ∧
      (t.after value cs).cache.isSome = t.cache.isSome ∧
      Inv value (n + cs.length * (t.scales.length + 1)) (t.after value cs).cache := by
  induction cs generalizing t n with
  | nil => simpa [FWT.after] using h
  | cons c cs ih =>
    simp only [List.length_cons, Nat.add_mul, Nat.one_mul] at hn ⊢
    obtain ⟨h1, h2, h3, h4⟩ := call_inv value t n h c (by omega)
    have := ih (t.call value c).1 (n + (t.scales.length + 1)) h4 (by rw [h2]; omega)
    rw [h2] at this
    simp only [FWT.after]
    refine ⟨this.1.trans h1, this.2.1, this.2.2.1.trans h3, this.2.2.2.mono (by omega)⟩

/-- The object as constructed, for either build. -/
theorem create_ok {withFftw : Bool} {scales : List ℝ} {size entryBytes : Nat} {limitMb : Rat} {t : FWT W}
    (h : FWT.create withFftw scales size entryBytes limitMb = .ok t) (value : W → ℝ → ℂ) :
    fastFourier withFftw size = .ok t.transform ∧ t.scales = scales ∧ (t.cache.isSome = true ↔ 0 < limitMb) ∧
      Inv value 0 t.cache := by
  unfold FWT.create at h
  rw [Res.bind_eq_ok] at h
  obtain ⟨F, hF, h⟩ := h
  simp only [Res.pure_eq, Res.ok.injEq] at h
  subst h
  refine ⟨hF, rfl, ?_, ?_⟩
  · simp [Cache.create]
  · simp only [Cache.create]
    split
    · refine ⟨by simp [Cache.WF, AMap.keys], ?_, ?_⟩
      · intro w s N v hv
        simp [Cache.absV] at hv
      · intro k st hk
        simp at hk
    · trivial

/-- **C53.** Take a `FastWaveletTransform` built with FFTW, any earlier calls on it (with any wavelets, signals and
scales, including calls that threw; fewer than 2^31 cache reads in total), and call `Transform`.
If it returns, the result has one row per scale and each row is the reference row — the earlier calls and the cache have no influence.
With valid arguments the only possible exception is the cache's "does not fit" exception, and never without a cache;
with a non-positive scale or a signal of another length it throws. -/
theorem C53_transform (value : W → ℝ → ℂ) (scales : List ℝ) (size entryBytes : Nat) (limitMb : Rat) (t : FWT W)
    (ht : FWT.create true scales size entryBytes limitMb = .ok t) (calls : List (WCall W))
    (hcalls : (calls.length + 1) * (scales.length + 1) ≤ 2147483647) (x : List ℂ) (w : W) :
    let outcome := ((t.after value calls).run value x w).2
    (∀ rows, outcome = .ok rows → rows = scales.map (refRow (value w) x)) ∧
    ((∀ s ∈ scales, 0 < s ∧ x.length = size) →
      outcome = .ok (scales.map (refRow (value w) x)) ∨ (0 < limitMb ∧ outcome.threw)) ∧
    (¬ (∀ s ∈ scales, 0 < s ∧ x.length = size) → outcome.threw) := by
  obtain ⟨hF, hs, hl, hinv⟩ := create_ok ht value
  simp only [Nat.add_mul, Nat.one_mul] at hcalls
  obtain ⟨h1, h2, h3, h4⟩ := after_inv value t 0 hinv calls (by rw [hs]; omega)
  obtain ⟨c, r, k1, -, -, k4⟩ := scaleLoop_spec h4 (t.after value calls).transform x w (t.after value calls).scales
    (by rw [h2, hs]; omega)
  simp only [FWT.run, k1]
  rw [h1, h2, hs, h3] at k4
  have hp := plainLoop_ok value size t.transform hF x w scales
  refine ⟨fun rows hr => ?_, fun hv => ?_, fun hv => ?_⟩
  · subst hr
    rcases k4 with k4 | ⟨-, k4⟩
    · by_cases hv : ∀ s ∈ scales, 0 < s ∧ x.length = size
      · rw [hp.1 hv] at k4
        exact Res.ok.inj k4
      · have := hp.2 hv
        rw [← k4] at this
        simp at this
    · cases k4
  · rcases k4 with k4 | ⟨g, k4⟩
    · left
      rw [k4, hp.1 hv]
    · right
      exact ⟨hl.1 g, by rw [k4]; simp⟩
  · rcases k4 with k4 | ⟨g, k4⟩
    · rw [k4]
      exact hp.2 hv
    · rw [k4]
      simp

/-- **C53 (rejected scale).** With a scale that is not positive `TransformOneScale` throws `"scale <= 0"`, whatever the history, and the
object, its cache included, is unchanged. -/
theorem C53_scale_rejected (value : W → ℝ → ℂ) (t : FWT W) (x : List ℂ) (w : W) (s : ℝ) (hs : s ≤ 0) :
    t.call value (.oneScale x w s) = (t, .throw "scale <= 0") := by
  simp [FWT.call, oneScale, hs]

/-- **C53 (one scale).** `TransformOneScale`, after any history: the row it returns is the reference row before the final
rotation by half the length. -/
theorem C53_one_scale (value : W → ℝ → ℂ) (scales : List ℝ) (size entryBytes : Nat) (limitMb : Rat) (t : FWT W)
    (ht : FWT.create true scales size entryBytes limitMb = .ok t) (calls : List (WCall W))
    (hcalls : (calls.length + 1) * (scales.length + 1) ≤ 2147483647) (x : List ℂ) (w : W) (s : ℝ) :
    let outcome := ((t.after value calls).call value (.oneScale x w s)).2
    (∀ rows, outcome = .ok rows → ∃ row, rows = [row] ∧ row.rotate (x.length / 2) = refRow (value w) x s) ∧
    (0 < s ∧ x.length = size → limitMb ≤ 0 → ∃ rows, outcome = .ok rows) ∧
    (¬ (0 < s ∧ x.length = size) → outcome.threw) := by
  obtain ⟨hF, hs, hl, hinv⟩ := create_ok ht value
  simp only [Nat.add_mul, Nat.one_mul] at hcalls
  obtain ⟨h1, h2, h3, h4⟩ := after_inv value t 0 hinv calls (by rw [hs]; omega)
  obtain ⟨c, r, k1, -, -, k4⟩ := oneScale_spec h4 (by rw [hs]; omega) (t.after value calls).transform x w s
  simp only [FWT.call, k1]
  rw [h1, h3] at k4
  have hp := plainOne_eq value size t.transform hF x w s
  refine ⟨fun rows hr => ?_, fun hv hlim => ?_, fun hv => ?_⟩
  · rw [Res.bind_eq_ok] at hr
    obtain ⟨row, rfl, hr⟩ := hr
    simp only [Res.pure_eq, Res.ok.injEq] at hr
    refine ⟨row, hr.symm, ?_⟩
    rcases k4 with k4 | ⟨-, k4⟩
    · by_cases hv : 0 < s ∧ x.length = size
      · rw [hp.1 hv] at k4
        rw [Res.ok.inj k4]
        exact conv_samples (value w) x s
      · have := hp.2 hv
        rw [← k4] at this
        simp at this
    · cases k4
  · rcases k4 with k4 | ⟨g, k4⟩
    · rw [k4, hp.1 hv]
      exact ⟨_, rfl⟩
    · exact absurd (hl.1 g) (by push Not; exact hlim)
  · have : r.threw := by
      rcases k4 with k4 | ⟨g, k4⟩
      · rw [k4]
        exact hp.2 hv
      · rw [k4]
        simp
    cases r with
    | ok a => simp at this
    | throw e => simp
    | ub => simp at this

/-- Non-vacuity: an object without cache, a previous call, and a signal of length 2 with scale 1. -/
example : ∃ t : FWT Unit, FWT.create true [1] 2 56 (-1) = .ok t ∧
    ∃ rows, ((t.after (fun _ _ => 1) [.oneScale [5, 6] () 3]).run (fun _ _ => 1) [1, 2] ()).2 = .ok rows ∧
      rows = [[3, 3]] := by
  refine ⟨_, rfl, ?_⟩
  have h := (C53_transform (W := Unit) (fun _ _ => 1) [1] 2 56 (-1) _ rfl [.oneScale [5, 6] () 3] (by norm_num)
    [1, 2] ()).2.1 (by simp)
  rcases h with h | ⟨h, -⟩
  · refine ⟨_, h, ?_⟩
    simp [refRow, List.range_succ, Finset.sum_range_succ]
    norm_num
  · norm_num at h

end K52.Dsp
