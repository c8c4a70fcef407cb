import Verif.Props.ArrParam
import Verif.Props.RoundParam

/-!
# C96: `DoubleParametersArray` in rounded arithmetic
-/

namespace K52.Nearest

/-- A representable positive number is a multiple, with at most `p` digits, of a power of two. -/
theorem repr_form {p : Nat} {y : ℚ} (hy : 0 < y) (hr : fl p y = y) :
    ∃ N : Int, y = N * 2 ^ ulpExp p y ∧ 0 < N ∧ N ≤ 2 ^ p := by
  have hu := zpow_pos two_pos (ulpExp p y)
  refine ⟨nearestInt (y / 2 ^ ulpExp p y), hr.symm, ?_, ?_⟩
  · have h1 : (0 : ℚ) < nearestInt (y / 2 ^ ulpExp p y) := by
      rw [← hr] at hy
      exact (mul_pos_iff_of_pos_right hu).1 hy
    exact_mod_cast h1
  · have h2 := (log_bounds hy).2
    have e : (nearestInt (y / 2 ^ ulpExp p y) : ℚ) * 2 ^ ulpExp p y < 2 ^ p * 2 ^ ulpExp p y := by
      have : (2 : ℚ) ^ p * 2 ^ ulpExp p y = 2 ^ (Int.log 2 y + 1) := by
        rw [← zpow_natCast, ← zpow_add₀ (by norm_num)]
        unfold ulpExp
        rw [abs_of_pos hy]
        congr 1; ring
      rw [this]
      calc _ = y := hr
        _ < _ := h2
    have := lt_of_mul_lt_mul_right e hu.le
    have h3 : (nearestInt (y / 2 ^ ulpExp p y) : ℚ) < ((2 ^ p : Int) : ℚ) := by push_cast; exact this
    exact le_of_lt (by exact_mod_cast h3)

theorem ulpExp_mono (p : Nat) {x y : ℚ} (hy : 0 < y) (h : y ≤ x) : ulpExp p y ≤ ulpExp p x := by
  unfold ulpExp
  rw [abs_of_pos hy, abs_of_pos (hy.trans_le h)]
  have := Int.log_mono_right (b := 2) hy h
  omega

/-- Sterbenz: the difference of representable numbers within a factor of two is exact. -/
theorem sterbenz {p : Nat} (hp : 1 ≤ p) {x y : ℚ} (hy : 0 < y) (h1 : y ≤ x) (h2 : x ≤ 2 * y) (hx : fl p x = x) (hy' : fl p y = y) :
    fl p (x - y) = x - y := by
  obtain ⟨N, e1, n0, n1⟩ := repr_form hy hy'
  obtain ⟨N', e2, -, -⟩ := repr_form (hy.trans_le h1) hx
  obtain ⟨t, ht⟩ := Int.eq_ofNat_of_zero_le (sub_nonneg.2 (ulpExp_mono p hy h1))
  have hu := zpow_pos two_pos (ulpExp p y)
  have ex : x = (N' * 2 ^ t : Int) * 2 ^ ulpExp p y := by
    have : ulpExp p x = t + ulpExp p y := by omega
    rw [this, zpow_add₀ (by norm_num), zpow_natCast] at e2
    rw [e2]; push_cast; ring
  have ed : x - y = (N' * 2 ^ t - N : Int) * 2 ^ ulpExp p y := by
    calc x - y = (N' * 2 ^ t : Int) * 2 ^ ulpExp p y - N * 2 ^ ulpExp p y := by rw [← ex, ← e1]
      _ = _ := by push_cast; ring
  rw [ed]
  apply fl_repr hp
  have hlo : (0 : ℚ) ≤ ((N' * 2 ^ t - N : Int) : ℚ) := by
    have : 0 ≤ ((N' * 2 ^ t - N : Int) : ℚ) * 2 ^ ulpExp p y := by rw [← ed]; linarith
    exact nonneg_of_mul_nonneg_left this hu
  have hhi : ((N' * 2 ^ t - N : Int) : ℚ) ≤ (N : ℚ) := by
    have : ((N' * 2 ^ t - N : Int) : ℚ) * 2 ^ ulpExp p y ≤ N * 2 ^ ulpExp p y := by rw [← ed, ← e1]; linarith
    exact le_of_mul_le_mul_right this hu
  have hlo' : 0 ≤ N' * 2 ^ t - N := by exact_mod_cast hlo
  have hhi' : N' * 2 ^ t - N ≤ N := by exact_mod_cast hhi
  rw [abs_of_nonneg hlo']
  omega

end K52.Nearest

namespace K52.RoundParam
open DblParam Nearest

variable {p : Nat} {hp : 1 ≤ p}

/-- If a decoded value has the last grid index, the range is exact. -/
theorem range_exact {u D S n P b m v M a F q : ℚ} (u0 : 0 < u) (u1 : u ≤ 1 / 2 ^ 34) (hD : 0 < D)
    (hF1 : F ≤ D * (1 + u)) (hF2 : D * (1 - u) ≤ F) (hS : 0 < S) (hP : P = F / S) (hn : n / S ≤ 1 - 1 / 2 ^ 30)
    (hb : b ≤ n * P * (1 + u)) (b0 : 0 ≤ b) (hM : M = m + D) (hv : v - (b + m) ≤ |b + m| * u)
    (ha : a ≤ (v - m) * (1 + u)) (hq : q * P = a) (hSq : S ≤ q * (1 + u)) :
    7 * D ≤ |m| ∧ 7 * D ≤ |M| := by
  have hF0 : 0 < F := lt_of_lt_of_le (mul_pos hD (by norm_num at u1; linarith)) hF2
  have hP0 : 0 < P := by rw [hP]; exact div_pos hF0 hS
  have hu' : u ≤ 1 / 17179869184 := by norm_num at u1 ⊢; exact u1
  -- the distance from the lower bound is nearly D
  have h1 : F ≤ a * (1 + u) := by
    have := mul_le_mul_of_nonneg_right hSq hP0.le
    have e : S * P = F := by rw [hP]; field_simp
    rw [e] at this
    calc F ≤ q * (1 + u) * P := this
      _ = q * P * (1 + u) := by ring
      _ = _ := by rw [hq]
  have h2 : D * (1 - u) ≤ (v - m) * ((1 + u) * (1 + u)) := by
    have := mul_le_mul_of_nonneg_right ha (show (0 : ℚ) ≤ 1 + u by linarith)
    linarith
  have h3 : D * (1 - 4 * u) ≤ v - m := by
    by_contra hc
    have hc' := not_le.1 hc
    have h5 : (v - m) * ((1 + u) * (1 + u)) < D * (1 - 4 * u) * ((1 + u) * (1 + u)) :=
      mul_lt_mul_of_pos_right hc' (by positivity)
    have h6 : D * (1 - 4 * u) * ((1 + u) * (1 + u)) ≤ D * (1 - u) := by
      rw [mul_assoc]
      apply mul_le_mul_of_nonneg_left _ hD.le
      nlinarith [mul_pos u0 u0, mul_pos (mul_pos u0 u0) u0]
    linarith
  -- the product is clearly below D
  have h4 : b ≤ D * ((1 - 1 / 2 ^ 30) * ((1 + u) * (1 + u))) := by
    have e : n * P = n / S * F := by rw [hP]; ring
    have : n * P ≤ (1 - 1 / 2 ^ 30) * (D * (1 + u)) := by
      rw [e]
      exact mul_le_mul hn hF1 hF0.le (by norm_num)
    have := mul_le_mul_of_nonneg_right this (show (0 : ℚ) ≤ 1 + u by linarith)
    calc b ≤ n * P * (1 + u) := hb
      _ ≤ (1 - 1 / 2 ^ 30) * (D * (1 + u)) * (1 + u) := this
      _ = _ := by ring
  have h5 : (1 - 1 / 2 ^ 30) * ((1 + u) * (1 + u)) ≤ 1 - 1 / 2 ^ 30 + 3 * u := by
    have : u * u ≤ u * (1 / 17179869184) := mul_le_mul_of_nonneg_left hu' u0.le
    norm_num
    nlinarith
  have h6 : b ≤ D * (1 - 1 / 2 ^ 30 + 3 * u) := h4.trans (mul_le_mul_of_nonneg_left h5 hD.le)
  have h7 : D * (1 / 2 ^ 30 - 7 * u) ≤ |b + m| * u := by nlinarith
  have h8 : D * (8 * u) ≤ D * (1 / 2 ^ 30 - 7 * u) := by
    apply mul_le_mul_of_nonneg_left _ hD.le
    norm_num
    linarith
  have h9 : 8 * D ≤ |b + m| := by
    have : 8 * D * u ≤ |b + m| * u := by linarith
    exact le_of_mul_le_mul_right this u0
  have hbD : b ≤ D := by
    have : D * (1 - 1 / 2 ^ 30 + 3 * u) ≤ D * 1 := by
      apply mul_le_mul_of_nonneg_left _ hD.le
      norm_num; linarith
    linarith
  have t1 : |b + m| ≤ |m| + D := (abs_add_le b m).trans (by rw [abs_of_nonneg b0]; linarith)
  have t2 : |b + m| ≤ |M| + D := by
    have : b + m = M + (b - D) := by rw [hM]; ring
    rw [this]
    refine (abs_add_le M (b - D)).trans ?_
    rw [abs_of_nonpos (show b - D ≤ 0 by linarith)]
    linarith
  constructor <;> linarith

/-- far from zero the range is exact -/
theorem range_fl (hp : 1 ≤ p) {m M : ℚ} (hm : fl p m = m) (hM : fl p M = M) (hlt : m < M) (h1 : 7 * (M - m) ≤ |m|) (h2 : 7 * (M - m) ≤ |M|) :
    fl p (M - m) = M - m := by
  rcases lt_or_ge 0 m with h | h
  · rw [abs_of_pos h] at h1
    exact sterbenz hp h hlt.le (by linarith) hM hm
  · have hM0 : M < 0 := by
      by_contra hc
      rw [abs_of_nonneg (not_lt.1 hc)] at h2
      rw [abs_of_nonpos h] at h1
      linarith
    rw [abs_of_neg hM0] at h2
    have := sterbenz hp (x := -m) (y := -M) (by linarith) (by linarith) (by linarith) (by rw [fl_neg, hm]) (by rw [fl_neg, hM])
    rw [show M - m = -m - -M by ring]
    exact this

/-- A decoded value can be set again, and then the constraints hold. -/
theorem WFr.redecode {P : DblParam (Fl (nearest p hp))} {s n} (h34 : 34 ≤ p) (w : WFr P s n) (h0 : 0 ≤ n) (hn : n < 2 ^ s)
    {v : Fl (nearest p hp)} (hv : v.val = fl p (fl p (n * P.prec.val) + P.min.val)) (h1 : P.min ≤ v) (h2 : v ≤ P.max) :
    ∃ P', P.setValue v = .ok P' ∧ P'.checkConstraints = .ok true := by
  obtain ⟨i0, i1, i2⟩ := w.idx_range (by omega) h1 h2
  obtain ⟨e, w'⟩ := w.setValue_ok (v := v) (by have := pow_le_30 w.small; omega)
  refine ⟨_, e, ?_⟩
  rcases lt_or_eq_of_le i1 with hlt | heq
  · obtain ⟨g, g1, -, g3, g4⟩ := w'.grid_mem (by omega) i0 hlt
    rw [check_of_value g1]; simp; exact ⟨g3, g4⟩
  · obtain ⟨g, g1, g2⟩ := w'.getValue (by omega) i0 i1
    simp only at g2
    have hD := sub_pos.2 (Fl.lt_iff.1 w.bounds)
    have hS : (0 : ℚ) < 2 ^ s := by positivity
    have hn0 : (0 : ℚ) ≤ n := by exact_mod_cast h0
    have hnp : 0 ≤ (n : ℚ) * P.prec.val := mul_nonneg hn0 w.prec_pos.le
    have hW : 0 ≤ v.val - P.min.val := sub_nonneg.2 (Fl.le_iff.1 h1)
    have hq0 : 0 ≤ fl p (v.val - P.min.val) / P.prec.val := div_nonneg (fl_nonneg hp hW) w.prec_pos.le
    have hfloor := Int.floor_le (fl p (fl p (v.val - P.min.val) / P.prec.val))
    rw [← i2, heq] at hfloor
    push_cast at hfloor
    have hnq : (n : ℚ) / 2 ^ s ≤ 1 - 1 / 2 ^ 30 := by
      have h3 : (n : ℚ) ≤ ((2 ^ s - 1 : Int) : ℚ) := by exact_mod_cast (show n ≤ 2 ^ s - 1 by omega)
      push_cast at h3
      have h5 : (1 : ℚ) / 2 ^ 30 ≤ 1 / 2 ^ s := one_div_le_one_div_of_le hS (pow_le_pow_right₀ (by norm_num) w.small)
      have h6 : (n : ℚ) / 2 ^ s ≤ (2 ^ s - 1) / 2 ^ s := div_le_div_of_nonneg_right h3 hS.le
      rw [sub_div, div_self hS.ne'] at h6
      linarith
    obtain ⟨k1, k2⟩ := range_exact (u := 1 / 2 ^ p) (D := P.max.val - P.min.val) (S := 2 ^ s) (n := n) (P := P.prec.val)
      (b := fl p (n * P.prec.val)) (m := P.min.val) (v := v.val) (M := P.max.val) (a := fl p (v.val - P.min.val))
      (F := fl p (P.max.val - P.min.val)) (q := fl p (v.val - P.min.val) / P.prec.val)
      (by positivity) (small_eps h34) hD (fl_le_mul hD.le) (mul_le_fl hD.le) hS w.prec hnq (fl_le_mul hnp) (fl_nonneg hp hnp)
      (by ring) (by rw [hv, mul_one_div]; exact (le_abs_self _).trans (fl_error _)) (fl_le_mul hW) (div_mul_cancel₀ _ w.prec_pos.ne')
      (hfloor.trans (fl_le_mul hq0))
    have ex := range_fl hp (Fl.fl_val P.min) (Fl.fl_val P.max) (Fl.lt_iff.1 w.bounds) k1 k2
    have hg : g.val = P.max.val := by
      rw [g2, heq, w.prec, ex]
      push_cast
      rw [mul_div_cancel₀ _ hS.ne', ex, sub_add_cancel]
      exact Fl.fl_val P.max
    rw [check_of_value g1]
    have hgm : g = P.max := Fl.ext hg
    simp [hgm, w.bounds.le]

end K52.RoundParam

namespace K52.RoundArr
open DblParam Nearest RoundParam ArrParam

variable {p : Nat} {hp : 1 ≤ p}

/-- What the constructor and the mutators of an array maintain. -/
structure WFa (a : ArrParam (Fl (nearest p hp))) (s : Nat) (n : Int) : Prop where
  sample : WFr a.sample s n
  cs : a.cs = ⟨true, s * a.values.length⟩

theorem decLoop_r {P : DblParam (Fl (nearest p hp))} {s : Nat} {n : Int} (h : WFr P s n) (vs : List (Fl (nearest p hp)))
    (outs : List (List Bool)) (hl : vs.length = outs.length) (ho : ∀ o ∈ outs, o.length = s) :
    decLoop P vs outs.flatten = (outs.map (fun o => ((bitsVal o : Int) : Fl (nearest p hp)) * P.prec + P.min), .ok ()) := by
  induction vs generalizing outs with
  | nil =>
    have : outs = [] := by simpa using hl.symm
    subst this; rfl
  | cons v vs ih =>
    cases outs with
    | nil => simp at hl
    | cons o outs =>
      have hs : P.cs.get = .ok s := by rw [h.cs]; rfl
      obtain ⟨e, w⟩ := h.setFrom o (ho o (by simp))
      have ih' := ih outs (by simpa using hl) (fun o' h' => ho o' (by simp [h']))
      unfold decLoop
      simp only [hs, List.flatten_cons, slice_append o outs.flatten s (ho o (by simp)), e, DblParam.getValue, ih']
      simp

theorem WFa.setFrom {a : ArrParam (Fl (nearest p hp))} {s : Nat} {n : Int} (h : WFa a s n) (outs : List (List Bool))
    (hl : outs.length = a.values.length) (ho : ∀ o ∈ outs, o.length = s) :
    a.setFromChromosome outs.flatten =
      ({ a with values := outs.map (fun o => ((bitsVal o : Int) : Fl (nearest p hp)) * a.sample.prec + a.sample.min) }, .ok ()) := by
  have hlen : outs.flatten.length = s * a.values.length := by
    rw [List.length_flatten, ← hl]
    have : outs.map List.length = outs.map (fun _ => s) := List.map_congr_left ho
    rw [this]; simp [mul_comm]
  unfold ArrParam.setFromChromosome
  rw [IntParam.check_ok.2 (by simp [h.cs, hlen])]
  simp only [decLoop_r h.sample a.values outs hl.symm ho]

theorem Reach.wfa (h30 : 30 ≤ p) {min max dp : Fl (nearest p hp)} {k : Nat} {a} (h : ArrParam.Reach min max dp k a) :
    ∃ s n, WFa a s n ∧ DblParam.Reach min max dp a.sample ∧ a.values.length = k := by
  induction h with
  | @new a h =>
    unfold ArrParam.new at h
    rw [Res.bind_eq_ok] at h
    obtain ⟨sm, h1, h⟩ := h
    obtain ⟨s, n, w, -⟩ := RoundParam.Reach.wfr h30 (.new h1)
    rw [w.cs] at h
    simp [ConstSize.get, ConstSize.set, ConstSize.new] at h
    subst h
    exact ⟨s, n, ⟨w, by simp⟩, .new h1, by simp⟩
  | @setValues a vs h e ih =>
    obtain ⟨s, n, h1, h2, h3⟩ := ih
    rw [setValues_fst]
    split
    · next hl => exact ⟨s, n, ⟨h1.sample, by simp [hl, h1.cs]⟩, h2, by simp [hl, h3]⟩
    · exact ⟨s, n, h1, h2, h3⟩
  | @setFrom a chr h e ih =>
    obtain ⟨s, n, h1, h2, h3⟩ := ih
    by_cases hl : chr.length = s * a.values.length
    · obtain ⟨outs, rfl, hk, ho⟩ := exists_chunks s a.values.length chr hl
      rw [h1.setFrom outs hk ho]
      exact ⟨s, n, ⟨h1.sample, by simp [hk, h1.cs]⟩, h2, by simp [hk, h3]⟩
    · have : ∃ w, a.cs.check chr.length = .throw w := by
        refine ⟨"invalid_argument", ?_⟩
        unfold ConstSize.check
        rw [h1.cs]; simp [hl]
      obtain ⟨w, hw⟩ := this
      unfold ArrParam.setFromChromosome
      rw [hw]
      exact ⟨s, n, h1, h2, h3⟩

theorem checkLoop_all {r : Rounding} (P : DblParam (Fl r)) (vs : List (Fl r))
    (h : ∀ v ∈ vs, ∃ P', P.setValue v = .ok P' ∧ P'.checkConstraints = .ok true) : checkLoop P vs = .ok true := by
  induction vs with
  | nil => rfl
  | cons v vs ih =>
    obtain ⟨P', e1, e2⟩ := h v (by simp)
    unfold checkLoop
    rw [e1, Res.ok_bind, e2, Res.ok_bind, if_pos rfl]
    exact ih fun v' h' => h v' (by simp [h'])

/-- **C96.** With at least 34 binary digits every chromosome of the right length decodes into an array whose values all lie inside the
bounds and which passes `CheckConstraints`; setting the same values again is accepted. -/
theorem C96_decode (h34 : 34 ≤ p) (min max dp : Fl (nearest p hp)) (k : Nat) (a : ArrParam (Fl (nearest p hp)))
    (ha : ArrParam.Reach min max dp k a) (chr : List Bool) (hl : a.cs.get = .ok chr.length) :
    (a.setFromChromosome chr).2 = .ok () ∧ (a.setFromChromosome chr).1.values.length = k ∧
    (∀ v ∈ (a.setFromChromosome chr).1.values, min ≤ v ∧ v ≤ max) ∧
    (a.setFromChromosome chr).1.checkConstraints = .ok true ∧
    (a.setValues (a.setFromChromosome chr).1.values).2 = .ok () := by
  obtain ⟨s, n, wa, ra, ka⟩ := Reach.wfa (by omega) ha
  obtain ⟨s', n', w, e1, e2, -⟩ := RoundParam.Reach.wfr (by omega) ra
  have hlen : chr.length = s * a.values.length := by
    rw [wa.cs] at hl; simpa [ConstSize.get] using hl.symm
  obtain ⟨outs, rfl, hk, ho⟩ := exists_chunks s a.values.length chr hlen
  have e := wa.setFrom outs hk ho
  have hmem : ∀ v ∈ outs.map (fun o => ((bitsVal o : Int) : Fl (nearest p hp)) * a.sample.prec + a.sample.min),
      a.sample.min ≤ v ∧ v ≤ a.sample.max ∧ ∃ P', a.sample.setValue v = .ok P' ∧ P'.checkConstraints = .ok true := by
    intro v hv
    rw [List.mem_map] at hv
    obtain ⟨o, oo, rfl⟩ := hv
    have hos := ho o oo
    obtain ⟨-, wo⟩ := wa.sample.setFrom o hos
    have hlt : (bitsVal o : Int) < 2 ^ s := by rw [← hos]; exact_mod_cast bitsVal_lt o
    obtain ⟨g, g1, g2, g3, g4⟩ := wo.grid_mem (by omega) (by positivity) hlt
    have hg : g = ((bitsVal o : Int) : Fl (nearest p hp)) * a.sample.prec + a.sample.min := by
      unfold DblParam.getValue at g1
      simpa using g1.symm
    rw [← hg]
    have w' : WFr a.sample s n := wa.sample
    refine ⟨g3, g4, ?_⟩
    obtain ⟨P', p1, p2⟩ := wo.redecode h34 (by positivity) hlt g2 g3 g4
    have hset : ∀ b : IntParam, (∃ c, a.sample.base = some c) →
        ∀ P', ({ a.sample with base := some b } : DblParam (Fl (nearest p hp))).setValue g = .ok P' →
          b.cs = ⟨true, s⟩ → b.min = 0 → b.max = 2 ^ s → a.sample.setValue g = .ok P' := by
      intro b _ P' hP' c1 c2 c3
      unfold DblParam.setValue at hP' ⊢
      rw [w'.base]
      simp only at hP'
      split at hP'
      · cases hP'
      · next hz =>
        rw [if_neg hz]
        rw [Res.bind_eq_ok] at hP' ⊢
        obtain ⟨m, m1, m2⟩ := hP'
        refine ⟨m, m1, ?_⟩
        rw [← m2]
        simp [IntParam.setValue, c1, c2, c3]
    exact ⟨P', hset _ ⟨_, w'.base⟩ P' p1 rfl rfl rfl, p2⟩
  have hcheck : checkLoop a.sample (outs.map (fun o => ((bitsVal o : Int) : Fl (nearest p hp)) * a.sample.prec + a.sample.min)) = .ok true :=
    checkLoop_all _ _ fun v hv => (hmem v hv).2.2
  rw [e]
  refine ⟨rfl, by simp [hk, ka], ?_, hcheck, ?_⟩
  · intro v hv
    obtain ⟨h1, h2, -⟩ := hmem v hv
    rw [e1] at h1; rw [e2] at h2
    exact ⟨h1, h2⟩
  · unfold ArrParam.setValues
    rw [if_neg (by simp [hk])]
    have : ArrParam.checkConstraints { a with values := outs.map (fun o => ((bitsVal o : Int) : Fl (nearest p hp)) * a.sample.prec + a.sample.min) } = .ok true := hcheck
    simp only [this]

/-! ### In `double` -/

theorem arr_new {s : Nat} {min max dp : Fl double} {P} (e : DblParam.new min min max dp = .ok P) (w : P.cs = ⟨true, s⟩) :
    ArrParam.new min max dp 1 = .ok ⟨⟨true, s⟩, P, [0]⟩ := by
  unfold ArrParam.new
  rw [e, Res.ok_bind, w]
  simp [ConstSize.get, ConstSize.set, ConstSize.new]

theorem encode_one {P : DblParam (Fl double)} {s : Nat} {n : Int} (w : WFr P s n) (v : Fl double) (chr out : List Bool)
    (hv : -2147483648 ≤ idx P v ∧ idx P v ≤ 2147483647) (hl : chr.length = s) (ho : out.length = s)
    (he : (bitsVal out : Int) = idx P v % 2 ^ s) : ArrParam.setChromosome ⟨⟨true, s⟩, P, [v]⟩ chr = .ok out := by
  unfold ArrParam.setChromosome
  rw [IntParam.check_ok.2 (by simp [hl])]
  simp only [Res.ok_bind]
  unfold encLoop
  rw [w.cs, show (ConstSize.get ⟨true, s⟩) = .ok s from rfl, Res.ok_bind, slice_ok (by omega), Res.ok_bind]
  obtain ⟨e, w'⟩ := w.setValue_ok (v := v) hv
  obtain ⟨o, o1, o2, o3⟩ := IntParam.setChromosome_spec (p := ⟨⟨true, s⟩, idx P v, 0, 2 ^ s⟩) rfl w.small
      (by simp only; omega) (chr.take s) (by simp; omega)
  have oe : o = out := by
    apply bitsVal_inj (by omega)
    simp only [sub_zero] at o3
    rw [← he] at o3
    exact_mod_cast o3
  simp only
  rw [e, Res.ok_bind]
  simp only [DblParam.setChromosome]
  rw [o1, Res.ok_bind]
  simp [encLoop, hl, oe]

theorem decode_one {P : DblParam (Fl double)} {s : Nat} {n : Int} (w : WFr P s n) (chr : List Bool) (hl : chr.length = s) (x : Fl double) :
    ArrParam.setFromChromosome ⟨⟨true, s⟩, P, [x]⟩ chr =
      (⟨⟨true, s⟩, P, [((bitsVal chr : Int) : Fl double) * P.prec + P.min]⟩, .ok ()) := by
  have := WFa.setFrom (a := ⟨⟨true, s⟩, P, [x]⟩) ⟨w, by simp⟩ [chr] rfl (by simpa using hl)
  simpa using this

/-- **C96.** Setting the upper bound can be rejected: an array of `double` values from -3 to 0.1 does not accept 0.1. -/
theorem C96_max_rejected : ∃ a, ArrParam.Reach (lit (-3)) (lit (1 / 10)) (lit (1 / 10)) 1 a ∧ (a.setValues [lit (1 / 10)]).2.threw := by
  obtain ⟨P, e, w, e1, e2⟩ := new_eq (s := 5) (d := lit (-3)) (min := lit (-3)) (max := lit (1 / 10)) (dp := lit (1 / 10))
    (by decide +kernel) (by decide +kernel) (by decide +kernel) (by decide +kernel) (by decide +kernel) (by decide +kernel)
    (by norm_num) (by decide +kernel)
  refine ⟨_, .new (arr_new e w.cs), ?_⟩
  have hi : idx P (lit (1 / 10)) = 32 := by
    unfold idx; rw [w.prec, e1, e2]; decide +kernel
  obtain ⟨es, ws⟩ := w.setValue_ok (v := lit (1 / 10)) (by rw [hi]; norm_num)
  rw [hi] at es ws
  obtain ⟨g, g1, g2⟩ := ws.getValue (by norm_num) (by norm_num) (by norm_num)
  simp only at g2
  rw [w.prec, e1, e2] at g2
  have hlt : P.max < g := by
    rw [Fl.lt_iff, g2, e2]; decide +kernel
  have hc := check_of_value g1
  simp only [hlt.not_ge, and_false, decide_false] at hc
  have : ArrParam.checkConstraints ⟨⟨true, 5⟩, P, [lit (1 / 10)]⟩ = .ok false := by
    unfold ArrParam.checkConstraints checkLoop
    rw [es, Res.ok_bind, hc]; simp
  unfold ArrParam.setValues
  rw [if_neg (by simp)]
  simp only [this]
  trivial

/-- **C96.** Decoding and encoding can change the chromosome of an array: one step down between 0.1 and 0.4, ... -/
theorem C96_step_lost : ∃ a, ArrParam.Reach (lit (1 / 10)) (lit (4 / 10)) (lit (1 / 10)) 1 a ∧
    ∀ any : List Bool, any.length = 2 → (a.setFromChromosome [false, true]).1.setChromosome any = .ok [true, false] := by
  obtain ⟨P, e, w, e1, e2⟩ := new_eq (s := 2) (d := lit (1 / 10)) (min := lit (1 / 10)) (max := lit (4 / 10)) (dp := lit (1 / 10))
    (by decide +kernel) (by decide +kernel) (by decide +kernel) (by decide +kernel) (by decide +kernel) (by decide +kernel)
    (by norm_num) (by decide +kernel)
  refine ⟨_, .new (arr_new e w.cs), fun any ha => ?_⟩
  rw [decode_one w [false, true] rfl]
  have hi : idx P (((bitsVal [false, true] : Int) : Fl double) * P.prec + P.min) = 1 := by
    unfold idx; rw [Fl.val_add, Fl.val_mul, w.prec, e1, e2]; decide +kernel
  exact encode_one w _ any [true, false] (by rw [hi]; norm_num) ha rfl (by rw [hi]; decide +kernel)

/-- ... and from the top of the range to the bottom between 2^52 and 2^52 + 1. -/
theorem C96_wrap_around : ∃ a, ArrParam.Reach (lit (2 ^ 52)) (lit (2 ^ 52 + 1)) (lit (1 / 4)) 1 a ∧
    ∀ any : List Bool, any.length = 2 → (a.setFromChromosome [true, true]).1.setChromosome any = .ok [false, false] := by
  obtain ⟨P, e, w, e1, e2⟩ := new_eq (s := 2) (d := lit (2 ^ 52)) (min := lit (2 ^ 52)) (max := lit (2 ^ 52 + 1)) (dp := lit (1 / 4))
    (by decide +kernel) (by decide +kernel) (by decide +kernel) (by decide +kernel) (by decide +kernel) (by decide +kernel)
    (by norm_num) (by decide +kernel)
  refine ⟨_, .new (arr_new e w.cs), fun any ha => ?_⟩
  rw [decode_one w [true, true] rfl]
  have hi : idx P (((bitsVal [true, true] : Int) : Fl double) * P.prec + P.min) = 4 := by
    unfold idx; rw [Fl.val_add, Fl.val_mul, w.prec, e1, e2]; decide +kernel
  exact encode_one w _ any [false, false] (by rw [hi]; norm_num) ha rfl (by rw [hi]; decide +kernel)

/-- The premises of `C96_decode` are met. -/
example : ∃ a, ArrParam.Reach (lit (1 / 10)) (lit (4 / 10)) (lit (1 / 10)) 1 a ∧ a.cs.get = .ok [false, true].length := by
  obtain ⟨P, e, w, e1, e2⟩ := new_eq (s := 2) (d := lit (1 / 10)) (min := lit (1 / 10)) (max := lit (4 / 10)) (dp := lit (1 / 10))
    (by decide +kernel) (by decide +kernel) (by decide +kernel) (by decide +kernel) (by decide +kernel) (by decide +kernel)
    (by norm_num) (by decide +kernel)
  exact ⟨_, .new (arr_new e w.cs), rfl⟩

end K52.RoundArr
